import Verif.Src.SortAnyEntry
import Verif.Src.SortOrderedEntry
import Verif.Sort.Props

/-!
# xsort: what the text of sort.go, sort_any.go and sort_ordered.go does

C149: the text, by the semantics of Src/Sem.lean, sorts. The statements speak of memory and of the slice argument; the order
of the elements is any function.
-/

namespace Verif.Src.Sort

open Verif.Sort (ofOps ofLess StrictWeak StrictWeakOn Ascending)

variable {E : Type} [Inhabited E]

/-- **C149.** The program is what the parser makes of the lines of the three files. -/
theorem C149_text : texts.map (fun x => (x.1, parseFn x.2)) = prog.fns.map (fun x => (x.1, some x.2)) := text

/-- From `m` to `m'` only elements of the slice `v` have changed; there may be new arrays. -/
def Only (v : Val E) (m m' : Mem E) : Prop :=
  m.arrs.length ≤ m'.arrs.length ∧ m'.maps = m.maps ∧ ∀ q j, q < m.arrs.length → ¬ In v q j → m'.cell q j = m.cell q j

omit [Inhabited E] in
theorem wr_cell {m : Mem E} {v : Val E} {d : List E} {k : Nat} (h : On m v k) (hd : d.length = k) {q j : Nat} (hin : ¬ In v q j) :
    (wr m v d).cell q j = m.cell q j := by
  cases h with
  | nil => rfl
  | @some a o _ c arr h hc hb =>
    subst hd
    by_cases hq : q = a
    · subst hq
      have e1 : (wr m (.slice q o d.length c) d).arrs[q]? = _ := puts_same_arr h (d.map .elem)
      simp only [Mem.cell, e1, h]
      have hj : j < o ∨ o + d.length ≤ j := by
        rcases Nat.lt_or_ge j o with hj | hj
        · exact .inl hj
        · rcases Nat.lt_or_ge j (o + d.length) with h' | h'
          · exact absurd ⟨o, d.length, c, rfl, hj, h'⟩ hin
          · exact .inr h'
      have ho : (List.take o arr).length = o := by rw [List.length_take]; omega
      show (List.take o arr ++ d.map .elem ++ List.drop (o + (d.map Val.elem).length) arr)[j]? = arr[j]?
      rw [List.length_map]
      rcases hj with hj | hj
      · rw [List.append_assoc, List.getElem?_append_left (by omega), List.getElem?_take_of_lt hj]
      · rw [List.getElem?_append_right (by simp; omega), List.getElem?_drop]
        congr 1
        simp
        omega
    · exact cell_of_arrs (puts_arrs hq _) j

omit [Inhabited E] in
theorem Only.of {m m' : Mem E} {v : Val E} {d : List E} (h : On m v d.length) (x : Ext m m') : Only v m (wr m' v d) := by
  have h' := h.ext x
  obtain ⟨l, rfl⟩ := x
  refine ⟨by rw [wr_length]; simp, ?_, fun q j hq hin => ?_⟩
  · unfold wr
    split <;> rfl
  · rw [wr_cell h' rfl hin]
    exact cell_of_arrs (List.getElem?_append_left hq) j

omit [Inhabited E] in
theorem ran_of {lt ge : E → E → Bool} {p : Verif.Sort.M E Unit} {d d' : List E}
    (h : Verif.Sort.contentsOf (Verif.Sort.runProg p (ofOps lt ge) () d) = .ok d') : Ran lt ge p d () d' := by
  unfold Verif.Sort.runProg at h
  split at h
  · rename_i d1 u n heq
    cases h
    exact ⟨n, heq⟩
  · cases h

omit [Inhabited E] in
theorem ofLess_ops (less : E → E → Bool) : ofLess less = ofOps less (fun x y => !less x y) := by
  funext s k x y
  cases k <;> rfl

/-! ## The text does what the model says -/

/-- **C149.** `Sort` and `Stable` of the text leave in the slice what the model of Sort/Model.lean leaves, return normally and
change nothing else. -/
theorem C149_model (lt ge less : E → E → Bool) {m : Mem E} {v : Val E} {d : List E} (h : Slice m v d) (hk : d.length < 2 ^ 60)
    (t : Nat) (ht : d.length + 8 ≤ t) :
    (∃ m' d', calls (ctx lt ge less) t "Sort" [v, .fn "less"] m = pure ([], m') ∧ Slice m' v d' ∧ Only v m m' ∧
      Verif.Sort.sort less d = .ok d') ∧
    (∃ m' d', calls (ctx lt ge less) t "SortOrdered" [v] m = pure ([], m') ∧ Slice m' v d' ∧ Only v m m' ∧
      Verif.Sort.sortOrdered lt ge d = .ok d') ∧
    (∃ m' d', calls (ctx lt ge less) t "Stable" [v, .fn "less"] m = pure ([], m') ∧ Slice m' v d' ∧ Only v m m' ∧
      Verif.Sort.stableSort less d = .ok d') ∧
    (∃ m' d', calls (ctx lt ge less) t "StableOrdered" [v] m = pure ([], m') ∧ Slice m' v d' ∧ Only v m m' ∧
      Verif.Sort.stableOrdered lt ge d = .ok d') := by
  obtain ⟨⟨d1, h1⟩, ⟨d2, h2⟩, ⟨d3, h3⟩, ⟨d4, h4⟩, -⟩ := Verif.Sort.C03_returns_normally d less lt ge
  have ho := On.of h
  have r1 : Ran less (fun x y => !less x y) Verif.Sort.sortProg d () d1 :=
    ran_of (by rw [← ofLess_ops]; exact h1)
  have r3 : Ran less (fun x y => !less x y) Verif.Sort.stableProg d () d3 :=
    ran_of (by rw [← ofLess_ops]; exact h3)
  obtain ⟨l1, m1, x1, e1⟩ := Any.sort_src lt ge t ht h hk r1
  obtain ⟨l2, m2, x2, e2⟩ := Ordered.sort_src less t ht h hk (ran_of h2)
  obtain ⟨l3, e3⟩ := Any.stableSort_src lt ge t ht h hk r3
  obtain ⟨l4, e4⟩ := Ordered.stableSort_src less t ht h hk (ran_of h4)
  exact ⟨⟨_, d1, e1, (ho.ext x1).slice l1, .of (by rw [l1]; exact ho) x1, h1⟩,
    ⟨_, d2, e2, (ho.ext x2).slice l2, .of (by rw [l2]; exact ho) x2, h2⟩,
    ⟨_, d3, e3, ho.slice l3, .of (by rw [l3]; exact ho) (.refl m), h3⟩,
    ⟨_, d4, e4, ho.slice l4, .of (by rw [l4]; exact ho) (.refl m), h4⟩⟩

/-! ## The text sorts -/

/-- **C149.** `Sort(data, less)`, for a strict weak order on the elements of the slice. -/
theorem C149_sort (lt ge less : E → E → Bool) {m : Mem E} {v : Val E} {d : List E} (h : Slice m v d) (hk : d.length < 2 ^ 60)
    (hw : StrictWeakOn d less) (t : Nat) (ht : d.length + 8 ≤ t) :
    ∃ m' d', calls (ctx lt ge less) t "Sort" [v, .fn "less"] m = pure ([], m') ∧ Slice m' v d' ∧ Only v m m' ∧
      d'.Perm d ∧ d'.Pairwise (fun x y => less y x = false) := by
  obtain ⟨⟨m', d', e1, e2, e3, e4⟩, -⟩ := C149_model lt ge less h hk t ht
  obtain ⟨⟨d1, f1, f2, f3⟩, -⟩ := Verif.Sort.C01_C05_order_on_elements less d hw
  rw [e4] at f1
  cases f1
  exact ⟨m', d', e1, e2, e3, f2, f3⟩

/-- **C149.** `Stable(data, less)`, likewise; elements that are equivalent keep their order. -/
theorem C149_stable (lt ge less : E → E → Bool) {m : Mem E} {v : Val E} {d : List E} (h : Slice m v d) (hk : d.length < 2 ^ 60)
    (hw : StrictWeakOn d less) (t : Nat) (ht : d.length + 8 ≤ t) :
    ∃ m' d', calls (ctx lt ge less) t "Stable" [v, .fn "less"] m = pure ([], m') ∧ Slice m' v d' ∧ Only v m m' ∧
      d'.Perm d ∧ d'.Pairwise (fun x y => less y x = false) ∧
      ∀ x ∈ d, (d'.filter fun y => !less x y && !less y x) = d.filter fun y => !less x y && !less y x := by
  obtain ⟨-, -, ⟨m', d', e1, e2, e3, e4⟩, -⟩ := C149_model lt ge less h hk t ht
  obtain ⟨-, d1, f1, f2, f3, f4⟩ := Verif.Sort.C01_C05_order_on_elements less d hw
  rw [e4] at f1
  cases f1
  exact ⟨m', d', e1, e2, e3, f2, f3, f4⟩

/-- **C149.** `SortOrdered` and `StableOrdered`, for elements of a linear order. -/
theorem C149_ordered [LT E] [DecidableLT E] [LE E] [DecidableLE E]
    (irrefl : ∀ x : E, ¬ x < x) (trans : ∀ x y z : E, x < y → y < z → x < z)
    (total : ∀ x y : E, x < y ∨ x = y ∨ y < x) (ge_iff : ∀ x y : E, y ≤ x ↔ ¬ x < y) (less : E → E → Bool)
    {m : Mem E} {v : Val E} {d : List E} (h : Slice m v d) (hk : d.length < 2 ^ 60) (t : Nat) (ht : d.length + 8 ≤ t)
    (f : String) (hf : f = "SortOrdered" ∨ f = "StableOrdered") :
    ∃ m' d', calls (ctx (fun x y => decide (x < y)) (fun x y => decide (x ≥ y)) less) t f [v] m = pure ([], m') ∧
      Slice m' v d' ∧ Only v m m' ∧ d'.Perm d ∧ d'.Pairwise (· ≤ ·) := by
  obtain ⟨-, ⟨m1, d1, e1, e2, e3, e4⟩, -, ⟨m2, d2, f1, f2, f3, f4⟩⟩ :=
    C149_model (fun x y => decide (x < y)) (fun x y => decide (x ≥ y)) less h hk t ht
  obtain ⟨-, -, ⟨o1, p1, p2, p3⟩, o2, q1, q2, q3⟩ := Verif.Sort.C06_ordered_variants irrefl trans total ge_iff d
  rcases hf with rfl | rfl
  · rw [e4] at p1
    cases p1
    exact ⟨m1, d1, e1, e2, e3, p2, p3⟩
  · rw [f4] at q1
    cases q1
    exact ⟨m2, d2, f1, f2, f3, q2, q3⟩

/-- **C149.** Whatever `less` answers, `Sort` and `Stable` of the text return normally, only rearrange the elements of the slice and
change nothing else. -/
theorem C149_any (lt ge less : E → E → Bool) {m : Mem E} {v : Val E} {d : List E} (h : Slice m v d) (hk : d.length < 2 ^ 60)
    (t : Nat) (ht : d.length + 8 ≤ t) (f : String) (args : List (Val E))
    (hf : (f, args) ∈ [("Sort", [v, .fn "less"]), ("Stable", [v, .fn "less"]), ("SortOrdered", [v]), ("StableOrdered", [v])]) :
    ∃ m' d', calls (ctx lt ge less) t f args m = pure ([], m') ∧ Slice m' v d' ∧ Only v m m' ∧ d'.Perm d := by
  obtain ⟨⟨m1, d1, e1, e2, e3, e4⟩, ⟨m2, d2, f1, f2, f3, f4⟩, ⟨m3, d3, g1, g2, g3, g4⟩, ⟨m4, d4, k1, k2, k3, k4⟩⟩ :=
    C149_model lt ge less h hk t ht
  simp only [List.mem_cons, Prod.mk.injEq, List.not_mem_nil, or_false] at hf
  rcases hf with ⟨rfl, rfl⟩ | ⟨rfl, rfl⟩ | ⟨rfl, rfl⟩ | ⟨rfl, rfl⟩
  · obtain ⟨o, p1, p2⟩ := (Verif.Sort.C02_sort_rearranges d).1 less
    rw [e4] at p1; cases p1
    exact ⟨m1, d1, e1, e2, e3, p2⟩
  · obtain ⟨o, p1, p2⟩ := Verif.Sort.contents_ok (adm := fun _ _ _ _ => True) (cmp := ofLess less) ()
      (fun _ _ _ _ => trivial) (Verif.Sort.stableProg_any d)
    have p1 : Verif.Sort.stableSort less d = .ok o := p1
    rw [g4] at p1; cases p1
    exact ⟨m3, d3, g1, g2, g3, p2⟩
  · obtain ⟨o, p1, p2⟩ := (Verif.Sort.C02_sort_rearranges d).2.1 lt ge
    rw [f4] at p1; cases p1
    exact ⟨m2, d2, f1, f2, f3, p2⟩
  · obtain ⟨o, p1, p2⟩ := Verif.Sort.contents_ok (adm := fun _ _ _ _ => True) (cmp := ofOps lt ge) ()
      (fun _ _ _ _ => trivial) (Verif.Sort.stableProg_any d)
    have p1 : Verif.Sort.stableOrdered lt ge d = .ok o := p1
    rw [k4] at p1; cases p1
    exact ⟨m4, d4, k1, k2, k3, p2⟩

/-! ## Cases -/

/-- Memory with an array of five numbers, the middle three of which are a slice. -/
def exMem : Mem Int := ⟨[[.elem 7, .elem 3, .elem 1, .elem 2, .elem 0]], []⟩

theorem exSlice : Slice exMem (.slice 0 1 3 4) [3, 1, 2] :=
  @Slice.some Int exMem 0 1 4 [.elem 7, .elem 3, .elem 1, .elem 2, .elem 0] [3, 1, 2] rfl rfl (by decide) (by decide)

/-- The hypotheses hold of `exMem`; and the array afterwards is the one expected. -/
example : ∃ m' d', calls (ctx (fun _ _ => false) (fun _ _ => false) (fun x y : Int => decide (x < y))) 11 "Sort"
      [.slice 0 1 3 4, .fn "less"] exMem = pure ([], m') ∧ Slice m' (.slice 0 1 3 4) d' ∧ d'.Perm [3, 1, 2] ∧
      d'.Pairwise (fun x y => decide (y < x) = false) ∧ m'.cell 0 0 = some (.elem 7) ∧ m'.cell 0 4 = some (.elem 0) := by
  obtain ⟨m', d', h1, h2, h3, h4, h5⟩ := C149_sort (fun _ _ => false) (fun _ _ => false) (fun x y : Int => decide (x < y)) exSlice (by decide)
    (by constructor <;> decide) 11 (by decide)
  refine ⟨m', d', h1, h2, h4, h5, ?_, ?_⟩
  · exact h3.2.2 0 0 (by decide) (by rintro ⟨o, l, c, e, h, h'⟩; cases e; omega)
  · exact h3.2.2 0 4 (by decide) (by rintro ⟨o, l, c, e, h, h'⟩; cases e; omega)

/-- The other three entry points, of the same slice. -/
example : ∃ m' d', calls (ctx (fun x y : Int => decide (x < y)) (fun x y => decide (x ≥ y)) (fun _ _ => true)) 11 "StableOrdered"
      [.slice 0 1 3 4] exMem = pure ([], m') ∧ Slice m' (.slice 0 1 3 4) d' ∧ Only (.slice 0 1 3 4) exMem m' ∧
      d'.Perm [3, 1, 2] ∧ d'.Pairwise (· ≤ ·) :=
  C149_ordered (by omega) (by omega) (by omega) (by omega) (fun _ _ => true) exSlice (by decide) 11 (by decide) _ (.inr rfl)

example : ∃ m' d', calls (ctx (fun _ _ => false) (fun _ _ => false) (fun x y : Int => decide (x < y))) 11 "Stable"
      [.slice 0 1 3 4, .fn "less"] exMem = pure ([], m') ∧ Slice m' (.slice 0 1 3 4) d' ∧
      Verif.Sort.stableSort (fun x y : Int => decide (x < y)) [3, 1, 2] = .ok d' ∧ d' = [1, 2, 3] := by
  obtain ⟨-, -, ⟨m', d', h1, h2, -, h4⟩, -⟩ := C149_model (fun _ _ => false) (fun _ _ => false) (fun x y : Int => decide (x < y))
    exSlice (by decide) 11 (by decide)
  refine ⟨m', d', h1, h2, h4, ?_⟩
  have : Verif.Sort.stableSort (fun x y : Int => decide (x < y)) [3, 1, 2] = .ok [1, 2, 3] := by decide +kernel
  rw [this] at h4
  cases h4
  rfl

example : ∃ m' d', calls (ctx (fun _ _ => true) (fun _ _ => true) (fun _ _ : Int => true)) 11 "Sort"
      [.slice 0 1 3 4, .fn "less"] exMem = pure ([], m') ∧ Slice m' (.slice 0 1 3 4) d' ∧ Only (.slice 0 1 3 4) exMem m' ∧
      d'.Perm [3, 1, 2] :=
  C149_any _ _ _ exSlice (by decide) 11 (by decide) _ _ (by simp)

end Verif.Src.Sort
