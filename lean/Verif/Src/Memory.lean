import Verif.Src.Run

/-!
# Facts about memory, for proofs about quoted programs

`Slice m v l`: the slice value `v` holds the elements `l` in memory `m`.
-/

namespace Verif.Src

variable {E : Type}

/-! ## Cells -/

theorem cell_put (m : Mem E) (a i b j : Nat) (v : Val E) :
    (m.put a i v).cell b j = if b = a ∧ j = i ∧ (m.cell a i).isSome then some v else m.cell b j := by
  unfold Mem.put Mem.cell
  simp only [List.getElem?_modify]
  by_cases hb : b = a
  · subst hb
    cases h : m.arrs[b]? with
    | none => simp
    | some l =>
      simp only [if_true, true_and]
      by_cases hj : j = i
      · subst hj
        by_cases hl : j < l.length
        · simp [hl]
        · simp [hl]
      · simp [hj, Ne.symm hj]
  · cases h : m.arrs[b]? with
    | none => simp [hb]
    | some l => simp [hb, Ne.symm hb]

theorem cell_put_same {m : Mem E} {a i : Nat} {w : Val E} (h : m.cell a i = some w) (v : Val E) :
    (m.put a i v).cell a i = some v := by
  simp [cell_put, h]

theorem cell_put_other {m : Mem E} {a i b j : Nat} (h : ¬ (b = a ∧ j = i)) (v : Val E) :
    (m.put a i v).cell b j = m.cell b j := by
  rw [cell_put, if_neg]
  exact fun h' => h ⟨h'.1, h'.2.1⟩

theorem put_arrs {m : Mem E} {a i b : Nat} (h : b ≠ a) (v : Val E) : (m.put a i v).arrs[b]? = m.arrs[b]? := by
  simp only [Mem.put, List.getElem?_modify]
  simp [Ne.symm h]

theorem puts_arrs {m : Mem E} {a o b : Nat} (h : b ≠ a) (vs : List (Val E)) : (m.puts a o vs).arrs[b]? = m.arrs[b]? := by
  simp only [Mem.puts, List.getElem?_modify]
  simp [Ne.symm h]

theorem alloc_arrs {m : Mem E} {b : Nat} (h : b < m.arrs.length) (l : List (Val E)) :
    (m.alloc l).arrs[b]? = m.arrs[b]? := by
  simp only [Mem.alloc]
  exact List.getElem?_append_left h

theorem alloc_new (m : Mem E) (l : List (Val E)) : (m.alloc l).arrs[m.arrs.length]? = some l := by
  simp [Mem.alloc]

theorem put_same_arr {m : Mem E} {a i : Nat} {l : List (Val E)} (h : m.arrs[a]? = some l) (v : Val E) :
    (m.put a i v).arrs[a]? = some (l.set i v) := by
  simp [Mem.put, h]

theorem puts_same_arr {m : Mem E} {a o : Nat} {l : List (Val E)} (h : m.arrs[a]? = some l) (vs : List (Val E)) :
    (m.puts a o vs).arrs[a]? = some (l.take o ++ vs ++ l.drop (o + vs.length)) := by
  simp [Mem.puts, h]

@[simp] theorem put_length (m : Mem E) (a i : Nat) (v : Val E) : (m.put a i v).arrs.length = m.arrs.length := by
  simp [Mem.put]

@[simp] theorem puts_length (m : Mem E) (a i : Nat) (v : List (Val E)) : (m.puts a i v).arrs.length = m.arrs.length := by
  simp [Mem.puts]

@[simp] theorem alloc_length (m : Mem E) (l : List (Val E)) : (m.alloc l).arrs.length = m.arrs.length + 1 := by
  simp [Mem.alloc]

theorem cell_of_arrs {m m' : Mem E} {b : Nat} (h : m'.arrs[b]? = m.arrs[b]?) (j : Nat) : m'.cell b j = m.cell b j := by
  simp [Mem.cell, h]

theorem puts_nil (m : Mem E) (a o : Nat) : m.puts a o [] = m := by
  unfold Mem.puts
  congr 1
  apply List.ext_getElem?
  intro i
  simp only [List.getElem?_modify]
  cases m.arrs[i]? <;> simp

/-- Two neighbouring writes are one. -/
theorem puts_puts (m : Mem E) (a o : Nat) (xs ys : List (Val E)) (l : List (Val E)) (h : m.arrs[a]? = some l)
    (hl : o + xs.length ≤ l.length) : (m.puts a o xs).puts a (o + xs.length) ys = m.puts a o (xs ++ ys) := by
  unfold Mem.puts
  congr 1
  apply List.ext_getElem?
  intro i
  simp only [List.getElem?_modify]
  cases hi : m.arrs[i]? with
  | none => simp
  | some l' =>
    by_cases ha : a = i
    · subst ha
      rw [h] at hi
      cases hi
      simp only [if_true, Option.map_some, Option.some.injEq, Option.map_eq_map]
      have h1 : (l.take o ++ xs).length = o + xs.length := by rw [List.length_append, List.length_take]; omega
      rw [List.take_append_of_le_length (by omega), List.take_of_length_le (by omega)]
      rw [List.drop_append, List.drop_eq_nil_of_le (by omega), h1, List.drop_drop]
      simp only [List.nil_append, List.append_assoc, List.length_append]
      congr 3
      congr 1
      omega
    · simp [ha]

/-! ## Slices of elements -/

/-- `v` is a slice that holds `l`. -/
inductive Slice (m : Mem E) : Val E → List E → Prop
  | nil : Slice m .nil []
  | some {a o c : Nat} {arr : List (Val E)} {l : List E} (h : m.arrs[a]? = some arr)
      (hl : (arr.drop o).take l.length = l.map .elem) (hc : l.length ≤ c) (hb : o + c ≤ arr.length) :
      Slice m (.slice a o l.length c) l

/-- The array of a slice is not `p`. -/
def Apart (p : Nat) (v : Val E) : Prop := ∀ a o l c, v = .slice a o l c → a ≠ p

/-- The slice is in memory that is there. -/
def Old (n : Nat) (v : Val E) : Prop := ∀ a o l c, v = .slice a o l c → a < n

/-- Cell `j` of array `q` is one of the slice `v`. -/
def In (v : Val E) (q j : Nat) : Prop := ∃ o l c, v = .slice q o l c ∧ o ≤ j ∧ j < o + l

/-- Memory after `v[i] = w`. -/
def setAt (m : Mem E) (v : Val E) (i : Nat) (w : Val E) : Mem E :=
  match v with
  | .slice a o _ _ => m.put a (o + i) w
  | _ => m

/-- `&v[i]`. -/
def ptrAt (v : Val E) (i : Nat) : Val E :=
  match v with
  | .slice a o _ _ => .ptr a (o + i) []
  | _ => .nil

namespace Slice

variable {m : Mem E} {v : Val E} {l : List E}

theorem old (h : Slice m v l) : Old m.arrs.length v := by
  intro a o k c hv
  cases h with
  | nil => cases hv
  | some h hl hc hb =>
    cases hv
    exact (List.getElem?_eq_some_iff.mp h).1

theorem shape (h : Slice m v l) : v = .nil ∨ ∃ a o k c, v = .slice a o k c := by
  cases h
  · exact Or.inl rfl
  · exact Or.inr ⟨_, _, _, _, rfl⟩

theorem len (h : Slice m v l) : Src.len m v = pure (.num .int l.length) := by
  cases h <;> rfl

theorem fetch (h : Slice m v l) : Src.fetch m v = pure v := by
  cases h <;> rfl

theorem mapOf (h : Slice m v l) : Src.mapOf v = none := by
  cases h <;> rfl

theorem fit (h : Slice m v l) (w : Val E) : Src.fit w v = v := by
  cases h <;> cases w <;> rfl

theorem coerce (h : Slice m v l) (p : Prog) (t : Ty) : Src.coerce p t v = v := by
  cases h <;> cases t <;> rfl

theorem cell {a o : Nat} {arr : List (Val E)} {l : List E} (h : m.arrs[a]? = Option.some arr)
    (hl : (arr.drop o).take l.length = l.map .elem) {i : Nat} (hi : i < l.length) :
    m.cell a (o + i) = Option.some (.elem l[i]) := by
  have := congrArg (fun l => l[i]?) hl
  simp only [List.getElem?_take, hi, if_true, List.getElem?_drop, List.getElem?_map] at this
  simp [Mem.cell, h, this, hi]

theorem index (h : Slice m v l) {i : Int} {k : Kind} (h0 : 0 ≤ i) (h1 : i.toNat < l.length) :
    Src.index m v (.num k i) = pure (.elem l[i.toNat]) := by
  cases h with
  | nil => simp at h1
  | some h hl hc hb =>
    simp only [Src.index, show 0 ≤ i ∧ i < (l.length : Int) by omega, and_self, if_true,
      cell h hl h1]

theorem index_out (h : Slice m v l) {i : Int} {k : Kind} (h0 : ¬ (0 ≤ i ∧ i.toNat < l.length)) :
    Src.index m v (.num k i) = panic "index out of range" := by
  cases h with
  | nil => rfl
  | some h hl hc hb =>
    simp only [Src.index]
    rw [if_neg (by omega)]

theorem elemAddr (h : Slice m v l) {i : Int} {k : Kind} (h0 : 0 ≤ i) (h1 : i.toNat < l.length) :
    Src.elemAddr v (.num k i) = pure (ptrAt v i.toNat) := by
  cases h with
  | nil => simp at h1
  | some h hl hc hb =>
    simp only [Src.elemAddr, show 0 ≤ i ∧ i < (l.length : Int) by omega, and_self, if_true, ptrAt]

theorem load (h : Slice m v l) {i : Nat} (h1 : i < l.length) : Src.load m (ptrAt v i) = pure (.elem l[i]) := by
  cases h with
  | nil => simp at h1
  | some h hl hc hb => simp only [Src.load, ptrAt, cell h hl h1, getPath]

theorem storeAt (h : Slice m v l) (env : Env E) {i : Nat} (h1 : i < l.length) (e : E) :
    Src.store env m (.elem e) (.ptr (ptrAt v i)) = pure (env, setAt m v i (.elem e)) := by
  cases h with
  | nil => simp at h1
  | some h hl hc hb => simp only [Src.store, ptrAt, cell h hl h1, setPath, setAt, Src.fit]

theorem store (h : Slice m v l) (env : Env E) {i : Int} {k : Kind} (h0 : 0 ≤ i) (h1 : i.toNat < l.length) (e : E) :
    Src.store env m (.elem e) (.elem v (.num k i)) = pure (env, setAt m v i.toNat (.elem e)) := by
  cases h with
  | nil => simp at h1
  | some h hl hc hb =>
    simp only [Src.store, show 0 ≤ i ∧ i < (l.length : Int) by omega, and_self, if_true,
      cell h hl h1, setAt, Src.fit]

theorem set (h : Slice m v l) {i : Nat} (h1 : i < l.length) (e : E) : Slice (setAt m v i (.elem e)) v (l.set i e) := by
  cases h with
  | nil => simp at h1
  | @some a o c arr _ h hl hc hb =>
    have : (Val.slice a o l.length c : Val E) = Val.slice a o (l.set i e).length c := by simp
    rw [this]
    refine .some (arr := arr.set (o + i) (.elem e)) (by simp only [setAt]; exact put_same_arr h _) ?_ (by simpa using hc)
      (by simpa using hb)
    rw [List.length_set, List.map_set, ← hl, List.drop_set, if_neg (by omega), List.take_set]
    congr 1
    omega

theorem setAt_arrs {m : Mem E} {v : Val E} {p i : Nat} {w : Val E} (hp : Apart p v) :
    (setAt m v i w).arrs[p]? = m.arrs[p]? := by
  unfold setAt
  split
  · exact put_arrs (Ne.symm (hp _ _ _ _ rfl)) _
  · rfl

theorem setAt_cell {m : Mem E} {v : Val E} {p j i : Nat} {w : Val E} (hp : ¬ In v p j) (h : Slice m v l) (hi : i < l.length) :
    (setAt m v i w).cell p j = m.cell p j := by
  unfold setAt
  split
  · rename_i a o k c
    apply cell_put_other
    intro ⟨h1, h2⟩
    subst h1
    cases h
    exact hp ⟨_, _, _, rfl, by omega, by omega⟩
  · rfl

/-- The array of the slice is as before. -/
theorem mono {m' : Mem E} (h : Slice m v l) (hm : ∀ a o l c, v = .slice a o l c → m'.arrs[a]? = m.arrs[a]?) :
    Slice m' v l := by
  cases h with
  | nil => exact .nil
  | some h hl hc hb => exact .some (by rw [hm _ _ _ _ rfl]; exact h) hl hc hb

theorem put {p i : Nat} {w : Val E} (h : Slice m v l) (hp : Apart p v) : Slice (m.put p i w) v l :=
  h.mono fun a o l c hv => put_arrs (hp a o l c hv) _

theorem puts {p o : Nat} {ws : List (Val E)} (h : Slice m v l) (hp : Apart p v) : Slice (m.puts p o ws) v l :=
  h.mono fun a o l c hv => puts_arrs (hp a o l c hv) _

theorem alloc {ws : List (Val E)} (h : Slice m v l) : Slice (m.alloc ws) v l :=
  h.mono fun a o l c hv => alloc_arrs (h.old a o l c hv) _

theorem values (h : Slice m v l) : Src.values m v = pure (l.map .elem) := by
  cases h with
  | nil => rfl
  | some h hl hc hb => simp only [Src.values, Mem.cells, h, hl]

theorem reslice (h : Slice m v l) {lo hi : Int} (h0 : 0 ≤ lo) (h1 : lo ≤ hi) (h2 : hi ≤ l.length) :
    ∃ w, Src.reslice v lo hi = pure w ∧ Slice m w ((l.take hi.toNat).drop lo.toNat) ∧ (∀ p, Apart p v → Apart p w) := by
  cases h with
  | nil =>
    have : lo = 0 ∧ hi = 0 := by simp at h2; omega
    refine ⟨.nil, by simp [Src.reslice, this], by simpa [this] using .nil, fun _ h => h⟩
  | @some a o c arr _ h hl hc hb =>
    have hn : ((l.take hi.toNat).drop lo.toNat).length = (hi - lo).toNat := by
      rw [List.length_drop, List.length_take]; omega
    refine ⟨.slice a (o + lo.toNat) (hi - lo).toNat (c - lo.toNat), ?_, ?_, ?_⟩
    · simp only [Src.reslice]
      rw [if_pos (by omega)]
    · rw [← hn]
      refine .some h ?_ (by rw [hn]; omega) (by omega)
      rw [List.map_drop, List.map_take, ← hl, hn, List.take_take, List.drop_take, List.drop_drop]
      congr 1
      omega
    · intro p hp a' o' l' c' hv
      cases hv
      exact hp _ _ _ _ rfl

/-- `append(v, xs...)`: a slice with the elements; only the array of `v` and a new one can change. -/
theorem append (h : Slice m v l) (X : Ctx E) (xs : List E) :
    ∃ v' m', Src.append X m v (xs.map .elem) = pure (v', m') ∧ Slice m' v' (l ++ xs) ∧ m.arrs.length ≤ m'.arrs.length ∧
      m'.maps = m.maps ∧ (∀ q, q < m.arrs.length → Apart q v → m'.arrs[q]? = m.arrs[q]? ∧ Apart q v') := by
  cases h with
  | nil =>
    by_cases hx : xs.length = 0
    · have : xs = [] := List.eq_nil_of_length_eq_zero hx
      subst this
      exact ⟨.nil, m, rfl, .nil, Nat.le_refl _, rfl, fun q _ h => ⟨rfl, h⟩⟩
    · refine ⟨.slice m.arrs.length 0 xs.length (xs.length + X.grow 0 xs.length),
        m.alloc (xs.map .elem ++ List.replicate (X.grow 0 xs.length) X.pad), ?_, ?_, ?_, ?_, ?_⟩
      · simp only [Src.append, List.length_map, hx, if_false]
      · refine .some (alloc_new _ _) ?_ (by simp) (by simp)
        simp
      · simp
      · rfl
      · intro q hq hp
        exact ⟨alloc_arrs hq _, fun a o l c hv => by cases hv; omega⟩
  | @some a o c arr _ h hl hc hb =>
    by_cases hx : l.length + xs.length ≤ c
    · refine ⟨.slice a o (l.length + xs.length) c, m.puts a (o + l.length) (xs.map .elem), ?_, ?_, ?_, ?_, ?_⟩
      · simp only [Src.append, List.length_map, hx, if_true]
      · rw [← List.length_append]
        refine .some (puts_same_arr h _) ?_ (by simpa using hx) ?_
        · have : (arr.drop o).take l.length = l.map .elem := hl
          have e : arr.take (o + l.length) = arr.take o ++ l.map .elem := by
            rw [← hl, List.take_add]
          rw [e, List.drop_append_of_le_length (by simp; omega), List.drop_append_of_le_length (by simp; omega),
            List.drop_append_of_le_length (by simp; omega), List.drop_eq_nil_of_le (by simp; omega), List.nil_append,
            List.length_append, List.map_append, List.take_append_of_le_length (by simp),
            List.take_of_length_le (by simp)]
        · simp; omega
      · simp
      · rfl
      · intro q hq hp
        exact ⟨puts_arrs (fun e => hp a o _ c rfl e.symm) _, fun a' o' l' c' hv => by cases hv; exact hp _ _ _ _ rfl⟩
    · refine ⟨.slice m.arrs.length 0 (l.length + xs.length) (l.length + xs.length + X.grow c (l.length + xs.length)),
        m.alloc (l.map .elem ++ xs.map .elem ++ List.replicate (X.grow c (l.length + xs.length)) X.pad), ?_, ?_, ?_, ?_, ?_⟩
      · simp only [Src.append, List.length_map, hx, if_false, Mem.cells, h, hl]
      · rw [← List.length_append]
        refine .some (alloc_new _ _) ?_ (by simp) (by simp; omega)
        rw [List.drop_zero, ← List.map_append, List.take_append_of_le_length (by simp), List.take_of_length_le (by simp)]
      · simp
      · rfl
      · intro q hq hp
        exact ⟨alloc_arrs hq _, fun a o l c hv => by cases hv; omega⟩

end Slice

theorem Apart.of_old {n : Nat} {v : Val E} (h : Old n v) : Apart n v :=
  fun a o l c hv => Nat.ne_of_lt (h a o l c hv)

end Verif.Src
