import Verif.Src.SliceRun

/-!
# ds/xslice: what makes slices, iterators and ranges

C151: `New`, `NewLen`, `NewLenCap`, `Of`, `OfSlice`, `Copy`, `Reversed`, the iterators and the ranges of slice.go, from the text.
-/
namespace Verif.Src.Algo
open Verif.Iter
open Verif.Src.Sort (On wr Ext wr_length wr_self)
variable {E : Type}
variable [Inhabited E] {p : Par E}

section
variable (P : Prog) (t : Ty) (v a b : Val E) (i : Int)
omit [Inhabited E]
@[go_eval] theorem coerce_it : coerce P t (itAt v i) = itAt v i := coerce_plain rfl P t
@[go_eval] theorem coerce_rev : coerce P t (itRev v i) = itRev v i := coerce_plain rfl P t
@[go_eval] theorem coerce_rangeOf : coerce P t (rangeOf a b) = rangeOf a b := coerce_plain rfl P t
end

omit [Inhabited E] in
theorem len_src {m : Mem E} {v : Val E} {d : List E} (h : Slice m v d) (t : Nat) :
    calls (ctx p) (t + 1) "Slice.Len" [v] m = pure ([.num .int d.length], m) := by
  rw [calls]
  go_run [Slice_Len_fn, h.fetch, h.coerce, h.len]

theorem slice_len {m : Mem E} {v : Val E} {d : List E} (h : Slice m v d) (t : Nat) (q : Option (Val E)) :
    callOn (ctx p) (calls (ctx p) (t + 1)) "Len" v q [] false m = pure ([.num .int d.length], m) := by
  have e := len_src (p := p) h t
  cases h <;> go_run [↓e]

theorem iteratorAt_src {m : Mem E} {v : Val E} {d : List E} (h : Slice m v d) (t : Nat) (i : Int) {k : Kind} (hk : k = .int ∨ k = .lit) :
    calls (ctx p) (t + 2) "Slice.IteratorAt" [v, .num k i] m = if 0 ≤ i ∧ i ≤ d.length then pure ([itAt v i], m) else panic "out of bound" := by
  rw [calls]
  have e := slice_len (p := p) h t
  have hc : coerce prog (.name "int" []) (.num k i : Val E) = .num .int i := by cases hk <;> subst k <;> rfl
  by_cases h0 : i < 0
  · go_run [Slice_IteratorAt_fn, h.fetch, ↓hc, h.coerce, ↓e]
  · by_cases h1 : i ≤ d.length
    · go_run [Slice_IteratorAt_fn, h.fetch, ↓hc, h.coerce, h.fit, ↓e, itAt]
    · go_run [Slice_IteratorAt_fn, h.fetch, ↓hc, h.coerce, ↓e]

theorem slice_iteratorAt {m : Mem E} {v : Val E} {d : List E} (h : Slice m v d) (t : Nat) (i : Int) (q : Option (Val E)) {k : Kind} (hk : k = .int ∨ k = .lit) :
    callOn (ctx p) (calls (ctx p) (t + 2)) "IteratorAt" v q [.num k i] false m = if 0 ≤ i ∧ i ≤ d.length then pure ([itAt v i], m) else panic "out of bound" := by
  have e := iteratorAt_src (p := p) h t i hk
  cases h <;> go_run [↓e]

theorem begin_src {m : Mem E} {v : Val E} {d : List E} (h : Slice m v d) (t : Nat) :
    calls (ctx p) (t + 3) "Slice.Begin" [v] m = pure ([itAt v 0], m) := by
  rw [calls]
  have e := fun q => slice_iteratorAt (p := p) h t 0 q (k := .lit) (.inr rfl)
  rw [if_pos (by omega)] at e
  go_run [Slice_Begin_fn, h.fetch, h.coerce, ↓e]

theorem end_src {m : Mem E} {v : Val E} {d : List E} (h : Slice m v d) (t : Nat) :
    calls (ctx p) (t + 3) "Slice.End" [v] m = pure ([itAt v d.length], m) := by
  rw [calls]
  have e := fun q => slice_iteratorAt (p := p) h t d.length q (k := .int) (.inl rfl)
  rw [if_pos (by omega)] at e
  go_run [Slice_End_fn, h.fetch, h.coerce, ↓slice_len h, ↓e]

theorem slice_begin {m : Mem E} {v : Val E} {d : List E} (h : Slice m v d) (t : Nat) (q : Option (Val E)) :
    callOn (ctx p) (calls (ctx p) (t + 3)) "Begin" v q [] false m = pure ([itAt v 0], m) := by
  have e := begin_src (p := p) h t
  cases h <;> go_run [↓e]

theorem slice_end {m : Mem E} {v : Val E} {d : List E} (h : Slice m v d) (t : Nat) (q : Option (Val E)) :
    callOn (ctx p) (calls (ctx p) (t + 3)) "End" v q [] false m = pure ([itAt v d.length], m) := by
  have e := end_src (p := p) h t
  cases h <;> go_run [↓e]

omit [Inhabited E] in
theorem rev_src {m : Mem E} {v : Val E} (t : Nat) (i : Int) :
    calls (ctx p) (t + 1) "iter.ReverseRandom" [itAt v i] m = pure ([itRev v i], m) := by
  rw [calls]
  simp only [itAt, itRev]
  go_run [ReverseRandom_fn]

theorem rbegin_src {m : Mem E} {v : Val E} {d : List E} (h : Slice m v d) (t : Nat) :
    calls (ctx p) (t + 4) "Slice.RBegin" [v] m = pure ([itRev v d.length], m) := by
  rw [calls]
  go_run [Slice_RBegin_fn, h.fetch, h.coerce, ↓slice_end h, ↓rev_src]

theorem rend_src {m : Mem E} {v : Val E} {d : List E} (h : Slice m v d) (t : Nat) :
    calls (ctx p) (t + 4) "Slice.REnd" [v] m = pure ([itRev v 0], m) := by
  rw [calls]
  go_run [Slice_REnd_fn, h.fetch, h.coerce, ↓slice_begin h, ↓rev_src]

theorem slice_rbegin {m : Mem E} {v : Val E} {d : List E} (h : Slice m v d) (t : Nat) (q : Option (Val E)) :
    callOn (ctx p) (calls (ctx p) (t + 4)) "RBegin" v q [] false m = pure ([itRev v d.length], m) := by
  have e := rbegin_src (p := p) h t
  cases h <;> go_run [↓e]

theorem slice_rend {m : Mem E} {v : Val E} {d : List E} (h : Slice m v d) (t : Nat) (q : Option (Val E)) :
    callOn (ctx p) (calls (ctx p) (t + 4)) "REnd" v q [] false m = pure ([itRev v 0], m) := by
  have e := rend_src (p := p) h t
  cases h <;> go_run [↓e]

omit [Inhabited E] in
theorem makeRange_vals {m : Mem E} {a b : Val E} (ha : plain a = true) (hb : plain b = true) (t : Nat) :
    calls (ctx p) (t + 1) "iter.MakeRange" [a, b] m = pure ([rangeOf a b], m) := by
  rw [calls]
  simp only [rangeOf]
  go_run [MakeRange_fn, fetch_plain ha, coerce_plain ha, fit_plain ha, fetch_plain hb, coerce_plain hb, fit_plain hb]

theorem range_src {m : Mem E} {v : Val E} {d : List E} (h : Slice m v d) (t : Nat) :
    calls (ctx p) (t + 4) "Slice.Range" [v] m = pure ([rangeOf (itAt v 0) (itAt v d.length)], m) := by
  rw [calls]
  have e := makeRange_vals (p := p) (m := m) (a := itAt v 0) (b := itAt v d.length) rfl rfl (t + 2)
  go_run [Slice_Range_fn, h.fetch, h.coerce, ↓slice_begin h, ↓slice_end h, ↓e]

theorem subRange_slice {m : Mem E} {v : Val E} {d : List E} (h : Slice m v d) (t : Nat) (i j : Int) :
    calls (ctx p) (t + 3) "Slice.SubRange" [v, .num .int i, .num .int j] m =
      if (0 ≤ i ∧ i ≤ d.length) ∧ 0 ≤ j ∧ j ≤ d.length then pure ([rangeOf (itAt v i) (itAt v j)], m) else panic "out of bound" := by
  rw [calls]
  have e := makeRange_vals (p := p) (m := m) (a := itAt v i) (b := itAt v j) rfl rfl (t + 1)
  have ei := fun q => slice_iteratorAt (p := p) h t i q (k := .int) (.inl rfl)
  have ej := fun q => slice_iteratorAt (p := p) h t j q (k := .int) (.inl rfl)
  by_cases hi : 0 ≤ i ∧ i ≤ d.length
  · rw [if_pos hi] at ei
    by_cases hj : 0 ≤ j ∧ j ≤ d.length
    · rw [if_pos hj] at ej
      rw [if_pos ⟨hi, hj⟩]
      go_run [Slice_SubRange_fn, h.fetch, h.coerce, ↓ei, ↓ej, ↓e]
    · rw [if_neg hj] at ej
      rw [if_neg fun h => hj h.2]
      go_run [Slice_SubRange_fn, h.fetch, h.coerce, ↓ei, ↓ej, ↓e]
  · rw [if_neg hi] at ei
    rw [if_neg fun h => hi h.1]
    go_run [Slice_SubRange_fn, h.fetch, h.coerce, ↓ei]

theorem reverseRange_slice {m : Mem E} {v : Val E} {d : List E} (h : Slice m v d) (t : Nat) :
    calls (ctx p) (t + 5) "Slice.ReverseRange" [v] m = pure ([rangeOf (itRev v d.length) (itRev v 0)], m) := by
  rw [calls]
  have e := makeRange_vals (p := p) (m := m) (a := itRev v d.length) (b := itRev v 0) rfl rfl (t + 3)
  go_run [Slice_ReverseRange_fn, h.fetch, h.coerce, ↓slice_rbegin h, ↓slice_rend h, ↓e]

/-- **C151.** The iterators and ranges of a slice are those that C150 speaks of: the ends of the walk forwards and of the walk backwards. -/
theorem C151_ranges {m : Mem E} {v : Val E} {d : List E} (h : Slice m v d) (t : Nat) (ht : 5 ≤ t) :
    calls (ctx p) t "Slice.Begin" [v] m = pure ([itAt v 0], m) ∧
    calls (ctx p) t "Slice.End" [v] m = pure ([itAt v d.length], m) ∧
    calls (ctx p) t "Slice.RBegin" [v] m = pure ([itRev v d.length], m) ∧
    calls (ctx p) t "Slice.REnd" [v] m = pure ([itRev v 0], m) ∧
    calls (ctx p) t "Slice.Range" [v] m = pure ([rangeOf (itAt v 0) (itAt v d.length)], m) ∧
    calls (ctx p) t "Slice.ReverseRange" [v] m = pure ([rangeOf (itRev v d.length) (itRev v 0)], m) ∧
    (∀ i, calls (ctx p) t "Slice.IteratorAt" [v, .num .int i] m = if 0 ≤ i ∧ i ≤ d.length then pure ([itAt v i], m) else panic "out of bound") ∧
    ∀ i j, calls (ctx p) t "Slice.SubRange" [v, .num .int i, .num .int j] m =
      if (0 ≤ i ∧ i ≤ d.length) ∧ 0 ≤ j ∧ j ≤ d.length then pure ([rangeOf (itAt v i) (itAt v j)], m) else panic "out of bound" := by
  obtain ⟨t, rfl⟩ : ∃ t', t = t' + 5 := ⟨t - 5, by omega⟩
  exact ⟨begin_src h (t + 2), end_src h (t + 2), rbegin_src h (t + 1), rend_src h (t + 1), range_src h (t + 1), reverseRange_slice h t,
    fun i => iteratorAt_src h (t + 3) i (.inl rfl), fun i j => subRange_slice h (t + 2) i j⟩

/-! ## What makes slices -/

/-- `v` is in an array that is not in `m`. -/
def Fresh (m : Mem E) (v : Val E) : Prop := ∀ q, q < m.arrs.length → Apart q v

omit [Inhabited E] in
theorem fresh_new (m : Mem E) (o k c : Nat) : Fresh m (.slice m.arrs.length o k c) := by
  intro q hq a o l c e
  cases e
  omega

/-- The call returns a slice of the elements `d` in a new array, and what there was stays. -/
def Makes (m : Mem E) (x : R (List (Val E) × Mem E)) (d : List E) : Prop :=
  ∃ v m', x = pure ([v], m') ∧ Slice m' v d ∧ Fresh m v ∧ Ext m m' 

/-- **C151.** `New` is the nil slice. -/
theorem C151_new (m : Mem E) (t : Nat) : Makes m (calls (ctx p) (t + 1) "New" [] m) [] := by
  refine ⟨.nil, m, ?_, .nil, fun q _ a o l c e => (by cases e), .refl m⟩
  go_run [calls, New_fn]

/-- **C151.** `NewLen(n)`: `n` zero values. -/
theorem C151_newLen (hz : p.zeroT = .elem default) (m : Mem E) (t : Nat) (n : Int) :
    (0 ≤ n → Makes m (calls (ctx p) (t + 1) "NewLen" [.num .int n] m) (List.replicate n.toNat default)) ∧
    (n < 0 → calls (ctx p) (t + 1) "NewLen" [.num .int n] m = panic "makeslice: len out of range") := by
  rw [calls]
  constructor
  · intro hn
    have h := slice_new m (List.replicate n.toNat (default : E)) []
    simp only [List.length_replicate, List.map_replicate, List.append_nil, List.length_nil, Nat.add_zero] at h
    refine ⟨_, _, ?_, h, fresh_new m _ _ _, .alloc _ _⟩
    go_run [NewLen_fn, makeSlice, hz]
  · intro hn
    go_run [NewLen_fn, makeSlice]

/-- **C151.** `NewLenCap(n, c)` has `c` elements, whatever `n` is (slice.go:18-20 passes the capacity for the length; C21). -/
theorem C151_newLenCap (hz : p.zeroT = .elem default) (m : Mem E) (t : Nat) (n c : Int) (hc : 0 ≤ c) :
    Makes m (calls (ctx p) (t + 1) "NewLenCap" [.num .int n, .num .int c] m) (List.replicate c.toNat default) := by
  rw [calls]
  have h := slice_new m (List.replicate c.toNat (default : E)) []
  simp only [List.length_replicate, List.map_replicate, List.append_nil, List.length_nil, Nat.add_zero] at h
  refine ⟨_, _, ?_, h, fresh_new m _ _ _, .alloc _ _⟩
  go_run [NewLenCap_fn, makeSlice, hz]

/-- **C151.** `OfSlice` is the slice itself, not a copy. -/
theorem C151_ofSlice {m : Mem E} {v : Val E} {d : List E} (h : Slice m v d) (t : Nat) :
    calls (ctx p) (t + 1) "OfSlice" [v] m = pure ([v], m) := by
  rw [calls]
  go_run [OfSlice_fn, h.fetch, h.coerce]

/-- **C151.** `Copy`. -/
theorem C151_copy {m : Mem E} {v : Val E} {d : List E} (h : Slice m v d) (t : Nat) : Makes m (calls (ctx p) (t + 1) "Copy" [v] m) d := by
  rw [calls]
  by_cases hd : d = []
  · subst hd
    refine ⟨.nil, m, ?_, .nil, fun q _ a o l c e => (by cases e), .refl m⟩
    go_run [Copy_fn, h.fetch, h.coerce, h.len, List.length_nil]
  · have hl : d.length ≠ 0 := fun e => hd (List.eq_nil_of_length_eq_zero e)
    have hl' : ((d.map .elem : List (Val E))).length ≠ 0 := by simpa using hl
    have e : Src.append (ctx p) m .nil (d.map .elem) = pure (.slice m.arrs.length 0 d.length (d.length + (ctx p).grow 0 d.length), m.alloc (d.map .elem ++ List.replicate ((ctx p).grow 0 d.length) (ctx p).pad)) := by
      simp only [Src.append, List.length_map, hl, if_false]
    have hs := slice_new m d (List.replicate ((ctx p).grow 0 d.length) (ctx p).pad)
    rw [List.length_replicate] at hs
    refine ⟨_, _, ?_, hs, fresh_new m _ _ _, .alloc _ _⟩
    go_run [Copy_fn, h.fetch, h.coerce, h.len, h.values, ↓e]

/-- **C151.** `Of(x, y, …)`. -/
theorem C151_of (m : Mem E) (xs : List E) (t : Nat) : Makes m (invoke (ctx p) (calls (ctx p) (t + 1)) "Of" (xs.map .elem) false m) xs := by
  have key : ∀ (m : Mem E) v d, Slice m v d → calls (ctx p) (t + 1) "Of" [v] m = pure ([v], m) := by
    intro m v d h
    rw [calls]
    go_run [Of_fn, h.fetch, h.coerce]
  cases xs with
  | nil => exact ⟨.nil, m, key m .nil [] .nil, .nil, fun q _ a o l c e => (by cases e), .refl m⟩
  | cons x xs =>
    have hn := slice_new m (x :: xs) []
    rw [List.append_nil] at hn
    refine ⟨_, _, ?_, hn, fresh_new m _ _ _, .alloc _ _⟩
    rw [← key _ _ _ hn]
    have hp : pack Of_fn false ((x :: xs).map .elem) m =
        ([.slice m.arrs.length 0 (x :: xs).length ((x :: xs).length + ([] : List (Val E)).length)], m.alloc ((x :: xs).map .elem)) := by
      have hv : Of_fn.variadic = true ∧ Of_fn.params.length = 1 ∧ Of_fn.recv.isSome = false := ⟨rfl, rfl, rfl⟩
      unfold pack
      simp [hv]
    simp only [invoke, ctx_prog, show prog.fns.lookup "Of" = some Of_fn from rfl, if_true, hp]

/-- An array of elements. -/
abbrev fill (m : Mem E) (e : List E) : Mem E := m.alloc (e.map .elem)

omit [Inhabited E] in
theorem fill_slice (m : Mem E) {e : List E} {n : Nat} (he : e.length = n) : Slice (fill m e) (.slice m.arrs.length 0 n n) e := by
  subst he
  have := slice_new m e []
  simpa using this

omit [Inhabited E] in
theorem fill_set (m : Mem E) {e : List E} {n : Nat} (i : Nat) (x : E) :
    setAt (fill m e) (.slice m.arrs.length 0 n n) i (.elem x) = fill m (e.set i x) := by
  simp only [setAt, fill, Mem.put, Mem.alloc, Nat.zero_add]
  rw [Verif.Src.Sort.modify_append_last, List.map_set]

/-- The rounds of `Reversed` from index `i` on. -/
theorem reversed_turns {C : Calls E} {v : Val E} {d : List E} {m : Mem E} (h : Slice m v d) (hd : (d.length : Int) < 9223372036854775808)
    (k i : Nat) (hk : i + k = d.length) (e : List E) (he : e.length = d.length) :
    turns (ctx p) C "i" "v" v d.length [.assign [.idx (.name "r") (.bin "-" (.name "last") (.name "i"))] [.name "v"]] i
        [("last", .num .int (d.length - 1)), ("r", .slice m.arrs.length 0 d.length d.length), ("s", v)] (fill m e) =
      pure (.next, [("last", .num .int (d.length - 1)), ("r", .slice m.arrs.length 0 d.length d.length), ("s", v)], fill m ((d.drop i).reverse ++ e.drop (d.length - i))) := by
  induction k generalizing i e with
  | zero =>
    rw [turns_done _ _ _ _ _ _ (by omega)]
    obtain rfl : i = d.length := by omega
    simp
  | succ k ih =>
    have hi : i < d.length := by omega
    have hs := fill_slice m he
    have e0 := hs.store [("v", .elem d[i]), ("i", .num .int i), ("last", .num .int (d.length - 1)), ("r", .slice m.arrs.length 0 d.length d.length), ("s", v)]
      (i := (d.length : Int) - 1 - i) (k := .int) (by omega) (by omega) d[i]
    rw [fill_set, show ((d.length : Int) - 1 - i).toNat = d.length - 1 - i by omega] at e0
    have hx := (h.alloc (ws := e.map .elem)).index (i := (i : Int)) (k := .int) (by omega) (by omega)
    rw [turns_next (by omega) (by decide) (w := .elem d[i]) hx (env' := [("v", .elem d[i]), ("i", .num .int i), ("last", .num .int (d.length - 1)), ("r", .slice m.arrs.length 0 d.length d.length), ("s", v)]) (m' := fill m e)
      (env2 := [("v", .elem d[i]), ("i", .num .int i), ("last", .num .int (d.length - 1)), ("r", .slice m.arrs.length 0 d.length d.length), ("s", v)]) (m2 := fill m (e.set (d.length - 1 - i) d[i]))]
    · have := ih (i + 1) (by omega) (e.set (d.length - 1 - i) d[i]) (by simpa using he)
      have e2 : leave [("last", .num .int (d.length - 1)), ("r", .slice m.arrs.length 0 d.length d.length), ("s", v)] (leave [("last", .num .int (d.length - 1)), ("r", .slice m.arrs.length 0 d.length d.length), ("s", v)] [("v", .elem d[i]), ("i", .num .int i), ("last", .num .int (d.length - 1)), ("r", .slice m.arrs.length 0 d.length d.length), ("s", v)])
          = [("last", .num .int (d.length - 1)), ("r", .slice m.arrs.length 0 d.length d.length), ("s", v)] := rfl
      rw [e2]
      rw [show ((i + 1 : Nat) : Int) = (i : Int) + 1 by omega] at this
      rw [this]
      have e3 : (d.drop (i + 1)).reverse ++ (e.set (d.length - 1 - i) d[i]).drop (d.length - (i + 1)) = (d.drop i).reverse ++ e.drop (d.length - i) := by
        rw [List.drop_eq_getElem_cons hi, List.reverse_cons, List.append_assoc, show d.length - (i + 1) = d.length - 1 - i by omega,
          List.drop_eq_getElem_cons (l := e.set (d.length - 1 - i) d[i]) (by rw [List.length_set]; omega), List.getElem_set_self, List.drop_set_of_lt (by omega), show d.length - 1 - i + 1 = d.length - i by omega]
        rfl
      rw [e3]
    · go_run []
    · go_run [e0]

/-- **C151.** `Reversed`: the elements backwards, in a new array. -/
theorem C151_reversed {m : Mem E} {v : Val E} {d : List E} (hz : p.zeroT = .elem default) (h : Slice m v d) (hd' : (d.length : Int) < 9223372036854775808) (t : Nat) :
    Makes m (calls (ctx p) (t + 1) "Slice.Reversed" [v] m) d.reverse := by
  rw [calls]
  by_cases hd : d = []
  · subst hd
    refine ⟨.nil, m, ?_, .nil, fun q _ a o l c e => (by cases e), .refl m⟩
    go_run [Slice_Reversed_fn, h.fetch, h.coerce, h.len, List.length_nil]
  · have hl : d.length ≠ 0 := fun e => hd (List.eq_nil_of_length_eq_zero e)
    refine ⟨.slice m.arrs.length 0 d.length d.length, m.alloc (d.reverse.map .elem), ?_, ?_, fresh_new m _ _ _, .alloc _ _⟩
    · have key := reversed_turns (p := p) (C := calls (ctx p) t) h hd' d.length 0 (by omega) (List.replicate d.length default) (by simp)
      simp only [List.map_replicate, fill, Nat.sub_zero, List.drop_zero, List.drop_eq_nil_of_le (Nat.le_of_eq (List.length_replicate (n := d.length) (a := (default : E)))), List.append_nil] at key
      rw [show ((0 : Nat) : Int) = 0 from rfl] at key
      go_run [Slice_Reversed_fn, h.fetch, h.coerce, ↓h.mapOf, h.len, makeSlice, hz, h.alloc.len, h.alloc.fetch, Int.toNat_natCast, ↓key]
    · have := slice_new m d.reverse []
      simpa using this

/-! ## Windows -/

/-- **C151.** `Sub`: a window of the slice. -/
theorem C151_sub {m : Mem E} {v : Val E} {d : List E} (h : Slice m v d) (t : Nat) {i j : Int} (h0 : 0 ≤ i) (h1 : i ≤ j) (h2 : j ≤ d.length) :
    ∃ w, calls (ctx p) (t + 1) "Slice.Sub" [v, .num .int i, .num .int j] m = pure ([w], m) ∧ Slice m w ((d.take j.toNat).drop i.toNat) ∧
      ∀ q k, In w q k → In v q k := by
  obtain ⟨w, e, hw, ha⟩ := h.reslice h0 h1 h2
  refine ⟨w, ?_, hw, ?_⟩
  · rw [calls]
    have hn : wholeOf v = none := by cases h <;> rfl
    go_run [Slice_Sub_fn, ↓hn, h.fetch, h.coerce, h.len, e, hw.coerce]
  · intro q k hw
    obtain ⟨o', l', c', rfl, k1, k2⟩ := hw
    cases h with
    | nil =>
      simp only [reslice] at e
      split at e <;> cases e
    | @some a o c arr _ h hl hc hb =>
      simp only [reslice] at e
      split at e
      · cases e
        exact ⟨o, d.length, c, rfl, by omega, by omega⟩
      · cases e

/-- **C151.** `Slice` is the slice itself. -/
theorem C151_slice {m : Mem E} {v : Val E} {d : List E} (h : Slice m v d) (t : Nat) : calls (ctx p) (t + 1) "Slice.Slice" [v] m = pure ([v], m) := by
  rw [calls]
  go_run [Slice_Slice_fn, h.fetch, h.coerce]

/-- **C151.** `Cap`. -/
theorem C151_cap {m : Mem E} {v : Val E} {d : List E} (h : Slice m v d) (t : Nat) :
    ∃ c : Nat, calls (ctx p) (t + 1) "Slice.Cap" [v] m = pure ([.num .int c], m) ∧ d.length ≤ c := by
  rw [calls]
  cases h with
  | nil => exact ⟨0, by go_run [Slice_Cap_fn], by simp⟩
  | @some a o c arr _ h hl hc hb => exact ⟨c, by go_run [Slice_Cap_fn], hc⟩

/-! ## `ReverseSubRange` and `Insert` -/

omit [Inhabited E] in
theorem _root_.Verif.Src.Slice.ext {m m' : Mem E} {v : Val E} {d : List E} (h : Slice m v d) (e : Ext m m') : Slice m' v d := by
  obtain ⟨l, rfl⟩ := e
  refine h.mono fun a o l' c hv => ?_
  have := h.old a o l' c hv
  simp [List.getElem?_append_left this]

section
variable {lt comp : E → E → Bool} {grow : Nat → Nat → Nat}

omit [Inhabited E] in
theorem add_rev_eq {S T J : Type} [RandIter S T J] (j : J) (i : Int) :
    add (S := S) (T := T) (⟨j⟩ : Rev J) i = match add (S := S) (T := T) j (wrap64 (-i)) with
      | .ok i => .ok ⟨i⟩
      | .error e => .error e := rfl

theorem add_rev {m : Mem E} {v : Val E} {d : List E} (h : Slice m v d) (hd : (d.length : Int) < 9223372036854775808) (t : Nat) (ht : 3 ≤ t) (i : Int) (hi : isInt64 i) (q : Option (Val E)) :
    (0 ≤ i ∧ i ≤ d.length → ∃ m', callOn (ctx (par lt comp grow)) (calls (ctx (par lt comp grow)) t) "Add" (itRev v d.length) q [.num .int i] false m =
      pure ([itRev v (d.length - i)], m') ∧ Slice m' v d ∧ Ext m m') ∧
    (¬ (0 ≤ i ∧ i ≤ d.length) → callOn (ctx (par lt comp grow)) (calls (ctx (par lt comp grow)) t) "Add" (itRev v d.length) q [.num .int i] false m =
      panic "offset out of bound") := by
  have ho := On.of h
  have H := (rev_impl (slice_impl (p := par lt comp grow) (par_same lt comp grow ho) ho hd)).add t ht ⟨Pos.mk' E d.length d.length⟩ i q d m (holds_start h) hi
  have e0 : encRev (encAt v) ⟨Pos.mk' E d.length d.length⟩ = itRev v d.length := by
    show itRev v (Pos.mk' E d.length d.length).at_ = _
    rw [Pos.mk'_at (Nat.le_refl _)]
  rw [e0] at H
  have at0 : (Pos.mk' E d.length d.length).at_ = d.length := Pos.mk'_at (Nat.le_refl _)
  unfold isInt64 at hi
  constructor
  · intro hx
    have hw : wrap64 (-i) = -i := wrap64_id (by unfold isInt64; omega)
    have ha : wrap64 ((Pos.mk' E d.length d.length).at_ + wrap64 (-i)) = d.length - i := by
      rw [at0, hw, wrap64_id (by unfold isInt64; omega)]
      omega
    have e1 : add (Pos.mk' E d.length d.length) (wrap64 (-i)) = .ok ⟨d.length - i, by omega, by omega⟩ := by
      show (if h : 0 ≤ wrap64 ((Pos.mk' E d.length d.length).at_ + wrap64 (-i)) ∧ wrap64 ((Pos.mk' E d.length d.length).at_ + wrap64 (-i)) ≤ d.length then _ else _) = _
      rw [dif_pos (by rw [ha]; omega)]
      simp only [ha]
    obtain ⟨⟨r, m'⟩, e2, e3, m1, hx, e4, -⟩ := H.ok (a := ⟨⟨d.length - i, by omega, by omega⟩⟩) (s := d) (by
      simp only [St.lift, add_rev_eq, e1])
    have hs := h.ext hx
    rw [wr_self hs] at e4
    simp only at e3 e4
    subst e3 e4
    exact ⟨m', e2, hs, hx⟩
  · intro hx
    have e1 : add (Pos.mk' E d.length d.length) (wrap64 (-i)) = .error "offset out of bound" := by
      show (if h : 0 ≤ wrap64 ((Pos.mk' E d.length d.length).at_ + wrap64 (-i)) ∧ wrap64 ((Pos.mk' E d.length d.length).at_ + wrap64 (-i)) ≤ d.length then _ else _) = _
      rw [dif_neg (by rw [at0]; unfold wrap64; omega)]
    refine H.err (s := d) ?_ (by decide)
    simp only [St.lift, add_rev_eq, e1]
/-- **C151.** `ReverseSubRange` counts from the end. -/
theorem C151_reverseSubRange {m : Mem E} {v : Val E} {d : List E} (h : Slice m v d) (hd : (d.length : Int) < 9223372036854775808) (t : Nat) (ht : 5 ≤ t)
    (i j : Int) (hi : isInt64 i) (hj : isInt64 j) :
    ((0 ≤ i ∧ i ≤ d.length) ∧ 0 ≤ j ∧ j ≤ d.length → ∃ m', calls (ctx (par lt comp grow)) t "Slice.ReverseSubRange" [v, .num .int i, .num .int j] m =
      pure ([rangeOf (itRev v (d.length - i)) (itRev v (d.length - j))], m') ∧ Slice m' v d ∧ Ext m m') ∧
    (¬ ((0 ≤ i ∧ i ≤ d.length) ∧ 0 ≤ j ∧ j ≤ d.length) → calls (ctx (par lt comp grow)) t "Slice.ReverseSubRange" [v, .num .int i, .num .int j] m =
      panic "offset out of bound") := by
  obtain ⟨t, rfl⟩ : ∃ t', t = t' + 4 + 1 := ⟨t - 5, by omega⟩
  rw [calls]
  have ei := fun q => add_rev (lt := lt) (comp := comp) (grow := grow) h hd (t + 4) (by omega) i hi q
  by_cases hi' : 0 ≤ i ∧ i ≤ d.length
  · obtain ⟨m1, e1, h1, x1⟩ := (ei none).1 hi'
    by_cases hj' : 0 ≤ j ∧ j ≤ d.length
    · obtain ⟨m2, e2, h2, x2⟩ := (add_rev (lt := lt) (comp := comp) (grow := grow) h1 hd (t + 4) (by omega) j hj none).1 hj'
      refine ⟨fun _ => ⟨m2, ?_, h2, x1.trans x2⟩, fun hx => absurd ⟨hi', hj'⟩ hx⟩
      have e := makeRange_vals (p := par lt comp grow) (m := m2) (a := itRev v (d.length - i)) (b := itRev v (d.length - j)) rfl rfl (t + 3)
      go_run [Slice_ReverseSubRange_fn, h.fetch, h.coerce, h1.fetch, h1.coerce, ↓slice_rbegin h, ↓slice_rbegin h1, ↓e1, ↓e2, ↓e]
    · refine ⟨fun hx => absurd hx.2 hj', fun _ => ?_⟩
      have e2 := (add_rev (lt := lt) (comp := comp) (grow := grow) h1 hd (t + 4) (by omega) j hj none).2 hj'
      go_run [Slice_ReverseSubRange_fn, h.fetch, h.coerce, h1.fetch, h1.coerce, ↓slice_rbegin h, ↓slice_rbegin h1, ↓e1, ↓e2]
  · refine ⟨fun hx => absurd hx.1 hi', fun _ => ?_⟩
    have e1 := (ei none).2 hi'
    go_run [Slice_ReverseSubRange_fn, h.fetch, h.coerce, ↓slice_rbegin h, ↓e1]

/-- The two slices begin at the same address (both nil, or the same cell). -/
def SameRef : Val E → Val E → Prop
  | .slice a o _ _, .slice b q _ _ => a = b ∧ o = q
  | .nil, .nil => True
  | _, _ => False

theorem check_src {m m' : Mem E} {b k : Nat} {v w : Val E} {d e : List E} (h : Var m b k v d) (hw : Slice m' w e) (t : Nat) (i : Int) :
    (SameRef v w → calls (ctx (par lt comp grow)) (t + 1) "Slice.checkIterator" [.ptr b k [], itAt w i] m = pure ([], m)) ∧
    (¬ SameRef v w → calls (ctx (par lt comp grow)) (t + 1) "Slice.checkIterator" [.ptr b k [], itAt w i] m = panic "iterator does not belongs to this slice") := by
  have key : ∃ c : Bool, (c = true ↔ SameRef v w) ∧ (par lt comp grow).ext "ReferenceEqual" [v, w] m = pure ([.bool c], m) := by
    have hv := h.holds
    cases hv with
    | nil =>
      cases hw with
      | nil => exact ⟨true, by simp [SameRef], rfl⟩
      | some => exact ⟨false, by simp [SameRef], rfl⟩
    | @some a o c _ =>
      cases hw with
      | nil => exact ⟨false, by simp [SameRef], rfl⟩
      | @some a' o' c' _ => exact ⟨decide (a = a' ∧ o = o'), by simp [SameRef], rfl⟩
  obtain ⟨c, hc, e⟩ := key
  rw [calls]
  refine ⟨fun hs => ?_, fun hs => ?_⟩
  · obtain rfl := hc.2 hs
    simp only [itAt]
    go_run [Slice_checkIterator_fn, h.load, e, Bool.not_true]
  · obtain rfl : c = false := by
      cases c
      · rfl
      · exact absurd (hc.1 rfl) hs
    simp only [itAt]
    go_run [Slice_checkIterator_fn, h.load, e, Bool.not_false]

/-- **C151.** `s.Insert(it, x)` for an iterator of the slice: as `InsertAt`, and it returns the iterator of the new slice at the place of the
new element. -/
theorem C151_insert {m m0 : Mem E} {b k : Nat} {v w : Val E} {d e : List E} (h : Var m b k v d) (hl : (d.length : Int) + 1 < 9223372036854775808) (hw : Slice m0 w e) (t : Nat) (ht : 2 ≤ t) (i : Int) (x : E) :
    (SameRef v w ∧ 0 ≤ i ∧ i ≤ d.length → ∃ v' m', callOn (ctx (par lt comp grow)) (calls (ctx (par lt comp grow)) t) "Insert" (.ptr b k []) none [itAt w i, .elem x] false m = pure ([itAt v' i], m') ∧
      Var m' b k v' (d.insertIdx i.toNat x) ∧ Writes b k v v' m m') ∧
    (SameRef v w ∧ ¬ (0 ≤ i ∧ i ≤ d.length) → callOn (ctx (par lt comp grow)) (calls (ctx (par lt comp grow)) t) "Insert" (.ptr b k []) none [itAt w i, .elem x] false m = panic "insert out of bound") ∧
    (¬ SameRef v w → callOn (ctx (par lt comp grow)) (calls (ctx (par lt comp grow)) t) "Insert" (.ptr b k []) none [itAt w i, .elem x] false m = panic "iterator does not belongs to this slice") := by
  obtain ⟨t, rfl⟩ : ∃ t', t = t' + 1 + 1 := ⟨t - 2, by omega⟩
  rw [method_calls h "Insert" _ (g := Slice_Insert_fn) rfl rfl rfl none, calls]
  obtain ⟨c1, c2⟩ := check_src (lt := lt) (comp := comp) (grow := grow) h hw t i
  have mc := method_calls (p := par lt comp grow) (C := calls (ctx (par lt comp grow)) (t + 1)) h "checkIterator" [itAt w i] (g := Slice_checkIterator_fn) rfl rfl rfl
  simp only [if_true] at mc
  have hf : field "pos" (itAt w i) = some (.num .int i) := rfl
  obtain ⟨v1, m1, ea, h1, hm, hp, ha⟩ := h.holds.append (ctx (par lt comp grow)) [x]
  have ei := insert_src t h.holds hl i x ea h1
  refine ⟨?_, ?_, ?_⟩
  · rintro ⟨hs, hi⟩
    rw [if_pos hi] at ei
    have cc := fun r => (mc r).trans (c1 hs)
    have hL : (d.insertIdx i.toNat x).length = (d ++ [x]).length := by
      rw [List.length_insertIdx_of_le_length (by omega)]
      simp
    have ho : On m1 v1 (d ++ [x]).length := .of h1
    have h2 := ho.slice hL
    obtain ⟨e1, e2, e3⟩ := h.assign (m1 := wr m1 v1 (d.insertIdx i.toNat x)) (by rw [wr_length]; exact hm) (by rw [wr_maps, hp])
      (fun q j hq _ hj => by rw [wr_cell (by rw [hL]; exact ho) hj, append_frame h.holds ea q j hq hj]) h2 (ha b h.old h.apart).2
    refine ⟨_, _, ?_, e2, e3⟩
    have mu := method_calls (p := par lt comp grow) (C := calls (ctx (par lt comp grow)) (t + 1)) e2 "uncheckedIteratorAt" [.num .int i] (g := Slice_uncheckedIteratorAt_fn) rfl rfl rfl
    have mi : calls (ctx (par lt comp grow)) (t + 1) ("Slice" ++ "." ++ "uncheckedIteratorAt") [v1, .num .int i] ((wr m1 v1 (d.insertIdx i.toNat x)).put b k v1) =
        pure ([itAt v1 i], (wr m1 v1 (d.insertIdx i.toNat x)).put b k v1) := by
      rw [calls]
      simp only [itAt]
      go_run [Slice_uncheckedIteratorAt_fn, h2.fetch, h2.coerce, h2.fit, e2.holds.fetch]
    simp only [Bool.false_eq_true, if_false, mi] at mu
    simp only [itAt] at hf cc mu ⊢
    go_run [Slice_Insert_fn, ↓cc, ↓ei, store_var e1 h.holds h2, h.load, ↓mu]
  · rintro ⟨hs, hi⟩
    rw [if_neg hi] at ei
    have cc := fun r => (mc r).trans (c1 hs)
    simp only [itAt] at hf cc ⊢
    go_run [Slice_Insert_fn, ↓cc, ↓ei, h.load]
  · intro hs
    have cc := fun r => (mc r).trans (c2 hs)
    simp only [itAt] at hf cc ⊢
    go_run [Slice_Insert_fn, ↓cc]
end

/-! ## A case -/

section

/-- The array of four elements of C150's cases, then a variable with the slice of them. -/
def exMem2 : Mem Int := exMem.alloc [exSlice]

theorem exVar : Var exMem2 1 0 exSlice [3, 1, 2, 5] :=
  ⟨rfl, Slice.alloc (forward_iff.1 exForward), fun a o l c e => by cases e; decide⟩

/-- Insertions, deletions and reads; the last call panics. -/
example : callAll exPar 2 1 0 [.insertAt 1 9, .delete 0, .last, .unorderedDelete 0, .deleteLast, .appendMany [7, 8], .first, .len, .at_ 4] exMem2 =
    some ([[], [], [.elem 5], [], [], [], [.elem 5], [.num .int 4]], .inl "index out of range") :=
  C151_history (p := exPar) exVar [.insertAt 1 9, .delete 0, .last, .unorderedDelete 0, .deleteLast, .appendMany [7, 8], .first, .len, .at_ 4] (by decide) 2 (by decide)

/-- Without it the variable holds what is left. -/
example : ∃ v m', callAll exPar 2 1 0 [.insertAt 1 9, .delete 0, .unorderedDelete 0, .deleteLast, .appendMany [7, 8]] exMem2 =
    some ([[], [], [], [], []], .inr m') ∧ Var m' 1 0 v [5, 1, 7, 8] :=
  C151_history (p := exPar) exVar [.insertAt 1 9, .delete 0, .unorderedDelete 0, .deleteLast, .appendMany [7, 8]] (by decide) 2 (by decide)

example : ∃ v' m', callOn (ctx exPar) (calls (ctx exPar) 2) "Insert" (.ptr 1 0 []) none [itAt exSlice 4, .elem 6] false exMem2 = pure ([itAt v' 4], m') ∧
    Var m' 1 0 v' [3, 1, 2, 5, 6] ∧ Writes 1 0 exSlice v' exMem2 m' :=
  (C151_insert exVar (by decide) exVar.holds 2 (by decide) 4 6).1 ⟨⟨rfl, rfl⟩, by decide⟩

example : callOn (ctx exPar) (calls (ctx exPar) 2) "Insert" (.ptr 1 0 []) none [itAt .nil 0, .elem 6] false exMem2 = panic "iterator does not belongs to this slice" :=
  (C151_insert exVar (by decide) (.nil (m := exMem)) 2 (by decide) 0 6).2.2 (by simp [exSlice, SameRef])

example : Makes exMem2 (calls (ctx exPar) 1 "Slice.Reversed" [exSlice] exMem2) [5, 2, 1, 3] := C151_reversed rfl exVar.holds (by decide) 0

example : Makes exMem2 (calls (ctx exPar) 1 "NewLenCap" [.num .int 0, .num .int 2] exMem2) [0, 0] := C151_newLenCap rfl exMem2 0 0 2 (by decide)

example : ∃ m', calls (ctx exPar) 5 "Slice.ReverseSubRange" [exSlice, .num .int 1, .num .int 4] exMem2 = pure ([rangeOf (itRev exSlice 3) (itRev exSlice 0)], m') ∧
    Slice m' exSlice [3, 1, 2, 5] ∧ Ext exMem2 m' :=
  (C151_reverseSubRange exVar.holds (by decide) 5 (by decide) 1 4 (by unfold isInt64; omega) (by unfold isInt64; omega)).1 (by decide)

example : calls (ctx exPar) 5 "Slice.SubRange" [exSlice, .num .int 1, .num .int 5] exMem2 = panic "out of bound" :=
  ((C151_ranges (p := exPar) exVar.holds 5 (by decide)).2.2.2.2.2.2.2 1 5).trans (if_neg (by decide))

end

end Verif.Src.Algo
