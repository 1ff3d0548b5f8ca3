import Verif.Src.AlgoPerm
import Verif.Src.SortBoxes
import Verif.Iter.View

/-!
# ds/xslice/iterator.go, from its text: iterators of a slice are positions of a list

`Pos T n` are the iterators of a list of `n` elements as the code defines them: what `Inc`, `Dec`, `Advance` and the indices refuse
panics. `slice_impl` says that the text of iterator.go makes them of a slice in memory.
-/

namespace Verif.Src.Algo

open Verif.Iter
open Verif.Src.Sort (On wr Ext wr_length)

/-! ## Positions -/

/-- An iterator of a list of `n` elements. -/
structure Pos (T : Type) (n : Nat) where
  at_ : Int
  ge : 0 ≤ at_
  le : at_ ≤ n

section
variable {T : Type} {n : Nat}

instance : RandIter (List T) T (Pos T n) where
  next j := if h : j.at_ < n then .ok ⟨j.at_ + 1, by have := j.ge; omega, by omega⟩ else .error "increment out of bound"
  prev j := if h : 0 < j.at_ then .ok ⟨j.at_ - 1, by omega, by have := j.le; omega⟩ else .error "decrement out of bound"
  add j d := if h : 0 ≤ wrap64 (j.at_ + d) ∧ wrap64 (j.at_ + d) ≤ n then .ok ⟨wrap64 (j.at_ + d), h.1, h.2⟩
    else .error "offset out of bound"
  pos j := j.at_
  get j := fun l => match l[j.at_.toNat]? with
    | some x => (.ok x, l)
    | none => (.error "index out of range", l)
  set j x := fun l => if j.at_.toNat < l.length then (.ok (), l.set j.at_.toNat x) else (.error "index out of range", l)
  equal j k := .ok (decide (k.at_ = j.at_))

/-- The position `i`, or the end. -/
def Pos.mk' (T : Type) (n i : Nat) : Pos T n := ⟨(min i n : Nat), by omega, by omega⟩

theorem Pos.mk'_at {i : Nat} (h : i ≤ n) : (Pos.mk' T n i).at_ = i := by
  show ((min i n : Nat) : Int) = i
  rw [Nat.min_eq_left h]

/-- Lists of `n` elements with their positions. -/
def listView (T : Type) (n : Nat) (hn : (n : Int) < 9223372036854775808) : View (List T) T (Pos T n) where
  n := n
  pt := Pos.mk' T n
  ok l := l.length = n
  elems l := l
  put _ l := l
  hn := hn
  len _ h := h
  elems_put _ _ _ _ := rfl
  ok_put _ _ _ h := h
  put_put _ _ _ _ _ _ := rfl
  put_elems _ _ := rfl
  next_pt i hi := by
    show (if h : (Pos.mk' T n i).at_ < n then _ else _) = _
    have e := Pos.mk'_at (T := T) (n := n) (Nat.le_of_lt hi)
    rw [dif_pos (by omega)]
    congr 1
    have e' := Pos.mk'_at (T := T) (n := n) (i := i + 1) hi
    cases h : Pos.mk' T n (i + 1) with
    | mk a _ _ =>
      rw [h] at e'
      congr 1
      rw [e]
      simp only at e'
      omega
  prev_pt i hi := by
    show (if h : 0 < (Pos.mk' T n (i + 1)).at_ then _ else _) = _
    have e := Pos.mk'_at (T := T) (n := n) (i := i + 1) hi
    rw [dif_pos (by omega)]
    congr 1
    have e' := Pos.mk'_at (T := T) (n := n) (Nat.le_of_lt hi)
    cases h : Pos.mk' T n i with
    | mk a _ _ =>
      rw [h] at e'
      congr 1
      rw [e]
      simp only at e'
      omega
  get_pt s i x hs hx := by
    show (match s[(Pos.mk' T n i).at_.toNat]? with | some x => _ | none => _) = _
    have hi : i < s.length := (List.getElem?_eq_some_iff.mp hx).1
    rw [Pos.mk'_at (by omega), Int.toNat_natCast, hx]
  set_pt s i x hs hi := by
    show (if (Pos.mk' T n i).at_.toNat < s.length then _ else _) = _
    rw [Pos.mk'_at (by omega), Int.toNat_natCast, if_pos (by omega)]
  equal_pt i j hi hj := by
    show Except.ok (decide ((Pos.mk' T n j).at_ = (Pos.mk' T n i).at_)) = _
    rw [Pos.mk'_at hi, Pos.mk'_at hj]
    congr 1
    exact decide_eq_decide.2 (by omega)
  add_pt i j hi hj := by
    have e : wrap64 ((Pos.mk' T n i).at_ + ((j : Int) - i)) = j := by
      rw [Pos.mk'_at hi, wrap64_id (by unfold isInt64; omega)]
      omega
    show (if h : 0 ≤ wrap64 ((Pos.mk' T n i).at_ + ((j : Int) - i)) ∧ wrap64 ((Pos.mk' T n i).at_ + ((j : Int) - i)) ≤ n then _ else _) = _
    rw [dif_pos (by rw [e]; omega)]
    congr 1
    have e' := Pos.mk'_at (T := T) hj
    cases h : Pos.mk' T n j with
    | mk a _ _ =>
      rw [h] at e'
      congr 1
      rw [e]
      exact e'.symm
  pos_pt i j hi hj := by
    show (Pos.mk' T n j).at_ - (Pos.mk' T n i).at_ = _
    rw [Pos.mk'_at hi, Pos.mk'_at hj]
  pos_int i hi := by
    show isInt64 (Pos.mk' T n i).at_ ∧ _ < (Pos.mk' T n i).at_
    rw [Pos.mk'_at hi]
    unfold isInt64
    omega
end

/-! ## The text -/

section
variable {E : Type} [Inhabited E] {n : Nat}

/-- An iterator value at index `i` of the slice `v`. -/
def itAt (v : Val E) (i : Int) : Val E := .struct "Iterator" [("pos", .num .int i), ("s", v)]

def encAt (v : Val E) (j : Pos E n) : Val E := itAt v j.at_

/-- The memory is `m` with `l` in the slice `v`, and further arrays. -/
def Holds (m : Mem E) (v : Val E) (n : Nat) (l : List E) (m' : Mem E) : Prop := ∃ m1, Ext m m1 ∧ m' = wr m1 v l ∧ l.length = n

section
variable {E : Type} (m : Mem E) (x y z : Val E)
theorem cell_new : (m.alloc [x]).cell m.arrs.length 0 = some x := by simp [Mem.cell, Mem.alloc]
theorem cell_new2 : ((m.alloc [x]).alloc [y]).cell (m.arrs.length + 1) 0 = some y := by
  simp [Mem.cell, Mem.alloc]
theorem cell_old : ((m.alloc [x]).alloc [y]).cell m.arrs.length 0 = some x := by simp [Mem.cell, Mem.alloc]
theorem put_old : ((m.alloc [x]).alloc [y]).put m.arrs.length 0 z = (m.alloc [z]).alloc [y] := by
  simp only [Mem.put, Mem.alloc]
  congr 1
  rw [Verif.Src.Sort.modify_append_lt _ _ (by simp), Verif.Src.Sort.modify_append_last]
  rfl
end

/-- The text of ds/xslice/iterator.go makes iterators of a slice in memory. -/
theorem slice_impl {p : Par E} {v : Val E} (hr : ∀ m, p.ext "ReferenceEqual" [v, v] m = pure ([.bool true], m)) {m0 : Mem E}
    (hv : On m0 v n) (hn : (n : Int) < 9223372036854775808) :
    RandImpl (J := Pos E n) (ctx p) (Holds m0 v n) .elem 2 (encAt v) where
  plain _ := rfl
  vals _ := rfl
  next := by
    rintro k hk j q s _ ⟨m, hx, rfl, hs⟩
    obtain ⟨k, rfl⟩ : ∃ n', k = n' + 1 + 1 := ⟨k - 2, by omega⟩
    have ho := hv.ext hx
    have h0 := j.ge
    have h1 := j.le
    by_cases hj : j.at_ < n
    · have e : (St.lift (next j) : St (List E) (Pos E n)) s = (.ok ⟨j.at_ + 1, by omega, by omega⟩, s) := by
        show ((if h : j.at_ < n then _ else _ : Go (Pos E n)), s) = _
        rw [dif_pos hj]
      rw [e]
      refine ⟨([itAt v (j.at_ + 1)], ((wr m v s).alloc [itAt v (j.at_ + 1)]).alloc [.ptr (wr m v s).arrs.length 0 []]), ?_, rfl, _, (hx.trans (.alloc _ _)).trans (.alloc _ _), by rw [ho.wr_alloc, (ho.alloc _).wr_alloc], hs⟩
      simp only [encAt, itAt]
      go_run [calls, Iterator_Next_fn, Iterator_Inc_fn, alloc_length, cell_new, cell_new2, cell_old, put_old, ho.len]
    · have e : (St.lift (next j) : St (List E) (Pos E n)) s = (.error "increment out of bound", s) := by
        show ((if h : j.at_ < n then _ else _ : Go (Pos E n)), s) = _
        rw [dif_neg hj]
      rw [e]
      refine .inr ?_
      simp only [encAt, itAt]
      go_run [calls, Iterator_Next_fn, Iterator_Inc_fn, alloc_length, cell_new, cell_new2, cell_old, put_old, ho.len]
  prev := by
    rintro k hk j q s _ ⟨m, hx, rfl, hs⟩
    obtain ⟨k, rfl⟩ : ∃ n', k = n' + 1 + 1 := ⟨k - 2, by omega⟩
    have ho := hv.ext hx
    have h0 := j.ge
    have h1 := j.le
    by_cases hj : 0 < j.at_
    · have e : (St.lift (prev j) : St (List E) (Pos E n)) s = (.ok ⟨j.at_ - 1, by omega, by omega⟩, s) := by
        show ((if h : 0 < j.at_ then _ else _ : Go (Pos E n)), s) = _
        rw [dif_pos hj]
      rw [e]
      refine ⟨([itAt v (j.at_ - 1)], ((wr m v s).alloc [itAt v (j.at_ - 1)]).alloc [.ptr (wr m v s).arrs.length 0 []]), ?_, rfl, _, (hx.trans (.alloc _ _)).trans (.alloc _ _), by rw [ho.wr_alloc, (ho.alloc _).wr_alloc], hs⟩
      simp only [encAt, itAt]
      go_run [calls, Iterator_Prev_fn, Iterator_Dec_fn, alloc_length, cell_new, cell_new2, cell_old, put_old, ho.len]
    · have e : (St.lift (prev j) : St (List E) (Pos E n)) s = (.error "decrement out of bound", s) := by
        show ((if h : 0 < j.at_ then _ else _ : Go (Pos E n)), s) = _
        rw [dif_neg hj]
      rw [e]
      refine .inr ?_
      simp only [encAt, itAt]
      go_run [calls, Iterator_Prev_fn, Iterator_Dec_fn, alloc_length, cell_new, cell_new2, cell_old, put_old, ho.len]
  add := by
    rintro k hk j d q s _ ⟨m, hx, rfl, hs⟩ hd
    obtain ⟨k, rfl⟩ : ∃ n', k = n' + 1 + 1 := ⟨k - 2, by omega⟩
    have ho := hv.ext hx
    have h0 := j.ge
    have h1 := j.le
    by_cases hj : 0 ≤ wrap64 (j.at_ + d) ∧ wrap64 (j.at_ + d) ≤ n
    · have e : (St.lift (add j d) : St (List E) (Pos E n)) s = (.ok ⟨wrap64 (j.at_ + d), hj.1, hj.2⟩, s) := by
        show ((if h : 0 ≤ wrap64 (j.at_ + d) ∧ wrap64 (j.at_ + d) ≤ n then _ else _ : Go (Pos E n)), s) = _
        rw [dif_pos hj]
      rw [e]
      refine ⟨([itAt v (wrap64 (j.at_ + d))], ((wr m v s).alloc [itAt v (wrap64 (j.at_ + d))]).alloc [.ptr (wr m v s).arrs.length 0 []]), ?_, rfl, _, (hx.trans (.alloc _ _)).trans (.alloc _ _), by rw [ho.wr_alloc, (ho.alloc _).wr_alloc], hs⟩
      simp only [encAt, itAt]
      go_run [calls, Iterator_Add_fn, Iterator_Advance_fn, alloc_length, cell_new, cell_new2, cell_old, put_old, ho.len, ↓wrap_wrap64]
    · have e : (St.lift (add j d) : St (List E) (Pos E n)) s = (.error "offset out of bound", s) := by
        show ((if h : 0 ≤ wrap64 (j.at_ + d) ∧ wrap64 (j.at_ + d) ≤ n then _ else _ : Go (Pos E n)), s) = _
        rw [dif_neg hj]
      rw [e]
      refine .inr ?_
      simp only [encAt, itAt]
      by_cases hj' : wrap64 (j.at_ + d) < 0
      · go_run [calls, Iterator_Add_fn, Iterator_Advance_fn, alloc_length, cell_new, cell_new2, cell_old, put_old, ho.len, ↓wrap_wrap64]
      · go_run [calls, Iterator_Add_fn, Iterator_Advance_fn, alloc_length, cell_new, cell_new2, cell_old, put_old, ho.len, ↓wrap_wrap64]
  pos := by
    rintro k hk j q s _ ⟨m, hx, rfl, hs⟩
    obtain ⟨k, rfl⟩ : ∃ n', k = n' + 1 + 1 := ⟨k - 2, by omega⟩
    have ho := hv.ext hx
    refine ⟨([.num .int j.at_], wr (m.alloc [itAt v j.at_]) v s), ?_, rfl, _, hx.trans (.alloc _ _), rfl, hs⟩
    simp only [encAt, itAt]
    go_run [calls, Iterator_Pos_fn, ho.wr_alloc, wr_length, ho.box]
  get := by
    rintro k hk j q s _ ⟨m, hx, rfl, hs⟩
    obtain ⟨k, rfl⟩ : ∃ n', k = n' + 1 + 1 := ⟨k - 2, by omega⟩
    have ho := hv.ext hx
    have ho' := ho.alloc [itAt v j.at_]
    have h0 := j.ge
    have h1 := j.le
    by_cases hj : j.at_ < n
    · have e : Iter.get j s = (.ok (Verif.Sort.el s j.at_), s) := by
        show (match s[j.at_.toNat]? with | some x => _ | none => _) = _
        rw [List.getElem?_eq_getElem (by omega), Verif.Sort.el_eq_getElem ⟨h0, by omega⟩]
      rw [e]
      refine ⟨([.elem (Verif.Sort.el s j.at_)], wr (m.alloc [itAt v j.at_]) v s), ?_, rfl, _, hx.trans (.alloc _ _), rfl, hs⟩
      simp only [encAt, itAt] at ho' ⊢
      go_run [calls, Iterator_Get_fn, ho.wr_alloc, wr_length, ho.box, ho'.index hs h0 hj]
    · have e : Iter.get j s = (.error "index out of range", s) := by
        show (match s[j.at_.toNat]? with | some x => _ | none => _) = _
        rw [List.getElem?_eq_none (by omega)]
      rw [e]
      refine .inr ?_
      have hi := (ho'.slice hs).index_out (i := j.at_) (k := .int) (by omega)
      simp only [encAt, itAt] at hi ⊢
      go_run [calls, Iterator_Get_fn, ho.wr_alloc, wr_length, ho.box, hi]
  set := by
    rintro k hk j x q s _ ⟨m, hx, rfl, hs⟩
    obtain ⟨k, rfl⟩ : ∃ n', k = n' + 1 + 1 := ⟨k - 2, by omega⟩
    have ho := hv.ext hx
    have ho' := ho.alloc [itAt v j.at_]
    have h0 := j.ge
    have h1 := j.le
    by_cases hj : j.at_ < n
    · have e : Iter.set j x s = (.ok (), s.set j.at_.toNat x) := by
        show (if j.at_.toNat < s.length then _ else _) = _
        rw [if_pos (by omega)]
      rw [e]
      refine ⟨([], wr (m.alloc [itAt v j.at_]) v (s.set j.at_.toNat x)), ?_, rfl, _, hx.trans (.alloc _ _), rfl, by rw [List.length_set, hs]⟩
      simp only [encAt, itAt] at ho' ⊢
      go_run [calls, Iterator_Set_fn, ho.wr_alloc, wr_length, ho.box, ho'.store hs _ h0 hj]
    · have e : Iter.set j x s = (.error "index out of range", s) := by
        show (if j.at_.toNat < s.length then _ else _) = _
        rw [if_neg (by omega)]
      rw [e]
      refine .inr ?_
      have hi : ∀ env, Src.store env (wr (m.alloc [itAt v j.at_]) v s) (.elem x) (.elem v (.num .int j.at_)) = panic "index out of range" := by
        intro env
        cases hv with
        | nil => rfl
        | some => simp only [Src.store]; rw [if_neg (by omega)]
      simp only [encAt, itAt] at hi ⊢
      go_run [calls, Iterator_Set_fn, ho.wr_alloc, wr_length, ho.box, hi]
  equal := by
    rintro k hk j j' q s _ ⟨m, hx, rfl, hs⟩
    obtain ⟨k, rfl⟩ : ∃ n', k = n' + 1 + 1 := ⟨k - 2, by omega⟩
    have ho := hv.ext hx
    refine ⟨([.bool (decide (j'.at_ = j.at_))], wr (m.alloc [itAt v j.at_]) v s), ?_, rfl, _, hx.trans (.alloc _ _), rfl, hs⟩
    simp only [encAt, itAt]
    go_run [calls, Iterator_Equal_fn, ho.wr_alloc, wr_length, ho.box, hr, Bool.not_true]
end

end Verif.Src.Algo
