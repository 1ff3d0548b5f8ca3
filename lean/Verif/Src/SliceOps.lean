import Verif.Src.SliceIter

/-!
# ds/xslice/ops.go and slice.go, from their text: functions of slices
-/

namespace Verif.Src.Algo

open Verif.Iter
open Verif.Src.Sort (On wr Ext wr_length wr_self)

variable {E : Type}

/-! ## Memory -/

theorem slice_inv {m : Mem E} {a o l c : Nat} {d : List E} (h : Slice m (.slice a o l c) d) :
    l = d.length ∧ l ≤ c ∧ ∃ arr, m.arrs[a]? = some arr ∧ (arr.drop o).take d.length = d.map .elem ∧ o + c ≤ arr.length := by
  generalize hv : (Val.slice a o l c : Val E) = v at h
  cases h with
  | nil => cases hv
  | some h hl hc hb =>
    cases hv
    exact ⟨rfl, hc, _, h, hl, hb⟩

/-- A write into the window of a slice. -/
theorem puts_wr {m : Mem E} {a o c : Nat} {d : List E} (h : Slice m (.slice a o d.length c) d) {i : Nat} {xs : List E}
    (hi : i + xs.length ≤ d.length) :
    m.puts a (o + i) (xs.map .elem) = wr m (.slice a o d.length c) (d.take i ++ xs ++ d.drop (i + xs.length)) := by
  obtain ⟨-, hc, arr, h, hl, hb⟩ := slice_inv h
  unfold wr Mem.puts
  simp only
  congr 1
  apply List.ext_getElem?
  intro j
  rw [List.getElem?_modify, List.getElem?_modify]
  by_cases hj : a = j
  · subst hj
    have hL : (d.take i ++ xs ++ d.drop (i + xs.length)).length = d.length := by
      simp only [List.length_append, List.length_take, List.length_drop]
      omega
    simp only [h, if_true, Option.map_some, Option.map_eq_map, Option.some.injEq, List.length_map]
    rw [hL]
    simp only [List.map_append, List.map_take, List.map_drop, ← hl]
    rw [List.take_take, Nat.min_eq_left (by omega), List.take_add, List.drop_take, List.drop_drop]
    simp only [List.append_assoc]
    congr 3
    rw [show o + i + xs.length = o + (i + xs.length) by omega, show o + d.length = o + (i + xs.length) + (d.length - (i + xs.length)) by omega,
      ← List.drop_drop (l := arr) (i := d.length - (i + xs.length)), List.take_append_drop]
  · simp [hj]

theorem wr_wr {m : Mem E} {v : Val E} {k : Nat} (h : On m v k) {d e : List E} (hd : d.length = k) (he : e.length = k) :
    wr (wr m v d) v e = wr m v e := by
  cases h with
  | nil => rfl
  | @some a o _ c arr h hc hb =>
    unfold wr Mem.puts
    simp only [List.modify_modify_eq]
    congr 1
    apply List.ext_getElem?
    intro j
    rw [List.getElem?_modify, List.getElem?_modify]
    by_cases hj : a = j
    · subst hj
      simp only [h, if_true, Option.map_some, Option.map_eq_map, Option.some.injEq, Function.comp, List.length_map]
      have ho : (List.take o arr).length = o := by rw [List.length_take]; omega
      have hx : (arr.take o ++ d.map Val.elem).length = o + k := by rw [List.length_append, ho, List.length_map, hd]
      rw [List.take_append_of_le_length (by omega), List.take_append_of_le_length (by omega), List.take_take, Nat.min_self,
        List.drop_append, List.drop_eq_nil_of_le (by omega), List.nil_append, hx, List.drop_drop, hd, he]
      congr 2
      omega
    · simp [hj]

/-- The slice with one element less. -/
def short : Val E → Val E
  | .slice a o l c => .slice a o (l - 1) c
  | v => v

/-- The cells of a part of a slice. -/
theorem cells_part {m : Mem E} {a o c : Nat} {d : List E} (h : Slice m (.slice a o d.length c) d) (i k : Nat) (hk : i + k ≤ d.length) :
    m.cells a (o + i) k = some (((d.drop i).take k).map .elem) := by
  obtain ⟨-, hc, arr, h, hl, hb⟩ := slice_inv h
  rw [Mem.cells, h]
  simp only
  rw [List.map_take, List.map_drop, ← hl, List.drop_take, List.take_take, List.drop_drop]
  congr 2
  omega

variable [Inhabited E] {p : Par E}

/-! ## ops.go -/

omit [Inhabited E] in
theorem wr_eq (m : Mem E) (v w : Val E) {d e : List E} (h : d = e) : (pure ([w], wr m v d) : R (List (Val E) × Mem E)) = pure ([w], wr m v e) := by
  rw [h]

theorem delete_src (n : Nat) {m : Mem E} {v : Val E} {d : List E} (h : Slice m v d) (hl : (d.length : Int) < 9223372036854775808) (i : Int) :
    calls (ctx p) (n + 1) "Delete" [v, .num .int i] m =
      if 0 ≤ i ∧ i < d.length then pure ([short v], wr m v (d.eraseIdx i.toNat ++ d.drop (d.length - 1))) else panic "delete out of bound" := by
  cases h with
  | nil =>
    rw [if_neg (by simp)]
    by_cases hi : i < 0
    · go_run [calls, Delete_fn]
    · go_run [calls, Delete_fn]
  | @some a o c arr _ h hl' hc hb =>
    have hs : Slice m (.slice a o d.length c) d := .some h hl' hc hb
    split
    · rename_i hi
      have e0 : ((d.length : Int) - 1).toNat = d.length - 1 := by omega
      have ez : (d.length : Int) - 1 - 0 = d.length - 1 := by omega
      by_cases hi' : i < d.length - 1
      · have e := cells_part hs (i.toNat + 1) (d.length - (i.toNat + 1)) (by omega)
        rw [show o + (i.toNat + 1) = o + (i + 1).toNat by omega,
          show d.length - (i.toNat + 1) = min (↑d.length - i).toNat (↑d.length - (i + 1)).toNat by omega] at e
        have e1 := puts_wr hs (i := i.toNat) (xs := (d.drop (i.toNat + 1)).take (min (↑d.length - i).toNat (↑d.length - (i + 1)).toNat))
          (by rw [List.length_take, List.length_drop]; omega)
        go_run [calls, Delete_fn, Src.reslice, Src.copy, e, e1, e0, ez, short]
        apply wr_eq
        have ex : (d.drop (i.toNat + 1)).take (min (↑d.length - i).toNat (↑d.length - (i + 1)).toNat) = d.drop (i.toNat + 1) :=
          List.take_of_length_le (by rw [List.length_drop]; omega)
        rw [ex, List.eraseIdx_eq_take_drop_succ, List.length_drop]
        congr 2
        omega
      · have e2 := wr_self hs
        go_run [calls, Delete_fn, Src.reslice, Src.copy, e0, ez, short]
        conv => lhs; rw [← e2]
        apply wr_eq
        rw [List.eraseIdx_eq_take_drop_succ, List.drop_eq_nil_of_le (by omega), List.append_nil, show i.toNat = d.length - 1 by omega, List.take_append_drop]
    · by_cases hi : i < 0
      · go_run [calls, Delete_fn]
      · go_run [calls, Delete_fn]

theorem deleteLast_src (n : Nat) {m : Mem E} {v : Val E} {d : List E} (h : Slice m v d) (hl : (d.length : Int) < 9223372036854775808) :
    calls (ctx p) (n + 1) "DeleteLast" [v] m = if d = [] then panic "delete from empty slice" else pure ([short v], m) := by
  cases h with
  | nil => go_run [calls, DeleteLast_fn]
  | @some a o c arr _ h hl' hc hb =>
    by_cases hd : d = []
    · subst hd
      go_run [calls, DeleteLast_fn, List.length_nil]
    · have e0 : ((d.length : Int) - 1).toNat = d.length - 1 := by omega
      have ez : (d.length : Int) - 1 - 0 = d.length - 1 := by omega
      have := List.length_pos_iff.2 hd
      rw [if_neg hd]
      go_run [calls, DeleteLast_fn, Src.reslice, e0, ez, short]

theorem unorderedDelete_src (n : Nat) {m : Mem E} {v : Val E} {d : List E} (h : Slice m v d) (hl : (d.length : Int) < 9223372036854775808) (i : Int) :
    calls (ctx p) (n + 1) "UnorderedDelete" [v, .num .int i] m =
      if 0 ≤ i ∧ i < d.length then pure ([short v], wr m v (Verif.Sort.swapL d i (d.length - 1))) else panic "delete out of bound" := by
  cases h with
  | nil =>
    rw [if_neg (by simp)]
    by_cases hi : i < 0
    · go_run [calls, UnorderedDelete_fn]
    · go_run [calls, UnorderedDelete_fn]
  | @some a o c arr _ h hl' hc hb =>
    have hs : Slice m (.slice a o d.length c) d := .some h hl' hc hb
    have ho := On.of hs
    split
    · rename_i hi
      have e0 : ((d.length : Int) - 1).toNat = d.length - 1 := by omega
      have ez : (d.length : Int) - 1 - 0 = d.length - 1 := by omega
      have e2 := wr_self hs
      by_cases hi' : i < d.length - 1
      · conv => lhs; rw [← e2]
        go_run [calls, UnorderedDelete_fn, Src.reslice, e0, ez, short, ho.index rfl, ho.store, ho.store rfl, Verif.Sort.swapL]
      · obtain rfl : i = d.length - 1 := by omega
        go_run [calls, UnorderedDelete_fn, Src.reslice, e0, ez, short]
        conv => lhs; rw [← e2]
        apply wr_eq
        have : d.length - 1 < d.length := by omega
        rw [Verif.Sort.swapL, e0, List.set_set, Verif.Sort.el_eq_getElem ⟨hi.1, by omega⟩]
        simp only [e0, List.set_getElem_self]
    · by_cases hi : i < 0
      · go_run [calls, UnorderedDelete_fn]
      · go_run [calls, UnorderedDelete_fn]

/-! ## append -/

omit [Inhabited E] in
theorem cell_puts {m : Mem E} {a o q j : Nat} {xs : List (Val E)} {arr : List (Val E)} (h : m.arrs[a]? = some arr) (hb : o + xs.length ≤ arr.length)
    (hj : ¬ (q = a ∧ o ≤ j ∧ j < o + xs.length)) : (m.puts a o xs).cell q j = m.cell q j := by
  by_cases hq : q = a
  · subst hq
    have ho : (arr.take o).length = o := by rw [List.length_take]; omega
    simp only [Mem.cell, puts_same_arr h, h]
    by_cases h1 : j < o
    · rw [List.append_assoc, List.getElem?_append_left (by omega), List.getElem?_take, if_pos h1]
    · rw [List.getElem?_append_right (by rw [List.length_append, ho]; omega), List.getElem?_drop, List.length_append, ho]
      congr 1
      omega
  · exact cell_of_arrs (puts_arrs hq _) _

omit [Inhabited E] in
theorem cell_alloc {m : Mem E} {l : List (Val E)} {q j : Nat} (hq : q < m.arrs.length) : (m.alloc l).cell q j = m.cell q j :=
  cell_of_arrs (alloc_arrs hq _) _

omit [Inhabited E] in
/-- `append` writes into the new window only. -/
theorem append_frame {X : Ctx E} {m m' : Mem E} {v v' : Val E} {d : List E} {xs : List (Val E)} (h : Slice m v d) (e : Src.append X m v xs = pure (v', m')) (q j : Nat)
    (hq : q < m.arrs.length) (hj : ¬ In v' q j) : m'.cell q j = m.cell q j := by
  cases h with
  | nil =>
    simp only [Src.append] at e
    split at e
    · cases e; rfl
    · cases e; exact cell_alloc hq
  | @some a o c arr _ h hl' hc hb =>
    simp only [Src.append] at e
    split at e
    · cases e
      refine cell_puts h (by omega) fun hx => hj ⟨_, _, _, by rw [hx.1], by omega, by omega⟩
    · split at e
      · cases e; exact cell_alloc hq
      · cases e

omit [Inhabited E] in
theorem insert_window (d : List E) (x : E) {k : Nat} (hk : k < d.length) :
    ((d ++ [x]).take (k + 1) ++ ((d ++ [x]).drop k).take (d.length - k) ++
      (d ++ [x]).drop (k + 1 + (((d ++ [x]).drop k).take (d.length - k)).length)).set k x = d.insertIdx k x := by
  obtain ⟨A, y, B, rfl, rfl⟩ : ∃ A y B, d = A ++ y :: B ∧ A.length = k :=
    ⟨d.take k, d[k], d.drop (k + 1), by rw [← List.drop_eq_getElem_cons hk, List.take_append_drop], by rw [List.length_take]; omega⟩
  have e : (((A ++ y :: B ++ [x]).drop A.length).take ((A ++ y :: B).length - A.length)) = y :: B := by simp
  rw [e, List.drop_eq_nil_of_le (by simp; omega)]
  have e2 : (A ++ y :: B ++ [x]).take (A.length + 1) = A ++ [y] := by
    rw [List.append_assoc, List.take_length_add_append]
    rfl
  rw [e2]
  have e3 : (A ++ y :: B).insertIdx A.length x = A ++ x :: y :: B := by
    clear e e2 hk
    induction A with
    | nil => rfl
    | cons z A ih => simpa using ih
  rw [e3]
  simp

theorem insert_src (n : Nat) {m : Mem E} {v : Val E} {d : List E} (h : Slice m v d) (hl : (d.length : Int) + 1 < 9223372036854775808) (i : Int) (x : E)
    {v1 : Val E} {m1 : Mem E} (e : Src.append (ctx p) m v [.elem x] = pure (v1, m1)) (h1 : Slice m1 v1 (d ++ [x])) :
    calls (ctx p) (n + 1) "Insert" [v, .num .int i, .elem x] m =
      if 0 ≤ i ∧ i ≤ d.length then pure ([v1], wr m1 v1 (d.insertIdx i.toNat x)) else panic "insert out of bound" := by
  split
  · rename_i hi
    obtain ⟨a, o, c, rfl⟩ : ∃ a o c, v1 = .slice a o (d ++ [x]).length c := by
      generalize hd : d ++ [x] = d' at h1
      cases h1 with
      | nil => simp at hd
      | @some a o c => exact ⟨a, o, c, rfl⟩
    have hL : (d ++ [x]).length = d.length + 1 := by simp
    have hc := (slice_inv h1).2.1
    have hb : boxNo v = none := by cases h <;> rfl
    have ho := On.of h1
    by_cases hi' : i < d.length
    · have e0 : ((d ++ [x]).length : Int) - 1 = d.length := by omega
      have eL : min (↑(d ++ [x]).length - (i + 1)).toNat (↑d.length - i).toNat = d.length - i.toNat := by omega
      have e1 := cells_part h1 i.toNat (d.length - i.toNat) (by omega)
      have e2 := puts_wr h1 (i := (i + 1).toNat) (xs := ((d ++ [x]).drop i.toNat).take (d.length - i.toNat))
        (by rw [List.length_take, List.length_drop]; omega)
      have hd' : ((d ++ [x]).take (i + 1).toNat ++ ((d ++ [x]).drop i.toNat).take (d.length - i.toNat) ++
          (d ++ [x]).drop ((i + 1).toNat + (((d ++ [x]).drop i.toNat).take (d.length - i.toNat)).length)).length = (d ++ [x]).length := by
        simp only [List.length_append, List.length_take, List.length_drop, List.length_cons, List.length_nil]
        omega
      go_run [calls, Insert_fn, h.len, h.fetch, h.coerce, e, Src.reslice, Src.copy, h.fit, ↓hb, e0, eL, e1, e2, ho.store hd']
      apply wr_eq
      rw [show (i + 1).toNat = i.toNat + 1 by omega]
      exact insert_window d x (by omega)
    · have e2 := wr_self h1
      go_run [calls, Insert_fn, h.len, h.fetch, h.coerce, e, Src.reslice, Src.copy, h.fit]
      conv => lhs; rw [← e2]
      apply wr_eq
      rw [show i.toNat = d.length by omega, List.insertIdx_length_self]
  · by_cases hi : i < 0
    · go_run [calls, Insert_fn, h.len, h.fetch, h.coerce]
    · go_run [calls, Insert_fn, h.len, h.fetch, h.coerce]

end Verif.Src.Algo
