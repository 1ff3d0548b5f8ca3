import Verif.Slice.Lemmas

/-! # What the slice operations do: contents and written cells -/

namespace Verif.Slice

open Verif.Iter

variable {T : Type} [Inhabited T]
set_option linter.unusedSectionVars false

/-- The array cells of the window of length `n` that starts where `s` starts. -/
abbrev Win (s : Slice) (n : Nat) : Nat → Nat → Prop := Cells s n

theorem poke_win {h : Heap T} {s : Slice} (hv : Valid h s) {i n : Nat} {l : List T} (hl : i + l.length ≤ n)
    (hn : n ≤ s.cap) : Upd (Win s n) h (poke h s.ptr i l) := by
  refine (poke_upd hv (by omega)).mono ?_
  rintro a k - ⟨off, e, h1, h2⟩
  exact ⟨off, e, by omega, by omega⟩

theorem list_insert_eq (L : List T) (v : T) {i : Nat} (hi : i < L.length) :
    (splice (L ++ [v]) (i + 1) (((L ++ [v]).drop i).take (L.length - i))).set i v = L.insertIdx i v := by
  apply List.ext_getElem?
  intro k
  have e1 : (((L ++ [v]).drop i).take (L.length - i)).length = L.length - i := by simp; omega
  have e2 : (splice (L ++ [v]) (i + 1) (((L ++ [v]).drop i).take (L.length - i))).length = L.length + 1 := by
    rw [length_splice (by rw [e1]; simp; omega)]; simp
  rw [List.getElem?_set, e2, getElem?_splice (by rw [e1]; simp; omega), e1, List.getElem?_insertIdx]
  by_cases c1 : k < i
  · rw [if_neg (by omega), if_pos (by omega), if_pos c1, List.getElem?_append_left (by omega)]
  · rw [if_neg c1]
    by_cases c2 : k = i
    · subst c2; rw [if_pos rfl, if_pos (by omega), if_pos rfl, if_pos (by omega)]
    · rw [if_neg (by omega), if_neg (by omega), if_neg c2]
      by_cases c3 : k < L.length + 1
      · rw [if_pos (by omega), List.getElem?_take, if_pos (by omega), List.getElem?_drop,
          List.getElem?_append_left (by omega)]
        congr 1; omega
      · rw [if_neg (by omega), List.getElem?_eq_none (by simp; omega), List.getElem?_eq_none (by omega)]

/-- ops.go `Insert`. -/
theorem insert_spec (extra : Nat) {h : Heap T} {s : Slice} (hv : Valid h s) (v : T) {i : Nat} (hi : i ≤ s.len)
    (hb : ((s.len + 1 + extra : Nat) : Int) < 9223372036854775808) :
    ∃ s' h', insert extra s i v h = (.ok s', h') ∧ Valid h' s' ∧ s'.len = s.len + 1 ∧
      contents h' s' = (contents h s).insertIdx i v ∧
      (s.len + 1 ≤ s.cap → s'.ptr = s.ptr ∧ s'.cap = s.cap ∧ Upd (Win s (s.len + 1)) h h') ∧
      (s.cap < s.len + 1 → s'.ptr = .arr h.length 0 ∧ Upd (fun _ _ => False) h h') := by
  obtain ⟨s1, h1, e1, hv1, hl1, hc1, hin, hout⟩ := appendMany_spec extra hv [v] hb
  simp only [List.length_cons, List.length_nil, Nat.zero_add] at hl1 hin hout
  have hL := length_contents hv
  have hL1 := length_contents hv1
  have hcap1 : s1.len ≤ s1.cap := hv1.1
  have winh : s.len + 1 ≤ s.cap → Upd (Win s (s.len + 1)) h h1 := fun hc => by
    refine (hin hc).2.2.mono ?_
    rintro a k - ⟨off, e, h1, h2⟩
    exact ⟨off, e, by omega, by omega⟩
  unfold insert
  rw [if_neg (by omega)]
  by_cases hlt : i < s.len
  · rw [if_pos (by omega)]
    obtain ⟨d, ed, hvd, hld, _, _, hcd, hpd⟩ := reslice_spec hv1 (i := i + 1) (j := s1.len) (by omega) (by omega)
    obtain ⟨r, er, hvr, hlr, _, _, hcr, hpr⟩ := reslice_spec hv1 (i := i) (j := s1.len - 1) (by omega) (by omega)
    have hX : (contents h1 r).length = s.len - i := by rw [length_contents hvr]; omega
    generalize hh2 : poke h1 s1.ptr (i + 1) (contents h1 r) = h2
    have u2 : Upd (Win s1 s1.len) h1 h2 := by
      subst hh2
      exact poke_win hv1 (by omega) hcap1
    have hv2 : Valid h2 s1 := u2.valid hv1
    have hc2 : contents h2 s1 = splice (contents h1 s1) (i + 1) (contents h1 r) := by
      subst hh2; exact poke_contents hv1 (by omega)
    have u3 : Upd (Win s1 s1.len) h2 (poke h2 s1.ptr i [v]) := poke_win hv2 (by simp; omega) hcap1
    have hc3 : contents (poke h2 s1.ptr i [v]) s1 = (contents h2 s1).set i v := by
      rw [poke_contents hv2 (by simp; omega), splice_singleton]
      rw [length_contents hv2]; omega
    refine ⟨s1, poke h2 s1.ptr i [v], ?_, u3.valid hv2, hl1, ?_, ?_, ?_⟩
    · rw [St.bind_ok e1]
      have ed' : reslice s1 ((i : Int) + 1) s1.len = .ok d := by rw [← ed]; congr 1
      have er' : reslice s1 (i : Int) ((s1.len : Int) - 1) = .ok r := by rw [← er]; congr 1; omega
      rw [St.bind_lift ed', St.bind_lift er']
      have hcopy : copySlice d r h1 = (.ok (), h2) := by
        unfold copySlice
        rw [hpd (by omega), Nat.add_zero, List.take_of_length_le (by omega), hh2]
      rw [St.bind_ok hcopy, St.bind_ok (store_ok v (by omega))]
      rfl
    · rw [hc3, hc2, hcr, hc1, show s1.len - 1 - i = (contents h s).length - i by omega,
        list_insert_eq _ _ (by omega)]
    · intro hc
      obtain ⟨p1, p2, _⟩ := hin hc
      refine ⟨p1, p2, ((winh hc).trans (W := Win s (s.len + 1)) ((u2.trans u3).mono ?_))⟩
      rintro a k - ⟨off, e, h1, h2⟩
      exact ⟨off, by rw [← p1]; exact e, h1, by omega⟩
    · intro hc
      obtain ⟨p1, u⟩ := hout hc
      refine ⟨p1, (Upd.trans (W := Win s1 s1.len) (u.mono ?_) (u2.trans u3)).mono ?_⟩
      · intro a k _ hf; exact hf.elim
      · rintro a k ha ⟨off, e, -, -⟩
        rw [p1] at e; injection e with e; omega
  · have : i = s.len := by omega
    subst this
    rw [if_neg (by omega)]
    refine ⟨s1, h1, e1, hv1, hl1, ?_, fun hc => ⟨(hin hc).1, (hin hc).2.1, winh hc⟩, hout⟩
    rw [hc1, ← hL]
    apply List.ext_getElem?
    intro k
    rw [List.getElem?_insertIdx, List.getElem?_append]
    by_cases c1 : k < (contents h s).length
    · rw [if_pos c1, if_pos c1]
    · rw [if_neg c1, if_neg c1]
      by_cases c2 : k = (contents h s).length
      · rw [if_pos c2, if_pos (by omega), c2]; simp
      · rw [if_neg c2, List.getElem?_eq_none (by simp; omega), List.getElem?_eq_none (by omega)]

/-- ops.go `Delete`, with the cell it leaves behind. -/
theorem delete_spec' {h : Heap T} {s : Slice} (hv : Valid h s) {i : Nat} (hi : i < s.len) :
    ∃ s' h', delete s i h = (.ok s', h') ∧ Valid h' s' ∧ s'.len = s.len - 1 ∧ s'.cap = s.cap ∧
      s'.ptr = s.ptr ∧ contents h' s' = (contents h s).eraseIdx i ∧ Upd (Win s s.len) h h' ∧
      (contents h' s)[s.len - 1]? = (contents h s)[s.len - 1]? := by
  have hL := length_contents hv
  have hcap := hv.1
  unfold delete
  rw [if_neg (by omega)]
  by_cases hlt : i + 1 < s.len
  · rw [if_pos (by omega)]
    obtain ⟨d, ed, hvd, hld, _, _, hcd, hpd⟩ := reslice_spec hv (i := i) (j := s.len) (by omega) (by omega)
    obtain ⟨r, er, hvr, hlr, _, _, hcr, hpr⟩ := reslice_spec hv (i := i + 1) (j := s.len) (by omega) (by omega)
    have hX : (contents h r).length = s.len - (i + 1) := by rw [length_contents hvr]; omega
    generalize hh2 : poke h s.ptr i (contents h r) = h2
    have u2 : Upd (Win s s.len) h h2 := by
      subst hh2
      exact poke_win hv (by omega) hcap
    have hv2 : Valid h2 s := u2.valid hv
    have hc2 : contents h2 s = splice (contents h s) i (contents h r) := by
      subst hh2; exact poke_contents hv (by omega)
    obtain ⟨t, et, hvt, hlt', hct, hpt, hcc, _⟩ := reslice_spec hv2 (i := 0) (j := s.len - 1) (by omega) (by omega)
    refine ⟨t, h2, ?_, hvt, by omega, by omega, hpt rfl, ?_, u2, ?_⟩
    · have er' : reslice s ((i : Int) + 1) s.len = .ok r := by rw [← er]; congr 1
      have et' : reslice s 0 ((s.len : Int) - 1) = .ok t := by rw [← et]; congr 1; omega
      have hcopy : copySlice d r h = (.ok (), h2) := by
        unfold copySlice
        rw [hpd (by omega), Nat.add_zero, List.take_of_length_le (by omega), hh2]
      rw [St.bind_lift ed, St.bind_lift er', St.bind_ok hcopy, et']
      rfl
    · rw [hcc, hc2]
      apply List.ext_getElem?
      intro k
      rw [List.getElem?_take, List.drop_zero, getElem?_splice (by omega), List.getElem?_eraseIdx, hX, hcr]
      simp only [Nat.sub_zero]
      by_cases c1 : k < i
      · rw [if_pos (by omega), if_pos c1, if_pos c1]
      · rw [if_neg c1, if_neg c1]
        by_cases c2 : k < s.len - 1
        · rw [if_pos c2, if_pos (by omega), List.getElem?_take, if_pos (by omega), List.getElem?_drop]
          congr 1; omega
        · rw [if_neg c2, List.getElem?_eq_none (by omega)]
    · rw [hc2, getElem?_splice (by omega), hX, if_neg (by omega), if_neg (by omega)]
  · rw [if_neg (by omega)]
    obtain ⟨t, et, hvt, hlt', hct, hpt, hcc, _⟩ := reslice_spec hv (i := 0) (j := s.len - 1) (by omega) (by omega)
    refine ⟨t, h, ?_, hvt, by omega, by omega, hpt rfl, ?_, Upd.refl _ _, rfl⟩
    · have et' : reslice s 0 ((s.len : Int) - 1) = .ok t := by rw [← et]; congr 1; omega
      rw [et']; rfl
    · rw [hcc, List.drop_zero, Nat.sub_zero, show i = s.len - 1 by omega]
      apply List.ext_getElem?
      intro k
      rw [List.getElem?_take, List.getElem?_eraseIdx]
      split
      · rfl
      · rw [List.getElem?_eq_none (by omega)]

/-- ops.go `Delete`. -/
theorem delete_spec {h : Heap T} {s : Slice} (hv : Valid h s) {i : Nat} (hi : i < s.len) :
    ∃ s' h', delete s i h = (.ok s', h') ∧ Valid h' s' ∧ s'.len = s.len - 1 ∧ s'.cap = s.cap ∧
      s'.ptr = s.ptr ∧ contents h' s' = (contents h s).eraseIdx i ∧ Upd (Win s s.len) h h' := by
  obtain ⟨s', h', h1, h2, h3, h4, h5, h6, h7, -⟩ := delete_spec' hv hi
  exact ⟨s', h', h1, h2, h3, h4, h5, h6, h7⟩

/-- ops.go `DeleteLast`. -/
theorem deleteLast_spec {h : Heap T} {s : Slice} (hv : Valid h s) (hi : 0 < s.len) :
    ∃ s', deleteLast s h = (.ok s', h) ∧ Valid h s' ∧ s'.len = s.len - 1 ∧ s'.cap = s.cap ∧
      s'.ptr = s.ptr ∧ contents h s' = (contents h s).dropLast := by
  have hL := length_contents hv
  obtain ⟨t, et, hvt, hlt', hct, hpt, hcc, _⟩ := reslice_spec hv (i := 0) (j := s.len - 1) (by omega) (by omega)
  refine ⟨t, ?_, hvt, by omega, by omega, hpt rfl, ?_⟩
  · have et' : reslice s 0 ((s.len : Int) - 1) = .ok t := by rw [← et]; congr 1; omega
    unfold deleteLast
    rw [if_neg (by omega), et']; rfl
  · rw [hcc, List.drop_zero, Nat.sub_zero, List.dropLast_eq_take, hL]

/-- ops.go `UnorderedDelete`, with the cell it leaves behind. -/
theorem unorderedDelete_spec' {h : Heap T} {s : Slice} (hv : Valid h s) {i : Nat} (hi : i < s.len) :
    ∃ s' h', unorderedDelete s i h = (.ok s', h') ∧ Valid h' s' ∧ s'.len = s.len - 1 ∧ s'.cap = s.cap ∧
      s'.ptr = s.ptr ∧
      contents h' s' = ((contents h s).set i ((contents h s)[s.len - 1]?.getD default)).dropLast ∧
      Upd (Win s s.len) h h' ∧ (contents h' s)[s.len - 1]? = (contents h s)[i]? := by
  have hL := length_contents hv
  have hcap := hv.1
  unfold unorderedDelete
  rw [if_neg (by omega)]
  obtain ⟨x, hx⟩ : ∃ x, (contents h s)[s.len - 1]? = some x := ⟨_, List.getElem?_eq_getElem (by omega)⟩
  obtain ⟨y, hy⟩ : ∃ y, (contents h s)[i]? = some y := ⟨_, List.getElem?_eq_getElem (by omega)⟩
  by_cases hlt : i < s.len - 1
  · dsimp only
    rw [if_pos (by omega)]
    generalize hh2 : poke h s.ptr i [x] = h2
    have u2 : Upd (Win s s.len) h h2 := by subst hh2; exact poke_win hv (by simp; omega) hcap
    have hv2 := u2.valid hv
    have hc2 : contents h2 s = (contents h s).set i x := by
      subst hh2; rw [poke_contents hv (by simp; omega), splice_singleton _ (by omega)]
    generalize hh3 : poke h2 s.ptr (s.len - 1) [y] = h3
    have u3 : Upd (Win s s.len) h2 h3 := by subst hh3; exact poke_win hv2 (by simp; omega) hcap
    have hv3 := u3.valid hv2
    have hc3 : contents h3 s = ((contents h s).set i x).set (s.len - 1) y := by
      subst hh3
      rw [poke_contents hv2 (by simp; omega), hc2, splice_singleton _ (by simp; omega)]
    obtain ⟨t, et, hvt, hlt', hct, hpt, hcc, _⟩ := reslice_spec hv3 (i := 0) (j := s.len - 1) (by omega) (by omega)
    refine ⟨t, h3, ?_, hvt, by omega, by omega, hpt rfl, ?_, u2.trans u3, ?_⟩
    · have eqi : ((s.len : Int) - 1) = ((s.len - 1 : Nat) : Int) := by omega
      have et' : reslice s 0 ((s.len : Int) - 1) = .ok t := by rw [← et, eqi]; congr 1
      rw [et', eqi, St.bind_ok (load_ok hx), St.bind_ok (load_ok hy), St.bind_ok (store_ok x hi), hh2,
        St.bind_ok (store_ok y (by omega)), hh3]
      rfl
    · rw [hcc, hc3, hx, List.drop_zero, Nat.sub_zero, List.dropLast_eq_take, Option.getD_some, List.length_set, hL]
      apply List.ext_getElem?
      intro k
      rw [List.getElem?_take, List.getElem?_take]
      split
      · rw [List.getElem?_set, if_neg (by omega)]
      · rfl
    · rw [hc3, List.getElem?_set, if_pos rfl, if_pos (by simp; omega), hy]
  · dsimp only
    rw [if_neg (by omega)]
    have : i = s.len - 1 := by omega
    subst this
    obtain ⟨t, et, hvt, hlt', hct, hpt, hcc, _⟩ := reslice_spec hv (i := 0) (j := s.len - 1) (by omega) (by omega)
    refine ⟨t, h, ?_, hvt, by omega, by omega, hpt rfl, ?_, Upd.refl _ _, rfl⟩
    · have et' : reslice s 0 ((s.len : Int) - 1) = .ok t := by rw [← et]; congr 1; omega
      rw [et']; rfl
    · rw [hcc, hx, List.drop_zero, Nat.sub_zero, List.dropLast_eq_take, Option.getD_some, List.length_set, hL]
      apply List.ext_getElem?
      intro k
      rw [List.getElem?_take, List.getElem?_take]
      split
      · rw [List.getElem?_set, if_neg (by omega)]
      · rfl

/-- ops.go `UnorderedDelete`. -/
theorem unorderedDelete_spec {h : Heap T} {s : Slice} (hv : Valid h s) {i : Nat} (hi : i < s.len) :
    ∃ s' h', unorderedDelete s i h = (.ok s', h') ∧ Valid h' s' ∧ s'.len = s.len - 1 ∧ s'.cap = s.cap ∧
      s'.ptr = s.ptr ∧
      contents h' s' = ((contents h s).set i ((contents h s)[s.len - 1]?.getD default)).dropLast ∧
      Upd (Win s s.len) h h' := by
  obtain ⟨s', h', h1, h2, h3, h4, h5, h6, h7, -⟩ := unorderedDelete_spec' hv hi
  exact ⟨s', h', h1, h2, h3, h4, h5, h6, h7⟩

/-! ## Allocation, `Copy`, `Reversed` -/

theorem makeSlice_spec (h : Heap T) {n : Nat} (hn : (n : Int) < 9223372036854775808) :
    ∃ s' h', makeSlice n h = (.ok s', h') ∧ Valid h' s' ∧ s'.len = n ∧ s'.cap = n ∧
      contents h' s' = List.replicate n default ∧ (n ≠ 0 → s'.ptr = .arr h.length 0) ∧
      Upd (fun _ _ => False) h h' := by
  unfold makeSlice
  rw [if_neg (by omega)]
  by_cases h0 : n = 0
  · rw [if_pos (by omega)]
    subst h0
    exact ⟨_, _, rfl, ⟨by simp, by simp, by simp⟩, rfl, rfl, rfl, fun h => absurd rfl h, Upd.refl _ _⟩
  · rw [if_neg (by omega)]
    refine ⟨_, _, rfl, ⟨by simp, by simpa using hn, ?_⟩, by simp, by simp, ?_, fun _ => rfl, alloc_upd _ _⟩
    · exact ⟨List.replicate n default, by simp, by simp⟩
    · simp [contents]

theorem reversedLoop_spec {r : Slice} (xs : List T) : ∀ (h : Heap T) (i : Nat), Valid h r →
    i + xs.length = r.len → ∃ h', reversedLoop r ((r.len : Int) - 1) xs i h = (.ok (), h') ∧
      Upd (Win r r.len) h h' ∧
      contents h' r = xs.reverse ++ (contents h r).drop xs.length := by
  induction xs with
  | nil => intro h i hv hi; exact ⟨h, rfl, Upd.refl _ _, by simp⟩
  | cons v vs ih =>
    intro h i hv hi
    simp only [List.length_cons] at hi
    have hL := length_contents hv
    have hcap := hv.1
    have eqi : ((r.len : Int) - 1 - (i : Int)) = ((r.len - 1 - i : Nat) : Int) := by omega
    have u1 : Upd (Win r r.len) h (poke h r.ptr (r.len - 1 - i) [v]) := poke_win hv (by simp; omega) hcap
    obtain ⟨h', e, u, c⟩ := ih _ (i + 1) (u1.valid hv) (by omega)
    refine ⟨h', ?_, u1.trans u, ?_⟩
    · unfold reversedLoop
      rw [eqi, St.bind_ok (store_ok v (by omega))]
      exact e
    · rw [c, poke_contents hv (by simp; omega), splice_singleton _ (by omega)]
      rw [show r.len - 1 - i = vs.length by omega]
      rw [List.reverse_cons, List.append_assoc]
      congr 1
      apply List.ext_getElem?
      intro k
      rw [List.getElem?_drop, List.getElem?_set]
      cases k with
      | zero => simp; omega
      | succ k => simp; congr 1; omega

end Verif.Slice
