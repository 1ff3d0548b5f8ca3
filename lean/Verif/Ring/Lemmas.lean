import Verif.Ring.Spec

/-! Helper lemmas: the ring refines a list. -/

namespace Verif.Ring

variable {T : Type}

/-- Abstraction: the contents of the ring, first to last. -/
def contents (r : Ring T) : List T := (r.buf.drop r.st ++ r.buf.take r.st).take r.len

/-- Representation invariant. -/
def WF (r : Ring T) : Prop := r.len ≤ r.buf.length ∧ (r.st < r.buf.length ∨ r.st = 0)

/-- Physical index of a logical position. -/
def wrapIdx (c j : Nat) : Nat := if j ≥ c then j - c else j

theorem contents_length {r : Ring T} (h : WF r) : (contents r).length = r.len := by
  obtain ⟨h1, h2⟩ := h
  simp [contents]; omega

theorem contents_getElem? {r : Ring T} (h : WF r) (i : Nat) :
    (contents r)[i]? =
      if i < r.len then
        r.buf[wrapIdx r.buf.length (r.st + i)]?
      else none := by
  obtain ⟨h1, h2⟩ := h
  simp only [contents, List.getElem?_take, List.getElem?_append, List.getElem?_drop,
    List.length_drop]
  split
  · split
    · rw [wrapIdx, if_neg (by omega)]
    · rw [if_pos (by omega)]
      congr 1; unfold wrapIdx; split <;> omega
  · rfl

theorem contents_eq_of {r : Ring T} (h : WF r) {l : List T} (hl : l.length = r.len)
    (hi : ∀ i, i < r.len → l[i]? =
      r.buf[wrapIdx r.buf.length (r.st + i)]?) :
    contents r = l := by
  apply List.ext_getElem?
  intro i
  rw [contents_getElem? h]
  split
  · rename_i hlt; rw [hi i hlt]
  · rw [List.getElem?_eq_none]; omega

variable [Inhabited T]
set_option linter.unusedSectionVars false

omit [Inhabited T] in
theorem append_inPlace (arr out : List T) {xs : List T} (h : out.length + xs.length ≤ arr.length) :
    Dst.append ⟨arr, out, true⟩ xs =
      ⟨arr.take out.length ++ xs ++ arr.drop (out.length + xs.length), out ++ xs, true⟩ := by
  simp [Dst.append, h]

theorem goSlice_ok {l : List T} {lo hi : Int} (h : 0 ≤ lo ∧ lo ≤ hi ∧ hi ≤ l.length) :
    goSlice l lo hi = .ok ((l.take hi.toNat).drop lo.toNat) := by
  simp [goSlice, h]

theorem copyOut_eq {r : Ring T} (h : WF r) (arr : List T) (hc : r.len ≤ arr.length) :
    copyOut r ⟨arr, [], true⟩ = .ok ⟨contents r ++ arr.drop r.len, contents r, true⟩ := by
  obtain ⟨h1, h2⟩ := h
  unfold copyOut
  split
  · rename_i hle
    have : (0:Int) ≤ r.st ∧ (r.st:Int) ≤ r.st + r.len ∧ (r.st:Int) + r.len ≤ r.buf.length := by omega
    have h3 : ((r.st:Int) + r.len).toNat = r.st + r.len := by omega
    have h4 : (r.buf.take (r.st + r.len)).drop r.st = contents r := by
      unfold contents
      rw [List.drop_take]
      rw [List.take_append_of_le_length (by simp; omega)]
      congr 1; omega
    have h5 := contents_length (r := r) ⟨h1, h2⟩
    simp only [goSlice, this, h3, and_self, if_true, Int.toNat_natCast, h4, bind, Except.bind, pure,
      Except.pure, Dst.append]
    simp [h5, hc]
  · rename_i hle
    have c1 : (0:Int) ≤ r.st ∧ (r.st:Int) ≤ r.buf.length ∧ (r.buf.length:Int) ≤ r.buf.length := by omega
    have c2 : (0:Int) ≤ 0 ∧ (0:Int) ≤ r.st + r.len - r.buf.length ∧ (r.st:Int) + r.len - r.buf.length ≤ r.buf.length := by omega
    have h3 : ((r.st:Int) + r.len - r.buf.length).toNat = r.st + r.len - r.buf.length := by omega
    have h4 : r.buf.drop r.st ++ r.buf.take (r.st + r.len - r.buf.length) = contents r := by
      unfold contents
      rw [List.take_append, List.take_of_length_le (l := r.buf.drop r.st)
        (by rw [List.length_drop]; omega), List.take_take, List.length_drop]
      congr 2
      omega
    have h6 : (r.buf.drop r.st).length = r.buf.length - r.st := by simp
    have h7 : (r.buf.take (r.st + r.len - r.buf.length)).length = r.st + r.len - r.buf.length := by
      rw [List.length_take]; omega
    rw [goSlice_ok c1, goSlice_ok c2]
    simp only [bind, Except.bind, pure, Except.pure, h3, Int.toNat_natCast, List.take_length,
      Int.toNat_zero, List.drop_zero]
    rw [append_inPlace (xs := r.buf.drop r.st) _ _ (by simp only [List.length_nil, h6]; omega)]
    rw [append_inPlace _ _ (by
      simp only [List.nil_append, List.length_nil, List.length_append, List.take_zero,
        List.length_drop, List.length_nil, h7]
      omega)]
    simp only [List.nil_append, List.length_nil, List.take_zero, Nat.zero_add, h4]
    congr 2
    rw [← h4, List.take_left' rfl]
    congr 1
    rw [List.drop_append, List.drop_eq_nil_of_le (by omega), List.drop_drop, List.nil_append]
    congr 1
    rw [h6, h7]; omega

theorem toSlice_none_eq {r : Ring T} (h : WF r) :
    toSlice r none = .ok (if contents r = [] then none else some (contents r), []) := by
  have h5 := contents_length h
  unfold toSlice
  by_cases h0 : r.len = 0
  · have : contents r = [] := List.eq_nil_of_length_eq_zero (by omega)
    simp [h0, this]
  · have : contents r ≠ [] := by intro h; rw [h] at h5; simp at h5; omega
    simp [h0, this, copyOut_eq h (List.replicate r.len default) (by simp), bind, Except.bind, pure,
      Except.pure]

theorem toSlice_some_eq {r : Ring T} (h : WF r) (arr : List T) (hc : r.len ≤ arr.length) :
    toSlice r (some arr) =
      .ok (if contents r = [] then none else some (contents r), contents r ++ arr.drop r.len) := by
  have h5 := contents_length h
  unfold toSlice
  by_cases h0 : r.len = 0
  · have : contents r = [] := List.eq_nil_of_length_eq_zero (by omega)
    simp [h0, this]
  · have : contents r ≠ [] := by intro h; rw [h] at h5; simp at h5; omega
    simp [h0, this, copyOut_eq h arr hc, bind, Except.bind, pure, Except.pure]

/-- Moving the contents into a fresh buffer keeps them. -/
theorem moved {r : Ring T} (h : WF r) (c : Nat) (hc : r.len ≤ c) :
    let r' : Ring T := ⟨contents r ++ (List.replicate c default).drop r.len, 0, r.len⟩
    WF r' ∧ contents r' = contents r ∧ r'.buf.length = c := by
  have h5 := contents_length h
  refine ⟨⟨?_, Or.inr rfl⟩, ?_, ?_⟩
  · simp [h5]
  · simp only [contents, List.drop_zero, List.take_zero, List.append_nil]
    rw [List.take_append_of_le_length]
    · rw [List.take_of_length_le]; exact Nat.le_of_eq h5
    · exact Nat.le_of_eq h5.symm
  · simp [h5]; omega

/-- The capacity chosen by `checkGrowth`. -/
def grown (c : Nat) : Nat := if c = 0 then 4 else if c < 1024 then c * 2 else c * 5 / 4

theorem grown_gt (c : Nat) : c < grown c := by
  unfold grown; split
  · omega
  · split <;> omega

theorem checkGrowth_eq {r : Ring T} (h : WF r) :
    ∃ r', checkGrowth r = .ok r' ∧ WF r' ∧ contents r' = contents r ∧ r'.len = r.len ∧
      r'.len < r'.buf.length ∧
      r'.buf.length = (if r.len = r.buf.length then grown r.buf.length else r.buf.length) ∧
      (r.len = r.buf.length → r' = ⟨contents r ++ (List.replicate (grown r.buf.length) default).drop r.len, 0, r.len⟩) ∧
      (r.len ≠ r.buf.length → r' = r) := by
  by_cases hl : r.len = r.buf.length
  · have hg := grown_gt r.buf.length
    have hc : r.len ≤ (List.replicate (grown r.buf.length) (default : T)).length := by simp; omega
    obtain ⟨w, c, l⟩ := moved h (grown r.buf.length) (by omega)
    refine ⟨⟨contents r ++ (List.replicate (grown r.buf.length) default).drop r.len, 0, r.len⟩, ?_, w, c, rfl, ?_, ?_, ?_, ?_⟩
    · unfold checkGrowth
      simp only [hl, if_true]
      have := toSlice_some_eq h _ hc
      unfold grown at this ⊢
      rw [hl] at this
      simp only [this, bind, Except.bind, pure, Except.pure]
    · simp only at l ⊢; omega
    · simp only at l ⊢; rw [if_pos hl]; exact l
    · intro _; rfl
    · intro hn; exact absurd hl hn
  · refine ⟨r, ?_, h, rfl, rfl, ?_, ?_, ?_, ?_⟩
    · simp [checkGrowth, hl, pure, Except.pure]
    · have := h.1; omega
    · simp [hl]
    · intro hn; exact absurd hn hl
    · intro _; rfl

theorem checkShrink_eq {r : Ring T} (h : WF r) :
    ∃ r', checkShrink r = .ok r' ∧ WF r' ∧ contents r' = contents r ∧ r'.len = r.len ∧
      r'.buf.length = (if r.buf.length > 1024 ∧ r.buf.length / 8 > r.len then r.buf.length / 8 else r.buf.length) ∧
      (r' = r ∨ (r.len ≤ r.buf.length / 8 ∧
        r' = ⟨contents r ++ (List.replicate (r.buf.length / 8) default).drop r.len, 0, r.len⟩)) := by
  by_cases hs : r.buf.length > 1024 ∧ r.buf.length / 8 > r.len
  · have hc : r.len ≤ (List.replicate (r.buf.length / 8) (default : T)).length := by simp; omega
    obtain ⟨w, c, l⟩ := moved h (r.buf.length / 8) (by omega)
    refine ⟨⟨contents r ++ (List.replicate (r.buf.length / 8) default).drop r.len, 0, r.len⟩, ?_, w, c, rfl, ?_, ?_⟩
    · unfold checkShrink
      simp only [hs, and_self, if_true]
      simp only [toSlice_some_eq h _ hc, bind, Except.bind, pure, Except.pure]
    · simp only at l ⊢; rw [if_pos hs]; exact l
    · right; exact ⟨by omega, rfl⟩
  · refine ⟨r, ?_, h, rfl, rfl, ?_, Or.inl rfl⟩
    · unfold checkShrink
      simp only [hs, if_false, pure, Except.pure]
    · simp [hs]

theorem append_eq {r : Ring T} (h : WF r) (v : T) :
    ∃ r', append r v = .ok r' ∧ WF r' ∧ contents r' = contents r ++ [v] := by
  obtain ⟨g, hg, w, c, hl, hlt, -⟩ := checkGrowth_eq h
  obtain ⟨w1, w2⟩ := w
  have hcl := contents_length ⟨w1, w2⟩
  unfold append
  simp only [hg, bind, Except.bind]
  generalize hi : (if g.st + g.len ≥ g.buf.length then g.st + g.len - g.buf.length else g.st + g.len) = i
  have hib : i < g.buf.length := by subst hi; split <;> omega
  simp only [goSet_nat hib, pure, Except.pure]
  have w' : WF (⟨g.buf.set i v, g.st, g.len + 1⟩ : Ring T) := ⟨by simp; omega, by simpa using w2⟩
  refine ⟨_, rfl, w', ?_⟩
  apply contents_eq_of w'
  · simp [← c, hcl]
  · intro k hk
    simp only at hk
    simp only [List.length_set]
    rw [List.getElem?_append, ← c, hcl, contents_getElem? ⟨w1, w2⟩]
    by_cases hkl : k < g.len
    · simp only [hkl, if_true]
      rw [List.getElem?_set_ne]
      subst hi; unfold wrapIdx; split <;> split <;> omega
    · have : k = g.len := by omega
      subst this
      have : wrapIdx g.buf.length (g.st + g.len) = i := hi
      simp [this, hib]

theorem prepend_eq {r : Ring T} (h : WF r) (v : T) :
    ∃ r', prepend r v = .ok r' ∧ WF r' ∧ contents r' = v :: contents r := by
  obtain ⟨g, hg, w, c, hl, hlt, -⟩ := checkGrowth_eq h
  obtain ⟨w1, w2⟩ := w
  have hcl := contents_length ⟨w1, w2⟩
  unfold prepend
  simp only [hg, bind, Except.bind]
  generalize hi : (if (g.st : Int) - 1 < 0 then (g.st : Int) - 1 + g.buf.length else (g.st : Int) - 1) = i
  have hib : 0 ≤ i ∧ i.toNat < g.buf.length := by subst hi; split <;> omega
  have hin : i.toNat = if g.st = 0 then g.buf.length - 1 else g.st - 1 := by
    subst hi; split <;> split <;> omega
  simp only [goSet_ok hib.1 hib.2, pure, Except.pure]
  have w' : WF (⟨g.buf.set i.toNat v, i.toNat, g.len + 1⟩ : Ring T) := ⟨by simp; omega, by simp; omega⟩
  refine ⟨_, rfl, w', ?_⟩
  apply contents_eq_of w'
  · simp [← c, hcl]
  · intro k hk
    simp only at hk
    simp only [List.length_set]
    cases k with
    | zero =>
      rw [wrapIdx, if_neg (by omega : ¬ (i.toNat + 0 ≥ g.buf.length))]
      simp [hib.2]
    | succ k =>
      rw [List.getElem?_cons_succ, ← c, contents_getElem? ⟨w1, w2⟩, if_pos (by omega)]
      rw [List.getElem?_set_ne]
      · congr 1
        rw [hin]; unfold wrapIdx
        split <;> split <;> split <;> omega
      · rw [hin]; unfold wrapIdx
        split <;> split <;> omega

theorem deleteFirst_eq {r : Ring T} (h : WF r) {v : T} {t : List T} (hc : contents r = v :: t) :
    ∃ r', deleteFirst r = .ok r' ∧ WF r' ∧ contents r' = t := by
  have hl0 := contents_length h
  rw [hc] at hl0
  simp at hl0
  obtain ⟨g, hg, w, c, hl, -⟩ := checkShrink_eq h
  have hcl := contents_length w
  have hw := w
  obtain ⟨w1, w2⟩ := w
  unfold deleteFirst
  rw [if_neg (by omega)]
  simp only [hg, bind, Except.bind]
  have hib : g.st < g.buf.length := by omega
  simp only [goSet_nat hib, pure, Except.pure]
  have w' : WF (⟨g.buf.set g.st default, if g.st + 1 = (g.buf.set g.st default).length then 0 else g.st + 1, g.len - 1⟩ : Ring T) :=
    ⟨by simp; omega, by simp; split <;> omega⟩
  refine ⟨_, rfl, w', ?_⟩
  apply contents_eq_of w'
  · simp; omega
  · intro k hk
    simp only at hk
    have hk' : t[k]? = (contents g)[k+1]? := by rw [c, hc]; simp
    rw [hk', contents_getElem? hw, if_pos (by omega)]
    simp only [List.length_set]
    rw [List.getElem?_set_ne]
    · congr 1; unfold wrapIdx
      split <;> split <;> split <;> omega
    · unfold wrapIdx; split <;> split <;> omega

theorem deleteLast_eq {r : Ring T} (h : WF r) (hc : contents r ≠ []) :
    ∃ r', deleteLast r = .ok r' ∧ WF r' ∧ contents r' = (contents r).dropLast := by
  have hl0 := contents_length h
  have hpos : 0 < r.len := by
    rw [← hl0]; exact List.length_pos_iff.mpr hc
  obtain ⟨g, hg, w, c, hl, -⟩ := checkShrink_eq h
  have hcl := contents_length w
  have hw := w
  obtain ⟨w1, w2⟩ := w
  unfold deleteLast
  rw [if_neg (by omega)]
  simp only [hg, bind, Except.bind]
  generalize hi : (if (g.st : Int) + g.len - 1 ≥ g.buf.length then (g.st : Int) + g.len - 1 - g.buf.length else (g.st : Int) + g.len - 1) = i
  have hib : 0 ≤ i ∧ i.toNat < g.buf.length := by subst hi; split <;> omega
  have hin : i.toNat = if g.st + (g.len - 1) ≥ g.buf.length then g.st + (g.len - 1) - g.buf.length else g.st + (g.len - 1) := by
    subst hi; split <;> split <;> omega
  simp only [goSet_ok hib.1 hib.2, pure, Except.pure]
  have w' : WF (⟨g.buf.set i.toNat default, g.st, g.len - 1⟩ : Ring T) :=
    ⟨by simp; omega, by simpa using w2⟩
  refine ⟨_, rfl, w', ?_⟩
  apply contents_eq_of w'
  · simp; omega
  · intro k hk
    simp only at hk
    rw [List.getElem?_dropLast, if_pos (by rw [← c, hcl]; omega), ← c, contents_getElem? hw, if_pos (by omega)]
    simp only [List.length_set]
    rw [List.getElem?_set_ne]
    rw [hin]; unfold wrapIdx
    split <;> split <;> omega

theorem atRef_eq {r : Ring T} (h : WF r) {i : Int} (h0 : 0 ≤ i) (h1 : i < r.len) :
    ∃ j : Nat, atRef r i = .ok (j : Int) ∧ j < r.buf.length ∧
      j = wrapIdx r.buf.length (r.st + i.toNat) := by
  obtain ⟨w1, w2⟩ := h
  have hj : (if r.st + i.toNat ≥ r.buf.length then r.st + i.toNat - r.buf.length else r.st + i.toNat) < r.buf.length := by
    split <;> omega
  refine ⟨_, ?_, hj, rfl⟩
  unfold atRef
  rw [if_neg (by omega)]
  have e : (if i + (r.st:Int) ≥ r.buf.length then i + (r.st:Int) - r.buf.length else i + (r.st:Int))
    = ((if r.st + i.toNat ≥ r.buf.length then r.st + i.toNat - r.buf.length else r.st + i.toNat : Nat) : Int) := by
    split <;> split <;> omega
  simp only [e]
  rw [if_pos]
  exact ⟨by omega, by simpa using hj⟩

theorem at_eq {r : Ring T} (h : WF r) {i : Int} (h0 : 0 ≤ i) (h1 : i < r.len) :
    ∃ v, at_ r i = .ok v ∧ (contents r)[i.toNat]? = some v := by
  obtain ⟨j, hj, hlt, hjv⟩ := atRef_eq h h0 h1
  refine ⟨r.buf[j], ?_, ?_⟩
  · simp [at_, hj, bind, Except.bind, goGet, hlt]
  · rw [contents_getElem? h, if_pos (by omega), ← hjv]; simp [hlt]

theorem set_eq {r : Ring T} (h : WF r) {i : Int} (h0 : 0 ≤ i) (h1 : i < r.len) (v : T) :
    ∃ r', set_ r i v = .ok r' ∧ WF r' ∧ contents r' = (contents r).set i.toNat v := by
  obtain ⟨j, hj, hlt, hjv⟩ := atRef_eq h h0 h1
  have w' : WF (⟨r.buf.set j v, r.st, r.len⟩ : Ring T) := ⟨by simpa using h.1, by simpa using h.2⟩
  refine ⟨_, by simp only [set_, hj, bind, Except.bind, goSet_nat hlt, pure, Except.pure], w', ?_⟩
  apply contents_eq_of w'
  · simp [contents_length h]
  · intro k hk
    simp only at hk
    obtain ⟨w1, w2⟩ := h
    rw [List.getElem?_set, contents_getElem? ⟨w1, w2⟩, if_pos hk]
    simp only [List.length_set]
    by_cases hik : i.toNat = k
    · subst hik
      simp [contents_length ⟨w1, w2⟩, hk, ← hjv, hlt]
    · rw [if_neg hik, List.getElem?_set_ne]
      subst hjv; unfold wrapIdx
      split <;> split <;> omega

theorem first_eq {r : Ring T} (h : WF r) {v : T} {t : List T} (hc : contents r = v :: t) :
    first r = .ok v := by
  have hl0 := contents_length h
  rw [hc] at hl0; simp at hl0
  have h0 := contents_getElem? h 0
  obtain ⟨w1, w2⟩ := h
  rw [hc, if_pos (by omega), wrapIdx, if_neg (by omega)] at h0
  simp at h0
  unfold first
  rw [if_neg (by omega)]
  exact goGet_nat h0.symm

theorem last_eq {r : Ring T} (h : WF r) {v : T} (hc : (contents r).getLast? = some v) :
    last r = .ok v := by
  have hl0 := contents_length h
  have hne : contents r ≠ [] := by intro hh; rw [hh] at hc; simp at hc
  have hpos : 0 < r.len := by rw [← hl0]; exact List.length_pos_iff.mpr hne
  rw [List.getLast?_eq_getElem?, hl0] at hc
  rw [contents_getElem? h, if_pos (by omega)] at hc
  obtain ⟨w1, w2⟩ := h
  unfold last
  rw [if_neg (by omega)]
  have e : (if (r.st : Int) + r.len - 1 ≥ r.buf.length then (r.st : Int) + r.len - 1 - r.buf.length else (r.st : Int) + r.len - 1)
    = ((if r.st + (r.len - 1) ≥ r.buf.length then r.st + (r.len - 1) - r.buf.length else r.st + (r.len - 1) : Nat) : Int) := by
    split <;> split <;> omega
  simp only [e]
  exact goGet_nat hc

theorem contents_nil_iff {r : Ring T} (h : WF r) : contents r = [] ↔ r.len = 0 := by
  rw [← contents_length h]; exact List.length_eq_zero_iff.symm

/-- One step of the ring is one step of the list. -/
theorem step_refines {r : Ring T} (h : WF r) (o : Op T) :
    WF (step r o).1 ∧ specStep (contents r) o = (contents (step r o).1, (step r o).2) := by
  have hcl := contents_length h
  cases o with
  | append v => obtain ⟨r', e, w, c⟩ := append_eq h v; simp [step, e, specStep, w, c]
  | push v => obtain ⟨r', e, w, c⟩ := append_eq h v; simp [step, e, specStep, w, c]
  | prepend v => obtain ⟨r', e, w, c⟩ := prepend_eq h v; simp [step, e, specStep, w, c]
  | pop =>
    cases hc : contents r with
    | nil =>
      have := (contents_nil_iff h).mp hc
      simp [step, pop, empty, this, specStep, hc, h]
    | cons v t =>
      have hne : r.len ≠ 0 := by rw [hc] at hcl; simp at hcl; omega
      obtain ⟨r', e, w, c⟩ := deleteFirst_eq h hc
      simp [step, pop, empty, hne, first_eq h hc, e, bind, Except.bind, pure, Except.pure, specStep, w, c]
  | deleteFirst =>
    cases hc : contents r with
    | nil =>
      have := (contents_nil_iff h).mp hc
      simp [step, deleteFirst, this, specStep, hc, h]
    | cons v t =>
      obtain ⟨r', e, w, c⟩ := deleteFirst_eq h hc
      simp [step, e, specStep, w, c]
  | deleteLast =>
    by_cases hc : contents r = []
    · have := (contents_nil_iff h).mp hc
      simp [step, deleteLast, this, specStep, hc, h]
    · obtain ⟨r', e, w, c⟩ := deleteLast_eq h hc
      simp [step, e, specStep, w, c, hc]
  | set i v =>
    by_cases hi : 0 ≤ i ∧ i < r.len
    · obtain ⟨r', e, w, c⟩ := set_eq h hi.1 hi.2 v
      simp [step, e, specStep, w, c, hi, hcl]
    · have : set_ r i v = .error "index out of bound" := by
        simp only [set_, atRef]; rw [if_pos (by omega)]; rfl
      simp [step, this, specStep, h, hcl, hi]
  | «at» i =>
    by_cases hi : 0 ≤ i ∧ i < r.len
    · obtain ⟨v, e, w⟩ := at_eq h hi.1 hi.2
      simp [step, e, specStep, w, hi, h]
    · have : at_ r i = .error "index out of bound" := by
        simp only [at_, atRef]; rw [if_pos (by omega)]; rfl
      by_cases h0 : 0 ≤ i
      · have hn : (contents r)[i.toNat]? = none := by rw [List.getElem?_eq_none]; omega
        simp [step, this, specStep, h, h0, hn]
      · simp [step, this, specStep, h, h0]
  | first =>
    cases hc : contents r with
    | nil =>
      have := (contents_nil_iff h).mp hc
      simp [step, first, this, specStep, hc, h]
    | cons v t => simp [step, first_eq h hc, specStep, hc, h]
  | last =>
    cases hc : (contents r).getLast? with
    | none =>
      have := (contents_nil_iff h).mp (by simpa using hc)
      simp [step, last, this, specStep, hc, h]
    | some v => simp [step, last_eq h hc, specStep, hc, h]
  | len => simp [step, specStep, h, Len, hcl]
  | isEmpty =>
    refine ⟨h, ?_⟩
    simp only [step, specStep, empty]
    congr 2
    rw [Bool.eq_iff_iff]; simp [contents_nil_iff h]
  | toSlice =>
    simp [step, specStep, h, toSlice_none_eq h]

theorem run_refines {r : Ring T} (h : WF r) (os : List (Op T)) :
    WF (run r os).1 ∧ specRun (contents r) os = (contents (run r os).1, (run r os).2) := by
  induction os generalizing r with
  | nil => exact ⟨h, rfl⟩
  | cons o os ih =>
    obtain ⟨w, e⟩ := step_refines h o
    obtain ⟨w2, e2⟩ := ih w
    refine ⟨w2, ?_⟩
    simp only [specRun, e, e2, run]

theorem made_wf {r : Ring T} {l : List T} (m : Made r l) : WF r ∧ contents r = l := by
  have ofs : ∀ l : List T, WF (ofSlice l) ∧ contents (ofSlice l) = l := by
    intro l; simp [ofSlice, WF, contents]
  cases m with
  | new => simp [new, WF, contents]
  | newLen n => simp [newLen, WF, contents]
  | newLenCap n c r h =>
    unfold newLenCap at h
    split at h
    · cases h; simp [WF, contents]
    · cases h
  | ofSlice => exact ofs _
  | copy =>
    unfold copy
    split
    · rename_i h0; have := List.eq_nil_of_length_eq_zero h0; subst this; simp [new, WF, contents]
    · simpa using ofs _

end Verif.Ring
