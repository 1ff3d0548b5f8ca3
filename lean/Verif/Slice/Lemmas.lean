import Verif.Slice.Model
import Verif.Iter.View

/-! # Memory lemmas for slices -/

namespace Verif.Slice

open Verif.Iter

variable {T : Type} [Inhabited T]
set_option linter.unusedSectionVars false

theorem getElem?_splice {A l : List T} {o : Nat} (h : o + l.length ≤ A.length) (k : Nat) :
    (splice A o l)[k]? = if k < o then A[k]? else if k < o + l.length then l[k - o]? else A[k]? := by
  unfold splice
  have e1 : (A.take o).length = o := by rw [List.length_take]; omega
  rw [List.append_assoc, List.getElem?_append, e1]
  split
  · rw [List.getElem?_take, if_pos (by assumption)]
  · rw [List.getElem?_append]
    split
    · rw [if_pos (by omega)]
    · rw [if_neg (by omega), List.getElem?_drop]; congr 1; omega

theorem length_splice {A l : List T} {o : Nat} (h : o + l.length ≤ A.length) :
    (splice A o l).length = A.length := by
  unfold splice; simp; omega

/-- The elements `[off, off+n)` of an array. -/
def window (A : List T) (off n : Nat) : List T := (A.drop off).take n

theorem getElem?_window (A : List T) (off n k : Nat) :
    (window A off n)[k]? = if k < n then A[off + k]? else none := by
  unfold window
  rw [List.getElem?_take]
  split
  · rw [List.getElem?_drop]
  · rfl

theorem length_window {A : List T} {off n : Nat} (h : off + n ≤ A.length) : (window A off n).length = n := by
  unfold window; simp; omega

theorem window_splice {A l : List T} {off n i : Nat} (h : off + n ≤ A.length) (hi : i + l.length ≤ n) :
    window (splice A (off + i) l) off n = splice (window A off n) i l := by
  apply List.ext_getElem?
  intro k
  rw [getElem?_window, getElem?_splice (by omega), getElem?_splice (by rw [length_window h]; omega),
    getElem?_window]
  by_cases h1 : k < n
  · simp only [h1, if_true]
    by_cases h2 : k < i
    · rw [if_pos (by omega), if_pos h2]
    · rw [if_neg (by omega), if_neg h2]
      by_cases h3 : k < i + l.length
      · rw [if_pos (by omega), if_pos h3]; congr 1; omega
      · rw [if_neg (by omega), if_neg h3]
  · simp only [h1, if_false]
    rw [if_neg (by omega), if_neg (by omega)]

theorem window_splice_append {A l : List T} {off n : Nat} (h : off + n + l.length ≤ A.length) :
    window (splice A (off + n) l) off (n + l.length) = window A off n ++ l := by
  apply List.ext_getElem?
  intro k
  rw [getElem?_window, getElem?_splice (by omega), List.getElem?_append, length_window (by omega),
    getElem?_window]
  by_cases h1 : k < n
  · rw [if_pos (by omega), if_pos (by omega), if_pos h1, if_pos h1]
  · rw [if_neg (show ¬ off + k < off + n by omega), if_neg h1]
    by_cases h3 : k < n + l.length
    · rw [if_pos h3, if_pos (by omega)]; congr 1; omega
    · rw [if_neg h3, List.getElem?_eq_none (by omega)]

theorem splice_window (A : List T) (off n : Nat) (h : off + n ≤ A.length) :
    splice A off (window A off n) = A := by
  apply List.ext_getElem?
  intro k
  rw [getElem?_splice (by rw [length_window h]; exact h), length_window h, getElem?_window]
  split
  · rfl
  · split
    · rw [if_pos (by omega)]; congr 1; omega
    · rfl

theorem splice_splice {A l l' : List T} {o : Nat} (h : o + l.length ≤ A.length) (hl : l'.length = l.length) :
    splice (splice A o l) o l' = splice A o l' := by
  apply List.ext_getElem?
  intro k
  rw [getElem?_splice (by rw [length_splice h]; omega), getElem?_splice h, getElem?_splice (by omega)]
  split
  · rfl
  · split
    · rfl
    · rw [if_neg (by omega)]

theorem splice_singleton {A : List T} {i : Nat} (v : T) (h : i < A.length) : splice A i [v] = A.set i v := by
  apply List.ext_getElem?
  intro k
  rw [getElem?_splice (by simp; omega), List.getElem?_set]
  simp only [List.length_cons, List.length_nil]
  split
  · rw [if_neg (by omega)]
  · split
    · have : k = i := by omega
      subst this
      rw [if_pos rfl]; simp
    · rw [if_neg (by omega)]

/-! ## Memory changes confined to a set of cells -/

/-- `h'` keeps every array of `h`, with the same length, and differs only in the cells `W a k`; it may
have further arrays. -/
def Upd (W : Nat → Nat → Prop) (h h' : Heap T) : Prop :=
  ∀ a A, h[a]? = some A → ∃ A', h'[a]? = some A' ∧ A'.length = A.length ∧ ∀ k, ¬ W a k → A'[k]? = A[k]?

theorem Upd.refl (W : Nat → Nat → Prop) (h : Heap T) : Upd W h h := fun _ A hA => ⟨A, hA, rfl, fun _ _ => rfl⟩

theorem Upd.trans {W : Nat → Nat → Prop} {h h' h'' : Heap T} (h1 : Upd W h h') (h2 : Upd W h' h'') :
    Upd W h h'' := by
  intro a A hA
  obtain ⟨A', e1, l1, f1⟩ := h1 a A hA
  obtain ⟨A'', e2, l2, f2⟩ := h2 a A' e1
  exact ⟨A'', e2, l2.trans l1, fun k hk => (f2 k hk).trans (f1 k hk)⟩

theorem Upd.mono {W W' : Nat → Nat → Prop} {h h' : Heap T} (h1 : Upd W h h')
    (hw : ∀ a k, a < h.length → W a k → W' a k) : Upd W' h h' := by
  intro a A hA
  obtain ⟨A', e1, l1, f1⟩ := h1 a A hA
  exact ⟨A', e1, l1, fun k hk => f1 k fun hw' => hk (hw a k (List.getElem?_eq_some_iff.1 hA).1 hw')⟩

theorem Upd.length_le {W : Nat → Nat → Prop} {h h' : Heap T} (u : Upd W h h') : h.length ≤ h'.length := by
  rcases Nat.eq_zero_or_pos h.length with h0 | h0
  · omega
  · obtain ⟨A', e, _⟩ := u (h.length - 1) h[h.length - 1] (by simp)
    have := (List.getElem?_eq_some_iff.1 e).1
    omega

/-- A valid slice stays valid. -/
theorem Upd.valid {W : Nat → Nat → Prop} {h h' : Heap T} (u : Upd W h h') {s : Slice} (hv : Valid h s) :
    Valid h' s := by
  obtain ⟨h1, h2, h3⟩ := hv
  refine ⟨h1, h2, ?_⟩
  cases hp : s.ptr with
  | nil => simpa [hp] using h3
  | zero => simpa [hp] using h3
  | arr a off =>
    rw [hp] at h3
    obtain ⟨A, hA, hl⟩ := h3
    obtain ⟨A', e, l, _⟩ := u a A hA
    exact ⟨A', e, by omega⟩

/-- The cells of a slice, up to its length. -/
def Cells (s : Slice) (n : Nat) (a k : Nat) : Prop :=
  ∃ off, s.ptr = .arr a off ∧ off ≤ k ∧ k < off + n

/-- The contents stay when no cell of the slice changes. -/
theorem Upd.contents {W : Nat → Nat → Prop} {h h' : Heap T} (u : Upd W h h') {s : Slice} (hv : Valid h s)
    (hd : ∀ a k, Cells s s.len a k → ¬ W a k) : contents h' s = contents h s := by
  obtain ⟨h1, h2, h3⟩ := hv
  cases hp : s.ptr with
  | nil => simp [Slice.contents, hp]
  | zero => simp [Slice.contents, hp]
  | arr a off =>
    rw [hp] at h3
    obtain ⟨A, hA, hl⟩ := h3
    obtain ⟨A', e, l, f⟩ := u a A hA
    simp only [Slice.contents, hp, e, hA, Option.getD_some]
    show window A' off s.len = window A off s.len
    apply List.ext_getElem?
    intro k
    rw [getElem?_window, getElem?_window]
    split
    · exact f _ (hd a _ ⟨off, hp, by omega, by omega⟩)
    · rfl

theorem length_contents {h : Heap T} {s : Slice} (hv : Valid h s) : (contents h s).length = s.len := by
  obtain ⟨h1, h2, h3⟩ := hv
  cases hp : s.ptr with
  | nil => rw [hp] at h3; simp at h3; simp [contents, hp]; omega
  | zero => rw [hp] at h3; simp at h3; simp [contents, hp]; omega
  | arr a off =>
    rw [hp] at h3
    obtain ⟨A, hA, hl⟩ := h3
    simp only [contents, hp, hA, Option.getD_some]
    exact length_window (by omega)

/-- Overwriting `[i, i + |l|)` of a slice's capacity. -/
theorem poke_upd {h : Heap T} {s : Slice} (hv : Valid h s) {i : Nat} {l : List T} (hl : i + l.length ≤ s.cap) :
    Upd (fun a k => ∃ off, s.ptr = .arr a off ∧ off + i ≤ k ∧ k < off + i + l.length) h (poke h s.ptr i l) := by
  obtain ⟨h1, h2, h3⟩ := hv
  cases hp : s.ptr with
  | nil => exact Upd.refl _ _
  | zero => exact Upd.refl _ _
  | arr a off =>
    rw [hp] at h3
    obtain ⟨A, hA, hlen⟩ := h3
    intro b B hB
    by_cases hb : b = a
    · subst hb
      rw [hA] at hB
      injection hB with hB
      subst hB
      refine ⟨splice A (off + i) l, ?_, length_splice (by omega), ?_⟩
      · simp [poke, hA]
      · intro k hk
        rw [getElem?_splice (by omega)]
        split
        · rfl
        · split
          · exfalso; exact hk ⟨off, rfl, by omega, by omega⟩
          · rfl
    · refine ⟨B, ?_, rfl, fun _ _ => rfl⟩
      have : ¬ a = b := fun h => hb h.symm
      simp [poke, hB, this]

theorem poke_contents {h : Heap T} {s : Slice} (hv : Valid h s) {i : Nat} {l : List T}
    (hl : i + l.length ≤ s.len) : contents (poke h s.ptr i l) s = splice (contents h s) i l := by
  obtain ⟨h1, h2, h3⟩ := hv
  have key : s.cap = 0 → l = [] ∧ i = 0 := fun hc => by
    constructor
    · apply List.eq_nil_of_length_eq_zero; omega
    · omega
  cases hp : s.ptr with
  | nil => rw [hp] at h3; obtain ⟨rfl, rfl⟩ := key h3; simp [contents, hp, splice]
  | zero => rw [hp] at h3; obtain ⟨rfl, rfl⟩ := key h3; simp [contents, hp, splice]
  | arr a off =>
    rw [hp] at h3
    obtain ⟨A, hA, hlen⟩ := h3
    simp only [contents, hp, poke, List.getElem?_modify, hA, if_true, Option.map_eq_map, Option.map_some,
      Option.getD_some]
    exact window_splice (by omega) hl

theorem alloc_upd (h : Heap T) (X : List T) : Upd (fun _ _ => False) h (h ++ [X]) := by
  intro a A hA
  refine ⟨A, ?_, rfl, fun _ _ => rfl⟩
  have := (List.getElem?_eq_some_iff.1 hA).1
  rw [List.getElem?_append_left this]; exact hA

/-! ## `append` -/

/-- What `append` leaves: the header, the contents, and which cells it may have written. -/
theorem appendMany_spec (extra : Nat) {h : Heap T} {s : Slice} (hv : Valid h s) (vs : List T)
    (hb : ((s.len + vs.length + extra : Nat) : Int) < 9223372036854775808) :
    ∃ s' h', appendMany extra s vs h = (.ok s', h') ∧ Valid h' s' ∧ s'.len = s.len + vs.length ∧
      contents h' s' = contents h s ++ vs ∧
      (s.len + vs.length ≤ s.cap → s'.ptr = s.ptr ∧ s'.cap = s.cap ∧
        Upd (fun a k => ∃ off, s.ptr = .arr a off ∧ off + s.len ≤ k ∧ k < off + s.len + vs.length) h h') ∧
      (s.cap < s.len + vs.length → s'.ptr = .arr h.length 0 ∧ Upd (fun _ _ => False) h h') := by
  unfold appendMany
  by_cases hc : s.len + vs.length ≤ s.cap
  · rw [if_pos hc]
    have u := poke_upd hv (i := s.len) (l := vs) hc
    have hv' := u.valid hv
    refine ⟨_, _, rfl, ⟨hc, hv.2.1, ?_⟩, rfl, ?_, fun _ => ⟨rfl, rfl, u⟩, fun hc' => by omega⟩
    · exact hv'.2.2
    · have h3 := hv.2.2
      have key : s.cap = 0 → vs = [] := fun hc0 => List.eq_nil_of_length_eq_zero (by omega)
      cases hp : s.ptr with
      | nil => rw [hp] at h3; simp [contents, hp, key h3]
      | zero => rw [hp] at h3; simp [contents, hp, key h3]
      | arr a off =>
        rw [hp] at h3
        obtain ⟨A, hA, hlen⟩ := h3
        simp only [contents, hp, poke, List.getElem?_modify, hA, if_true, Option.map_eq_map, Option.map_some,
          Option.getD_some]
        exact window_splice_append (by omega)
  · rw [if_neg hc]
    have hl := length_contents hv
    refine ⟨_, _, rfl, ⟨by dsimp only; omega, hb, ?_⟩, rfl, ?_, fun hc' => by omega,
      fun _ => ⟨rfl, alloc_upd _ _⟩⟩
    · refine ⟨contents h s ++ vs ++ List.replicate extra default, ?_, ?_⟩
      · simp
      · simp [hl]; omega
    · simp only [contents]
      rw [List.getElem?_append_right (by omega)]
      simp only [Nat.sub_self, List.getElem?_cons_zero, Option.getD_some, List.drop_zero]
      rw [List.take_append_of_le_length (by rw [List.length_append]; have := hl; unfold contents at this; omega)]
      rw [List.take_of_length_le]
      rw [List.length_append]; have := hl; unfold contents at this; omega

/-! ## Slice expressions -/

theorem reslice_spec {h : Heap T} {s : Slice} (hv : Valid h s) {i j : Nat} (hij : i ≤ j) (hj : j ≤ s.len) :
    ∃ r, reslice s i j = .ok r ∧ Valid h r ∧ r.len = j - i ∧ r.cap = s.cap - i ∧ (i = 0 → r.ptr = s.ptr) ∧
      contents h r = ((contents h s).drop i).take (j - i) ∧
      (i < s.cap → ∀ k (l : List T), poke h r.ptr k l = poke h s.ptr (i + k) l) := by
  obtain ⟨h1, h2, h3⟩ := hv
  unfold reslice
  rw [if_pos (by omega)]
  refine ⟨_, rfl, ⟨?_, ?_, ?_⟩, ?_, ?_, ?_, ?_, ?_⟩
  · dsimp only; omega
  · dsimp only; omega
  · cases hp : s.ptr with
    | nil => rw [hp] at h3; simp at h3; simp; omega
    | zero => rw [hp] at h3; simp at h3; simp; omega
    | arr a off =>
      rw [hp] at h3
      obtain ⟨A, hA, hlen⟩ := h3
      by_cases c : s.cap - i = 0
      · simp only [Int.toNat_natCast, c, if_true]; exact ⟨A, hA, by omega⟩
      · simp only [Int.toNat_natCast, c, if_false]; exact ⟨A, hA, by omega⟩
  · dsimp only; omega
  · simp
  · intro hi; subst hi
    cases hp : s.ptr <;> simp
  · have hz : s.cap = 0 → j - i = 0 := by omega
    cases hp : s.ptr with
    | nil => simp [contents, hp]
    | zero => simp [contents, hp]
    | arr a off =>
      rw [hp] at h3
      obtain ⟨A, hA, hlen⟩ := h3
      simp only [contents, hp, Int.toNat_natCast]
      by_cases c : s.cap - i = 0
      · simp only [c, if_true]
        have : j - i = 0 := by omega
        have e : ((j : Int) - i).toNat = 0 := by omega
        rw [this, e]; simp
      · simp only [c, if_false, hA, Option.getD_some]
        have e : ((j : Int) - i).toNat = j - i := by omega
        rw [e]
        show window A (off + i) (j - i) = window (window A off s.len) i (j - i)
        apply List.ext_getElem?
        intro k
        rw [getElem?_window, getElem?_window, getElem?_window]
        by_cases c1 : k < j - i
        · rw [if_pos c1, if_pos c1, if_pos (by omega)]; congr 1; omega
        · rw [if_neg c1, if_neg c1]
  · intro hi k l
    cases hp : s.ptr with
    | nil => rfl
    | zero => rfl
    | arr a off =>
      have : s.cap - i ≠ 0 := by omega
      simp only [Int.toNat_natCast, this, if_false, poke]
      rw [Nat.add_assoc]

/-! ## Slices as views -/

theorem Valid.cases_ptr {h : Heap T} {s : Slice} (hv : Valid h s) :
    s.len = 0 ∨ ∃ a off A, s.ptr = .arr a off ∧ h[a]? = some A ∧ off + s.cap ≤ A.length := by
  obtain ⟨h1, h2, h3⟩ := hv
  cases hp : s.ptr with
  | nil => rw [hp] at h3; exact Or.inl (by simp at h3; omega)
  | zero => rw [hp] at h3; exact Or.inl (by simp at h3; omega)
  | arr a off =>
    rw [hp] at h3
    obtain ⟨A, hA, hlen⟩ := h3
    exact Or.inr ⟨a, off, A, rfl, hA, hlen⟩

theorem poke_nil {h : Heap T} {s : Slice} (hv : Valid h s) (i : Nat) :
    poke h s.ptr i [] = h := by
  cases hp : s.ptr with
  | nil => rfl
  | zero => rfl
  | arr a off =>
    obtain ⟨_, _, h3⟩ := hv
    rw [hp] at h3
    obtain ⟨A, hA, hlen⟩ := h3
    simp only [poke]
    apply List.ext_getElem?
    intro b
    rw [List.getElem?_modify]
    split
    · rename_i hb; subst hb
      rw [hA]; simp [splice, List.take_append_drop]
    · simp

theorem poke_poke {h : Heap T} {s : Slice} (hv : Valid h s) {l l' : List T} (hl : l.length ≤ s.cap)
    (hl' : l'.length = l.length) : poke (poke h s.ptr 0 l) s.ptr 0 l' = poke h s.ptr 0 l' := by
  cases hp : s.ptr with
  | nil => rfl
  | zero => rfl
  | arr a off =>
    obtain ⟨_, _, h3⟩ := hv
    rw [hp] at h3
    obtain ⟨A, hA, hlen⟩ := h3
    simp only [poke]
    apply List.ext_getElem?
    intro b
    rw [List.getElem?_modify, List.getElem?_modify, List.getElem?_modify]
    by_cases hb : a = b
    · subst hb
      simp only [hA, if_true, Option.map_eq_map, Option.map_some]
      rw [splice_splice (by omega) hl']
    · simp [hb]

theorem poke_contents_self {h : Heap T} {s : Slice} (hv : Valid h s) :
    poke h s.ptr 0 (contents h s) = h := by
  cases hp : s.ptr with
  | nil => rfl
  | zero => rfl
  | arr a off =>
    obtain ⟨h1, _, h3⟩ := hv
    rw [hp] at h3
    obtain ⟨A, hA, hlen⟩ := h3
    simp only [poke, contents, hp]
    apply List.ext_getElem?
    intro b
    rw [List.getElem?_modify]
    by_cases hb : a = b
    · subst hb
      simp only [hA, if_true, Option.map_eq_map, Option.map_some, Option.getD_some]
      have := splice_window A off s.len (by omega)
      unfold window at this
      rw [Nat.add_zero, this]
    · simp [hb]

theorem poke_one {h : Heap T} {s : Slice} (hv : Valid h s) {i : Nat} (v : T) (hi : i < s.len) :
    poke h s.ptr i [v] = poke h s.ptr 0 ((contents h s).set i v) := by
  cases hp : s.ptr with
  | nil => rfl
  | zero => rfl
  | arr a off =>
    obtain ⟨h1, _, h3⟩ := hv
    rw [hp] at h3
    obtain ⟨A, hA, hlen⟩ := h3
    simp only [poke, contents, hp]
    apply List.ext_getElem?
    intro b
    rw [List.getElem?_modify, List.getElem?_modify]
    by_cases hb : a = b
    · subst hb
      simp only [hA, if_true, Option.map_eq_map, Option.map_some, Option.getD_some, Option.some.injEq]
      show splice A (off + i) [v] = splice A (off + 0) ((window A off s.len).set i v)
      have hwl : (window A off s.len).length = s.len := length_window (by omega)
      apply List.ext_getElem?
      intro k
      rw [getElem?_splice (by simp; omega), getElem?_splice (by rw [List.length_set]; omega), List.length_set,
        List.getElem?_set, hwl, getElem?_window]
      simp only [List.length_cons, List.length_nil]
      by_cases c1 : k < off
      · rw [if_pos (by omega), if_pos (by omega)]
      · rw [if_neg (show ¬ k < off + 0 by omega)]
        by_cases c2 : k < off + i
        · rw [if_pos c2, if_pos (by omega), if_neg (by omega), if_pos (by omega)]; congr 1; omega
        · rw [if_neg c2]
          by_cases c3 : k = off + i
          · subst c3; rw [if_pos (by omega), if_pos (by omega), if_pos (by omega), if_pos (by omega)]; simp
          · rw [if_neg (by omega)]
            by_cases c4 : k < off + s.len
            · rw [if_pos (by omega), if_neg (by omega), if_pos (by omega)]; congr 1; omega
            · rw [if_neg (by omega)]
    · simp [hb]

theorem load_ok {h : Heap T} {s : Slice} {i : Nat} {x : T} (hx : (contents h s)[i]? = some x) :
    load s i h = (.ok x, h) := by
  unfold load
  rw [if_pos (by omega)]
  simp [hx]

theorem store_ok {h : Heap T} {s : Slice} {i : Nat} (v : T) (hi : i < s.len) :
    store s i v h = (.ok (), poke h s.ptr i [v]) := by
  unfold store
  rw [if_pos (by omega)]
  simp

/-- The positions `0 … len` of a slice, as iterators. -/
def view (s : Slice) (hc : (s.cap : Int) < 9223372036854775808) (hlc : s.len ≤ s.cap) :
    View (Heap T) T (SIter T) where
  n := s.len
  pt i := ⟨i, s⟩
  ok h := Valid h s
  elems h := contents h s
  put h l := poke h s.ptr 0 l
  hn := by omega
  len h hv := length_contents hv
  elems_put h l hv hl := by
    rw [poke_contents hv (by omega)]
    have := length_contents hv
    unfold splice; simp [hl]; omega
  ok_put h l hv hl := (poke_upd hv (by omega)).valid hv
  put_put h l l' hv hl hl' := poke_poke hv (by omega) (by omega)
  put_elems h hv := poke_contents_self hv
  next_pt i hi := by
    show SIter.inc _ = _
    unfold SIter.inc
    rw [if_neg (by simp; omega)]
    rfl
  prev_pt i hi := by
    show SIter.dec _ = _
    unfold SIter.dec
    rw [if_neg (by simp)]
    simp
  get_pt h i x hv hx := load_ok hx
  set_pt h i v hv hi := by
    show store s i v h = _
    rw [store_ok v hi, poke_one hv v hi]
  equal_pt i j hi hj := by
    show (if !referenceEqual s s then _ else _) = _
    simp [referenceEqual]
    omega
  add_pt i j hi hj := by
    show SIter.advance _ _ = _
    unfold SIter.advance
    simp only
    have : wrap64 ((i : Int) + ((j : Int) - i)) = j := by
      rw [wrap64_id (by unfold isInt64; omega)]; omega
    rw [this, if_neg (by omega)]
  pos_pt i j hi hj := rfl
  pos_int i hi := by
    show isInt64 (i : Int) ∧ _ < (i : Int)
    unfold isInt64; omega

end Verif.Slice
