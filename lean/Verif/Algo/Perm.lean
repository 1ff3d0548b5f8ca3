import Verif.Algo.Lemmas
import Verif.Algo.Spec

/-! # The next permutation, on lists -/

namespace Verif.Algo

open Verif.Iter Verif.Sort

variable {T : Type} {lt : T → T → Bool}

section SWO

variable (h : StrictWeak lt)
include h

theorem asymm {x y : T} (hxy : lt x y = true) : lt y x = false := by
  cases hyx : lt y x with
  | false => rfl
  | true => have := h.trans x y x hxy hyx; rw [h.irrefl] at this; exact this.symm

/-- "Not less" is transitive. -/
theorem not_lt_trans {x y z : T} (h1 : lt y x = false) (h2 : lt z y = false) : lt z x = false := by
  cases hzx : lt z x with
  | false => rfl
  | true =>
    cases hxy : lt x y with
    | true => have := h.trans z x y hzx hxy; rw [h2] at this; exact this.symm
    | false =>
      cases hyz : lt y z with
      | true => have := h.trans y z x hyz hzx; rw [h1] at this; exact this.symm
      | false => have := (h.incomp x y z hxy h1 hyz h2).2; rw [hzx] at this; exact this

theorem lt_of_lt_of_not {x y z : T} (h1 : lt x y = true) (h2 : lt z y = false) : lt x z = true := by
  cases hxz : lt x z with
  | true => rfl
  | false => have := not_lt_trans h h2 hxz; rw [this] at h1; exact h1

theorem lt_of_not_of_lt {x y z : T} (h1 : lt y x = false) (h2 : lt y z = true) : lt x z = true := by
  cases hxz : lt x z with
  | true => rfl
  | false => have := not_lt_trans h hxz h1; rw [this] at h2; exact h2

omit h in
theorem equiv_iff {x y : T} : equiv lt x y = true ↔ lt x y = false ∧ lt y x = false := by
  unfold equiv; simp

theorem equiv_refl (x : T) : equiv lt x x = true := by simp [equiv, h.irrefl]

omit h in
theorem equiv_symm {x y : T} (e : equiv lt x y = true) : equiv lt y x = true := by
  rw [equiv_iff] at *; exact ⟨e.2, e.1⟩

theorem equiv_trans {x y z : T} (e : equiv lt x y = true) (e' : equiv lt y z = true) : equiv lt x z = true := by
  rw [equiv_iff] at *
  exact h.incomp x y z e.1 e.2 e'.1 e'.2

theorem equiv_congr {x y : T} (e : equiv lt x y = true) (t : T) : equiv lt t x = equiv lt t y := by
  rw [Bool.eq_iff_iff]
  exact ⟨fun a => equiv_trans h a e, fun a => equiv_trans h a (equiv_symm e)⟩

/-- The same number of elements of each equivalence class. -/
def SameCounts (lt : T → T → Bool) (a b : List T) : Prop := ∀ t, a.countP (equiv lt t) = b.countP (equiv lt t)

omit h in
theorem SameCounts.of_perm {a b : List T} (p : a.Perm b) : SameCounts lt a b := fun _ => p.countP_eq _

omit h in
theorem SameCounts.symm {a b : List T} (p : SameCounts lt a b) : SameCounts lt b a := fun t => (p t).symm

omit h in
theorem SameCounts.trans {a b c : List T} (p : SameCounts lt a b) (q : SameCounts lt b c) : SameCounts lt a c :=
  fun t => (p t).trans (q t)

/-- Removing equivalent elements. -/
theorem SameCounts.tail {x y : T} {a b : List T} (p : SameCounts lt (x :: a) (y :: b)) (e : equiv lt x y = true) :
    SameCounts lt a b := by
  intro t
  have := p t
  rw [List.countP_cons, List.countP_cons, equiv_congr h e t] at this
  omega

/-- Every element has an equivalent one on the other side. -/
theorem SameCounts.exists {a b : List T} (p : SameCounts lt a b) {x : T} (hx : x ∈ a) :
    ∃ y ∈ b, equiv lt x y = true := by
  have h1 : 0 < a.countP (equiv lt x) := List.countP_pos_iff.2 ⟨x, hx, equiv_refl h x⟩
  rw [p x] at h1
  exact List.countP_pos_iff.1 h1

/-- An ascending list is not above any rearrangement. -/
theorem ascending_min : ∀ (a c : List T), Ascending lt a → SameCounts lt c a → ¬ lexLt lt c a
  | [], _, _, _ => by simp [lexLt]
  | x :: a, [], _, p => by
    obtain ⟨y, hy, _⟩ := p.symm.exists h (x := x) (by simp)
    simp at hy
  | x :: a, y :: c, ha, p => by
    have hmin : lt y x = false := by
      obtain ⟨z, hz, e⟩ := p.exists h (x := y) (by simp)
      rw [equiv_iff] at e
      have : lt z x = false := by
        rcases List.mem_cons.1 hz with rfl | hz
        · exact h.irrefl _
        · exact (List.pairwise_cons.1 ha).1 z hz
      exact not_lt_trans h this e.1
    intro hl
    rcases hl with hl | ⟨e, hl⟩
    · rw [hmin] at hl; cases hl
    · exact ascending_min a c (List.pairwise_cons.1 ha).2 (p.tail h e) hl

/-- No later element is greater than an earlier one. -/
def Descending (lt : T → T → Bool) (l : List T) : Prop := l.Pairwise fun x y => lt x y = false

/-- A descending list is not below any rearrangement. -/
theorem descending_max : ∀ (a c : List T), Descending lt a → SameCounts lt c a → ¬ lexLt lt a c
  | [], [], _, _ => by simp [lexLt]
  | [], y :: c, _, p => by
    obtain ⟨z, hz, _⟩ := p.exists h (x := y) (by simp)
    simp at hz
  | x :: a, [], _, p => by simp [lexLt]
  | x :: a, y :: c, ha, p => by
    have hmax : lt x y = false := by
      obtain ⟨z, hz, e⟩ := p.exists h (x := y) (by simp)
      rw [equiv_iff] at e
      have : lt x z = false := by
        rcases List.mem_cons.1 hz with rfl | hz
        · exact h.irrefl _
        · exact (List.pairwise_cons.1 ha).1 z hz
      exact not_lt_trans h e.2 this
    intro hl
    rcases hl with hl | ⟨e, hl⟩
    · rw [hmax] at hl; cases hl
    · exact descending_max a c (List.pairwise_cons.1 ha).2 (p.tail h (equiv_symm e)) hl

theorem lexLt_append {p a b : List T} (hl : lexLt lt a b) : lexLt lt (p ++ a) (p ++ b) := by
  induction p with
  | nil => exact hl
  | cons x p ih => exact Or.inr ⟨equiv_refl h x, ih⟩

/-- The successor: with `P` the ascending reverse of the descending tail, `x` the element before it and
`y` the first element of `P` above `x`. -/
theorem successor_least {x y : T} {P1 P2 : List T}
    (hasc : Ascending lt (P1 ++ y :: P2)) (hP1 : ∀ z ∈ P1, lt x z = false) (hy : lt x y = true) :
    ∀ (pre C : List T), SameCounts lt C (pre ++ x :: (P1 ++ y :: P2).reverse) →
      lexLt lt (pre ++ x :: (P1 ++ y :: P2).reverse) C → ¬ lexLt lt C (pre ++ y :: (P1 ++ x :: P2)) := by
  intro pre
  induction pre with
  | nil =>
    intro C hC h1 h2
    cases C with
    | nil => simp [lexLt] at h1
    | cons c C =>
      simp only [List.nil_append] at hC h1 h2
      have hdesc : Descending lt (P1 ++ y :: P2).reverse := by
        unfold Descending; rw [List.pairwise_reverse]; exact hasc
      rcases h1 with h1 | ⟨e, h1⟩
      · -- c is above x
        have hyP2 : ∀ z ∈ P2, lt z y = false := by
          have := (List.pairwise_append.1 hasc).2.1
          exact (List.pairwise_cons.1 this).1
        have hcy : lt c y = false := by
          obtain ⟨z, hz, e⟩ := hC.exists h (x := c) (by simp)
          rw [equiv_iff] at e
          have hxz : lt x z = true := lt_of_lt_of_not h h1 e.2
          have : lt z y = false := by
            rcases List.mem_cons.1 hz with rfl | hz
            · rw [h.irrefl] at hxz; cases hxz
            · rw [List.mem_reverse, List.mem_append, List.mem_cons] at hz
              rcases hz with hz | rfl | hz
              · rw [hP1 z hz] at hxz; cases hxz
              · exact h.irrefl _
              · exact hyP2 z hz
          exact not_lt_trans h this e.1
        rcases h2 with h2 | ⟨e2, h2⟩
        · rw [hcy] at h2; cases h2
        · refine ascending_min h _ _ ?_ ?_ h2
          · -- P1 ++ x :: P2 ascending
            unfold Ascending at *
            rw [List.pairwise_append] at hasc ⊢
            obtain ⟨a1, a2, a3⟩ := hasc
            have hxP2 : ∀ z ∈ P2, lt z x = false := fun z hz =>
              not_lt_trans h (asymm h hy) (hyP2 z hz)
            refine ⟨a1, List.pairwise_cons.2 ⟨hxP2, (List.pairwise_cons.1 a2).2⟩, ?_⟩
            intro a ha b hb
            rcases List.mem_cons.1 hb with rfl | hb
            · exact hP1 a ha
            · exact a3 a ha b (by simp [hb])
          · have key : SameCounts lt (c :: C) (y :: (P1 ++ x :: P2)) := by
              refine hC.trans (SameCounts.of_perm ?_)
              refine List.Perm.trans (List.Perm.cons _ (List.reverse_perm _)) ?_
              have e1 : (x :: (P1 ++ y :: P2)).Perm (x :: y :: (P1 ++ P2)) := List.Perm.cons _ List.perm_middle
              have e2 : (y :: (P1 ++ x :: P2)).Perm (y :: x :: (P1 ++ P2)) := List.Perm.cons _ List.perm_middle
              exact e1.trans ((List.Perm.swap _ _ _).trans e2.symm)
            exact key.tail h e2
      · exact descending_max h _ _ hdesc (hC.tail h (equiv_symm e)) h1
  | cons p pre ih =>
    intro C hC h1 h2
    cases C with
    | nil => simp [lexLt] at h1
    | cons c C =>
      simp only [List.cons_append] at hC h1 h2
      rcases h1 with h1 | ⟨e, h1⟩
      · rcases h2 with h2 | ⟨e2, h2⟩
        · rw [asymm h h1] at h2; cases h2
        · rw [equiv_iff] at e2; rw [e2.2] at h1; cases h1
      · rcases h2 with h2 | ⟨e2, h2⟩
        · rw [equiv_iff] at e; rw [e.2] at h2; cases h2
        · exact ih C (hC.tail h e2) h1 h2

theorem successor {x y : T} {pre P1 P2 : List T}
    (hasc : Ascending lt (P1 ++ y :: P2)) (hP1 : ∀ z ∈ P1, lt x z = false) (hy : lt x y = true) :
    NextInOrder lt (pre ++ x :: (P1 ++ y :: P2).reverse) (pre ++ y :: (P1 ++ x :: P2)) where
  perm := by
    refine List.Perm.append_left _ (List.Perm.symm ?_)
    refine List.Perm.trans (List.Perm.cons _ (List.reverse_perm _)) ?_
    have e1 : (x :: (P1 ++ y :: P2)).Perm (x :: y :: (P1 ++ P2)) := List.Perm.cons _ List.perm_middle
    have e2 : (y :: (P1 ++ x :: P2)).Perm (y :: x :: (P1 ++ P2)) := List.Perm.cons _ List.perm_middle
    exact e1.trans ((List.Perm.swap _ _ _).trans e2.symm)
  greater := lexLt_append h (Or.inl hy)
  least l hl hgt := successor_least h hasc hP1 hy pre l (SameCounts.of_perm hl) hgt

theorem last_of_ascending_reverse {B : List T} (hasc : Ascending lt B.reverse) : LastInOrder lt B := by
  intro l hl
  refine descending_max h _ _ ?_ (SameCounts.of_perm hl)
  unfold Descending Ascending at *
  rwa [List.pairwise_reverse] at hasc

/-- Neighbours suffice. -/
theorem ascending_of_neighbours : ∀ (l : List T),
    (∀ t x y, l[t]? = some x → l[t + 1]? = some y → lt y x = false) → Ascending lt l
  | [], _ => List.Pairwise.nil
  | [x], _ => List.pairwise_singleton _ _
  | x :: y :: l, hn => by
    have ih := ascending_of_neighbours (y :: l) (fun t a b ha hb => hn (t + 1) a b (by simpa using ha) (by simpa using hb))
    refine List.pairwise_cons.2 ⟨?_, ih⟩
    have hyx : lt y x = false := hn 0 x y rfl rfl
    intro z hz
    rcases List.mem_cons.1 hz with rfl | hz
    · exact hyx
    · exact not_lt_trans h hyx ((List.pairwise_cons.1 ih).1 z hz)

end SWO

/-! ## On a view -/

variable {S It : Type} [RandIter S T It]

/-- Indexing inside `A ++ B`. -/
theorem getElem?_mid (A B : List T) (k : Nat) : (A ++ B)[A.length + k]? = B[k]? := by
  rw [List.getElem?_append_right (by omega)]; congr 1; omega

theorem isSortedUntil_list (h : StrictWeak lt) (v : View S T It) {s : S} (hs : v.ok s) {A P C : List T}
    (hd : v.elems s = A ++ P ++ C) (fuel : Nat) (hf : P.length ≤ fuel) :
    ∃ P1 P2, P = P1 ++ P2 ∧ Ascending lt P1 ∧
      isSortedUntil fuel lt (v.pt A.length) (v.pt (A.length + P.length)) s = (.ok (v.pt (A.length + P1.length)), s) ∧
      (P2 = [] ∨ ∃ y Q x R, P1 = Q ++ [y] ∧ P2 = x :: R ∧ lt x y = true) := by
  have hL := v.len s hs
  rw [hd] at hL
  simp only [List.length_append] at hL
  obtain ⟨k, k1, k2, e, hlow, hhigh⟩ := isSortedUntil_spec v hs lt (i := A.length) (j := A.length + P.length)
    (by omega) (by omega) fuel (by omega)
  have hidx : ∀ t, t < P.length → (v.elems s)[A.length + t]? = P[t]? := fun t ht => by
    rw [hd, List.append_assoc, getElem?_mid, List.getElem?_append_left ht]
  refine ⟨P.take (k - A.length), P.drop (k - A.length), (List.take_append_drop _ _).symm, ?_, ?_, ?_⟩
  · apply ascending_of_neighbours h
    intro t x y hx hy
    rw [List.getElem?_take] at hx hy
    split at hx
    · split at hy
      · rename_i h1 h2
        refine hlow (A.length + t) x y (by omega) (by omega) ?_ ?_
        · rw [hidx t (by omega)]; exact hx
        · rw [Nat.add_assoc, hidx (t + 1) (by omega)]; exact hy
      · cases hy
    · cases hx
  · rw [e, List.length_take, Nat.min_eq_left (by omega)]
    congr 3; omega
  · by_cases hk : k < A.length + P.length
    · right
      obtain ⟨hk1, hh⟩ := hhigh hk
      obtain ⟨q, hq⟩ : ∃ q, k = A.length + q + 1 := ⟨k - A.length - 1, by omega⟩
      have hq1 : q < P.length := by omega
      have hq2 : q + 1 < P.length := by omega
      refine ⟨P[q], P.take q, P[q + 1], P.drop (q + 2), ?_, ?_, ?_⟩
      · rw [show k - A.length = q + 1 by omega, List.take_add_one, List.getElem?_eq_getElem hq1]; rfl
      · rw [show k - A.length = q + 1 by omega, List.drop_eq_getElem_cons hq2]
      · refine hh _ _ ?_ ?_
        · rw [show k - 1 = A.length + q by omega, hidx q hq1, List.getElem?_eq_getElem hq1]
        · rw [show k = A.length + (q + 1) by omega, hidx _ hq2, List.getElem?_eq_getElem hq2]
    · left
      rw [List.drop_of_length_le (by omega)]

theorem upperBound_list (v : View S T It) {s : S} (hs : v.ok s) {A P1 P2 C : List T} (x : T)
    (hd : v.elems s = A ++ (P1 ++ P2) ++ C) (h1 : ∀ z ∈ P1, lt x z = false) (h2 : ∀ z ∈ P2, lt x z = true) :
    upperBound lt (v.pt A.length) (v.pt (A.length + (P1 ++ P2).length)) x s =
      (.ok (v.pt (A.length + P1.length)), s) := by
  have hL := v.len s hs
  rw [hd] at hL
  simp only [List.length_append] at hL
  have hidx : ∀ t, t < (P1 ++ P2).length → (v.elems s)[A.length + t]? = (P1 ++ P2)[t]? := fun t ht => by
    rw [hd, List.append_assoc, getElem?_mid, List.getElem?_append_left ht]
  rw [List.length_append] at *
  rw [upperBound_eq v lt x (by omega) (by omega)]
  obtain ⟨k, k1, k2, e, hk⟩ := upperBoundLoop_spec v hs lt x (P1.length + P2.length) A.length (by omega)
  rw [show A.length + (P1.length + P2.length) - A.length = P1.length + P2.length by omega, e]
  congr 3
  refine hk _ (by omega) (by omega) ?_ ?_
  · intro p z hp hp' hz
    rw [show p = A.length + (p - A.length) by omega, hidx _ (by omega), List.getElem?_append_left (by omega)] at hz
    exact h1 z (List.mem_of_getElem? hz)
  · intro p z hp hp' hz
    rw [show p = A.length + (p - A.length) by omega, hidx _ (by omega), List.getElem?_append_right (by omega)] at hz
    exact h2 z (List.mem_of_getElem? hz)

/-- Splitting an ascending list at the first element above `x`. -/
theorem split_above (h : StrictWeak lt) (x : T) : ∀ (P : List T), Ascending lt P →
    ∃ P1 P2, P = P1 ++ P2 ∧ (∀ z ∈ P1, lt x z = false) ∧ (∀ z ∈ P2, lt x z = true)
  | [], _ => ⟨[], [], rfl, by simp, by simp⟩
  | y :: P, ha => by
    cases hy : lt x y with
    | true =>
      refine ⟨[], y :: P, rfl, by simp, ?_⟩
      intro z hz
      rcases List.mem_cons.1 hz with rfl | hz
      · exact hy
      · exact lt_of_lt_of_not h hy ((List.pairwise_cons.1 ha).1 z hz)
    | false =>
      obtain ⟨P1, P2, e, h1, h2⟩ := split_above h x P (List.pairwise_cons.1 ha).2
      refine ⟨y :: P1, P2, by rw [e]; rfl, ?_, h2⟩
      intro z hz
      rcases List.mem_cons.1 hz with rfl | hz
      · exact hy
      · exact h1 z hz

/-- What `exchange` does to a decomposed list. -/
theorem exchange_mid (A B C : List T) (a b : T) :
    exchange (A ++ a :: (B ++ b :: C)) A.length (A.length + 1 + B.length) = A ++ b :: (B ++ a :: C) := by
  have e1 : (A ++ a :: (B ++ b :: C))[A.length]? = some a := by simp
  have e2 : (A ++ a :: (B ++ b :: C))[A.length + 1 + B.length]? = some b := by
    rw [Nat.add_assoc, getElem?_mid, Nat.add_comm 1, List.getElem?_cons_succ]; simp
  unfold exchange
  rw [e1, e2]
  simp only
  have e3 : (A ++ a :: (B ++ b :: C)).set A.length b = A ++ b :: (B ++ b :: C) := by
    rw [List.set_append_right _ _ (by omega)]; simp
  rw [e3, List.set_append_right _ _ (by omega), show A.length + 1 + B.length - A.length = B.length + 1 by omega,
    List.set_cons_succ, List.set_append_right _ _ (by omega)]
  simp

theorem exchange_comm (l : List T) {i j : Nat} (hi : i < l.length) (hj : j < l.length) :
    exchange l i j = exchange l j i := by
  apply List.ext_getElem?
  intro k
  rw [getElem?_exchange hi hj, getElem?_exchange hj hi]
  by_cases h1 : k = i
  · by_cases h2 : k = j
    · rw [if_pos h2, if_pos h1, ← h1, ← h2]
    · rw [if_neg h2, if_pos h1, if_pos h1]
  · by_cases h2 : k = j
    · rw [if_pos h2, if_neg h1, if_pos h2]
    · rw [if_neg h2, if_neg h1, if_neg h1, if_neg h2]

theorem reverseWindow_mid (A B C : List T) :
    reverseWindow (A ++ B ++ C) A.length (A.length + B.length) = A ++ B.reverse ++ C := by
  unfold reverseWindow
  have e1 : (A ++ B ++ C).take A.length = A := by simp [List.append_assoc]
  have e2 : ((A ++ B ++ C).drop A.length).take (A.length + B.length - A.length) = B := by
    rw [List.append_assoc, List.drop_left, Nat.add_sub_cancel_left, List.take_left]
  have e3 : (A ++ B ++ C).drop (A.length + B.length) = C := by
    rw [← List.length_append, List.drop_left]
  rw [e1, e2, e3]

/-- `NextPermutation` on the part `B` of a view. -/
theorem nextPermutation_list (h : StrictWeak lt) (v : View S T It) {s : S} (hs : v.ok s) {A B C : List T}
    (hd : v.elems s = A ++ B ++ C) (fuel : Nat) (hf : B.length < fuel) :
    ∃ ret B', nextPermutation fuel lt (v.pt A.length) (v.pt (A.length + B.length)) s =
        (.ok ret, v.put s (A ++ B' ++ C)) ∧
      ((ret = true ∧ NextInOrder lt B B') ∨
       (ret = false ∧ LastInOrder lt B ∧ Ascending lt B' ∧ B'.Perm B ∧ B' = B.reverse)) := by
  have hL := v.len s hs
  rw [hd] at hL
  simp only [List.length_append] at hL
  have hn := v.hn
  have hdr : v.rev.elems s = C.reverse ++ B.reverse ++ A.reverse := by
    show (v.elems s).reverse = _
    rw [hd]; simp
  have hput : v.put s (v.elems s) = s := v.put_elems s hs
  have ptF : (⟨v.pt (A.length + B.length)⟩ : Rev It) = v.rev.pt C.reverse.length := by
    show _ = (⟨v.pt (v.n - _)⟩ : Rev It)
    rw [List.length_reverse]; congr 2; omega
  have ptL : (⟨v.pt A.length⟩ : Rev It) = v.rev.pt (C.reverse.length + B.reverse.length) := by
    show _ = (⟨v.pt (v.n - _)⟩ : Rev It)
    rw [List.length_reverse, List.length_reverse]; congr 2; omega
  obtain ⟨P, P2, eP, hasc, eS, hcase⟩ := isSortedUntil_list h v.rev hs hdr fuel (by rw [List.length_reverse]; omega)
  have hBP : B = P2.reverse ++ P.reverse := by
    have := congrArg List.reverse eP
    rwa [List.reverse_reverse, List.reverse_append] at this
  have hBl : B.length = P2.length + P.length := by rw [hBP]; simp
  have base : (v.rev.pt (C.reverse.length + P.length)).base = v.pt (A.length + P2.length) := by
    show v.pt (v.n - _) = _
    rw [List.length_reverse]; congr 1; omega
  unfold nextPermutation
  rw [ptF, ptL, St.bind_ok eS, base]
  have heq : equal (v.rev.pt (C.reverse.length + P.length)) (v.rev.pt (C.reverse.length + B.reverse.length)) =
      .ok (decide (P2.length = 0)) := by
    rw [v.rev.equal_pt _ _ (by show _ ≤ v.n; rw [List.length_reverse]; omega)
      (by show _ ≤ v.n; rw [List.length_reverse, List.length_reverse]; omega)]
    congr 1
    exact decide_eq_decide.2 (by rw [List.length_reverse, List.length_reverse]; omega)
  rcases hcase with rfl | ⟨y, Q, x, R, eQ, eR, hxy⟩
  · -- already the last arrangement
    simp only [List.reverse_nil, List.nil_append, List.append_nil] at *
    have esw : permSwap lt (v.rev.pt C.length) (v.rev.pt (C.length + B.length)) (v.rev.pt (C.length + P.length)) s
        = (.ok (), s) := by
      unfold permSwap
      simp only [List.length_reverse] at heq
      rw [St.bind_lift heq, if_pos (by simp)]; rfl
    simp only [List.length_reverse, List.length_nil, Nat.add_zero] at *
    rw [St.bind_ok esw]
    have erev : reverse fuel (v.pt A.length) (v.pt (A.length + B.length)) s = (.ok (), v.put s (A ++ B.reverse ++ C)) := by
      have := reverse_put v hs fuel (v.elems s) A.length (A.length + B.length) (v.len s hs) (by omega) (by omega) (by omega)
      rw [hput, hd, reverseWindow_mid] at this
      exact this
    rw [St.bind_ok erev, St.bind_lift heq]
    refine ⟨false, B.reverse, by simp, Or.inr ⟨rfl, last_of_ascending_reverse h ?_, ?_, List.reverse_perm _, rfl⟩⟩
    · rw [eP]; exact hasc
    · rw [eP]; exact hasc
  · -- x is the element before the descending tail
    obtain ⟨P1, P2', ePP, hP1, hP2⟩ := split_above h x P hasc
    have hP2ne : P2' ≠ [] := by
      intro he
      rw [he, List.append_nil] at ePP
      have := hP1 y (by rw [← ePP, eQ]; simp)
      rw [this] at hxy; cases hxy
    obtain ⟨z, P3, rfl⟩ : ∃ z P3, P2' = z :: P3 := by
      cases P2' with
      | nil => exact absurd rfl hP2ne
      | cons z P3 => exact ⟨z, P3, rfl⟩
    -- the elements, backwards
    have hdr2 : v.rev.elems s = C.reverse ++ (P1 ++ z :: P3) ++ (x :: R ++ A.reverse) := by
      rw [hdr, eP, ePP, eR]; simp
    have hPl : P.length = P1.length + P3.length + 1 := by rw [ePP]; simp; omega
    have hP2l : P2.length = R.length + 1 := by rw [eR]; simp
    have hx : (v.rev.elems s)[C.reverse.length + P.length]? = some x := by
      rw [hdr2, ← ePP, ← List.length_append, List.getElem?_append_right (Nat.le_refl _), Nat.sub_self]
      rfl
    have hswap : exchange (v.rev.elems s) (C.reverse.length + P.length) (C.reverse.length + P1.length) =
        C.reverse ++ (P1 ++ x :: P3) ++ (z :: R ++ A.reverse) := by
      have e0 : v.rev.elems s = (C.reverse ++ P1) ++ z :: (P3 ++ x :: (R ++ A.reverse)) := by rw [hdr2]; simp
      have := exchange_mid (C.reverse ++ P1) P3 (R ++ A.reverse) z x
      rw [exchange_comm _ (by rw [e0]; simp; omega) (by rw [e0]; simp), e0]
      rw [List.length_append] at this
      rw [show C.reverse.length + P.length = C.reverse.length + P1.length + 1 + P3.length by omega, this]
      simp
    have esw : permSwap lt (v.rev.pt C.reverse.length) (v.rev.pt (C.reverse.length + B.reverse.length))
        (v.rev.pt (C.reverse.length + P.length)) s =
        (.ok (), v.put s (A ++ (R.reverse ++ z :: (P1 ++ x :: P3).reverse) ++ C)) := by
      unfold permSwap
      rw [St.bind_lift heq, if_neg (by simp; intro hc; simp [hc] at hP2l), St.bind_ok (v.rev.get_pt s _ x hs hx)]
      have hub := upperBound_list (lt := lt) v.rev hs (A := C.reverse) (P1 := P1) (P2 := z :: P3) x hdr2 hP1 hP2
      rw [← ePP] at hub
      rw [St.bind_ok hub]
      have hn' : v.rev.n = v.n := rfl
      have := swap_put v.rev hs (l := v.rev.elems s) (v.rev.len s hs) (i := C.reverse.length + P.length)
        (j := C.reverse.length + P1.length) (by rw [hn', List.length_reverse]; omega)
        (by rw [hn', List.length_reverse]; omega)
      rw [v.rev.put_elems s hs, hswap] at this
      rw [this]
      congr 1
      show v.put s _ = v.put s _
      congr 1
      simp
    rw [St.bind_ok esw]
    have erev : reverse fuel (v.pt (A.length + P2.length)) (v.pt (A.length + B.length))
        (v.put s (A ++ (R.reverse ++ z :: (P1 ++ x :: P3).reverse) ++ C)) =
        (.ok (), v.put s (A ++ (R.reverse ++ z :: (P1 ++ x :: P3)) ++ C)) := by
      rw [reverse_put v hs fuel _ _ _ (by simp; omega) (by omega) (by omega) (by omega)]
      congr 2
      have e1 : A ++ (R.reverse ++ z :: (P1 ++ x :: P3).reverse) ++ C =
          (A ++ (R.reverse ++ [z])) ++ (P1 ++ x :: P3).reverse ++ C := by simp
      have l1 : A.length + P2.length = (A ++ (R.reverse ++ [z])).length := by simp; omega
      have l2 : A.length + B.length = (A ++ (R.reverse ++ [z])).length + (P1 ++ x :: P3).reverse.length := by
        simp; omega
      rw [e1, l1, l2, reverseWindow_mid, List.reverse_reverse]
      simp
    rw [St.bind_ok erev, St.bind_lift heq]
    refine ⟨true, R.reverse ++ z :: (P1 ++ x :: P3), ?_, Or.inl ⟨rfl, ?_⟩⟩
    · have : (P2.length = 0) = False := by simp; intro hc; simp [hc] at hP2l
      simp [this]
    · have : B = R.reverse ++ x :: (P1 ++ z :: P3).reverse := by
        rw [hBP, eR, ePP]; simp
      rw [this]
      exact successor h (by rw [← ePP]; exact hasc) hP1 (hP2 z (by simp))

end Verif.Algo
