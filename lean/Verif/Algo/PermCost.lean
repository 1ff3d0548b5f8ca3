import Verif.Algo.Effect
import Verif.Algo.Enum
import Mathlib.Data.Nat.Factorial.Basic
import Mathlib.Algebra.BigOperators.Group.Finset.Piecewise
import Mathlib.Algebra.Order.BigOperators.Group.Finset

/-!
# What a full enumeration costs

One call of `NextPermutation` may compare every pair of neighbours (C80). Here the comparator counts its
calls, and the calls of a whole enumeration are added up: at most four per arrangement.
-/

namespace Verif.Algo

open Verif.Iter Verif.Sort Verif.Slice

variable {S T It : Type} [RandIter S T It]

/-- The comparator answers by `lt`; it may do anything to memory outside the range, such as counting its
calls. -/
structure Honest (v : View S T It) (comp : Cmp S T) (calls : S → Nat) (lt : T → T → Bool) : Prop
    extends Tame v comp calls where
  ans : ∀ s a b, v.ok s → (comp a b s).1 = .ok (lt a b)

theorem Honest.rev {v : View S T It} {comp : Cmp S T} {calls : S → Nat} {lt : T → T → Bool}
    (t : Honest v comp calls lt) : Honest v.rev comp calls lt :=
  { t.toTame.rev with ans := t.ans }

/-- One call of an honest comparator. -/
theorem Honest.step {v : View S T It} {comp : Cmp S T} {calls : S → Nat} {lt : T → T → Bool}
    (t : Honest v comp calls lt) {s : S} (hs : v.ok s) (a b : T) :
    ∃ s', comp a b s = (.ok (lt a b), s') ∧ v.ok s' ∧ v.elems s' = v.elems s ∧ calls s' = calls s + 1 :=
  ⟨(comp a b s).2, by rw [← t.ans s a b hs], t.ok s a b hs, t.elems s a b hs, t.count s a b hs⟩

/-! ## The same results as with the pure comparator -/

theorem upperBoundLoopM_sim {v : View S T It} {comp : Cmp S T} {calls : S → Nat} {lt : T → T → Bool}
    (t : Honest v comp calls lt) (value : T) {s0 : S} (hs0 : v.ok s0) : ∀ (b count i : Nat) (s : S), v.ok s →
    v.elems s = v.elems s0 → i + count ≤ v.n → count < 2 ^ b →
    ∃ s', upperBoundLoopM comp value (v.pt i) count s = ((upperBoundLoop lt value (v.pt i) count s0).1, s') ∧
      v.ok s' ∧ v.elems s' = v.elems s0 ∧ calls s' ≤ calls s + b := by
  intro b
  induction b with
  | zero =>
    intro count i s hs he hi hb
    have : count = 0 := by simpa using hb
    subst this
    unfold upperBoundLoopM upperBoundLoop
    rw [if_neg (by omega), if_neg (by omega)]
    exact ⟨s, rfl, hs, he, by omega⟩
  | succ b ih =>
    intro count i s hs he hi hb
    have hL := v.len s hs
    unfold upperBoundLoopM upperBoundLoop
    by_cases h0 : 0 < count
    · rw [if_pos h0, if_pos h0]
      obtain ⟨x, hx⟩ : ∃ x, (v.elems s)[i + count / 2]? = some x := ⟨_, List.getElem?_eq_getElem (by omega)⟩
      have hx0 := hx
      rw [he] at hx0
      have ha := v.add_pt i (i + count / 2) (by omega) (by omega)
      rw [show (((i + count / 2 : Nat) : Int) - (i : Int)) = ((count / 2 : Nat) : Int) by omega] at ha
      obtain ⟨s1, e1, ok1, el1, c1⟩ := t.step hs value x
      rw [St.bind_lift ha, St.bind_ok (v.get_pt s _ x hs hx), St.bind_ok e1]
      rw [St.bind_lift ha, St.bind_ok (v.get_pt s0 _ x hs0 hx0)]
      rw [Nat.pow_succ] at hb
      cases hc : lt value x with
      | true =>
        rw [if_neg (by simp), if_neg (by simp)]
        obtain ⟨s', e, h1, h2, h3⟩ := ih (count / 2) i s1 ok1 (el1.trans he) (by omega) (by omega)
        exact ⟨s', e, h1, h2, by omega⟩
      | false =>
        rw [if_pos (by simp), if_pos (by simp), St.bind_lift (v.next_pt (i + count / 2) (by omega)),
          St.bind_lift (v.next_pt (i + count / 2) (by omega))]
        obtain ⟨s', e, h1, h2, h3⟩ := ih (count - (count / 2 + 1)) (i + count / 2 + 1) s1 ok1 (el1.trans he)
          (by omega) (by omega)
        exact ⟨s', e, h1, h2, by omega⟩
    · rw [if_neg h0, if_neg h0]
      exact ⟨s, rfl, hs, he, by omega⟩

theorem upperBoundM_sim {v : View S T It} {comp : Cmp S T} {calls : S → Nat} {lt : T → T → Bool}
    (t : Honest v comp calls lt) (value : T) {s0 s : S} (hs0 : v.ok s0) (hs : v.ok s) (he : v.elems s = v.elems s0)
    {i j b : Nat} (hij : i ≤ j) (hj : j ≤ v.n) (hb : j - i < 2 ^ b) :
    ∃ s', upperBoundM comp (v.pt i) (v.pt j) value s = ((upperBound lt (v.pt i) (v.pt j) value s0).1, s') ∧
      v.ok s' ∧ v.elems s' = v.elems s0 ∧ calls s' ≤ calls s + b := by
  rw [upperBound_eq v lt value hj hij]
  unfold upperBoundM
  rw [St.bind_lift (v.distance_pt (by omega) hj), if_neg (by omega), show ((j : Int) - i).toNat = j - i by omega]
  exact upperBoundLoopM_sim t value hs0 b (j - i) i s hs he (by omega) hb

theorem isSortedLoopM_sim {v : View S T It} {comp : Cmp S T} {calls : S → Nat} {lt : T → T → Bool}
    (t : Honest v comp calls lt) {s0 : S} (hs0 : v.ok s0) {j : Nat} (hj : j ≤ v.n) : ∀ (fuel p : Nat) (s : S),
    v.ok s → v.elems s = v.elems s0 → p + 1 ≤ j → j - p ≤ fuel →
    ∃ s', isSortedLoopM comp (v.pt j) fuel (v.pt p) (v.pt (p + 1)) s =
        ((isSortedLoop lt (v.pt j) fuel (v.pt p) (v.pt (p + 1)) s0).1, s') ∧ v.ok s' ∧ v.elems s' = v.elems s0 := by
  intro fuel
  induction fuel with
  | zero => intro p s hs he h1 h2; omega
  | succ fuel ih =>
    intro p s hs he h1 h2
    have hL := v.len s hs
    unfold isSortedLoopM isSortedLoop
    rw [St.bind_lift (v.equal_pt (p + 1) j (by omega) hj), St.bind_lift (v.equal_pt (p + 1) j (by omega) hj)]
    by_cases h0 : p + 1 = j
    · rw [if_pos (by simpa using h0), if_pos (by simpa using h0)]
      exact ⟨s, rfl, hs, he⟩
    · rw [if_neg (by simpa using h0), if_neg (by simpa using h0)]
      obtain ⟨x, hx⟩ : ∃ x, (v.elems s)[p]? = some x := ⟨_, List.getElem?_eq_getElem (by omega)⟩
      obtain ⟨y, hy⟩ : ∃ y, (v.elems s)[p + 1]? = some y := ⟨_, List.getElem?_eq_getElem (by omega)⟩
      obtain ⟨s1, e1, ok1, el1, c1⟩ := t.step hs y x
      rw [St.bind_ok (v.get_pt s _ y hs hy), St.bind_ok (v.get_pt s _ x hs hx), St.bind_ok e1]
      rw [he] at hx hy
      rw [St.bind_ok (v.get_pt s0 _ y hs0 hy), St.bind_ok (v.get_pt s0 _ x hs0 hx)]
      cases hc : lt y x with
      | true =>
        rw [if_pos rfl, if_pos rfl]
        exact ⟨s1, rfl, ok1, el1.trans he⟩
      | false =>
        rw [if_neg (by simp), if_neg (by simp), St.bind_lift (v.next_pt (p + 1) (by omega)),
          St.bind_lift (v.next_pt (p + 1) (by omega))]
        exact ih (p + 1) s1 ok1 (el1.trans he) (by omega) (by omega)

theorem isSortedUntilM_sim {v : View S T It} {comp : Cmp S T} {calls : S → Nat} {lt : T → T → Bool}
    (t : Honest v comp calls lt) {s0 s : S} (hs0 : v.ok s0) (hs : v.ok s) (he : v.elems s = v.elems s0)
    {i j : Nat} (hij : i ≤ j) (hj : j ≤ v.n) (fuel : Nat) (hf : j - i ≤ fuel) :
    ∃ s', isSortedUntilM fuel comp (v.pt i) (v.pt j) s = ((isSortedUntil fuel lt (v.pt i) (v.pt j) s0).1, s') ∧
      v.ok s' ∧ v.elems s' = v.elems s0 := by
  unfold isSortedUntilM isSortedUntil
  rw [St.bind_lift (v.equal_pt i j (by omega) hj), St.bind_lift (v.equal_pt i j (by omega) hj)]
  by_cases h0 : i = j
  · rw [if_pos (by simpa using h0), if_pos (by simpa using h0)]
    exact ⟨s, rfl, hs, he⟩
  · rw [if_neg (by simpa using h0), if_neg (by simpa using h0), St.bind_lift (v.next_pt i (by omega)),
      St.bind_lift (v.next_pt i (by omega))]
    exact isSortedLoopM_sim t hs0 hj fuel i s hs he (by omega) hf

theorem View.pt_inj (v : View S T It) {i j : Nat} (hi : i ≤ v.n) (hj : j ≤ v.n) (h : v.pt i = v.pt j) : i = j := by
  have := v.equal_pt i j hi hj
  rw [h, v.equal_pt j j hj hj] at this
  simpa using this

/-- Length of the longest suffix without an ascent. -/
def tailLen (lt : T → T → Bool) : List T → Nat
  | [] => 0
  | x :: l =>
    if tailLen lt l = l.length then
      match l with
      | [] => 1
      | y :: _ => if lt x y then l.length else l.length + 1
    else tailLen lt l

theorem tailLen_le (lt : T → T → Bool) : ∀ l : List T, tailLen lt l ≤ l.length
  | [] => Nat.le_refl _
  | x :: l => by
    have := tailLen_le lt l
    unfold tailLen
    rw [List.length_cons]
    split
    · split
      · simp
      · split <;> omega
    · omega

/-- A list without an ascent is its own tail. -/
theorem tailLen_desc {lt : T → T → Bool} : ∀ D : List T, D.Pairwise (fun x y => lt x y = false) →
    tailLen lt D = D.length
  | [], _ => rfl
  | x :: D, h => by
    rw [List.pairwise_cons] at h
    have ih := tailLen_desc D h.2
    unfold tailLen
    rw [if_pos ih]
    cases D with
    | nil => rfl
    | cons y D =>
      have hy := h.1 y (by simp)
      simp [hy]

/-- The tail begins after the last ascent. -/
theorem tailLen_split {lt : T → T → Bool} {D : List T} {x y : T} {E : List T} (hD : D.Pairwise (fun x y => lt x y = false))
    (eD : D = y :: E) (hxy : lt x y = true) : ∀ R : List T, tailLen lt (R ++ x :: D) = D.length := by
  have h0 : tailLen lt (x :: D) = D.length := by
    have := tailLen_desc D hD
    subst eD
    unfold tailLen
    rw [if_pos this]
    simp [hxy]
  intro R
  induction R with
  | nil => exact h0
  | cons z R ih =>
    rw [List.cons_append]
    unfold tailLen
    rw [if_neg (by rw [ih]; simp; omega), ih]

/-- `NextPermutation` with an honest comparator: the result is that of the pure comparator, and the
comparator has been called at most twice per element of the longest descending suffix. -/
theorem nextPermutationM_honest {v : View S T It} {comp : Cmp S T} {calls : S → Nat} {lt : T → T → Bool}
    (h : StrictWeak lt) (t : Honest v comp calls lt) {s : S} (hs : v.ok s) {A B C : List T}
    (hd : v.elems s = A ++ B ++ C) (fuel : Nat) (hf : B.length < fuel) {b : Nat} (hb : tailLen lt B < 2 ^ b) :
    ∃ ret B' s1, nextPermutationM fuel comp (v.pt A.length) (v.pt (A.length + B.length)) s =
        (.ok ret, v.put s1 (A ++ B' ++ C)) ∧ v.ok s1 ∧ v.elems s1 = v.elems s ∧
      ((ret = true ∧ NextInOrder lt B B') ∨
       (ret = false ∧ LastInOrder lt B ∧ Ascending lt B' ∧ B'.Perm B ∧ B' = B.reverse)) ∧
      calls s1 ≤ calls s + tailLen lt B + b := by
  have hL := v.len s hs
  rw [hd] at hL
  simp only [List.length_append] at hL
  obtain ⟨ret, B', eN, hcN⟩ := nextPermutation_list h v hs hd fuel hf
  have hB'l : (A ++ B' ++ C).length = v.n := by
    have : B'.length = B.length := by
      rcases hcN with ⟨-, hn⟩ | ⟨-, -, -, hp, -⟩
      · exact hn.perm.length_eq
      · exact hp.length_eq
    simp; omega
  have hdr : v.rev.elems s = C.reverse ++ B.reverse ++ A.reverse := by
    show (v.elems s).reverse = _
    rw [hd]; simp
  have ptF : (⟨v.pt (A.length + B.length)⟩ : Rev It) = v.rev.pt C.reverse.length := by
    show _ = (⟨v.pt (v.n - _)⟩ : Rev It)
    rw [List.length_reverse]; congr 2; omega
  have ptL : (⟨v.pt A.length⟩ : Rev It) = v.rev.pt (C.reverse.length + B.reverse.length) := by
    show _ = (⟨v.pt (v.n - _)⟩ : Rev It)
    rw [List.length_reverse, List.length_reverse]; congr 2; omega
  have rn : v.rev.n = v.n := rfl
  obtain ⟨P, P2, eP, hasc, eS, hcase⟩ := isSortedUntil_list h v.rev hs hdr fuel (by rw [List.length_reverse]; omega)
  have hBP : B = P2.reverse ++ P.reverse := by
    have := congrArg List.reverse eP
    rwa [List.reverse_reverse, List.reverse_append] at this
  have hBl : B.length = P2.length + P.length := by rw [hBP]; simp
  -- the tail is what the scan found
  have hdesc : P.reverse.Pairwise (fun x y => lt x y = false) := by
    rw [List.pairwise_reverse]; exact hasc
  have htail : tailLen lt B = P.length := by
    rcases hcase with rfl | ⟨y, Q, x, R, eQ, eR, hxy⟩
    · rw [hBP, List.reverse_nil, List.nil_append, tailLen_desc _ hdesc, List.length_reverse]
    · rw [hBP, eR, List.reverse_cons, List.append_assoc, List.singleton_append,
        tailLen_split hdesc (E := Q.reverse) (by rw [eQ]; simp) hxy, List.length_reverse]
  rw [htail] at hb ⊢
  -- the scan
  obtain ⟨s1, e1, ok1, el1⟩ := isSortedUntilM_sim t.rev hs hs rfl (i := C.reverse.length)
    (j := C.reverse.length + B.reverse.length) (by omega) (by rw [rn]; simp; omega) fuel
    (by simp; omega)
  have el1' : v.elems s1 = v.elems s := List.reverse_inj.1 el1
  have hc1 : calls s1 ≤ calls s + P.length := by
    obtain ⟨-, -, g3, g4⟩ := C79_isSorted_calls v.rev comp calls t.toTame.rev s hs C.reverse.length
      (C.reverse.length + B.reverse.length) (by omega) (by rw [rn]; simp; omega) fuel (by simp; omega)
    rw [e1, eS] at g3 g4
    simp only at g3 g4
    rcases g4 with ⟨a, ea, k, k1, k2, ek, hk⟩ | ⟨m, _, _, _, em, _⟩
    · cases ea
      have hke := View.pt_inj v.rev (by rw [rn]; simp; omega) (by rw [rn]; simp only [List.length_reverse] at k2 ⊢; omega) ek
      by_cases hlt : k < C.reverse.length + B.reverse.length
      · have := (hk hlt).2; omega
      · simp only [List.length_reverse] at *; omega
    · cases em
  rw [eS] at e1
  simp only at e1
  -- what follows the exchange
  have base : (v.rev.pt (C.reverse.length + P.length)).base = v.pt (A.length + P2.length) := by
    show v.pt (v.n - _) = _
    rw [List.length_reverse]; congr 1; omega
  have heq : equal (v.rev.pt (C.reverse.length + P.length)) (v.rev.pt (C.reverse.length + B.reverse.length)) =
      .ok (decide (P2.length = 0)) := by
    rw [v.rev.equal_pt _ _ (by rw [rn, List.length_reverse]; omega)
      (by rw [rn, List.length_reverse, List.length_reverse]; omega)]
    congr 1
    exact decide_eq_decide.2 (by rw [List.length_reverse, List.length_reverse]; omega)
  have key : ∀ s2 l, v.ok s2 → l.length = v.n →
      ((do
          reverse fuel (v.rev.pt (C.reverse.length + P.length)).base (v.pt (A.length + B.length))
          let e ← St.lift (equal (v.rev.pt (C.reverse.length + P.length)) (v.rev.pt (C.reverse.length + B.reverse.length)))
          pure !e : St S Bool)) (v.put s2 l) =
        (.ok (!decide (P2.length = 0)), v.put s2 (reverseWindow l (A.length + P2.length) (A.length + B.length))) := by
    intro s2 l hs2 hl
    rw [base, St.bind_ok (reverse_put v hs2 fuel l (A.length + P2.length) (A.length + B.length) hl (by omega)
      (by omega) (by omega)), St.bind_lift heq]
    rfl
  -- both runs exchange the same pair
  have fin : ∀ s2 l, v.ok s2 → v.elems s2 = v.elems s → l.length = v.n → calls s2 ≤ calls s + P.length + b →
      permSwap lt (v.rev.pt C.reverse.length) (v.rev.pt (C.reverse.length + B.reverse.length))
        (v.rev.pt (C.reverse.length + P.length)) s = (.ok (), v.put s l) →
      permSwapM comp (v.rev.pt C.reverse.length) (v.rev.pt (C.reverse.length + B.reverse.length))
        (v.rev.pt (C.reverse.length + P.length)) s1 = (.ok (), v.put s2 l) →
      ∃ ret B' s1, nextPermutationM fuel comp (v.pt A.length) (v.pt (A.length + B.length)) s =
          (.ok ret, v.put s1 (A ++ B' ++ C)) ∧ v.ok s1 ∧ v.elems s1 = v.elems s ∧
        ((ret = true ∧ NextInOrder lt B B') ∨
         (ret = false ∧ LastInOrder lt B ∧ Ascending lt B' ∧ B'.Perm B ∧ B' = B.reverse)) ∧
        calls s1 ≤ calls s + P.length + b := by
    intro s2 l hs2 he2 hl hc2 ep em
    have eN2 := eN
    unfold nextPermutation at eN2
    rw [ptF, ptL, St.bind_ok eS, St.bind_ok ep, key s l hs hl] at eN2
    have hlw : (reverseWindow l (A.length + P2.length) (A.length + B.length)).length = v.n := by
      rw [length_reverseWindow (by omega) (by omega)]; exact hl
    have er : ret = !decide (P2.length = 0) := by
      have := congrArg Prod.fst eN2
      simpa using this.symm
    have ew : reverseWindow l (A.length + P2.length) (A.length + B.length) = A ++ B' ++ C := by
      have := congrArg (fun p => v.elems p.2) eN2
      simp only at this
      rwa [v.elems_put s _ hs hlw, v.elems_put s _ hs hB'l] at this
    refine ⟨ret, B', s2, ?_, hs2, he2, hcN, hc2⟩
    unfold nextPermutationM
    rw [ptF, ptL, St.bind_ok e1, St.bind_ok em, key s2 l hs2 hl, er, ew]
  by_cases h0 : P2.length = 0
  · apply fin s1 (v.elems s) ok1 el1' (v.len s hs) (by omega)
    · unfold permSwap
      rw [St.bind_lift heq, if_pos (by simpa using h0), v.put_elems s hs]; rfl
    · unfold permSwapM
      rw [St.bind_lift heq, if_pos (by simpa using h0), ← el1', v.put_elems s1 ok1]; rfl
  · obtain ⟨x, hx⟩ : ∃ x, (v.rev.elems s)[C.reverse.length + P.length]? = some x :=
      ⟨_, List.getElem?_eq_getElem (by rw [v.rev.len s hs, rn, List.length_reverse]; omega)⟩
    have hx1 := hx
    rw [← el1] at hx1
    obtain ⟨k, k1, k2, eU⟩ : ∃ k, C.reverse.length ≤ k ∧ k ≤ C.reverse.length + P.length ∧
        upperBound lt (v.rev.pt C.reverse.length) (v.rev.pt (C.reverse.length + P.length)) x s = (.ok (v.rev.pt k), s) := by
      rw [upperBound_eq v.rev lt x (by rw [rn, List.length_reverse]; omega) (by omega)]
      obtain ⟨k, k1, k2, e, -⟩ := upperBoundLoop_spec v.rev hs lt x (C.reverse.length + P.length - C.reverse.length)
        C.reverse.length (by rw [rn, List.length_reverse]; omega)
      exact ⟨k, k1, by omega, e⟩
    obtain ⟨s2, e2, ok2, el2, c2⟩ := upperBoundM_sim t.rev x hs ok1 el1 (i := C.reverse.length)
      (j := C.reverse.length + P.length) (b := b) (by omega) (by rw [rn, List.length_reverse]; omega) (by omega)
    rw [eU] at e2
    simp only at e2
    have sw : ∀ s', v.ok s' → v.rev.elems s' = v.rev.elems s →
        swap (v.rev.pt (C.reverse.length + P.length)) (v.rev.pt k) s' =
          (.ok (), v.put s' (exchange (v.rev.elems s) (C.reverse.length + P.length) k).reverse) := by
      intro s' hs' he'
      have := swap_put v.rev hs' (v.rev.len s' hs') (i := C.reverse.length + P.length) (j := k)
        (by rw [rn, List.length_reverse]; omega) (by rw [rn]; rw [List.length_reverse] at k2; omega)
      rw [v.rev.put_elems s' hs', he'] at this
      exact this
    apply fin s2 (exchange (v.rev.elems s) (C.reverse.length + P.length) k).reverse ok2
      (List.reverse_inj.1 el2) (by rw [List.length_reverse, length_exchange]; exact v.rev.len s hs) (by omega)
    · unfold permSwap
      rw [St.bind_lift heq, if_neg (by simpa using h0), St.bind_ok (v.rev.get_pt s _ x hs hx), St.bind_ok eU]
      exact sw s hs rfl
    · unfold permSwapM
      rw [St.bind_lift heq, if_neg (by simpa using h0), St.bind_ok (v.rev.get_pt s1 _ x ok1 hx1), St.bind_ok e2]
      exact sw s2 ok2 el2

/-! ## The client loop -/

/-- The client loop of C12, with a comparator that has effects: visit, then `NextPermutation`, until it
returns false. -/
def permLoopM (fuel : Nat) (comp : Cmp S T) (first last : It) : Nat → St S (List (List T))
  | 0 => St.panic "fuel"
  | k + 1 => do
    let cur ← collect last fuel first
    let more ← nextPermutationM fuel comp first last
    if more then
      let rest ← permLoopM fuel comp first last k
      pure (cur :: rest)
    else pure [cur]

theorem permLoopM_spec {v : View S T It} {comp : Cmp S T} {calls : S → Nat} {lt : T → T → Bool}
    (h : StrictLinear lt) (t : Honest v comp calls lt) {A C B0 : List T} (fuel : Nat)
    (hf : B0.length < fuel) : ∀ (k : Nat) (s : S) (B : List T), v.ok s → v.elems s = A ++ B ++ C →
    B.Perm B0 → above lt B0 B < k →
    ∃ visited B' s', permLoopM fuel comp (v.pt A.length) (v.pt (A.length + B.length)) k s = (.ok visited, s') ∧
      v.ok s' ∧ v.elems s' = A ++ B' ++ C ∧ Ascending lt B' ∧ B'.Perm B0 ∧
      visited.Nodup ∧ (∀ l, l ∈ visited ↔ (l.Perm B0 ∧ (l = B ∨ lexLt lt B l))) ∧
      calls s' ≤ calls s + (visited.map fun l => 2 * tailLen lt l).sum := by
  intro k
  have hw := h.toStrictWeak
  induction k with
  | zero => intro s B hs hd hB hm; omega
  | succ k ih =>
    intro s B hs hd hB hm
    have hL := v.len s hs
    rw [hd] at hL
    simp only [List.length_append] at hL
    have hBl := hB.length_eq
    obtain ⟨ret, B', s1, e, ok1, el1, hc, hc1⟩ := nextPermutationM_honest hw t hs hd fuel (by omega)
      (Nat.lt_two_pow_self (n := tailLen lt B))
    have ecol := collect_spec v hs (j := A.length + B.length) (by omega) fuel A.length (by omega) (by omega)
    rw [hd, List.append_assoc, List.drop_left, Nat.add_sub_cancel_left, List.take_left] at ecol
    unfold permLoopM
    rw [St.bind_ok ecol, St.bind_ok e]
    rcases hc with ⟨rfl, hnext⟩ | ⟨rfl, hlast, hasc, hperm, -⟩
    · rw [if_pos rfl]
      have hB' : B'.Perm B0 := hnext.perm.trans hB
      have hB'l : B'.length = B.length := hnext.perm.length_eq
      have hlen : (A ++ B' ++ C).length = v.n := by simp; omega
      have hab : above lt B0 B' < above lt B0 B := by
        unfold above
        refine countP_lt (y := B') ?_ (List.mem_permutations.2 hB') (by simpa using hnext.greater)
          (by simpa using lexLt_irrefl hw B')
        intro l _ hl
        simp only [decide_eq_true_eq] at *
        exact lexLt_trans hw _ _ _ hnext.greater hl
      obtain ⟨visited, B'', s', e2, ok', el', hasc, hp2, hnd, hmem, hcs⟩ := ih (v.put s1 (A ++ B' ++ C)) B'
        (v.ok_put s1 _ ok1 hlen) (v.elems_put s1 _ ok1 hlen) hB' (by omega)
      rw [hB'l] at e2
      rw [St.bind_ok e2]
      refine ⟨B :: visited, B'', s', rfl, ok', el', hasc, hp2, ?_, ?_, ?_⟩
      · refine List.nodup_cons.2 ⟨?_, hnd⟩
        intro hin
        rcases ((hmem B).1 hin).2 with h1 | h1
        · exact lexLt_irrefl hw B (by have := hnext.greater; rwa [← h1] at this)
        · exact lexLt_irrefl hw B (lexLt_trans hw _ _ _ hnext.greater h1)
      · intro l
        rw [List.mem_cons, hmem]
        constructor
        · rintro (rfl | ⟨hl, rfl | h1⟩)
          · exact ⟨hB, Or.inl rfl⟩
          · exact ⟨hl, Or.inr hnext.greater⟩
          · exact ⟨hl, Or.inr (lexLt_trans hw _ _ _ hnext.greater h1)⟩
        · rintro ⟨hl, rfl | h1⟩
          · exact Or.inl rfl
          · right
            refine ⟨hl, ?_⟩
            have hge := hnext.least l (hl.trans hB.symm) h1
            rcases lexLt_total h B' l with h2 | h2 | h2
            · exact Or.inr h2
            · exact Or.inl h2.symm
            · exact absurd h2 hge
      · rw [t.put s1 _ ok1 hlen] at hcs
        rw [List.map_cons, List.sum_cons]
        omega
    · rw [if_neg (by simp)]
      have hlen : (A ++ B' ++ C).length = v.n := by have := hperm.length_eq; simp; omega
      refine ⟨[B], B', _, rfl, v.ok_put s1 _ ok1 hlen, v.elems_put s1 _ ok1 hlen, hasc, hperm.trans hB, by simp, ?_, ?_⟩
      · intro l
        rw [List.mem_singleton]
        constructor
        · rintro rfl; exact ⟨hB, Or.inl rfl⟩
        · rintro ⟨hl, h1 | h1⟩
          · exact h1
          · exact absurd h1 (hlast l (hl.trans hB.symm))
      · rw [t.put s1 _ ok1 hlen]
        simp only [List.map_cons, List.map_nil, List.sum_cons, List.sum_nil]
        omega

/-! ## Adding up -/

theorem desc_of_tailLen {lt : T → T → Bool} (h : StrictWeak lt) : ∀ l : List T, tailLen lt l = l.length →
    l.Pairwise fun x y => lt x y = false
  | [], _ => List.Pairwise.nil
  | x :: l, e => by
    have hle := tailLen_le lt l
    unfold tailLen at e
    rw [List.length_cons] at e
    split at e
    · rename_i hl
      have ih := desc_of_tailLen h l hl
      refine List.pairwise_cons.2 ⟨?_, ih⟩
      cases l with
      | nil => simp
      | cons y l =>
        have hxy : lt x y = false := by
          cases hc : lt x y with
          | false => rfl
          | true => simp [hc] at e
        intro z hz
        rcases List.mem_cons.1 hz with rfl | hz
        · exact hxy
        · have hyz := (List.pairwise_cons.1 ih).1 z hz
          cases hc : lt x z with
          | false => rfl
          | true =>
            have := lt_of_lt_of_not h hc hyz
            rw [this] at hxy; cases hxy
    · omega

theorem tailLen_cons_le (lt : T → T → Bool) (x : T) (l : List T) :
    tailLen lt (x :: l) ≤ tailLen lt l + if tailLen lt (x :: l) = (x :: l).length then 1 else 0 := by
  by_cases hl : tailLen lt l = l.length
  · have := tailLen_le lt (x :: l)
    rw [List.length_cons] at this ⊢
    split <;> omega
  · have : tailLen lt (x :: l) = tailLen lt l := by
      conv => lhs; unfold tailLen
      rw [if_neg hl]
    omega

/-- The sum of the tail lengths over all arrangements of `n` distinct elements. -/
def tailSum : Nat → Nat
  | 0 => 0
  | n + 1 => (n + 1) * tailSum n + 1

theorem sum_map_two {α : Type} (f : α → Nat) : ∀ l : List α, (l.map fun x => 2 * f x).sum = 2 * (l.map f).sum
  | [] => rfl
  | x :: l => by
    have := sum_map_two f l
    simp only [List.map_cons, List.sum_cons]
    omega

theorem tailSum_lt (n : Nat) : tailSum (n + 1) + 1 ≤ 2 * (n + 1).factorial := by
  induction n with
  | zero => decide
  | succ n ih =>
    have e : tailSum (n + 1 + 1) = (n + 1 + 1) * tailSum (n + 1) + 1 := rfl
    rw [e, Nat.factorial_succ (n + 1)]
    have := Nat.mul_le_mul_left (n + 1 + 1) ih
    rw [Nat.mul_add] at this
    have e2 : 2 * ((n + 1 + 1) * (n + 1).factorial) = (n + 1 + 1) * (2 * (n + 1).factorial) := by
      rw [Nat.mul_left_comm]
    omega

theorem tailSum_le (n : Nat) : tailSum n ≤ 2 * n.factorial := by
  cases n with
  | zero => decide
  | succ n => have := tailSum_lt n; omega

open Finset in
theorem sum_tail_le {lt : T → T → Bool} (h : StrictLinear lt) [DecidableEq T] : ∀ (n : Nat) (B : List T),
    B.length = n → ∀ V : Finset (List T), (∀ l ∈ V, l.Perm B) → ∑ l ∈ V, tailLen lt l ≤ tailSum n := by
  intro n
  induction n with
  | zero =>
    intro B hB V hV
    refine Nat.le_of_eq (Finset.sum_eq_zero fun l hl => ?_)
    have := (hV l hl).length_eq
    have := tailLen_le lt l
    omega
  | succ n ih =>
    intro B hB V hV
    -- the descending arrangement is the only one whose tail grows by the first element
    have h1 : ∑ l ∈ V, tailLen lt l ≤ ∑ l ∈ V, tailLen lt l.tail + ∑ l ∈ V, if tailLen lt l = l.length then 1 else 0 := by
      rw [← Finset.sum_add_distrib]
      refine Finset.sum_le_sum fun l hl => ?_
      cases l with
      | nil => simp [tailLen]
      | cons x l => exact tailLen_cons_le lt x l
    have h2 : (∑ l ∈ V, if tailLen lt l = l.length then 1 else 0) ≤ 1 := by
      rw [← Finset.card_filter]
      refine Finset.card_le_one.2 fun a ha b hb => ?_
      rw [Finset.mem_filter] at ha hb
      have pa := desc_of_tailLen h.toStrictWeak a ha.2
      have pb := desc_of_tailLen h.toStrictWeak b hb.2
      have hp : b.reverse.Perm a.reverse :=
        (List.reverse_perm b).trans (((hV b hb.1).trans (hV a ha.1).symm).trans (List.reverse_perm a).symm)
      have aa : Ascending lt a.reverse := List.pairwise_reverse.2 pa
      have ab : Ascending lt b.reverse := List.pairwise_reverse.2 pb
      rcases lexLt_total h a.reverse b.reverse with h1 | h1 | h1
      · exact absurd h1 (ascending_min h.toStrictWeak _ _ ab (SameCounts.of_perm hp.symm))
      · exact List.reverse_inj.1 h1
      · exact absurd h1 (ascending_min h.toStrictWeak _ _ aa (SameCounts.of_perm hp))
    have h3 : ∑ l ∈ V, tailLen lt l.tail ≤ (n + 1) * tailSum n := by
      have hmap : ∀ l ∈ V, l.head? ∈ (B.toFinset.image some) := by
        intro l hl
        have hp := hV l hl
        cases l with
        | nil => have := hp.length_eq; simp at this; omega
        | cons x l =>
          rw [Finset.mem_image]
          exact ⟨x, by rw [List.mem_toFinset]; exact hp.subset (by simp), rfl⟩
      rw [← Finset.sum_fiberwise_of_maps_to hmap]
      have hc : (B.toFinset.image some).card ≤ n + 1 :=
        (Finset.card_image_le.trans (List.toFinset_card_le B)).trans (by omega)
      refine (Finset.sum_le_card_nsmul _ _ (tailSum n) fun o ho => ?_).trans (by
        exact Nat.mul_le_mul_right _ hc)
      obtain ⟨x, hx, rfl⟩ := Finset.mem_image.1 ho
      have inj : Set.InjOn List.tail (V.filter (fun l => l.head? = some x) : Set (List T)) := by
        intro a ha b hb hab
        simp only [Finset.coe_filter, Set.mem_ofPred_eq] at ha hb
        obtain ⟨-, ha⟩ := ha
        obtain ⟨-, hb⟩ := hb
        cases a <;> cases b <;> simp_all
      rw [← Finset.sum_image (f := fun l => tailLen lt l) (g := List.tail) inj]
      apply ih (B.erase x)
      · rw [List.length_erase_of_mem (List.mem_toFinset.1 hx), hB]; rfl
      · intro l hl
        obtain ⟨a, ha, rfl⟩ := Finset.mem_image.1 hl
        rw [Finset.mem_filter] at ha
        cases a with
        | nil => simp at ha
        | cons y a =>
          have : y = x := by simpa using ha.2
          subst this
          have := (hV _ ha.1).erase y
          rwa [List.erase_cons_head] at this
    show _ ≤ (n + 1) * tailSum n + 1
    omega

/-! ## C130 -/

/-- **C130**, one call: `NextPermutation` with a comparator that answers by `lt` (and may count, log or do
anything else outside the range) does what it does with a pure comparator, and if the part of the range
after its last ascent has fewer than `2^b` elements, then the comparator is called at most that many times
plus `b`. The part of the range before the ascent is not looked at. -/
theorem C130_step (v : View S T It) (comp : Cmp S T) (calls : S → Nat) (lt : T → T → Bool) (h : StrictWeak lt)
    (t : Honest v comp calls lt) (s : S) (hs : v.ok s) (A R : List T) (x y : T) (E C : List T)
    (hd : v.elems s = A ++ (R ++ x :: (y :: E)) ++ C) (hxy : lt x y = true)
    (hE : (y :: E).Pairwise fun x y => lt x y = false) (fuel b : Nat) (hf : (R ++ x :: (y :: E)).length < fuel)
    (hb : (y :: E).length < 2 ^ b) :
    ∃ B' s', nextPermutationM fuel comp (v.pt A.length) (v.pt (A.length + (R ++ x :: (y :: E)).length)) s =
        (.ok true, s') ∧ v.ok s' ∧ v.elems s' = A ++ B' ++ C ∧ NextInOrder lt (R ++ x :: (y :: E)) B' ∧
      calls s' ≤ calls s + (y :: E).length + b := by
  have ht : tailLen lt (R ++ x :: (y :: E)) = (y :: E).length := tailLen_split hE rfl hxy R
  obtain ⟨ret, B', s1, e, ok1, el1, hc, hcs⟩ := nextPermutationM_honest h t hs hd fuel hf (b := b) (by rw [ht]; exact hb)
  have hL := v.len s hs
  rw [hd] at hL
  rcases hc with ⟨rfl, hnext⟩ | ⟨-, hlast, -⟩
  · have hlen : (A ++ B' ++ C).length = v.n := by
      have := hnext.perm.length_eq
      simp only [List.length_append] at this hL ⊢
      omega
    exact ⟨B', _, e, v.ok_put s1 _ ok1 hlen, v.elems_put s1 _ ok1 hlen, hnext, by
      rw [t.put s1 _ ok1 hlen, ← ht]; exact hcs⟩
  · -- exchanging the ascent gives a greater arrangement
    refine absurd ?_ (hlast (R ++ y :: (x :: E)) ((List.Perm.swap x y E).append_left R))
    clear hlast hcs e hd hf ht hL
    induction R with
    | nil => exact Or.inl hxy
    | cons z R ih => exact Or.inr ⟨equiv_refl h z, ih⟩

/-- **C130.** Enumerating all arrangements of `n` elements with `NextPermutation`, from the ascending one
until it returns false, calls the comparator at most `4 * n!` times in all. If the elements are distinct,
there are `n!` arrangements, so that is at most four calls per arrangement on average, however long the
range. -/
theorem C130_enumeration (v : View S T It) (comp : Cmp S T) (calls : S → Nat) (lt : T → T → Bool)
    (h : StrictLinear lt) (t : Honest v comp calls lt) (s : S) (hs : v.ok s) (A B C : List T)
    (hd : v.elems s = A ++ B ++ C) (hB : Ascending lt B) (fuel : Nat) (hf : B.length < fuel) :
    ∃ N, ∀ k, N ≤ k → ∃ visited s',
      permLoopM fuel comp (v.pt A.length) (v.pt (A.length + B.length)) k s = (.ok visited, s') ∧
      v.ok s' ∧ v.elems s' = v.elems s ∧ visited.Nodup ∧ (∀ l : List T, l ∈ visited ↔ l.Perm B) ∧
      calls s' ≤ calls s + 4 * B.length.factorial ∧
      (B.Nodup → visited.length = B.length.factorial ∧ calls s' ≤ calls s + 4 * visited.length) := by
  refine ⟨above lt B B + 1, fun k hk => ?_⟩
  have hw := h.toStrictWeak
  obtain ⟨visited, B', s', e, ok', el', hasc, hp, hnd, hmem, hcs⟩ := permLoopM_spec h t fuel hf k s B hs hd
    (List.Perm.refl _) (by omega)
  have hBB : B' = B := by
    rcases lexLt_total h B' B with h1 | h1 | h1
    · exact absurd h1 (ascending_min hw _ _ hB (SameCounts.of_perm hp))
    · exact h1
    · exact absurd h1 (ascending_min hw _ _ hasc (SameCounts.of_perm hp.symm))
  have hmem' : ∀ l : List T, l ∈ visited ↔ l.Perm B := by
    intro l
    rw [hmem]
    constructor
    · exact fun h => h.1
    · intro hl
      refine ⟨hl, ?_⟩
      rcases lexLt_total h B l with h1 | h1 | h1
      · exact Or.inr h1
      · exact Or.inl h1.symm
      · exact absurd h1 (ascending_min hw _ _ hB (SameCounts.of_perm hl))
  have hsum : calls s' ≤ calls s + 4 * B.length.factorial := by
    classical
    have h1 := sum_tail_le h B.length B rfl visited.toFinset (fun l hl => (hmem' l).1 (List.mem_toFinset.1 hl))
    rw [List.sum_toFinset _ hnd] at h1
    have h2 := tailSum_le B.length
    rw [sum_map_two (tailLen lt)] at hcs
    have h3 : (visited.map (tailLen lt)).sum = (visited.map fun l => tailLen lt l).sum := rfl
    omega
  refine ⟨visited, s', e, ok', by rw [el', hBB, hd], hnd, hmem', hsum, fun hN => ?_⟩
  have hlen : visited.length = B.length.factorial := by
    have hpp : visited.Perm B.permutations :=
      (List.perm_ext_iff_of_nodup hnd (List.nodup_permutations B hN)).2 fun l => by
        rw [hmem', List.mem_permutations]
    rw [hpp.length_eq, List.length_permutations]
  exact ⟨hlen, by rw [hlen]; exact hsum⟩

/-! ## A comparator that counts -/

/-- A comparator that logs its arguments in a new array at each call and answers by the order of numbers. -/
def noting : Cmp (Heap Nat) Nat := fun a b h => (.ok (natLt a b), h ++ [[a, b]])

theorem noting_honest (s : Slice) (hc : (s.cap : Int) < 9223372036854775808) (hlc : s.len ≤ s.cap) :
    Honest (Slice.view (T := Nat) s hc hlc) noting List.length natLt where
  ok h a b hv := by
    show Valid (h ++ [[a, b]]) s
    change Valid h s at hv
    obtain ⟨v1, v2, v3⟩ := hv
    refine ⟨v1, v2, ?_⟩
    split at v3
    · exact v3
    · exact v3
    · obtain ⟨A, hA, hl⟩ := v3
      exact ⟨A, by rw [List.getElem?_append_left (List.getElem?_eq_some_iff.1 hA).1]; exact hA, hl⟩
  elems h a b hv := by
    show contents (h ++ [[a, b]]) s = contents h s
    change Valid h s at hv
    obtain ⟨v1, v2, v3⟩ := hv
    unfold contents
    split at v3
    · rename_i hp; rw [hp]
    · rename_i hp; rw [hp]
    · rename_i hp; rw [hp]
      obtain ⟨A, hA, hl⟩ := v3
      simp only
      rw [List.getElem?_append_left (List.getElem?_eq_some_iff.1 hA).1]
  count h a b hv := by
    show (h ++ [[a, b]]).length = _
    simp
  put h l hv hl := by
    show (poke h s.ptr 0 l).length = _
    unfold poke
    split <;> simp
  ans h a b hv := rfl

-- three elements: six arrangements, 16 calls (the theorem allows 24)
example : ((permLoopM 4 noting (⟨1, ⟨.arr 0 0, 5, 5⟩⟩ : SIter Nat) ⟨4, ⟨.arr 0 0, 5, 5⟩⟩ 10 [[9, 1, 2, 3, 0]]).1,
    (permLoopM 4 noting (⟨1, ⟨.arr 0 0, 5, 5⟩⟩ : SIter Nat) ⟨4, ⟨.arr 0 0, 5, 5⟩⟩ 10 [[9, 1, 2, 3, 0]]).2.length) =
    (.ok [[1, 2, 3], [1, 3, 2], [2, 1, 3], [2, 3, 1], [3, 1, 2], [3, 2, 1]], 17) := by decide +kernel

-- one step whose tail has two elements: two calls to find it, two to search in it, the first four
-- elements are not looked at
example : nextPermutationM 8 noting (⟨0, exS⟩ : SIter Nat) ⟨7, exS⟩ [[9, 7, 6, 5, 4, 1, 3, 2, 9]] =
    (.ok true, [[9, 7, 6, 5, 4, 2, 1, 3, 9], [3, 2], [1, 3], [1, 3], [1, 2]]) := by decide +kernel

end Verif.Algo
