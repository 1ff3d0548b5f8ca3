import Verif.Algo.Model
import Verif.Iter.View
import Verif.Sort.Spec

/-! # The algorithms on a view -/

namespace Verif.Algo

open Verif.Iter

variable {S T It : Type} [RandIter S T It]

/-! ## Reading and writing a stored sequence -/

theorem get_put (v : View S T It) {s : S} (hs : v.ok s) {l : List T} (hl : l.length = v.n) {i : Nat} {x : T}
    (hx : l[i]? = some x) : get (v.pt i) (v.put s l) = (.ok x, v.put s l) :=
  v.get_pt _ _ _ (v.ok_put s l hs hl) (by rw [v.elems_put s l hs hl]; exact hx)

theorem set_put (v : View S T It) {s : S} (hs : v.ok s) {l : List T} (hl : l.length = v.n) {i : Nat} (x : T)
    (hi : i < v.n) : set (v.pt i) x (v.put s l) = (.ok (), v.put s (l.set i x)) := by
  rw [v.set_pt _ _ _ (v.ok_put s l hs hl) hi, v.elems_put s l hs hl, v.put_put s l _ hs hl (by simp [hl])]

/-! ## Binary search -/

theorem upperBoundLoop_spec (v : View S T It) {s : S} (hs : v.ok s) (comp : T → T → Bool) (value : T) :
    ∀ (count i : Nat), i + count ≤ v.n →
    ∃ k, i ≤ k ∧ k ≤ i + count ∧ upperBoundLoop comp value (v.pt i) count s = (.ok (v.pt k), s) ∧
      ∀ m, i ≤ m → m ≤ i + count →
        (∀ p x, i ≤ p → p < m → (v.elems s)[p]? = some x → comp value x = false) →
        (∀ p x, m ≤ p → p < i + count → (v.elems s)[p]? = some x → comp value x = true) → k = m := by
  intro count
  induction count using Nat.strongRecOn with
  | _ count ih =>
    intro i hi
    have hL := v.len s hs
    unfold upperBoundLoop
    by_cases h0 : 0 < count
    · rw [if_pos h0]
      obtain ⟨x, hx⟩ : ∃ x, (v.elems s)[i + count / 2]? = some x := ⟨_, List.getElem?_eq_getElem (by omega)⟩
      have ha := v.add_pt i (i + count / 2) (by omega) (by omega)
      rw [show (((i + count / 2 : Nat) : Int) - (i : Int)) = ((count / 2 : Nat) : Int) by omega] at ha
      rw [St.bind_lift ha, St.bind_ok (v.get_pt s _ x hs hx)]
      by_cases hc : comp value x = true
      · rw [if_neg (by simp [hc])]
        obtain ⟨k, k1, k2, e, hk⟩ := ih (count / 2) (by omega) i (by omega)
        refine ⟨k, k1, by omega, e, ?_⟩
        intro m m1 m2 hlow hhigh
        refine hk m m1 ?_ hlow (fun p x hp hp' => hhigh p x hp (by omega))
        by_cases c : m ≤ i + count / 2
        · exact c
        · have := hlow (i + count / 2) x (by omega) (by omega) hx
          rw [hc] at this; cases this
      · simp only [Bool.not_eq_true] at hc
        rw [if_pos (by simp [hc])]
        rw [St.bind_lift (v.next_pt (i + count / 2) (by omega))]
        obtain ⟨k, k1, k2, e, hk⟩ := ih (count - (count / 2 + 1)) (by omega) (i + count / 2 + 1) (by omega)
        refine ⟨k, by omega, by omega, e, ?_⟩
        intro m m1 m2 hlow hhigh
        refine hk m ?_ (by omega) (fun p x hp hp' => hlow p x (by omega) hp') (fun p x hp hp' => hhigh p x hp (by omega))
        by_cases c : i + count / 2 + 1 ≤ m
        · exact c
        · have := hhigh (i + count / 2) x (by omega) (by omega) hx
          rw [hc] at this; cases this
    · rw [if_neg h0]
      exact ⟨i, by omega, by omega, rfl, fun m _ _ _ _ => by omega⟩

theorem lowerBoundLoop_spec (v : View S T It) {s : S} (hs : v.ok s) (comp : T → T → Bool) (value : T) :
    ∀ (count i : Nat), i + count ≤ v.n →
    ∃ k, i ≤ k ∧ k ≤ i + count ∧ lowerBoundLoop comp value (v.pt i) count s = (.ok (v.pt k), s) ∧
      ∀ m, i ≤ m → m ≤ i + count →
        (∀ p x, i ≤ p → p < m → (v.elems s)[p]? = some x → comp x value = true) →
        (∀ p x, m ≤ p → p < i + count → (v.elems s)[p]? = some x → comp x value = false) → k = m := by
  intro count
  induction count using Nat.strongRecOn with
  | _ count ih =>
    intro i hi
    have hL := v.len s hs
    unfold lowerBoundLoop
    by_cases h0 : 0 < count
    · rw [if_pos h0]
      obtain ⟨x, hx⟩ : ∃ x, (v.elems s)[i + count / 2]? = some x := ⟨_, List.getElem?_eq_getElem (by omega)⟩
      have ha := v.add_pt i (i + count / 2) (by omega) (by omega)
      rw [show (((i + count / 2 : Nat) : Int) - (i : Int)) = ((count / 2 : Nat) : Int) by omega] at ha
      rw [St.bind_lift ha, St.bind_ok (v.get_pt s _ x hs hx)]
      by_cases hc : comp x value = true
      · rw [if_pos hc]
        rw [St.bind_lift (v.next_pt (i + count / 2) (by omega))]
        obtain ⟨k, k1, k2, e, hk⟩ := ih (count - (count / 2 + 1)) (by omega) (i + count / 2 + 1) (by omega)
        refine ⟨k, by omega, by omega, e, ?_⟩
        intro m m1 m2 hlow hhigh
        refine hk m ?_ (by omega) (fun p x hp hp' => hlow p x (by omega) hp') (fun p x hp hp' => hhigh p x hp (by omega))
        by_cases c : i + count / 2 + 1 ≤ m
        · exact c
        · have := hhigh (i + count / 2) x (by omega) (by omega) hx
          rw [hc] at this; cases this
      · rw [if_neg hc]
        simp only [Bool.not_eq_true] at hc
        obtain ⟨k, k1, k2, e, hk⟩ := ih (count / 2) (by omega) i (by omega)
        refine ⟨k, k1, by omega, e, ?_⟩
        intro m m1 m2 hlow hhigh
        refine hk m m1 ?_ hlow (fun p x hp hp' => hhigh p x hp (by omega))
        by_cases c : m ≤ i + count / 2
        · exact c
        · have := hlow (i + count / 2) x (by omega) (by omega) hx
          rw [hc] at this; cases this
    · rw [if_neg h0]
      exact ⟨i, by omega, by omega, rfl, fun m _ _ _ _ => by omega⟩

theorem upperBound_eq (v : View S T It) (comp : T → T → Bool) (value : T) {i j : Nat} (hj : j ≤ v.n)
    (hij : i ≤ j) (s : S) :
    upperBound comp (v.pt i) (v.pt j) value s = upperBoundLoop comp value (v.pt i) (j - i) s := by
  unfold upperBound
  rw [St.bind_lift (v.distance_pt (by omega) hj), if_neg (by omega)]
  congr 1; omega

theorem lowerBound_eq (v : View S T It) (comp : T → T → Bool) (value : T) {i j : Nat} (hj : j ≤ v.n)
    (hij : i ≤ j) (s : S) :
    lowerBound comp (v.pt i) (v.pt j) value s = lowerBoundLoop comp value (v.pt i) (j - i) s := by
  unfold lowerBound
  rw [St.bind_lift (v.distance_pt (by omega) hj), if_neg (by omega)]
  congr 1; omega

/-! ## Sorted prefix -/

theorem isSortedLoop_spec (v : View S T It) {s : S} (hs : v.ok s) (comp : T → T → Bool) {j : Nat} (hj : j ≤ v.n) :
    ∀ (fuel p : Nat), p + 1 ≤ j → j - p ≤ fuel →
    ∃ k, p < k ∧ k ≤ j ∧ isSortedLoop comp (v.pt j) fuel (v.pt p) (v.pt (p + 1)) s = (.ok (v.pt k), s) ∧
      (∀ t x y, p ≤ t → t + 1 < k → (v.elems s)[t]? = some x → (v.elems s)[t + 1]? = some y → comp y x = false) ∧
      (k < j → ∀ x y, (v.elems s)[k - 1]? = some x → (v.elems s)[k]? = some y → comp y x = true) := by
  intro fuel
  induction fuel with
  | zero => intro p h1 h2; omega
  | succ fuel ih =>
    intro p h1 h2
    have hL := v.len s hs
    unfold isSortedLoop
    rw [St.bind_lift (v.equal_pt (p + 1) j (by omega) hj)]
    by_cases h0 : p + 1 = j
    · rw [if_pos (by simpa using h0)]
      exact ⟨j, by omega, by omega, rfl, fun t x y _ _ => by omega, fun h => by omega⟩
    · rw [if_neg (by simpa using h0)]
      obtain ⟨x, hx⟩ : ∃ x, (v.elems s)[p]? = some x := ⟨_, List.getElem?_eq_getElem (by omega)⟩
      obtain ⟨y, hy⟩ : ∃ y, (v.elems s)[p + 1]? = some y := ⟨_, List.getElem?_eq_getElem (by omega)⟩
      rw [St.bind_ok (v.get_pt s _ y hs hy), St.bind_ok (v.get_pt s _ x hs hx)]
      by_cases hc : comp y x = true
      · rw [if_pos hc]
        refine ⟨p + 1, by omega, by omega, rfl, fun t x y _ _ => by omega, fun _ x' y' hx' hy' => ?_⟩
        rw [show p + 1 - 1 = p by omega, hx] at hx'
        rw [hy] at hy'
        injection hx' with hx'; injection hy' with hy'
        rw [← hx', ← hy']; exact hc
      · rw [if_neg hc, St.bind_lift (v.next_pt (p + 1) (by omega))]
        obtain ⟨k, k1, k2, e, hlow, hhigh⟩ := ih (p + 1) (by omega) (by omega)
        refine ⟨k, by omega, k2, e, ?_, hhigh⟩
        intro t x' y' ht ht' hx' hy'
        by_cases c : t = p
        · subst c
          rw [hx] at hx'; rw [hy] at hy'
          injection hx' with hx'; injection hy' with hy'
          rw [← hx', ← hy']; simpa using hc
        · exact hlow t x' y' (by omega) ht' hx' hy'

theorem isSortedUntil_spec (v : View S T It) {s : S} (hs : v.ok s) (comp : T → T → Bool) {i j : Nat} (hij : i ≤ j)
    (hj : j ≤ v.n) (fuel : Nat) (hf : j - i ≤ fuel) :
    ∃ k, i ≤ k ∧ k ≤ j ∧ isSortedUntil fuel comp (v.pt i) (v.pt j) s = (.ok (v.pt k), s) ∧
      (∀ t x y, i ≤ t → t + 1 < k → (v.elems s)[t]? = some x → (v.elems s)[t + 1]? = some y → comp y x = false) ∧
      (k < j → i < k ∧ ∀ x y, (v.elems s)[k - 1]? = some x → (v.elems s)[k]? = some y → comp y x = true) := by
  unfold isSortedUntil
  rw [St.bind_lift (v.equal_pt i j (by omega) hj)]
  by_cases h0 : i = j
  · rw [if_pos (by simpa using h0)]
    exact ⟨j, by omega, by omega, rfl, fun t x y _ _ => by omega, fun h => by omega⟩
  · rw [if_neg (by simpa using h0), St.bind_lift (v.next_pt i (by omega))]
    obtain ⟨k, k1, k2, e, hlow, hhigh⟩ := isSortedLoop_spec v hs comp hj fuel i (by omega) hf
    exact ⟨k, by omega, k2, e, hlow, fun h => ⟨k1, hhigh h⟩⟩

/-! ## `Swap` and `Reverse` -/

/-- A list with two positions exchanged. -/
def exchange (l : List T) (i j : Nat) : List T :=
  match l[i]?, l[j]? with
  | some x, some y => (l.set i y).set j x
  | _, _ => l

theorem length_exchange (l : List T) (i j : Nat) : (exchange l i j).length = l.length := by
  unfold exchange; split <;> simp

theorem getElem?_exchange {l : List T} {i j : Nat} (hi : i < l.length) (hj : j < l.length) (k : Nat) :
    (exchange l i j)[k]? = if k = j then l[i]? else if k = i then l[j]? else l[k]? := by
  unfold exchange
  rw [List.getElem?_eq_getElem hi, List.getElem?_eq_getElem hj]
  simp only
  rw [List.getElem?_set, List.getElem?_set]
  simp only [List.length_set, hi, hj]
  by_cases h1 : k = j
  · subst h1; simp
  · have h1' : ¬ j = k := fun h => h1 h.symm
    by_cases h2 : k = i
    · subst h2; simp [h1', h1]
    · have h2' : ¬ i = k := fun h => h2 h.symm
      simp [h1, h2, h1', h2']

theorem swap_put (v : View S T It) {s : S} (hs : v.ok s) {l : List T} (hl : l.length = v.n) {i j : Nat}
    (hi : i < v.n) (hj : j < v.n) : swap (v.pt i) (v.pt j) (v.put s l) = (.ok (), v.put s (exchange l i j)) := by
  unfold swap
  rw [St.bind_lift (v.equal_pt i j (by omega) (by omega))]
  obtain ⟨x, hx⟩ : ∃ x, l[i]? = some x := ⟨_, List.getElem?_eq_getElem (by omega)⟩
  obtain ⟨y, hy⟩ : ∃ y, l[j]? = some y := ⟨_, List.getElem?_eq_getElem (by omega)⟩
  by_cases h0 : i = j
  · subst h0
    rw [if_pos (by simp)]
    have : exchange l i i = l := by
      apply List.ext_getElem?
      intro k
      rw [getElem?_exchange (by omega) (by omega)]
      split
      · rename_i h; rw [h]
      · rfl
    rw [this]; rfl
  · rw [if_neg (by simpa using h0), St.bind_ok (get_put v hs hl hx), St.bind_ok (get_put v hs hl hy),
      St.bind_ok (set_put v hs hl y hi), set_put v hs (by simp [hl]) x hj]
    unfold exchange
    rw [hx, hy]

/-- A list with the elements `[i, j)` in reverse order. -/
def reverseWindow (l : List T) (i j : Nat) : List T :=
  l.take i ++ ((l.drop i).take (j - i)).reverse ++ l.drop j

theorem length_reverseWindow {l : List T} {i j : Nat} (hij : i ≤ j) (hj : j ≤ l.length) :
    (reverseWindow l i j).length = l.length := by
  unfold reverseWindow; simp; omega

theorem getElem?_reverseWindow {l : List T} {i j : Nat} (hij : i ≤ j) (hj : j ≤ l.length) (k : Nat) :
    (reverseWindow l i j)[k]? = if i ≤ k ∧ k < j then l[i + j - 1 - k]? else l[k]? := by
  unfold reverseWindow
  rw [List.append_assoc, List.getElem?_append, List.length_take, Nat.min_eq_left (by omega)]
  by_cases h1 : k < i
  · rw [if_pos h1, if_neg (by omega), List.getElem?_take, if_pos h1]
  · rw [if_neg h1, List.getElem?_append, List.length_reverse, List.length_take, List.length_drop,
      Nat.min_eq_left (by omega)]
    by_cases h2 : k < j
    · rw [if_pos (by omega), if_pos (by omega), List.getElem?_reverse (by simp; omega), List.getElem?_take,
        List.length_take, List.length_drop, Nat.min_eq_left (by omega), if_pos (by omega), List.getElem?_drop]
      congr 1; omega
    · rw [if_neg (by omega), if_neg (by omega), List.getElem?_drop]
      congr 1; omega

theorem reverse_put (v : View S T It) {s : S} (hs : v.ok s) : ∀ (fuel : Nat) (l : List T) (i j : Nat),
    l.length = v.n → i ≤ j → j ≤ v.n → j - i < fuel →
    reverse fuel (v.pt i) (v.pt j) (v.put s l) = (.ok (), v.put s (reverseWindow l i j)) := by
  intro fuel
  induction fuel with
  | zero => intro l i j hl hij hj hf; omega
  | succ fuel ih =>
    intro l i j hl hij hj hf
    unfold reverse
    rw [St.bind_lift (v.equal_pt i j (by omega) hj)]
    have short : j ≤ i + 1 → reverseWindow l i j = l := fun h => by
      apply List.ext_getElem?
      intro k
      rw [getElem?_reverseWindow hij (by omega)]
      split
      · congr 1; omega
      · rfl
    by_cases h0 : i = j
    · rw [if_pos (by simpa using h0), short (by omega)]; rfl
    · rw [if_neg (by simpa using h0)]
      have hp := v.prev_pt (j - 1) (by omega)
      rw [show j - 1 + 1 = j by omega] at hp
      rw [St.bind_lift hp, St.bind_lift (v.equal_pt i (j - 1) (by omega) (by omega))]
      by_cases h1 : i = j - 1
      · rw [if_pos (by simpa using h1), short (by omega)]; rfl
      · rw [if_neg (by simpa using h1), St.bind_ok (swap_put v hs hl (by omega) (by omega)),
          St.bind_lift (v.next_pt i (by omega)),
          ih _ (i + 1) (j - 1) (by rw [length_exchange]; exact hl) (by omega) (by omega) (by omega)]
        congr 2
        apply List.ext_getElem?
        intro k
        rw [getElem?_reverseWindow (by omega) (by rw [length_exchange]; omega),
          getElem?_reverseWindow hij (by omega), getElem?_exchange (by omega) (by omega),
          getElem?_exchange (by omega) (by omega)]
        by_cases c1 : i ≤ k ∧ k < j
        · rw [if_pos c1]
          by_cases c2 : k = i
          · subst c2
            rw [if_neg (by omega), if_neg (by omega), if_pos rfl]; congr 1; omega
          · by_cases c3 : k = j - 1
            · subst c3
              rw [if_neg (by omega), if_pos rfl]; congr 1; omega
            · rw [if_pos (by omega), if_neg (by omega), if_neg (by omega)]; congr 1; omega
        · rw [if_neg c1, if_neg (by omega), if_neg (by omega), if_neg (by omega)]

/-! ## `FillN`, walking -/

theorem fillLoop_put (v : View S T It) {s : S} (hs : v.ok s) (x : T) : ∀ (c : Nat) (l : List T) (i : Nat),
    l.length = v.n → i + c ≤ v.n →
    fillLoop x c (v.pt i) (v.put s l) =
      (.ok (v.pt (i + c)), v.put s (l.take i ++ List.replicate c x ++ l.drop (i + c))) := by
  intro c
  induction c with
  | zero => intro l i hl hi; simp [fillLoop]
  | succ c ih =>
    intro l i hl hi
    unfold fillLoop
    rw [St.bind_ok (set_put v hs hl x (by omega)), St.bind_lift (v.next_pt i (by omega)),
      ih _ (i + 1) (by simp [hl]) (by omega)]
    congr 2
    · congr 1; omega
    · apply List.ext_getElem?
      intro k
      simp only [List.getElem?_append, List.length_append, List.length_take, List.length_set,
        List.length_replicate, List.getElem?_drop, List.getElem?_take, List.getElem?_set, List.getElem?_replicate]
      rw [Nat.min_eq_left (by omega), Nat.min_eq_left (by omega)]
      by_cases c1 : k < i
      · simp [c1, show k < i + 1 + c by omega, show k < i + 1 by omega, show k < i + (c + 1) by omega,
          show ¬ i = k by omega]
      · by_cases c2 : k = i
        · subst c2; simp [show k < k + 1 + c by omega, show k < l.length by omega]
        · by_cases c3 : k < i + 1 + c
          · rw [if_pos c3, if_neg (by omega), if_pos (by omega), if_pos (by omega), if_neg (by omega), if_pos (by omega)]
          · rw [if_neg c3, if_neg (by omega), if_neg (by omega)]
            congr 1; omega

theorem collect_spec (v : View S T It) {s : S} (hs : v.ok s) {j : Nat} (hj : j ≤ v.n) : ∀ (fuel i : Nat), i ≤ j →
    j - i < fuel → collect (v.pt j) fuel (v.pt i) s = (.ok (((v.elems s).drop i).take (j - i)), s) := by
  intro fuel
  induction fuel with
  | zero => intro i _ h; omega
  | succ fuel ih =>
    intro i hi hf
    have hL := v.len s hs
    unfold collect
    rw [St.bind_lift (v.equal_pt i j (by omega) hj)]
    by_cases h0 : i = j
    · rw [if_pos (by simpa using h0)]; subst h0; simp
    · obtain ⟨x, hx⟩ : ∃ x, (v.elems s)[i]? = some x := ⟨_, List.getElem?_eq_getElem (by omega)⟩
      rw [if_neg (by simpa using h0), St.bind_ok (v.get_pt s i x hs hx), St.bind_lift (v.next_pt i (by omega)),
        St.bind_ok (ih (i + 1) (by omega) (by omega))]
      have : ((v.elems s).drop i).take (j - i) = x :: ((v.elems s).drop (i + 1)).take (j - (i + 1)) := by
        have hlt : i < (v.elems s).length := by omega
        rw [List.drop_eq_getElem_cons hlt, show j - i = (j - (i + 1)) + 1 by omega, List.take_succ_cons]
        rw [List.getElem?_eq_getElem hlt] at hx
        injection hx with hx
        rw [hx]
      rw [this]; rfl

end Verif.Algo
