import Verif.Algo.Effect

/-!
# C139: searching a range that need not be sorted

What `LowerBound` and `UpperBound` return on any range with any comparator, also one that keeps a state and answers
the same question differently.
-/

namespace Verif.Algo.Unsorted

open Verif.Iter Verif.Slice

variable {S T It : Type}

/-! ## What is asked for -/

/-- `k` is a place in `[i, j)` where `p` changes from true to false: the element before it satisfies `p`, the one there does
not. -/
def Turns (p : T → Prop) (q : T → Prop) (l : List T) (i j k : Nat) : Prop :=
  i ≤ k ∧ k ≤ j ∧ (∀ x, i < k → l[k - 1]? = some x → p x) ∧ (∀ x, k < j → l[k]? = some x → q x)

variable [RandIter S T It]

/-- The comparator leaves the range alone; `said s a b c` is a record of it having answered `c` when asked about `a` and `b`
(in a memory `s`), which later calls do not remove. -/
structure Recorded (v : View S T It) (comp : Cmp S T) (said : S → T → T → Bool → Prop) : Prop where
  ok : ∀ s a b, v.ok s → v.ok (comp a b s).2
  elems : ∀ s a b, v.ok s → v.elems (comp a b s).2 = v.elems s
  told : ∀ s a b c s', v.ok s → comp a b s = (.ok c, s') → said s' a b c
  keeps : ∀ s a b x y c, v.ok s → said s x y c → said (comp a b s).2 x y c

theorem lowerLoop {v : View S T It} {comp : Cmp S T} {said : S → T → T → Bool → Prop} (t : Recorded v comp said) (value : T)
    (i j : Nat) (hj : j ≤ v.n) : ∀ (count p : Nat) (s : S) (it : It) (s' : S), v.ok s → i ≤ p → p + count ≤ j →
      (∀ x, i < p → (v.elems s)[p - 1]? = some x → said s x value true) →
      (∀ x, p + count < j → (v.elems s)[p + count]? = some x → said s x value false) →
      lowerBoundLoopM comp value (v.pt p) count s = (.ok it, s') →
      ∃ k, it = v.pt k ∧ v.elems s' = v.elems s ∧
        Turns (fun x => said s' x value true) (fun x => said s' x value false) (v.elems s) i j k := by
  intro count
  induction count using Nat.strongRecOn with
  | _ count ih =>
    intro p s it s' hs hp hpj hlo hhi e
    have hL := v.len s hs
    unfold lowerBoundLoopM at e
    by_cases h0 : 0 < count
    · rw [if_pos h0] at e
      obtain ⟨x, hx⟩ : ∃ x, (v.elems s)[p + count / 2]? = some x := ⟨_, List.getElem?_eq_getElem (by omega)⟩
      have ha := v.add_pt p (p + count / 2) (by omega) (by omega)
      rw [show (((p + count / 2 : Nat) : Int) - (p : Int)) = ((count / 2 : Nat) : Int) by omega] at ha
      rw [St.bind_lift ha, St.bind_ok (v.get_pt s _ x hs hx), St.bind_apply] at e
      rcases ec : comp x value s with ⟨r, s1⟩
      have o1 := t.ok s x value hs
      have l1 := t.elems s x value hs
      have k1 := fun a b c => t.keeps s x value a b c hs
      rw [ec] at e o1 l1 k1
      cases r with
      | error m => exact absurd e (by simp)
      | ok c =>
        have w := t.told s x value c s1 hs ec
        simp only at e o1 l1 k1
        cases c with
        | true =>
          rw [if_pos rfl, St.bind_lift (v.next_pt (p + count / 2) (by omega))] at e
          obtain ⟨k, e1, e2, h1, h2, h3, h4⟩ := ih (count - (count / 2 + 1)) (by omega) (p + count / 2 + 1) s1 it s' o1
            (by omega) (by omega) (by
              intro y _ hy
              rw [l1, Nat.add_sub_cancel, hx] at hy
              injection hy with hy
              subst hy
              exact w) (by
              intro y hlt hy
              rw [l1] at hy
              rw [show p + count / 2 + 1 + (count - (count / 2 + 1)) = p + count by omega] at hlt hy
              exact k1 _ _ _ (hhi y hlt hy)) e
          rw [l1] at e2 h3 h4
          exact ⟨k, e1, e2, h1, h2, h3, h4⟩
        | false =>
          rw [if_neg (by simp)] at e
          obtain ⟨k, e1, e2, h1, h2, h3, h4⟩ := ih (count / 2) (by omega) p s1 it s' o1 hp (by omega) (by
              intro y hlt hy
              rw [l1] at hy
              exact k1 _ _ _ (hlo y hlt hy)) (by
              intro y _ hy
              rw [l1, hx] at hy
              injection hy with hy
              subst hy
              exact w) e
          rw [l1] at e2 h3 h4
          exact ⟨k, e1, e2, h1, h2, h3, h4⟩
    · rw [if_neg h0] at e
      have hc : count = 0 := by omega
      subst hc
      injection e with e1 e2
      injection e1 with e1
      subst e1 e2
      exact ⟨p, rfl, rfl, hp, hpj, hlo, hhi⟩

theorem upperLoop {v : View S T It} {comp : Cmp S T} {said : S → T → T → Bool → Prop} (t : Recorded v comp said) (value : T)
    (i j : Nat) (hj : j ≤ v.n) : ∀ (count p : Nat) (s : S) (it : It) (s' : S), v.ok s → i ≤ p → p + count ≤ j →
      (∀ x, i < p → (v.elems s)[p - 1]? = some x → said s value x false) →
      (∀ x, p + count < j → (v.elems s)[p + count]? = some x → said s value x true) →
      upperBoundLoopM comp value (v.pt p) count s = (.ok it, s') →
      ∃ k, it = v.pt k ∧ v.elems s' = v.elems s ∧
        Turns (fun x => said s' value x false) (fun x => said s' value x true) (v.elems s) i j k := by
  intro count
  induction count using Nat.strongRecOn with
  | _ count ih =>
    intro p s it s' hs hp hpj hlo hhi e
    have hL := v.len s hs
    unfold upperBoundLoopM at e
    by_cases h0 : 0 < count
    · rw [if_pos h0] at e
      obtain ⟨x, hx⟩ : ∃ x, (v.elems s)[p + count / 2]? = some x := ⟨_, List.getElem?_eq_getElem (by omega)⟩
      have ha := v.add_pt p (p + count / 2) (by omega) (by omega)
      rw [show (((p + count / 2 : Nat) : Int) - (p : Int)) = ((count / 2 : Nat) : Int) by omega] at ha
      rw [St.bind_lift ha, St.bind_ok (v.get_pt s _ x hs hx), St.bind_apply] at e
      rcases ec : comp value x s with ⟨r, s1⟩
      have o1 := t.ok s value x hs
      have l1 := t.elems s value x hs
      have k1 := fun a b c => t.keeps s value x a b c hs
      rw [ec] at e o1 l1 k1
      cases r with
      | error m => exact absurd e (by simp)
      | ok c =>
        have w := t.told s value x c s1 hs ec
        simp only at e o1 l1 k1
        cases c with
        | false =>
          rw [if_pos (by simp), St.bind_lift (v.next_pt (p + count / 2) (by omega))] at e
          obtain ⟨k, e1, e2, h1, h2, h3, h4⟩ := ih (count - (count / 2 + 1)) (by omega) (p + count / 2 + 1) s1 it s' o1
            (by omega) (by omega) (by
              intro y _ hy
              rw [l1, Nat.add_sub_cancel, hx] at hy
              injection hy with hy
              subst hy
              exact w) (by
              intro y hlt hy
              rw [l1] at hy
              rw [show p + count / 2 + 1 + (count - (count / 2 + 1)) = p + count by omega] at hlt hy
              exact k1 _ _ _ (hhi y hlt hy)) e
          rw [l1] at e2 h3 h4
          exact ⟨k, e1, e2, h1, h2, h3, h4⟩
        | true =>
          rw [if_neg (by simp)] at e
          obtain ⟨k, e1, e2, h1, h2, h3, h4⟩ := ih (count / 2) (by omega) p s1 it s' o1 hp (by omega) (by
              intro y hlt hy
              rw [l1] at hy
              exact k1 _ _ _ (hlo y hlt hy)) (by
              intro y _ hy
              rw [l1, hx] at hy
              injection hy with hy
              subst hy
              exact w) e
          rw [l1] at e2 h3 h4
          exact ⟨k, e1, e2, h1, h2, h3, h4⟩
    · rw [if_neg h0] at e
      have hc : count = 0 := by omega
      subst hc
      injection e with e1 e2
      injection e1 with e1
      subst e1 e2
      exact ⟨p, rfl, rfl, hp, hpj, hlo, hhi⟩

/-- **C139.** Whatever the comparator answers, if `LowerBound` returns, then to a position such that the comparator has said of
the element before it that it is less than the value, and of the element there that it is not. -/
theorem C139_lower_said (v : View S T It) (comp : Cmp S T) (said : S → T → T → Bool → Prop) (t : Recorded v comp said)
    (s : S) (hs : v.ok s) (value : T) (i j : Nat) (hij : i ≤ j) (hj : j ≤ v.n) (it : It) (s' : S)
    (e : lowerBoundM comp (v.pt i) (v.pt j) value s = (.ok it, s')) :
    ∃ k, it = v.pt k ∧ v.elems s' = v.elems s ∧
      Turns (fun x => said s' x value true) (fun x => said s' x value false) (v.elems s) i j k := by
  unfold lowerBoundM at e
  rw [St.bind_lift (v.distance_pt (by omega) hj), if_neg (by omega), show ((j : Int) - i).toNat = j - i by omega] at e
  exact lowerLoop t value i j hj (j - i) i s it s' hs (Nat.le_refl _) (by omega) (fun x h => absurd h (by omega))
    (fun x h => absurd h (by omega)) e

/-- **C139.** The same for `UpperBound`: it has said that the value is not less than the element before, and that it is less
than the element there. -/
theorem C139_upper_said (v : View S T It) (comp : Cmp S T) (said : S → T → T → Bool → Prop) (t : Recorded v comp said)
    (s : S) (hs : v.ok s) (value : T) (i j : Nat) (hij : i ≤ j) (hj : j ≤ v.n) (it : It) (s' : S)
    (e : upperBoundM comp (v.pt i) (v.pt j) value s = (.ok it, s')) :
    ∃ k, it = v.pt k ∧ v.elems s' = v.elems s ∧
      Turns (fun x => said s' value x false) (fun x => said s' value x true) (v.elems s) i j k := by
  unfold upperBoundM at e
  rw [St.bind_lift (v.distance_pt (by omega) hj), if_neg (by omega), show ((j : Int) - i).toNat = j - i by omega] at e
  exact upperLoop t value i j hj (j - i) i s it s' hs (Nat.le_refl _) (by omega) (fun x h => absurd h (by omega))
    (fun x h => absurd h (by omega)) e

theorem recorded_pure (v : View S T It) (comp : T → T → Bool) :
    Recorded v (ofPure comp) fun _ a b c => comp a b = c :=
  ⟨fun _ _ _ h => h, fun _ _ _ _ => rfl, fun s a b c s' _ e => by injection e with e _; injection e with e,
    fun _ _ _ _ _ _ _ h => h⟩

/-- **C139.** On every range and for every comparator that is a function, `LowerBound` returns a position where elements
less than the value are followed by elements that are not, as far as the two neighbours tell. -/
theorem C139_lowerBound (v : View S T It) (s : S) (hs : v.ok s) (comp : T → T → Bool) (value : T) (i j : Nat) (hij : i ≤ j)
    (hj : j ≤ v.n) : ∃ k, lowerBound comp (v.pt i) (v.pt j) value s = (.ok (v.pt k), s) ∧
      Turns (fun x => comp x value = true) (fun x => comp x value = false) (v.elems s) i j k := by
  obtain ⟨k, k1, k2, e, -⟩ := C08_lowerBound v s hs comp value i j hij hj
  obtain ⟨k', e1, -, ht⟩ := C139_lower_said v (ofPure comp) _ (recorded_pure v comp) s hs value i j hij hj (v.pt k) s
    (by rw [lowerBoundM_pure]; exact e)
  exact ⟨k', by rw [e, e1], ht⟩

/-- **C139.** `UpperBound` returns a position where elements the value is not less than are followed by elements it is less
than, as far as the two neighbours tell. -/
theorem C139_upperBound (v : View S T It) (s : S) (hs : v.ok s) (comp : T → T → Bool) (value : T) (i j : Nat) (hij : i ≤ j)
    (hj : j ≤ v.n) : ∃ k, upperBound comp (v.pt i) (v.pt j) value s = (.ok (v.pt k), s) ∧
      Turns (fun x => comp value x = false) (fun x => comp value x = true) (v.elems s) i j k := by
  obtain ⟨k, k1, k2, e, -⟩ := C09_upperBound v s hs comp value i j hij hj
  obtain ⟨k', e1, -, ht⟩ := C139_upper_said v (ofPure comp) _ (recorded_pure v comp) s hs value i j hij hj (v.pt k) s
    (by rw [upperBoundM_pure]; exact e)
  exact ⟨k', by rw [e, e1], ht⟩

omit [RandIter S T It] in
/-- There is always such a position. -/
theorem turns_exists (p : T → Bool) (l : List T) (i : Nat) : ∀ j, i ≤ j → j ≤ l.length →
    ∃ k, Turns (fun x => p x = true) (fun x => p x = false) l i j k ∧
      ∀ (m : Nat) x, i ≤ m → m < k → l[m]? = some x → p x = true := by
  intro j hij
  induction j, hij using Nat.le_induction with
  | base => exact fun _ => ⟨i, ⟨Nat.le_refl _, Nat.le_refl _, fun x h => absurd h (by omega), fun x h => absurd h (by omega)⟩,
      fun m x h1 h2 => absurd h1 (by omega)⟩
  | succ j hij ih =>
    intro hj
    obtain ⟨k, ⟨k1, k2, k3, k4⟩, k5⟩ := ih (by omega)
    by_cases hk : k = j
    · subst hk
      have hx : l[k]? = some l[k] := List.getElem?_eq_getElem (by omega)
      cases hp : p l[k] with
      | true =>
        refine ⟨k + 1, ⟨by omega, by omega, fun x _ h => ?_, fun x h => absurd h (by omega)⟩, fun m x h1 h2 h3 => ?_⟩
        · rw [Nat.add_sub_cancel, hx] at h
          injection h with h
          rw [← h, hp]
        · by_cases hm : m = k
          · subst hm
            rw [hx] at h3
            injection h3 with h3
            rw [← h3, hp]
          · exact k5 m x h1 (by omega) h3
      | false =>
        refine ⟨k, ⟨k1, by omega, k3, fun x _ h => ?_⟩, k5⟩
        rw [hx] at h
        injection h with h
        rw [← h, hp]
    · exact ⟨k, ⟨k1, by omega, k3, fun x _ h => k4 x (by omega) h⟩, k5⟩

omit [RandIter S T It] in
/-- **C139.** It is the only such position exactly if the range is partitioned. So on any other range there is a position that
satisfies the same condition and is not the one returned. -/
theorem C139_only (p : T → Bool) (l : List T) (i j : Nat) (hij : i ≤ j) (hj : j ≤ l.length) :
    (∀ k k', Turns (fun x => p x = true) (fun x => p x = false) l i j k →
      Turns (fun x => p x = true) (fun x => p x = false) l i j k' → k = k') ↔ Partitioned p l i j := by
  constructor
  · intro h
    -- the first place where `p` fails, and the last place where it holds
    obtain ⟨k, hk, hk'⟩ := turns_exists p l i j hij hj
    refine ⟨k, hk.1, hk.2.1, fun m x h1 h2 h3 => hk' m x h1 h2 h3, ?_⟩
    intro m x h1 h2 h3
    cases hp : p x with
    | false => rfl
    | true =>
      obtain ⟨k2, hk2, hk2'⟩ := turns_exists p l m j (by omega) hj
      have hm : m < k2 := by
        have h4 := hk2.2.2.2
        have h5 := hk2.1
        by_cases c : m = k2
        · subst c
          have : p x = false := h4 x h2 h3
          rw [hp] at this
          cases this
        · omega
      have := h k k2 hk ⟨by have := hk.1; omega, hk2.2.1, fun y _ hy => hk2.2.2.1 y hm hy, hk2.2.2.2⟩
      omega
  · rintro ⟨m, m1, m2, hlow, hhigh⟩
    have key : ∀ k, Turns (fun x => p x = true) (fun x => p x = false) l i j k → k = m := by
      rintro k ⟨k1, k2, k3, k4⟩
      rcases Nat.lt_trichotomy k m with c | c | c
      · have hx : l[k]? = some l[k] := List.getElem?_eq_getElem (by omega)
        have h1 : p l[k] = false := k4 _ (by omega) hx
        rw [hlow k _ k1 c hx] at h1
        cases h1
      · exact c
      · have hx : l[k - 1]? = some l[k - 1] := List.getElem?_eq_getElem (by omega)
        have h1 : p l[k - 1] = true := k3 _ (by omega) hx
        rw [hhigh (k - 1) _ (by omega) (by omega) hx] at h1
        cases h1
    intro k k' h h'
    rw [key k h, key k' h']

/-! ## Examples -/

/-- A slice that is not sorted. -/
abbrev exS2 : Slice := ⟨.arr 0 0, 5, 5⟩
/-- its memory -/
abbrev exH2 : Heap Nat := [[1, 7, 3, 8, 2]]

/-- Searching 5, there are three positions with a smaller element before and none or a larger one there. `LowerBound` finds the last. -/
example : lowerBound natLt (⟨0, exS2⟩ : SIter Nat) ⟨5, exS2⟩ 5 exH2 = (.ok ⟨5, exS2⟩, exH2) := by decide +kernel

example : Turns (fun x => natLt x 5 = true) (fun x => natLt x 5 = false) [1, 7, 3, 8, 2] 0 5 1 ∧
    Turns (fun x => natLt x 5 = true) (fun x => natLt x 5 = false) [1, 7, 3, 8, 2] 0 5 3 := by
  constructor <;> refine ⟨by decide, by decide, ?_, ?_⟩ <;> (rintro x - h; injection h with h; subst h; decide)

/-- The hypotheses of `C139_lowerBound`. -/
example : ∃ k, lowerBound natLt (⟨0, exS2⟩ : SIter Nat) ⟨5, exS2⟩ 5 exH2 =
      (.ok ((viewOf (h := exH2) (s := exS2) ⟨by decide, by decide, _, rfl, by decide⟩).pt k), exH2) ∧
    Turns (fun x => natLt x 5 = true) (fun x => natLt x 5 = false) (contents exH2 exS2) 0 5 k :=
  C139_lowerBound (viewOf (h := exH2) (s := exS2) ⟨by decide, by decide, _, rfl, by decide⟩) exH2
    ⟨by decide, by decide, _, rfl, by decide⟩ natLt 5 0 5 (by decide) (by decide)

end Verif.Algo.Unsorted
