import Verif.Rand.Perm

/-!
# `Shuffle`
-/

namespace Verif.Rand

variable {S : Source}

/-- Which numbers `Shuffle` takes to choose among `i + 1` places. -/
def ShAccepts (i w : Nat) : Prop := if 2 ^ 31 - 1 - 1 < i then w < 2 ^ 63 / (i + 1) * (i + 1) else FastAccepts (i + 1) w

/-- What it makes of them. -/
def shReduce (i w : Nat) : Nat := if 2 ^ 31 - 1 - 1 < i then w % (i + 1) else fastReduce (i + 1) w

theorem shReduce_le {i w : Nat} (hw : w < 2 ^ 63) : shReduce i w ≤ i := by
  unfold shReduce
  split
  · have := Nat.mod_lt w (show 0 < i + 1 by omega); omega
  · have := fastReduce_lt (n := i + 1) (by omega) hw; omega

theorem picks_index (hS : NonNeg S) {i : Nat} (hi : i + 1 < 2 ^ 63) :
    Picks (shuffleIndex S i) (ShAccepts i) fun w => (shReduce i w : Int) := by
  unfold shuffleIndex
  by_cases c : 2 ^ 31 - 1 - 1 < i
  · rw [if_pos c]
    have hn : (BitVec.ofNat 64 (i + 1)).toNat = i + 1 := by rw [BitVec.toNat_ofNat]; exact Nat.mod_eq_of_lt (by omega)
    have h := picks_int63n hS (n := BitVec.ofNat 64 (i + 1)) ((sle_zero (k := 63)).2 (by rw [hn]; omega))
    rw [hn] at h
    refine (h.map BitVec.toInt).congr hS (fun w hw => ?_) fun w hw _ => ?_
    · simp only [ShAccepts, if_pos c]
    · simp only [shReduce, if_pos c]
      have := Nat.mod_lt w (show 0 < i + 1 by omega)
      have e : (BitVec.ofNat 64 (w % (i + 1))).toNat = w % (i + 1) := by
        rw [BitVec.toNat_ofNat]; exact Nat.mod_eq_of_lt (by omega)
      rw [toInt_small (k := 63) (by rw [e]; omega), e]
  · rw [if_neg c]
    have hn : (BitVec.ofNat 32 (i + 1)).toNat = i + 1 := by rw [BitVec.toNat_ofNat]; exact Nat.mod_eq_of_lt (by omega)
    have h := picks_fast hS (n := BitVec.ofNat 32 (i + 1)) ((sle_zero (k := 31)).2 (by rw [hn]; omega))
    rw [hn] at h
    refine (h.map BitVec.toInt).congr hS (fun w hw => ?_) fun w hw _ => ?_
    · simp only [ShAccepts, if_neg c]
    · simp only [shReduce, if_neg c]
      have := fastReduce_lt (n := i + 1) (by omega) hw
      have e : (BitVec.ofNat 32 (fastReduce (i + 1) w)).toNat = fastReduce (i + 1) w := by
        rw [BitVec.toNat_ofNat]; exact Nat.mod_eq_of_lt (by omega)
      rw [toInt_small (k := 31) (by rw [e]; omega), e]

/-- The choices the source makes for the indices from `i` down to 1. -/
inductive ShChosen (S : Source) : Nat → List Nat → S.σ → S.σ → Prop where
  | zero (q : S.σ) : ShChosen S 0 [] q q
  | succ (i w : Nat) (js : List Nat) (q q1 q2 : S.σ) :
      First S (ShAccepts (i + 1)) q w q1 → ShChosen S i js q1 q2 → ShChosen S (i + 1) (shReduce (i + 1) w :: js) q q2

/-- Possible choices: for the indices from `i` down to 1, each at most the index. -/
def ShChoices : Nat → List Nat → Prop
  | 0, js => js = []
  | _ + 1, [] => False
  | i + 1, j :: js => j ≤ i + 1 ∧ ShChoices i js

theorem ShChosen.choices (hS : NonNeg S) {i : Nat} {js : List Nat} {q q' : S.σ} (h : ShChosen S i js q q') : ShChoices i js := by
  induction h with
  | zero q => rfl
  | succ i w js q q1 q2 h1 h2 ih => exact ⟨shReduce_le (h1.lt hS), ih⟩

/-- The calls of `swap`: `swap(i, j)` for the indices from `i` down to 1. -/
def swaps {τ : Type} (swap : τ → Nat → Int → Go τ) : Nat → List Nat → τ → Go τ
  | 0, _, s => .ok s
  | _ + 1, [], s => .ok s
  | i + 1, j :: js, s => do swaps swap i js (← swap s (i + 1) j)

theorem shuffleLoop_ok (hS : NonNeg S) {τ : Type} (swap : τ → Nat → Int → Go τ) : ∀ (i : Nat), i + 1 < 2 ^ 63 →
    ∀ (s : τ) (q : S.σ) (s' : τ) (q' : S.σ), shuffleLoop S swap i s q = some (.ok (s', q')) ↔
      ∃ js, ShChosen S i js q q' ∧ swaps swap i js s = .ok s' := by
  intro i
  induction i with
  | zero =>
    intro _ s q s' q'
    rw [shuffleLoop, pure_ok]
    constructor
    · rintro ⟨rfl, rfl⟩; exact ⟨[], .zero _, rfl⟩
    · rintro ⟨js, h1, h2⟩
      cases h1
      cases h2
      exact ⟨rfl, rfl⟩
  | succ i ih =>
    intro hi s q s' q'
    rw [shuffleLoop, bind_ok]
    constructor
    · rintro ⟨j, q1, h1, h2⟩
      obtain ⟨w, hw, rfl⟩ := (picks_index hS (by omega) _ _ _).1 h1
      obtain ⟨s1, q2, h3, h4⟩ := bind_ok.1 h2
      cases e : swap s (i + 1) (shReduce (i + 1) w : Int) with
      | error m => rw [e] at h3; injection h3 with h3; cases h3
      | ok x =>
        rw [e] at h3
        injection h3 with h3
        cases h3
        obtain ⟨js, k1, k2⟩ := (ih (by omega) _ _ _ _).1 h4
        exact ⟨_, .succ _ _ _ _ _ _ hw k1, by rw [swaps, e]; exact k2⟩
    · rintro ⟨js, h1, h2⟩
      cases h1 with
      | succ _ w js _ q1 _ hw h1 =>
        refine ⟨_, q1, (picks_index hS (by omega) _ _ _).2 ⟨w, hw, rfl⟩, ?_⟩
        rw [swaps] at h2
        cases e : swap s (i + 1) (shReduce (i + 1) w : Int) with
        | error m => rw [e] at h2; cases h2
        | ok x =>
          rw [e] at h2
          exact bind_ok.2 ⟨x, q1, rfl, (ih (by omega) _ _ _ _).2 ⟨js, h1, h2⟩⟩

/-! ## On a list -/

variable {α : Type}

/-- Two elements change places. -/
def swapAt (l : List α) (i j : Nat) : List α :=
  match l[i]?, l[j]? with
  | some x, some y => (l.set i y).set j x
  | _, _ => l

/-- The swaps for the indices from `i` down to 1. -/
def shuffled : Nat → List Nat → List α → List α
  | 0, _, l => l
  | _ + 1, [], l => l
  | i + 1, j :: js, l => shuffled i js (swapAt l (i + 1) j)

theorem swapAt_length (l : List α) (i j : Nat) : (swapAt l i j).length = l.length := by
  unfold swapAt
  split <;> simp

theorem swapAt_get {l : List α} {i j : Nat} (hi : i < l.length) (hj : j < l.length) (k : Nat) :
    (swapAt l i j)[k]? = if k = j then l[i]? else if k = i then l[j]? else l[k]? := by
  have e1 : l[i]? = some l[i] := List.getElem?_eq_getElem hi
  have e2 : l[j]? = some l[j] := List.getElem?_eq_getElem hj
  unfold swapAt
  rw [e1, e2]
  simp only
  by_cases c : k = j
  · subst c
    rw [if_pos rfl, List.getElem?_set_self (by simpa using hj)]
  · rw [if_neg c, List.getElem?_set_ne (Ne.symm c)]
    by_cases c2 : k = i
    · subst c2
      rw [if_pos rfl, List.getElem?_set_self hi]
    · rw [if_neg c2, List.getElem?_set_ne (Ne.symm c2)]

/-- With the last element: the rest gets it in place of the chosen element, which is last now. -/
theorem swapAt_last (l : List α) (x : α) {j : Nat} (hj : j ≤ l.length) :
    ∃ y, (l ++ [x])[j]? = some y ∧ swapAt (l ++ [x]) l.length j = l.set j x ++ [y] := by
  have hj' : j < (l ++ [x]).length := by simp; omega
  refine ⟨(l ++ [x])[j], List.getElem?_eq_getElem hj', List.ext_getElem? fun k => ?_⟩
  rw [swapAt_get (by simp) hj']
  by_cases c : k = j
  · subst c
    rw [if_pos rfl]
    by_cases c2 : k < l.length
    · rw [List.getElem?_append_left (l₁ := l.set k x) (by simpa using c2), List.getElem?_set_self c2]
      simp
    · have : k = l.length := by omega
      subst this
      simp
  · rw [if_neg c]
    by_cases c2 : k = l.length
    · subst c2
      rw [if_pos rfl, List.getElem?_append_right (l₁ := l.set j x) (by simp)]
      simp only [List.length_set, Nat.sub_self, List.getElem?_cons_zero]
      exact List.getElem?_eq_getElem hj'
    · rw [if_neg c2]
      by_cases c3 : k < l.length
      · rw [List.getElem?_append_left c3, List.getElem?_append_left (l₁ := l.set j x) (by simpa using c3),
          List.getElem?_set_ne (Ne.symm c)]
      · rw [List.getElem?_eq_none (by simp; omega), List.getElem?_eq_none (by simp; omega)]

/-- What comes after index `i` stays. -/
theorem shuffled_append : ∀ (i : Nat) (js : List Nat) (l t : List α), ShChoices i js → i < l.length →
    shuffled i js (l ++ t) = shuffled i js l ++ t := by
  intro i
  induction i with
  | zero => intro js l t _ _; rfl
  | succ i ih =>
    intro js l t h hi
    match js, h with
    | j :: js, ⟨hj, h⟩ =>
      have e : swapAt (l ++ t) (i + 1) j = swapAt l (i + 1) j ++ t := by
        have h1 : i + 1 < (l ++ t).length := by simp; omega
        have h2 : j < (l ++ t).length := by simp; omega
        apply List.ext_getElem?
        intro k
        rw [swapAt_get h1 h2]
        by_cases c : k < l.length
        · rw [List.getElem?_append_left (l₁ := swapAt l (i + 1) j) (by rw [swapAt_length]; exact c),
            swapAt_get hi (by omega), List.getElem?_append_left hi, List.getElem?_append_left (by omega : j < l.length),
            List.getElem?_append_left c]
        · rw [List.getElem?_append_right (l₁ := swapAt l (i + 1) j) (by rw [swapAt_length]; omega), swapAt_length,
            if_neg (by omega), if_neg (by omega), List.getElem?_append_right (by omega)]
      rw [shuffled, shuffled, e]
      exact ih js _ t h (by rw [swapAt_length]; omega)

theorem set_perm {l : List α} {x y : α} {j : Nat} (hj : j ≤ l.length) (hy : (l ++ [x])[j]? = some y) :
    (l.set j x ++ [y]).Perm (l ++ [x]) := by
  by_cases c : j = l.length
  · subst c
    rw [List.getElem?_append_right (Nat.le_refl _), Nat.sub_self] at hy
    injection hy with hy
    subst hy
    rw [List.set_eq_of_length_le (Nat.le_refl _)]
  · have hlt : j < l.length := by omega
    rw [List.getElem?_append_left hlt, List.getElem?_eq_getElem hlt] at hy
    injection hy with hy
    subst hy
    have h1 : l.set j x = l.take j ++ x :: l.drop (j + 1) := List.set_eq_take_append_cons_drop ▸ by simp [hlt]
    have h2 : l = l.take j ++ l[j] :: l.drop (j + 1) := by simp
    have h3 : (l ++ [x]).Perm ((l.take j ++ l[j] :: l.drop (j + 1)) ++ [x]) := by rw [← h2]
    rw [h1]
    refine List.Perm.trans ?_ h3.symm
    generalize l.take j = a
    generalize l.drop (j + 1) = b
    rw [List.append_assoc, List.append_assoc, List.cons_append, List.cons_append]
    refine List.Perm.append_left a ?_
    have e1 : (x :: (b ++ [l[j]])).Perm (x :: l[j] :: b) := (List.perm_append_singleton l[j] b).cons _
    have e2 : (l[j] :: (b ++ [x])).Perm (l[j] :: x :: b) := (List.perm_append_singleton x b).cons _
    exact e1.trans ((List.Perm.swap _ _ _).trans e2.symm)

/-- The last element and the rest. -/
theorem snoc_of {l : List α} {n : Nat} (h : l.length = n + 1) : ∃ k x, l = k ++ [x] ∧ k.length = n := by
  rcases List.eq_nil_or_concat l with rfl | ⟨k, x, rfl⟩
  · simp at h
  · exact ⟨k, x, by simp, by simpa using h⟩

/-- A shuffled list is a permutation. -/
theorem shuffled_perm : ∀ (i : Nat) (js : List Nat) (l : List α), ShChoices i js → l.length = i + 1 → (shuffled i js l).Perm l := by
  intro i
  induction i with
  | zero => intro js l _ _; exact List.Perm.refl _
  | succ i ih =>
    intro js l h hl
    match js, h with
    | j :: js, ⟨hj, h⟩ =>
      obtain ⟨k, x, rfl, hk⟩ := snoc_of hl
      obtain ⟨y, hy, e⟩ := swapAt_last k x (j := j) (by omega)
      rw [shuffled, ← hk, e, shuffled_append i js _ _ h (by simp; omega)]
      exact ((ih js _ h (by simp; omega)).append_right _).trans (set_perm (by omega) hy)

/-- Of a list without repetitions, every arrangement comes from exactly one list of choices. -/
theorem shuffled_unique : ∀ (i : Nat) (l : List α), l.Nodup → l.length = i + 1 → ∀ l', l'.Perm l →
    ∃ js, ShChoices i js ∧ shuffled i js l = l' ∧ ∀ js', ShChoices i js' → shuffled i js' l = l' → js' = js := by
  intro i
  induction i with
  | zero =>
    intro l hn hl l' hp
    refine ⟨[], rfl, ?_, fun js' h _ => h⟩
    obtain ⟨x, rfl⟩ := List.length_eq_one_iff.1 hl
    exact (List.perm_singleton.1 hp).symm
  | succ i ih =>
    intro l hn hl l' hp
    obtain ⟨k, x, rfl, hk⟩ := snoc_of hl
    obtain ⟨k', y, rfl, hk'⟩ := snoc_of (hp.length_eq.trans hl)
    have hy : y ∈ k ++ [x] := hp.mem_iff.1 (by simp)
    obtain ⟨j, hj, hjy⟩ := List.getElem_of_mem hy
    have hjl : j ≤ k.length := by simp at hj; omega
    obtain ⟨y', hy', e⟩ := swapAt_last k x hjl
    have : y' = y := by
      rw [List.getElem?_eq_getElem hj, hjy] at hy'
      exact (Option.some.inj hy').symm
    subst this
    have hsp := set_perm hjl hy'
    have hnd : (k.set j x).Nodup := (List.nodup_append.1 (hsp.nodup_iff.2 hn)).1
    have hkp : k'.Perm (k.set j x) := (List.perm_append_right_iff [y']).1 (hp.trans hsp.symm)
    obtain ⟨js, h1, h2, h3⟩ := ih (k.set j x) hnd (by simp; omega) k' hkp
    have hlast : ∀ j2 js2 y2, ShChoices i js2 → j2 ≤ k.length → (k ++ [x])[j2]? = some y2 →
        swapAt (k ++ [x]) k.length j2 = k.set j2 x ++ [y2] →
        shuffled (i + 1) (j2 :: js2) (k ++ [x]) = shuffled i js2 (k.set j2 x) ++ [y2] := by
      intro j2 js2 y2 g1 g2 g3 g4
      rw [shuffled, ← hk, g4, shuffled_append i js2 _ _ g1 (by simp; omega)]
    refine ⟨j :: js, ⟨by omega, h1⟩, by rw [hlast j js y' h1 hjl hy' e, h2], ?_⟩
    intro js' g1 g2
    match js', g1 with
    | j2 :: js2, ⟨hj2, g1⟩ =>
      obtain ⟨y2, hy2, e2⟩ := swapAt_last k x (j := j2) (by omega)
      rw [hlast j2 js2 y2 g1 (by omega) hy2 e2] at g2
      obtain ⟨g3, g4⟩ := List.append_inj' g2 rfl
      have g4 : y2 = y' := by simpa using g4
      subst g4
      have hj2l := (List.getElem?_eq_some_iff.1 hy2).1
      have : j2 = j := (List.getElem_inj hn).1 (by
        have a := (List.getElem?_eq_some_iff.1 hy2).2
        rw [a, hjy])
      subst this
      rw [h3 js2 g1 g3]

end Verif.Rand
