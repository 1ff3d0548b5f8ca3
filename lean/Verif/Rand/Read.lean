import Verif.Rand.Lemmas

/-!
# `Read`
-/

namespace Verif.Rand

variable {S : Source}

/-- The next `m` numbers. -/
def drawn (S : Source) : Nat → S.σ → Go (List (BitVec 64) × S.σ)
  | 0, q => .ok ([], q)
  | m + 1, q => do
    let (v, q) ← S.int63 q
    let (ws, q) ← drawn S m q
    .ok (v :: ws, q)

/-- The `p` lowest bytes of a number, the lowest first. -/
def low (v : BitVec 64) (p : Nat) : List Byte := (List.range p).map fun i => (v >>> (8 * i)).setWidth 8

theorem low_length (v : BitVec 64) (p : Nat) : (low v p).length = p := by simp [low]

/-- The first of seven or fewer is the lowest byte, and the shifted number has the others, whatever its sign. -/
theorem low_succ (v : BitVec 64) {p : Nat} (hp : p ≤ 6) : low v (p + 1) = v.setWidth 8 :: low (v.sshiftRight 8) p := by
  unfold low
  rw [List.range_succ_eq_map, List.map_cons, List.map_map]
  congr 1
  apply List.map_congr_left
  intro i hi
  have hi : i < p := by simpa using hi
  simp only [Function.comp]
  apply BitVec.eq_of_getLsbD_eq
  intro k hk
  rw [BitVec.getLsbD_setWidth, BitVec.getLsbD_setWidth, BitVec.getLsbD_ushiftRight, BitVec.getLsbD_ushiftRight,
    BitVec.getLsbD_sshiftRight, if_pos (by omega)]
  rw [show 8 * (i + 1) + k = 8 + (8 * i + k) by omega, show decide (64 ≤ 8 * i + k) = false from decide_eq_false (by omega)]
  simp

/-- How many numbers it takes to give `k` bytes with `p` at hand. -/
def needed (k p : Nat) : Nat := (k - p + 6) / 7

/-- All the bytes: those at hand, and seven of each number. -/
def pool (v : BitVec 64) (p : Nat) (ws : List (BitVec 64)) : List Byte := low v p ++ ws.flatMap (low · 7)

theorem read_ok : ∀ (k : Nat) (q : S.σ) (v : BitVec 64) (p : Nat), p ≤ 7 →
    match drawn S (needed k p) q with
    | .error e => read S k ⟨q, v, p⟩ = .error e
    | .ok (ws, q') => ∃ v', read S k ⟨q, v, p⟩ = .ok ((pool v p ws).take k, ⟨q', v', p + 7 * needed k p - k⟩) ∧
        low v' (p + 7 * needed k p - k) = (pool v p ws).drop k := by
  intro k
  induction k with
  | zero =>
    intro q v p hp
    have : needed 0 p = 0 := by simp only [needed]; omega
    rw [this, drawn]
    refine ⟨v, ?_, ?_⟩
    · simp [read]
    · simp [pool]
  | succ k ih =>
    intro q v p hp
    -- with a number at hand
    have more : ∀ (q : S.σ) (v : BitVec 64) (p : Nat), p ≤ 6 →
        match drawn S (needed (k + 1) (p + 1)) q with
        | .error e => (do let (bs, r') ← read S k ⟨q, v.sshiftRight 8, p⟩; .ok (v.setWidth 8 :: bs, r') : Go (List Byte × State S)) = .error e
        | .ok (ws, q') => ∃ v', (do let (bs, r') ← read S k ⟨q, v.sshiftRight 8, p⟩; .ok (v.setWidth 8 :: bs, r') : Go (List Byte × State S)) =
              .ok ((pool v (p + 1) ws).take (k + 1), ⟨q', v', p + 1 + 7 * needed (k + 1) (p + 1) - (k + 1)⟩) ∧
            low v' (p + 1 + 7 * needed (k + 1) (p + 1) - (k + 1)) = (pool v (p + 1) ws).drop (k + 1) := by
      intro q v p hp
      have e : needed (k + 1) (p + 1) = needed k p := by simp only [needed]; omega
      rw [e, show p + 1 + 7 * needed k p - (k + 1) = p + 7 * needed k p - k by omega]
      have h := ih q (v.sshiftRight 8) p (by omega)
      cases hd : drawn S (needed k p) q with
      | error m =>
        rw [hd] at h
        simp only at h ⊢
        rw [h]; rfl
      | ok x =>
        obtain ⟨ws, q'⟩ := x
        rw [hd] at h
        obtain ⟨v', h1, h2⟩ := h
        refine ⟨v', ?_, ?_⟩
        · rw [h1]
          simp only [pool, low_succ v hp]
          rfl
        · rw [h2]
          simp only [pool, low_succ v hp]
          rfl
    rw [read]
    by_cases c : p = 0
    · subst c
      have e : needed (k + 1) 0 = needed (k + 1) 7 + 1 := by simp only [needed]; omega
      rw [e, drawn]
      simp only [if_true]
      cases hv : S.int63 q with
      | error m => rfl
      | ok x =>
        obtain ⟨w, q1⟩ := x
        have h := more q1 w 6 (by omega)
        cases hd : drawn S (needed (k + 1) 7) q1 with
        | error m =>
          rw [hd] at h
          simp only [bind, Except.bind, hd]
          exact h
        | ok x =>
          obtain ⟨ws, q'⟩ := x
          rw [hd] at h
          simp only [bind, Except.bind, hd]
          obtain ⟨v', h1, h2⟩ := h
          have e2 : pool v 0 (w :: ws) = pool w 7 ws := by simp [pool, low]
          rw [e2, show 0 + 7 * (needed (k + 1) 7 + 1) - (k + 1) = 7 + 7 * needed (k + 1) 7 - (k + 1) by omega]
          exact ⟨v', h1, h2⟩
    · obtain ⟨p', rfl⟩ : ∃ p', p = p' + 1 := ⟨p - 1, by omega⟩
      have h := more q v p' (by omega)
      simp only [if_neg c]
      exact h

/-- Two reads are one. -/
theorem read_add (a b : Nat) (r : State S) : read S (a + b) r = (do
    let (x, r) ← read S a r
    let (y, r) ← read S b r
    .ok (x ++ y, r)) := by
  induction a generalizing r with
  | zero =>
    rw [Nat.zero_add]
    show read S b r = (do let (y, r) ← read S b r; .ok ([] ++ y, r))
    cases read S b r with
    | error e => rfl
    | ok x => rfl
  | succ a ih =>
    rw [show a + 1 + b = (a + b) + 1 by omega, read, read]
    have : ∀ r0 : State S, (do let (bs, r') ← read S (a + b) ⟨r0.src, r0.val.sshiftRight 8, r0.pos - 1⟩; .ok (r0.val.setWidth 8 :: bs, r') : Go (List Byte × State S)) =
        (do let (x, r) ← (do let (bs, r') ← read S a ⟨r0.src, r0.val.sshiftRight 8, r0.pos - 1⟩; .ok (r0.val.setWidth 8 :: bs, r') : Go (List Byte × State S))
            let (y, r) ← read S b r
            .ok (x ++ y, r)) := by
      intro r0
      rw [ih]
      cases read S a ⟨r0.src, r0.val.sshiftRight 8, r0.pos - 1⟩ with
      | error e => rfl
      | ok x =>
        obtain ⟨x, r1⟩ := x
        simp only [bind, Except.bind]
        cases read S b r1 with
        | error e => rfl
        | ok y => rfl
    by_cases c : r.pos = 0
    · simp only [if_pos c]
      cases S.int63 r.src with
      | error e => rfl
      | ok x => exact this _
    · simp only [if_neg c]
      exact this _

end Verif.Rand
