import Verif.Xhash.Props
import Mathlib.Data.Finset.Card
import Mathlib.Data.Finset.Range
import Mathlib.Data.Nat.Find

/-!
# C141: what xhash/diehard_gen/main.go prints

The program prints hashes for ever, in one of three ways. A run is cut off after a number of turns of its loop. Parsing the
flags is left out, and so is the buffering of the output: what counts is what is given to the writer.
-/

namespace Verif.Xhash.Gen

open Verif.Xhash

/-- `write` (xhash/diehard_gen/main.go:23-26): what is given to the writer. `b` is the variable of that name, before. -/
def write (b : List Byte) (v : BitVec 64) : Go (List Byte) := putUint64 b v

/-- `n` turns of the loop for `-incr64` (xhash/diehard_gen/main.go:28-31) from the state `h` on: what they give to the
writer. -/
def incrLoop : Nat → BitVec 64 → List Byte → Go (List Byte)
  | 0, _, _ => .ok []
  | n + 1, h, b => do
    let b ← write b (sum64 h)
    let more ← incrLoop n (writeUint64 h 0) b
    return b ++ more

/-- `n` turns of the loop for `-uint64` (xhash/diehard_gen/main.go:33-35) from `i` on. -/
def uint64Loop : Nat → BitVec 64 → List Byte → Go (List Byte)
  | 0, _, _ => .ok []
  | n + 1, i, b => do
    let b ← write b (uint64 i)
    let more ← uint64Loop n (i + 1) b
    return b ++ more

/-- `n` turns of the loop for `-uint64_seed` (xhash/diehard_gen/main.go:37-39) from `i` on. -/
def seedLoop : Nat → BitVec 64 → List Byte → Go (List Byte)
  | 0, _, _ => .ok []
  | n + 1, i, b => do
    let b ← write b (uint64Seed 0 i)
    let more ← seedLoop n (i + 1) b
    return b ++ more

/-- The flags. -/
structure Flags where
  incr64 : Bool
  uint64 : Bool
  uint64Seed : Bool

/-- The program (xhash/diehard_gen/main.go:18-44): what `n` turns of its loop give to the writer; it has no loop if no flag is
set. -/
def main (f : Flags) (n : Nat) : Go (List Byte) :=
  let b := List.replicate 8 0
  if f.incr64 then incrLoop n newFast64 b
  else if f.uint64 then uint64Loop n 0 b
  else if f.uint64Seed then seedLoop n 0 b
  else .ok []

/-! ## What is asked for -/

/-- The run prints, in any number of turns, the eight bytes each of the words `w 0`, `w 1`, … -/
def Prints (run : Nat → Go (List Byte)) (w : Nat → BitVec 64) : Prop :=
  ∀ n, run n = .ok (((List.range n).map w).flatMap bytesOf)

/-- The words repeat after `p`, and no word occurs twice before that. -/
def Repeats (w : Nat → BitVec 64) (p : Nat) : Prop := 0 < p ∧ ∀ j k, w j = w k ↔ j % p = k % p

/-! ## Proofs -/

theorem unroll (w : Nat → BitVec 64) (n : Nat) : ((List.range (n + 1)).map w).flatMap bytesOf =
    bytesOf (w 0) ++ ((List.range n).map fun k => w (k + 1)).flatMap bytesOf := by
  rw [List.range_succ_eq_map, List.map_cons, List.flatMap_cons, List.map_map]
  rfl

theorem add_next (i : BitVec 64) (k : Nat) : i + 1 + BitVec.ofNat 64 k = i + BitVec.ofNat 64 (k + 1) := by
  apply BitVec.eq_of_toNat_eq
  simp
  omega

theorem add_none (i : BitVec 64) : i + BitVec.ofNat 64 0 = i := BitVec.add_zero i

theorem uint64_prints : ∀ (n : Nat) (i : BitVec 64) (b : List Byte), b.length = 8 →
    uint64Loop n i b = .ok (((List.range n).map fun k => uint64 (i + BitVec.ofNat 64 k)).flatMap bytesOf) := by
  intro n
  induction n with
  | zero => exact fun _ _ _ => rfl
  | succ n ih =>
    intro i b hb
    unfold uint64Loop write
    rw [putUint64_ok hb]
    show (uint64Loop n (i + 1) (bytesOf (uint64 i)) >>= fun more => Except.ok (bytesOf (uint64 i) ++ more)) = _
    rw [ih _ _ rfl, unroll, add_none]
    simp only [add_next]
    rfl

theorem seed_prints : ∀ (n : Nat) (i : BitVec 64) (b : List Byte), b.length = 8 →
    seedLoop n i b = .ok (((List.range n).map fun k => uint64Seed 0 (i + BitVec.ofNat 64 k)).flatMap bytesOf) := by
  intro n
  induction n with
  | zero => exact fun _ _ _ => rfl
  | succ n ih =>
    intro i b hb
    unfold seedLoop write
    rw [putUint64_ok hb]
    show (seedLoop n (i + 1) (bytesOf (uint64Seed 0 i)) >>= fun more => Except.ok (bytesOf (uint64Seed 0 i) ++ more)) = _
    rw [ih _ _ rfl, unroll, add_none]
    simp only [add_next]
    rfl

/-- The state after writing `k` zeros. -/
def state (h : BitVec 64) : Nat → BitVec 64
  | 0 => h
  | k + 1 => writeUint64 (state h k) 0

theorem state_first (h : BitVec 64) (k : Nat) : state (writeUint64 h 0) k = state h (k + 1) := by
  induction k with
  | zero => rfl
  | succ k ih => rw [state, ih]; rfl

theorem incr_prints : ∀ (n : Nat) (h : BitVec 64) (b : List Byte), b.length = 8 →
    incrLoop n h b = .ok (((List.range n).map fun k => sum64 (state h k)).flatMap bytesOf) := by
  intro n
  induction n with
  | zero => exact fun _ _ _ => rfl
  | succ n ih =>
    intro h b hb
    unfold incrLoop write
    rw [putUint64_ok hb]
    show (incrLoop n (writeUint64 h 0) (bytesOf (sum64 h)) >>= fun more => Except.ok (bytesOf (sum64 h) ++ more)) = _
    rw [ih _ _ rfl, unroll]
    simp only [state_first]
    rfl

theorem repeats_of_bijective {f : BitVec 64 → BitVec 64} (hf : Bijective f) :
    Repeats (fun k => f (BitVec.ofNat 64 k)) (2 ^ 64) := by
  refine ⟨by decide, fun j k => ⟨fun h => ?_, fun h => ?_⟩⟩
  · have := congrArg BitVec.toNat (hf.1 _ _ h)
    simpa using this
  · show f _ = f _
    congr 1
    apply BitVec.eq_of_toNat_eq
    simpa using h

theorem every_of_bijective {f : BitVec 64 → BitVec 64} (hf : Bijective f) (v : BitVec 64) :
    ∃ k < 2 ^ 64, f (BitVec.ofNat 64 k) = v := by
  obtain ⟨a, e⟩ := hf.2 v
  exact ⟨a.toNat, a.isLt, by rw [BitVec.ofNat_toNat, BitVec.setWidth_eq, e]⟩

theorem state_add (h : BitVec 64) (j k : Nat) : state h (j + k) = state (state h j) k := by
  induction k with
  | zero => rfl
  | succ k ih => rw [← Nat.add_assoc, state, ih]; rfl

theorem state_inj (k : Nat) {a b : BitVec 64} (h : state a k = state b k) : a = b := by
  induction k with
  | zero => exact h
  | succ k ih => exact ih ((uint64Seed_seed_bijective 0).1 _ _ h)

theorem state_returns (h : BitVec 64) : ∃ p, 0 < p ∧ p ≤ 2 ^ 64 ∧ state h p = h := by
  obtain ⟨a, ha, b, hb, hne, e⟩ := Finset.exists_ne_map_eq_of_card_lt_of_maps_to
    (s := Finset.range (2 ^ 64 + 1)) (t := Finset.range (2 ^ 64)) (by simp only [Finset.card_range]; omega)
    (f := fun k => (state h k).toNat) (fun k _ => by simpa using (state h k).isLt)
  have e := BitVec.eq_of_toNat_eq e
  rw [Finset.mem_range] at ha hb
  have key : ∀ a b : Nat, a < b → b < 2 ^ 64 + 1 → state h a = state h b → ∃ p, 0 < p ∧ p ≤ 2 ^ 64 ∧ state h p = h := by
    intro a b h1 h2 e
    refine ⟨b - a, by omega, by omega, ?_⟩
    rw [show b = (b - a) + a by omega, state_add] at e
    exact (state_inj a e).symm
  rcases Nat.lt_or_ge a b with c | c
  · exact key a b c hb e
  · exact key b a (by omega) ha e.symm

theorem state_repeats (h : BitVec 64) : ∃ p ≤ 2 ^ 64, Repeats (fun k => sum64 (state h k)) p := by
  have hex := state_returns h
  let p := Nat.find hex
  have hp : 0 < p ∧ p ≤ 2 ^ 64 ∧ state h p = h := Nat.find_spec hex
  obtain ⟨p0, p1, p2⟩ := hp
  have round : ∀ m k, state h (p * m + k) = state h k := by
    intro m
    induction m with
    | zero => intro k; simp
    | succ m ih => intro k; rw [Nat.mul_succ, Nat.add_assoc, ih, state_add, p2]
  have modp : ∀ k, state h k = state h (k % p) := fun k => by rw [← round (k / p) (k % p), Nat.div_add_mod]
  refine ⟨p, p1, p0, fun j k => ⟨fun e => ?_, fun e => by show sum64 _ = sum64 _; rw [modp j, modp k, e]⟩⟩
  have e : state h j = state h k := uint64_bijective.1 _ _ e
  rw [modp j, modp k] at e
  have small : ∀ a b : Nat, a < b → b < p → state h a ≠ state h b := by
    intro a b h1 h2 e
    rw [show b = (b - a) + a by omega, state_add] at e
    have := state_inj a e
    exact Nat.find_min hex (m := b - a) (by show b - a < p; omega) ⟨by omega, by omega, this.symm⟩
  have hj := Nat.mod_lt j p0
  have hk := Nat.mod_lt k p0
  rcases Nat.lt_trichotomy (j % p) (k % p) with c | c | c
  · exact absurd e (small _ _ c hk)
  · exact c
  · exact absurd e.symm (small _ _ c hj)

/-- **C141.** With `-uint64` the program prints the hashes of 0, 1, 2, …: 2^64 different words, that is, every word once, and
then the same again. -/
theorem C141_uint64 (s : Bool) : ∃ w, Prints (main ⟨false, true, s⟩) w ∧ (∀ k, w k = uint64 (BitVec.ofNat 64 k)) ∧
    Repeats w (2 ^ 64) ∧ ∀ v, ∃ k < 2 ^ 64, w k = v := by
  refine ⟨fun k => uint64 (BitVec.ofNat 64 k), fun n => ?_, fun _ => rfl, repeats_of_bijective uint64_bijective,
    every_of_bijective uint64_bijective⟩
  have := uint64_prints n 0 (List.replicate 8 0) (by simp)
  simp only [show ∀ x : BitVec 64, (0 : BitVec 64) + x = x from BitVec.zero_add] at this
  exact this

/-- **C141.** With `-uint64_seed` it prints the hashes of 0 with the seeds 0, 1, 2, …: also every word once in 2^64. -/
theorem C141_seed : ∃ w, Prints (main ⟨false, false, true⟩) w ∧ (∀ k, w k = uint64Seed 0 (BitVec.ofNat 64 k)) ∧
    Repeats w (2 ^ 64) ∧ ∀ v, ∃ k < 2 ^ 64, w k = v := by
  refine ⟨fun k => uint64Seed 0 (BitVec.ofNat 64 k), fun n => ?_, fun _ => rfl,
    repeats_of_bijective (uint64Seed_seed_bijective 0), every_of_bijective (uint64Seed_seed_bijective 0)⟩
  have := seed_prints n 0 (List.replicate 8 0) (by simp)
  simp only [show ∀ x : BitVec 64, (0 : BitVec 64) + x = x from BitVec.zero_add] at this
  exact this

/-- **C141.** With `-incr64` it prints the sums after writing 0, 1, 2, … zeros; they come back to the first word after at most
2^64 of them, and no word occurs twice before that. -/
theorem C141_incr64 (u s : Bool) : ∃ w p, Prints (main ⟨true, u, s⟩) w ∧
    (∀ k, w k = sum64 (writeAll newFast64 (List.replicate k 0))) ∧ p ≤ 2 ^ 64 ∧ Repeats w p := by
  obtain ⟨p, hp, hr⟩ := state_repeats newFast64
  refine ⟨fun k => sum64 (state newFast64 k), p, fun n => incr_prints n newFast64 _ (by simp), fun k => ?_, hp, hr⟩
  show sum64 _ = sum64 _
  congr 1
  induction k with
  | zero => rfl
  | succ k ih => rw [state, ih, List.replicate_succ']; unfold writeAll; rw [List.foldl_append]; rfl

/-- **C141.** With any flag every turn prints eight bytes. -/
theorem C141_bytes (f : Flags) (n : Nat) : ∃ out, main f n = .ok out ∧
    out.length = if f.incr64 ∨ f.uint64 ∨ f.uint64Seed then 8 * n else 0 := by
  have len : ∀ w : Nat → BitVec 64, (((List.range n).map w).flatMap bytesOf).length = 8 * n := by
    intro w
    rw [List.length_flatMap, List.map_map]
    have : (List.length ∘ bytesOf) ∘ w = fun _ => 8 := rfl
    simp only [Function.comp_def, bytesOf_length, List.map_const', List.length_range, List.sum_replicate_nat]
    omega
  obtain ⟨i, u, s⟩ := f
  unfold main
  cases i with
  | true => exact ⟨_, incr_prints n newFast64 _ (by simp), by rw [len]; simp⟩
  | false =>
    cases u with
    | true => exact ⟨_, uint64_prints n 0 _ (by simp), by rw [len]; simp⟩
    | false =>
      cases s with
      | true => exact ⟨_, seed_prints n 0 _ (by simp), by rw [len]; simp⟩
      | false => exact ⟨[], rfl, by simp⟩

example : main ⟨false, true, false⟩ 1 = .ok (bytesOf (uint64 0)) := by decide +kernel
example : main ⟨true, false, false⟩ 2 = .ok (bytesOf (uint64 newFast64) ++ bytesOf (uint64 (uint64Seed 0 newFast64))) := by
  decide +kernel

end Verif.Xhash.Gen
