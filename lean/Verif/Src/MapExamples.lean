import Verif.Src.MapArr
import Verif.Src.MapCustom
import Verif.Src.MapSet

/-!
# C152: a case that meets the hypotheses, and the text of ds/xmap run on it
-/

namespace Verif.Src.XMap

open Verif.GoMap

/-- Numbers as keys and values; `range` visits backwards; the hash is the number modulo 10. -/
def par : Par Nat Nat where
  zeroK := 0
  zeroV := 0
  grow _ n := n
  order _ es := es.reverse
  sprint _ := "key not found"
  hash k := UInt64.ofNat (k % 10)
  equal a b := a == b

theorem par_fair : Fair par := fun _ es => List.reverse_perm es

/-- Memory with nothing in it. -/
def mem0 : Mem (Nat ⊕ Nat) := ⟨[], []⟩

/-- A history in which C27 and C28 of the text apply. -/
example : ∃ r m1 m2, calls (ctx par) 1 "New" [] mem0 = pure ([r], m1) ∧
    history par 3 r [.set 1 10, .set 2 20, .delete 2, .has 1, .tryGet 2, .get 1, .clear, .has 1] m1 =
      pure ([[], [], [.bool true], [.bool true], [vE 0, .bool false], [vE 10], [], [.bool false]], m2) := by
  refine C152_arrayMap_text rfl par_fair 0 mem0 [.set 1 10, .set 2 20, .delete 2, .has 1, .tryGet 2, .get 1, .clear, .has 1] (by decide) ?_ rfl
  simp [ArrayMap.Lifo, PMap.set]

example : ∃ r m1 e, calls (ctx par) 1 "New" [] mem0 = pure ([r], m1) ∧ history par 3 r [.set 1 10, .set 2 20, .delete 1, .tryGet 2] m1 = panic e :=
  C152_arrayMap_panics rfl par_fair 0 mem0

/-- A key with the hash of another. -/
example : ∃ r m1 m2, calls (ctx par) 1 "NewCustom" [.fn "hasher", .fn "comparator"] mem0 = pure ([r], m1) ∧
    historyCust par 2 r [.set 3 30, .set 13 40, .get 13, .delete 13] m1 = pure ([[.bool true], [.bool true], [vE 30, .bool false], [.bool false]], m2) :=
  C152_custom_loses rfl 0 mem0 13 3 40 30 rfl rfl

/-- Keys with different hashes. -/
example : CustomMap.Good par.hash par.equal ∧ CustomMap.NoClash par.hash par.equal (PMap.empty : PMap Nat Nat) [.set 3 30, .set 14 40, .get 14, .delete 3] := by
  refine ⟨⟨by simp [par], by simp [par], by simp [par], fun a b h => by simp [par] at h; rw [h]⟩, ?_⟩
  simp [CustomMap.NoClash, CustomMap.spec, par, PMap.empty, CustomMap.Op.key]
  constructor <;> intro x h
  · by_cases h1 : 14 = x
    · intro; exact h1.symm
    · by_cases h2 : 3 = x
      · subst h2; intro h; exact absurd h (by decide)
      · simp [h1, h2] at h
  · by_cases h1 : 14 = x
    · subst h1; intro h; exact absurd h (by decide)
    · by_cases h2 : 3 = x
      · intro; exact h2.symm
      · simp [h1, h2] at h

example : ∃ w m1 rs vss m2, calls (ctx par) 1 "NewSet" [] mem0 = pure ([w], m1) ∧ historySet par 2 w [.add 1, .tryAdd 1, .add 2, .values, .len] m1 = pure (vss, m2) ∧
    AreRes m2 rs vss ∧ SetSpecAll (fun _ => False) [.add 1, .tryAdd 1, .add 2, .values, .len] rs := by
  obtain ⟨w, m1, rs, vss, m2, h1, h2, h3, h4, -⟩ := C152_set_text par_fair 0 mem0 [.add 1, .tryAdd 1, .add 2, .values, .len]
  exact ⟨w, m1, rs, vss, m2, h1, h2, h3, h4⟩

example : ∃ l, NewSlice kE ⟨[], [obj par (vE 0) kE vE ([(1, 10), (2, 20)] : Tab Nat Nat)]⟩
    (calls (ctx par) 1 "Keys" [.map 0] ⟨[], [obj par (vE 0) kE vE ([(1, 10), (2, 20)] : Tab Nat Nat)]⟩) l ∧ l.Perm [1, 2] :=
  (C152_enumerate (p := par) (z := vE 0) (t := [(1, 10), (2, 20)]) par_fair rfl (by unfold Tab.WF; decide) 0).2.1

end Verif.Src.XMap
