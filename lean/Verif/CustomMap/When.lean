import Verif.CustomMap.Exact

/-!
# When exactly `Custom` is right (C29, C30)

`C29_C30_partial` names histories on which it is right, C114 says what comes out otherwise. Here: lookups are right all
along a history if and only if no `Set` in it is of a key whose hash another live key has; all operations are right all
along if and only if moreover live keys whose hash some other key has, have the zero value.
-/

namespace Verif.CustomMap

open Verif.GoMap

section
variable {K V : Type} [Inhabited V] (hash : K → UInt64) (equal : K → K → Bool)

/-- No `Set` is of a key whose hash another live key has. -/
def SetsFree (m : PMap K V) : List (Op K V) → Prop
  | [] => True
  | .set k v :: ops => (∀ x w, ¬ Taken hash equal m k x w) ∧ SetsFree (spec equal m (.set k v)).2 ops
  | op :: ops => SetsFree (spec equal m op).2 ops

/-- The struct after a history. -/
def runEnd (c : Custom K V) : List (Op K V) → Custom K V
  | [] => c
  | op :: ops => runEnd (run hash equal c op).2 ops

/-- What `Get` finds of every key is right. -/
def Finds (c : Custom K V) (m : PMap K V) : Prop := ∀ k, (run hash equal c (.get k)).1.found = m k

/-- Every operation that could be called gives the right results. -/
def AllRight (c : Custom K V) (m : PMap K V) : Prop := ∀ op, (run hash equal c op).1 = (spec equal m op).1

variable {hash equal}

theorem finds_of_complete {c : Custom K V} {m : PMap K V} (h : Sound hash equal c m)
    (hc : Complete hash equal c m) : Finds hash equal c m := by
  intro k
  have h1 := (sound_res h).1 k
  simp only [run]
  cases e : get hash equal c k with
  | mk v ok =>
    cases ok with
    | true => simp only [Res.found]; rw [h1 v e]
    | false =>
      simp only [Res.found]
      cases hk : m k with
      | none => rfl
      | some w =>
        obtain ⟨k', e1, e2⟩ := hc k w hk
        rw [get_eq h.ovf, e1] at e
        injection e with _ e
        simp only at e
        rw [e2] at e
        cases e

/-- An operation that is no `Set` of a taken hash keeps everything. -/
theorem complete_run (g : Good hash equal) {c : Custom K V} {m : PMap K V} (h : Sound hash equal c m)
    (hc : Complete hash equal c m) (op : Op K V) (hf : ∀ k v, op = .set k v → ∀ x w, ¬ Taken hash equal m k x w) :
    Complete hash equal (run hash equal c op).2 (spec equal m op).2 := by
  by_cases ht : ∃ x w, Taken hash equal m op.key x w
  · obtain ⟨x, w, ht⟩ := ht
    cases op with
    | set k v => exact (hf k v rfl x w ht).elim
    | get k => exact hc
    | delete k =>
      rw [(taken_run g h hc (k := k) ht default).2.2]
      intro y v hy
      simp only [spec] at hy
      split at hy
      · cases hy
      · exact hc y v hy
  · refine (exact_run g h hc op ?_).2
    intro x hx hh
    cases e : equal x op.key with
    | true => rfl
    | false =>
      cases hm : m x with
      | none => exact (hx hm).elim
      | some w => exact (ht ⟨x, w, hm, hh, e⟩).elim

theorem setsFree_cons (m : PMap K V) (op : Op K V) (ops : List (Op K V)) : SetsFree hash equal m (op :: ops) ↔
    (∀ k v, op = .set k v → ∀ x w, ¬ Taken hash equal m k x w) ∧ SetsFree hash equal (spec equal m op).2 ops := by
  cases op with
  | set k v =>
    constructor
    · rintro ⟨h1, h2⟩
      refine ⟨?_, h2⟩
      intro k' v' e
      cases e
      exact h1
    · rintro ⟨h1, h2⟩
      exact ⟨h1 k v rfl, h2⟩
  | get k => exact ⟨fun h => ⟨fun _ _ e => (by cases e), h⟩, fun h => h.2⟩
  | delete k => exact ⟨fun h => ⟨fun _ _ e => (by cases e), h⟩, fun h => h.2⟩

theorem finds_key (g : Good hash equal) : ∀ (ops : List (Op K V)) (c : Custom K V) (m : PMap K V),
    Sound hash equal c m → Complete hash equal c m →
    ((∀ a b, ops = a ++ b → Finds hash equal (runEnd hash equal c a) (specEnd equal m a)) ↔ SetsFree hash equal m ops) ∧
    (SetsFree hash equal m ops → ∀ a b, ops = a ++ b →
      Sound hash equal (runEnd hash equal c a) (specEnd equal m a) ∧
      Complete hash equal (runEnd hash equal c a) (specEnd equal m a)) := by
  intro ops
  induction ops with
  | nil =>
    intro c m h hc
    refine ⟨⟨fun _ => trivial, fun _ a b e => ?_⟩, fun _ a b e => ?_⟩
    · obtain ⟨rfl, rfl⟩ := List.append_eq_nil_iff.1 e.symm
      exact finds_of_complete h hc
    · obtain ⟨rfl, rfl⟩ := List.append_eq_nil_iff.1 e.symm
      exact ⟨h, hc⟩
  | cons op ops ih =>
    intro c m h hc
    rw [setsFree_cons]
    have hs := sound_run g h op
    have up : (∀ k v, op = .set k v → ∀ x w, ¬ Taken hash equal m k x w) ∧
        SetsFree hash equal (spec equal m op).2 ops → ∀ a b, op :: ops = a ++ b →
        Sound hash equal (runEnd hash equal c a) (specEnd equal m a) ∧
        Complete hash equal (runEnd hash equal c a) (specEnd equal m a) := by
      rintro ⟨h1, h2⟩ a b e
      cases a with
      | nil => exact ⟨h, hc⟩
      | cons o a =>
        injection e with e1 e2
        subst e1
        exact (ih _ _ hs (complete_run g h hc op h1)).2 h2 a b e2
    refine ⟨⟨fun hall => ?_, fun hf a b e => ?_⟩, up⟩
    · -- a `Set` of a taken hash is not found
      have h1 : ∀ k v, op = .set k v → ∀ x w, ¬ Taken hash equal m k x w := by
        rintro k v rfl x w ht
        have := hall [.set k v] ops rfl k
        simp only [runEnd, specEnd] at this
        rw [(taken_run g h hc ht v).1] at this
        rw [(taken_run g h hc ht v).2.1] at this
        simp [Res.found, spec, g.refl] at this
      refine ⟨h1, (ih _ _ hs (complete_run g h hc op h1)).1.1 fun a b e => ?_⟩
      exact hall (op :: a) b (by rw [e]; rfl)
    · obtain ⟨h1, h2⟩ := up hf a b e
      exact finds_of_complete h1 h2

/-- **C29**, exactly: after every part of a history `Get` finds what a mathematical map has, if and only if no `Set`
in the history is of a key whose hash another live key has. -/
theorem C29_exact (g : Good hash equal) (ops : List (Op K V)) :
    (∀ a b, ops = a ++ b → Finds hash equal (runEnd hash equal new a) (specEnd equal PMap.empty a)) ↔
      SetsFree hash equal PMap.empty ops :=
  (finds_key g ops new PMap.empty (sound_new hash equal) (fun x v h => by cases h)).1

/-- What is right of all operations, in a struct that has every live key. -/
theorem allRight_iff (g : Good hash equal) {c : Custom K V} {m : PMap K V} (h : Sound hash equal c m)
    (hc : Complete hash equal c m) :
    AllRight hash equal c m ↔ ∀ k x w, Taken hash equal m k x w → w = default := by
  have gone : ∀ {k x w}, Taken hash equal m k x w → m k = none := by
    intro k x w ht
    cases hk : m k with
    | none => rfl
    | some v =>
      have := (complete_oneEach g hc x k w v ht.1 hk ht.2.1).1
      rw [ht.2.2] at this
      cases this
  constructor
  · intro hall k x w ht
    have := hall (.get k)
    rw [(taken_run g h hc ht default).2.1] at this
    simp only [spec, gone ht] at this
    injection this
  · intro hd op
    by_cases ht : ∃ x w, Taken hash equal m op.key x w
    · obtain ⟨x, w, ht⟩ := ht
      cases op with
      | set k v => rw [(taken_run g h hc (k := k) ht v).1]; simp only [Op.key] at ht; simp [spec, gone ht]
      | get k =>
        rw [(taken_run g h hc (k := k) ht default).2.1]
        simp only [Op.key] at ht
        simp only [spec, gone ht, hd k x w ht]
      | delete k =>
        rw [(taken_run g h hc (k := k) ht default).2.2]; simp only [Op.key] at ht; simp [spec, gone ht]
    · refine (exact_run g h hc op ?_).1
      intro x hx hh
      cases e : equal x op.key with
      | true => rfl
      | false =>
        cases hm : m x with
        | none => exact (hx hm).elim
        | some w => exact (ht ⟨x, w, hm, hh, e⟩).elim

/-- **C30**, exactly: after every part of a history every operation, flags and zero values included, is that of a
mathematical map, if and only if no `Set` in the history is of a key whose hash another live key has, and no key at
all ever has the hash of another live key with a value other than zero. -/
theorem C30_exact (g : Good hash equal) (ops : List (Op K V)) :
    (∀ a b, ops = a ++ b → AllRight hash equal (runEnd hash equal new a) (specEnd equal PMap.empty a)) ↔
      SetsFree hash equal PMap.empty ops ∧
      ∀ a b, ops = a ++ b → ∀ k x w, Taken hash equal (specEnd equal PMap.empty a) k x w → w = default := by
  obtain ⟨h1, h2⟩ := finds_key g ops new PMap.empty (sound_new hash equal) (fun x v h => by cases h)
  constructor
  · intro hall
    have hf : SetsFree hash equal PMap.empty ops := by
      refine h1.1 fun a b e k => ?_
      have := hall a b e (.get k)
      rw [this]
      simp only [spec]
      cases specEnd equal PMap.empty a k <;> rfl
    exact ⟨hf, fun a b e => (allRight_iff g (h2 hf a b e).1 (h2 hf a b e).2).1 (hall a b e)⟩
  · rintro ⟨hf, hd⟩ a b e
    exact (allRight_iff g (h2 hf a b e).1 (h2 hf a b e).2).2 (hd a b e)

end

/-! ## Examples -/

/-- Keys 1 and 5 have the same hash; 5 is set when 1 is gone. -/
example : SetsFree (fun k : Nat => UInt64.ofNat (k % 4)) (fun a b => a == b) PMap.empty
    [.set 1 10, .get 5, .delete 5, .delete 1, .set 5 50] := by
  refine ⟨?_, ?_, trivial⟩
  · rintro x w ⟨h, _⟩; cases h
  · rintro x w ⟨h, _⟩
    simp only [spec, PMap.empty] at h
    by_cases h5 : (5 == x) = true
    · simp [h5] at h
    · by_cases h1 : (1 == x) = true
      · simp [h1] at h
      · simp [h5, h1] at h
/-- It is not when 1 is live. -/
example : ¬ SetsFree (fun k : Nat => UInt64.ofNat (k % 4)) (fun a b => a == b) PMap.empty [.set 1 10, .set 5 50] :=
  fun h => h.2.1 1 10 ⟨rfl, by decide, rfl⟩

end Verif.CustomMap
