import Verif.CustomMap.Props

/-!
# Property C114: `Custom` on every history

C29 and C30 are false where a key has the hash of another live key. Here is what happens in every history, such
collisions or not: the map takes in one key for each hash, the first that comes while the hash is free. For a key whose
hash is taken by another, `Set` says "added" and does nothing, `Get` returns the value of the other key and `false`,
`Delete` returns `false`. Everything else is as in a mathematical map.
-/

set_option linter.unusedSectionVars false

namespace Verif.CustomMap

open Verif.GoMap

section
variable {K V : Type} [Inhabited V] (hash : K → UInt64) (equal : K → K → Bool)

/-! ## Specification -/

/-- The hash of `k` is taken by another key `x`, with value `w`. -/
def Taken (m : PMap K V) (k x : K) (w : V) : Prop :=
  m x = some w ∧ hash x = hash k ∧ equal x k = false

/-- The results of a history, beginning with the mathematical map `m`. -/
inductive Answers : PMap K V → List (Op K V) → List (Res V) → Prop
  /-- nothing is called -/
  | nil (m : PMap K V) : Answers m [] []
  /-- the hash is free, or taken by the key itself: as in a mathematical map -/
  | free (m : PMap K V) (op : Op K V) (ops : List (Op K V)) (rs : List (Res V)) :
      (∀ x w, ¬ Taken hash equal m op.key x w) → Answers (spec equal m op).2 ops rs →
      Answers m (op :: ops) ((spec equal m op).1 :: rs)
  /-- a `Set` that is lost -/
  | set (m : PMap K V) (k x : K) (v w : V) (ops : List (Op K V)) (rs : List (Res V)) :
      Taken hash equal m k x w → Answers m ops rs → Answers m (.set k v :: ops) (.flag true :: rs)
  /-- a `Get` that shows the other key's value -/
  | get (m : PMap K V) (k x : K) (w : V) (ops : List (Op K V)) (rs : List (Res V)) :
      Taken hash equal m k x w → Answers m ops rs → Answers m (.get k :: ops) (.got w false :: rs)
  /-- a `Delete` that finds nothing -/
  | delete (m : PMap K V) (k x : K) (w : V) (ops : List (Op K V)) (rs : List (Res V)) :
      Taken hash equal m k x w → Answers m ops rs → Answers m (.delete k :: ops) (.flag false :: rs)

/-- Live keys of one hash are the same key, with one value. -/
def OneEach (m : PMap K V) : Prop :=
  ∀ x y v w, m x = some v → m y = some w → hash x = hash y → equal x y = true ∧ v = w

variable {hash equal}

/-! ## Lemmas -/

theorem complete_oneEach (g : Good hash equal) {c : Custom K V} {m : PMap K V} (hc : Complete hash equal c m) :
    OneEach hash equal m := by
  intro x y v w hx hy hh
  obtain ⟨k, e1, e2⟩ := hc x v hx
  obtain ⟨k', e1', e2'⟩ := hc y w hy
  rw [hh, e1'] at e1
  injection e1 with e1
  injection e1 with e3 e4
  subst e3 e4
  exact ⟨g.trans _ _ _ (g.symm _ _ e2) e2', rfl⟩

/-- What the map does with a key whose hash is taken. -/
theorem taken_run (g : Good hash equal) {c : Custom K V} {m : PMap K V} (h : Sound hash equal c m)
    (hc : Complete hash equal c m) {k x : K} {w : V} (ht : Taken hash equal m k x w) (v : V) :
    run hash equal c (.set k v) = (.flag true, c) ∧ run hash equal c (.get k) = (.got w false, c) ∧
      run hash equal c (.delete k) = (.flag false, c) := by
  obtain ⟨hx, hh, he⟩ := ht
  obtain ⟨k', e1, e2⟩ := hc x w hx
  rw [hh] at e1
  have e3 : equal k' k = false := by
    cases e : equal k' k with
    | false => rfl
    | true => rw [g.trans _ _ _ (g.symm _ _ e2) e] at he; cases he
  refine ⟨?_, ?_, ?_⟩
  · simp [run, set_eq h.ovf, e1, e3]
  · simp [run, get_eq h.ovf, e1, e3]
  · simp [run, delete_eq h.ovf, e1, e3]

/-- The map after operations that are not lost: still at most one key of each hash. -/
theorem oneEach_spec (g : Good hash equal) {m : PMap K V} (hm : OneEach hash equal m) (op : Op K V)
    (hf : ∀ x w, ¬ Taken hash equal m op.key x w) : OneEach hash equal (spec equal m op).2 := by
  have free : ∀ x w, m x = some w → hash x = hash op.key → equal op.key x = true := by
    intro x w hx hh
    cases e : equal x op.key with
    | true => exact g.symm _ _ e
    | false => exact (hf x w ⟨hx, hh, e⟩).elim
  cases op with
  | get k => exact hm
  | set k v =>
    intro x y v' w hx hy hh
    simp only [spec] at hx hy
    simp only [Op.key] at free
    split at hx <;> split at hy
    · rename_i h1 h2
      injection hx with hx
      injection hy with hy
      exact ⟨g.trans _ _ _ (g.symm _ _ h1) h2, by rw [← hx, ← hy]⟩
    · rename_i h1 h2
      exact (h2 (free y w hy (by rw [← hh, g.hash _ _ h1]))).elim
    · rename_i h1 h2
      exact (h1 (free x v' hx (by rw [hh, g.hash _ _ h2]))).elim
    · exact hm x y v' w hx hy hh
  | delete k =>
    intro x y v' w hx hy hh
    simp only [spec] at hx hy
    split at hx
    · cases hx
    · split at hy
      · cases hy
      · exact hm x y v' w hx hy hh

/-! ## Theorems -/

/-- **C114**: the results of every history are those that `Answers` describes. -/
theorem C114_every_history (g : Good hash equal) (ops : List (Op K V)) :
    Answers hash equal PMap.empty ops (runAll hash equal new ops) := by
  have key : ∀ (ops : List (Op K V)) (c : Custom K V) (m : PMap K V), Sound hash equal c m →
      Complete hash equal c m → Answers hash equal m ops (runAll hash equal c ops) := by
    intro ops
    induction ops with
    | nil => intro c m _ _; exact .nil m
    | cons op ops ih =>
      intro c m h hc
      by_cases hf : ∃ x w, Taken hash equal m op.key x w
      · obtain ⟨x, w, ht⟩ := hf
        cases op with
        | set k v =>
          have := (taken_run g h hc (k := k) ht v).1
          simp only [runAll, this]
          exact .set m k x v w ops _ ht (ih c m h hc)
        | get k =>
          have := (taken_run g h hc (k := k) ht default).2.1
          simp only [runAll, this]
          exact .get m k x w ops _ ht (ih c m h hc)
        | delete k =>
          have := (taken_run g h hc (k := k) ht default).2.2
          simp only [runAll, this]
          exact .delete m k x w ops _ ht (ih c m h hc)
      · have hf' : ∀ x w, ¬ Taken hash equal m op.key x w := fun x w ht => hf ⟨x, w, ht⟩
        obtain ⟨h1, h2⟩ := exact_run g h hc op (by
          intro x hx hh
          cases e : equal x op.key with
          | true => rfl
          | false =>
            cases hm : m x with
            | none => exact (hx hm).elim
            | some w => exact (hf' x w ⟨hm, hh, e⟩).elim)
        simp only [runAll, h1]
        exact .free m op ops _ hf' (ih _ _ (sound_run g h op) h2)
  exact key ops new PMap.empty (sound_new hash equal) (fun x v h => by cases h)

theorem answers_unique (g : Good hash equal) {m : PMap K V} {ops : List (Op K V)} {rs : List (Res V)}
    (h : Answers hash equal m ops rs) : OneEach hash equal m → ∀ rs', Answers hash equal m ops rs' → rs = rs' := by
  induction h with
  | nil m => intro _ rs' h'; cases h'; rfl
  | free m op ops rs hf _ ih =>
    intro hm rs' h'
    cases h' with
    | free _ _ _ _ _ h' => rw [ih (oneEach_spec g hm op hf) _ h']
    | set _ k x v w _ _ ht _ => exact (hf x w ht).elim
    | get _ k x w _ _ ht _ => exact (hf x w ht).elim
    | delete _ k x w _ _ ht _ => exact (hf x w ht).elim
  | set m k x v w ops rs ht _ ih =>
    intro hm rs' h'
    cases h' with
    | free _ _ _ _ hf _ => exact (hf x w ht).elim
    | set _ _ _ _ _ _ _ _ h' => rw [ih hm _ h']
  | get m k x w ops rs ht _ ih =>
    intro hm rs' h'
    cases h' with
    | free _ _ _ _ hf _ => exact (hf x w ht).elim
    | get _ _ x' w' _ _ ht' h' =>
      rw [ih hm _ h', (hm x x' w w' ht.1 ht'.1 (ht.2.1.trans ht'.2.1.symm)).2]
  | delete m k x w ops rs ht _ ih =>
    intro hm rs' h'
    cases h' with
    | free _ _ _ _ hf _ => exact (hf x w ht).elim
    | delete _ _ _ _ _ _ _ h' => rw [ih hm _ h']

/-- **C114**: `Answers` describes one list of results only, which is therefore the map's. -/
theorem C114_determined (g : Good hash equal) (ops : List (Op K V)) (rs : List (Res V)) :
    Answers hash equal PMap.empty ops rs ↔ rs = runAll hash equal new ops := by
  constructor
  · intro h
    exact answers_unique g h (fun _ _ _ _ hx => by cases hx) _ (C114_every_history g ops)
  · rintro rfl
    exact C114_every_history g ops

/-- Live keys with their values after a history: each `Set` of a key whose hash is taken is left out. -/
inductive Holds (hash : K → UInt64) (equal : K → K → Bool) : PMap K V → List (Op K V) → PMap K V → Prop
  /-- nothing is called -/
  | nil (m : PMap K V) : Holds hash equal m [] m
  /-- as in a mathematical map -/
  | free (m m' : PMap K V) (op : Op K V) (ops : List (Op K V)) : (∀ x w, ¬ Taken hash equal m op.key x w) →
      Holds hash equal (spec equal m op).2 ops m' → Holds hash equal m (op :: ops) m'
  /-- without effect -/
  | lost (m m' : PMap K V) (op : Op K V) (ops : List (Op K V)) (x : K) (w : V) : Taken hash equal m op.key x w →
      Holds hash equal m ops m' → Holds hash equal m (op :: ops) m'

/-- **C114**: a `Get` after a history finds exactly the live keys of that history. -/
theorem C114_found (g : Good hash equal) (ops : List (Op K V)) : ∃ m : PMap K V, Holds hash equal PMap.empty ops m ∧
    ∀ k v, (runAll hash equal new (ops ++ [.get k])).getLast? = some (.got v true) ↔ m k = some v := by
  have key : ∀ (ops : List (Op K V)) (c : Custom K V) (m : PMap K V), Sound hash equal c m →
      Complete hash equal c m → ∃ m', Holds hash equal m ops m' ∧
        ∀ k v, (runAll hash equal c (ops ++ [.get k])).getLast? = some (.got v true) ↔ m' k = some v := by
    intro ops
    induction ops with
    | nil =>
      intro c m h hc
      refine ⟨m, .nil m, fun k v => ?_⟩
      simp only [List.nil_append, runAll, List.getLast?_singleton, run, Option.some.injEq, Res.got.injEq]
      constructor
      · rintro ⟨h1, h2⟩
        exact (sound_res h).1 k v (Prod.ext h1 h2)
      · intro hk
        obtain ⟨k', e1, e2⟩ := hc k v hk
        rw [get_eq h.ovf, e1]
        exact ⟨rfl, e2⟩
    | cons op ops ih =>
      intro c m h hc
      have last : ∀ (c' : Custom K V) (r : Res V) (k : K), (r :: runAll hash equal c' (ops ++ [.get k])).getLast? =
          (runAll hash equal c' (ops ++ [.get k])).getLast? := by
        intro c' r k
        cases hl : runAll hash equal c' (ops ++ [.get k]) with
        | nil => cases ops <;> simp [runAll] at hl
        | cons a l => rw [List.getLast?_cons_cons]
      simp only [List.cons_append, runAll, last]
      by_cases hf : ∃ x w, Taken hash equal m op.key x w
      · obtain ⟨x, w, ht⟩ := hf
        obtain ⟨m', h1, h2⟩ := ih c m h hc
        refine ⟨m', .lost m m' op ops x w ht h1, ?_⟩
        cases op with
        | set k v => rw [(taken_run g h hc (k := k) ht v).1]; exact h2
        | get k => rw [(taken_run g h hc (k := k) ht default).2.1]; exact h2
        | delete k => rw [(taken_run g h hc (k := k) ht default).2.2]; exact h2
      · have hf' : ∀ x w, ¬ Taken hash equal m op.key x w := fun x w ht => hf ⟨x, w, ht⟩
        have h2 := (exact_run g h hc op (by
          intro x hx hh
          cases e : equal x op.key with
          | true => rfl
          | false =>
            cases hm : m x with
            | none => exact (hx hm).elim
            | some w => exact (hf' x w ⟨hm, hh, e⟩).elim)).2
        obtain ⟨m', h3, h4⟩ := ih _ _ (sound_run g h op) h2
        exact ⟨m', .free m m' op ops hf' h3, h4⟩
  exact key ops new PMap.empty (sound_new hash equal) (fun x v h => by cases h)

end

/-! ## Examples -/

/-- Keys 1 and 5 have the same hash. 5 is lost until 1 is deleted. -/
example : runAll (fun k : Nat => UInt64.ofNat (k % 4)) (fun a b => a == b) new
    [.set 1 10, .set 5 50, .get 5, .delete 5, .get 1, .delete 1, .get 5, .set 5 51, .get 5, .get 1] =
    [.flag true, .flag true, .got 10 false, .flag false, .got 10 true, .flag true, .got 0 false, .flag true,
      .got 51 true, .got 51 false] := by decide +kernel
/-- The lost `Set` of this history is one of the kind `Answers.set`. -/
example : Taken (fun k : Nat => UInt64.ofNat (k % 4)) (fun a b => a == b)
    (spec (fun a b : Nat => a == b) (PMap.empty : PMap Nat Nat) (.set 1 10)).2 5 1 10 := by
  refine ⟨?_, ?_, ?_⟩ <;> decide
example : Good (fun k : Nat => UInt64.ofNat (k % 4)) (fun a b => a == b) where
  refl := by simp
  symm := by simp
  trans := by simp
  hash := by simp

end Verif.CustomMap
