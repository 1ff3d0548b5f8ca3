import Verif.AtomicValue.Props
import Verif.Conc.Client

/-!
# C126: programs over an `atomic.Value`

Programs of goroutines over a `Value` may be reasoned about as if each call took effect at once. Applied to the
update loop for which `CompareAndSwap` is there: load, compute, compare and swap, and again if that failed.
-/

namespace Verif.AtomicValue

open Verif.Conc

variable {T : Type} [Inhabited T] {Q : Type}

/-- Goroutines that run programs over a `Value` are, at every moment, where they can be if every call takes effect
at once on a plain variable, except that `CompareAndSwap` may fail without cause. -/
theorem C126_value (E : GoEq T) (hE : ∀ a b, E.eq a b = true ↔ a = b) (P : Client (Op T) (Res T) Q) (q0 : Tid → Q)
    (tr : List (Lab T)) (s : Cfg T) (he : Exec (body E) (start T) tr s) (hf : P.Follows q0 (history tr)) :
    ∃ l x q, P.Atomic (exactVar T false) q0 l x q ∧ ∀ t, q t = P.after q0 (history tr) t ∨
      ∃ op r, (s.th t).op = some op ∧ q t = P.go (P.after q0 (history tr) t) r :=
  P.atomic_exec he hf (C39_exact_partial E hE tr s he)

/-- If they only call `Load` and `CompareAndSwap`, there is no exception. -/
theorem C126_value_cas_only (E : GoEq T) (hE : ∀ a b, E.eq a b = true ↔ a = b) (P : Client (Op T) (Res T) Q)
    (q0 : Tid → Q) (hop : ∀ q op, P.ask q = some op → op = .load ∨ ∃ o n, op = .cas o n)
    (tr : List (Lab T)) (s : Cfg T) (he : Exec (body E) (start T) tr s) (hf : P.Follows q0 (history tr)) :
    ∃ l x q, P.Atomic (exactVar T true) q0 l x q ∧ ∀ t, q t = P.after q0 (history tr) t ∨
      ∃ op r, (s.th t).op = some op ∧ q t = P.go (P.after q0 (history tr) t) r := by
  exact P.atomic_exec he hf (exact_linearizable hE (C40_cas_only_partial E tr s he (hf.calls fun _ => hop)))

/-! ## The update loop -/

/-- `for { v := x.Load(); if x.CompareAndSwap(v, f(v)) { return f(v) } }`: about to load, having failed `n` times;
about to compare and swap; finished, with the value stored. -/
inductive Upd (T : Type) where
  | load (n : Nat) | cas (v : T) (n : Nat) | fin (v : T) (n : Nat)

/-- The loop. -/
def update (f : T → T) : Client (Op T) (Res T) (Upd T) where
  ask
    | .load _ => some .load
    | .cas v _ => some (.cas v (f v))
    | .fin _ _ => none
  go
    | .load n, .val v => .cas v n
    | .cas v n, .bool true => .fin (f v) n
    | .cas _ n, .bool false => .load (n + 1)
    | q, _ => q

/-- `f` applied `n` times to the zero value. -/
def times (f : T → T) : Nat → T
  | 0 => default
  | n + 1 => f (times f n)

/-- The states of the loops when the calls take effect at once: `o` are the goroutines that have succeeded, in order. -/
structure Updating (f : T → T) (x : T) (q : Tid → Upd T) (o : List Tid) : Prop where
  value : x = times f o.length
  once : o.Nodup
  fin : ∀ t v n, q t = .fin v n → ∃ i : Nat, o[i]? = some t ∧ v = times f (i + 1) ∧ n ≤ i
  only : ∀ t ∈ o, ∃ v n, q t = .fin v n
  load : ∀ t n, q t = .load n → n ≤ o.length
  cas : ∀ t v n, q t = .cas v n → ∃ k : Nat, k ≤ o.length ∧ n ≤ k ∧ v = times f k

theorem updating (f : T → T) {l : List (Tid × Op T × Res T)} {x : (exactVar T true).St} {q : Tid → Upd T}
    (h : (update f).Atomic (exactVar T true) (fun _ => .load 0) l x q) : ∃ o, Updating f x q o := by
  induction h with
  | nil =>
    exact ⟨[], rfl, List.nodup_nil, fun t v n h => (by cases h), fun t h => (by cases h), fun t n h => (by
      cases h; exact Nat.zero_le _), fun t v n h => (by cases h)⟩
  | @snoc l x x' q t op r _ hask hl ih =>
    obtain ⟨o, ho⟩ := ih
    -- a goroutine that goes on without having succeeded
    have stay : ∀ q', (∀ v n, q' ≠ .fin v n) → (∀ v n, q t ≠ .fin v n) →
        (∀ n, q' = .load n → n ≤ o.length) → (∀ v n, q' = .cas v n → ∃ k : Nat, k ≤ o.length ∧ n ≤ k ∧ v = times f k) →
        Updating f x (upd q t q') o := by
      intro q' h1 h2 h3 h4
      refine ⟨ho.value, ho.once, fun u v n h => ?_, fun u hu => ?_, fun u n h => ?_, fun u v n h => ?_⟩ <;> by_cases c : u = t
      · subst c; rw [upd_same] at h; exact absurd h (h1 v n)
      · rw [upd_other _ _ c] at h; exact ho.fin u v n h
      · subst c; obtain ⟨v, n, h⟩ := ho.only u hu; exact absurd h (h2 v n)
      · rw [upd_other _ _ c]; exact ho.only u hu
      · subst c; rw [upd_same] at h; exact h3 n h
      · rw [upd_other _ _ c] at h; exact ho.load u n h
      · subst c; rw [upd_same] at h; exact h4 v n h
      · rw [upd_other _ _ c] at h; exact ho.cas u v n h
    cases hq : q t with
    | fin v n => rw [hq] at hask; cases hask
    | load n =>
      rw [hq] at hask; injection hask with hask; subst hask
      obtain ⟨rfl, rfl⟩ := hl
      refine ⟨o, stay (.cas x' n) (fun v n h => by cases h) (fun v n h => by rw [hq] at h; cases h)
        (fun m h => by cases h) (fun v m h => ?_)⟩
      injection h with h1 h2
      subst h1 h2
      exact ⟨o.length, Nat.le_refl _, ho.load t n hq, ho.value⟩
    | cas v n =>
      rw [hq] at hask; injection hask with hask; subst hask
      obtain ⟨k, hk1, hk2, hk3⟩ := ho.cas t v n hq
      rcases hl with ⟨rfl, rfl, rfl⟩ | ⟨rfl, rfl, hne⟩
      · -- success
        have hnot : t ∉ o := fun hm => by obtain ⟨v', n', h⟩ := ho.only t hm; rw [hq] at h; cases h
        refine ⟨o ++ [t], by rw [List.length_append]; exact congrArg f ho.value, ?_, fun u w m h => ?_, fun u hu => ?_,
          fun u m h => ?_, fun u w m h => ?_⟩
        · rw [List.nodup_append]
          exact ⟨ho.once, by simp, fun a ha b hb e => by
            have : b = t := by simpa using hb
            subst this e; exact hnot ha⟩
        · by_cases c : u = t
          · subst c
            rw [upd_same] at h
            injection h with h1 h2
            subst h1 h2
            exact ⟨o.length, List.getElem?_concat_length, congrArg f ho.value, Nat.le_trans hk2 hk1⟩
          · rw [upd_other _ _ c] at h
            obtain ⟨i, h1, h2⟩ := ho.fin u w m h
            exact ⟨i, by rw [List.getElem?_append_left (List.getElem?_eq_some_iff.1 h1).1]; exact h1, h2⟩
        · by_cases c : u = t
          · subst c; rw [upd_same]; exact ⟨_, _, rfl⟩
          · rw [upd_other _ _ c]
            rcases List.mem_append.1 hu with h | h
            · exact ho.only u h
            · exact absurd (by simpa using h) c
        · by_cases c : u = t
          · subst c; rw [upd_same] at h; cases h
          · rw [upd_other _ _ c] at h
            have := ho.load u m h
            simp; omega
        · by_cases c : u = t
          · subst c; rw [upd_same] at h; cases h
          · rw [upd_other _ _ c] at h
            obtain ⟨k, h1, h2⟩ := ho.cas u w m h
            exact ⟨k, by simp; omega, h2⟩
      · -- failure: somebody else has succeeded since the load
        refine ⟨o, stay (.load (n + 1)) (fun v n h => by cases h) (fun v n h => by rw [hq] at h; cases h)
          (fun m h => ?_) (fun v m h => by cases h)⟩
        injection h with h
        subst h
        have : k ≠ o.length := by
          intro e
          subst e
          exact hne rfl (ho.value.trans hk3.symm)
        omega

/-- **No update is lost.** Goroutines run the update loop with `f`. Those that have finished can be put in an order,
possibly among others that are in their last call, such that the `i`-th has stored, and returned, `f` applied `i`
times to the zero value; and it has failed less than `i` times. -/
theorem C126_updates (E : GoEq T) (hE : ∀ a b, E.eq a b = true ↔ a = b) (f : T → T) (tr : List (Lab T)) (s : Cfg T)
    (he : Exec (body E) (start T) tr s) (hf : (update f).Follows (fun _ => .load 0) (history tr)) :
    ∃ o : List Tid, o.Nodup ∧
      (∀ t v n, (update f).after (fun _ => .load 0) (history tr) t = .fin v n →
        ∃ i : Nat, o[i]? = some t ∧ v = times f (i + 1) ∧ n ≤ i) ∧
      ∀ t ∈ o, (∃ v n, (update f).after (fun _ => .load 0) (history tr) t = .fin v n) ∨
        ∃ v, (s.th t).op = some (.cas v (f v)) := by
  obtain ⟨l, x, q, ha, hq⟩ := C126_value_cas_only E hE (update f) (fun _ => .load 0) (fun q op h => by
    cases q with
    | load n => injection h with h; exact Or.inl h.symm
    | cas v n => injection h with h; exact Or.inr ⟨_, _, h.symm⟩
    | fin v n => cases h) tr s he hf
  obtain ⟨o, ho⟩ := updating f ha
  refine ⟨o, ho.once, fun t v n h => ?_, fun t ht => ?_⟩
  · rcases hq t with e | ⟨op, r, e1, e2⟩
    · exact ho.fin t v n (e.trans h)
    · have := hf.pending he.turns.orderly e1
      rw [h] at this; cases this
  · obtain ⟨v, n, hv⟩ := ho.only t ht
    rcases hq t with e | ⟨op, r, e1, e2⟩
    · exact Or.inl ⟨v, n, e.symm.trans hv⟩
    · have hask := hf.pending he.turns.orderly e1
      rw [hv] at e2
      revert hask e2
      cases (update f).after (fun _ => .load 0) (history tr) t with
      | load m => intro e2 _; cases r <;> cases e2
      | cas w m => intro _ hask; exact Or.inr ⟨w, e1.trans hask.symm⟩
      | fin w m => intro _ hask; cases hask

theorem times_succ (n : Nat) : times (fun x : Nat => x + 1) n = n := by
  induction n with
  | zero => rfl
  | succ n ih => show times _ n + 1 = n + 1; rw [ih]

/-- Numbers drawn with the loop are different, and none is left out: who has drawn `v` has failed less than `v`
times, and if nobody is in a call, all of 1, ..., `v` have been drawn. -/
theorem C126_tickets (E : GoEq Nat) (hE : ∀ a b, E.eq a b = true ↔ a = b) (tr : List (Lab Nat)) (s : Cfg Nat)
    (he : Exec (body E) (start Nat) tr s)
    (hf : (update (fun x : Nat => x + 1)).Follows (fun _ => .load 0) (history tr)) :
    let q := (update (fun x : Nat => x + 1)).after (fun _ => .load 0) (history tr)
    (∀ t u v n m, q t = .fin v n → q u = .fin v m → t = u) ∧
    (∀ t v n, q t = .fin v n → n < v) ∧
    ((∀ t, s.th t = .idle) → ∀ t v n w, q t = .fin v n → 0 < w → w ≤ v → ∃ u m, q u = .fin w m) := by
  obtain ⟨o, h1, h2, h3⟩ := C126_updates E hE (fun x : Nat => x + 1) tr s he hf
  simp only [times_succ] at h2
  refine ⟨fun t u v n m ht hu => ?_, fun t v n ht => ?_, fun hi t v n w ht hw1 hw2 => ?_⟩
  · obtain ⟨i, a1, a2, -⟩ := h2 t v n ht
    obtain ⟨j, b1, b2, -⟩ := h2 u v m hu
    have : i = j := by omega
    subst this
    rw [a1] at b1; injection b1
  · obtain ⟨i, a1, a2, a3⟩ := h2 t v n ht
    omega
  · obtain ⟨i, a1, a2, -⟩ := h2 t v n ht
    have b := (List.getElem?_eq_some_iff.1 a1).1
    have hu : o[w - 1]? = some o[w - 1] := List.getElem?_eq_getElem (by omega)
    rcases h3 _ (List.mem_of_getElem? hu) with ⟨v', m, h⟩ | ⟨v', h⟩
    · obtain ⟨j, c1, c2, -⟩ := h2 _ v' m h
      have : j = w - 1 :=
        (List.getElem?_inj (List.getElem?_eq_some_iff.1 c1).1 h1).1 (c1.trans hu.symm)
      have : v' = w := by omega
      subst this
      exact ⟨_, m, h⟩
    · rw [hi] at h; cases h

/-- Two goroutines draw numbers; one fails once. -/
def drawing : List (Conc.Go (Op Nat)) :=
  whole 0 .load 1 ++ whole 1 .load 1 ++ whole 0 (.cas 0 1) 3 ++ whole 1 (.cas 0 1) 3 ++ whole 1 .load 2 ++ whole 1 (.cas 1 2) 4

example : ∃ tr s, Exec (body (exactEq Nat)) (start Nat) tr s ∧
    (update (fun x : Nat => x + 1)).Follows (fun _ => .load 0) (history tr) ∧
    (update (fun x : Nat => x + 1)).after (fun _ => .load 0) (history tr) 0 = .fin 1 0 ∧
    (update (fun x : Nat => x + 1)).after (fun _ => .load 0) (history tr) 1 = .fin 2 1 := by
  obtain ⟨tr, s, he, hH⟩ := play_history (E := exactEq Nat) (gs := drawing) (H := [.inv 0 .load, .ret 0 (.val 0),
    .inv 1 .load, .ret 1 (.val 0), .inv 0 (.cas 0 1), .ret 0 (.bool true), .inv 1 (.cas 0 1), .ret 1 (.bool false),
    .inv 1 .load, .ret 1 (.val 1), .inv 1 (.cas 1 2), .ret 1 (.bool true)]) rfl
  refine ⟨tr, s, he, ?_⟩
  rw [hH]
  exact ⟨Client.followsB_sound _ _ _ (by decide +kernel), rfl, rfl⟩

end Verif.AtomicValue
