import Verif.AtomicPtr.Props
import Verif.Conc.Client

/-!
# C126: programs over an `atomic.Ptr`
-/

namespace Verif.AtomicPtr

open Verif.Conc

/-- Goroutines that run programs over a `Ptr` are, at every moment, where they can be if every call takes effect at
once on a pointer variable. -/
theorem C126_ptr {Q : Type} (p : Addr) (P : Client Op Res Q) (q0 : Tid → Q) (tr : List (Label mach Op Res))
    (c : Config mach Op Res) (he : Exec body (Config.init (M := mach) (newPtr p)) tr c)
    (hf : P.Follows q0 (history tr)) :
    ∃ l x q, P.Atomic (var p) q0 l x q ∧ ∀ t, q t = P.after q0 (history tr) t ∨
      ∃ op r, (c.th t).op = some op ∧ q t = P.go (P.after q0 (history tr) t) r :=
  P.atomic_exec he hf (C81_linearizable p tr c he)

/-- A goroutine that puts its object there if there is none, and then loads what is there. -/
inductive Put where
  | try_ (mine : Nat) | look | end_ (p : Addr)
  deriving DecidableEq

/-- `p.CompareAndSwap(nil, mine); return p.Load()`. -/
def putOnce : Client Op Res Put where
  ask
    | .try_ a => some (.cas none (some a))
    | .look => some .load
    | .end_ _ => none
  go
    | .try_ _, _ => .look
    | .look, .ptr p => .end_ p
    | q, _ => q

example : (followAll (M := mach) (R := Res) body outcome
    [.call 0 (.cas none (some 7)), .call 1 (.cas none (some 8)), .act 1, .act 0, .ret 0, .call 0 .load, .act 0, .ret 1, .ret 0]
    (Config.init (newPtr none))).map
    (fun x => (putOnce.followsB (fun t => .try_ (7 + t)) (history x.1), putOnce.after (fun t => .try_ (7 + t)) (history x.1) 0)) =
    some (true, .end_ (some 8)) := by decide +kernel

/-- **All get the same object.** If goroutines put each its own object into a nil `Ptr` if none is there and then load
it, all load the same, and it is one of theirs. -/
theorem C126_put_once (own : Tid → Nat) (tr : List (Label mach Op Res)) (c : Config mach Op Res)
    (he : Exec body (Config.init (M := mach) (newPtr none)) tr c)
    (hf : putOnce.Follows (fun t => .try_ (own t)) (history tr)) :
    ∃ w, ∀ t x, putOnce.after (fun t => .try_ (own t)) (history tr) t = .end_ x → x = some (own w) := by
  obtain ⟨l, x, q, ha, hq⟩ := C126_ptr none putOnce _ tr c he hf
  have key : (x = none ∧ ∀ t, q t = .try_ (own t)) ∨
      ∃ w, x = some (own w) ∧ ∀ t, q t = .try_ (own t) ∨ q t = .look ∨ q t = .end_ (some (own w)) := by
    clear hq
    induction ha with
    | nil => exact Or.inl ⟨rfl, fun _ => rfl⟩
    | @snoc l s s' q t op r _ hask hl ih =>
      rcases ih with ⟨rfl, ih⟩ | ⟨w, rfl, ih⟩
      · rw [ih t] at hask
        injection hask with hask
        subst hask
        refine Or.inr ⟨t, ?_, fun u => ?_⟩
        · rcases hl with ⟨-, -, hl⟩ | ⟨hl, -⟩
          · exact hl
          · exact absurd rfl hl
        · by_cases c : u = t
          · subst c; rw [upd_same, ih u]; exact Or.inr (Or.inl rfl)
          · rw [upd_other _ _ c]; exact Or.inl (ih u)
      · refine Or.inr ⟨w, ?_, fun u => ?_⟩
        · rcases ih t with e | e | e <;> rw [e] at hask
          · injection hask with hask
            subst hask
            rcases hl with ⟨hl, -⟩ | ⟨-, -, hl⟩
            · cases hl
            · exact hl
          · injection hask with hask
            subst hask
            exact hl.2
          · cases hask
        · by_cases c : u = t
          · subst c
            rw [upd_same]
            rcases ih u with e | e | e <;> rw [e] at hask ⊢
            · exact Or.inr (Or.inl rfl)
            · injection hask with hask
              subst hask
              obtain ⟨rfl, -⟩ := hl
              exact Or.inr (Or.inr rfl)
            · cases hask
          · rw [upd_other _ _ c]; exact ih u
  have fin : ∀ t y, putOnce.after (fun t => .try_ (own t)) (history tr) t = .end_ y → q t = .end_ y := by
    intro t y h
    rcases hq t with e | ⟨op, r, e1, e2⟩
    · exact e.trans h
    · have := hf.pending he.turns.orderly e1
      rw [h] at this; cases this
  rcases key with ⟨-, k⟩ | ⟨w, -, k⟩
  · exact ⟨0, fun t y h => by have := fin t y h; rw [k] at this; cases this⟩
  · refine ⟨w, fun t y h => ?_⟩
    have := fin t y h
    rcases k t with e | e | e <;> rw [e] at this <;> cases this
    rfl

end Verif.AtomicPtr
