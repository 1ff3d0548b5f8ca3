import Verif.Together.Props
import Verif.Conc.FairLocal
import Verif.Sharded.Fair
import Verif.Xsync.Fair

/-!
# No call starves (C128)

Calls on a `Value` or a `Ptr` return if only the goroutine that makes them is treated weakly fairly, whatever happens to
the others. Calls on several objects used together return if all goroutines are treated strongly fairly.
-/

namespace Verif.AtomicValue

open Verif.Conc

variable {T : Type} [Inhabited T]

/-- **C128.** Every call on a `Value` returns, if its goroutine goes on when it can always go on, whatever becomes of the
others. -/
theorem C128_value (E : GoEq T) (ρ : Run (M := mach T) (body E) (start T)) (t : Tid) (hf : ρ.Weak t) (n : Nat) (op : Op T)
    (hc : ρ.lab n = some (.call t op)) : ∃ m r, n < m ∧ ρ.lab m = some (.ret t op r) := by
  obtain ⟨m, r, hm, e⟩ := ρ.returns_weak t hf (fun n op p h => by
    obtain ⟨tr, he⟩ := ρ.exec n
    obtain ⟨l, s', hs, hi⟩ := (C68_wait_free E).1 tr _ he t (by rw [h]; exact fun e => by cases e)
    refine ⟨l, s', hs, ?_⟩
    cases l with
    | call u o => exact hi.elim
    | act u a ans => exact ⟨hi, rfl⟩
    | ret u o r => exact ⟨hi, rfl⟩) (n + 1) op _ (ρ.begins hc)
  exact ⟨m, r, hm, e⟩

end Verif.AtomicValue

namespace Verif.AtomicPtr

open Verif.Conc

/-- **C128.** Every call on a `Ptr` returns, if its goroutine goes on when it can always go on. -/
theorem C128_ptr (p : Addr) (ρ : Run (M := mach) body (Config.init (M := mach) (newPtr p))) (t : Tid) (hf : ρ.Weak t) (n : Nat)
    (op : Op) (hc : ρ.lab n = some (.call t op)) : ∃ m r, n < m ∧ ρ.lab m = some (.ret t op r) := by
  obtain ⟨m, r, hm, e⟩ := ρ.returns_weak t hf (fun n op q h => by
    obtain ⟨tr, he⟩ := ρ.exec n
    rcases C81_wait_free p tr _ he t op q h with ⟨r, rfl⟩ | ⟨x, k, rfl, hs, -⟩
    · exact canGo_ret h
    · exact canGo_act h hs) (n + 1) op _ (ρ.begins hc)
  exact ⟨m, r, hm, e⟩

/-- Goroutine 0 begins to store and is never heard of again; goroutine 1 loads. -/
def alone : Nat → Config mach Op Res
  | 0 => ⟨none, pairTh (.run (.store (some 3)) (body (.store (some 3)))) .idle⟩
  | 1 => ⟨none, pairTh (.run (.store (some 3)) (body (.store (some 3)))) (.run .load load)⟩
  | 2 => ⟨none, pairTh (.run (.store (some 3)) (body (.store (some 3)))) (.run .load (.ret (.ptr none)))⟩
  | _ => ⟨none, pairTh (.run (.store (some 3)) (body (.store (some 3)))) .idle⟩

/-- What it does. -/
def loading : Nat → Label mach Op Res
  | 0 => .call 1 .load
  | 1 => .act 1 .loadPointer none
  | _ => .ret 1 .load (.ptr none)

theorem alone_step : ∀ i, i < 2 + 1 → Step (M := mach) body (alone i) (loading i) (alone (i + 1))
  | 0, _ => (Step.call (M := mach) (body := body) (c := alone 0) 1 .load rfl).to rfl (upd_pair1 _ _ _)
  | 1, _ => (Step.act (M := mach) (body := body) (c := alone 1) 1 .load Act.loadPointer _ none none rfl (.load none)).to rfl (upd_pair1 _ _ _)
  | 2, _ => (Step.ret (M := mach) (body := body) (c := alone 2) 1 .load (.ptr none) rfl).to rfl (upd_pair1 _ _ _)
  | n + 3, h => by omega

/-- An endless execution as in `C128_ptr`, in which another goroutine is stopped for ever in the middle of its call. -/
example : ∃ ρ : Run (M := mach) body (Config.init (M := mach) (newPtr none)), ρ.Weak 1 ∧ ¬ ρ.Weak 0 ∧
    ∀ n, ∃ m, n ≤ m ∧ ρ.lab m = some (.call 1 .load) := by
  have h0 : Step (M := mach) body (Config.init (M := mach) (newPtr none)) (.call 0 (.store (some 3))) (alone 0) := by
    refine (Step.call (M := mach) (body := body) 0 (.store (some 3)) rfl).to rfl ?_
    show upd (fun _ => Thread.idle) 0 _ = _
    rw [← pair_idle, upd_pair0]
  refine ⟨.cons h0 (.loop 2 alone loading alone_step rfl), fun n _ => ?_, fun h => ?_, fun n => ?_⟩
  · refine ⟨3 * n + 1 + 1, by omega, .act 1 .loadPointer none, ?_, rfl, rfl⟩
    show some (loading ((3 * n + 1) % 3)) = _
    rw [show (3 * n + 1) % 3 = 1 by omega]; rfl
  · obtain ⟨m, hm, l, hl, hw, hc⟩ := h 1 (fun m hm => by
      obtain ⟨m, rfl⟩ : ∃ k, m = k + 1 := ⟨m - 1, by omega⟩
      refine canGo_act (op := .store (some 3)) (a := .storePointer (some 3)) (k := fun _ => .ret .unit) ?_ ⟨(), some 3, .store _ _⟩
      show (alone (m % 3)).th 0 = _
      generalize m % 3 = i
      rcases i with _ | _ | _ | i <;> rfl)
    obtain ⟨m, rfl⟩ : ∃ k, m = k + 1 := ⟨m - 1, by omega⟩
    have hl : some (loading (m % 3)) = some l := hl
    injection hl with hl
    subst hl
    revert hw
    generalize m % 3 = i
    rcases i with _ | _ | i <;> simp [loading, Label.who]
  · refine ⟨3 * n + 1, by omega, ?_⟩
    show some (loading ((3 * n) % 3)) = _
    rw [show (3 * n) % 3 = 0 by omega]; rfl

end Verif.AtomicPtr

namespace Verif.Together

open Verif.Conc

/-- Which calls may be made on the object in one execution: on a value with a lock either all through a plain mutex or
none, and sections that under a read lock do not write; on the others, any. -/
def Kind.Calm : (k : Kind) → (k.Op → Prop) → Prop
  | .sync _ _ _, C => (∀ op, C op → Xsync.Allowed op) ∧
      ((∀ op, C op → op.isMutex = true) ∨ ∀ op, C op → op.isMutex = false)
  | _, _ => True

theorem each_returns (k : Kind) (ρ : Run (M := k.M) k.body (Config.init k.sh)) (hk : k.Calm fun op => ∃ n t, ρ.lab n = some (.call t op)) (hf : ∀ t, ρ.Strong t)
    (n : Nat) (t : Tid) (op : k.Op) (hc : ρ.lab n = some (.call t op)) : ∃ m r, n < m ∧ ρ.lab m = some (.ret t op r) := by
  cases k with
  | value T E hE => exact AtomicValue.C128_value E ρ t (hf t).weak n op hc
  | ptr p => exact AtomicPtr.C128_ptr p ρ t (hf t).weak n op hc
  | map K V c' => exact Sharded.C128_sharded c' ρ hf n t op hc
  | sync T R x => 
    obtain ⟨h1, h2⟩ := hk
    refine Xsync.C128_sync ρ (fun n t op h => h1 op ⟨n, t, h⟩) ?_ hf n t op hc
    rcases h2 with h2 | h2
    · exact Or.inl fun n t op h => h2 op ⟨n, t, h⟩
    · exact Or.inr fun n t op h => h2 op ⟨n, t, h⟩

variable {I : Type} [DecidableEq I]

/-- **C128.** Goroutines use any number of the concurrent objects in any order, for ever. If every goroutine that can go
on again and again does go on, every call returns. -/
theorem C128_together (kind : I → Kind)
    (ρ : Run (M := (objects kind).mach) (objects kind).bodies (Config.init (M := (objects kind).mach) (objects kind).sh))
    (hk : ∀ i, (kind i).Calm fun op => ∃ n t, ρ.lab n = some (.call t ⟨i, op⟩))
    (hf : ∀ t, ρ.Strong t) (n : Nat) (t : Tid) (op : Sigma (objects kind).Op) (hc : ρ.lab n = some (.call t op)) :
    ∃ m r, n < m ∧ ρ.lab m = some (.ret t op r) :=
  Family.returns (F := objects kind) (Ok := fun i C => (kind i).Calm C)
    (fun i ρ h1 h2 n t op => each_returns (kind i) ρ h1 h2 n t op) ρ hk hf n t op hc

/-! ## An execution -/

/-- Two pointers. -/
abbrev twoPtrs : Bool → Kind := fun _ => .ptr none

/-- A step after which the pointers are as before. -/
theorem ptr_step (t : Tid) (b : Bool) (a : AtomicPtr.Act) (ans : AtomicPtr.Ans a) (σ : Bool → AtomicPtr.Addr)
    (h : AtomicPtr.AStep t a (σ b) ans (σ b)) : (objects twoPtrs).mach.step t ⟨b, a⟩ σ ans σ := ⟨h, fun _ _ => rfl⟩

/-- Goroutine 0 loads both pointers in turn. -/
def inTurn : Nat → Config (objects twoPtrs).mach (Sigma (objects twoPtrs).Op) (Sigma (objects twoPtrs).R)
  | 0 => ⟨fun _ => none, pairTh .idle .idle⟩
  | 1 => ⟨fun _ => none, pairTh (.run ⟨false, .load⟩ ((objects twoPtrs).bodies ⟨false, .load⟩)) .idle⟩
  | 2 => ⟨fun _ => none, pairTh (.run ⟨false, .load⟩ (.ret ⟨false, .ptr none⟩)) .idle⟩
  | 3 => ⟨fun _ => none, pairTh .idle .idle⟩
  | 4 => ⟨fun _ => none, pairTh (.run ⟨true, .load⟩ ((objects twoPtrs).bodies ⟨true, .load⟩)) .idle⟩
  | 5 => ⟨fun _ => none, pairTh (.run ⟨true, .load⟩ (.ret ⟨true, .ptr none⟩)) .idle⟩
  | _ => ⟨fun _ => none, pairTh .idle .idle⟩

/-- What it does. -/
def turning : Nat → Label (objects twoPtrs).mach (Sigma (objects twoPtrs).Op) (Sigma (objects twoPtrs).R)
  | 0 => .call 0 ⟨false, .load⟩
  | 1 => .act 0 ⟨false, .loadPointer⟩ none
  | 2 => .ret 0 ⟨false, .load⟩ ⟨false, .ptr none⟩
  | 3 => .call 0 ⟨true, .load⟩
  | 4 => .act 0 ⟨true, .loadPointer⟩ none
  | _ => .ret 0 ⟨true, .load⟩ ⟨true, .ptr none⟩

theorem inTurn_step : ∀ i, i < 5 + 1 → Step (M := (objects twoPtrs).mach) (objects twoPtrs).bodies (inTurn i) (turning i) (inTurn (i + 1))
  | 0, _ => (Step.call (M := (objects twoPtrs).mach) (body := (objects twoPtrs).bodies) (c := inTurn 0) 0 ⟨false, .load⟩ rfl).to rfl (upd_pair0 _ _ _)
  | 1, _ => (Step.act (M := (objects twoPtrs).mach) (body := (objects twoPtrs).bodies) (c := inTurn 1) 0 ⟨false, .load⟩
      (⟨false, AtomicPtr.Act.loadPointer⟩ : (objects twoPtrs).mach.A) _ none (fun _ => none) rfl (ptr_step 0 false .loadPointer none (fun _ => none) (.load none))).to rfl (upd_pair0 _ _ _)
  | 2, _ => (Step.ret (M := (objects twoPtrs).mach) (body := (objects twoPtrs).bodies) (c := inTurn 2) 0 ⟨false, .load⟩ ⟨false, .ptr none⟩ rfl).to rfl (upd_pair0 _ _ _)
  | 3, _ => (Step.call (M := (objects twoPtrs).mach) (body := (objects twoPtrs).bodies) (c := inTurn 3) 0 ⟨true, .load⟩ rfl).to rfl (upd_pair0 _ _ _)
  | 4, _ => (Step.act (M := (objects twoPtrs).mach) (body := (objects twoPtrs).bodies) (c := inTurn 4) 0 ⟨true, .load⟩
      (⟨true, AtomicPtr.Act.loadPointer⟩ : (objects twoPtrs).mach.A) _ none (fun _ => none) rfl (ptr_step 0 true .loadPointer none (fun _ => none) (.load none))).to rfl (upd_pair0 _ _ _)
  | 5, _ => (Step.ret (M := (objects twoPtrs).mach) (body := (objects twoPtrs).bodies) (c := inTurn 5) 0 ⟨true, .load⟩ ⟨true, .ptr none⟩ rfl).to rfl (upd_pair0 _ _ _)
  | n + 6, h => by omega

/-- An endless execution as in `C128_together`. -/
example : ∃ ρ : Run (M := (objects twoPtrs).mach) (objects twoPtrs).bodies (Config.init (M := (objects twoPtrs).mach) (objects twoPtrs).sh),
    (∀ t, ρ.Strong t) ∧ (∀ i, (twoPtrs i).Calm fun op => ∃ n t, ρ.lab n = some (.call t ⟨i, op⟩)) ∧
    ∀ n, ∃ m, n ≤ m ∧ ρ.lab m = some (.call 0 ⟨true, .load⟩) := by
  have e0 : inTurn 0 = Config.init (M := (objects twoPtrs).mach) (objects twoPtrs).sh := by
    show (⟨_, pairTh .idle .idle⟩ : Config (objects twoPtrs).mach _ _) = _
    rw [pair_idle]; rfl
  rw [← e0]
  refine ⟨.loop 5 inTurn turning inTurn_step rfl, fun t n h => ?_, fun i => trivial, fun n => ⟨6 * n + 3, by omega, ?_⟩⟩
  · by_cases h0 : t = 0
    · subst h0
      refine ⟨6 * n + 1, by omega, .act 0 ⟨false, .loadPointer⟩ none, ?_, rfl, rfl⟩
      show some (turning ((6 * n + 1) % 6)) = _
      rw [show (6 * n + 1) % 6 = 1 by omega]; rfl
    · obtain ⟨k, -, hc⟩ := h n (Nat.le_refl n)
      refine absurd hc (not_canGo_idle ?_)
      show (inTurn (k % 6)).th t = .idle
      generalize k % 6 = i
      rcases i with _ | _ | _ | _ | _ | _ | i <;> simp [inTurn, pairTh, h0]
  · show some (turning ((6 * n + 3) % 6)) = _
    rw [show (6 * n + 3) % 6 = 3 by omega]; rfl

end Verif.Together
