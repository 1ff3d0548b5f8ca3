import Verif.Base

/-!
# Goroutines

A method is a tree of atomic actions on shared memory (`Prog`). A machine says what each action may do;
an action that may do nothing blocks. Any number of goroutines (numbered by `Tid`) call methods, take steps
in any order, and return. Memory is sequentially consistent.
-/

namespace Verif.Conc

/-- Goroutines. -/
abbrev Tid := Nat

/-- A method body: return a result, or do an action and go on with its answer. -/
inductive Prog (A : Type) (Ans : A → Type) (R : Type) : Type where
  | ret (r : R)
  | act (a : A) (k : Ans a → Prog A Ans R)

/-- Sequencing of method bodies. -/
def Prog.bind {A : Type} {Ans : A → Type} {R R' : Type} (p : Prog A Ans R) (f : R → Prog A Ans R') :
    Prog A Ans R' :=
  match p with
  | .ret r => f r
  | .act a k => .act a (fun ans => (k ans).bind f)

instance {A : Type} {Ans : A → Type} : Monad (Prog A Ans) where
  pure := .ret
  bind := Prog.bind

/-- A single action. -/
def Prog.do_ {A : Type} {Ans : A → Type} (a : A) : Prog A Ans (Ans a) := .act a .ret

/-- Shared memory and what the actions do to it: `step t a σ ans σ'` if in state `σ` the action `a` of
goroutine `t` may answer `ans` and leave `σ'`. -/
structure Machine where
  /-- actions -/
  A : Type
  /-- their answers -/
  Ans : A → Type
  /-- shared states -/
  Sh : Type
  /-- what actions do -/
  step : Tid → (a : A) → Sh → Ans a → Sh → Prop

/-- A goroutine: not in a call, or in a call of `op` with `p` still to be done. -/
inductive Thread (M : Machine) (Op R : Type) where
  | idle
  | run (op : Op) (p : Prog M.A M.Ans R)

/-- A state of the whole system. -/
structure Config (M : Machine) (Op R : Type) where
  /-- shared memory -/
  sh : M.Sh
  /-- the goroutines -/
  th : Tid → Thread M Op R

/-- What happens in a step. -/
inductive Label (M : Machine) (Op R : Type) where
  | call (t : Tid) (op : Op)
  | act (t : Tid) (a : M.A) (ans : M.Ans a)
  | ret (t : Tid) (op : Op) (r : R)

/-- Change one value of a function. -/
def upd {α : Type} (f : Tid → α) (t : Tid) (x : α) : Tid → α := fun u => if u = t then x else f u

theorem upd_same {α : Type} (f : Tid → α) (t : Tid) (x : α) : upd f t x t = x := if_pos rfl
theorem upd_other {α : Type} (f : Tid → α) {t u : Tid} (x : α) (h : u ≠ t) : upd f t x u = f u := if_neg h

variable {M : Machine} {Op R : Type}

/-- The steps of the system whose methods are `body`. -/
inductive Step (body : Op → Prog M.A M.Ans R) : Config M Op R → Label M Op R → Config M Op R → Prop where
  | call {c : Config M Op R} (t : Tid) (op : Op) : c.th t = .idle →
      Step body c (.call t op) ⟨c.sh, upd c.th t (.run op (body op))⟩
  | act {c : Config M Op R} (t : Tid) (op : Op) (a : M.A) (k : M.Ans a → Prog M.A M.Ans R) (ans : M.Ans a)
      (sh' : M.Sh) : c.th t = .run op (.act a k) → M.step t a c.sh ans sh' →
      Step body c (.act t a ans) ⟨sh', upd c.th t (.run op (k ans))⟩
  | ret {c : Config M Op R} (t : Tid) (op : Op) (r : R) : c.th t = .run op (.ret r) →
      Step body c (.ret t op r) ⟨c.sh, upd c.th t .idle⟩

/-- Executions, with what happened in them, earliest first. -/
inductive Exec (body : Op → Prog M.A M.Ans R) (c0 : Config M Op R) : List (Label M Op R) → Config M Op R → Prop where
  | nil : Exec body c0 [] c0
  | snoc {tr : List (Label M Op R)} {c c' : Config M Op R} {l : Label M Op R} :
      Exec body c0 tr c → Step body c l c' → Exec body c0 (tr ++ [l]) c'

/-- All goroutines idle, memory as given. -/
def Config.init (sh : M.Sh) : Config M Op R := ⟨sh, fun _ => .idle⟩

/-- The calls made in an execution satisfy `P`. -/
def Calls (P : Tid → Op → Prop) (tr : List (Label M Op R)) : Prop := ∀ t op, .call t op ∈ tr → P t op

theorem Calls.of_snoc {P : Tid → Op → Prop} {tr : List (Label M Op R)} {l : Label M Op R}
    (h : Calls P (tr ++ [l])) : Calls P tr ∧ ∀ t op, l = .call t op → P t op :=
  ⟨fun t op hm => h t op (List.mem_append.2 (Or.inl hm)),
    fun t op e => h t op (List.mem_append.2 (Or.inr (by simp [e])))⟩

/-- An invariant proved step by step holds in every execution whose calls satisfy `P`. -/
theorem Exec.invariant {body : Op → Prog M.A M.Ans R} {c0 : Config M Op R} {P : Tid → Op → Prop}
    (I : Config M Op R → Prop) (h0 : I c0)
    (hcall : ∀ c t op, I c → P t op → c.th t = .idle → I ⟨c.sh, upd c.th t (.run op (body op))⟩)
    (hact : ∀ c t op a k ans sh', I c → c.th t = .run op (.act a k) → M.step t a c.sh ans sh' →
      I ⟨sh', upd c.th t (.run op (k ans))⟩)
    (hret : ∀ c t op r, I c → c.th t = .run op (.ret r) → I ⟨c.sh, upd c.th t .idle⟩)
    {tr : List (Label M Op R)} {c : Config M Op R} (he : Exec body c0 tr c) (hP : Calls P tr) : I c := by
  induction he with
  | nil => exact h0
  | snoc _ hs ih =>
    obtain ⟨h1, h2⟩ := hP.of_snoc
    have hi := ih h1
    cases hs with
    | call t op h => exact hcall _ t op hi (h2 t op rfl) h
    | act t op a k ans sh' h hst => exact hact _ t op a k ans sh' hi h hst
    | ret t op r h => exact hret _ t op r hi h

end Verif.Conc

namespace Verif.Conc

/-- Run alone by goroutine `t` from a state, the program never blocks, and always ends with a result and a
state that satisfy `post`. -/
def Always (M : Machine) (t : Tid) {R : Type} (post : R → M.Sh → Prop) : Prog M.A M.Ans R → M.Sh → Prop
  | .ret r, σ => post r σ
  | .act a k, σ => (∃ ans σ', M.step t a σ ans σ') ∧
      ∀ ans σ', M.step t a σ ans σ' → Always M t post (k ans) σ'

theorem Always.mono {M : Machine} {t : Tid} {R : Type} {post post' : R → M.Sh → Prop}
    (h : ∀ r σ, post r σ → post' r σ) : ∀ {p : Prog M.A M.Ans R} {σ : M.Sh}, Always M t post p σ →
    Always M t post' p σ
  | .ret r, σ, hp => h r σ hp
  | .act _ _, _, hp => ⟨hp.1, fun ans σ' hs => Always.mono h (hp.2 ans σ' hs)⟩

theorem Always.bind {M : Machine} {t : Tid} {R R' : Type} {post : R' → M.Sh → Prop}
    {f : R → Prog M.A M.Ans R'} : ∀ {p : Prog M.A M.Ans R} {σ : M.Sh},
    Always M t (fun r σ => Always M t post (f r) σ) p σ → Always M t post (p.bind f) σ
  | .ret _, _, hp => hp
  | .act _ _, _, hp => ⟨hp.1, fun ans σ' hs => Always.bind (hp.2 ans σ' hs)⟩

end Verif.Conc
