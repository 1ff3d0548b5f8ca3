import Verif.Src.AlgoProg
import Verif.Src.SortLoops
import Verif.Algo.Model

/-!
# Iterators as values, and comparing runs with the model

`algo` and the reverse iterators are written over an iterator type that they only call the methods of. `Impl` says what it takes for
values `enc j` of the language to be iterators `j` of the model: the calls of their methods do what the model's operations do. `Rep s m`
says that the memory `m` holds the model's memory `s`.
-/

namespace Verif.Src.Algo

open Verif.Iter
open Verif.Src.Sort (forOf nth bodyOf)

variable {E S T J : Type}

/-- Values that are copied as they are. -/
def plain : Val E → Bool
  | .num .lit _ => false
  | .box _ => false
  | .array .. => false
  | _ => true

section
variable {v : Val E}
theorem fetch_plain (h : plain v = true) (m : Mem E) : fetch m v = pure v := by
  cases v <;> first | rfl | cases h
theorem coerce_plain (h : plain v = true) (p : Src.Prog) (t : Ty) : coerce p t v = v := by
  cases v with
  | num k n => cases k <;> first | (cases t <;> rfl) | cases h
  | _ => cases t <;> rfl
theorem settle_plain (h : plain v = true) : settle v = v := by
  cases v with
  | num k n => cases k <;> first | rfl | cases h
  | _ => rfl
theorem fit_plain (h : plain v = true) (w : Val E) : fit w v = v := by
  cases v with
  | num k n => cases k <;> first | (cases w <;> rfl) | cases h
  | _ => cases w <;> rfl
theorem boxNo_plain (h : plain v = true) : boxNo v = none := by
  cases v <;> first | rfl | cases h
end

/-! ## Runs -/

/-- `x` does what the model's `y` does: it returns where `y` does, with results related by `P`, and panics where `y` does. Nothing is
said where the model's bound on the number of rounds is too small. -/
def Does {α β : Type} (x : R β) (y : Go α × S) (P : α → S → β → Prop) : Prop :=
  match y with
  | (.ok a, s) => ∃ b, x = pure b ∧ P a s b
  | (.error e, _) => e = "fuel" ∨ x = panic e

namespace Does

variable {α β γ δ : Type} {x : R β} {P : α → S → β → Prop}

theorem bind {y : St S α} {s : S} {f : β → R γ} {g : α → St S δ} {Q : δ → S → γ → Prop} (h : Does x (y s) P)
    (k : ∀ a s' b, P a s' b → Does (f b) (g a s') Q) : Does (x >>= f) ((y >>= g) s) Q := by
  rw [St.bind_apply]
  match hy : y s with
  | (.ok a, s') =>
    rw [hy] at h
    obtain ⟨b, rfl, hb⟩ := h
    exact k a s' b hb
  | (.error e, s') =>
    rw [hy] at h
    rcases h with h | rfl
    · exact .inl h
    · exact .inr rfl

/-- What the program does on top of the model's last step. -/
theorem andThen {y : Go α × S} {f : β → R γ} {Q : α → S → γ → Prop} (h : Does x y P)
    (k : ∀ a s' b, P a s' b → ∃ c, f b = pure c ∧ Q a s' c) : Does (x >>= f) y Q := by
  match y with
  | (.ok a, s') =>
    obtain ⟨b, rfl, hb⟩ := h
    exact k a s' b hb
  | (.error e, s') =>
    rcases h with h | rfl
    · exact .inl h
    · exact .inr rfl

theorem congr {x' : R β} {y : Go α × S} (h : x = x') (k : Does x' y P) : Does x y P := h ▸ k

theorem ret {a : α} {s : S} {b : β} (h : P a s b) : Does (pure b) ((pure a : St S α) s) P := ⟨b, rfl, h⟩

theorem fails {e : String} {s : S} : Does (panic e : R β) ((St.panic e : St S α) s) P := .inr rfl

theorem fuel {s : S} : Does x ((St.panic "fuel" : St S α) s) P := .inl rfl

theorem mono {y : Go α × S} {Q : α → S → β → Prop} (h : Does x y P) (k : ∀ a s' b, P a s' b → Q a s' b) : Does x y Q := by
  match y with
  | (.ok a, s') =>
    obtain ⟨b, rfl, hb⟩ := h
    exact ⟨b, rfl, k a s' b hb⟩
  | (.error e, s') => exact h

end Does

/-- One result, and the memory. -/
def Gives {α : Type} (Rep : S → Mem E → Prop) (enc : α → Val E) (a : α) (s : S) (r : List (Val E) × Mem E) : Prop :=
  r.1 = [enc a] ∧ Rep s r.2

/-- No result. -/
def Leaves (Rep : S → Mem E → Prop) (_ : Unit) (s : S) (r : List (Val E) × Mem E) : Prop := r.1 = [] ∧ Rep s r.2

theorem Does.bind1 {α γ δ : Type} {Rep : S → Mem E → Prop} {enc : α → Val E} {x : R (List (Val E) × Mem E)} {y : St S α} {s : S}
    {f : List (Val E) × Mem E → R γ} {g : α → St S δ} {Q : δ → S → γ → Prop} (h : Does x (y s) (Gives Rep enc))
    (k : ∀ a s' m', Rep s' m' → Does (f ([enc a], m')) (g a s') Q) : Does (x >>= f) ((y >>= g) s) Q := by
  refine h.bind ?_
  rintro a s' ⟨vs, m'⟩ ⟨rfl, hm⟩
  exact k a s' m' hm

theorem Does.bind0 {γ δ : Type} {Rep : S → Mem E → Prop} {x : R (List (Val E) × Mem E)} {y : St S Unit} {s : S}
    {f : List (Val E) × Mem E → R γ} {g : Unit → St S δ} {Q : δ → S → γ → Prop} (h : Does x (y s) (Leaves Rep))
    (k : ∀ s' m', Rep s' m' → Does (f ([], m')) (g () s') Q) : Does (x >>= f) ((y >>= g) s) Q := by
  refine h.bind ?_
  rintro a s' ⟨vs, m'⟩ ⟨rfl, hm⟩
  exact k s' m' hm

/-- The values `enc j` have the methods of ds/iter/iterator.go:4-14 and these do what the model's operations on `j` do, from the call
depth `k` on. -/
structure Impl (X : Ctx E) (Rep : S → Mem E → Prop) (val : T → Val E) (k : Nat) (enc : J → Val E) [Iter S T J] : Prop where
  plain : ∀ j, Algo.plain (enc j) = true
  vals : ∀ t, Algo.plain (val t) = true
  next : ∀ n, k ≤ n → ∀ j p s m, Rep s m →
    Does (callOn X (calls X n) "Next" (enc j) p [] false m) ((St.lift (next j) : St S J) s) (Gives Rep enc)
  get : ∀ n, k ≤ n → ∀ j p s m, Rep s m → Does (callOn X (calls X n) "Get" (enc j) p [] false m) (get j s) (Gives Rep val)
  set : ∀ n, k ≤ n → ∀ j t p s m, Rep s m →
    Does (callOn X (calls X n) "Set" (enc j) p [val t] false m) (set j t s) (Leaves Rep)
  equal : ∀ n, k ≤ n → ∀ j j' p s m, Rep s m →
    Does (callOn X (calls X n) "Equal" (enc j) p [enc j'] false m) ((St.lift (equal j j') : St S Bool) s) (Gives Rep .bool)

/-- Those of ds/iter/iterator.go:17-39 too. -/
structure RandImpl (X : Ctx E) (Rep : S → Mem E → Prop) (val : T → Val E) (k : Nat) (enc : J → Val E) [RandIter S T J] : Prop
    extends Impl X Rep val k enc where
  prev : ∀ n, k ≤ n → ∀ j p s m, Rep s m →
    Does (callOn X (calls X n) "Prev" (enc j) p [] false m) ((St.lift (prev j) : St S J) s) (Gives Rep enc)
  add : ∀ n, k ≤ n → ∀ j i p s m, Rep s m → isInt64 i →
    Does (callOn X (calls X n) "Add" (enc j) p [.num .int i] false m) ((St.lift (add j i) : St S J) s) (Gives Rep enc)
  pos : ∀ n, k ≤ n → ∀ j p s m, Rep s m →
    Does (callOn X (calls X n) "Pos" (enc j) p [] false m) ((St.lift (.ok (pos j)) : St S Int) s) (Gives Rep (.num .int))

/-- The function value `g` is the comparator. -/
def IsComp (X : Ctx E) (val : T → Val E) (k : Nat) (g : String) (comp : T → T → Bool) : Prop :=
  ∀ n, k ≤ n → ∀ a b m, invoke X (calls X n) g [val a, val b] false m = pure ([.bool (comp a b)], m)

open Lean Parser.Tactic in
/-- `go_run` in the presence of unknown iterators and elements. -/
macro "it_run" h:term:max "[" ls:simpLemma,* "]" : tactic =>
  `(tactic| refine Does.congr (by
      go_run [fetch_plain (Impl.plain $h _), ↓coerce_plain (Impl.plain $h _), ↓settle_plain (Impl.plain $h _), ↓fit_plain (Impl.plain $h _), ↓boxNo_plain (Impl.plain $h _),
        fetch_plain (Impl.vals $h _), ↓coerce_plain (Impl.vals $h _), ↓settle_plain (Impl.vals $h _), ↓fit_plain (Impl.vals $h _), ↓boxNo_plain (Impl.vals $h _), $ls,*]
      (try simp only [bind_assoc])
      exact rfl) ?_)

theorem wrap_wrap64 (n : Int) : wrap .int n = wrap64 n := rfl

end Verif.Src.Algo
