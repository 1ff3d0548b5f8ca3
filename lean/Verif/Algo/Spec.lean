import Verif.Sort.Spec

/-! # Lexicographic order of lists, from the definition -/

namespace Verif.Algo

open Verif.Sort

variable {T : Type}

/-- `xs` comes before `ys` in lexicographic order: at the first place where they are not equivalent,
`xs` has the lesser element; a proper prefix comes first. -/
def lexLt (lt : T → T → Bool) : List T → List T → Prop
  | _, [] => False
  | [], _ :: _ => True
  | x :: xs, y :: ys => lt x y = true ∨ (equiv lt x y = true ∧ lexLt lt xs ys)

instance lexLt_dec (lt : T → T → Bool) : ∀ xs ys, Decidable (lexLt lt xs ys)
  | [], [] => isFalse (by simp [lexLt])
  | _ :: _, [] => isFalse (by simp [lexLt])
  | [], _ :: _ => isTrue (by simp [lexLt])
  | x :: xs, y :: ys =>
    have := lexLt_dec lt xs ys
    inferInstanceAs (Decidable (lt x y = true ∨ (equiv lt x y = true ∧ lexLt lt xs ys)))

/-- `next` is the successor of `cur` among the rearrangements of `cur`: greater, and no rearrangement
lies between. -/
structure NextInOrder (lt : T → T → Bool) (cur next : List T) : Prop where
  perm : next.Perm cur
  greater : lexLt lt cur next
  least : ∀ l : List T, l.Perm cur → lexLt lt cur l → ¬ lexLt lt l next

/-- `cur` has no greater rearrangement. -/
def LastInOrder (lt : T → T → Bool) (cur : List T) : Prop :=
  ∀ l : List T, l.Perm cur → ¬ lexLt lt cur l

end Verif.Algo
