import Verif.Src.SortBase

/-!
# Naming the loops of a function
-/

namespace Verif.Src.Sort

variable {E : Type}

/-- The rounds of the loop `s`. -/
def forOf (X : Ctx E) (C : Calls E) (s : Stmt) (env : Env E) (m : Mem E) : R (Flow E × Env E × Mem E) :=
  match s with
  | .loop _ c post body => rounds X C c post body env m
  | _ => stuck

/-- Statement `i` of a list. -/
def nth : List Stmt → Nat → Stmt
  | [], _ => .brk
  | s :: _, 0 => s
  | _ :: l, i + 1 => nth l i

/-- The body of a loop or of the `then` branch. -/
def bodyOf : Stmt → List Stmt
  | .loop _ _ _ b => b
  | .ite _ _ b _ => b
  | _ => []

end Verif.Src.Sort
