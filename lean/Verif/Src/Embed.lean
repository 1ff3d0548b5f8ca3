import Lean
import Verif.Src.Syntax

/-!
# Quoting functions of /repo

`parsed% text` elaborates to the syntax tree that the parser computes from `text`, written out. Nothing is trusted about it: each
use is followed by a theorem that `parseFn text` is that tree, which `kernel_rfl` leaves to the kernel to compute.
-/

namespace Verif.Src

open Lean Elab Term Tactic Meta

/-- The syntax tree of a quoted function, written out. -/
elab "parsed% " t:term : term => do
  let e ← elabTermEnsuringType t (mkApp (mkConst ``List [Level.zero]) (mkConst ``String))
  synthesizeSyntheticMVarsNoPostponing
  let e ← instantiateMVars e
  let v ← unsafe evalExpr (Option Fn) (mkApp (mkConst ``Option [Level.zero]) (mkConst ``Fn)) (mkApp (mkConst ``parseFn) e)
  match v with
  | some f => return toExpr f
  | none => throwError "does not parse"

/-- Closes `a = b` by `Eq.refl a`, which only the kernel checks. -/
elab "kernel_rfl" : tactic => do
  let g ← getMainGoal
  let some (_, a, _) := (← instantiateMVars (← g.getType)).eq? | throwError "not an equation"
  g.assign (← mkEqRefl a)

end Verif.Src
