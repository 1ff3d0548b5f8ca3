import Verif.Src.Memory
import Verif.Src.FnText
import Verif.Xfn.Props

/-!
# xmath, and the functions of xfn that make no functions: the program

The functions quoted in Src/FnText.lean as a program of Src/Sem.lean.
-/

namespace Verif.Src.Fns

/-- The functions, each as its lines. -/
def texts : List (String × List String) :=
  [("Min", Min_text),
    ("Max", Max_text),
    ("FullComparatorOf", FullComparatorOf_text),
    ("PlusOp", PlusOp_text),
    ("MultOp", MultOp_text),
    ("DivOp", DivOp_text),
    ("ModOp", ModOp_text),
    ("Equal", Equal_text),
    ("NotEqual", NotEqual_text),
    ("Greater", Greater_text),
    ("GreaterEq", GreaterEq_text),
    ("Less", Less_text),
    ("LessEq", LessEq_text),
    ("LessFloat", LessFloat_text)]

/-- The functions quoted in Src/FnText.lean, without the generic type parameters. -/
def prog : Src.Prog where
  fns := [("Min", Min_fn),
    ("Max", Max_fn),
    ("FullComparatorOf", FullComparatorOf_fn),
    ("PlusOp", PlusOp_fn),
    ("MultOp", MultOp_fn),
    ("DivOp", DivOp_fn),
    ("ModOp", ModOp_fn),
    ("Equal", Equal_fn),
    ("NotEqual", NotEqual_fn),
    ("Greater", Greater_fn),
    ("GreaterEq", GreaterEq_fn),
    ("Less", Less_fn),
    ("LessEq", LessEq_fn),
    ("LessFloat", LessFloat_fn)]
  structs := []
  types := []
  consts := []

/-- **C157.** Every function of the program is what its quoted lines parse to. -/
theorem C157_text : texts.map (fun x => (x.1, parseFn x.2)) = prog.fns.map (fun x => (x.1, some x.2)) := by
  simp only [texts, prog, List.map_cons, List.map_nil, Min_parse, Max_parse, FullComparatorOf_parse, PlusOp_parse, MultOp_parse, DivOp_parse, ModOp_parse, Equal_parse, NotEqual_parse, Greater_parse, GreaterEq_parse, Less_parse, LessEq_parse, LessFloat_parse]

variable {T : Type}

/-- The comparison operators of the elements. -/
def cmp (o : Xfn.Ops T) : String → T → T → Option Bool
  | "==", a, b => some (o.eq a b)
  | "!=", a, b => some (!o.eq a b)
  | "<", a, b => some (o.lt a b)
  | "<=", a, b => some (o.le a b)
  | ">", a, b => some (o.gt a b)
  | ">=", a, b => some (o.ge a b)
  | _, _, _ => none

def ctx (o : Xfn.Ops T) : Ctx T where
  prog := prog
  boxed := []
  zeroOf := fun _ => none
  pad := .nil
  grow := fun _ n => n
  cmp := cmp o
  ext := fun _ _ _ => stuck

section
variable (o : Xfn.Ops T) (a b : T)
@[go_eval] theorem ctx_prog : (ctx o).prog = prog := rfl
@[go_eval] theorem ctx_boxed : (ctx o).boxed = [] := rfl
@[go_eval] theorem ctx_cmp : (ctx o).cmp = cmp o := rfl
@[go_eval] theorem ctx_boxedParams : (ctx o).boxedParams = [] := rfl
@[go_eval] theorem ctx_sliceTy : (ctx o).sliceTy = none := rfl
@[go_eval] theorem cmp_eq : cmp o "==" a b = some (o.eq a b) := rfl
@[go_eval] theorem cmp_ne : cmp o "!=" a b = some (!o.eq a b) := rfl
@[go_eval] theorem cmp_lt : cmp o "<" a b = some (o.lt a b) := rfl
@[go_eval] theorem cmp_le : cmp o "<=" a b = some (o.le a b) := rfl
@[go_eval] theorem cmp_gt : cmp o ">" a b = some (o.gt a b) := rfl
@[go_eval] theorem cmp_ge : cmp o ">=" a b = some (o.ge a b) := rfl
@[go_eval] theorem prog_structs : prog.structs = [] := rfl
@[go_eval] theorem prog_types : prog.types = [] := rfl
@[go_eval] theorem prog_consts : prog.consts = [] := rfl
@[go_eval] theorem look_Min : prog.fns.lookup "Min" = some Min_fn := rfl
@[go_eval] theorem look_Max : prog.fns.lookup "Max" = some Max_fn := rfl
@[go_eval] theorem look_FullComparatorOf : prog.fns.lookup "FullComparatorOf" = some FullComparatorOf_fn := rfl
@[go_eval] theorem look_PlusOp : prog.fns.lookup "PlusOp" = some PlusOp_fn := rfl
@[go_eval] theorem look_MultOp : prog.fns.lookup "MultOp" = some MultOp_fn := rfl
@[go_eval] theorem look_DivOp : prog.fns.lookup "DivOp" = some DivOp_fn := rfl
@[go_eval] theorem look_ModOp : prog.fns.lookup "ModOp" = some ModOp_fn := rfl
@[go_eval] theorem look_Equal : prog.fns.lookup "Equal" = some Equal_fn := rfl
@[go_eval] theorem look_NotEqual : prog.fns.lookup "NotEqual" = some NotEqual_fn := rfl
@[go_eval] theorem look_Greater : prog.fns.lookup "Greater" = some Greater_fn := rfl
@[go_eval] theorem look_GreaterEq : prog.fns.lookup "GreaterEq" = some GreaterEq_fn := rfl
@[go_eval] theorem look_Less : prog.fns.lookup "Less" = some Less_fn := rfl
@[go_eval] theorem look_LessEq : prog.fns.lookup "LessEq" = some LessEq_fn := rfl
@[go_eval] theorem look_LessFloat : prog.fns.lookup "LessFloat" = some LessFloat_fn := rfl
@[go_eval] theorem variadic_Min : Min_fn.variadic = false := rfl
@[go_eval] theorem variadic_Max : Max_fn.variadic = false := rfl
@[go_eval] theorem variadic_FullComparatorOf : FullComparatorOf_fn.variadic = false := rfl
@[go_eval] theorem variadic_PlusOp : PlusOp_fn.variadic = false := rfl
@[go_eval] theorem variadic_MultOp : MultOp_fn.variadic = false := rfl
@[go_eval] theorem variadic_DivOp : DivOp_fn.variadic = false := rfl
@[go_eval] theorem variadic_ModOp : ModOp_fn.variadic = false := rfl
@[go_eval] theorem variadic_Equal : Equal_fn.variadic = false := rfl
@[go_eval] theorem variadic_NotEqual : NotEqual_fn.variadic = false := rfl
@[go_eval] theorem variadic_Greater : Greater_fn.variadic = false := rfl
@[go_eval] theorem variadic_GreaterEq : GreaterEq_fn.variadic = false := rfl
@[go_eval] theorem variadic_Less : Less_fn.variadic = false := rfl
@[go_eval] theorem variadic_LessEq : LessEq_fn.variadic = false := rfl
@[go_eval] theorem variadic_LessFloat : LessFloat_fn.variadic = false := rfl
end

end Verif.Src.Fns
