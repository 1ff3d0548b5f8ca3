import Verif.Src.HashBytes
import Verif.Src.RngText

/-!
# secrand/rng.go: the program

The functions quoted in Src/RngText.lean as a program of Src/Sem.lean.
-/

namespace Verif.Src.Rng

/-- The functions, each as its lines. -/
def texts : List (String × List String) :=
  [("toUint64", toUint64_text),
    ("RNG.Uint64", RNG_Uint64_text),
    ("erase", erase_text),
    ("copyAndErase", copyAndErase_text)]

/-- In place of `Read`, whose text Src/Syntax.lean cannot parse: a method that does anything at all. Not from the repository. -/
def anyRead_text : List String := [
  "func (r *RNG) Read(b []byte) (int, error) {",
  "	return anyRead(r, b)",
  "}"]

def anyRead_fn : Fn := parsed% anyRead_text

/-- The functions quoted in Src/RngText.lean, and a `Read` that is any function. None of them makes an `RNG`. -/
def prog : Src.Prog where
  fns := [("toUint64", toUint64_fn),
    ("RNG.Uint64", RNG_Uint64_fn),
    ("erase", erase_fn),
    ("copyAndErase", copyAndErase_fn),
    ("RNG.Read", anyRead_fn)]
  structs := []
  types := []
  consts := []

/-- **C158.** Every function of the program but `Read` is what its quoted lines parse to. -/
theorem C158_text : texts.map (fun x => (x.1, parseFn x.2)) = prog.fns.dropLast.map (fun x => (x.1, some x.2)) := by
  simp only [texts, prog, List.dropLast, List.map_cons, List.map_nil, toUint64_parse, RNG_Uint64_parse, erase_parse, copyAndErase_parse]

/-- What a function outside the program does. -/
abbrev Ext (E : Type) := List (Val E) → Mem E → R (List (Val E) × Mem E)

/-- There are no elements that anything can be done with; `rd` is what `Read` does. -/
def ctx {E : Type} (rd : Ext E) : Ctx E where
  prog := prog
  boxed := []
  zeroOf := fun _ => none
  pad := .num .u8 0
  grow := fun _ n => n
  cmp := fun _ _ _ => none
  ext := fun f vs m => if f = "anyRead" then rd vs m else stuck

section
variable {E : Type} {rd : Ext E}
@[go_eval] theorem ctx_prog : (ctx rd).prog = prog := rfl
@[go_eval] theorem ctx_boxed : (ctx rd).boxed = [] := rfl
@[go_eval] theorem ctx_boxedParams : (ctx rd).boxedParams = [] := rfl
@[go_eval] theorem ctx_sliceTy : (ctx rd).sliceTy = none := rfl
@[go_eval] theorem ctx_ext (vs : List (Val E)) (m : Mem E) : (ctx rd).ext "anyRead" vs m = rd vs m := rfl
@[go_eval] theorem prog_structs : prog.structs = [] := rfl
@[go_eval] theorem prog_types : prog.types = [] := rfl
@[go_eval] theorem prog_consts : prog.consts = [] := rfl
@[go_eval] theorem look_toUint64 : prog.fns.lookup "toUint64" = some toUint64_fn := rfl
@[go_eval] theorem look_RNG_Uint64 : prog.fns.lookup "RNG.Uint64" = some RNG_Uint64_fn := rfl
@[go_eval] theorem look_erase : prog.fns.lookup "erase" = some erase_fn := rfl
@[go_eval] theorem look_copyAndErase : prog.fns.lookup "copyAndErase" = some copyAndErase_fn := rfl
@[go_eval] theorem look_Read : prog.fns.lookup "RNG.Read" = some anyRead_fn := rfl
@[go_eval] theorem look_any : prog.fns.lookup "anyRead" = none := rfl
@[go_eval] theorem variadic_Read : anyRead_fn.variadic = false := rfl
@[go_eval] theorem recv_Read : anyRead_fn.recv = some ("r", "RNG", true) := rfl
@[go_eval] theorem variadic_toUint64 : toUint64_fn.variadic = false := rfl
@[go_eval] theorem variadic_RNG_Uint64 : RNG_Uint64_fn.variadic = false := rfl
@[go_eval] theorem variadic_erase : erase_fn.variadic = false := rfl
@[go_eval] theorem variadic_copyAndErase : copyAndErase_fn.variadic = false := rfl
@[go_eval] theorem recv_RNG_Uint64 : RNG_Uint64_fn.recv = some ("r", "RNG", true) := rfl
end

end Verif.Src.Rng
