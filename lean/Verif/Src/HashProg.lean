import Verif.Src.Memory
import Verif.Src.HashText
import Verif.Xhash.Model

/-!
# xhash: the program

The functions quoted in Src/HashText.lean as a program of Src/Sem.lean.
-/

namespace Verif.Src.Hash

/-- The functions, each as its lines. -/
def texts : List (String × List String) :=
  [("NewFast64", NewFast64_text),
    ("rrmxmx", rrmxmx_text),
    ("Uint64", Uint64_text),
    ("Uint64Seed", Uint64Seed_text),
    ("Incremental64.WriteUint64", Incremental64_WriteUint64_text),
    ("Incremental64.Write", Incremental64_Write_text),
    ("Incremental64.Sum", Incremental64_Sum_text),
    ("Incremental64.Reset", Incremental64_Reset_text),
    ("Incremental64.Size", Incremental64_Size_text),
    ("Incremental64.BlockSize", Incremental64_BlockSize_text),
    ("Incremental64.Sum64", Incremental64_Sum64_text),
    ("toUint64", toUint64_text),
    ("putUint64", putUint64_text)]

/-- xhash/fast64.go and xhash/binary.go: the functions quoted in Src/HashText.lean, the struct of xhash/fast64.go:7-9 and the constants of
xhash/fast64.go:12-14. -/
def prog : Src.Prog where
  fns := [("NewFast64", NewFast64_fn),
    ("rrmxmx", rrmxmx_fn),
    ("Uint64", Uint64_fn),
    ("Uint64Seed", Uint64Seed_fn),
    ("Incremental64.WriteUint64", Incremental64_WriteUint64_fn),
    ("Incremental64.Write", Incremental64_Write_fn),
    ("Incremental64.Sum", Incremental64_Sum_fn),
    ("Incremental64.Reset", Incremental64_Reset_fn),
    ("Incremental64.Size", Incremental64_Size_fn),
    ("Incremental64.BlockSize", Incremental64_BlockSize_fn),
    ("Incremental64.Sum64", Incremental64_Sum64_fn),
    ("toUint64", toUint64_fn),
    ("putUint64", putUint64_fn)]
  structs := [("Incremental64", [("h", .name "uint64" [])])]
  types := []
  consts := [("key64_000", 0xbe4ba423396cfeb8), ("key64_008", 0x1cad21f72c81017c), ("key64_016", 0xdb979083e96dd4de)]

/-- **C153.** Every function of the program is what its quoted lines parse to, and the constants are those of the quoted lines. -/
theorem C153_text : texts.map (fun x => (x.1, parseFn x.2)) = prog.fns.map (fun x => (x.1, some x.2)) ∧
    constants (lex consts_text) = prog.consts := by
  refine ⟨?_, by decide +kernel⟩
  simp only [texts, prog, List.map_cons, List.map_nil, NewFast64_parse, rrmxmx_parse, Uint64_parse, Uint64Seed_parse, Incremental64_WriteUint64_parse, Incremental64_Write_parse, Incremental64_Sum_parse, Incremental64_Reset_parse, Incremental64_Size_parse, Incremental64_BlockSize_parse, Incremental64_Sum64_parse, toUint64_parse, putUint64_parse]

variable {E : Type}

/-- The functions of package math/bits. -/
def ext : String → List (Val E) → Mem E → R (List (Val E) × Mem E)
  | "bits.RotateLeft64", [.num .u64 a, .num .lit (.ofNat k)], m => pure ([.num .u64 ((BitVec.ofInt 64 a).rotateLeft k).toNat], m)
  | "bits.ReverseBytes32", [.num .u32 a], m => pure ([.num .u32 (Xhash.reverseBytes32 (BitVec.ofInt 32 a)).toNat], m)
  | _, _, _ => stuck

/-- There are no elements that anything can be done with; the capacity that `append` gives is left open. -/
def ctx (E : Type) (grow : Nat → Nat → Nat) : Ctx E where
  prog := prog
  boxed := []
  zeroOf := fun s => if s = "error" then some .nil else none
  pad := .num .u8 0
  grow := grow
  cmp := fun _ _ _ => none
  ext := ext

section
variable (g : Nat → Nat → Nat)
@[go_eval] theorem ctx_prog : (ctx E g).prog = prog := rfl
@[go_eval] theorem ctx_boxed : (ctx E g).boxed = [] := rfl
@[go_eval] theorem ctx_zeroError : (ctx E g).zeroOf "error" = some .nil := rfl
@[go_eval] theorem ctx_boxedParams : (ctx E g).boxedParams = [] := rfl
@[go_eval] theorem ctx_sliceTy : (ctx E g).sliceTy = none := rfl
@[go_eval] theorem prog_structs : prog.structs = [("Incremental64", [("h", .name "uint64" [])])] := rfl
@[go_eval] theorem prog_types : prog.types = [] := rfl
@[go_eval] theorem prog_consts : prog.consts =
    [("key64_000", 0xbe4ba423396cfeb8), ("key64_008", 0x1cad21f72c81017c), ("key64_016", 0xdb979083e96dd4de)] := rfl
@[go_eval] theorem look_rotate : prog.fns.lookup "bits.RotateLeft64" = none := rfl
@[go_eval] theorem look_reverse : prog.fns.lookup "bits.ReverseBytes32" = none := rfl
@[go_eval] theorem look_NewFast64 : prog.fns.lookup "NewFast64" = some NewFast64_fn := rfl
@[go_eval] theorem look_rrmxmx : prog.fns.lookup "rrmxmx" = some rrmxmx_fn := rfl
@[go_eval] theorem look_Uint64 : prog.fns.lookup "Uint64" = some Uint64_fn := rfl
@[go_eval] theorem look_Uint64Seed : prog.fns.lookup "Uint64Seed" = some Uint64Seed_fn := rfl
@[go_eval] theorem look_Incremental64_WriteUint64 : prog.fns.lookup "Incremental64.WriteUint64" = some Incremental64_WriteUint64_fn := rfl
@[go_eval] theorem look_Incremental64_Write : prog.fns.lookup "Incremental64.Write" = some Incremental64_Write_fn := rfl
@[go_eval] theorem look_Incremental64_Sum : prog.fns.lookup "Incremental64.Sum" = some Incremental64_Sum_fn := rfl
@[go_eval] theorem look_Incremental64_Reset : prog.fns.lookup "Incremental64.Reset" = some Incremental64_Reset_fn := rfl
@[go_eval] theorem look_Incremental64_Size : prog.fns.lookup "Incremental64.Size" = some Incremental64_Size_fn := rfl
@[go_eval] theorem look_Incremental64_BlockSize : prog.fns.lookup "Incremental64.BlockSize" = some Incremental64_BlockSize_fn := rfl
@[go_eval] theorem look_Incremental64_Sum64 : prog.fns.lookup "Incremental64.Sum64" = some Incremental64_Sum64_fn := rfl
@[go_eval] theorem look_toUint64 : prog.fns.lookup "toUint64" = some toUint64_fn := rfl
@[go_eval] theorem look_putUint64 : prog.fns.lookup "putUint64" = some putUint64_fn := rfl
@[go_eval] theorem variadic_NewFast64 : NewFast64_fn.variadic = false := rfl
@[go_eval] theorem variadic_rrmxmx : rrmxmx_fn.variadic = false := rfl
@[go_eval] theorem variadic_Uint64 : Uint64_fn.variadic = false := rfl
@[go_eval] theorem variadic_Uint64Seed : Uint64Seed_fn.variadic = false := rfl
@[go_eval] theorem variadic_Incremental64_WriteUint64 : Incremental64_WriteUint64_fn.variadic = false := rfl
@[go_eval] theorem variadic_Incremental64_Write : Incremental64_Write_fn.variadic = false := rfl
@[go_eval] theorem variadic_Incremental64_Sum : Incremental64_Sum_fn.variadic = false := rfl
@[go_eval] theorem variadic_Incremental64_Reset : Incremental64_Reset_fn.variadic = false := rfl
@[go_eval] theorem variadic_Incremental64_Size : Incremental64_Size_fn.variadic = false := rfl
@[go_eval] theorem variadic_Incremental64_BlockSize : Incremental64_BlockSize_fn.variadic = false := rfl
@[go_eval] theorem variadic_Incremental64_Sum64 : Incremental64_Sum64_fn.variadic = false := rfl
@[go_eval] theorem variadic_toUint64 : toUint64_fn.variadic = false := rfl
@[go_eval] theorem variadic_putUint64 : putUint64_fn.variadic = false := rfl
@[go_eval] theorem recv_Incremental64_WriteUint64 : Incremental64_WriteUint64_fn.recv = some ("f", "Incremental64", true) := rfl
@[go_eval] theorem recv_Incremental64_Write : Incremental64_Write_fn.recv = some ("f", "Incremental64", true) := rfl
@[go_eval] theorem recv_Incremental64_Sum : Incremental64_Sum_fn.recv = some ("f", "Incremental64", true) := rfl
@[go_eval] theorem recv_Incremental64_Reset : Incremental64_Reset_fn.recv = some ("f", "Incremental64", true) := rfl
@[go_eval] theorem recv_Incremental64_Size : Incremental64_Size_fn.recv = some ("f", "Incremental64", true) := rfl
@[go_eval] theorem recv_Incremental64_BlockSize : Incremental64_BlockSize_fn.recv = some ("f", "Incremental64", true) := rfl
@[go_eval] theorem recv_Incremental64_Sum64 : Incremental64_Sum64_fn.recv = some ("f", "Incremental64", true) := rfl
end

end Verif.Src.Hash
