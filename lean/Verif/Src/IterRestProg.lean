import Verif.Src.Memory
import Verif.Src.IterRestText
import Verif.Iter.Model

/-!
# The rest of ds/iter: the program

The functions quoted in Src/IterRestText.lean as a program of Src/Sem.lean.
-/

namespace Verif.Src.IterRest

/-- The functions, each as its lines. -/
def texts : List (String × List String) :=
  [("ConstReverse", ConstReverse_text),
    ("ConstReverseIterator.Base", ConstReverseIterator_Base_text),
    ("ConstReverseIterator.Next", ConstReverseIterator_Next_text),
    ("ConstReverseIterator.Prev", ConstReverseIterator_Prev_text),
    ("ConstReverseIterator.Get", ConstReverseIterator_Get_text),
    ("ConstReverseIterator.Equal", ConstReverseIterator_Equal_text),
    ("Reverse", Reverse_text),
    ("ReverseIterator.Base", ReverseIterator_Base_text),
    ("ReverseIterator.Next", ReverseIterator_Next_text),
    ("ReverseIterator.Prev", ReverseIterator_Prev_text),
    ("ReverseIterator.Get", ReverseIterator_Get_text),
    ("ReverseIterator.Set", ReverseIterator_Set_text),
    ("ReverseIterator.Equal", ReverseIterator_Equal_text),
    ("ConstReverseRandom", ConstReverseRandom_text),
    ("ConstReverseRandomIterator.Base", ConstReverseRandomIterator_Base_text),
    ("ConstReverseRandomIterator.Next", ConstReverseRandomIterator_Next_text),
    ("ConstReverseRandomIterator.Prev", ConstReverseRandomIterator_Prev_text),
    ("ConstReverseRandomIterator.Add", ConstReverseRandomIterator_Add_text),
    ("ConstReverseRandomIterator.Pos", ConstReverseRandomIterator_Pos_text),
    ("ConstReverseRandomIterator.Get", ConstReverseRandomIterator_Get_text),
    ("ConstReverseRandomIterator.Equal", ConstReverseRandomIterator_Equal_text),
    ("Dummy", Dummy_text),
    ("DummyIterator.Next", DummyIterator_Next_text),
    ("DummyIterator.Get", DummyIterator_Get_text),
    ("DummyIterator.Equal", DummyIterator_Equal_text),
    ("DummyIterator.Prev", DummyIterator_Prev_text),
    ("DummyIterator.Add", DummyIterator_Add_text),
    ("DummyIterator.Pos", DummyIterator_Pos_text),
    ("DummyIterator.Set", DummyIterator_Set_text),
    ("Append", Append_text),
    ("AppendIterator.Next", AppendIterator_Next_text),
    ("AppendIterator.Get", AppendIterator_Get_text),
    ("AppendIterator.Equal", AppendIterator_Equal_text),
    ("AppendIterator.Set", AppendIterator_Set_text),
    ("Prepend", Prepend_text),
    ("PrependIterator.Next", PrependIterator_Next_text),
    ("PrependIterator.Get", PrependIterator_Get_text),
    ("PrependIterator.Equal", PrependIterator_Equal_text),
    ("PrependIterator.Set", PrependIterator_Set_text),
    ("Insert", Insert_text),
    ("InsertIterator.Next", InsertIterator_Next_text),
    ("InsertIterator.Get", InsertIterator_Get_text),
    ("InsertIterator.Equal", InsertIterator_Equal_text),
    ("InsertIterator.Set", InsertIterator_Set_text),
    ("generics.ZeroOf", ZeroOf_text)]

/-- The reverse iterators but the last, the dummy and the inserters of ds/iter, without the generic type parameters, with the structs
of ds/iter/reverse.go:6-8, 37-39, 72-74, dummy.go:7 and inserter.go:10-12, 41-43, 72-75. -/
def prog : Src.Prog where
  fns := [("ConstReverse", ConstReverse_fn),
    ("ConstReverseIterator.Base", ConstReverseIterator_Base_fn),
    ("ConstReverseIterator.Next", ConstReverseIterator_Next_fn),
    ("ConstReverseIterator.Prev", ConstReverseIterator_Prev_fn),
    ("ConstReverseIterator.Get", ConstReverseIterator_Get_fn),
    ("ConstReverseIterator.Equal", ConstReverseIterator_Equal_fn),
    ("Reverse", Reverse_fn),
    ("ReverseIterator.Base", ReverseIterator_Base_fn),
    ("ReverseIterator.Next", ReverseIterator_Next_fn),
    ("ReverseIterator.Prev", ReverseIterator_Prev_fn),
    ("ReverseIterator.Get", ReverseIterator_Get_fn),
    ("ReverseIterator.Set", ReverseIterator_Set_fn),
    ("ReverseIterator.Equal", ReverseIterator_Equal_fn),
    ("ConstReverseRandom", ConstReverseRandom_fn),
    ("ConstReverseRandomIterator.Base", ConstReverseRandomIterator_Base_fn),
    ("ConstReverseRandomIterator.Next", ConstReverseRandomIterator_Next_fn),
    ("ConstReverseRandomIterator.Prev", ConstReverseRandomIterator_Prev_fn),
    ("ConstReverseRandomIterator.Add", ConstReverseRandomIterator_Add_fn),
    ("ConstReverseRandomIterator.Pos", ConstReverseRandomIterator_Pos_fn),
    ("ConstReverseRandomIterator.Get", ConstReverseRandomIterator_Get_fn),
    ("ConstReverseRandomIterator.Equal", ConstReverseRandomIterator_Equal_fn),
    ("Dummy", Dummy_fn),
    ("DummyIterator.Next", DummyIterator_Next_fn),
    ("DummyIterator.Get", DummyIterator_Get_fn),
    ("DummyIterator.Equal", DummyIterator_Equal_fn),
    ("DummyIterator.Prev", DummyIterator_Prev_fn),
    ("DummyIterator.Add", DummyIterator_Add_fn),
    ("DummyIterator.Pos", DummyIterator_Pos_fn),
    ("DummyIterator.Set", DummyIterator_Set_fn),
    ("Append", Append_fn),
    ("AppendIterator.Next", AppendIterator_Next_fn),
    ("AppendIterator.Get", AppendIterator_Get_fn),
    ("AppendIterator.Equal", AppendIterator_Equal_fn),
    ("AppendIterator.Set", AppendIterator_Set_fn),
    ("Prepend", Prepend_fn),
    ("PrependIterator.Next", PrependIterator_Next_fn),
    ("PrependIterator.Get", PrependIterator_Get_fn),
    ("PrependIterator.Equal", PrependIterator_Equal_fn),
    ("PrependIterator.Set", PrependIterator_Set_fn),
    ("Insert", Insert_fn),
    ("InsertIterator.Next", InsertIterator_Next_fn),
    ("InsertIterator.Get", InsertIterator_Get_fn),
    ("InsertIterator.Equal", InsertIterator_Equal_fn),
    ("InsertIterator.Set", InsertIterator_Set_fn),
    ("generics.ZeroOf", ZeroOf_fn)]
  structs := [("ConstReverseIterator", [("i", .name "It" [])]), ("ReverseIterator", [("i", .name "It" [])]),
    ("ConstReverseRandomIterator", [("i", .name "It" [])]), ("DummyIterator", []),
    ("AppendIterator", [("a", .name "Appender" [.name "T" []])]), ("PrependIterator", [("p", .name "Prepender" [.name "T" []])]),
    ("InsertIterator", [("ins", .name "Inserter" [.name "T" [], .name "It" []]), ("p", .name "It" [])])]
  types := []
  consts := []

/-- **C156.** Every function of the program is what its quoted lines parse to. -/
theorem C156_text : texts.map (fun x => (x.1, parseFn x.2)) = prog.fns.map (fun x => (x.1, some x.2)) := by
  simp only [texts, prog, List.map_cons, List.map_nil, ConstReverse_parse, ConstReverseIterator_Base_parse, ConstReverseIterator_Next_parse, ConstReverseIterator_Prev_parse, ConstReverseIterator_Get_parse, ConstReverseIterator_Equal_parse, Reverse_parse, ReverseIterator_Base_parse, ReverseIterator_Next_parse, ReverseIterator_Prev_parse, ReverseIterator_Get_parse, ReverseIterator_Set_parse, ReverseIterator_Equal_parse, ConstReverseRandom_parse, ConstReverseRandomIterator_Base_parse, ConstReverseRandomIterator_Next_parse, ConstReverseRandomIterator_Prev_parse, ConstReverseRandomIterator_Add_parse, ConstReverseRandomIterator_Pos_parse, ConstReverseRandomIterator_Get_parse, ConstReverseRandomIterator_Equal_parse, Dummy_parse, DummyIterator_Next_parse, DummyIterator_Get_parse, DummyIterator_Equal_parse, DummyIterator_Prev_parse, DummyIterator_Add_parse, DummyIterator_Pos_parse, DummyIterator_Set_parse, Append_parse, AppendIterator_Next_parse, AppendIterator_Get_parse, AppendIterator_Equal_parse, AppendIterator_Set_parse, Prepend_parse, PrependIterator_Next_parse, PrependIterator_Get_parse, PrependIterator_Equal_parse, PrependIterator_Set_parse, Insert_parse, InsertIterator_Next_parse, InsertIterator_Get_parse, InsertIterator_Equal_parse, InsertIterator_Set_parse, ZeroOf_parse]

variable {E : Type}

/-- What the program is run with: the operators of elements, their zero value, and the methods of the iterators and containers that it
is given. -/
structure Par (E : Type) where
  cmp : String → E → E → Option Bool
  zeroT : Val E
  ext : String → List (Val E) → Mem E → R (List (Val E) × Mem E)

/-- The zero value of `T`, and of the interfaces; that of an iterator is never used. -/
def zeroOf (z : Val E) : String → Option (Val E)
  | "T" => some z
  | "It" => some .nil
  | "Appender" => some .nil
  | "Prepender" => some .nil
  | "Inserter" => some .nil
  | _ => none

def ctx (p : Par E) : Ctx E where
  prog := prog
  boxed := []
  zeroOf := zeroOf p.zeroT
  pad := p.zeroT
  grow := fun _ n => n
  cmp := p.cmp
  ext := p.ext

section
variable (p : Par E)
@[go_eval] theorem ctx_prog : (ctx p).prog = prog := rfl
@[go_eval] theorem ctx_boxed : (ctx p).boxed = [] := rfl
@[go_eval] theorem ctx_zeroT : (ctx p).zeroOf "T" = some p.zeroT := rfl
@[go_eval] theorem ctx_zeroIt : (ctx p).zeroOf "It" = some .nil := rfl
@[go_eval] theorem ctx_zeroAppender : (ctx p).zeroOf "Appender" = some .nil := rfl
@[go_eval] theorem ctx_zeroPrepender : (ctx p).zeroOf "Prepender" = some .nil := rfl
@[go_eval] theorem ctx_zeroInserter : (ctx p).zeroOf "Inserter" = some .nil := rfl
@[go_eval] theorem ctx_pad : (ctx p).pad = p.zeroT := rfl
@[go_eval] theorem ctx_cmp : (ctx p).cmp = p.cmp := rfl
@[go_eval] theorem ctx_ext : (ctx p).ext = p.ext := rfl
@[go_eval] theorem ctx_boxedParams : (ctx p).boxedParams = [] := rfl
@[go_eval] theorem ctx_sliceTy : (ctx p).sliceTy = none := rfl
@[go_eval] theorem prog_structs : prog.structs = [("ConstReverseIterator", [("i", .name "It" [])]), ("ReverseIterator", [("i", .name "It" [])]),
    ("ConstReverseRandomIterator", [("i", .name "It" [])]), ("DummyIterator", []),
    ("AppendIterator", [("a", .name "Appender" [.name "T" []])]), ("PrependIterator", [("p", .name "Prepender" [.name "T" []])]),
    ("InsertIterator", [("ins", .name "Inserter" [.name "T" [], .name "It" []]), ("p", .name "It" [])])] := rfl
@[go_eval] theorem prog_types : prog.types = [] := rfl
@[go_eval] theorem prog_consts : prog.consts = [] := rfl
@[go_eval] theorem look_ConstReverse : prog.fns.lookup "ConstReverse" = some ConstReverse_fn := rfl
@[go_eval] theorem look_ConstReverseIterator_Base : prog.fns.lookup "ConstReverseIterator.Base" = some ConstReverseIterator_Base_fn := rfl
@[go_eval] theorem look_ConstReverseIterator_Next : prog.fns.lookup "ConstReverseIterator.Next" = some ConstReverseIterator_Next_fn := rfl
@[go_eval] theorem look_ConstReverseIterator_Prev : prog.fns.lookup "ConstReverseIterator.Prev" = some ConstReverseIterator_Prev_fn := rfl
@[go_eval] theorem look_ConstReverseIterator_Get : prog.fns.lookup "ConstReverseIterator.Get" = some ConstReverseIterator_Get_fn := rfl
@[go_eval] theorem look_ConstReverseIterator_Equal : prog.fns.lookup "ConstReverseIterator.Equal" = some ConstReverseIterator_Equal_fn := rfl
@[go_eval] theorem look_Reverse : prog.fns.lookup "Reverse" = some Reverse_fn := rfl
@[go_eval] theorem look_ReverseIterator_Base : prog.fns.lookup "ReverseIterator.Base" = some ReverseIterator_Base_fn := rfl
@[go_eval] theorem look_ReverseIterator_Next : prog.fns.lookup "ReverseIterator.Next" = some ReverseIterator_Next_fn := rfl
@[go_eval] theorem look_ReverseIterator_Prev : prog.fns.lookup "ReverseIterator.Prev" = some ReverseIterator_Prev_fn := rfl
@[go_eval] theorem look_ReverseIterator_Get : prog.fns.lookup "ReverseIterator.Get" = some ReverseIterator_Get_fn := rfl
@[go_eval] theorem look_ReverseIterator_Set : prog.fns.lookup "ReverseIterator.Set" = some ReverseIterator_Set_fn := rfl
@[go_eval] theorem look_ReverseIterator_Equal : prog.fns.lookup "ReverseIterator.Equal" = some ReverseIterator_Equal_fn := rfl
@[go_eval] theorem look_ConstReverseRandom : prog.fns.lookup "ConstReverseRandom" = some ConstReverseRandom_fn := rfl
@[go_eval] theorem look_ConstReverseRandomIterator_Base : prog.fns.lookup "ConstReverseRandomIterator.Base" = some ConstReverseRandomIterator_Base_fn := rfl
@[go_eval] theorem look_ConstReverseRandomIterator_Next : prog.fns.lookup "ConstReverseRandomIterator.Next" = some ConstReverseRandomIterator_Next_fn := rfl
@[go_eval] theorem look_ConstReverseRandomIterator_Prev : prog.fns.lookup "ConstReverseRandomIterator.Prev" = some ConstReverseRandomIterator_Prev_fn := rfl
@[go_eval] theorem look_ConstReverseRandomIterator_Add : prog.fns.lookup "ConstReverseRandomIterator.Add" = some ConstReverseRandomIterator_Add_fn := rfl
@[go_eval] theorem look_ConstReverseRandomIterator_Pos : prog.fns.lookup "ConstReverseRandomIterator.Pos" = some ConstReverseRandomIterator_Pos_fn := rfl
@[go_eval] theorem look_ConstReverseRandomIterator_Get : prog.fns.lookup "ConstReverseRandomIterator.Get" = some ConstReverseRandomIterator_Get_fn := rfl
@[go_eval] theorem look_ConstReverseRandomIterator_Equal : prog.fns.lookup "ConstReverseRandomIterator.Equal" = some ConstReverseRandomIterator_Equal_fn := rfl
@[go_eval] theorem look_Dummy : prog.fns.lookup "Dummy" = some Dummy_fn := rfl
@[go_eval] theorem look_DummyIterator_Next : prog.fns.lookup "DummyIterator.Next" = some DummyIterator_Next_fn := rfl
@[go_eval] theorem look_DummyIterator_Get : prog.fns.lookup "DummyIterator.Get" = some DummyIterator_Get_fn := rfl
@[go_eval] theorem look_DummyIterator_Equal : prog.fns.lookup "DummyIterator.Equal" = some DummyIterator_Equal_fn := rfl
@[go_eval] theorem look_DummyIterator_Prev : prog.fns.lookup "DummyIterator.Prev" = some DummyIterator_Prev_fn := rfl
@[go_eval] theorem look_DummyIterator_Add : prog.fns.lookup "DummyIterator.Add" = some DummyIterator_Add_fn := rfl
@[go_eval] theorem look_DummyIterator_Pos : prog.fns.lookup "DummyIterator.Pos" = some DummyIterator_Pos_fn := rfl
@[go_eval] theorem look_DummyIterator_Set : prog.fns.lookup "DummyIterator.Set" = some DummyIterator_Set_fn := rfl
@[go_eval] theorem look_Append : prog.fns.lookup "Append" = some Append_fn := rfl
@[go_eval] theorem look_AppendIterator_Next : prog.fns.lookup "AppendIterator.Next" = some AppendIterator_Next_fn := rfl
@[go_eval] theorem look_AppendIterator_Get : prog.fns.lookup "AppendIterator.Get" = some AppendIterator_Get_fn := rfl
@[go_eval] theorem look_AppendIterator_Equal : prog.fns.lookup "AppendIterator.Equal" = some AppendIterator_Equal_fn := rfl
@[go_eval] theorem look_AppendIterator_Set : prog.fns.lookup "AppendIterator.Set" = some AppendIterator_Set_fn := rfl
@[go_eval] theorem look_Prepend : prog.fns.lookup "Prepend" = some Prepend_fn := rfl
@[go_eval] theorem look_PrependIterator_Next : prog.fns.lookup "PrependIterator.Next" = some PrependIterator_Next_fn := rfl
@[go_eval] theorem look_PrependIterator_Get : prog.fns.lookup "PrependIterator.Get" = some PrependIterator_Get_fn := rfl
@[go_eval] theorem look_PrependIterator_Equal : prog.fns.lookup "PrependIterator.Equal" = some PrependIterator_Equal_fn := rfl
@[go_eval] theorem look_PrependIterator_Set : prog.fns.lookup "PrependIterator.Set" = some PrependIterator_Set_fn := rfl
@[go_eval] theorem look_Insert : prog.fns.lookup "Insert" = some Insert_fn := rfl
@[go_eval] theorem look_InsertIterator_Next : prog.fns.lookup "InsertIterator.Next" = some InsertIterator_Next_fn := rfl
@[go_eval] theorem look_InsertIterator_Get : prog.fns.lookup "InsertIterator.Get" = some InsertIterator_Get_fn := rfl
@[go_eval] theorem look_InsertIterator_Equal : prog.fns.lookup "InsertIterator.Equal" = some InsertIterator_Equal_fn := rfl
@[go_eval] theorem look_InsertIterator_Set : prog.fns.lookup "InsertIterator.Set" = some InsertIterator_Set_fn := rfl
@[go_eval] theorem look_generics_ZeroOf : prog.fns.lookup "generics.ZeroOf" = some ZeroOf_fn := rfl
@[go_eval] theorem variadic_ConstReverse : ConstReverse_fn.variadic = false := rfl
@[go_eval] theorem variadic_ConstReverseIterator_Base : ConstReverseIterator_Base_fn.variadic = false := rfl
@[go_eval] theorem variadic_ConstReverseIterator_Next : ConstReverseIterator_Next_fn.variadic = false := rfl
@[go_eval] theorem variadic_ConstReverseIterator_Prev : ConstReverseIterator_Prev_fn.variadic = false := rfl
@[go_eval] theorem variadic_ConstReverseIterator_Get : ConstReverseIterator_Get_fn.variadic = false := rfl
@[go_eval] theorem variadic_ConstReverseIterator_Equal : ConstReverseIterator_Equal_fn.variadic = false := rfl
@[go_eval] theorem variadic_Reverse : Reverse_fn.variadic = false := rfl
@[go_eval] theorem variadic_ReverseIterator_Base : ReverseIterator_Base_fn.variadic = false := rfl
@[go_eval] theorem variadic_ReverseIterator_Next : ReverseIterator_Next_fn.variadic = false := rfl
@[go_eval] theorem variadic_ReverseIterator_Prev : ReverseIterator_Prev_fn.variadic = false := rfl
@[go_eval] theorem variadic_ReverseIterator_Get : ReverseIterator_Get_fn.variadic = false := rfl
@[go_eval] theorem variadic_ReverseIterator_Set : ReverseIterator_Set_fn.variadic = false := rfl
@[go_eval] theorem variadic_ReverseIterator_Equal : ReverseIterator_Equal_fn.variadic = false := rfl
@[go_eval] theorem variadic_ConstReverseRandom : ConstReverseRandom_fn.variadic = false := rfl
@[go_eval] theorem variadic_ConstReverseRandomIterator_Base : ConstReverseRandomIterator_Base_fn.variadic = false := rfl
@[go_eval] theorem variadic_ConstReverseRandomIterator_Next : ConstReverseRandomIterator_Next_fn.variadic = false := rfl
@[go_eval] theorem variadic_ConstReverseRandomIterator_Prev : ConstReverseRandomIterator_Prev_fn.variadic = false := rfl
@[go_eval] theorem variadic_ConstReverseRandomIterator_Add : ConstReverseRandomIterator_Add_fn.variadic = false := rfl
@[go_eval] theorem variadic_ConstReverseRandomIterator_Pos : ConstReverseRandomIterator_Pos_fn.variadic = false := rfl
@[go_eval] theorem variadic_ConstReverseRandomIterator_Get : ConstReverseRandomIterator_Get_fn.variadic = false := rfl
@[go_eval] theorem variadic_ConstReverseRandomIterator_Equal : ConstReverseRandomIterator_Equal_fn.variadic = false := rfl
@[go_eval] theorem variadic_Dummy : Dummy_fn.variadic = false := rfl
@[go_eval] theorem variadic_DummyIterator_Next : DummyIterator_Next_fn.variadic = false := rfl
@[go_eval] theorem variadic_DummyIterator_Get : DummyIterator_Get_fn.variadic = false := rfl
@[go_eval] theorem variadic_DummyIterator_Equal : DummyIterator_Equal_fn.variadic = false := rfl
@[go_eval] theorem variadic_DummyIterator_Prev : DummyIterator_Prev_fn.variadic = false := rfl
@[go_eval] theorem variadic_DummyIterator_Add : DummyIterator_Add_fn.variadic = false := rfl
@[go_eval] theorem variadic_DummyIterator_Pos : DummyIterator_Pos_fn.variadic = false := rfl
@[go_eval] theorem variadic_DummyIterator_Set : DummyIterator_Set_fn.variadic = false := rfl
@[go_eval] theorem variadic_Append : Append_fn.variadic = false := rfl
@[go_eval] theorem variadic_AppendIterator_Next : AppendIterator_Next_fn.variadic = false := rfl
@[go_eval] theorem variadic_AppendIterator_Get : AppendIterator_Get_fn.variadic = false := rfl
@[go_eval] theorem variadic_AppendIterator_Equal : AppendIterator_Equal_fn.variadic = false := rfl
@[go_eval] theorem variadic_AppendIterator_Set : AppendIterator_Set_fn.variadic = false := rfl
@[go_eval] theorem variadic_Prepend : Prepend_fn.variadic = false := rfl
@[go_eval] theorem variadic_PrependIterator_Next : PrependIterator_Next_fn.variadic = false := rfl
@[go_eval] theorem variadic_PrependIterator_Get : PrependIterator_Get_fn.variadic = false := rfl
@[go_eval] theorem variadic_PrependIterator_Equal : PrependIterator_Equal_fn.variadic = false := rfl
@[go_eval] theorem variadic_PrependIterator_Set : PrependIterator_Set_fn.variadic = false := rfl
@[go_eval] theorem variadic_Insert : Insert_fn.variadic = false := rfl
@[go_eval] theorem variadic_InsertIterator_Next : InsertIterator_Next_fn.variadic = false := rfl
@[go_eval] theorem variadic_InsertIterator_Get : InsertIterator_Get_fn.variadic = false := rfl
@[go_eval] theorem variadic_InsertIterator_Equal : InsertIterator_Equal_fn.variadic = false := rfl
@[go_eval] theorem variadic_InsertIterator_Set : InsertIterator_Set_fn.variadic = false := rfl
@[go_eval] theorem variadic_ZeroOf : ZeroOf_fn.variadic = false := rfl
@[go_eval] theorem recv_ConstReverseIterator_Base : ConstReverseIterator_Base_fn.recv = some ("c", "ConstReverseIterator", false) := rfl
@[go_eval] theorem recv_ConstReverseIterator_Next : ConstReverseIterator_Next_fn.recv = some ("c", "ConstReverseIterator", false) := rfl
@[go_eval] theorem recv_ConstReverseIterator_Prev : ConstReverseIterator_Prev_fn.recv = some ("c", "ConstReverseIterator", false) := rfl
@[go_eval] theorem recv_ConstReverseIterator_Get : ConstReverseIterator_Get_fn.recv = some ("c", "ConstReverseIterator", false) := rfl
@[go_eval] theorem recv_ConstReverseIterator_Equal : ConstReverseIterator_Equal_fn.recv = some ("c", "ConstReverseIterator", false) := rfl
@[go_eval] theorem recv_ReverseIterator_Base : ReverseIterator_Base_fn.recv = some ("c", "ReverseIterator", false) := rfl
@[go_eval] theorem recv_ReverseIterator_Next : ReverseIterator_Next_fn.recv = some ("c", "ReverseIterator", false) := rfl
@[go_eval] theorem recv_ReverseIterator_Prev : ReverseIterator_Prev_fn.recv = some ("c", "ReverseIterator", false) := rfl
@[go_eval] theorem recv_ReverseIterator_Get : ReverseIterator_Get_fn.recv = some ("c", "ReverseIterator", false) := rfl
@[go_eval] theorem recv_ReverseIterator_Set : ReverseIterator_Set_fn.recv = some ("c", "ReverseIterator", false) := rfl
@[go_eval] theorem recv_ReverseIterator_Equal : ReverseIterator_Equal_fn.recv = some ("c", "ReverseIterator", false) := rfl
@[go_eval] theorem recv_ConstReverseRandomIterator_Base : ConstReverseRandomIterator_Base_fn.recv = some ("c", "ConstReverseRandomIterator", false) := rfl
@[go_eval] theorem recv_ConstReverseRandomIterator_Next : ConstReverseRandomIterator_Next_fn.recv = some ("c", "ConstReverseRandomIterator", false) := rfl
@[go_eval] theorem recv_ConstReverseRandomIterator_Prev : ConstReverseRandomIterator_Prev_fn.recv = some ("c", "ConstReverseRandomIterator", false) := rfl
@[go_eval] theorem recv_ConstReverseRandomIterator_Add : ConstReverseRandomIterator_Add_fn.recv = some ("c", "ConstReverseRandomIterator", false) := rfl
@[go_eval] theorem recv_ConstReverseRandomIterator_Pos : ConstReverseRandomIterator_Pos_fn.recv = some ("c", "ConstReverseRandomIterator", false) := rfl
@[go_eval] theorem recv_ConstReverseRandomIterator_Get : ConstReverseRandomIterator_Get_fn.recv = some ("c", "ConstReverseRandomIterator", false) := rfl
@[go_eval] theorem recv_ConstReverseRandomIterator_Equal : ConstReverseRandomIterator_Equal_fn.recv = some ("c", "ConstReverseRandomIterator", false) := rfl
@[go_eval] theorem recv_DummyIterator_Next : DummyIterator_Next_fn.recv = some ("it", "DummyIterator", false) := rfl
@[go_eval] theorem recv_DummyIterator_Get : DummyIterator_Get_fn.recv = some ("it", "DummyIterator", false) := rfl
@[go_eval] theorem recv_DummyIterator_Equal : DummyIterator_Equal_fn.recv = some ("it", "DummyIterator", false) := rfl
@[go_eval] theorem recv_DummyIterator_Prev : DummyIterator_Prev_fn.recv = some ("it", "DummyIterator", false) := rfl
@[go_eval] theorem recv_DummyIterator_Add : DummyIterator_Add_fn.recv = some ("it", "DummyIterator", false) := rfl
@[go_eval] theorem recv_DummyIterator_Pos : DummyIterator_Pos_fn.recv = some ("it", "DummyIterator", false) := rfl
@[go_eval] theorem recv_DummyIterator_Set : DummyIterator_Set_fn.recv = some ("it", "DummyIterator", false) := rfl
@[go_eval] theorem recv_AppendIterator_Next : AppendIterator_Next_fn.recv = some ("it", "AppendIterator", false) := rfl
@[go_eval] theorem recv_AppendIterator_Get : AppendIterator_Get_fn.recv = some ("it", "AppendIterator", false) := rfl
@[go_eval] theorem recv_AppendIterator_Equal : AppendIterator_Equal_fn.recv = some ("it", "AppendIterator", false) := rfl
@[go_eval] theorem recv_AppendIterator_Set : AppendIterator_Set_fn.recv = some ("it", "AppendIterator", false) := rfl
@[go_eval] theorem recv_PrependIterator_Next : PrependIterator_Next_fn.recv = some ("it", "PrependIterator", false) := rfl
@[go_eval] theorem recv_PrependIterator_Get : PrependIterator_Get_fn.recv = some ("it", "PrependIterator", false) := rfl
@[go_eval] theorem recv_PrependIterator_Equal : PrependIterator_Equal_fn.recv = some ("it", "PrependIterator", false) := rfl
@[go_eval] theorem recv_PrependIterator_Set : PrependIterator_Set_fn.recv = some ("it", "PrependIterator", false) := rfl
@[go_eval] theorem recv_InsertIterator_Next : InsertIterator_Next_fn.recv = some ("it", "InsertIterator", true) := rfl
@[go_eval] theorem recv_InsertIterator_Get : InsertIterator_Get_fn.recv = some ("it", "InsertIterator", true) := rfl
@[go_eval] theorem recv_InsertIterator_Equal : InsertIterator_Equal_fn.recv = some ("it", "InsertIterator", true) := rfl
@[go_eval] theorem recv_InsertIterator_Set : InsertIterator_Set_fn.recv = some ("it", "InsertIterator", true) := rfl
end

end Verif.Src.IterRest
