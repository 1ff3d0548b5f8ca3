import Verif.Src.Memory
import Verif.Src.AlgoText
import Verif.Src.IterText
import Verif.Src.SliceText
import Verif.Iter.Model

/-!
# algo, ds/iter and ds/xslice: the program

The functions quoted in Src/AlgoText.lean, IterText.lean and SliceText.lean as a program of Src/Sem.lean. Functions of ds/iter that
are called from within their package are there under both names.
-/

namespace Verif.Src.Algo

/-- The functions, each as its lines. -/
def texts : List (String × List String) :=
  [("UpperBoundIterators", UpperBoundIterators_text),
    ("LowerBoundIterators", LowerBoundIterators_text),
    ("UpperBound", UpperBound_text),
    ("LowerBound", LowerBound_text),
    ("UpperBoundAny", UpperBoundAny_text),
    ("LowerBoundAny", LowerBoundAny_text),
    ("FillN", FillN_text),
    ("Swap", Swap_text),
    ("Reverse", Reverse_text),
    ("IsSortedUntilIterators", IsSortedUntilIterators_text),
    ("IsSortedIterators", IsSortedIterators_text),
    ("IsSortedUntil", IsSortedUntil_text),
    ("IsSorted", IsSorted_text),
    ("IsSortedUntilAny", IsSortedUntilAny_text),
    ("IsSortedAny", IsSortedAny_text),
    ("NextPermutationIterators", NextPermutationIterators_text),
    ("NextPermutation", NextPermutation_text),
    ("NextPermutationAny", NextPermutationAny_text),
    ("iter.ReverseRandom", ReverseRandom_text),
    ("ReverseRandom", ReverseRandom_text),
    ("ReverseRandomIterator.Base", ReverseRandomIterator_Base_text),
    ("ReverseRandomIterator.Next", ReverseRandomIterator_Next_text),
    ("ReverseRandomIterator.Prev", ReverseRandomIterator_Prev_text),
    ("ReverseRandomIterator.Add", ReverseRandomIterator_Add_text),
    ("ReverseRandomIterator.Pos", ReverseRandomIterator_Pos_text),
    ("ReverseRandomIterator.Get", ReverseRandomIterator_Get_text),
    ("ReverseRandomIterator.Set", ReverseRandomIterator_Set_text),
    ("ReverseRandomIterator.Equal", ReverseRandomIterator_Equal_text),
    ("iter.Distance", Distance_text),
    ("iter.MakeRange", MakeRange_text),
    ("MakeRange", MakeRange_text),
    ("iter.ReverseRandomRange", ReverseRandomRange_text),
    ("iter.SubRange", SubRange_text),
    ("iter.RangeDistance", RangeDistance_text),
    ("xfn.Less", xfn_Less_text),
    ("Iterator.Ref", Iterator_Ref_text),
    ("Iterator.Get", Iterator_Get_text),
    ("Iterator.Set", Iterator_Set_text),
    ("Iterator.Next", Iterator_Next_text),
    ("Iterator.Prev", Iterator_Prev_text),
    ("Iterator.Add", Iterator_Add_text),
    ("Iterator.Inc", Iterator_Inc_text),
    ("Iterator.Dec", Iterator_Dec_text),
    ("Iterator.Advance", Iterator_Advance_text),
    ("Iterator.Pos", Iterator_Pos_text),
    ("Iterator.Equal", Iterator_Equal_text),
    ("New", New_text),
    ("NewLen", NewLen_text),
    ("NewLenCap", NewLenCap_text),
    ("Of", Of_text),
    ("OfSlice", OfSlice_text),
    ("Copy", Copy_text),
    ("Slice.Append", Slice_Append_text),
    ("Slice.AppendMany", Slice_AppendMany_text),
    ("Slice.Delete", Slice_Delete_text),
    ("Slice.DeleteLast", Slice_DeleteLast_text),
    ("Slice.UnorderedDelete", Slice_UnorderedDelete_text),
    ("Slice.InsertAt", Slice_InsertAt_text),
    ("Slice.Insert", Slice_Insert_text),
    ("Slice.Len", Slice_Len_text),
    ("Slice.Cap", Slice_Cap_text),
    ("Slice.Empty", Slice_Empty_text),
    ("Slice.Sub", Slice_Sub_text),
    ("Slice.Slice", Slice_Slice_text),
    ("Slice.At", Slice_At_text),
    ("Slice.Set", Slice_Set_text),
    ("Slice.First", Slice_First_text),
    ("Slice.Last", Slice_Last_text),
    ("Slice.IteratorAt", Slice_IteratorAt_text),
    ("Slice.uncheckedIteratorAt", Slice_uncheckedIteratorAt_text),
    ("Slice.Begin", Slice_Begin_text),
    ("Slice.End", Slice_End_text),
    ("Slice.RBegin", Slice_RBegin_text),
    ("Slice.REnd", Slice_REnd_text),
    ("Slice.Range", Slice_Range_text),
    ("Slice.SubRange", Slice_SubRange_text),
    ("Slice.ReverseRange", Slice_ReverseRange_text),
    ("Slice.ReverseSubRange", Slice_ReverseSubRange_text),
    ("Slice.Reversed", Slice_Reversed_text),
    ("Slice.checkIterator", Slice_checkIterator_text),
    ("UnorderedDelete", UnorderedDelete_text),
    ("Delete", Delete_text),
    ("DeleteLast", DeleteLast_text),
    ("Insert", Insert_text)]

/-- algo, ds/iter/{reverse,funcs,range}.go, xfn.Less and ds/xslice, without the generic type parameters: the functions quoted in
Src/…Text.lean, and the structs of ds/iter/reverse.go:111-113, ds/iter/range.go:3-6 and ds/xslice/iterator.go:13-18 (without its blank
field). -/
def prog : Src.Prog where
  fns := [("UpperBoundIterators", UpperBoundIterators_fn),
    ("LowerBoundIterators", LowerBoundIterators_fn),
    ("UpperBound", UpperBound_fn),
    ("LowerBound", LowerBound_fn),
    ("UpperBoundAny", UpperBoundAny_fn),
    ("LowerBoundAny", LowerBoundAny_fn),
    ("FillN", FillN_fn),
    ("Swap", Swap_fn),
    ("Reverse", Reverse_fn),
    ("IsSortedUntilIterators", IsSortedUntilIterators_fn),
    ("IsSortedIterators", IsSortedIterators_fn),
    ("IsSortedUntil", IsSortedUntil_fn),
    ("IsSorted", IsSorted_fn),
    ("IsSortedUntilAny", IsSortedUntilAny_fn),
    ("IsSortedAny", IsSortedAny_fn),
    ("NextPermutationIterators", NextPermutationIterators_fn),
    ("NextPermutation", NextPermutation_fn),
    ("NextPermutationAny", NextPermutationAny_fn),
    ("iter.ReverseRandom", ReverseRandom_fn),
    ("ReverseRandom", ReverseRandom_fn),
    ("ReverseRandomIterator.Base", ReverseRandomIterator_Base_fn),
    ("ReverseRandomIterator.Next", ReverseRandomIterator_Next_fn),
    ("ReverseRandomIterator.Prev", ReverseRandomIterator_Prev_fn),
    ("ReverseRandomIterator.Add", ReverseRandomIterator_Add_fn),
    ("ReverseRandomIterator.Pos", ReverseRandomIterator_Pos_fn),
    ("ReverseRandomIterator.Get", ReverseRandomIterator_Get_fn),
    ("ReverseRandomIterator.Set", ReverseRandomIterator_Set_fn),
    ("ReverseRandomIterator.Equal", ReverseRandomIterator_Equal_fn),
    ("iter.Distance", Distance_fn),
    ("iter.MakeRange", MakeRange_fn),
    ("MakeRange", MakeRange_fn),
    ("iter.ReverseRandomRange", ReverseRandomRange_fn),
    ("iter.SubRange", SubRange_fn),
    ("iter.RangeDistance", RangeDistance_fn),
    ("xfn.Less", xfn_Less_fn),
    ("Iterator.Ref", Iterator_Ref_fn),
    ("Iterator.Get", Iterator_Get_fn),
    ("Iterator.Set", Iterator_Set_fn),
    ("Iterator.Next", Iterator_Next_fn),
    ("Iterator.Prev", Iterator_Prev_fn),
    ("Iterator.Add", Iterator_Add_fn),
    ("Iterator.Inc", Iterator_Inc_fn),
    ("Iterator.Dec", Iterator_Dec_fn),
    ("Iterator.Advance", Iterator_Advance_fn),
    ("Iterator.Pos", Iterator_Pos_fn),
    ("Iterator.Equal", Iterator_Equal_fn),
    ("New", New_fn),
    ("NewLen", NewLen_fn),
    ("NewLenCap", NewLenCap_fn),
    ("Of", Of_fn),
    ("OfSlice", OfSlice_fn),
    ("Copy", Copy_fn),
    ("Slice.Append", Slice_Append_fn),
    ("Slice.AppendMany", Slice_AppendMany_fn),
    ("Slice.Delete", Slice_Delete_fn),
    ("Slice.DeleteLast", Slice_DeleteLast_fn),
    ("Slice.UnorderedDelete", Slice_UnorderedDelete_fn),
    ("Slice.InsertAt", Slice_InsertAt_fn),
    ("Slice.Insert", Slice_Insert_fn),
    ("Slice.Len", Slice_Len_fn),
    ("Slice.Cap", Slice_Cap_fn),
    ("Slice.Empty", Slice_Empty_fn),
    ("Slice.Sub", Slice_Sub_fn),
    ("Slice.Slice", Slice_Slice_fn),
    ("Slice.At", Slice_At_fn),
    ("Slice.Set", Slice_Set_fn),
    ("Slice.First", Slice_First_fn),
    ("Slice.Last", Slice_Last_fn),
    ("Slice.IteratorAt", Slice_IteratorAt_fn),
    ("Slice.uncheckedIteratorAt", Slice_uncheckedIteratorAt_fn),
    ("Slice.Begin", Slice_Begin_fn),
    ("Slice.End", Slice_End_fn),
    ("Slice.RBegin", Slice_RBegin_fn),
    ("Slice.REnd", Slice_REnd_fn),
    ("Slice.Range", Slice_Range_fn),
    ("Slice.SubRange", Slice_SubRange_fn),
    ("Slice.ReverseRange", Slice_ReverseRange_fn),
    ("Slice.ReverseSubRange", Slice_ReverseSubRange_fn),
    ("Slice.Reversed", Slice_Reversed_fn),
    ("Slice.checkIterator", Slice_checkIterator_fn),
    ("UnorderedDelete", UnorderedDelete_fn),
    ("Delete", Delete_fn),
    ("DeleteLast", DeleteLast_fn),
    ("Insert", Insert_fn)]
  structs := [("ReverseRandomIterator", [("i", .name "It" [])]),
    ("Range", [("Begin", .name "It" []), ("End", .name "It" [])]),
    ("Iterator", [("pos", .name "int" []), ("s", .name "Slice" [.name "T" []])])]
  types := []
  consts := []

theorem text : texts.map (fun x => (x.1, parseFn x.2)) = prog.fns.map (fun x => (x.1, some x.2)) := by
  simp only [texts, prog, List.map_cons, List.map_nil, UpperBoundIterators_parse, LowerBoundIterators_parse, UpperBound_parse, LowerBound_parse, UpperBoundAny_parse, LowerBoundAny_parse, FillN_parse, Swap_parse, Reverse_parse, IsSortedUntilIterators_parse, IsSortedIterators_parse, IsSortedUntil_parse, IsSorted_parse, IsSortedUntilAny_parse, IsSortedAny_parse, NextPermutationIterators_parse, NextPermutation_parse, NextPermutationAny_parse, ReverseRandom_parse, ReverseRandomIterator_Base_parse, ReverseRandomIterator_Next_parse, ReverseRandomIterator_Prev_parse, ReverseRandomIterator_Add_parse, ReverseRandomIterator_Pos_parse, ReverseRandomIterator_Get_parse, ReverseRandomIterator_Set_parse, ReverseRandomIterator_Equal_parse, Distance_parse, MakeRange_parse, ReverseRandomRange_parse, SubRange_parse, RangeDistance_parse, xfn_Less_parse, Iterator_Ref_parse, Iterator_Get_parse, Iterator_Set_parse, Iterator_Next_parse, Iterator_Prev_parse, Iterator_Add_parse, Iterator_Inc_parse, Iterator_Dec_parse, Iterator_Advance_parse, Iterator_Pos_parse, Iterator_Equal_parse, New_parse, NewLen_parse, NewLenCap_parse, Of_parse, OfSlice_parse, Copy_parse, Slice_Append_parse, Slice_AppendMany_parse, Slice_Delete_parse, Slice_DeleteLast_parse, Slice_UnorderedDelete_parse, Slice_InsertAt_parse, Slice_Insert_parse, Slice_Len_parse, Slice_Cap_parse, Slice_Empty_parse, Slice_Sub_parse, Slice_Slice_parse, Slice_At_parse, Slice_Set_parse, Slice_First_parse, Slice_Last_parse, Slice_IteratorAt_parse, Slice_uncheckedIteratorAt_parse, Slice_Begin_parse, Slice_End_parse, Slice_RBegin_parse, Slice_REnd_parse, Slice_Range_parse, Slice_SubRange_parse, Slice_ReverseRange_parse, Slice_ReverseSubRange_parse, Slice_Reversed_parse, Slice_checkIterator_parse, UnorderedDelete_parse, Delete_parse, DeleteLast_parse, Insert_parse]

variable {E : Type}

/-- What the program is run with: the operators of elements, their zero value, the capacity that `append` gives, and the functions
that are not in it. -/
structure Par (E : Type) where
  cmp : String → E → E → Option Bool
  zeroT : Val E
  grow : Nat → Nat → Nat
  ext : String → List (Val E) → Mem E → R (List (Val E) × Mem E)

/-- The zero values of the type parameters and of `Slice`; that of an iterator is never used. -/
def zeroOf (z : Val E) : String → Option (Val E)
  | "T" => some z
  | "It" => some .nil
  | "Slice" => some .nil
  | _ => none

def ctx (p : Par E) : Ctx E where
  prog := prog
  boxed := []
  zeroOf := zeroOf p.zeroT
  pad := p.zeroT
  grow := p.grow
  cmp := p.cmp
  ext := p.ext
  boxedParams := ["iter"]
  sliceTy := some "Slice"

section
variable (p : Par E)
@[go_eval] theorem ctx_prog : (ctx p).prog = prog := rfl
@[go_eval] theorem ctx_boxed : (ctx p).boxed = [] := rfl
@[go_eval] theorem ctx_zeroT : (ctx p).zeroOf "T" = some p.zeroT := rfl
@[go_eval] theorem ctx_zeroIt : (ctx p).zeroOf "It" = some .nil := rfl
@[go_eval] theorem ctx_zeroSlice : (ctx p).zeroOf "Slice" = some .nil := rfl
@[go_eval] theorem ctx_pad : (ctx p).pad = p.zeroT := rfl
@[go_eval] theorem ctx_grow : (ctx p).grow = p.grow := rfl
@[go_eval] theorem ctx_cmp : (ctx p).cmp = p.cmp := rfl
@[go_eval] theorem ctx_ext : (ctx p).ext = p.ext := rfl
@[go_eval] theorem ctx_boxedParams : (ctx p).boxedParams = ["iter"] := rfl
@[go_eval] theorem ctx_sliceTy : (ctx p).sliceTy = some "Slice" := rfl
@[go_eval] theorem prog_structs : prog.structs = [("ReverseRandomIterator", [("i", .name "It" [])]),
    ("Range", [("Begin", .name "It" []), ("End", .name "It" [])]),
    ("Iterator", [("pos", .name "int" []), ("s", .name "Slice" [.name "T" []])])] := rfl
@[go_eval] theorem prog_types : prog.types = [] := rfl
@[go_eval] theorem prog_consts : prog.consts = [] := rfl
@[go_eval] theorem look_ReferenceEqual : prog.fns.lookup "ReferenceEqual" = none := rfl
@[go_eval] theorem look_comp : prog.fns.lookup "comp" = none := rfl
@[go_eval] theorem look_UpperBoundIterators : prog.fns.lookup "UpperBoundIterators" = some UpperBoundIterators_fn := rfl
@[go_eval] theorem look_LowerBoundIterators : prog.fns.lookup "LowerBoundIterators" = some LowerBoundIterators_fn := rfl
@[go_eval] theorem look_UpperBound : prog.fns.lookup "UpperBound" = some UpperBound_fn := rfl
@[go_eval] theorem look_LowerBound : prog.fns.lookup "LowerBound" = some LowerBound_fn := rfl
@[go_eval] theorem look_UpperBoundAny : prog.fns.lookup "UpperBoundAny" = some UpperBoundAny_fn := rfl
@[go_eval] theorem look_LowerBoundAny : prog.fns.lookup "LowerBoundAny" = some LowerBoundAny_fn := rfl
@[go_eval] theorem look_FillN : prog.fns.lookup "FillN" = some FillN_fn := rfl
@[go_eval] theorem look_Swap : prog.fns.lookup "Swap" = some Swap_fn := rfl
@[go_eval] theorem look_Reverse : prog.fns.lookup "Reverse" = some Reverse_fn := rfl
@[go_eval] theorem look_IsSortedUntilIterators : prog.fns.lookup "IsSortedUntilIterators" = some IsSortedUntilIterators_fn := rfl
@[go_eval] theorem look_IsSortedIterators : prog.fns.lookup "IsSortedIterators" = some IsSortedIterators_fn := rfl
@[go_eval] theorem look_IsSortedUntil : prog.fns.lookup "IsSortedUntil" = some IsSortedUntil_fn := rfl
@[go_eval] theorem look_IsSorted : prog.fns.lookup "IsSorted" = some IsSorted_fn := rfl
@[go_eval] theorem look_IsSortedUntilAny : prog.fns.lookup "IsSortedUntilAny" = some IsSortedUntilAny_fn := rfl
@[go_eval] theorem look_IsSortedAny : prog.fns.lookup "IsSortedAny" = some IsSortedAny_fn := rfl
@[go_eval] theorem look_NextPermutationIterators : prog.fns.lookup "NextPermutationIterators" = some NextPermutationIterators_fn := rfl
@[go_eval] theorem look_NextPermutation : prog.fns.lookup "NextPermutation" = some NextPermutation_fn := rfl
@[go_eval] theorem look_NextPermutationAny : prog.fns.lookup "NextPermutationAny" = some NextPermutationAny_fn := rfl
@[go_eval] theorem look_iter_ReverseRandom : prog.fns.lookup "iter.ReverseRandom" = some ReverseRandom_fn := rfl
@[go_eval] theorem look_ReverseRandom_0 : prog.fns.lookup "ReverseRandom" = some ReverseRandom_fn := rfl
@[go_eval] theorem look_ReverseRandomIterator_Base : prog.fns.lookup "ReverseRandomIterator.Base" = some ReverseRandomIterator_Base_fn := rfl
@[go_eval] theorem look_ReverseRandomIterator_Next : prog.fns.lookup "ReverseRandomIterator.Next" = some ReverseRandomIterator_Next_fn := rfl
@[go_eval] theorem look_ReverseRandomIterator_Prev : prog.fns.lookup "ReverseRandomIterator.Prev" = some ReverseRandomIterator_Prev_fn := rfl
@[go_eval] theorem look_ReverseRandomIterator_Add : prog.fns.lookup "ReverseRandomIterator.Add" = some ReverseRandomIterator_Add_fn := rfl
@[go_eval] theorem look_ReverseRandomIterator_Pos : prog.fns.lookup "ReverseRandomIterator.Pos" = some ReverseRandomIterator_Pos_fn := rfl
@[go_eval] theorem look_ReverseRandomIterator_Get : prog.fns.lookup "ReverseRandomIterator.Get" = some ReverseRandomIterator_Get_fn := rfl
@[go_eval] theorem look_ReverseRandomIterator_Set : prog.fns.lookup "ReverseRandomIterator.Set" = some ReverseRandomIterator_Set_fn := rfl
@[go_eval] theorem look_ReverseRandomIterator_Equal : prog.fns.lookup "ReverseRandomIterator.Equal" = some ReverseRandomIterator_Equal_fn := rfl
@[go_eval] theorem look_iter_Distance : prog.fns.lookup "iter.Distance" = some Distance_fn := rfl
@[go_eval] theorem look_iter_MakeRange : prog.fns.lookup "iter.MakeRange" = some MakeRange_fn := rfl
@[go_eval] theorem look_MakeRange_0 : prog.fns.lookup "MakeRange" = some MakeRange_fn := rfl
@[go_eval] theorem look_iter_ReverseRandomRange : prog.fns.lookup "iter.ReverseRandomRange" = some ReverseRandomRange_fn := rfl
@[go_eval] theorem look_iter_SubRange : prog.fns.lookup "iter.SubRange" = some SubRange_fn := rfl
@[go_eval] theorem look_iter_RangeDistance : prog.fns.lookup "iter.RangeDistance" = some RangeDistance_fn := rfl
@[go_eval] theorem look_xfn_Less : prog.fns.lookup "xfn.Less" = some xfn_Less_fn := rfl
@[go_eval] theorem look_Iterator_Ref : prog.fns.lookup "Iterator.Ref" = some Iterator_Ref_fn := rfl
@[go_eval] theorem look_Iterator_Get : prog.fns.lookup "Iterator.Get" = some Iterator_Get_fn := rfl
@[go_eval] theorem look_Iterator_Set : prog.fns.lookup "Iterator.Set" = some Iterator_Set_fn := rfl
@[go_eval] theorem look_Iterator_Next : prog.fns.lookup "Iterator.Next" = some Iterator_Next_fn := rfl
@[go_eval] theorem look_Iterator_Prev : prog.fns.lookup "Iterator.Prev" = some Iterator_Prev_fn := rfl
@[go_eval] theorem look_Iterator_Add : prog.fns.lookup "Iterator.Add" = some Iterator_Add_fn := rfl
@[go_eval] theorem look_Iterator_Inc : prog.fns.lookup "Iterator.Inc" = some Iterator_Inc_fn := rfl
@[go_eval] theorem look_Iterator_Dec : prog.fns.lookup "Iterator.Dec" = some Iterator_Dec_fn := rfl
@[go_eval] theorem look_Iterator_Advance : prog.fns.lookup "Iterator.Advance" = some Iterator_Advance_fn := rfl
@[go_eval] theorem look_Iterator_Pos : prog.fns.lookup "Iterator.Pos" = some Iterator_Pos_fn := rfl
@[go_eval] theorem look_Iterator_Equal : prog.fns.lookup "Iterator.Equal" = some Iterator_Equal_fn := rfl
@[go_eval] theorem look_New : prog.fns.lookup "New" = some New_fn := rfl
@[go_eval] theorem look_NewLen : prog.fns.lookup "NewLen" = some NewLen_fn := rfl
@[go_eval] theorem look_NewLenCap : prog.fns.lookup "NewLenCap" = some NewLenCap_fn := rfl
@[go_eval] theorem look_Of : prog.fns.lookup "Of" = some Of_fn := rfl
@[go_eval] theorem look_OfSlice : prog.fns.lookup "OfSlice" = some OfSlice_fn := rfl
@[go_eval] theorem look_Copy : prog.fns.lookup "Copy" = some Copy_fn := rfl
@[go_eval] theorem look_Slice_Append : prog.fns.lookup "Slice.Append" = some Slice_Append_fn := rfl
@[go_eval] theorem look_Slice_AppendMany : prog.fns.lookup "Slice.AppendMany" = some Slice_AppendMany_fn := rfl
@[go_eval] theorem look_Slice_Delete : prog.fns.lookup "Slice.Delete" = some Slice_Delete_fn := rfl
@[go_eval] theorem look_Slice_DeleteLast : prog.fns.lookup "Slice.DeleteLast" = some Slice_DeleteLast_fn := rfl
@[go_eval] theorem look_Slice_UnorderedDelete : prog.fns.lookup "Slice.UnorderedDelete" = some Slice_UnorderedDelete_fn := rfl
@[go_eval] theorem look_Slice_InsertAt : prog.fns.lookup "Slice.InsertAt" = some Slice_InsertAt_fn := rfl
@[go_eval] theorem look_Slice_Insert : prog.fns.lookup "Slice.Insert" = some Slice_Insert_fn := rfl
@[go_eval] theorem look_Slice_Len : prog.fns.lookup "Slice.Len" = some Slice_Len_fn := rfl
@[go_eval] theorem look_Slice_Cap : prog.fns.lookup "Slice.Cap" = some Slice_Cap_fn := rfl
@[go_eval] theorem look_Slice_Empty : prog.fns.lookup "Slice.Empty" = some Slice_Empty_fn := rfl
@[go_eval] theorem look_Slice_Sub : prog.fns.lookup "Slice.Sub" = some Slice_Sub_fn := rfl
@[go_eval] theorem look_Slice_Slice : prog.fns.lookup "Slice.Slice" = some Slice_Slice_fn := rfl
@[go_eval] theorem look_Slice_At : prog.fns.lookup "Slice.At" = some Slice_At_fn := rfl
@[go_eval] theorem look_Slice_Set : prog.fns.lookup "Slice.Set" = some Slice_Set_fn := rfl
@[go_eval] theorem look_Slice_First : prog.fns.lookup "Slice.First" = some Slice_First_fn := rfl
@[go_eval] theorem look_Slice_Last : prog.fns.lookup "Slice.Last" = some Slice_Last_fn := rfl
@[go_eval] theorem look_Slice_IteratorAt : prog.fns.lookup "Slice.IteratorAt" = some Slice_IteratorAt_fn := rfl
@[go_eval] theorem look_Slice_uncheckedIteratorAt : prog.fns.lookup "Slice.uncheckedIteratorAt" = some Slice_uncheckedIteratorAt_fn := rfl
@[go_eval] theorem look_Slice_Begin : prog.fns.lookup "Slice.Begin" = some Slice_Begin_fn := rfl
@[go_eval] theorem look_Slice_End : prog.fns.lookup "Slice.End" = some Slice_End_fn := rfl
@[go_eval] theorem look_Slice_RBegin : prog.fns.lookup "Slice.RBegin" = some Slice_RBegin_fn := rfl
@[go_eval] theorem look_Slice_REnd : prog.fns.lookup "Slice.REnd" = some Slice_REnd_fn := rfl
@[go_eval] theorem look_Slice_Range : prog.fns.lookup "Slice.Range" = some Slice_Range_fn := rfl
@[go_eval] theorem look_Slice_SubRange : prog.fns.lookup "Slice.SubRange" = some Slice_SubRange_fn := rfl
@[go_eval] theorem look_Slice_ReverseRange : prog.fns.lookup "Slice.ReverseRange" = some Slice_ReverseRange_fn := rfl
@[go_eval] theorem look_Slice_ReverseSubRange : prog.fns.lookup "Slice.ReverseSubRange" = some Slice_ReverseSubRange_fn := rfl
@[go_eval] theorem look_Slice_Reversed : prog.fns.lookup "Slice.Reversed" = some Slice_Reversed_fn := rfl
@[go_eval] theorem look_Slice_checkIterator : prog.fns.lookup "Slice.checkIterator" = some Slice_checkIterator_fn := rfl
@[go_eval] theorem look_UnorderedDelete : prog.fns.lookup "UnorderedDelete" = some UnorderedDelete_fn := rfl
@[go_eval] theorem look_Delete : prog.fns.lookup "Delete" = some Delete_fn := rfl
@[go_eval] theorem look_DeleteLast : prog.fns.lookup "DeleteLast" = some DeleteLast_fn := rfl
@[go_eval] theorem look_Insert : prog.fns.lookup "Insert" = some Insert_fn := rfl
@[go_eval] theorem variadic_UpperBoundIterators : UpperBoundIterators_fn.variadic = false := rfl
@[go_eval] theorem variadic_LowerBoundIterators : LowerBoundIterators_fn.variadic = false := rfl
@[go_eval] theorem variadic_UpperBound : UpperBound_fn.variadic = false := rfl
@[go_eval] theorem variadic_LowerBound : LowerBound_fn.variadic = false := rfl
@[go_eval] theorem variadic_UpperBoundAny : UpperBoundAny_fn.variadic = false := rfl
@[go_eval] theorem variadic_LowerBoundAny : LowerBoundAny_fn.variadic = false := rfl
@[go_eval] theorem variadic_FillN : FillN_fn.variadic = false := rfl
@[go_eval] theorem variadic_Swap : Swap_fn.variadic = false := rfl
@[go_eval] theorem variadic_Reverse : Reverse_fn.variadic = false := rfl
@[go_eval] theorem variadic_IsSortedUntilIterators : IsSortedUntilIterators_fn.variadic = false := rfl
@[go_eval] theorem variadic_IsSortedIterators : IsSortedIterators_fn.variadic = false := rfl
@[go_eval] theorem variadic_IsSortedUntil : IsSortedUntil_fn.variadic = false := rfl
@[go_eval] theorem variadic_IsSorted : IsSorted_fn.variadic = false := rfl
@[go_eval] theorem variadic_IsSortedUntilAny : IsSortedUntilAny_fn.variadic = false := rfl
@[go_eval] theorem variadic_IsSortedAny : IsSortedAny_fn.variadic = false := rfl
@[go_eval] theorem variadic_NextPermutationIterators : NextPermutationIterators_fn.variadic = false := rfl
@[go_eval] theorem variadic_NextPermutation : NextPermutation_fn.variadic = false := rfl
@[go_eval] theorem variadic_NextPermutationAny : NextPermutationAny_fn.variadic = false := rfl
@[go_eval] theorem variadic_ReverseRandom : ReverseRandom_fn.variadic = false := rfl
@[go_eval] theorem variadic_ReverseRandomIterator_Base : ReverseRandomIterator_Base_fn.variadic = false := rfl
@[go_eval] theorem variadic_ReverseRandomIterator_Next : ReverseRandomIterator_Next_fn.variadic = false := rfl
@[go_eval] theorem variadic_ReverseRandomIterator_Prev : ReverseRandomIterator_Prev_fn.variadic = false := rfl
@[go_eval] theorem variadic_ReverseRandomIterator_Add : ReverseRandomIterator_Add_fn.variadic = false := rfl
@[go_eval] theorem variadic_ReverseRandomIterator_Pos : ReverseRandomIterator_Pos_fn.variadic = false := rfl
@[go_eval] theorem variadic_ReverseRandomIterator_Get : ReverseRandomIterator_Get_fn.variadic = false := rfl
@[go_eval] theorem variadic_ReverseRandomIterator_Set : ReverseRandomIterator_Set_fn.variadic = false := rfl
@[go_eval] theorem variadic_ReverseRandomIterator_Equal : ReverseRandomIterator_Equal_fn.variadic = false := rfl
@[go_eval] theorem variadic_Distance : Distance_fn.variadic = false := rfl
@[go_eval] theorem variadic_MakeRange : MakeRange_fn.variadic = false := rfl
@[go_eval] theorem variadic_ReverseRandomRange : ReverseRandomRange_fn.variadic = false := rfl
@[go_eval] theorem variadic_SubRange : SubRange_fn.variadic = false := rfl
@[go_eval] theorem variadic_RangeDistance : RangeDistance_fn.variadic = false := rfl
@[go_eval] theorem variadic_xfn_Less : xfn_Less_fn.variadic = false := rfl
@[go_eval] theorem variadic_Iterator_Ref : Iterator_Ref_fn.variadic = false := rfl
@[go_eval] theorem variadic_Iterator_Get : Iterator_Get_fn.variadic = false := rfl
@[go_eval] theorem variadic_Iterator_Set : Iterator_Set_fn.variadic = false := rfl
@[go_eval] theorem variadic_Iterator_Next : Iterator_Next_fn.variadic = false := rfl
@[go_eval] theorem variadic_Iterator_Prev : Iterator_Prev_fn.variadic = false := rfl
@[go_eval] theorem variadic_Iterator_Add : Iterator_Add_fn.variadic = false := rfl
@[go_eval] theorem variadic_Iterator_Inc : Iterator_Inc_fn.variadic = false := rfl
@[go_eval] theorem variadic_Iterator_Dec : Iterator_Dec_fn.variadic = false := rfl
@[go_eval] theorem variadic_Iterator_Advance : Iterator_Advance_fn.variadic = false := rfl
@[go_eval] theorem variadic_Iterator_Pos : Iterator_Pos_fn.variadic = false := rfl
@[go_eval] theorem variadic_Iterator_Equal : Iterator_Equal_fn.variadic = false := rfl
@[go_eval] theorem variadic_New : New_fn.variadic = false := rfl
@[go_eval] theorem variadic_NewLen : NewLen_fn.variadic = false := rfl
@[go_eval] theorem variadic_NewLenCap : NewLenCap_fn.variadic = false := rfl
@[go_eval] theorem variadic_Of : Of_fn.variadic = true := rfl
@[go_eval] theorem variadic_OfSlice : OfSlice_fn.variadic = false := rfl
@[go_eval] theorem variadic_Copy : Copy_fn.variadic = false := rfl
@[go_eval] theorem variadic_Slice_Append : Slice_Append_fn.variadic = false := rfl
@[go_eval] theorem variadic_Slice_AppendMany : Slice_AppendMany_fn.variadic = true := rfl
@[go_eval] theorem variadic_Slice_Delete : Slice_Delete_fn.variadic = false := rfl
@[go_eval] theorem variadic_Slice_DeleteLast : Slice_DeleteLast_fn.variadic = false := rfl
@[go_eval] theorem variadic_Slice_UnorderedDelete : Slice_UnorderedDelete_fn.variadic = false := rfl
@[go_eval] theorem variadic_Slice_InsertAt : Slice_InsertAt_fn.variadic = false := rfl
@[go_eval] theorem variadic_Slice_Insert : Slice_Insert_fn.variadic = false := rfl
@[go_eval] theorem variadic_Slice_Len : Slice_Len_fn.variadic = false := rfl
@[go_eval] theorem variadic_Slice_Cap : Slice_Cap_fn.variadic = false := rfl
@[go_eval] theorem variadic_Slice_Empty : Slice_Empty_fn.variadic = false := rfl
@[go_eval] theorem variadic_Slice_Sub : Slice_Sub_fn.variadic = false := rfl
@[go_eval] theorem variadic_Slice_Slice : Slice_Slice_fn.variadic = false := rfl
@[go_eval] theorem variadic_Slice_At : Slice_At_fn.variadic = false := rfl
@[go_eval] theorem variadic_Slice_Set : Slice_Set_fn.variadic = false := rfl
@[go_eval] theorem variadic_Slice_First : Slice_First_fn.variadic = false := rfl
@[go_eval] theorem variadic_Slice_Last : Slice_Last_fn.variadic = false := rfl
@[go_eval] theorem variadic_Slice_IteratorAt : Slice_IteratorAt_fn.variadic = false := rfl
@[go_eval] theorem variadic_Slice_uncheckedIteratorAt : Slice_uncheckedIteratorAt_fn.variadic = false := rfl
@[go_eval] theorem variadic_Slice_Begin : Slice_Begin_fn.variadic = false := rfl
@[go_eval] theorem variadic_Slice_End : Slice_End_fn.variadic = false := rfl
@[go_eval] theorem variadic_Slice_RBegin : Slice_RBegin_fn.variadic = false := rfl
@[go_eval] theorem variadic_Slice_REnd : Slice_REnd_fn.variadic = false := rfl
@[go_eval] theorem variadic_Slice_Range : Slice_Range_fn.variadic = false := rfl
@[go_eval] theorem variadic_Slice_SubRange : Slice_SubRange_fn.variadic = false := rfl
@[go_eval] theorem variadic_Slice_ReverseRange : Slice_ReverseRange_fn.variadic = false := rfl
@[go_eval] theorem variadic_Slice_ReverseSubRange : Slice_ReverseSubRange_fn.variadic = false := rfl
@[go_eval] theorem variadic_Slice_Reversed : Slice_Reversed_fn.variadic = false := rfl
@[go_eval] theorem variadic_Slice_checkIterator : Slice_checkIterator_fn.variadic = false := rfl
@[go_eval] theorem variadic_UnorderedDelete : UnorderedDelete_fn.variadic = false := rfl
@[go_eval] theorem variadic_Delete : Delete_fn.variadic = false := rfl
@[go_eval] theorem variadic_DeleteLast : DeleteLast_fn.variadic = false := rfl
@[go_eval] theorem variadic_Insert : Insert_fn.variadic = false := rfl
@[go_eval] theorem recv_ReverseRandomIterator_Base : ReverseRandomIterator_Base_fn.recv = some ("c", "ReverseRandomIterator", false) := rfl
@[go_eval] theorem recv_ReverseRandomIterator_Next : ReverseRandomIterator_Next_fn.recv = some ("c", "ReverseRandomIterator", false) := rfl
@[go_eval] theorem recv_ReverseRandomIterator_Prev : ReverseRandomIterator_Prev_fn.recv = some ("c", "ReverseRandomIterator", false) := rfl
@[go_eval] theorem recv_ReverseRandomIterator_Add : ReverseRandomIterator_Add_fn.recv = some ("c", "ReverseRandomIterator", false) := rfl
@[go_eval] theorem recv_ReverseRandomIterator_Pos : ReverseRandomIterator_Pos_fn.recv = some ("c", "ReverseRandomIterator", false) := rfl
@[go_eval] theorem recv_ReverseRandomIterator_Get : ReverseRandomIterator_Get_fn.recv = some ("c", "ReverseRandomIterator", false) := rfl
@[go_eval] theorem recv_ReverseRandomIterator_Set : ReverseRandomIterator_Set_fn.recv = some ("c", "ReverseRandomIterator", false) := rfl
@[go_eval] theorem recv_ReverseRandomIterator_Equal : ReverseRandomIterator_Equal_fn.recv = some ("c", "ReverseRandomIterator", false) := rfl
@[go_eval] theorem recv_Iterator_Ref : Iterator_Ref_fn.recv = some ("iter", "Iterator", false) := rfl
@[go_eval] theorem recv_Iterator_Get : Iterator_Get_fn.recv = some ("iter", "Iterator", false) := rfl
@[go_eval] theorem recv_Iterator_Set : Iterator_Set_fn.recv = some ("iter", "Iterator", false) := rfl
@[go_eval] theorem recv_Iterator_Next : Iterator_Next_fn.recv = some ("iter", "Iterator", false) := rfl
@[go_eval] theorem recv_Iterator_Prev : Iterator_Prev_fn.recv = some ("iter", "Iterator", false) := rfl
@[go_eval] theorem recv_Iterator_Add : Iterator_Add_fn.recv = some ("iter", "Iterator", false) := rfl
@[go_eval] theorem recv_Iterator_Inc : Iterator_Inc_fn.recv = some ("iter", "Iterator", true) := rfl
@[go_eval] theorem recv_Iterator_Dec : Iterator_Dec_fn.recv = some ("iter", "Iterator", true) := rfl
@[go_eval] theorem recv_Iterator_Advance : Iterator_Advance_fn.recv = some ("iter", "Iterator", true) := rfl
@[go_eval] theorem recv_Iterator_Pos : Iterator_Pos_fn.recv = some ("iter", "Iterator", false) := rfl
@[go_eval] theorem recv_Iterator_Equal : Iterator_Equal_fn.recv = some ("iter", "Iterator", false) := rfl
@[go_eval] theorem recv_Slice_Append : Slice_Append_fn.recv = some ("s", "Slice", true) := rfl
@[go_eval] theorem recv_Slice_AppendMany : Slice_AppendMany_fn.recv = some ("s", "Slice", true) := rfl
@[go_eval] theorem recv_Slice_Delete : Slice_Delete_fn.recv = some ("s", "Slice", true) := rfl
@[go_eval] theorem recv_Slice_DeleteLast : Slice_DeleteLast_fn.recv = some ("s", "Slice", true) := rfl
@[go_eval] theorem recv_Slice_UnorderedDelete : Slice_UnorderedDelete_fn.recv = some ("s", "Slice", true) := rfl
@[go_eval] theorem recv_Slice_InsertAt : Slice_InsertAt_fn.recv = some ("s", "Slice", true) := rfl
@[go_eval] theorem recv_Slice_Insert : Slice_Insert_fn.recv = some ("s", "Slice", true) := rfl
@[go_eval] theorem recv_Slice_Len : Slice_Len_fn.recv = some ("s", "Slice", false) := rfl
@[go_eval] theorem recv_Slice_Cap : Slice_Cap_fn.recv = some ("s", "Slice", false) := rfl
@[go_eval] theorem recv_Slice_Empty : Slice_Empty_fn.recv = some ("s", "Slice", false) := rfl
@[go_eval] theorem recv_Slice_Sub : Slice_Sub_fn.recv = some ("s", "Slice", false) := rfl
@[go_eval] theorem recv_Slice_Slice : Slice_Slice_fn.recv = some ("s", "Slice", false) := rfl
@[go_eval] theorem recv_Slice_At : Slice_At_fn.recv = some ("s", "Slice", false) := rfl
@[go_eval] theorem recv_Slice_Set : Slice_Set_fn.recv = some ("s", "Slice", false) := rfl
@[go_eval] theorem recv_Slice_First : Slice_First_fn.recv = some ("s", "Slice", false) := rfl
@[go_eval] theorem recv_Slice_Last : Slice_Last_fn.recv = some ("s", "Slice", false) := rfl
@[go_eval] theorem recv_Slice_IteratorAt : Slice_IteratorAt_fn.recv = some ("s", "Slice", false) := rfl
@[go_eval] theorem recv_Slice_uncheckedIteratorAt : Slice_uncheckedIteratorAt_fn.recv = some ("s", "Slice", false) := rfl
@[go_eval] theorem recv_Slice_Begin : Slice_Begin_fn.recv = some ("s", "Slice", false) := rfl
@[go_eval] theorem recv_Slice_End : Slice_End_fn.recv = some ("s", "Slice", false) := rfl
@[go_eval] theorem recv_Slice_RBegin : Slice_RBegin_fn.recv = some ("s", "Slice", false) := rfl
@[go_eval] theorem recv_Slice_REnd : Slice_REnd_fn.recv = some ("s", "Slice", false) := rfl
@[go_eval] theorem recv_Slice_Range : Slice_Range_fn.recv = some ("s", "Slice", false) := rfl
@[go_eval] theorem recv_Slice_SubRange : Slice_SubRange_fn.recv = some ("s", "Slice", false) := rfl
@[go_eval] theorem recv_Slice_ReverseRange : Slice_ReverseRange_fn.recv = some ("s", "Slice", false) := rfl
@[go_eval] theorem recv_Slice_ReverseSubRange : Slice_ReverseSubRange_fn.recv = some ("s", "Slice", false) := rfl
@[go_eval] theorem recv_Slice_Reversed : Slice_Reversed_fn.recv = some ("s", "Slice", false) := rfl
@[go_eval] theorem recv_Slice_checkIterator : Slice_checkIterator_fn.recv = some ("s", "Slice", true) := rfl
end

end Verif.Src.Algo
