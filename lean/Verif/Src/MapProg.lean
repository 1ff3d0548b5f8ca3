import Verif.Src.Memory
import Verif.Src.MapText

/-!
# ds/xmap: the program

The functions quoted in Src/MapText.lean as a program of Src/Sem.lean. Keys and values are the elements: `K ⊕ V`.
-/

namespace Verif.Src.XMap

/-- The functions, each as its lines. -/
def texts : List (String × List String) :=
  [("New", New_text),
    ("ArrayMap.lazeInit", ArrayMap_lazeInit_text),
    ("ArrayMap.Has", ArrayMap_Has_text),
    ("ArrayMap.Get", ArrayMap_Get_text),
    ("ArrayMap.TryGet", ArrayMap_TryGet_text),
    ("ArrayMap.Set", ArrayMap_Set_text),
    ("ArrayMap.Delete", ArrayMap_Delete_text),
    ("ArrayMap.Len", ArrayMap_Len_text),
    ("ArrayMap.Empty", ArrayMap_Empty_text),
    ("ArrayMap.At", ArrayMap_At_text),
    ("ArrayMap.ValueAt", ArrayMap_ValueAt_text),
    ("ArrayMap.KeyAt", ArrayMap_KeyAt_text),
    ("ArrayMap.Clear", ArrayMap_Clear_text),
    ("NewCustom", NewCustom_text),
    ("Custom.Get", Custom_Get_text),
    ("Custom.Set", Custom_Set_text),
    ("Custom.Delete", Custom_Delete_text),
    ("NewSet", NewSet_text),
    ("Set.Add", Set_Add_text),
    ("Set.TryAdd", Set_TryAdd_text),
    ("Set.Delete", Set_Delete_text),
    ("Set.TryDelete", Set_TryDelete_text),
    ("Set.Has", Set_Has_text),
    ("Set.Len", Set_Len_text),
    ("Set.Clear", Set_Clear_text),
    ("Set.Raw", Set_Raw_text),
    ("Set.Values", Set_Values_text),
    ("NewEntry", NewEntry_text),
    ("NewMap", NewMap_text),
    ("Map.Entries", Map_Entries_text),
    ("Map.Keys", Map_Keys_text),
    ("Map.Values", Map_Values_text),
    ("Map.Delete", Map_Delete_text),
    ("Map.Map", Map_Map_text),
    ("Map.Clear", Map_Clear_text),
    ("Entries", Entries_text),
    ("Keys", Keys_text),
    ("Values", Values_text),
    ("Delete", Delete_text),
    ("Clear", Clear_text),
    ("generics.ZeroOf", ZeroOf_text),
    ("xslice.UnorderedDelete", UnorderedDelete_text)]

/-- ds/xmap, without the generic type parameters: the functions quoted in Src/MapText.lean, and the structs of
ds/xmap/arraymap.go:10-14, ds/xmap/map.go:7-10 and ds/xmap/custom.go:8-13. -/
def prog : Src.Prog where
  fns := [("New", New_fn),
    ("ArrayMap.lazeInit", ArrayMap_lazeInit_fn),
    ("ArrayMap.Has", ArrayMap_Has_fn),
    ("ArrayMap.Get", ArrayMap_Get_fn),
    ("ArrayMap.TryGet", ArrayMap_TryGet_fn),
    ("ArrayMap.Set", ArrayMap_Set_fn),
    ("ArrayMap.Delete", ArrayMap_Delete_fn),
    ("ArrayMap.Len", ArrayMap_Len_fn),
    ("ArrayMap.Empty", ArrayMap_Empty_fn),
    ("ArrayMap.At", ArrayMap_At_fn),
    ("ArrayMap.ValueAt", ArrayMap_ValueAt_fn),
    ("ArrayMap.KeyAt", ArrayMap_KeyAt_fn),
    ("ArrayMap.Clear", ArrayMap_Clear_fn),
    ("NewCustom", NewCustom_fn),
    ("Custom.Get", Custom_Get_fn),
    ("Custom.Set", Custom_Set_fn),
    ("Custom.Delete", Custom_Delete_fn),
    ("NewSet", NewSet_fn),
    ("Set.Add", Set_Add_fn),
    ("Set.TryAdd", Set_TryAdd_fn),
    ("Set.Delete", Set_Delete_fn),
    ("Set.TryDelete", Set_TryDelete_fn),
    ("Set.Has", Set_Has_fn),
    ("Set.Len", Set_Len_fn),
    ("Set.Clear", Set_Clear_fn),
    ("Set.Raw", Set_Raw_fn),
    ("Set.Values", Set_Values_fn),
    ("NewEntry", NewEntry_fn),
    ("NewMap", NewMap_fn),
    ("Map.Entries", Map_Entries_fn),
    ("Map.Keys", Map_Keys_fn),
    ("Map.Values", Map_Values_fn),
    ("Map.Delete", Map_Delete_fn),
    ("Map.Map", Map_Map_fn),
    ("Map.Clear", Map_Clear_fn),
    ("Entries", Entries_fn),
    ("Keys", Keys_fn),
    ("Values", Values_fn),
    ("Delete", Delete_fn),
    ("Clear", Clear_fn),
    ("generics.ZeroOf", ZeroOf_fn),
    ("xslice.UnorderedDelete", UnorderedDelete_fn)]
  structs := [("struct{}", []),
    ("ArrayMap", [("_", .name "xtd.NoCopy" []), ("pos", .map (.name "K" []) (.name "int" [])), ("kv", .slice (.name "Entry" [.name "K" [], .name "V" []]))]),
    ("Entry", [("Key", .name "K" []), ("Value", .name "V" [])]),
    ("Custom", [("main", .map (.name "uint64" []) (.name "Entry" [.name "K" [], .name "V" []])),
      ("ovf", .map (.name "uint64" []) (.slice (.name "Entry" [.name "K" [], .name "V" []]))), ("hash", .func), ("equal", .func)])]
  types := []
  consts := []

/-- **C152.** Every function of the program is what its quoted lines parse to. -/
theorem C152_text : texts.map (fun x => (x.1, parseFn x.2)) = prog.fns.map (fun x => (x.1, some x.2)) := by
  simp only [texts, prog, List.map_cons, List.map_nil, New_parse, ArrayMap_lazeInit_parse, ArrayMap_Has_parse, ArrayMap_Get_parse, ArrayMap_TryGet_parse, ArrayMap_Set_parse, ArrayMap_Delete_parse, ArrayMap_Len_parse, ArrayMap_Empty_parse, ArrayMap_At_parse, ArrayMap_ValueAt_parse, ArrayMap_KeyAt_parse, ArrayMap_Clear_parse, NewCustom_parse, Custom_Get_parse, Custom_Set_parse, Custom_Delete_parse, NewSet_parse, Set_Add_parse, Set_TryAdd_parse, Set_Delete_parse, Set_TryDelete_parse, Set_Has_parse, Set_Len_parse, Set_Clear_parse, Set_Raw_parse, Set_Values_parse, NewEntry_parse, NewMap_parse, Map_Entries_parse, Map_Keys_parse, Map_Values_parse, Map_Delete_parse, Map_Map_parse, Map_Clear_parse, Entries_parse, Keys_parse, Values_parse, Delete_parse, Clear_parse, ZeroOf_parse, UnorderedDelete_parse]

variable {K V : Type}

/-- What the program is run with: the zero values, the capacity that `append` gives, the order in which `range` visits,
`fmt.Sprint`, and the functions that a `Custom` is made with. -/
structure Par (K V : Type) where
  zeroK : K
  zeroV : V
  grow : Nat → Nat → Nat
  order : Mem (K ⊕ V) → List (Val (K ⊕ V) × Val (K ⊕ V)) → List (Val (K ⊕ V) × Val (K ⊕ V))
  sprint : List (Val (K ⊕ V)) → String
  hash : K → UInt64
  equal : K → K → Bool

/-- Operators of elements. -/
def cmp [BEq K] : String → K ⊕ V → K ⊕ V → Option Bool
  | "==", .inl a, .inl b => some (a == b)
  | _, _, _ => none

/-- The zero values of the type parameters (the `T` is that of `generics.ZeroOf`, here `V`) and of `xtd.NoCopy`. -/
def zeroOf (p : Par K V) : String → Option (Val (K ⊕ V))
  | "K" => some (.elem (.inl p.zeroK))
  | "V" => some (.elem (.inr p.zeroV))
  | "T" => some (.elem (.inr p.zeroV))
  | "xtd.NoCopy" => some (.struct "xtd.NoCopy" [])
  | _ => none

/-- The functions that are not in the program. -/
def ext (p : Par K V) : String → List (Val (K ⊕ V)) → Mem (K ⊕ V) → R (List (Val (K ⊕ V)) × Mem (K ⊕ V))
  | "fmt.Sprint", vs, m => pure ([.str (p.sprint vs)], m)
  | "hasher", [.elem (.inl k)], m => pure ([.num .u64 (p.hash k).toNat], m)
  | "comparator", [.elem (.inl a), .elem (.inl b)], m => pure ([.bool (p.equal a b)], m)
  | _, _, _ => stuck

def ctx [BEq K] (p : Par K V) : Ctx (K ⊕ V) where
  prog := prog
  boxed := []
  zeroOf := zeroOf p
  pad := .nil
  grow := p.grow
  cmp := cmp
  ext := ext p
  order := p.order

section
variable [BEq K] (p : Par K V) (m : Mem (K ⊕ V))
@[go_eval] theorem ctx_prog : (ctx p).prog = prog := rfl
@[go_eval] theorem ctx_boxed : (ctx p).boxed = [] := rfl
@[go_eval] theorem ctx_zeroK : (ctx p).zeroOf "K" = some (.elem (.inl p.zeroK)) := rfl
@[go_eval] theorem ctx_zeroV : (ctx p).zeroOf "V" = some (.elem (.inr p.zeroV)) := rfl
@[go_eval] theorem ctx_zeroT : (ctx p).zeroOf "T" = some (.elem (.inr p.zeroV)) := rfl
@[go_eval] theorem ctx_zeroNoCopy : (ctx p).zeroOf "xtd.NoCopy" = some (.struct "xtd.NoCopy" []) := rfl
@[go_eval] theorem ctx_cmp : (ctx p).cmp = cmp := rfl
@[go_eval] theorem ctx_grow : (ctx p).grow = p.grow := rfl
@[go_eval] theorem ctx_order : (ctx p).order = p.order := rfl
@[go_eval] theorem ctx_boxedParams : (ctx p).boxedParams = [] := rfl
@[go_eval] theorem ctx_sliceTy : (ctx p).sliceTy = none := rfl
@[go_eval] theorem ext_sprint (vs : List (Val (K ⊕ V))) : (ctx p).ext "fmt.Sprint" vs m = pure ([.str (p.sprint vs)], m) := rfl
@[go_eval] theorem ext_hasher (k : K) : (ctx p).ext "hasher" [.elem (.inl k)] m = pure ([.num .u64 (p.hash k).toNat], m) := rfl
@[go_eval] theorem ext_comparator (a b : K) :
    (ctx p).ext "comparator" [.elem (.inl a), .elem (.inl b)] m = pure ([.bool (p.equal a b)], m) := rfl
@[go_eval] theorem prog_structs : prog.structs = [("struct{}", []),
    ("ArrayMap", [("_", .name "xtd.NoCopy" []), ("pos", .map (.name "K" []) (.name "int" [])), ("kv", .slice (.name "Entry" [.name "K" [], .name "V" []]))]),
    ("Entry", [("Key", .name "K" []), ("Value", .name "V" [])]),
    ("Custom", [("main", .map (.name "uint64" []) (.name "Entry" [.name "K" [], .name "V" []])),
      ("ovf", .map (.name "uint64" []) (.slice (.name "Entry" [.name "K" [], .name "V" []]))), ("hash", .func), ("equal", .func)])] := rfl
@[go_eval] theorem prog_types : prog.types = [] := rfl
@[go_eval] theorem prog_consts : prog.consts = [] := rfl
@[go_eval] theorem look_sprint : prog.fns.lookup "fmt.Sprint" = none := rfl
@[go_eval] theorem look_hasher : prog.fns.lookup "hasher" = none := rfl
@[go_eval] theorem look_comparator : prog.fns.lookup "comparator" = none := rfl
@[go_eval] theorem look_New : prog.fns.lookup "New" = some New_fn := rfl
@[go_eval] theorem look_ArrayMap_lazeInit : prog.fns.lookup "ArrayMap.lazeInit" = some ArrayMap_lazeInit_fn := rfl
@[go_eval] theorem look_ArrayMap_Has : prog.fns.lookup "ArrayMap.Has" = some ArrayMap_Has_fn := rfl
@[go_eval] theorem look_ArrayMap_Get : prog.fns.lookup "ArrayMap.Get" = some ArrayMap_Get_fn := rfl
@[go_eval] theorem look_ArrayMap_TryGet : prog.fns.lookup "ArrayMap.TryGet" = some ArrayMap_TryGet_fn := rfl
@[go_eval] theorem look_ArrayMap_Set : prog.fns.lookup "ArrayMap.Set" = some ArrayMap_Set_fn := rfl
@[go_eval] theorem look_ArrayMap_Delete : prog.fns.lookup "ArrayMap.Delete" = some ArrayMap_Delete_fn := rfl
@[go_eval] theorem look_ArrayMap_Len : prog.fns.lookup "ArrayMap.Len" = some ArrayMap_Len_fn := rfl
@[go_eval] theorem look_ArrayMap_Empty : prog.fns.lookup "ArrayMap.Empty" = some ArrayMap_Empty_fn := rfl
@[go_eval] theorem look_ArrayMap_At : prog.fns.lookup "ArrayMap.At" = some ArrayMap_At_fn := rfl
@[go_eval] theorem look_ArrayMap_ValueAt : prog.fns.lookup "ArrayMap.ValueAt" = some ArrayMap_ValueAt_fn := rfl
@[go_eval] theorem look_ArrayMap_KeyAt : prog.fns.lookup "ArrayMap.KeyAt" = some ArrayMap_KeyAt_fn := rfl
@[go_eval] theorem look_ArrayMap_Clear : prog.fns.lookup "ArrayMap.Clear" = some ArrayMap_Clear_fn := rfl
@[go_eval] theorem look_NewCustom : prog.fns.lookup "NewCustom" = some NewCustom_fn := rfl
@[go_eval] theorem look_Custom_Get : prog.fns.lookup "Custom.Get" = some Custom_Get_fn := rfl
@[go_eval] theorem look_Custom_Set : prog.fns.lookup "Custom.Set" = some Custom_Set_fn := rfl
@[go_eval] theorem look_Custom_Delete : prog.fns.lookup "Custom.Delete" = some Custom_Delete_fn := rfl
@[go_eval] theorem look_NewSet : prog.fns.lookup "NewSet" = some NewSet_fn := rfl
@[go_eval] theorem look_Set_Add : prog.fns.lookup "Set.Add" = some Set_Add_fn := rfl
@[go_eval] theorem look_Set_TryAdd : prog.fns.lookup "Set.TryAdd" = some Set_TryAdd_fn := rfl
@[go_eval] theorem look_Set_Delete : prog.fns.lookup "Set.Delete" = some Set_Delete_fn := rfl
@[go_eval] theorem look_Set_TryDelete : prog.fns.lookup "Set.TryDelete" = some Set_TryDelete_fn := rfl
@[go_eval] theorem look_Set_Has : prog.fns.lookup "Set.Has" = some Set_Has_fn := rfl
@[go_eval] theorem look_Set_Len : prog.fns.lookup "Set.Len" = some Set_Len_fn := rfl
@[go_eval] theorem look_Set_Clear : prog.fns.lookup "Set.Clear" = some Set_Clear_fn := rfl
@[go_eval] theorem look_Set_Raw : prog.fns.lookup "Set.Raw" = some Set_Raw_fn := rfl
@[go_eval] theorem look_Set_Values : prog.fns.lookup "Set.Values" = some Set_Values_fn := rfl
@[go_eval] theorem look_NewEntry : prog.fns.lookup "NewEntry" = some NewEntry_fn := rfl
@[go_eval] theorem look_NewMap : prog.fns.lookup "NewMap" = some NewMap_fn := rfl
@[go_eval] theorem look_Map_Entries : prog.fns.lookup "Map.Entries" = some Map_Entries_fn := rfl
@[go_eval] theorem look_Map_Keys : prog.fns.lookup "Map.Keys" = some Map_Keys_fn := rfl
@[go_eval] theorem look_Map_Values : prog.fns.lookup "Map.Values" = some Map_Values_fn := rfl
@[go_eval] theorem look_Map_Delete : prog.fns.lookup "Map.Delete" = some Map_Delete_fn := rfl
@[go_eval] theorem look_Map_Map : prog.fns.lookup "Map.Map" = some Map_Map_fn := rfl
@[go_eval] theorem look_Map_Clear : prog.fns.lookup "Map.Clear" = some Map_Clear_fn := rfl
@[go_eval] theorem look_Entries : prog.fns.lookup "Entries" = some Entries_fn := rfl
@[go_eval] theorem look_Keys : prog.fns.lookup "Keys" = some Keys_fn := rfl
@[go_eval] theorem look_Values : prog.fns.lookup "Values" = some Values_fn := rfl
@[go_eval] theorem look_Delete : prog.fns.lookup "Delete" = some Delete_fn := rfl
@[go_eval] theorem look_Clear : prog.fns.lookup "Clear" = some Clear_fn := rfl
@[go_eval] theorem look_generics_ZeroOf : prog.fns.lookup "generics.ZeroOf" = some ZeroOf_fn := rfl
@[go_eval] theorem look_xslice_UnorderedDelete : prog.fns.lookup "xslice.UnorderedDelete" = some UnorderedDelete_fn := rfl
@[go_eval] theorem variadic_New : New_fn.variadic = false := rfl
@[go_eval] theorem variadic_ArrayMap_lazeInit : ArrayMap_lazeInit_fn.variadic = false := rfl
@[go_eval] theorem variadic_ArrayMap_Has : ArrayMap_Has_fn.variadic = false := rfl
@[go_eval] theorem variadic_ArrayMap_Get : ArrayMap_Get_fn.variadic = false := rfl
@[go_eval] theorem variadic_ArrayMap_TryGet : ArrayMap_TryGet_fn.variadic = false := rfl
@[go_eval] theorem variadic_ArrayMap_Set : ArrayMap_Set_fn.variadic = false := rfl
@[go_eval] theorem variadic_ArrayMap_Delete : ArrayMap_Delete_fn.variadic = false := rfl
@[go_eval] theorem variadic_ArrayMap_Len : ArrayMap_Len_fn.variadic = false := rfl
@[go_eval] theorem variadic_ArrayMap_Empty : ArrayMap_Empty_fn.variadic = false := rfl
@[go_eval] theorem variadic_ArrayMap_At : ArrayMap_At_fn.variadic = false := rfl
@[go_eval] theorem variadic_ArrayMap_ValueAt : ArrayMap_ValueAt_fn.variadic = false := rfl
@[go_eval] theorem variadic_ArrayMap_KeyAt : ArrayMap_KeyAt_fn.variadic = false := rfl
@[go_eval] theorem variadic_ArrayMap_Clear : ArrayMap_Clear_fn.variadic = false := rfl
@[go_eval] theorem variadic_NewCustom : NewCustom_fn.variadic = false := rfl
@[go_eval] theorem variadic_Custom_Get : Custom_Get_fn.variadic = false := rfl
@[go_eval] theorem variadic_Custom_Set : Custom_Set_fn.variadic = false := rfl
@[go_eval] theorem variadic_Custom_Delete : Custom_Delete_fn.variadic = false := rfl
@[go_eval] theorem variadic_NewSet : NewSet_fn.variadic = false := rfl
@[go_eval] theorem variadic_Set_Add : Set_Add_fn.variadic = false := rfl
@[go_eval] theorem variadic_Set_TryAdd : Set_TryAdd_fn.variadic = false := rfl
@[go_eval] theorem variadic_Set_Delete : Set_Delete_fn.variadic = false := rfl
@[go_eval] theorem variadic_Set_TryDelete : Set_TryDelete_fn.variadic = false := rfl
@[go_eval] theorem variadic_Set_Has : Set_Has_fn.variadic = false := rfl
@[go_eval] theorem variadic_Set_Len : Set_Len_fn.variadic = false := rfl
@[go_eval] theorem variadic_Set_Clear : Set_Clear_fn.variadic = false := rfl
@[go_eval] theorem variadic_Set_Raw : Set_Raw_fn.variadic = false := rfl
@[go_eval] theorem variadic_Set_Values : Set_Values_fn.variadic = false := rfl
@[go_eval] theorem variadic_NewEntry : NewEntry_fn.variadic = false := rfl
@[go_eval] theorem variadic_NewMap : NewMap_fn.variadic = false := rfl
@[go_eval] theorem variadic_Map_Entries : Map_Entries_fn.variadic = false := rfl
@[go_eval] theorem variadic_Map_Keys : Map_Keys_fn.variadic = false := rfl
@[go_eval] theorem variadic_Map_Values : Map_Values_fn.variadic = false := rfl
@[go_eval] theorem variadic_Map_Delete : Map_Delete_fn.variadic = false := rfl
@[go_eval] theorem variadic_Map_Map : Map_Map_fn.variadic = false := rfl
@[go_eval] theorem variadic_Map_Clear : Map_Clear_fn.variadic = false := rfl
@[go_eval] theorem variadic_Entries : Entries_fn.variadic = false := rfl
@[go_eval] theorem variadic_Keys : Keys_fn.variadic = false := rfl
@[go_eval] theorem variadic_Values : Values_fn.variadic = false := rfl
@[go_eval] theorem variadic_Delete : Delete_fn.variadic = false := rfl
@[go_eval] theorem variadic_Clear : Clear_fn.variadic = false := rfl
@[go_eval] theorem variadic_ZeroOf : ZeroOf_fn.variadic = false := rfl
@[go_eval] theorem variadic_UnorderedDelete : UnorderedDelete_fn.variadic = false := rfl
@[go_eval] theorem recv_ArrayMap_lazeInit : ArrayMap_lazeInit_fn.recv = some ("p", "ArrayMap", true) := rfl
@[go_eval] theorem recv_ArrayMap_Has : ArrayMap_Has_fn.recv = some ("p", "ArrayMap", true) := rfl
@[go_eval] theorem recv_ArrayMap_Get : ArrayMap_Get_fn.recv = some ("p", "ArrayMap", true) := rfl
@[go_eval] theorem recv_ArrayMap_TryGet : ArrayMap_TryGet_fn.recv = some ("p", "ArrayMap", true) := rfl
@[go_eval] theorem recv_ArrayMap_Set : ArrayMap_Set_fn.recv = some ("p", "ArrayMap", true) := rfl
@[go_eval] theorem recv_ArrayMap_Delete : ArrayMap_Delete_fn.recv = some ("p", "ArrayMap", true) := rfl
@[go_eval] theorem recv_ArrayMap_Len : ArrayMap_Len_fn.recv = some ("p", "ArrayMap", true) := rfl
@[go_eval] theorem recv_ArrayMap_Empty : ArrayMap_Empty_fn.recv = some ("p", "ArrayMap", true) := rfl
@[go_eval] theorem recv_ArrayMap_At : ArrayMap_At_fn.recv = some ("p", "ArrayMap", true) := rfl
@[go_eval] theorem recv_ArrayMap_ValueAt : ArrayMap_ValueAt_fn.recv = some ("p", "ArrayMap", true) := rfl
@[go_eval] theorem recv_ArrayMap_KeyAt : ArrayMap_KeyAt_fn.recv = some ("p", "ArrayMap", true) := rfl
@[go_eval] theorem recv_ArrayMap_Clear : ArrayMap_Clear_fn.recv = some ("p", "ArrayMap", true) := rfl
@[go_eval] theorem recv_Custom_Get : Custom_Get_fn.recv = some ("m", "Custom", false) := rfl
@[go_eval] theorem recv_Custom_Set : Custom_Set_fn.recv = some ("m", "Custom", false) := rfl
@[go_eval] theorem recv_Custom_Delete : Custom_Delete_fn.recv = some ("m", "Custom", false) := rfl
@[go_eval] theorem recv_Set_Add : Set_Add_fn.recv = some ("s", "Set", false) := rfl
@[go_eval] theorem recv_Set_TryAdd : Set_TryAdd_fn.recv = some ("s", "Set", false) := rfl
@[go_eval] theorem recv_Set_Delete : Set_Delete_fn.recv = some ("s", "Set", false) := rfl
@[go_eval] theorem recv_Set_TryDelete : Set_TryDelete_fn.recv = some ("s", "Set", false) := rfl
@[go_eval] theorem recv_Set_Has : Set_Has_fn.recv = some ("s", "Set", false) := rfl
@[go_eval] theorem recv_Set_Len : Set_Len_fn.recv = some ("s", "Set", false) := rfl
@[go_eval] theorem recv_Set_Clear : Set_Clear_fn.recv = some ("s", "Set", false) := rfl
@[go_eval] theorem recv_Set_Raw : Set_Raw_fn.recv = some ("s", "Set", false) := rfl
@[go_eval] theorem recv_Set_Values : Set_Values_fn.recv = some ("s", "Set", false) := rfl
@[go_eval] theorem recv_Map_Entries : Map_Entries_fn.recv = some ("m", "Map", false) := rfl
@[go_eval] theorem recv_Map_Keys : Map_Keys_fn.recv = some ("m", "Map", false) := rfl
@[go_eval] theorem recv_Map_Values : Map_Values_fn.recv = some ("m", "Map", false) := rfl
@[go_eval] theorem recv_Map_Delete : Map_Delete_fn.recv = some ("m", "Map", false) := rfl
@[go_eval] theorem recv_Map_Map : Map_Map_fn.recv = some ("m", "Map", false) := rfl
@[go_eval] theorem recv_Map_Clear : Map_Clear_fn.recv = some ("m", "Map", false) := rfl
end

end Verif.Src.XMap
