import Verif.Src.MapBase
import Verif.Src.ShardText

/-!
# ds/xmap/sharded.go: the program

The functions quoted in Src/ShardText.lean as a program of Src/Sem.lean. Keys and values are the elements: `K ⊕ V`.
-/

namespace Verif.Src.Shard

/-! ## The lock

`Shard` (ds/xmap/sharded.go:20-23) embeds a `sync.RWMutex`. For one goroutine it is whether there is a writer, and how many readers there
are; a call that would wait for ever panics, and so does one that gives back what is not held. These are not quotations. -/

def Shard_Lock_text : List String := [
  "func (s *Shard) Lock() {",
  "	if s.writer || s.readers != 0 {",
  r#"		panic("deadlock")"#,
  "	}",
  "	s.writer = true",
  "}"]

def Shard_Lock_fn : Fn := parsed% Shard_Lock_text

theorem Shard_Lock_parse : parseFn Shard_Lock_text = some Shard_Lock_fn := by kernel_rfl

def Shard_Unlock_text : List String := [
  "func (s *Shard) Unlock() {",
  "	if !s.writer {",
  r#"		panic("sync: Unlock of unlocked RWMutex")"#,
  "	}",
  "	s.writer = false",
  "}"]

def Shard_Unlock_fn : Fn := parsed% Shard_Unlock_text

theorem Shard_Unlock_parse : parseFn Shard_Unlock_text = some Shard_Unlock_fn := by kernel_rfl

def Shard_RLock_text : List String := [
  "func (s *Shard) RLock() {",
  "	if s.writer {",
  r#"		panic("deadlock")"#,
  "	}",
  "	s.readers++",
  "}"]

def Shard_RLock_fn : Fn := parsed% Shard_RLock_text

theorem Shard_RLock_parse : parseFn Shard_RLock_text = some Shard_RLock_fn := by kernel_rfl

def Shard_RUnlock_text : List String := [
  "func (s *Shard) RUnlock() {",
  "	if s.readers == 0 {",
  r#"		panic("sync: RUnlock of unlocked RWMutex")"#,
  "	}",
  "	s.readers--",
  "}"]

def Shard_RUnlock_fn : Fn := parsed% Shard_RUnlock_text

theorem Shard_RUnlock_parse : parseFn Shard_RUnlock_text = some Shard_RUnlock_fn := by kernel_rfl

/-! ## The program -/

/-- The functions, each as its lines. -/
def texts : List (String × List String) :=
  [("Sharded.GetShard", Sharded_GetShard_text),
    ("Sharded.Set", Sharded_Set_text),
    ("Sharded.TrySet", Sharded_TrySet_text),
    ("Sharded.Get", Sharded_Get_text),
    ("Sharded.TryGet", Sharded_TryGet_text),
    ("Sharded.Len", Sharded_Len_text),
    ("Sharded.Empty", Sharded_Empty_text),
    ("Sharded.Has", Sharded_Has_text),
    ("Sharded.Delete", Sharded_Delete_text),
    ("Shard.Lock", Shard_Lock_text),
    ("Shard.Unlock", Shard_Unlock_text),
    ("Shard.RLock", Shard_RLock_text),
    ("Shard.RUnlock", Shard_RUnlock_text)]

/-- ds/xmap/sharded.go, without the generic type parameters: the functions quoted in Src/ShardText.lean, the struct of
ds/xmap/sharded.go:14-18, and the lock. -/
def prog : Src.Prog where
  fns := [("Sharded.GetShard", Sharded_GetShard_fn),
    ("Sharded.Set", Sharded_Set_fn),
    ("Sharded.TrySet", Sharded_TrySet_fn),
    ("Sharded.Get", Sharded_Get_fn),
    ("Sharded.TryGet", Sharded_TryGet_fn),
    ("Sharded.Len", Sharded_Len_fn),
    ("Sharded.Empty", Sharded_Empty_fn),
    ("Sharded.Has", Sharded_Has_fn),
    ("Sharded.Delete", Sharded_Delete_fn),
    ("Shard.Lock", Shard_Lock_fn),
    ("Shard.Unlock", Shard_Unlock_fn),
    ("Shard.RLock", Shard_RLock_fn),
    ("Shard.RUnlock", Shard_RUnlock_fn)]
  structs := [("Sharded", [("shards", .slice (.name "Shard" [])), ("hasher", .func), ("seed", .name "uint64" [])])]
  types := []
  consts := []

/-- **C155.** Every function of the program is what its quoted lines parse to. -/
theorem C155_text : texts.map (fun x => (x.1, parseFn x.2)) = prog.fns.map (fun x => (x.1, some x.2)) := by
  simp only [texts, prog, List.map_cons, List.map_nil, Sharded_GetShard_parse, Sharded_Set_parse, Sharded_TrySet_parse, Sharded_Get_parse, Sharded_TryGet_parse, Sharded_Len_parse, Sharded_Empty_parse, Sharded_Has_parse, Sharded_Delete_parse, Shard_Lock_parse, Shard_Unlock_parse, Shard_RLock_parse, Shard_RUnlock_parse]

variable {K V : Type}

/-- What the program is run with: as in Src/MapProg.lean, and the hash with a seed. -/
structure Par (K V : Type) where
  toMap : XMap.Par K V
  hash : K → UInt64 → UInt64

/-- The functions that are not in the program. -/
def ext (p : Par K V) : String → List (Val (K ⊕ V)) → Mem (K ⊕ V) → R (List (Val (K ⊕ V)) × Mem (K ⊕ V))
  | "fmt.Sprint", vs, m => pure ([.str (p.toMap.sprint vs)], m)
  | "hasher", [.elem (.inl k), .num .u64 s], m => pure ([.num .u64 (p.hash k (UInt64.ofNat s.toNat)).toNat], m)
  | _, _, _ => stuck

def ctx [BEq K] (p : Par K V) : Ctx (K ⊕ V) where
  prog := prog
  boxed := []
  zeroOf := XMap.zeroOf p.toMap
  pad := .nil
  grow := p.toMap.grow
  cmp := XMap.cmp
  ext := ext p
  order := p.toMap.order

section
variable [BEq K] (p : Par K V) (m : Mem (K ⊕ V))
@[go_eval] theorem ctx_prog : (ctx p).prog = prog := rfl
@[go_eval] theorem ctx_boxed : (ctx p).boxed = [] := rfl
@[go_eval] theorem ctx_zeroK : (ctx p).zeroOf "K" = some (.elem (.inl p.toMap.zeroK)) := rfl
@[go_eval] theorem ctx_zeroV : (ctx p).zeroOf "V" = some (.elem (.inr p.toMap.zeroV)) := rfl
@[go_eval] theorem ctx_cmp : (ctx p).cmp = XMap.cmp := rfl
@[go_eval] theorem ctx_grow : (ctx p).grow = p.toMap.grow := rfl
@[go_eval] theorem ctx_order : (ctx p).order = p.toMap.order := rfl
@[go_eval] theorem ctx_boxedParams : (ctx p).boxedParams = [] := rfl
@[go_eval] theorem ctx_sliceTy : (ctx p).sliceTy = none := rfl
@[go_eval] theorem ext_sprint (vs : List (Val (K ⊕ V))) : (ctx p).ext "fmt.Sprint" vs m = pure ([.str (p.toMap.sprint vs)], m) := rfl
@[go_eval] theorem ext_hasher (k : K) (s : UInt64) : (ctx p).ext "hasher" [.elem (.inl k), .num .u64 s.toNat] m = pure ([.num .u64 (p.hash k s).toNat], m) := by
  simp [ctx, ext]
@[go_eval] theorem prog_structs : prog.structs = [("Sharded", [("shards", .slice (.name "Shard" [])), ("hasher", .func), ("seed", .name "uint64" [])])] := rfl
@[go_eval] theorem prog_types : prog.types = [] := rfl
@[go_eval] theorem prog_consts : prog.consts = [] := rfl
@[go_eval] theorem look_sprint : prog.fns.lookup "fmt.Sprint" = none := rfl
@[go_eval] theorem look_hasher : prog.fns.lookup "hasher" = none := rfl
@[go_eval] theorem look_Sharded_GetShard : prog.fns.lookup "Sharded.GetShard" = some Sharded_GetShard_fn := rfl
@[go_eval] theorem look_Sharded_Set : prog.fns.lookup "Sharded.Set" = some Sharded_Set_fn := rfl
@[go_eval] theorem look_Sharded_TrySet : prog.fns.lookup "Sharded.TrySet" = some Sharded_TrySet_fn := rfl
@[go_eval] theorem look_Sharded_Get : prog.fns.lookup "Sharded.Get" = some Sharded_Get_fn := rfl
@[go_eval] theorem look_Sharded_TryGet : prog.fns.lookup "Sharded.TryGet" = some Sharded_TryGet_fn := rfl
@[go_eval] theorem look_Sharded_Len : prog.fns.lookup "Sharded.Len" = some Sharded_Len_fn := rfl
@[go_eval] theorem look_Sharded_Empty : prog.fns.lookup "Sharded.Empty" = some Sharded_Empty_fn := rfl
@[go_eval] theorem look_Sharded_Has : prog.fns.lookup "Sharded.Has" = some Sharded_Has_fn := rfl
@[go_eval] theorem look_Sharded_Delete : prog.fns.lookup "Sharded.Delete" = some Sharded_Delete_fn := rfl
@[go_eval] theorem look_Shard_Lock : prog.fns.lookup "Shard.Lock" = some Shard_Lock_fn := rfl
@[go_eval] theorem look_Shard_Unlock : prog.fns.lookup "Shard.Unlock" = some Shard_Unlock_fn := rfl
@[go_eval] theorem look_Shard_RLock : prog.fns.lookup "Shard.RLock" = some Shard_RLock_fn := rfl
@[go_eval] theorem look_Shard_RUnlock : prog.fns.lookup "Shard.RUnlock" = some Shard_RUnlock_fn := rfl
@[go_eval] theorem variadic_Sharded_GetShard : Sharded_GetShard_fn.variadic = false := rfl
@[go_eval] theorem variadic_Sharded_Set : Sharded_Set_fn.variadic = false := rfl
@[go_eval] theorem variadic_Sharded_TrySet : Sharded_TrySet_fn.variadic = false := rfl
@[go_eval] theorem variadic_Sharded_Get : Sharded_Get_fn.variadic = false := rfl
@[go_eval] theorem variadic_Sharded_TryGet : Sharded_TryGet_fn.variadic = false := rfl
@[go_eval] theorem variadic_Sharded_Len : Sharded_Len_fn.variadic = false := rfl
@[go_eval] theorem variadic_Sharded_Empty : Sharded_Empty_fn.variadic = false := rfl
@[go_eval] theorem variadic_Sharded_Has : Sharded_Has_fn.variadic = false := rfl
@[go_eval] theorem variadic_Sharded_Delete : Sharded_Delete_fn.variadic = false := rfl
@[go_eval] theorem variadic_Shard_Lock : Shard_Lock_fn.variadic = false := rfl
@[go_eval] theorem variadic_Shard_Unlock : Shard_Unlock_fn.variadic = false := rfl
@[go_eval] theorem variadic_Shard_RLock : Shard_RLock_fn.variadic = false := rfl
@[go_eval] theorem variadic_Shard_RUnlock : Shard_RUnlock_fn.variadic = false := rfl
@[go_eval] theorem recv_Shard_Lock : Shard_Lock_fn.recv = some ("s", "Shard", true) := rfl
@[go_eval] theorem recv_Shard_Unlock : Shard_Unlock_fn.recv = some ("s", "Shard", true) := rfl
@[go_eval] theorem recv_Shard_RLock : Shard_RLock_fn.recv = some ("s", "Shard", true) := rfl
@[go_eval] theorem recv_Shard_RUnlock : Shard_RUnlock_fn.recv = some ("s", "Shard", true) := rfl
@[go_eval] theorem recv_Sharded_GetShard : Sharded_GetShard_fn.recv = some ("m", "Sharded", false) := rfl
@[go_eval] theorem recv_Sharded_Set : Sharded_Set_fn.recv = some ("m", "Sharded", false) := rfl
@[go_eval] theorem recv_Sharded_TrySet : Sharded_TrySet_fn.recv = some ("m", "Sharded", false) := rfl
@[go_eval] theorem recv_Sharded_Get : Sharded_Get_fn.recv = some ("m", "Sharded", false) := rfl
@[go_eval] theorem recv_Sharded_TryGet : Sharded_TryGet_fn.recv = some ("m", "Sharded", false) := rfl
@[go_eval] theorem recv_Sharded_Len : Sharded_Len_fn.recv = some ("m", "Sharded", false) := rfl
@[go_eval] theorem recv_Sharded_Empty : Sharded_Empty_fn.recv = some ("m", "Sharded", false) := rfl
@[go_eval] theorem recv_Sharded_Has : Sharded_Has_fn.recv = some ("m", "Sharded", false) := rfl
@[go_eval] theorem recv_Sharded_Delete : Sharded_Delete_fn.recv = some ("m", "Sharded", false) := rfl
end

end Verif.Src.Shard
