import Verif.Src.Embed

/-!
# ds/xmap/sharded.go, the methods without defer and function literals: the text

Written by a script from /repo; each function is quoted line by line, with the tree the parser makes of it.
-/

namespace Verif.Src.Shard

/-- ds/xmap/sharded.go:46-52 -/
def Sharded_GetShard_text : List String := [
  "func (m Sharded[K, V]) GetShard(key K) *Shard[K, V] {",
  "	if len(m.shards) == 1 {",
  "		return &m.shards[0]",
  "	}",
  "	hash := m.hasher(key, m.seed)",
  "	return &m.shards[hash%uint64(len(m.shards))]",
  "}"]

def Sharded_GetShard_fn : Fn := parsed% Sharded_GetShard_text

theorem Sharded_GetShard_parse : parseFn Sharded_GetShard_text = some Sharded_GetShard_fn := by kernel_rfl

/-- ds/xmap/sharded.go:54-59 -/
def Sharded_Set_text : List String := [
  "func (m Sharded[K, V]) Set(key K, value V) {",
  "	shard := m.GetShard(key)",
  "	shard.Lock()",
  "	shard.items[key] = value",
  "	shard.Unlock()",
  "}"]

def Sharded_Set_fn : Fn := parsed% Sharded_Set_text

theorem Sharded_Set_parse : parseFn Sharded_Set_text = some Sharded_Set_fn := by kernel_rfl

/-- ds/xmap/sharded.go:61-70 -/
def Sharded_TrySet_text : List String := [
  "func (m Sharded[K, V]) TrySet(key K, value V) (ok bool) {",
  "	shard := m.GetShard(key)",
  "	shard.Lock()",
  "	_, found := shard.items[key]",
  "	if !found {",
  "		shard.items[key] = value",
  "	}",
  "	shard.Unlock()",
  "	return !found",
  "}"]

def Sharded_TrySet_fn : Fn := parsed% Sharded_TrySet_text

theorem Sharded_TrySet_parse : parseFn Sharded_TrySet_text = some Sharded_TrySet_fn := by kernel_rfl

/-- ds/xmap/sharded.go:72-78 -/
def Sharded_Get_text : List String := [
  "func (m Sharded[K, V]) Get(key K) V {",
  "	value, found := m.TryGet(key)",
  "	if !found {",
  r#"		panic(fmt.Sprint("key not found: ", key))"#,
  "	}",
  "	return value",
  "}"]

def Sharded_Get_fn : Fn := parsed% Sharded_Get_text

theorem Sharded_Get_parse : parseFn Sharded_Get_text = some Sharded_Get_fn := by kernel_rfl

/-- ds/xmap/sharded.go:80-86 -/
def Sharded_TryGet_text : List String := [
  "func (m Sharded[K, V]) TryGet(key K) (value V, ok bool) {",
  "	shard := m.GetShard(key)",
  "	shard.RLock()",
  "	val, found := shard.items[key]",
  "	shard.RUnlock()",
  "	return val, found",
  "}"]

def Sharded_TryGet_fn : Fn := parsed% Sharded_TryGet_text

theorem Sharded_TryGet_parse : parseFn Sharded_TryGet_text = some Sharded_TryGet_fn := by kernel_rfl

/-- ds/xmap/sharded.go:117-126 -/
def Sharded_Len_text : List String := [
  "func (m Sharded[K, V]) Len() int {",
  "	count := 0",
  "	for i := 0; i < len(m.shards); i++ {",
  "		shard := &m.shards[i] // avoid copying Shard, which contains a sync.RWMutex",
  "		shard.RLock()",
  "		count += len(shard.items)",
  "		shard.RUnlock()",
  "	}",
  "	return count",
  "}"]

def Sharded_Len_fn : Fn := parsed% Sharded_Len_text

theorem Sharded_Len_parse : parseFn Sharded_Len_text = some Sharded_Len_fn := by kernel_rfl

/-- ds/xmap/sharded.go:128-139 -/
def Sharded_Empty_text : List String := [
  "func (m Sharded[K, V]) Empty() bool {",
  "	for i := 0; i < len(m.shards); i++ {",
  "		shard := &m.shards[i] // avoid copying Shard, which contains a sync.RWMutex",
  "		shard.RLock()",
  "		shardLen := len(shard.items)",
  "		shard.RUnlock()",
  "		if shardLen > 0 {",
  "			return false",
  "		}",
  "	}",
  "	return true",
  "}"]

def Sharded_Empty_fn : Fn := parsed% Sharded_Empty_text

theorem Sharded_Empty_parse : parseFn Sharded_Empty_text = some Sharded_Empty_fn := by kernel_rfl

/-- ds/xmap/sharded.go:141-147 -/
def Sharded_Has_text : List String := [
  "func (m Sharded[K, V]) Has(key K) bool {",
  "	shard := m.GetShard(key)",
  "	shard.RLock()",
  "	_, found := shard.items[key]",
  "	shard.RUnlock()",
  "	return found",
  "}"]

def Sharded_Has_fn : Fn := parsed% Sharded_Has_text

theorem Sharded_Has_parse : parseFn Sharded_Has_text = some Sharded_Has_fn := by kernel_rfl

/-- ds/xmap/sharded.go:149-154 -/
def Sharded_Delete_text : List String := [
  "func (m Sharded[K, V]) Delete(key K) {",
  "	shard := m.GetShard(key)",
  "	shard.Lock()",
  "	delete(shard.items, key)",
  "	shard.Unlock()",
  "}"]

def Sharded_Delete_fn : Fn := parsed% Sharded_Delete_text

theorem Sharded_Delete_parse : parseFn Sharded_Delete_text = some Sharded_Delete_fn := by kernel_rfl

end Verif.Src.Shard
