import Verif.Src.Embed

/-!
# ds/xmap (without sharded.go), generics.ZeroOf and xslice.UnorderedDelete: the text

Written by a script from /repo; each function is quoted line by line, with the tree the parser makes of it.
-/

namespace Verif.Src.XMap

/-- ds/xmap/arraymap.go:16-18 -/
def New_text : List String := [
  "func New[K comparable, V any]() *ArrayMap[K, V] {",
  "	return &ArrayMap[K, V]{}",
  "}"]

def New_fn : Fn := parsed% New_text

theorem New_parse : parseFn New_text = some New_fn := by kernel_rfl

/-- ds/xmap/arraymap.go:20-24 -/
def ArrayMap_lazeInit_text : List String := [
  "func (p *ArrayMap[K, V]) lazeInit() {",
  "	if p.pos == nil {",
  "		p.pos = map[K]int{}",
  "	}",
  "}"]

def ArrayMap_lazeInit_fn : Fn := parsed% ArrayMap_lazeInit_text

theorem ArrayMap_lazeInit_parse : parseFn ArrayMap_lazeInit_text = some ArrayMap_lazeInit_fn := by kernel_rfl

/-- ds/xmap/arraymap.go:26-29 -/
def ArrayMap_Has_text : List String := [
  "func (p *ArrayMap[K, V]) Has(key K) bool {",
  "	_, found := p.pos[key]",
  "	return found",
  "}"]

def ArrayMap_Has_fn : Fn := parsed% ArrayMap_Has_text

theorem ArrayMap_Has_parse : parseFn ArrayMap_Has_text = some ArrayMap_Has_fn := by kernel_rfl

/-- ds/xmap/arraymap.go:31-37 -/
def ArrayMap_Get_text : List String := [
  "func (p *ArrayMap[K, V]) Get(key K) V {",
  "	value, found := p.TryGet(key)",
  "	if !found {",
  r#"		panic(fmt.Sprint("key not found: ", key))"#,
  "	}",
  "	return value",
  "}"]

def ArrayMap_Get_fn : Fn := parsed% ArrayMap_Get_text

theorem ArrayMap_Get_parse : parseFn ArrayMap_Get_text = some ArrayMap_Get_fn := by kernel_rfl

/-- ds/xmap/arraymap.go:39-44 -/
def ArrayMap_TryGet_text : List String := [
  "func (p *ArrayMap[K, V]) TryGet(key K) (value V, ok bool) {",
  "	if i, found := p.pos[key]; found {",
  "		return p.kv[i].Value, true",
  "	}",
  "	return generics.ZeroOf[V](), false",
  "}"]

def ArrayMap_TryGet_fn : Fn := parsed% ArrayMap_TryGet_text

theorem ArrayMap_TryGet_parse : parseFn ArrayMap_TryGet_text = some ArrayMap_TryGet_fn := by kernel_rfl

/-- ds/xmap/arraymap.go:46-51 -/
def ArrayMap_Set_text : List String := [
  "func (p *ArrayMap[K, V]) Set(key K, value V) {",
  "	p.lazeInit()",
  "	i := len(p.kv)",
  "	p.kv = append(p.kv, Entry[K, V]{Key: key, Value: value})",
  "	p.pos[key] = i",
  "}"]

def ArrayMap_Set_fn : Fn := parsed% ArrayMap_Set_text

theorem ArrayMap_Set_parse : parseFn ArrayMap_Set_text = some ArrayMap_Set_fn := by kernel_rfl

/-- ds/xmap/arraymap.go:53-66 -/
def ArrayMap_Delete_text : List String := [
  "func (p *ArrayMap[K, V]) Delete(key K) (deleted bool) {",
  "	i, found := p.pos[key]",
  "	if !found {",
  "		return false",
  "	}",
  "	last := len(p.kv) - 1",
  "	if i != last {",
  "		p.kv[i] = p.kv[last]",
  "		p.pos[p.kv[i].Key] = last",
  "	}",
  "	delete(p.pos, key)",
  "	p.kv = p.kv[:last]",
  "	return true",
  "}"]

def ArrayMap_Delete_fn : Fn := parsed% ArrayMap_Delete_text

theorem ArrayMap_Delete_parse : parseFn ArrayMap_Delete_text = some ArrayMap_Delete_fn := by kernel_rfl

/-- ds/xmap/arraymap.go:68-70 -/
def ArrayMap_Len_text : List String := [
  "func (p *ArrayMap[K, V]) Len() int {",
  "	return len(p.kv)",
  "}"]

def ArrayMap_Len_fn : Fn := parsed% ArrayMap_Len_text

theorem ArrayMap_Len_parse : parseFn ArrayMap_Len_text = some ArrayMap_Len_fn := by kernel_rfl

/-- ds/xmap/arraymap.go:72-74 -/
def ArrayMap_Empty_text : List String := [
  "func (p *ArrayMap[K, V]) Empty() bool {",
  "	return len(p.kv) == 0",
  "}"]

def ArrayMap_Empty_fn : Fn := parsed% ArrayMap_Empty_text

theorem ArrayMap_Empty_parse : parseFn ArrayMap_Empty_text = some ArrayMap_Empty_fn := by kernel_rfl

/-- ds/xmap/arraymap.go:76-78 -/
def ArrayMap_At_text : List String := [
  "func (p *ArrayMap[K, V]) At(i int) Entry[K, V] {",
  "	return p.kv[i]",
  "}"]

def ArrayMap_At_fn : Fn := parsed% ArrayMap_At_text

theorem ArrayMap_At_parse : parseFn ArrayMap_At_text = some ArrayMap_At_fn := by kernel_rfl

/-- ds/xmap/arraymap.go:80-82 -/
def ArrayMap_ValueAt_text : List String := [
  "func (p *ArrayMap[K, V]) ValueAt(i int) V {",
  "	return p.kv[i].Value",
  "}"]

def ArrayMap_ValueAt_fn : Fn := parsed% ArrayMap_ValueAt_text

theorem ArrayMap_ValueAt_parse : parseFn ArrayMap_ValueAt_text = some ArrayMap_ValueAt_fn := by kernel_rfl

/-- ds/xmap/arraymap.go:84-86 -/
def ArrayMap_KeyAt_text : List String := [
  "func (p *ArrayMap[K, V]) KeyAt(i int) K {",
  "	return p.kv[i].Key",
  "}"]

def ArrayMap_KeyAt_fn : Fn := parsed% ArrayMap_KeyAt_text

theorem ArrayMap_KeyAt_parse : parseFn ArrayMap_KeyAt_text = some ArrayMap_KeyAt_fn := by kernel_rfl

/-- ds/xmap/arraymap.go:88-91 -/
def ArrayMap_Clear_text : List String := [
  "func (p *ArrayMap[K, V]) Clear() {",
  "	Clear(p.pos)",
  "	p.kv = nil",
  "}"]

def ArrayMap_Clear_fn : Fn := parsed% ArrayMap_Clear_text

theorem ArrayMap_Clear_parse : parseFn ArrayMap_Clear_text = some ArrayMap_Clear_fn := by kernel_rfl

/-- ds/xmap/custom.go:15-22 -/
def NewCustom_text : List String := [
  "func NewCustom[K, V any](hasher xfn.Function[K, uint64], comparator xfn.BiPredicate[K, K]) Custom[K, V] {",
  "	return Custom[K, V]{",
  "		main:  map[uint64]Entry[K, V]{},",
  "		ovf:   nil,",
  "		hash:  hasher,",
  "		equal: comparator,",
  "	}",
  "}"]

def NewCustom_fn : Fn := parsed% NewCustom_text

theorem NewCustom_parse : parseFn NewCustom_text = some NewCustom_fn := by kernel_rfl

/-- ds/xmap/custom.go:24-43 -/
def Custom_Get_text : List String := [
  "func (m Custom[K, V]) Get(key K) (value V, ok bool) {",
  "	hash := m.hash(key)",
  "	main, foundMain := m.main[hash]",
  "	if !foundMain {",
  "		return main.Value, false // not found in main",
  "	}",
  "	if m.equal(main.Key, key) {",
  "		return main.Value, true // found in main",
  "	}",
  "	overflow, foundOverflow := m.ovf[hash]",
  "	if !foundOverflow {",
  "		return main.Value, false // overflow not available",
  "	}",
  "	for _, entry := range overflow {",
  "		if m.equal(entry.Key, key) {",
  "			return entry.Value, true // found in overflow",
  "		}",
  "	}",
  "	return main.Value, false // not found in overflow too",
  "}"]

def Custom_Get_fn : Fn := parsed% Custom_Get_text

theorem Custom_Get_parse : parseFn Custom_Get_text = some Custom_Get_fn := by kernel_rfl

/-- ds/xmap/custom.go:45-68 -/
def Custom_Set_text : List String := [
  "func (m Custom[K, V]) Set(key K, value V) (added bool) {",
  "	hash := m.hash(key)",
  "	mainEntry, foundMain := m.main[hash]",
  "	if !foundMain || m.equal(mainEntry.Key, key) {",
  "		m.main[hash] = NewEntry(key, value)",
  "		return !foundMain // new in main OR update existing key in main",
  "	}",
  "	overflow, foundOverflow := m.ovf[hash]",
  "	if !foundOverflow {",
  "		if m.ovf == nil {",
  "			m.ovf = map[uint64][]Entry[K, V]{}",
  "		}",
  "		m.ovf[hash] = []Entry[K, V]{NewEntry(key, value)}",
  "		return true // add new to overflow",
  "	}",
  "	for i, entry := range overflow {",
  "		if m.equal(entry.Key, key) {",
  "			overflow[i] = NewEntry(key, value)",
  "			return false // update existing key in overflow",
  "		}",
  "	}",
  "	m.ovf[hash] = append(overflow, NewEntry(key, value))",
  "	return true // add new entry to overflow",
  "}"]

def Custom_Set_fn : Fn := parsed% Custom_Set_text

theorem Custom_Set_parse : parseFn Custom_Set_text = some Custom_Set_fn := by kernel_rfl

/-- ds/xmap/custom.go:70-91 -/
def Custom_Delete_text : List String := [
  "func (m Custom[K, V]) Delete(key K) (ok bool) {",
  "	hash := m.hash(key)",
  "	main, foundMain := m.main[hash]",
  "	if !foundMain {",
  "		return false // not found in main",
  "	}",
  "	if m.equal(main.Key, key) {",
  "		delete(m.main, hash)",
  "		return true // found in main",
  "	}",
  "	overflow, foundOverflow := m.ovf[hash]",
  "	if !foundOverflow {",
  "		return false // overflow not available",
  "	}",
  "	for i, entry := range overflow {",
  "		if m.equal(entry.Key, key) {",
  "			m.ovf[hash] = xslice.UnorderedDelete(overflow, i)",
  "			return true // found in overflow",
  "		}",
  "	}",
  "	return false // not found in overflow too",
  "}"]

def Custom_Delete_fn : Fn := parsed% Custom_Delete_text

theorem Custom_Delete_parse : parseFn Custom_Delete_text = some Custom_Delete_fn := by kernel_rfl

/-- ds/xmap/set.go:5-7 -/
def NewSet_text : List String := [
  "func NewSet[T comparable]() Set[T] {",
  "	return map[T]struct{}{}",
  "}"]

def NewSet_fn : Fn := parsed% NewSet_text

theorem NewSet_parse : parseFn NewSet_text = some NewSet_fn := by kernel_rfl

/-- ds/xmap/set.go:9-11 -/
def Set_Add_text : List String := [
  "func (s Set[T]) Add(k T) {",
  "	s[k] = struct{}{}",
  "}"]

def Set_Add_fn : Fn := parsed% Set_Add_text

theorem Set_Add_parse : parseFn Set_Add_text = some Set_Add_fn := by kernel_rfl

/-- ds/xmap/set.go:13-19 -/
def Set_TryAdd_text : List String := [
  "func (s Set[T]) TryAdd(k T) (added bool) {",
  "	if _, found := s[k]; found {",
  "		return false",
  "	}",
  "	s[k] = struct{}{}",
  "	return true",
  "}"]

def Set_TryAdd_fn : Fn := parsed% Set_TryAdd_text

theorem Set_TryAdd_parse : parseFn Set_TryAdd_text = some Set_TryAdd_fn := by kernel_rfl

/-- ds/xmap/set.go:21-23 -/
def Set_Delete_text : List String := [
  "func (s Set[T]) Delete(k T) {",
  "	delete(s, k)",
  "}"]

def Set_Delete_fn : Fn := parsed% Set_Delete_text

theorem Set_Delete_parse : parseFn Set_Delete_text = some Set_Delete_fn := by kernel_rfl

/-- ds/xmap/set.go:25-31 -/
def Set_TryDelete_text : List String := [
  "func (s Set[T]) TryDelete(k T) (deleted bool) {",
  "	if _, found := s[k]; !found {",
  "		return false",
  "	}",
  "	delete(s, k)",
  "	return true",
  "}"]

def Set_TryDelete_fn : Fn := parsed% Set_TryDelete_text

theorem Set_TryDelete_parse : parseFn Set_TryDelete_text = some Set_TryDelete_fn := by kernel_rfl

/-- ds/xmap/set.go:33-36 -/
def Set_Has_text : List String := [
  "func (s Set[T]) Has(k T) bool {",
  "	_, found := s[k]",
  "	return found",
  "}"]

def Set_Has_fn : Fn := parsed% Set_Has_text

theorem Set_Has_parse : parseFn Set_Has_text = some Set_Has_fn := by kernel_rfl

/-- ds/xmap/set.go:38-40 -/
def Set_Len_text : List String := [
  "func (s Set[T]) Len() int {",
  "	return len(s)",
  "}"]

def Set_Len_fn : Fn := parsed% Set_Len_text

theorem Set_Len_parse : parseFn Set_Len_text = some Set_Len_fn := by kernel_rfl

/-- ds/xmap/set.go:42-44 -/
def Set_Clear_text : List String := [
  "func (s Set[T]) Clear() {",
  "	Clear(s)",
  "}"]

def Set_Clear_fn : Fn := parsed% Set_Clear_text

theorem Set_Clear_parse : parseFn Set_Clear_text = some Set_Clear_fn := by kernel_rfl

/-- ds/xmap/set.go:46-48 -/
def Set_Raw_text : List String := [
  "func (s Set[T]) Raw() map[T]struct{} {",
  "	return s",
  "}"]

def Set_Raw_fn : Fn := parsed% Set_Raw_text

theorem Set_Raw_parse : parseFn Set_Raw_text = some Set_Raw_fn := by kernel_rfl

/-- ds/xmap/set.go:50-52 -/
def Set_Values_text : List String := [
  "func (s Set[T]) Values() []T {",
  "	return Keys(s)",
  "}"]

def Set_Values_fn : Fn := parsed% Set_Values_text

theorem Set_Values_parse : parseFn Set_Values_text = some Set_Values_fn := by kernel_rfl

/-- ds/xmap/map.go:12-14 -/
def NewEntry_text : List String := [
  "func NewEntry[K, V any](key K, value V) Entry[K, V] {",
  "	return Entry[K, V]{Key: key, Value: value}",
  "}"]

def NewEntry_fn : Fn := parsed% NewEntry_text

theorem NewEntry_parse : parseFn NewEntry_text = some NewEntry_fn := by kernel_rfl

/-- ds/xmap/map.go:18-20 -/
def NewMap_text : List String := [
  "func NewMap[K comparable, V any]() Map[K, V] {",
  "	return map[K]V{}",
  "}"]

def NewMap_fn : Fn := parsed% NewMap_text

theorem NewMap_parse : parseFn NewMap_text = some NewMap_fn := by kernel_rfl

/-- ds/xmap/map.go:22-24 -/
def Map_Entries_text : List String := [
  "func (m Map[K, V]) Entries() []Entry[K, V] {",
  "	return Entries(m)",
  "}"]

def Map_Entries_fn : Fn := parsed% Map_Entries_text

theorem Map_Entries_parse : parseFn Map_Entries_text = some Map_Entries_fn := by kernel_rfl

/-- ds/xmap/map.go:26-28 -/
def Map_Keys_text : List String := [
  "func (m Map[K, V]) Keys() []K {",
  "	return Keys(m)",
  "}"]

def Map_Keys_fn : Fn := parsed% Map_Keys_text

theorem Map_Keys_parse : parseFn Map_Keys_text = some Map_Keys_fn := by kernel_rfl

/-- ds/xmap/map.go:30-32 -/
def Map_Values_text : List String := [
  "func (m Map[K, V]) Values() []V {",
  "	return Values(m)",
  "}"]

def Map_Values_fn : Fn := parsed% Map_Values_text

theorem Map_Values_parse : parseFn Map_Values_text = some Map_Values_fn := by kernel_rfl

/-- ds/xmap/map.go:34-36 -/
def Map_Delete_text : List String := [
  "func (m Map[K, V]) Delete(key K) {",
  "	delete(m, key)",
  "}"]

def Map_Delete_fn : Fn := parsed% Map_Delete_text

theorem Map_Delete_parse : parseFn Map_Delete_text = some Map_Delete_fn := by kernel_rfl

/-- ds/xmap/map.go:38-40 -/
def Map_Map_text : List String := [
  "func (m Map[K, V]) Map() map[K]V {",
  "	return m",
  "}"]

def Map_Map_fn : Fn := parsed% Map_Map_text

theorem Map_Map_parse : parseFn Map_Map_text = some Map_Map_fn := by kernel_rfl

/-- ds/xmap/map.go:42-44 -/
def Map_Clear_text : List String := [
  "func (m Map[K, V]) Clear() {",
  "	Clear(m)",
  "}"]

def Map_Clear_fn : Fn := parsed% Map_Clear_text

theorem Map_Clear_parse : parseFn Map_Clear_text = some Map_Clear_fn := by kernel_rfl

/-- ds/xmap/ops.go:3-9 -/
def Entries_text : List String := [
  "func Entries[K comparable, V any](m map[K]V) []Entry[K, V] {",
  "	var entries []Entry[K, V]",
  "	for k, v := range m {",
  "		entries = append(entries, Entry[K, V]{Key: k, Value: v})",
  "	}",
  "	return entries",
  "}"]

def Entries_fn : Fn := parsed% Entries_text

theorem Entries_parse : parseFn Entries_text = some Entries_fn := by kernel_rfl

/-- ds/xmap/ops.go:11-17 -/
def Keys_text : List String := [
  "func Keys[K comparable, V any](m map[K]V) []K {",
  "	var keys []K",
  "	for k := range m {",
  "		keys = append(keys, k)",
  "	}",
  "	return keys",
  "}"]

def Keys_fn : Fn := parsed% Keys_text

theorem Keys_parse : parseFn Keys_text = some Keys_fn := by kernel_rfl

/-- ds/xmap/ops.go:19-25 -/
def Values_text : List String := [
  "func Values[K comparable, V any](m map[K]V) []V {",
  "	var values []V",
  "	for _, v := range m {",
  "		values = append(values, v)",
  "	}",
  "	return values",
  "}"]

def Values_fn : Fn := parsed% Values_text

theorem Values_parse : parseFn Values_text = some Values_fn := by kernel_rfl

/-- ds/xmap/ops.go:27-29 -/
def Delete_text : List String := [
  "func Delete[K comparable, V any](m map[K]V, key K) {",
  "	delete(m, key)",
  "}"]

def Delete_fn : Fn := parsed% Delete_text

theorem Delete_parse : parseFn Delete_text = some Delete_fn := by kernel_rfl

/-- ds/xmap/ops.go:31-38 -/
def Clear_text : List String := [
  "func Clear[K comparable, V any](m map[K]V) {",
  "	// Go 1.15 optimizes this loop into runtime.mapclear()",
  "	// Might not work for interface key type",
  "	// https://github.com/golang/go/issues/45328",
  "	for k := range m {",
  "		delete(m, k)",
  "	}",
  "}"]

def Clear_fn : Fn := parsed% Clear_text

theorem Clear_parse : parseFn Clear_text = some Clear_fn := by kernel_rfl

/-- generics/zero.go:3-6 -/
def ZeroOf_text : List String := [
  "func ZeroOf[T any]() T {",
  "	var zero T",
  "	return zero",
  "}"]

def ZeroOf_fn : Fn := parsed% ZeroOf_text

theorem ZeroOf_parse : parseFn ZeroOf_text = some ZeroOf_fn := by kernel_rfl

/-- ds/xslice/ops.go:8-17 -/
def UnorderedDelete_text : List String := [
  "func UnorderedDelete[T any](s []T, i int) []T {",
  "	if i < 0 || len(s) <= i {",
  r#"		panic("delete out of bound")"#,
  "	}",
  "	last := len(s) - 1",
  "	if i < last {",
  "		s[i], s[last] = s[last], s[i]",
  "	}",
  "	return s[:last]",
  "}"]

def UnorderedDelete_fn : Fn := parsed% UnorderedDelete_text

theorem UnorderedDelete_parse : parseFn UnorderedDelete_text = some UnorderedDelete_fn := by kernel_rfl

end Verif.Src.XMap
