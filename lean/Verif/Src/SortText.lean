import Verif.Src.Embed

/-!
# xsort/sort.go: the text

Written by a script from /repo; each function is quoted line by line, with the tree the parser makes of it.
-/

namespace Verif.Src.Sort

/-- xsort/sort.go:21-26 -/
def xorshift_Next_text : List String := [
  "func (r *xorshift) Next() uint64 {",
  "	*r ^= *r << 13",
  "	*r ^= *r >> 17",
  "	*r ^= *r << 5",
  "	return uint64(*r)",
  "}"]

def xorshift_Next_fn : Fn := parsed% xorshift_Next_text

theorem xorshift_Next_parse : parseFn xorshift_Next_text = some xorshift_Next_fn := by kernel_rfl

/-- xsort/sort.go:28-31 -/
def nextPowerOfTwo_text : List String := [
  "func nextPowerOfTwo(length int) uint {",
  "	shift := uint(bits.Len(uint(length)))",
  "	return uint(1 << shift)",
  "}"]

def nextPowerOfTwo_fn : Fn := parsed% nextPowerOfTwo_text

theorem nextPowerOfTwo_parse : parseFn nextPowerOfTwo_text = some nextPowerOfTwo_fn := by kernel_rfl

/-- xsort/sort.go:33-37 -/
def SortOrdered_text : List String := [
  "func SortOrdered[T constraints.Ordered](data []T) {",
  "	length := len(data)",
  "	limit := bits.Len(uint(length))",
  "	pdqsortOrdered(data, 0, length, limit)",
  "}"]

def SortOrdered_fn : Fn := parsed% SortOrdered_text

theorem SortOrdered_parse : parseFn SortOrdered_text = some SortOrdered_fn := by kernel_rfl

/-- xsort/sort.go:39-43 -/
def Sort_text : List String := [
  "func Sort[T any](data []T, less xfn.Comparator[T]) {",
  "	length := len(data)",
  "	limit := bits.Len(uint(length))",
  "	pdqsortLessFunc(data, 0, length, limit, less)",
  "}"]

def Sort_fn : Fn := parsed% Sort_text

theorem Sort_parse : parseFn Sort_text = some Sort_fn := by kernel_rfl

/-- xsort/sort.go:45-47 -/
def StableOrdered_text : List String := [
  "func StableOrdered[T constraints.Ordered](data []T) {",
  "	stableOrdered(data, len(data))",
  "}"]

def StableOrdered_fn : Fn := parsed% StableOrdered_text

theorem StableOrdered_parse : parseFn StableOrdered_text = some StableOrdered_fn := by kernel_rfl

/-- xsort/sort.go:49-51 -/
def Stable_text : List String := [
  "func Stable[T any](data []T, less xfn.Comparator[T]) {",
  "	stableLessFunc(data, len(data), less)",
  "}"]

def Stable_fn : Fn := parsed% Stable_text

theorem Stable_parse : parseFn Stable_text = some Stable_fn := by kernel_rfl

end Verif.Src.Sort
