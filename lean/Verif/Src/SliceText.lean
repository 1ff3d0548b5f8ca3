import Verif.Src.Embed

/-!
# ds/xslice: the text

Written by a script from /repo; each function is quoted line by line, with the tree the parser makes of it.
-/

namespace Verif.Src.Algo

/-- ds/xslice/iterator.go:20-22 -/
def Iterator_Ref_text : List String := [
  "func (iter Iterator[T]) Ref() *T {",
  "	return &iter.s[iter.pos]",
  "}"]

def Iterator_Ref_fn : Fn := parsed% Iterator_Ref_text

theorem Iterator_Ref_parse : parseFn Iterator_Ref_text = some Iterator_Ref_fn := by kernel_rfl

/-- ds/xslice/iterator.go:24-26 -/
def Iterator_Get_text : List String := [
  "func (iter Iterator[T]) Get() T {",
  "	return iter.s[iter.pos]",
  "}"]

def Iterator_Get_fn : Fn := parsed% Iterator_Get_text

theorem Iterator_Get_parse : parseFn Iterator_Get_text = some Iterator_Get_fn := by kernel_rfl

/-- ds/xslice/iterator.go:28-30 -/
def Iterator_Set_text : List String := [
  "func (iter Iterator[T]) Set(val T) {",
  "	iter.s[iter.pos] = val",
  "}"]

def Iterator_Set_fn : Fn := parsed% Iterator_Set_text

theorem Iterator_Set_parse : parseFn Iterator_Set_text = some Iterator_Set_fn := by kernel_rfl

/-- ds/xslice/iterator.go:32-35 -/
def Iterator_Next_text : List String := [
  "func (iter Iterator[T]) Next() Iterator[T] {",
  "	iter.Inc()",
  "	return iter",
  "}"]

def Iterator_Next_fn : Fn := parsed% Iterator_Next_text

theorem Iterator_Next_parse : parseFn Iterator_Next_text = some Iterator_Next_fn := by kernel_rfl

/-- ds/xslice/iterator.go:37-40 -/
def Iterator_Prev_text : List String := [
  "func (iter Iterator[T]) Prev() Iterator[T] {",
  "	iter.Dec()",
  "	return iter",
  "}"]

def Iterator_Prev_fn : Fn := parsed% Iterator_Prev_text

theorem Iterator_Prev_parse : parseFn Iterator_Prev_text = some Iterator_Prev_fn := by kernel_rfl

/-- ds/xslice/iterator.go:42-45 -/
def Iterator_Add_text : List String := [
  "func (iter Iterator[T]) Add(offset int) Iterator[T] {",
  "	iter.Advance(offset)",
  "	return iter",
  "}"]

def Iterator_Add_fn : Fn := parsed% Iterator_Add_text

theorem Iterator_Add_parse : parseFn Iterator_Add_text = some Iterator_Add_fn := by kernel_rfl

/-- ds/xslice/iterator.go:47-52 -/
def Iterator_Inc_text : List String := [
  "func (iter *Iterator[T]) Inc() {",
  "	if iter.pos >= len(iter.s) {",
  r#"		panic("increment out of bound")"#,
  "	}",
  "	iter.pos++",
  "}"]

def Iterator_Inc_fn : Fn := parsed% Iterator_Inc_text

theorem Iterator_Inc_parse : parseFn Iterator_Inc_text = some Iterator_Inc_fn := by kernel_rfl

/-- ds/xslice/iterator.go:54-59 -/
def Iterator_Dec_text : List String := [
  "func (iter *Iterator[T]) Dec() {",
  "	if iter.pos <= 0 {",
  r#"		panic("decrement out of bound")"#,
  "	}",
  "	iter.pos--",
  "}"]

def Iterator_Dec_fn : Fn := parsed% Iterator_Dec_text

theorem Iterator_Dec_parse : parseFn Iterator_Dec_text = some Iterator_Dec_fn := by kernel_rfl

/-- ds/xslice/iterator.go:61-67 -/
def Iterator_Advance_text : List String := [
  "func (iter *Iterator[T]) Advance(offset int) {",
  "	k := iter.pos + offset",
  "	if k < 0 || len(iter.s) < k {",
  r#"		panic("offset out of bound")"#,
  "	}",
  "	iter.pos = k",
  "}"]

def Iterator_Advance_fn : Fn := parsed% Iterator_Advance_text

theorem Iterator_Advance_parse : parseFn Iterator_Advance_text = some Iterator_Advance_fn := by kernel_rfl

/-- ds/xslice/iterator.go:69-71 -/
def Iterator_Pos_text : List String := [
  "func (iter Iterator[T]) Pos() int {",
  "	return iter.pos",
  "}"]

def Iterator_Pos_fn : Fn := parsed% Iterator_Pos_text

theorem Iterator_Pos_parse : parseFn Iterator_Pos_text = some Iterator_Pos_fn := by kernel_rfl

/-- ds/xslice/iterator.go:73-78 -/
def Iterator_Equal_text : List String := [
  "func (iter Iterator[T]) Equal(other Iterator[T]) bool {",
  "	if !ReferenceEqual(iter.s, other.s) {",
  r#"		panic("compare iterator of different slices")"#,
  "	}",
  "	return other.pos == iter.pos",
  "}"]

def Iterator_Equal_fn : Fn := parsed% Iterator_Equal_text

theorem Iterator_Equal_parse : parseFn Iterator_Equal_text = some Iterator_Equal_fn := by kernel_rfl

/-- ds/xslice/slice.go:10-12 -/
def New_text : List String := [
  "func New[T any]() Slice[T] {",
  "	return nil",
  "}"]

def New_fn : Fn := parsed% New_text

theorem New_parse : parseFn New_text = some New_fn := by kernel_rfl

/-- ds/xslice/slice.go:14-16 -/
def NewLen_text : List String := [
  "func NewLen[T any](len int) Slice[T] {",
  "	return make([]T, len)",
  "}"]

def NewLen_fn : Fn := parsed% NewLen_text

theorem NewLen_parse : parseFn NewLen_text = some NewLen_fn := by kernel_rfl

/-- ds/xslice/slice.go:18-20 -/
def NewLenCap_text : List String := [
  "func NewLenCap[T any](len, cap int) Slice[T] {",
  "	return make([]T, cap)",
  "}"]

def NewLenCap_fn : Fn := parsed% NewLenCap_text

theorem NewLenCap_parse : parseFn NewLenCap_text = some NewLenCap_fn := by kernel_rfl

/-- ds/xslice/slice.go:22-24 -/
def Of_text : List String := [
  "func Of[T any](values ...T) Slice[T] {",
  "	return values",
  "}"]

def Of_fn : Fn := parsed% Of_text

theorem Of_parse : parseFn Of_text = some Of_fn := by kernel_rfl

/-- ds/xslice/slice.go:26-28 -/
def OfSlice_text : List String := [
  "func OfSlice[T any](values []T) Slice[T] {",
  "	return values",
  "}"]

def OfSlice_fn : Fn := parsed% OfSlice_text

theorem OfSlice_parse : parseFn OfSlice_text = some OfSlice_fn := by kernel_rfl

/-- ds/xslice/slice.go:30-35 -/
def Copy_text : List String := [
  "func Copy[T any](values []T) Slice[T] {",
  "	if len(values) == 0 {",
  "		return nil",
  "	}",
  "	return append([]T(nil), values...)",
  "}"]

def Copy_fn : Fn := parsed% Copy_text

theorem Copy_parse : parseFn Copy_text = some Copy_fn := by kernel_rfl

/-- ds/xslice/slice.go:37-39 -/
def Slice_Append_text : List String := [
  "func (s *Slice[T]) Append(value T) {",
  "	*s = append(*s, value)",
  "}"]

def Slice_Append_fn : Fn := parsed% Slice_Append_text

theorem Slice_Append_parse : parseFn Slice_Append_text = some Slice_Append_fn := by kernel_rfl

/-- ds/xslice/slice.go:41-43 -/
def Slice_AppendMany_text : List String := [
  "func (s *Slice[T]) AppendMany(values ...T) {",
  "	*s = append(*s, values...)",
  "}"]

def Slice_AppendMany_fn : Fn := parsed% Slice_AppendMany_text

theorem Slice_AppendMany_parse : parseFn Slice_AppendMany_text = some Slice_AppendMany_fn := by kernel_rfl

/-- ds/xslice/slice.go:45-47 -/
def Slice_Delete_text : List String := [
  "func (s *Slice[T]) Delete(i int) {",
  "	*s = Delete(*s, i)",
  "}"]

def Slice_Delete_fn : Fn := parsed% Slice_Delete_text

theorem Slice_Delete_parse : parseFn Slice_Delete_text = some Slice_Delete_fn := by kernel_rfl

/-- ds/xslice/slice.go:49-51 -/
def Slice_DeleteLast_text : List String := [
  "func (s *Slice[T]) DeleteLast() {",
  "	*s = DeleteLast(*s)",
  "}"]

def Slice_DeleteLast_fn : Fn := parsed% Slice_DeleteLast_text

theorem Slice_DeleteLast_parse : parseFn Slice_DeleteLast_text = some Slice_DeleteLast_fn := by kernel_rfl

/-- ds/xslice/slice.go:53-55 -/
def Slice_UnorderedDelete_text : List String := [
  "func (s *Slice[T]) UnorderedDelete(i int) {",
  "	*s = UnorderedDelete(*s, i)",
  "}"]

def Slice_UnorderedDelete_fn : Fn := parsed% Slice_UnorderedDelete_text

theorem Slice_UnorderedDelete_parse : parseFn Slice_UnorderedDelete_text = some Slice_UnorderedDelete_fn := by kernel_rfl

/-- ds/xslice/slice.go:57-59 -/
def Slice_InsertAt_text : List String := [
  "func (s *Slice[T]) InsertAt(i int, value T) {",
  "	*s = Insert(*s, i, value)",
  "}"]

def Slice_InsertAt_fn : Fn := parsed% Slice_InsertAt_text

theorem Slice_InsertAt_parse : parseFn Slice_InsertAt_text = some Slice_InsertAt_fn := by kernel_rfl

/-- ds/xslice/slice.go:61-65 -/
def Slice_Insert_text : List String := [
  "func (s *Slice[T]) Insert(it Iterator[T], value T) Iterator[T] {",
  "	s.checkIterator(it)",
  "	*s = Insert(*s, it.pos, value)",
  "	return s.uncheckedIteratorAt(it.pos)",
  "}"]

def Slice_Insert_fn : Fn := parsed% Slice_Insert_text

theorem Slice_Insert_parse : parseFn Slice_Insert_text = some Slice_Insert_fn := by kernel_rfl

/-- ds/xslice/slice.go:67-69 -/
def Slice_Len_text : List String := [
  "func (s Slice[T]) Len() int {",
  "	return len(s)",
  "}"]

def Slice_Len_fn : Fn := parsed% Slice_Len_text

theorem Slice_Len_parse : parseFn Slice_Len_text = some Slice_Len_fn := by kernel_rfl

/-- ds/xslice/slice.go:71-73 -/
def Slice_Cap_text : List String := [
  "func (s Slice[T]) Cap() int {",
  "	return cap(s)",
  "}"]

def Slice_Cap_fn : Fn := parsed% Slice_Cap_text

theorem Slice_Cap_parse : parseFn Slice_Cap_text = some Slice_Cap_fn := by kernel_rfl

/-- ds/xslice/slice.go:75-77 -/
def Slice_Empty_text : List String := [
  "func (s Slice[T]) Empty() bool {",
  "	return len(s) == 0",
  "}"]

def Slice_Empty_fn : Fn := parsed% Slice_Empty_text

theorem Slice_Empty_parse : parseFn Slice_Empty_text = some Slice_Empty_fn := by kernel_rfl

/-- ds/xslice/slice.go:79-81 -/
def Slice_Sub_text : List String := [
  "func (s Slice[T]) Sub(start, end int) Slice[T] {",
  "	return s[start:end]",
  "}"]

def Slice_Sub_fn : Fn := parsed% Slice_Sub_text

theorem Slice_Sub_parse : parseFn Slice_Sub_text = some Slice_Sub_fn := by kernel_rfl

/-- ds/xslice/slice.go:83-85 -/
def Slice_Slice_text : List String := [
  "func (s Slice[T]) Slice() []T {",
  "	return s",
  "}"]

def Slice_Slice_fn : Fn := parsed% Slice_Slice_text

theorem Slice_Slice_parse : parseFn Slice_Slice_text = some Slice_Slice_fn := by kernel_rfl

/-- ds/xslice/slice.go:87-89 -/
def Slice_At_text : List String := [
  "func (s Slice[T]) At(i int) T {",
  "	return s[i]",
  "}"]

def Slice_At_fn : Fn := parsed% Slice_At_text

theorem Slice_At_parse : parseFn Slice_At_text = some Slice_At_fn := by kernel_rfl

/-- ds/xslice/slice.go:91-93 -/
def Slice_Set_text : List String := [
  "func (s Slice[T]) Set(i int, x T) {",
  "	s[i] = x",
  "}"]

def Slice_Set_fn : Fn := parsed% Slice_Set_text

theorem Slice_Set_parse : parseFn Slice_Set_text = some Slice_Set_fn := by kernel_rfl

/-- ds/xslice/slice.go:95-97 -/
def Slice_First_text : List String := [
  "func (s Slice[T]) First() T {",
  "	return s[0]",
  "}"]

def Slice_First_fn : Fn := parsed% Slice_First_text

theorem Slice_First_parse : parseFn Slice_First_text = some Slice_First_fn := by kernel_rfl

/-- ds/xslice/slice.go:99-101 -/
def Slice_Last_text : List String := [
  "func (s Slice[T]) Last() T {",
  "	return s[len(s)-1]",
  "}"]

def Slice_Last_fn : Fn := parsed% Slice_Last_text

theorem Slice_Last_parse : parseFn Slice_Last_text = some Slice_Last_fn := by kernel_rfl

/-- ds/xslice/slice.go:103-108 -/
def Slice_IteratorAt_text : List String := [
  "func (s Slice[T]) IteratorAt(pos int) Iterator[T] {",
  "	if pos < 0 || s.Len() < pos {",
  r#"		panic("out of bound")"#,
  "	}",
  "	return Iterator[T]{pos: pos, s: s}",
  "}"]

def Slice_IteratorAt_fn : Fn := parsed% Slice_IteratorAt_text

theorem Slice_IteratorAt_parse : parseFn Slice_IteratorAt_text = some Slice_IteratorAt_fn := by kernel_rfl

/-- ds/xslice/slice.go:110-112 -/
def Slice_uncheckedIteratorAt_text : List String := [
  "func (s Slice[T]) uncheckedIteratorAt(pos int) Iterator[T] {",
  "	return Iterator[T]{pos: pos, s: s}",
  "}"]

def Slice_uncheckedIteratorAt_fn : Fn := parsed% Slice_uncheckedIteratorAt_text

theorem Slice_uncheckedIteratorAt_parse : parseFn Slice_uncheckedIteratorAt_text = some Slice_uncheckedIteratorAt_fn := by kernel_rfl

/-- ds/xslice/slice.go:114-116 -/
def Slice_Begin_text : List String := [
  "func (s Slice[T]) Begin() Iterator[T] {",
  "	return s.IteratorAt(0)",
  "}"]

def Slice_Begin_fn : Fn := parsed% Slice_Begin_text

theorem Slice_Begin_parse : parseFn Slice_Begin_text = some Slice_Begin_fn := by kernel_rfl

/-- ds/xslice/slice.go:118-120 -/
def Slice_End_text : List String := [
  "func (s Slice[T]) End() Iterator[T] {",
  "	return s.IteratorAt(s.Len())",
  "}"]

def Slice_End_fn : Fn := parsed% Slice_End_text

theorem Slice_End_parse : parseFn Slice_End_text = some Slice_End_fn := by kernel_rfl

/-- ds/xslice/slice.go:122-124 -/
def Slice_RBegin_text : List String := [
  "func (s Slice[T]) RBegin() iter.ReverseRandomIterator[T, Iterator[T]] {",
  "	return iter.ReverseRandom[T](s.End())",
  "}"]

def Slice_RBegin_fn : Fn := parsed% Slice_RBegin_text

theorem Slice_RBegin_parse : parseFn Slice_RBegin_text = some Slice_RBegin_fn := by kernel_rfl

/-- ds/xslice/slice.go:126-128 -/
def Slice_REnd_text : List String := [
  "func (s Slice[T]) REnd() iter.ReverseRandomIterator[T, Iterator[T]] {",
  "	return iter.ReverseRandom[T](s.Begin())",
  "}"]

def Slice_REnd_fn : Fn := parsed% Slice_REnd_text

theorem Slice_REnd_parse : parseFn Slice_REnd_text = some Slice_REnd_fn := by kernel_rfl

/-- ds/xslice/slice.go:130-132 -/
def Slice_Range_text : List String := [
  "func (s Slice[T]) Range() iter.Range[T, Iterator[T]] {",
  "	return iter.MakeRange[T](s.Begin(), s.End())",
  "}"]

def Slice_Range_fn : Fn := parsed% Slice_Range_text

theorem Slice_Range_parse : parseFn Slice_Range_text = some Slice_Range_fn := by kernel_rfl

/-- ds/xslice/slice.go:134-136 -/
def Slice_SubRange_text : List String := [
  "func (s Slice[T]) SubRange(first, last int) iter.Range[T, Iterator[T]] {",
  "	return iter.MakeRange[T](s.IteratorAt(first), s.IteratorAt(last))",
  "}"]

def Slice_SubRange_fn : Fn := parsed% Slice_SubRange_text

theorem Slice_SubRange_parse : parseFn Slice_SubRange_text = some Slice_SubRange_fn := by kernel_rfl

/-- ds/xslice/slice.go:138-140 -/
def Slice_ReverseRange_text : List String := [
  "func (s Slice[T]) ReverseRange() iter.Range[T, iter.ReverseRandomIterator[T, Iterator[T]]] {",
  "	return iter.MakeRange[T](s.RBegin(), s.REnd())",
  "}"]

def Slice_ReverseRange_fn : Fn := parsed% Slice_ReverseRange_text

theorem Slice_ReverseRange_parse : parseFn Slice_ReverseRange_text = some Slice_ReverseRange_fn := by kernel_rfl

/-- ds/xslice/slice.go:142-144 -/
def Slice_ReverseSubRange_text : List String := [
  "func (s Slice[T]) ReverseSubRange(first, last int) iter.Range[T, iter.ReverseRandomIterator[T, Iterator[T]]] {",
  "	return iter.MakeRange[T](s.RBegin().Add(first), s.RBegin().Add(last))",
  "}"]

def Slice_ReverseSubRange_fn : Fn := parsed% Slice_ReverseSubRange_text

theorem Slice_ReverseSubRange_parse : parseFn Slice_ReverseSubRange_text = some Slice_ReverseSubRange_fn := by kernel_rfl

/-- ds/xslice/slice.go:146-156 -/
def Slice_Reversed_text : List String := [
  "func (s Slice[T]) Reversed() Slice[T] {",
  "	if len(s) == 0 {",
  "		return nil",
  "	}",
  "	r := make([]T, len(s))",
  "	last := len(s) - 1",
  "	for i, v := range s {",
  "		r[last-i] = v",
  "	}",
  "	return r",
  "}"]

def Slice_Reversed_fn : Fn := parsed% Slice_Reversed_text

theorem Slice_Reversed_parse : parseFn Slice_Reversed_text = some Slice_Reversed_fn := by kernel_rfl

/-- ds/xslice/slice.go:162-166 -/
def Slice_checkIterator_text : List String := [
  "func (s *Slice[T]) checkIterator(it Iterator[T]) {",
  "	if !ReferenceEqual(*s, it.s) {",
  r#"		panic("iterator does not belongs to this slice")"#,
  "	}",
  "}"]

def Slice_checkIterator_fn : Fn := parsed% Slice_checkIterator_text

theorem Slice_checkIterator_parse : parseFn Slice_checkIterator_text = some Slice_checkIterator_fn := by kernel_rfl

/-- ds/xslice/ops.go:8-17 -/
def UnorderedDelete_text : List String := [
  "func UnorderedDelete[T any](s []T, i int) []T {",
  "	if i < 0 || len(s) <= i {",
  r#"		panic("delete out of bound")"#,
  "	}",
  "	last := len(s) - 1",
  "	if i < last {",
  "		s[i], s[last] = s[last], s[i]",
  "	}",
  "	return s[:last]",
  "}"]

def UnorderedDelete_fn : Fn := parsed% UnorderedDelete_text

theorem UnorderedDelete_parse : parseFn UnorderedDelete_text = some UnorderedDelete_fn := by kernel_rfl

/-- ds/xslice/ops.go:19-27 -/
def Delete_text : List String := [
  "func Delete[T any](s []T, i int) []T {",
  "	if i < 0 || len(s) <= i {",
  r#"		panic("delete out of bound")"#,
  "	}",
  "	if i < len(s)-1 {",
  "		copy(s[i:], s[i+1:])",
  "	}",
  "	return s[:len(s)-1]",
  "}"]

def Delete_fn : Fn := parsed% Delete_text

theorem Delete_parse : parseFn Delete_text = some Delete_fn := by kernel_rfl

/-- ds/xslice/ops.go:29-34 -/
def DeleteLast_text : List String := [
  "func DeleteLast[T any](s []T) []T {",
  "	if len(s) == 0 {",
  r#"		panic("delete from empty slice")"#,
  "	}",
  "	return s[:len(s)-1]",
  "}"]

def DeleteLast_fn : Fn := parsed% DeleteLast_text

theorem DeleteLast_parse : parseFn DeleteLast_text = some DeleteLast_fn := by kernel_rfl

/-- ds/xslice/ops.go:36-48 -/
def Insert_text : List String := [
  "func Insert[T any](s []T, i int, value T) []T {",
  "	if i < 0 || len(s) < i {",
  r#"		panic("insert out of bound")"#,
  "	}",
  "	if i < len(s) {",
  "		s = append(s, value)",
  "		copy(s[i+1:], s[i:len(s)-1])",
  "		s[i] = value",
  "		return s",
  "	} else {",
  "		return append(s, value)",
  "	}",
  "}"]

def Insert_fn : Fn := parsed% Insert_text

theorem Insert_parse : parseFn Insert_text = some Insert_fn := by kernel_rfl

end Verif.Src.Algo
