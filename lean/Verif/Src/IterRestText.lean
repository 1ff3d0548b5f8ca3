import Verif.Src.Embed

/-!
# the rest of ds/iter (reverse.go, dummy.go, inserter.go) and generics.ZeroOf: the text

Written by a script from /repo; each function is quoted line by line, with the tree the parser makes of it.
-/

namespace Verif.Src.IterRest

/-- ds/iter/reverse.go:10-12 -/
def ConstReverse_text : List String := [
  "func ConstReverse[T any, It ConstBidirIterator[T, It]](i It) ConstReverseIterator[T, It] {",
  "	return ConstReverseIterator[T, It]{i: i}",
  "}"]

def ConstReverse_fn : Fn := parsed% ConstReverse_text

theorem ConstReverse_parse : parseFn ConstReverse_text = some ConstReverse_fn := by kernel_rfl

/-- ds/iter/reverse.go:14-16 -/
def ConstReverseIterator_Base_text : List String := [
  "func (c ConstReverseIterator[T, It]) Base() It {",
  "	return c.i",
  "}"]

def ConstReverseIterator_Base_fn : Fn := parsed% ConstReverseIterator_Base_text

theorem ConstReverseIterator_Base_parse : parseFn ConstReverseIterator_Base_text = some ConstReverseIterator_Base_fn := by kernel_rfl

/-- ds/iter/reverse.go:18-20 -/
def ConstReverseIterator_Next_text : List String := [
  "func (c ConstReverseIterator[T, It]) Next() ConstReverseIterator[T, It] {",
  "	return ConstReverseIterator[T, It]{i: c.i.Prev()}",
  "}"]

def ConstReverseIterator_Next_fn : Fn := parsed% ConstReverseIterator_Next_text

theorem ConstReverseIterator_Next_parse : parseFn ConstReverseIterator_Next_text = some ConstReverseIterator_Next_fn := by kernel_rfl

/-- ds/iter/reverse.go:22-24 -/
def ConstReverseIterator_Prev_text : List String := [
  "func (c ConstReverseIterator[T, It]) Prev() ConstReverseIterator[T, It] {",
  "	return ConstReverseIterator[T, It]{i: c.i.Next()}",
  "}"]

def ConstReverseIterator_Prev_fn : Fn := parsed% ConstReverseIterator_Prev_text

theorem ConstReverseIterator_Prev_parse : parseFn ConstReverseIterator_Prev_text = some ConstReverseIterator_Prev_fn := by kernel_rfl

/-- ds/iter/reverse.go:26-28 -/
def ConstReverseIterator_Get_text : List String := [
  "func (c ConstReverseIterator[T, It]) Get() T {",
  "	return c.i.Prev().Get()",
  "}"]

def ConstReverseIterator_Get_fn : Fn := parsed% ConstReverseIterator_Get_text

theorem ConstReverseIterator_Get_parse : parseFn ConstReverseIterator_Get_text = some ConstReverseIterator_Get_fn := by kernel_rfl

/-- ds/iter/reverse.go:30-32 -/
def ConstReverseIterator_Equal_text : List String := [
  "func (c ConstReverseIterator[T, It]) Equal(other ConstReverseIterator[T, It]) bool {",
  "	return c.i.Equal(other.i)",
  "}"]

def ConstReverseIterator_Equal_fn : Fn := parsed% ConstReverseIterator_Equal_text

theorem ConstReverseIterator_Equal_parse : parseFn ConstReverseIterator_Equal_text = some ConstReverseIterator_Equal_fn := by kernel_rfl

/-- ds/iter/reverse.go:41-43 -/
def Reverse_text : List String := [
  "func Reverse[T any, It BidirIterator[T, It]](i It) ReverseIterator[T, It] {",
  "	return ReverseIterator[T, It]{i: i}",
  "}"]

def Reverse_fn : Fn := parsed% Reverse_text

theorem Reverse_parse : parseFn Reverse_text = some Reverse_fn := by kernel_rfl

/-- ds/iter/reverse.go:45-47 -/
def ReverseIterator_Base_text : List String := [
  "func (c ReverseIterator[T, It]) Base() It {",
  "	return c.i",
  "}"]

def ReverseIterator_Base_fn : Fn := parsed% ReverseIterator_Base_text

theorem ReverseIterator_Base_parse : parseFn ReverseIterator_Base_text = some ReverseIterator_Base_fn := by kernel_rfl

/-- ds/iter/reverse.go:49-51 -/
def ReverseIterator_Next_text : List String := [
  "func (c ReverseIterator[T, It]) Next() ReverseIterator[T, It] {",
  "	return ReverseIterator[T, It]{i: c.i.Prev()}",
  "}"]

def ReverseIterator_Next_fn : Fn := parsed% ReverseIterator_Next_text

theorem ReverseIterator_Next_parse : parseFn ReverseIterator_Next_text = some ReverseIterator_Next_fn := by kernel_rfl

/-- ds/iter/reverse.go:53-55 -/
def ReverseIterator_Prev_text : List String := [
  "func (c ReverseIterator[T, It]) Prev() ReverseIterator[T, It] {",
  "	return ReverseIterator[T, It]{i: c.i.Next()}",
  "}"]

def ReverseIterator_Prev_fn : Fn := parsed% ReverseIterator_Prev_text

theorem ReverseIterator_Prev_parse : parseFn ReverseIterator_Prev_text = some ReverseIterator_Prev_fn := by kernel_rfl

/-- ds/iter/reverse.go:57-59 -/
def ReverseIterator_Get_text : List String := [
  "func (c ReverseIterator[T, It]) Get() T {",
  "	return c.i.Prev().Get()",
  "}"]

def ReverseIterator_Get_fn : Fn := parsed% ReverseIterator_Get_text

theorem ReverseIterator_Get_parse : parseFn ReverseIterator_Get_text = some ReverseIterator_Get_fn := by kernel_rfl

/-- ds/iter/reverse.go:61-63 -/
def ReverseIterator_Set_text : List String := [
  "func (c ReverseIterator[T, It]) Set(value T) {",
  "	c.i.Prev().Set(value)",
  "}"]

def ReverseIterator_Set_fn : Fn := parsed% ReverseIterator_Set_text

theorem ReverseIterator_Set_parse : parseFn ReverseIterator_Set_text = some ReverseIterator_Set_fn := by kernel_rfl

/-- ds/iter/reverse.go:65-67 -/
def ReverseIterator_Equal_text : List String := [
  "func (c ReverseIterator[T, It]) Equal(other ReverseIterator[T, It]) bool {",
  "	return c.i.Equal(other.i)",
  "}"]

def ReverseIterator_Equal_fn : Fn := parsed% ReverseIterator_Equal_text

theorem ReverseIterator_Equal_parse : parseFn ReverseIterator_Equal_text = some ReverseIterator_Equal_fn := by kernel_rfl

/-- ds/iter/reverse.go:76-78 -/
def ConstReverseRandom_text : List String := [
  "func ConstReverseRandom[T any, It ConstRandomIterator[T, It]](i It) ConstReverseRandomIterator[T, It] {",
  "	return ConstReverseRandomIterator[T, It]{i: i}",
  "}"]

def ConstReverseRandom_fn : Fn := parsed% ConstReverseRandom_text

theorem ConstReverseRandom_parse : parseFn ConstReverseRandom_text = some ConstReverseRandom_fn := by kernel_rfl

/-- ds/iter/reverse.go:80-82 -/
def ConstReverseRandomIterator_Base_text : List String := [
  "func (c ConstReverseRandomIterator[T, It]) Base() It {",
  "	return c.i",
  "}"]

def ConstReverseRandomIterator_Base_fn : Fn := parsed% ConstReverseRandomIterator_Base_text

theorem ConstReverseRandomIterator_Base_parse : parseFn ConstReverseRandomIterator_Base_text = some ConstReverseRandomIterator_Base_fn := by kernel_rfl

/-- ds/iter/reverse.go:84-86 -/
def ConstReverseRandomIterator_Next_text : List String := [
  "func (c ConstReverseRandomIterator[T, It]) Next() ConstReverseRandomIterator[T, It] {",
  "	return ConstReverseRandomIterator[T, It]{i: c.i.Prev()}",
  "}"]

def ConstReverseRandomIterator_Next_fn : Fn := parsed% ConstReverseRandomIterator_Next_text

theorem ConstReverseRandomIterator_Next_parse : parseFn ConstReverseRandomIterator_Next_text = some ConstReverseRandomIterator_Next_fn := by kernel_rfl

/-- ds/iter/reverse.go:88-90 -/
def ConstReverseRandomIterator_Prev_text : List String := [
  "func (c ConstReverseRandomIterator[T, It]) Prev() ConstReverseRandomIterator[T, It] {",
  "	return ConstReverseRandomIterator[T, It]{i: c.i.Next()}",
  "}"]

def ConstReverseRandomIterator_Prev_fn : Fn := parsed% ConstReverseRandomIterator_Prev_text

theorem ConstReverseRandomIterator_Prev_parse : parseFn ConstReverseRandomIterator_Prev_text = some ConstReverseRandomIterator_Prev_fn := by kernel_rfl

/-- ds/iter/reverse.go:92-94 -/
def ConstReverseRandomIterator_Add_text : List String := [
  "func (c ConstReverseRandomIterator[T, It]) Add(offset int) ConstReverseRandomIterator[T, It] {",
  "	return ConstReverseRandomIterator[T, It]{i: c.i.Add(-offset)}",
  "}"]

def ConstReverseRandomIterator_Add_fn : Fn := parsed% ConstReverseRandomIterator_Add_text

theorem ConstReverseRandomIterator_Add_parse : parseFn ConstReverseRandomIterator_Add_text = some ConstReverseRandomIterator_Add_fn := by kernel_rfl

/-- ds/iter/reverse.go:96-98 -/
def ConstReverseRandomIterator_Pos_text : List String := [
  "func (c ConstReverseRandomIterator[T, It]) Pos() int {",
  "	return -c.i.Pos()",
  "}"]

def ConstReverseRandomIterator_Pos_fn : Fn := parsed% ConstReverseRandomIterator_Pos_text

theorem ConstReverseRandomIterator_Pos_parse : parseFn ConstReverseRandomIterator_Pos_text = some ConstReverseRandomIterator_Pos_fn := by kernel_rfl

/-- ds/iter/reverse.go:100-102 -/
def ConstReverseRandomIterator_Get_text : List String := [
  "func (c ConstReverseRandomIterator[T, It]) Get() T {",
  "	return c.i.Prev().Get()",
  "}"]

def ConstReverseRandomIterator_Get_fn : Fn := parsed% ConstReverseRandomIterator_Get_text

theorem ConstReverseRandomIterator_Get_parse : parseFn ConstReverseRandomIterator_Get_text = some ConstReverseRandomIterator_Get_fn := by kernel_rfl

/-- ds/iter/reverse.go:104-106 -/
def ConstReverseRandomIterator_Equal_text : List String := [
  "func (c ConstReverseRandomIterator[T, It]) Equal(other ConstReverseRandomIterator[T, It]) bool {",
  "	return c.i.Equal(other.i)",
  "}"]

def ConstReverseRandomIterator_Equal_fn : Fn := parsed% ConstReverseRandomIterator_Equal_text

theorem ConstReverseRandomIterator_Equal_parse : parseFn ConstReverseRandomIterator_Equal_text = some ConstReverseRandomIterator_Equal_fn := by kernel_rfl

/-- ds/iter/dummy.go:9-11 -/
def Dummy_text : List String := [
  "func Dummy[T any]() DummyIterator[T] {",
  "	return DummyIterator[T]{}",
  "}"]

def Dummy_fn : Fn := parsed% Dummy_text

theorem Dummy_parse : parseFn Dummy_text = some Dummy_fn := by kernel_rfl

/-- ds/iter/dummy.go:13-15 -/
def DummyIterator_Next_text : List String := [
  "func (it DummyIterator[T]) Next() DummyIterator[T] {",
  "	return it",
  "}"]

def DummyIterator_Next_fn : Fn := parsed% DummyIterator_Next_text

theorem DummyIterator_Next_parse : parseFn DummyIterator_Next_text = some DummyIterator_Next_fn := by kernel_rfl

/-- ds/iter/dummy.go:17-19 -/
def DummyIterator_Get_text : List String := [
  "func (it DummyIterator[T]) Get() T {",
  "	return generics.ZeroOf[T]()",
  "}"]

def DummyIterator_Get_fn : Fn := parsed% DummyIterator_Get_text

theorem DummyIterator_Get_parse : parseFn DummyIterator_Get_text = some DummyIterator_Get_fn := by kernel_rfl

/-- ds/iter/dummy.go:21-23 -/
def DummyIterator_Equal_text : List String := [
  "func (it DummyIterator[T]) Equal(other DummyIterator[T]) bool {",
  "	return true",
  "}"]

def DummyIterator_Equal_fn : Fn := parsed% DummyIterator_Equal_text

theorem DummyIterator_Equal_parse : parseFn DummyIterator_Equal_text = some DummyIterator_Equal_fn := by kernel_rfl

/-- ds/iter/dummy.go:25-27 -/
def DummyIterator_Prev_text : List String := [
  "func (it DummyIterator[T]) Prev() DummyIterator[T] {",
  "	return it",
  "}"]

def DummyIterator_Prev_fn : Fn := parsed% DummyIterator_Prev_text

theorem DummyIterator_Prev_parse : parseFn DummyIterator_Prev_text = some DummyIterator_Prev_fn := by kernel_rfl

/-- ds/iter/dummy.go:29-31 -/
def DummyIterator_Add_text : List String := [
  "func (it DummyIterator[T]) Add(offset int) DummyIterator[T] {",
  "	return it",
  "}"]

def DummyIterator_Add_fn : Fn := parsed% DummyIterator_Add_text

theorem DummyIterator_Add_parse : parseFn DummyIterator_Add_text = some DummyIterator_Add_fn := by kernel_rfl

/-- ds/iter/dummy.go:33-35 -/
def DummyIterator_Pos_text : List String := [
  "func (it DummyIterator[T]) Pos() int {",
  "	return 0",
  "}"]

def DummyIterator_Pos_fn : Fn := parsed% DummyIterator_Pos_text

theorem DummyIterator_Pos_parse : parseFn DummyIterator_Pos_text = some DummyIterator_Pos_fn := by kernel_rfl

/-- ds/iter/dummy.go:37-38 -/
def DummyIterator_Set_text : List String := [
  "func (it DummyIterator[T]) Set(value T) {",
  "}"]

def DummyIterator_Set_fn : Fn := parsed% DummyIterator_Set_text

theorem DummyIterator_Set_parse : parseFn DummyIterator_Set_text = some DummyIterator_Set_fn := by kernel_rfl

/-- ds/iter/inserter.go:18-20 -/
def Append_text : List String := [
  "func Append[T any](a Appender[T]) AppendIterator[T] {",
  "	return AppendIterator[T]{a: a}",
  "}"]

def Append_fn : Fn := parsed% Append_text

theorem Append_parse : parseFn Append_text = some Append_fn := by kernel_rfl

/-- ds/iter/inserter.go:22-24 -/
def AppendIterator_Next_text : List String := [
  "func (it AppendIterator[T]) Next() AppendIterator[T] {",
  "	return it",
  "}"]

def AppendIterator_Next_fn : Fn := parsed% AppendIterator_Next_text

theorem AppendIterator_Next_parse : parseFn AppendIterator_Next_text = some AppendIterator_Next_fn := by kernel_rfl

/-- ds/iter/inserter.go:26-28 -/
def AppendIterator_Get_text : List String := [
  "func (it AppendIterator[T]) Get() T {",
  "	return generics.ZeroOf[T]()",
  "}"]

def AppendIterator_Get_fn : Fn := parsed% AppendIterator_Get_text

theorem AppendIterator_Get_parse : parseFn AppendIterator_Get_text = some AppendIterator_Get_fn := by kernel_rfl

/-- ds/iter/inserter.go:30-32 -/
def AppendIterator_Equal_text : List String := [
  "func (it AppendIterator[T]) Equal(other AppendIterator[T]) bool {",
  "	return it.a == other.a",
  "}"]

def AppendIterator_Equal_fn : Fn := parsed% AppendIterator_Equal_text

theorem AppendIterator_Equal_parse : parseFn AppendIterator_Equal_text = some AppendIterator_Equal_fn := by kernel_rfl

/-- ds/iter/inserter.go:34-36 -/
def AppendIterator_Set_text : List String := [
  "func (it AppendIterator[T]) Set(value T) {",
  "	it.a.Append(value)",
  "}"]

def AppendIterator_Set_fn : Fn := parsed% AppendIterator_Set_text

theorem AppendIterator_Set_parse : parseFn AppendIterator_Set_text = some AppendIterator_Set_fn := by kernel_rfl

/-- ds/iter/inserter.go:49-51 -/
def Prepend_text : List String := [
  "func Prepend[T any](p Prepender[T]) PrependIterator[T] {",
  "	return PrependIterator[T]{p: p}",
  "}"]

def Prepend_fn : Fn := parsed% Prepend_text

theorem Prepend_parse : parseFn Prepend_text = some Prepend_fn := by kernel_rfl

/-- ds/iter/inserter.go:53-55 -/
def PrependIterator_Next_text : List String := [
  "func (it PrependIterator[T]) Next() PrependIterator[T] {",
  "	return it",
  "}"]

def PrependIterator_Next_fn : Fn := parsed% PrependIterator_Next_text

theorem PrependIterator_Next_parse : parseFn PrependIterator_Next_text = some PrependIterator_Next_fn := by kernel_rfl

/-- ds/iter/inserter.go:57-59 -/
def PrependIterator_Get_text : List String := [
  "func (it PrependIterator[T]) Get() T {",
  "	return generics.ZeroOf[T]()",
  "}"]

def PrependIterator_Get_fn : Fn := parsed% PrependIterator_Get_text

theorem PrependIterator_Get_parse : parseFn PrependIterator_Get_text = some PrependIterator_Get_fn := by kernel_rfl

/-- ds/iter/inserter.go:61-63 -/
def PrependIterator_Equal_text : List String := [
  "func (it PrependIterator[T]) Equal(other PrependIterator[T]) bool {",
  "	return it.p == other.p",
  "}"]

def PrependIterator_Equal_fn : Fn := parsed% PrependIterator_Equal_text

theorem PrependIterator_Equal_parse : parseFn PrependIterator_Equal_text = some PrependIterator_Equal_fn := by kernel_rfl

/-- ds/iter/inserter.go:65-67 -/
def PrependIterator_Set_text : List String := [
  "func (it PrependIterator[T]) Set(value T) {",
  "	it.p.Prepend(value)",
  "}"]

def PrependIterator_Set_fn : Fn := parsed% PrependIterator_Set_text

theorem PrependIterator_Set_parse : parseFn PrependIterator_Set_text = some PrependIterator_Set_fn := by kernel_rfl

/-- ds/iter/inserter.go:81-83 -/
def Insert_text : List String := [
  "func Insert[T any, It ConstIterator[T, It]](pos It, i Inserter[T, It]) *InsertIterator[T, It] {",
  "	return &InsertIterator[T, It]{ins: i, p: pos}",
  "}"]

def Insert_fn : Fn := parsed% Insert_text

theorem Insert_parse : parseFn Insert_text = some Insert_fn := by kernel_rfl

/-- ds/iter/inserter.go:85-87 -/
def InsertIterator_Next_text : List String := [
  "func (it *InsertIterator[T, It]) Next() *InsertIterator[T, It] {",
  "	return it",
  "}"]

def InsertIterator_Next_fn : Fn := parsed% InsertIterator_Next_text

theorem InsertIterator_Next_parse : parseFn InsertIterator_Next_text = some InsertIterator_Next_fn := by kernel_rfl

/-- ds/iter/inserter.go:89-91 -/
def InsertIterator_Get_text : List String := [
  "func (it *InsertIterator[T, It]) Get() T {",
  "	return generics.ZeroOf[T]()",
  "}"]

def InsertIterator_Get_fn : Fn := parsed% InsertIterator_Get_text

theorem InsertIterator_Get_parse : parseFn InsertIterator_Get_text = some InsertIterator_Get_fn := by kernel_rfl

/-- ds/iter/inserter.go:93-95 -/
def InsertIterator_Equal_text : List String := [
  "func (it *InsertIterator[T, It]) Equal(other *InsertIterator[T, It]) bool {",
  "	return it.ins == other.ins",
  "}"]

def InsertIterator_Equal_fn : Fn := parsed% InsertIterator_Equal_text

theorem InsertIterator_Equal_parse : parseFn InsertIterator_Equal_text = some InsertIterator_Equal_fn := by kernel_rfl

/-- ds/iter/inserter.go:97-99 -/
def InsertIterator_Set_text : List String := [
  "func (it *InsertIterator[T, It]) Set(value T) {",
  "	it.p = it.ins.Insert(it.p, value).Next()",
  "}"]

def InsertIterator_Set_fn : Fn := parsed% InsertIterator_Set_text

theorem InsertIterator_Set_parse : parseFn InsertIterator_Set_text = some InsertIterator_Set_fn := by kernel_rfl

/-- generics/zero.go:3-6 -/
def ZeroOf_text : List String := [
  "func ZeroOf[T any]() T {",
  "	var zero T",
  "	return zero",
  "}"]

def ZeroOf_fn : Fn := parsed% ZeroOf_text

theorem ZeroOf_parse : parseFn ZeroOf_text = some ZeroOf_fn := by kernel_rfl

end Verif.Src.IterRest
