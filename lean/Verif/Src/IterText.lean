import Verif.Src.Embed

/-!
# ds/iter (reverse.go, funcs.go, range.go) and xfn.Less: the text

Written by a script from /repo; each function is quoted line by line, with the tree the parser makes of it.
-/

namespace Verif.Src.Algo

/-- ds/iter/reverse.go:115-117 -/
def ReverseRandom_text : List String := [
  "func ReverseRandom[T any, It RandomIterator[T, It]](i It) ReverseRandomIterator[T, It] {",
  "	return ReverseRandomIterator[T, It]{i: i}",
  "}"]

def ReverseRandom_fn : Fn := parsed% ReverseRandom_text

theorem ReverseRandom_parse : parseFn ReverseRandom_text = some ReverseRandom_fn := by kernel_rfl

/-- ds/iter/reverse.go:119-121 -/
def ReverseRandomIterator_Base_text : List String := [
  "func (c ReverseRandomIterator[T, It]) Base() It {",
  "	return c.i",
  "}"]

def ReverseRandomIterator_Base_fn : Fn := parsed% ReverseRandomIterator_Base_text

theorem ReverseRandomIterator_Base_parse : parseFn ReverseRandomIterator_Base_text = some ReverseRandomIterator_Base_fn := by kernel_rfl

/-- ds/iter/reverse.go:123-125 -/
def ReverseRandomIterator_Next_text : List String := [
  "func (c ReverseRandomIterator[T, It]) Next() ReverseRandomIterator[T, It] {",
  "	return ReverseRandomIterator[T, It]{i: c.i.Prev()}",
  "}"]

def ReverseRandomIterator_Next_fn : Fn := parsed% ReverseRandomIterator_Next_text

theorem ReverseRandomIterator_Next_parse : parseFn ReverseRandomIterator_Next_text = some ReverseRandomIterator_Next_fn := by kernel_rfl

/-- ds/iter/reverse.go:127-129 -/
def ReverseRandomIterator_Prev_text : List String := [
  "func (c ReverseRandomIterator[T, It]) Prev() ReverseRandomIterator[T, It] {",
  "	return ReverseRandomIterator[T, It]{i: c.i.Next()}",
  "}"]

def ReverseRandomIterator_Prev_fn : Fn := parsed% ReverseRandomIterator_Prev_text

theorem ReverseRandomIterator_Prev_parse : parseFn ReverseRandomIterator_Prev_text = some ReverseRandomIterator_Prev_fn := by kernel_rfl

/-- ds/iter/reverse.go:131-133 -/
def ReverseRandomIterator_Add_text : List String := [
  "func (c ReverseRandomIterator[T, It]) Add(offset int) ReverseRandomIterator[T, It] {",
  "	return ReverseRandomIterator[T, It]{i: c.i.Add(-offset)}",
  "}"]

def ReverseRandomIterator_Add_fn : Fn := parsed% ReverseRandomIterator_Add_text

theorem ReverseRandomIterator_Add_parse : parseFn ReverseRandomIterator_Add_text = some ReverseRandomIterator_Add_fn := by kernel_rfl

/-- ds/iter/reverse.go:135-137 -/
def ReverseRandomIterator_Pos_text : List String := [
  "func (c ReverseRandomIterator[T, It]) Pos() int {",
  "	return -c.i.Pos()",
  "}"]

def ReverseRandomIterator_Pos_fn : Fn := parsed% ReverseRandomIterator_Pos_text

theorem ReverseRandomIterator_Pos_parse : parseFn ReverseRandomIterator_Pos_text = some ReverseRandomIterator_Pos_fn := by kernel_rfl

/-- ds/iter/reverse.go:139-141 -/
def ReverseRandomIterator_Get_text : List String := [
  "func (c ReverseRandomIterator[T, It]) Get() T {",
  "	return c.i.Prev().Get()",
  "}"]

def ReverseRandomIterator_Get_fn : Fn := parsed% ReverseRandomIterator_Get_text

theorem ReverseRandomIterator_Get_parse : parseFn ReverseRandomIterator_Get_text = some ReverseRandomIterator_Get_fn := by kernel_rfl

/-- ds/iter/reverse.go:143-145 -/
def ReverseRandomIterator_Set_text : List String := [
  "func (c ReverseRandomIterator[T, It]) Set(value T) {",
  "	c.i.Prev().Set(value)",
  "}"]

def ReverseRandomIterator_Set_fn : Fn := parsed% ReverseRandomIterator_Set_text

theorem ReverseRandomIterator_Set_parse : parseFn ReverseRandomIterator_Set_text = some ReverseRandomIterator_Set_fn := by kernel_rfl

/-- ds/iter/reverse.go:147-149 -/
def ReverseRandomIterator_Equal_text : List String := [
  "func (c ReverseRandomIterator[T, It]) Equal(other ReverseRandomIterator[T, It]) bool {",
  "	return c.i.Equal(other.i)",
  "}"]

def ReverseRandomIterator_Equal_fn : Fn := parsed% ReverseRandomIterator_Equal_text

theorem ReverseRandomIterator_Equal_parse : parseFn ReverseRandomIterator_Equal_text = some ReverseRandomIterator_Equal_fn := by kernel_rfl

/-- ds/iter/funcs.go:3-6 -/
def Distance_text : List String := [
  "func Distance[T any, It ConstRandomIterator[T, It]](a, b It) int {",
  "	_ = a.Equal(b)",
  "	return b.Pos() - a.Pos()",
  "}"]

def Distance_fn : Fn := parsed% Distance_text

theorem Distance_parse : parseFn Distance_text = some Distance_fn := by kernel_rfl

/-- ds/iter/range.go:8-10 -/
def MakeRange_text : List String := [
  "func MakeRange[T any, It ConstIterator[T, It]](begin, end It) Range[T, It] {",
  "	return Range[T, It]{Begin: begin, End: end}",
  "}"]

def MakeRange_fn : Fn := parsed% MakeRange_text

theorem MakeRange_parse : parseFn MakeRange_text = some MakeRange_fn := by kernel_rfl

/-- ds/iter/range.go:12-14 -/
def ReverseRandomRange_text : List String := [
  "func ReverseRandomRange[T any, It RandomIterator[T, It]](r Range[T, It]) Range[T, ReverseRandomIterator[T, It]] {",
  "	return MakeRange[T](ReverseRandom[T](r.Begin), ReverseRandom[T](r.End))",
  "}"]

def ReverseRandomRange_fn : Fn := parsed% ReverseRandomRange_text

theorem ReverseRandomRange_parse : parseFn ReverseRandomRange_text = some ReverseRandomRange_fn := by kernel_rfl

/-- ds/iter/range.go:16-18 -/
def SubRange_text : List String := [
  "func SubRange[T any, It ConstRandomIterator[T, It]](r Range[T, It], first, last int) Range[T, It] {",
  "	return MakeRange[T](r.Begin.Add(first), r.Begin.Add(last))",
  "}"]

def SubRange_fn : Fn := parsed% SubRange_text

theorem SubRange_parse : parseFn SubRange_text = some SubRange_fn := by kernel_rfl

/-- ds/iter/range.go:20-22 -/
def RangeDistance_text : List String := [
  "func RangeDistance[T any, It ConstRandomIterator[T, It]](r Range[T, It]) int {",
  "	return r.End.Pos() - r.Begin.Pos()",
  "}"]

def RangeDistance_fn : Fn := parsed% RangeDistance_text

theorem RangeDistance_parse : parseFn RangeDistance_text = some RangeDistance_fn := by kernel_rfl

/-- xfn/predicate.go:171-173 -/
def xfn_Less_text : List String := [
  "func Less[T constraints.Ordered](lhs, rhs T) bool {",
  "	return lhs < rhs",
  "}"]

def xfn_Less_fn : Fn := parsed% xfn_Less_text

theorem xfn_Less_parse : parseFn xfn_Less_text = some xfn_Less_fn := by kernel_rfl

end Verif.Src.Algo
