import Verif.Src.Embed

/-!
# xmath, and the functions of xfn that make no functions: the text

Written by a script from /repo; each function is quoted line by line, with the tree the parser makes of it.
-/

namespace Verif.Src.Fns

/-- xmath/number.go:7-13 -/
def Min_text : List String := [
  "func Min[T constraints.Ordered](a, b T) T {",
  "	if a <= b {",
  "		return a",
  "	} else {",
  "		return b",
  "	}",
  "}"]

def Min_fn : Fn := parsed% Min_text

theorem Min_parse : parseFn Min_text = some Min_fn := by kernel_rfl

/-- xmath/number.go:15-21 -/
def Max_text : List String := [
  "func Max[T constraints.Ordered](a, b T) T {",
  "	if a >= b {",
  "		return a",
  "	} else {",
  "		return b",
  "	}",
  "}"]

def Max_fn : Fn := parsed% Max_text

theorem Max_parse : parseFn Max_text = some Max_fn := by kernel_rfl

/-- xfn/comparator.go:14-23 -/
def FullComparatorOf_text : List String := [
  "func FullComparatorOf[T constraints.Ordered](a, b T) int {",
  "	switch {",
  "	case a < b:",
  "		return -1",
  "	case a > b:",
  "		return 1",
  "	default:",
  "		return 0",
  "	}",
  "}"]

def FullComparatorOf_fn : Fn := parsed% FullComparatorOf_text

theorem FullComparatorOf_parse : parseFn FullComparatorOf_text = some FullComparatorOf_fn := by kernel_rfl

/-- xfn/arithmetic.go:37-39 -/
def PlusOp_text : List String := [
  "func PlusOp[T constraints.Ordered](lhs, rhs T) T {",
  "	return lhs + rhs",
  "}"]

def PlusOp_fn : Fn := parsed% PlusOp_text

theorem PlusOp_parse : parseFn PlusOp_text = some PlusOp_fn := by kernel_rfl

/-- xfn/arithmetic.go:41-43 -/
def MultOp_text : List String := [
  "func MultOp[T constraints.Number](lhs, rhs T) T {",
  "	return lhs * rhs",
  "}"]

def MultOp_fn : Fn := parsed% MultOp_text

theorem MultOp_parse : parseFn MultOp_text = some MultOp_fn := by kernel_rfl

/-- xfn/arithmetic.go:45-48 -/
def DivOp_text : List String := [
  "func DivOp[T constraints.Number](lhs, rhs T) T {",
  "	return lhs / rhs",
  "",
  "}"]

def DivOp_fn : Fn := parsed% DivOp_text

theorem DivOp_parse : parseFn DivOp_text = some DivOp_fn := by kernel_rfl

/-- xfn/arithmetic.go:50-52 -/
def ModOp_text : List String := [
  "func ModOp[T constraints.Integer](lhs, rhs T) T {",
  "	return lhs % rhs",
  "}"]

def ModOp_fn : Fn := parsed% ModOp_text

theorem ModOp_parse : parseFn ModOp_text = some ModOp_fn := by kernel_rfl

/-- xfn/predicate.go:155-157 -/
def Equal_text : List String := [
  "func Equal[T comparable](lhs, rhs T) bool {",
  "	return lhs == rhs",
  "}"]

def Equal_fn : Fn := parsed% Equal_text

theorem Equal_parse : parseFn Equal_text = some Equal_fn := by kernel_rfl

/-- xfn/predicate.go:159-161 -/
def NotEqual_text : List String := [
  "func NotEqual[T comparable](lhs, rhs T) bool {",
  "	return lhs != rhs",
  "}"]

def NotEqual_fn : Fn := parsed% NotEqual_text

theorem NotEqual_parse : parseFn NotEqual_text = some NotEqual_fn := by kernel_rfl

/-- xfn/predicate.go:163-165 -/
def Greater_text : List String := [
  "func Greater[T constraints.Ordered](lhs, rhs T) bool {",
  "	return lhs > rhs",
  "}"]

def Greater_fn : Fn := parsed% Greater_text

theorem Greater_parse : parseFn Greater_text = some Greater_fn := by kernel_rfl

/-- xfn/predicate.go:167-169 -/
def GreaterEq_text : List String := [
  "func GreaterEq[T constraints.Ordered](lhs, rhs T) bool {",
  "	return lhs >= rhs",
  "}"]

def GreaterEq_fn : Fn := parsed% GreaterEq_text

theorem GreaterEq_parse : parseFn GreaterEq_text = some GreaterEq_fn := by kernel_rfl

/-- xfn/predicate.go:171-173 -/
def Less_text : List String := [
  "func Less[T constraints.Ordered](lhs, rhs T) bool {",
  "	return lhs < rhs",
  "}"]

def Less_fn : Fn := parsed% Less_text

theorem Less_parse : parseFn Less_text = some Less_fn := by kernel_rfl

/-- xfn/predicate.go:175-177 -/
def LessEq_text : List String := [
  "func LessEq[T constraints.Ordered](lhs, rhs T) bool {",
  "	return lhs <= rhs",
  "}"]

def LessEq_fn : Fn := parsed% LessEq_text

theorem LessEq_parse : parseFn LessEq_text = some LessEq_fn := by kernel_rfl

/-- xfn/predicate.go:179-187 -/
def LessFloat_text : List String := [
  "func LessFloat[T constraints.Float](lhs, rhs T) bool {",
  "	lhsNan := lhs != lhs",
  "	rhsNan := rhs != rhs",
  "	if lhsNan || rhsNan {",
  "		return lhsNan && !rhsNan",
  "	} else {",
  "		return lhs < rhs",
  "	}",
  "}"]

def LessFloat_fn : Fn := parsed% LessFloat_text

theorem LessFloat_parse : parseFn LessFloat_text = some LessFloat_fn := by kernel_rfl

end Verif.Src.Fns
