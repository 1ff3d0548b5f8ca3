import Verif.Src.Embed

/-!
# algo: the text

Written by a script from /repo; each function is quoted line by line, with the tree the parser makes of it.
-/

namespace Verif.Src.Algo

/-- algo/binary_search.go:9-27 -/
def UpperBoundIterators_text : List String := [
  "func UpperBoundIterators[T any, It iter.ConstRandomIterator[T, It]](first, last It, value T, comp xfn.Comparator[T]) It {",
  "	count := iter.Distance[T](first, last)",
  "	if count < 0 {",
  r#"		panic("invalid range")"#,
  "	}",
  "	for count > 0 {",
  "		it := first",
  "		step := count / 2",
  "		it = it.Add(step)",
  "		if !comp(value, it.Get()) {",
  "			it = it.Next()",
  "			first = it",
  "			count -= step + 1",
  "		} else {",
  "			count = step",
  "		}",
  "	}",
  "	return first",
  "}"]

def UpperBoundIterators_fn : Fn := parsed% UpperBoundIterators_text

theorem UpperBoundIterators_parse : parseFn UpperBoundIterators_text = some UpperBoundIterators_fn := by kernel_rfl

/-- algo/binary_search.go:29-47 -/
def LowerBoundIterators_text : List String := [
  "func LowerBoundIterators[T any, It iter.ConstRandomIterator[T, It]](first, last It, value T, comp xfn.Comparator[T]) It {",
  "	count := iter.Distance[T](first, last)",
  "	if count < 0 {",
  r#"		panic("invalid range")"#,
  "	}",
  "	for count > 0 {",
  "		it := first",
  "		step := count / 2",
  "		it = it.Add(step)",
  "		if comp(it.Get(), value) {",
  "			it = it.Next()",
  "			first = it",
  "			count -= step + 1",
  "		} else {",
  "			count = step",
  "		}",
  "	}",
  "	return first",
  "}"]

def LowerBoundIterators_fn : Fn := parsed% LowerBoundIterators_text

theorem LowerBoundIterators_parse : parseFn LowerBoundIterators_text = some LowerBoundIterators_fn := by kernel_rfl

/-- algo/binary_search.go:49-51 -/
def UpperBound_text : List String := [
  "func UpperBound[T constraints.Ordered, It iter.ConstRandomIterator[T, It]](r iter.Range[T, It], value T) It {",
  "	return UpperBoundIterators[T](r.Begin, r.End, value, xfn.Less[T])",
  "}"]

def UpperBound_fn : Fn := parsed% UpperBound_text

theorem UpperBound_parse : parseFn UpperBound_text = some UpperBound_fn := by kernel_rfl

/-- algo/binary_search.go:53-55 -/
def LowerBound_text : List String := [
  "func LowerBound[T constraints.Ordered, It iter.ConstRandomIterator[T, It]](r iter.Range[T, It], value T) It {",
  "	return LowerBoundIterators[T](r.Begin, r.End, value, xfn.Less[T])",
  "}"]

def LowerBound_fn : Fn := parsed% LowerBound_text

theorem LowerBound_parse : parseFn LowerBound_text = some LowerBound_fn := by kernel_rfl

/-- algo/binary_search.go:57-59 -/
def UpperBoundAny_text : List String := [
  "func UpperBoundAny[T any, It iter.ConstRandomIterator[T, It]](r iter.Range[T, It], value T, comp xfn.Comparator[T]) It {",
  "	return UpperBoundIterators[T](r.Begin, r.End, value, comp)",
  "}"]

def UpperBoundAny_fn : Fn := parsed% UpperBoundAny_text

theorem UpperBoundAny_parse : parseFn UpperBoundAny_text = some UpperBoundAny_fn := by kernel_rfl

/-- algo/binary_search.go:61-63 -/
def LowerBoundAny_text : List String := [
  "func LowerBoundAny[T any, It iter.ConstRandomIterator[T, It]](r iter.Range[T, It], value T, comp xfn.Comparator[T]) It {",
  "	return LowerBoundIterators[T](r.Begin, r.End, value, comp)",
  "}"]

def LowerBoundAny_fn : Fn := parsed% LowerBoundAny_text

theorem LowerBoundAny_parse : parseFn LowerBoundAny_text = some LowerBoundAny_fn := by kernel_rfl

/-- algo/fill.go:7-13 -/
def FillN_text : List String := [
  "func FillN[T any, It iter.Iterator[T, It]](first It, count int, value T) It {",
  "	for i := 0; i < count; i++ {",
  "		first.Set(value)",
  "		first = first.Next()",
  "	}",
  "	return first",
  "}"]

def FillN_fn : Fn := parsed% FillN_text

theorem FillN_parse : parseFn FillN_text = some FillN_fn := by kernel_rfl

/-- algo/generic.go:8-15 -/
def Swap_text : List String := [
  "func Swap[T any, It iter.Iterator[T, It]](a, b It) {",
  "	if !a.Equal(b) {",
  "		va := a.Get()",
  "		vb := b.Get()",
  "		a.Set(vb)",
  "		b.Set(va)",
  "	}",
  "}"]

def Swap_fn : Fn := parsed% Swap_text

theorem Swap_parse : parseFn Swap_text = some Swap_fn := by kernel_rfl

/-- algo/generic.go:18-27 -/
def Reverse_text : List String := [
  "func Reverse[T any, It iter.BidirIterator[T, It]](first, last It) {",
  "	for !first.Equal(last) {",
  "		last = last.Prev()",
  "		if first.Equal(last) {",
  "			break",
  "		}",
  "		Swap[T](first, last)",
  "		first = first.Next()",
  "	}",
  "}"]

def Reverse_fn : Fn := parsed% Reverse_text

theorem Reverse_parse : parseFn Reverse_text = some Reverse_fn := by kernel_rfl

/-- algo/is_sorted.go:9-21 -/
def IsSortedUntilIterators_text : List String := [
  "func IsSortedUntilIterators[T any, It iter.ConstIterator[T, It]](first, last It, comp xfn.Comparator[T]) It {",
  "	if !first.Equal(last) {",
  "		next := first.Next()",
  "		for !next.Equal(last) {",
  "			if comp(next.Get(), first.Get()) {",
  "				return next",
  "			}",
  "			first = next",
  "			next = next.Next()",
  "		}",
  "	}",
  "	return last",
  "}"]

def IsSortedUntilIterators_fn : Fn := parsed% IsSortedUntilIterators_text

theorem IsSortedUntilIterators_parse : parseFn IsSortedUntilIterators_text = some IsSortedUntilIterators_fn := by kernel_rfl

/-- algo/is_sorted.go:23-25 -/
def IsSortedIterators_text : List String := [
  "func IsSortedIterators[T any, It iter.ConstIterator[T, It]](first, last It, comp xfn.Comparator[T]) bool {",
  "	return IsSortedUntilIterators(first, last, comp).Equal(last)",
  "}"]

def IsSortedIterators_fn : Fn := parsed% IsSortedIterators_text

theorem IsSortedIterators_parse : parseFn IsSortedIterators_text = some IsSortedIterators_fn := by kernel_rfl

/-- algo/is_sorted.go:27-29 -/
def IsSortedUntil_text : List String := [
  "func IsSortedUntil[T constraints.Ordered, It iter.ConstIterator[T, It]](r iter.Range[T, It]) It {",
  "	return IsSortedUntilIterators[T, It](r.Begin, r.End, xfn.Less[T])",
  "}"]

def IsSortedUntil_fn : Fn := parsed% IsSortedUntil_text

theorem IsSortedUntil_parse : parseFn IsSortedUntil_text = some IsSortedUntil_fn := by kernel_rfl

/-- algo/is_sorted.go:31-33 -/
def IsSorted_text : List String := [
  "func IsSorted[T constraints.Ordered, It iter.ConstIterator[T, It]](r iter.Range[T, It]) bool {",
  "	return IsSortedIterators(r.Begin, r.End, xfn.Less[T])",
  "}"]

def IsSorted_fn : Fn := parsed% IsSorted_text

theorem IsSorted_parse : parseFn IsSorted_text = some IsSorted_fn := by kernel_rfl

/-- algo/is_sorted.go:35-37 -/
def IsSortedUntilAny_text : List String := [
  "func IsSortedUntilAny[T any, It iter.ConstIterator[T, It]](r iter.Range[T, It], comp xfn.Comparator[T]) It {",
  "	return IsSortedUntilIterators[T, It](r.Begin, r.End, comp)",
  "}"]

def IsSortedUntilAny_fn : Fn := parsed% IsSortedUntilAny_text

theorem IsSortedUntilAny_parse : parseFn IsSortedUntilAny_text = some IsSortedUntilAny_fn := by kernel_rfl

/-- algo/is_sorted.go:39-41 -/
def IsSortedAny_text : List String := [
  "func IsSortedAny[T any, It iter.ConstIterator[T, It]](r iter.Range[T, It], comp xfn.Comparator[T]) bool {",
  "	return IsSortedIterators(r.Begin, r.End, comp)",
  "}"]

def IsSortedAny_fn : Fn := parsed% IsSortedAny_text

theorem IsSortedAny_parse : parseFn IsSortedAny_text = some IsSortedAny_fn := by kernel_rfl

/-- algo/next_permutation.go:9-19 -/
def NextPermutationIterators_text : List String := [
  "func NextPermutationIterators[T any, It iter.RandomIterator[T, It]](first, last It, comp xfn.Comparator[T]) bool {",
  "	rFirst := iter.ReverseRandom[T](last)",
  "	rLast := iter.ReverseRandom[T](first)",
  "	left := IsSortedUntilIterators(rFirst, rLast, comp)",
  "	if !left.Equal(rLast) {",
  "		right := UpperBoundIterators[T](rFirst, left, left.Get(), comp)",
  "		Swap[T](left, right)",
  "	}",
  "	Reverse[T](left.Base(), last)",
  "	return !left.Equal(rLast)",
  "}"]

def NextPermutationIterators_fn : Fn := parsed% NextPermutationIterators_text

theorem NextPermutationIterators_parse : parseFn NextPermutationIterators_text = some NextPermutationIterators_fn := by kernel_rfl

/-- algo/next_permutation.go:21-23 -/
def NextPermutation_text : List String := [
  "func NextPermutation[T constraints.Ordered, It iter.RandomIterator[T, It]](r iter.Range[T, It]) bool {",
  "	return NextPermutationIterators(r.Begin, r.End, xfn.Less[T])",
  "}"]

def NextPermutation_fn : Fn := parsed% NextPermutation_text

theorem NextPermutation_parse : parseFn NextPermutation_text = some NextPermutation_fn := by kernel_rfl

/-- algo/next_permutation.go:25-27 -/
def NextPermutationAny_text : List String := [
  "func NextPermutationAny[T any, It iter.RandomIterator[T, It]](r iter.Range[T, It], comp xfn.Comparator[T]) bool {",
  "	return NextPermutationIterators(r.Begin, r.End, comp)",
  "}"]

def NextPermutationAny_fn : Fn := parsed% NextPermutationAny_text

theorem NextPermutationAny_parse : parseFn NextPermutationAny_text = some NextPermutationAny_fn := by kernel_rfl

end Verif.Src.Algo
