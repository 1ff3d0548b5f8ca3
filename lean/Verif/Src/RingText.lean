import Verif.Src.Embed

/-!
# ds/xring/ring.go: the text

Written by a script from /repo; each function is quoted line by line, with the tree the parser makes of it.
-/

namespace Verif.Src.Ring

/-- ds/xring/ring.go:9-11 -/
def New_text : List String := [
  "func New[T any]() Ring[T] {",
  "	return Ring[T]{}",
  "}"]

def New_fn : Fn := parsed% New_text

theorem New_parse : parseFn New_text = some New_fn := by kernel_rfl

/-- ds/xring/ring.go:13-19 -/
def NewLen_text : List String := [
  "func NewLen[T any](len int) Ring[T] {",
  "	return Ring[T]{",
  "		buf: make([]T, len),",
  "		st:  0,",
  "		len: len,",
  "	}",
  "}"]

def NewLen_fn : Fn := parsed% NewLen_text

theorem NewLen_parse : parseFn NewLen_text = some NewLen_fn := by kernel_rfl

/-- ds/xring/ring.go:21-27 -/
def NewLenCap_text : List String := [
  "func NewLenCap[T any](len, cap int) Ring[T] {",
  "	return Ring[T]{",
  "		buf: make([]T, len, cap),",
  "		st:  0,",
  "		len: len,",
  "	}",
  "}"]

def NewLenCap_fn : Fn := parsed% NewLenCap_text

theorem NewLenCap_parse : parseFn NewLenCap_text = some NewLenCap_fn := by kernel_rfl

/-- ds/xring/ring.go:29-31 -/
def Of_text : List String := [
  "func Of[T any](values ...T) Ring[T] {",
  "	return OfSlice(values)",
  "}"]

def Of_fn : Fn := parsed% Of_text

theorem Of_parse : parseFn Of_text = some Of_fn := by kernel_rfl

/-- ds/xring/ring.go:33-39 -/
def OfSlice_text : List String := [
  "func OfSlice[T any](values []T) Ring[T] {",
  "	return Ring[T]{",
  "		buf: values,",
  "		st:  0,",
  "		len: len(values),",
  "	}",
  "}"]

def OfSlice_fn : Fn := parsed% OfSlice_text

theorem OfSlice_parse : parseFn OfSlice_text = some OfSlice_fn := by kernel_rfl

/-- ds/xring/ring.go:41-46 -/
def Copy_text : List String := [
  "func Copy[T any](values []T) Ring[T] {",
  "	if len(values) == 0 {",
  "		return New[T]()",
  "	}",
  "	return OfSlice(append([]T(nil), values...))",
  "}"]

def Copy_fn : Fn := parsed% Copy_text

theorem Copy_parse : parseFn Copy_text = some Copy_fn := by kernel_rfl

/-- ds/xring/ring.go:48-65 -/
def Ring_checkGrowth_text : List String := [
  "func (r *Ring[T]) checkGrowth() {",
  "	oldCap := len(r.buf)",
  "	if r.len == oldCap {",
  "		var newCap int",
  "		switch {",
  "		case oldCap == 0:",
  "			newCap = 4",
  "		case oldCap < 1024:",
  "			newCap = oldCap * 2",
  "		default:",
  "			newCap = oldCap * 5 / 4 // newCap = oldCap * 1.25",
  "		}",
  "		newBuf := make([]T, newCap)",
  "		r.ToSlice(newBuf)",
  "		r.buf = newBuf",
  "		r.st = 0",
  "	}",
  "}"]

def Ring_checkGrowth_fn : Fn := parsed% Ring_checkGrowth_text

theorem Ring_checkGrowth_parse : parseFn Ring_checkGrowth_text = some Ring_checkGrowth_fn := by kernel_rfl

/-- ds/xring/ring.go:67-76 -/
def Ring_checkShrink_text : List String := [
  "func (r *Ring[T]) checkShrink() {",
  "	oldCap := len(r.buf)",
  "	if oldCap > 1024 && oldCap/8 > r.len {",
  "		newCap := oldCap / 8",
  "		newBuf := make([]T, newCap)",
  "		r.ToSlice(newBuf)",
  "		r.buf = newBuf",
  "		r.st = 0",
  "	}",
  "}"]

def Ring_checkShrink_fn : Fn := parsed% Ring_checkShrink_text

theorem Ring_checkShrink_parse : parseFn Ring_checkShrink_text = some Ring_checkShrink_fn := by kernel_rfl

/-- ds/xring/ring.go:78-80 -/
def Ring_Push_text : List String := [
  "func (r *Ring[T]) Push(value T) {",
  "	r.Append(value)",
  "}"]

def Ring_Push_fn : Fn := parsed% Ring_Push_text

theorem Ring_Push_parse : parseFn Ring_Push_text = some Ring_Push_fn := by kernel_rfl

/-- ds/xring/ring.go:82-89 -/
def Ring_Pop_text : List String := [
  "func (r *Ring[T]) Pop() T {",
  "	if r.Empty() {",
  r#"		panic("pop from empty queu")"#,
  "	}",
  "	v := r.First()",
  "	r.DeleteFirst()",
  "	return v",
  "}"]

def Ring_Pop_fn : Fn := parsed% Ring_Pop_text

theorem Ring_Pop_parse : parseFn Ring_Pop_text = some Ring_Pop_fn := by kernel_rfl

/-- ds/xring/ring.go:91-99 -/
def Ring_Append_text : List String := [
  "func (r *Ring[T]) Append(value T) {",
  "	r.checkGrowth()",
  "	i := r.st + r.len",
  "	if i >= len(r.buf) {",
  "		i -= len(r.buf)",
  "	}",
  "	r.buf[i] = value",
  "	r.len++",
  "}"]

def Ring_Append_fn : Fn := parsed% Ring_Append_text

theorem Ring_Append_parse : parseFn Ring_Append_text = some Ring_Append_fn := by kernel_rfl

/-- ds/xring/ring.go:101-110 -/
def Ring_Prepend_text : List String := [
  "func (r *Ring[T]) Prepend(value T) {",
  "	r.checkGrowth()",
  "	i := r.st - 1",
  "	if i < 0 {",
  "		i += len(r.buf)",
  "	}",
  "	r.buf[i] = value",
  "	r.st = i",
  "	r.len++",
  "}"]

def Ring_Prepend_fn : Fn := parsed% Ring_Prepend_text

theorem Ring_Prepend_parse : parseFn Ring_Prepend_text = some Ring_Prepend_fn := by kernel_rfl

/-- ds/xring/ring.go:112-124 -/
def Ring_DeleteLast_text : List String := [
  "func (r *Ring[T]) DeleteLast() {",
  "	if r.len == 0 {",
  r#"		panic("delete from empty queue")"#,
  "	}",
  "	r.checkShrink()",
  "	i := r.st + r.len - 1",
  "	if i >= len(r.buf) {",
  "		i -= len(r.buf)",
  "	}",
  "	var zero T",
  "	r.buf[i] = zero",
  "	r.len--",
  "}"]

def Ring_DeleteLast_fn : Fn := parsed% Ring_DeleteLast_text

theorem Ring_DeleteLast_parse : parseFn Ring_DeleteLast_text = some Ring_DeleteLast_fn := by kernel_rfl

/-- ds/xring/ring.go:126-138 -/
def Ring_DeleteFirst_text : List String := [
  "func (r *Ring[T]) DeleteFirst() {",
  "	if r.len == 0 {",
  r#"		panic("delete from empty queue")"#,
  "	}",
  "	r.checkShrink()",
  "	var zero T",
  "	r.buf[r.st] = zero",
  "	r.st++",
  "	r.len--",
  "	if r.st == len(r.buf) {",
  "		r.st = 0",
  "	}",
  "}"]

def Ring_DeleteFirst_fn : Fn := parsed% Ring_DeleteFirst_text

theorem Ring_DeleteFirst_parse : parseFn Ring_DeleteFirst_text = some Ring_DeleteFirst_fn := by kernel_rfl

/-- ds/xring/ring.go:140-142 -/
def Ring_Len_text : List String := [
  "func (r Ring[T]) Len() int {",
  "	return r.len",
  "}"]

def Ring_Len_fn : Fn := parsed% Ring_Len_text

theorem Ring_Len_parse : parseFn Ring_Len_text = some Ring_Len_fn := by kernel_rfl

/-- ds/xring/ring.go:144-146 -/
def Ring_Cap_text : List String := [
  "func (r Ring[T]) Cap() int {",
  "	return len(r.buf)",
  "}"]

def Ring_Cap_fn : Fn := parsed% Ring_Cap_text

theorem Ring_Cap_parse : parseFn Ring_Cap_text = some Ring_Cap_fn := by kernel_rfl

/-- ds/xring/ring.go:148-150 -/
def Ring_Empty_text : List String := [
  "func (r Ring[T]) Empty() bool {",
  "	return r.len == 0",
  "}"]

def Ring_Empty_fn : Fn := parsed% Ring_Empty_text

theorem Ring_Empty_parse : parseFn Ring_Empty_text = some Ring_Empty_fn := by kernel_rfl

/-- ds/xring/ring.go:152-168 -/
def Ring_ToSlice_text : List String := [
  "func (r Ring[T]) ToSlice(s []T) []T {",
  "	if r.len == 0 {",
  "		return nil",
  "	}",
  "	if s == nil {",
  "		s = make([]T, 0, r.Len())",
  "	} else {",
  "		s = s[:0]",
  "	}",
  "	if r.st+r.len <= len(r.buf) {",
  "		s = append(s, r.buf[r.st:r.st+r.len]...)",
  "	} else {",
  "		s = append(s, r.buf[r.st:]...)",
  "		s = append(s, r.buf[:r.st+r.len-len(r.buf)]...)",
  "	}",
  "	return s",
  "}"]

def Ring_ToSlice_fn : Fn := parsed% Ring_ToSlice_text

theorem Ring_ToSlice_parse : parseFn Ring_ToSlice_text = some Ring_ToSlice_fn := by kernel_rfl

/-- ds/xring/ring.go:170-179 -/
def Ring_AtRef_text : List String := [
  "func (r Ring[T]) AtRef(i int) *T {",
  "	if i < 0 || r.len <= i {",
  r#"		panic("index out of bound")"#,
  "	}",
  "	i += r.st",
  "	if i >= len(r.buf) {",
  "		i -= len(r.buf)",
  "	}",
  "	return &r.buf[i]",
  "}"]

def Ring_AtRef_fn : Fn := parsed% Ring_AtRef_text

theorem Ring_AtRef_parse : parseFn Ring_AtRef_text = some Ring_AtRef_fn := by kernel_rfl

/-- ds/xring/ring.go:181-183 -/
def Ring_At_text : List String := [
  "func (r Ring[T]) At(i int) T {",
  "	return *r.AtRef(i)",
  "}"]

def Ring_At_fn : Fn := parsed% Ring_At_text

theorem Ring_At_parse : parseFn Ring_At_text = some Ring_At_fn := by kernel_rfl

/-- ds/xring/ring.go:185-187 -/
def Ring_Set_text : List String := [
  "func (r Ring[T]) Set(i int, value T) {",
  "	*r.AtRef(i) = value",
  "}"]

def Ring_Set_fn : Fn := parsed% Ring_Set_text

theorem Ring_Set_parse : parseFn Ring_Set_text = some Ring_Set_fn := by kernel_rfl

/-- ds/xring/ring.go:189-194 -/
def Ring_First_text : List String := [
  "func (r Ring[T]) First() T {",
  "	if r.len == 0 {",
  r#"		panic("get from empty queue")"#,
  "	}",
  "	return r.buf[r.st]",
  "}"]

def Ring_First_fn : Fn := parsed% Ring_First_text

theorem Ring_First_parse : parseFn Ring_First_text = some Ring_First_fn := by kernel_rfl

/-- ds/xring/ring.go:196-205 -/
def Ring_Last_text : List String := [
  "func (r Ring[T]) Last() T {",
  "	if r.len == 0 {",
  r#"		panic("get from empty queue")"#,
  "	}",
  "	i := r.st + r.len - 1",
  "	if i >= len(r.buf) {",
  "		i -= len(r.buf)",
  "	}",
  "	return r.buf[i]",
  "}"]

def Ring_Last_fn : Fn := parsed% Ring_Last_text

theorem Ring_Last_parse : parseFn Ring_Last_text = some Ring_Last_fn := by kernel_rfl

end Verif.Src.Ring
