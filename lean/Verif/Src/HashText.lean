import Verif.Src.Embed

/-!
# xhash (fast64.go and binary.go): the text

Written by a script from /repo; each function is quoted line by line, with the tree the parser makes of it.
-/

namespace Verif.Src.Hash

/-- xhash/fast64.go:12-14 -/
def consts_text : List String := [
  "	key64_000 uint64 = 0xbe4ba423396cfeb8",
  "	key64_008 uint64 = 0x1cad21f72c81017c",
  "	key64_016 uint64 = 0xdb979083e96dd4de"]

/-- The constants that lines `x T = n` declare. -/
def constants : List Tok → List (String × Int)
  | .id x :: .id _ :: .op "=" :: .int n :: .op ";" :: l => (x, (n : Int)) :: constants l
  | _ => []

/-- xhash/fast64.go:17-19 -/
def NewFast64_text : List String := [
  "func NewFast64() Incremental64 {",
  "	return Incremental64{h: key64_000}",
  "}"]

def NewFast64_fn : Fn := parsed% NewFast64_text

theorem NewFast64_parse : parseFn NewFast64_text = some NewFast64_fn := by kernel_rfl

/-- xhash/fast64.go:21-28 -/
def rrmxmx_text : List String := [
  "func rrmxmx(h64 uint64) uint64 {",
  "	h64 ^= bits.RotateLeft64(h64, 49) ^ bits.RotateLeft64(h64, 24)",
  "	h64 *= 0x9fb21c651e98df25",
  "	h64 ^= (h64 >> 35) + 8",
  "	h64 *= 0x9fb21c651e98df25",
  "	h64 ^= h64 >> 28",
  "	return h64",
  "}"]

def rrmxmx_fn : Fn := parsed% rrmxmx_text

theorem rrmxmx_parse : parseFn rrmxmx_text = some rrmxmx_fn := by kernel_rfl

/-- xhash/fast64.go:30-33 -/
def Uint64_text : List String := [
  "func Uint64(v uint64) uint64 {",
  "	keyed := v ^ (key64_008 ^ key64_016)",
  "	return rrmxmx(keyed)",
  "}"]

def Uint64_fn : Fn := parsed% Uint64_text

theorem Uint64_parse : parseFn Uint64_text = some Uint64_fn := by kernel_rfl

/-- xhash/fast64.go:36-40 -/
def Uint64Seed_text : List String := [
  "func Uint64Seed(v uint64, seed uint64) uint64 {",
  "	seed ^= uint64(bits.ReverseBytes32(uint32(seed))) << 32",
  "	keyed := v ^ (key64_008 ^ key64_016 - seed)",
  "	return rrmxmx(keyed)",
  "}"]

def Uint64Seed_fn : Fn := parsed% Uint64Seed_text

theorem Uint64Seed_parse : parseFn Uint64Seed_text = some Uint64Seed_fn := by kernel_rfl

/-- xhash/fast64.go:42-44 -/
def Incremental64_WriteUint64_text : List String := [
  "func (f *Incremental64) WriteUint64(v uint64) {",
  "	f.h = Uint64Seed(v, f.h)",
  "}"]

def Incremental64_WriteUint64_fn : Fn := parsed% Incremental64_WriteUint64_text

theorem Incremental64_WriteUint64_parse : parseFn Incremental64_WriteUint64_text = some Incremental64_WriteUint64_fn := by kernel_rfl

/-- xhash/fast64.go:46-58 -/
def Incremental64_Write_text : List String := [
  "func (f *Incremental64) Write(p []byte) (n int, err error) {",
  "	i := 0",
  "	f.WriteUint64(uint64(len(p)))",
  "	for ; i < len(p); i += 8 {",
  "		f.WriteUint64(toUint64(p[i : i+8]))",
  "	}",
  "	if i < len(p) {",
  "		var rem [8]byte",
  "		copy(rem[:], p[i:])",
  "		f.WriteUint64(toUint64(rem[:]))",
  "	}",
  "	return i, nil",
  "}"]

def Incremental64_Write_fn : Fn := parsed% Incremental64_Write_text

theorem Incremental64_Write_parse : parseFn Incremental64_Write_text = some Incremental64_Write_fn := by kernel_rfl

/-- xhash/fast64.go:60-64 -/
def Incremental64_Sum_text : List String := [
  "func (f *Incremental64) Sum(b []byte) []byte {",
  "	var a [8]byte",
  "	putUint64(a[:], f.Sum64())",
  "	return append(b, a[:]...)",
  "}"]

def Incremental64_Sum_fn : Fn := parsed% Incremental64_Sum_text

theorem Incremental64_Sum_parse : parseFn Incremental64_Sum_text = some Incremental64_Sum_fn := by kernel_rfl

/-- xhash/fast64.go:66-68 -/
def Incremental64_Reset_text : List String := [
  "func (f *Incremental64) Reset() {",
  "	*f = NewFast64()",
  "}"]

def Incremental64_Reset_fn : Fn := parsed% Incremental64_Reset_text

theorem Incremental64_Reset_parse : parseFn Incremental64_Reset_text = some Incremental64_Reset_fn := by kernel_rfl

/-- xhash/fast64.go:70-72 -/
def Incremental64_Size_text : List String := [
  "func (f *Incremental64) Size() int {",
  "	return 8",
  "}"]

def Incremental64_Size_fn : Fn := parsed% Incremental64_Size_text

theorem Incremental64_Size_parse : parseFn Incremental64_Size_text = some Incremental64_Size_fn := by kernel_rfl

/-- xhash/fast64.go:74-76 -/
def Incremental64_BlockSize_text : List String := [
  "func (f *Incremental64) BlockSize() int {",
  "	return 8",
  "}"]

def Incremental64_BlockSize_fn : Fn := parsed% Incremental64_BlockSize_text

theorem Incremental64_BlockSize_parse : parseFn Incremental64_BlockSize_text = some Incremental64_BlockSize_fn := by kernel_rfl

/-- xhash/fast64.go:78-80 -/
def Incremental64_Sum64_text : List String := [
  "func (f *Incremental64) Sum64() uint64 {",
  "	return Uint64(f.h)",
  "}"]

def Incremental64_Sum64_fn : Fn := parsed% Incremental64_Sum64_text

theorem Incremental64_Sum64_parse : parseFn Incremental64_Sum64_text = some Incremental64_Sum64_fn := by kernel_rfl

/-- xhash/binary.go:3-7 -/
def toUint64_text : List String := [
  "func toUint64(b []byte) uint64 {",
  "	_ = b[7] // bounds check hint to compiler; see golang.org/issue/14808",
  "	return uint64(b[0]) | uint64(b[1])<<8 | uint64(b[2])<<16 | uint64(b[3])<<24 |",
  "		uint64(b[4])<<32 | uint64(b[5])<<40 | uint64(b[6])<<48 | uint64(b[7])<<56",
  "}"]

def toUint64_fn : Fn := parsed% toUint64_text

theorem toUint64_parse : parseFn toUint64_text = some toUint64_fn := by kernel_rfl

/-- xhash/binary.go:9-19 -/
def putUint64_text : List String := [
  "func putUint64(b []byte, v uint64) {",
  "	_ = b[7] // early bounds check to guarantee safety of writes below",
  "	b[0] = byte(v)",
  "	b[1] = byte(v >> 8)",
  "	b[2] = byte(v >> 16)",
  "	b[3] = byte(v >> 24)",
  "	b[4] = byte(v >> 32)",
  "	b[5] = byte(v >> 40)",
  "	b[6] = byte(v >> 48)",
  "	b[7] = byte(v >> 56)",
  "}"]

def putUint64_fn : Fn := parsed% putUint64_text

theorem putUint64_parse : parseFn putUint64_text = some putUint64_fn := by kernel_rfl

end Verif.Src.Hash
