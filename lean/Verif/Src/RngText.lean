import Verif.Src.Embed

/-!
# secrand/rng.go, the functions on bytes: the text

Written by a script from /repo; each function is quoted line by line, with the tree the parser makes of it.
-/

namespace Verif.Src.Rng

/-- secrand/rng.go:129-133 -/
def toUint64_text : List String := [
  "func toUint64(b []byte) uint64 {",
  "	_ = b[7] // bounds check hint to compiler; see golang.org/issue/14808",
  "	return uint64(b[0]) | uint64(b[1])<<8 | uint64(b[2])<<16 | uint64(b[3])<<24 |",
  "		uint64(b[4])<<32 | uint64(b[5])<<40 | uint64(b[6])<<48 | uint64(b[7])<<56",
  "}"]

def toUint64_fn : Fn := parsed% toUint64_text

theorem toUint64_parse : parseFn toUint64_text = some toUint64_fn := by kernel_rfl

/-- secrand/rng.go:135-146 -/
def RNG_Uint64_text : List String := [
  "func (r *RNG) Uint64() uint64 {",
  "	if 8 <= len(r.buf[r.n:]) {",
  "		b := r.buf[r.n : r.n+8]",
  "		v := toUint64(b)",
  "		erase(b)",
  "		r.n += 8",
  "		return v",
  "	}",
  "	var b [8]byte",
  "	_, _ = r.Read(b[:])",
  "	return toUint64(b[:])",
  "}"]

def RNG_Uint64_fn : Fn := parsed% RNG_Uint64_text

theorem RNG_Uint64_parse : parseFn RNG_Uint64_text = some RNG_Uint64_fn := by kernel_rfl

/-- secrand/rng.go:148-153 -/
def erase_text : List String := [
  "func erase(b []byte) {",
  "	// compiles to memclr",
  "	for i := range b {",
  "		b[i] = 0",
  "	}",
  "}"]

def erase_fn : Fn := parsed% erase_text

theorem erase_parse : parseFn erase_text = some erase_fn := by kernel_rfl

/-- secrand/rng.go:155-159 -/
def copyAndErase_text : List String := [
  "func copyAndErase(dst, src []byte) int {",
  "	n := copy(dst, src)",
  "	erase(src[:n])",
  "	return n",
  "}"]

def copyAndErase_fn : Fn := parsed% copyAndErase_text

theorem copyAndErase_parse : parseFn copyAndErase_text = some copyAndErase_fn := by kernel_rfl

end Verif.Src.Rng
