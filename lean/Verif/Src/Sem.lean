import Verif.Base
import Verif.Src.Syntax

/-!
# The meaning of the syntax trees

A direct reading of the Go specification for the part of the language that Src/Syntax.lean parses.

* Memory is a list of arrays; a slice is an array with an offset, a length and a capacity; a pointer is a cell of an array and
  a path of fields within it. Variables whose address is taken live in an array of one cell (`boxed` names them; whether other
  variables do makes no difference, and taking the address of one that does not is `stuck`); parameters do that are in
  `boxedParams`, as calls of methods with pointer receivers need.
* Integers have a kind. `int` wraps around at 64 bits as two's complement, the unsigned kinds modulo their size; constants
  are exact until they meet a kind.
* A computation returns, panics with a message, is `stuck` (an ill-typed program; also anything not covered) or does not
  terminate; the last two are `none`. The theorems say what a computation returns or how it panics, so none of them holds of
  a program that is stuck.
* A map is a list of entries; `range` visits those that there are at the start in an order that is left open (`order`), except
  those deleted before they are reached, and not those added meanwhile, which Go leaves open. In `v, ok := m[k]` of a nil map `v`
  is a value that nothing can be done with, as the type is not known; so is an entry of a map in any other place than
  `v, ok := m[k]`, `m[k] = v` and `delete(m, k)`: `stuck`. The keys may be numbers, booleans, strings and elements.
* `append` beyond the capacity gets a new array whose capacity is left open (`grow`).
* Elements (values of a type parameter), and what may be done with them, are a parameter; so are functions of other packages.

Not covered: closures, goroutines, channels, `defer`, `goto`, labels, interfaces, floating point numbers, arrays
except variables that are only sliced.
-/

namespace Verif.Src

/-- Results: a value, a panic, or nothing. -/
abbrev R := ExceptT String Option

/-- An ill-typed program. -/
def stuck {α : Type} : R α := (none : Option (Except String α))

/-- `panic(s)` and run-time panics. -/
def panic {α : Type} (s : String) : R α := (some (.error s) : Option (Except String α))

@[simp] theorem stuck_bind {α β : Type} (f : α → R β) : (stuck : R α) >>= f = stuck := rfl
@[simp] theorem panic_bind {α β : Type} (s : String) (f : α → R β) : (panic s : R α) >>= f = panic s := rfl

/-- Kinds of integers. `lit` is the kind of constants without a type; `named` is a type declared with an underlying `uint64`. -/
inductive Kind where
  | lit | int | uint | u64 | u32 | u8 | named (s : String)
  deriving DecidableEq, Repr

/-- Values. -/
inductive Val (E : Type) where
  | num (k : Kind) (n : Int)
  | bool (b : Bool)
  | str (s : String)
  | nil
  | elem (e : E)
  | slice (arr off len cap : Nat)
  | ptr (arr idx : Nat) (path : List String)
  | struct (ty : String) (fields : List (String × Val E))
  | map (id : Nat)
  | fn (name : String)
  /-- In an environment only: a variable that lives in memory. -/
  | box (arr : Nat)
  /-- In an environment only: a variable that is an array of length `n`. -/
  | array (arr n : Nat)
  deriving Repr, Inhabited

/-- A map: what its type says (the zero value of its elements, `==` between its keys) and its entries. -/
structure MapObj (E : Type) where
  zero : Val E
  eq : Val E → Val E → Bool
  entries : List (Val E × Val E)

/-- Memory: arrays and maps. -/
structure Mem (E : Type) where
  arrs : List (List (Val E))
  maps : List (MapObj E)

/-- Variables, the innermost first. -/
abbrev Env (E : Type) := List (String × Val E)

/-- The parts of a program that calls and literals refer to. -/
structure Prog where
  /-- Functions by name; methods are `Type.Method`. -/
  fns : List (String × Fn)
  structs : List (String × List (String × Ty))
  /-- Types declared as another type. -/
  types : List (String × Ty)
  consts : List (String × Int)

/-- What the meaning of a program depends on. -/
structure Ctx (E : Type) where
  prog : Prog
  /-- Variables that live in memory. -/
  boxed : List String
  /-- Zero values of type parameters. -/
  zeroOf : String → Option (Val E)
  /-- What fills the rest of an array that `append` makes. -/
  pad : Val E
  /-- The capacity of the array that `append` makes: from the old capacity and the length needed. -/
  grow : Nat → Nat → Nat
  /-- `==`, `<`, … between elements. -/
  cmp : String → E → E → Option Bool
  /-- Functions, and methods of elements, that are not in the program. -/
  ext : String → List (Val E) → Mem E → R (List (Val E) × Mem E)
  /-- Parameters that live in memory. -/
  boxedParams : List String := []
  /-- The declared type that slices are of, if it has methods (`type Slice[T any] []T`). -/
  sliceTy : Option String := none
  /-- The order in which `range` visits the entries of a map. -/
  order : Mem E → List (Val E × Val E) → List (Val E × Val E) := fun _ es => es

variable {E : Type}

/-! ## Integers -/

/-- The value of kind `k` congruent to `n`. -/
def wrap : Kind → Int → Int
  | .lit, n => n
  | .int, n => (n + 2 ^ 63) % 2 ^ 64 - 2 ^ 63
  | .uint, n => n % 2 ^ 64
  | .u64, n => n % 2 ^ 64
  | .named _, n => n % 2 ^ 64
  | .u32, n => n % 2 ^ 32
  | .u8, n => n % 2 ^ 8

theorem wrap_int {n : Int} (h : -2 ^ 63 ≤ n) (h' : n < 2 ^ 63) : wrap .int n = n := by
  show (n + 2 ^ 63) % 2 ^ 64 - 2 ^ 63 = n
  omega

/-- The kind of `a op b`. -/
def join : Kind → Kind → Option Kind
  | .lit, k => some k
  | k, .lit => some k
  | k, k' => if k = k' then some k else none

/-- Arithmetic and comparisons. -/
def arith (op : String) (k : Kind) (a b : Int) : R (Val E) :=
  if op = "+" then pure (.num k (wrap k (a + b)))
  else if op = "-" then pure (.num k (wrap k (a - b)))
  else if op = "*" then pure (.num k (wrap k (a * b)))
  else if op = "/" then
    if b = 0 then panic "integer divide by zero" else pure (.num k (wrap k (a.tdiv b)))
  else if op = "%" then
    if b = 0 then panic "integer divide by zero" else pure (.num k (wrap k (a.tmod b)))
  else if op = "&" then
    if 0 ≤ a ∧ 0 ≤ b then pure (.num k (a.toNat &&& b.toNat : Nat)) else stuck
  else if op = "|" then
    if 0 ≤ a ∧ 0 ≤ b then pure (.num k (a.toNat ||| b.toNat : Nat)) else stuck
  else if op = "^" then
    if 0 ≤ a ∧ 0 ≤ b then pure (.num k (a.toNat ^^^ b.toNat : Nat)) else stuck
  else if op = "==" then pure (.bool (decide (a = b)))
  else if op = "!=" then pure (.bool (decide (a ≠ b)))
  else if op = "<" then pure (.bool (decide (a < b)))
  else if op = "<=" then pure (.bool (decide (a ≤ b)))
  else if op = ">" then pure (.bool (decide (b < a)))
  else if op = ">=" then pure (.bool (decide (b ≤ a)))
  else stuck

/-- Shifts: the kind is that of the left operand. -/
def shift (op : String) (k : Kind) (a b : Int) : R (Val E) :=
  if b < 0 then panic "negative shift amount"
  else if op = "<<" then pure (.num k (wrap k (a * 2 ^ b.toNat)))
  else pure (.num k (a / 2 ^ b.toNat))

/-- Binary operators other than `&&` and `||`. -/
def binop (X : Ctx E) (op : String) : Val E → Val E → R (Val E)
  | .num k a, .num k' b =>
    if op = "<<" ∨ op = ">>" then shift op k a b
    else match join k k' with
      | some k => arith op k a b
      | none => stuck
  | .elem a, .elem b =>
    match X.cmp op a b with
    | some r => pure (.bool r)
    | none => stuck
  | .bool a, .bool b => if op = "==" then pure (.bool (a == b)) else if op = "!=" then pure (.bool (a != b)) else stuck
  | .nil, .nil => if op = "==" then pure (.bool true) else if op = "!=" then pure (.bool false) else stuck
  | .slice .., .nil | .ptr .., .nil | .map _, .nil | .nil, .slice .. | .nil, .ptr .. | .nil, .map _ =>
    if op = "==" then pure (.bool false) else if op = "!=" then pure (.bool true) else stuck
  | _, _ => stuck

/-- Unary operators other than `&` and `*`. -/
def unop (op : String) : Val E → R (Val E)
  | .num k a => if op = "-" then pure (.num k (wrap k (-a))) else stuck
  | .bool b => if op = "!" then pure (.bool (!b)) else stuck
  | _ => stuck

/-! ## Types -/

/-- The integer types. -/
def kindOf (p : Prog) (s : String) : Option Kind :=
  if s = "int" then some .int
  else if s = "uint" then some .uint
  else if s = "uint64" then some .u64
  else if s = "uint32" then some .u32
  else if s = "uint8" then some .u8
  else if s = "byte" then some .u8
  else
    match p.types.lookup s with
    | some (.name t []) => if t = "uint64" then some (.named s) else if t = "int" then some .int else none
    | _ => none

/-- A value as a value of the type: constants get its kind. -/
def coerce (p : Prog) : Ty → Val E → Val E
  | .name s _, .num .lit n => match kindOf p s with
    | some k => .num k n
    | none => .num .lit n
  | _, v => v

/-- A constant that goes where the other value is gets its kind. -/
def fit : Val E → Val E → Val E
  | .num k _, .num .lit n => .num k n
  | _, v => v

/-- A variable declared by `:=` with a constant is an `int`. -/
def settle : Val E → Val E
  | .num .lit n => .num .int n
  | v => v

/-- Zero values (of structs: one level deep, which is all that is needed). -/
def zeroSimple (X : Ctx E) : Ty → Option (Val E)
  | .name s _ =>
    match kindOf X.prog s with
    | some k => some (.num k 0)
    | none => if s = "bool" then some (.bool false) else if s = "string" then some (.str "") else X.zeroOf s
  | .arr .. => none
  | _ => some .nil

def zeroFields (X : Ctx E) : List (String × Ty) → Option (List (String × Val E))
  | [] => some []
  | (f, t) :: l =>
    match zeroSimple X t, zeroFields X l with
    | some v, some r => some ((f, v) :: r)
    | _, _ => none

def zero (X : Ctx E) : Ty → Option (Val E)
  | .name s as =>
    match X.prog.structs.lookup s with
    | some fs => (zeroFields X fs).map (.struct s)
    | none => zeroSimple X (.name s as)
  | t => zeroSimple X t

/-! ## Memory -/

/-- The field of a value. -/
def field (f : String) : Val E → Option (Val E)
  | .struct _ fs => fs.lookup f
  | _ => none

/-- Replaces a field that is there. -/
def setField (f : String) (v : Val E) : List (String × Val E) → List (String × Val E)
  | [] => []
  | (g, w) :: l => if g = f then (g, fit w v) :: l else (g, w) :: setField f v l

/-- The value at a path within a value. -/
def getPath : List String → Val E → Option (Val E)
  | [], v => some v
  | f :: p, v =>
    match field f v with
    | some w => getPath p w
    | none => none

/-- The value with `w` at a path. -/
def setPath (w : Val E) : List String → Val E → Option (Val E)
  | [], v => some (fit v w)
  | f :: p, .struct t fs =>
    match fs.lookup f with
    | some u =>
      match setPath w p u with
      | some u' => some (.struct t (setField f u' fs))
      | none => none
    | none => none
  | _ :: _, _ => none

/-- The contents of a cell. -/
def Mem.cell (m : Mem E) (a i : Nat) : Option (Val E) :=
  match m.arrs[a]? with
  | some l => l[i]?
  | none => none

/-- Memory with a new content of a cell. -/
def Mem.put (m : Mem E) (a i : Nat) (v : Val E) : Mem E := { m with arrs := m.arrs.modify a (fun l => l.set i v) }

/-- The cells of a slice. -/
def Mem.cells (m : Mem E) (a off len : Nat) : Option (List (Val E)) :=
  match m.arrs[a]? with
  | some l => some ((l.drop off).take len)
  | none => none

/-- Memory with new contents of consecutive cells. -/
def Mem.puts (m : Mem E) (a off : Nat) (vs : List (Val E)) : Mem E :=
  { m with arrs := m.arrs.modify a (fun l => l.take off ++ vs ++ l.drop (off + vs.length)) }

/-- Memory with a new array; its number is `m.arrs.length`. -/
def Mem.alloc (m : Mem E) (l : List (Val E)) : Mem E := { m with arrs := m.arrs ++ [l] }

def load (m : Mem E) : Val E → R (Val E)
  | .ptr a i p =>
    match m.cell a i with
    | some v =>
      match getPath p v with
      | some w => pure w
      | none => stuck
    | none => stuck
  | .nil => panic "invalid memory address or nil pointer dereference"
  | _ => stuck

/-- The values in a slice. -/
def values (m : Mem E) : Val E → R (List (Val E))
  | .nil => pure []
  | .slice a o l _ =>
    match m.cells a o l with
    | some vs => pure vs
    | none => stuck
  | _ => stuck

/-- A variable. -/
def fetch (m : Mem E) : Val E → R (Val E)
  | .box a =>
    match m.cell a 0 with
    | some v => pure v
    | none => stuck
  | .array .. => stuck
  | v => pure v

/-- `s[i]`. -/
def index (m : Mem E) : Val E → Val E → R (Val E)
  | .slice a o l _, .num _ i =>
    if 0 ≤ i ∧ i < l then
      match m.cell a (o + i.toNat) with
      | some v => pure v
      | none => stuck
    else panic "index out of range"
  | .nil, .num _ _ => panic "index out of range"
  | _, _ => stuck

/-- `&s[i]`. -/
def elemAddr : Val E → Val E → R (Val E)
  | .slice a o l _, .num _ j =>
    if 0 ≤ j ∧ j < l then pure (.ptr a (o + j.toNat) []) else panic "index out of range"
  | .nil, .num _ _ => panic "index out of range"
  | _, _ => stuck

/-- `s[lo:hi]`. -/
def reslice : Val E → Int → Int → R (Val E)
  | .slice a o _ c, lo, hi =>
    if 0 ≤ lo ∧ lo ≤ hi ∧ hi ≤ c then pure (.slice a (o + lo.toNat) (hi - lo).toNat (c - lo.toNat))
    else panic "slice bounds out of range"
  | .nil, lo, hi => if lo = 0 ∧ hi = 0 then pure .nil else panic "slice bounds out of range"
  | _, _, _ => stuck

/-- `len`. -/
def len (m : Mem E) : Val E → R (Val E)
  | .nil => pure (.num .int 0)
  | .slice _ _ l _ => pure (.num .int l)
  | .str s => pure (.num .int s.utf8ByteSize)
  | .map i =>
    match m.maps[i]? with
    | some o => pure (.num .int o.entries.length)
    | none => stuck
  | _ => stuck

/-- `append(s, xs...)`. -/
def append (X : Ctx E) (m : Mem E) : Val E → List (Val E) → R (Val E × Mem E)
  | .nil, xs =>
    if xs.length = 0 then pure (.nil, m)
    else pure (.slice m.arrs.length 0 xs.length (xs.length + X.grow 0 xs.length),
      m.alloc (xs ++ List.replicate (X.grow 0 xs.length) X.pad))
  | .slice a o l c, xs =>
    if l + xs.length ≤ c then pure (.slice a o (l + xs.length) c, m.puts a (o + l) xs)
    else
      match m.cells a o l with
      | some vs => pure (.slice m.arrs.length 0 (l + xs.length) (l + xs.length + X.grow c (l + xs.length)),
          m.alloc (vs ++ xs ++ List.replicate (X.grow c (l + xs.length)) X.pad))
      | none => stuck
  | _, _ => stuck

/-- `copy(dst, src)`. -/
def copy (m : Mem E) : Val E → Val E → R (Val E × Mem E)
  | .slice a o l _, .slice b p k _ =>
    match m.cells b p (min l k) with
    | some vs => pure (.num .int (min l k : Nat), m.puts a o vs)
    | none => stuck
  | .nil, .slice .. | .slice .., .nil | .nil, .nil => pure (.num .int 0, m)
  | _, _ => stuck

/-- `make([]T, l, c)`. -/
def makeSlice (X : Ctx E) (m : Mem E) (t : Ty) (l c : Int) : R (Val E × Mem E) :=
  if l < 0 then panic "makeslice: len out of range"
  else if c < l then panic "makeslice: cap out of range"
  else
    match zero X t with
    | some v => pure (.slice m.arrs.length 0 l.toNat c.toNat, m.alloc (List.replicate c.toNat v))
    | none => stuck

/-! ## Maps -/

/-- `==` between keys. -/
def keyEq (X : Ctx E) : Val E → Val E → Bool
  | .num _ a, .num _ b => decide (a = b)
  | .bool a, .bool b => a == b
  | .str a, .str b => a == b
  | .elem a, .elem b => X.cmp "==" a b == some true
  | _, _ => false

/-- Values that may be keys here. -/
def isKey : Val E → Bool
  | .num .. | .bool _ | .str _ | .elem _ => true
  | _ => false

/-- The element of a key. -/
def MapObj.get (o : MapObj E) (k : Val E) : Option (Val E) := (o.entries.find? (fun e => o.eq e.1 k)).map (·.2)

/-- A map after `m[k] = v`. -/
def MapObj.put (o : MapObj E) (k v : Val E) : MapObj E :=
  { o with entries :=
      if o.entries.any (fun e => o.eq e.1 k) then o.entries.map (fun e => if o.eq e.1 k then (k, fit o.zero v) else e)
      else o.entries ++ [(k, fit o.zero v)] }

/-- A map after `delete(m, k)`. -/
def MapObj.del (o : MapObj E) (k : Val E) : MapObj E := { o with entries := o.entries.filter (fun e => !(o.eq e.1 k)) }

/-- Memory with another content of a map. -/
def Mem.setMap (m : Mem E) (id : Nat) (o : MapObj E) : Mem E := { m with maps := m.maps.set id o }

/-- Memory with a new map; its number is `m.maps.length`. -/
def Mem.newMap (m : Mem E) (o : MapObj E) : Mem E := { m with maps := m.maps ++ [o] }

/-- `v, ok := m[k]`, which the parser makes a call of `map lookup`. -/
def lookupMap (m : Mem E) : Val E → Val E → R (List (Val E))
  | .map id, k =>
    match m.maps[id]? with
    | some o =>
      if isKey k = true then
        match o.get k with
        | some v => pure [v, .bool true]
        | none => pure [o.zero, .bool false]
      else stuck
    | none => stuck
  | .nil, k => if isKey k = true then pure [.fn "zero value", .bool false] else stuck
  | _, _ => stuck

/-- `delete(m, k)`. -/
def deleteMap (m : Mem E) : Val E → Val E → R (Mem E)
  | .map id, k =>
    match m.maps[id]? with
    | some o => if isKey k = true then pure (m.setMap id (o.del k)) else stuck
    | none => stuck
  | .nil, k => if isKey k = true then pure m else stuck
  | _, _ => stuck

/-- `m[k] = v`. -/
def assignMap (m : Mem E) (id : Nat) (k v : Val E) : R (Mem E) :=
  match m.maps[id]? with
  | some o => if isKey k = true then pure (m.setMap id (o.put k v)) else stuck
  | none => stuck

/-- Whether a value is a map, and which. -/
def mapOf : Val E → Option Nat
  | .map id => some id
  | _ => none

/-! ## Expressions -/

/-- Exactly one value. -/
def one (x : List (Val E) × Mem E) : R (Val E × Mem E) :=
  match x.1 with
  | [v] => pure (v, x.2)
  | _ => stuck

/-- Calls of the built-in functions other than `make` on values. -/
def builtin (X : Ctx E) (f : String) (vs : List (Val E)) (spread : Bool) (m : Mem E) : R (List (Val E) × Mem E) :=
  if f = "len" then
    match vs with
    | [v] => do
      let n ← len m v
      pure ([n], m)
    | _ => stuck
  else if f = "cap" then
    match vs with
    | [.slice _ _ _ c] => pure ([.num .int c], m)
    | [.nil] => pure ([.num .int 0], m)
    | _ => stuck
  else if f = "panic" then
    match vs with
    | [.str s] => panic s
    | _ => stuck
  else if f = "append" then
    match vs with
    | v :: vs =>
      if spread = true then
        match vs with
        | [s] => do
          let xs ← values m s
          let (r, m) ← append X m v xs
          pure ([r], m)
        | _ => stuck
      else do
        let (r, m) ← append X m v vs
        pure ([r], m)
    | [] => stuck
  else if f = "copy" then
    match vs with
    | [v, w] => do
      let (r, m) ← copy m v w
      pure ([r], m)
    | _ => stuck
  else if f = "map lookup" then
    match vs with
    | [v, k] => do
      let r ← lookupMap m v k
      pure (r, m)
    | _ => stuck
  else if f = "delete" then
    match vs with
    | [v, k] => do
      let m ← deleteMap m v k
      pure ([], m)
    | _ => stuck
  else stuck

/-- `make` of a slice. -/
def make (X : Ctx E) (t : Ty) (vs : List (Val E)) (m : Mem E) : R (List (Val E) × Mem E) :=
  match t, vs with
  | .slice t, [.num _ l] => do
    let (r, m) ← makeSlice X m t l l
    pure ([r], m)
  | .slice t, [.num _ l, .num _ c] => do
    let (r, m) ← makeSlice X m t l c
    pure ([r], m)
  | _, _ => stuck

/-- `T(v)`. -/
def convert (X : Ctx E) (t : Ty) (v : Val E) : R (Val E) :=
  match t, v with
  | .name s _, .num k n =>
    match kindOf X.prog s with
    | some k' => pure (.num k' (wrap k' n))
    | none => if k = .lit then pure (.num k n) else stuck
  | .slice _, .nil => pure .nil
  | .slice _, .slice a o l c => pure (.slice a o l c)
  | _, _ => stuck

/-- Fields of a literal, over the zero values. -/
def fill : List String → List (Val E) → List (String × Val E) → List (String × Val E)
  | f :: fs, v :: vs, l => fill fs vs (setField f v l)
  | _, _, l => l

/-- `T{…}`. -/
def literal (X : Ctx E) (t : Ty) (keys : List String) (vs : List (Val E)) (m : Mem E) : R (Val E × Mem E) :=
  match t with
  | .slice _ => pure (.slice m.arrs.length 0 vs.length vs.length, m.alloc vs)
  | .name s _ =>
    match X.prog.structs.lookup s with
    | some fs =>
      match zeroFields X fs with
      | some z => pure (.struct s (fill (if keys.head? = some "" then fs.map (·.1) else keys) vs z), m)
      | none => stuck
    | none => stuck
  | .map _ t =>
    match vs, zero X t with
    | [], some z => pure (.map m.maps.length, m.newMap ⟨z, keyEq X, []⟩)
    | _, _ => stuck
  | _ => stuck

/-- The type of a value, for looking up methods. -/
def typeName (X : Ctx E) : Val E → Option String
  | .struct t _ => some t
  | .num (.named t) _ => some t
  | .slice .. => X.sliceTy
  | .nil => X.sliceTy
  | _ => none

/-- The built-in functions. -/
def builtins : List String := ["len", "cap", "panic", "append", "copy", "map lookup", "delete"]

/-- The last arguments of a variadic function become a slice. -/
def pack (f : Fn) (spread : Bool) (vs : List (Val E)) (m : Mem E) : List (Val E) × Mem E :=
  if f.variadic ∧ ¬ spread then
    let n := f.params.length - 1 + (if f.recv.isSome then 1 else 0)
    if vs.length ≤ n then (vs ++ [.nil], m)
    else (vs.take n ++ [.slice m.arrs.length 0 (vs.length - n) (vs.length - n)], m.alloc (vs.drop n))
  else (vs, m)

/-- Calls of functions of the program, by name. -/
abbrev Calls (E : Type) := String → List (Val E) → Mem E → R (List (Val E) × Mem E)

/-- A function by name: of the program, or not. -/
def invoke (X : Ctx E) (C : Calls E) (f : String) (vs : List (Val E)) (spread : Bool) (m : Mem E) :
    R (List (Val E) × Mem E) :=
  match X.prog.fns.lookup f with
  | some g =>
    let (vs, m) := pack g spread vs m
    C f vs m
  | none => X.ext f vs m

/-- A method of a value `v`; `p` is its address, if it has one. -/
def method (X : Ctx E) (C : Calls E) (f : String) (v : Val E) (p : Option (Val E)) (vs : List (Val E)) (spread : Bool)
    (m : Mem E) : R (List (Val E) × Mem E) :=
  match field f v with
  | some (.fn g) => invoke X C g vs spread m
  | some _ => stuck
  | none =>
    match typeName X v with
    | some t =>
      match X.prog.fns.lookup (t ++ "." ++ f) with
      | some g =>
        match g.recv with
        | some (_, _, true) =>
          match p with
          | some p => invoke X C (t ++ "." ++ f) (p :: vs) spread m
          | none => stuck
        | _ => invoke X C (t ++ "." ++ f) (v :: vs) spread m
      | none => stuck
    | none =>
      match v with
      | .elem _ => X.ext f (v :: vs) m
      | _ => stuck

/-- `v.f(…)`: a pointer is followed; `nil` is a nil slice where slices have methods, otherwise a nil pointer. -/
def callOn (X : Ctx E) (C : Calls E) (f : String) (v : Val E) (p : Option (Val E)) (vs : List (Val E)) (spread : Bool)
    (m : Mem E) : R (List (Val E) × Mem E) :=
  match v with
  | .ptr .. => do
    let w ← load m v
    method X C f w (some v) vs spread m
  | .nil =>
    if X.sliceTy.isSome then method X C f .nil p vs spread m
    else panic "invalid memory address or nil pointer dereference"
  | v => method X C f v p vs spread m

/-- The address of a variable, if it has one. -/
def boxOf (env : Env E) : Expr → Option (Val E)
  | .name x =>
    match env.lookup x with
    | some (.box a) => some (.ptr a 0 [])
    | _ => none
  | _ => none

/-- The slice of all of an array. -/
def wholeOf : Val E → Option (Val E)
  | .array a n => some (.slice a 0 n n)
  | _ => none

/-- The slice of all of the array that `e` is, if it is a variable that is one. -/
def arrayOf (env : Env E) : Expr → Option (Val E)
  | .name x =>
    match env.lookup x with
    | some v => wholeOf v
    | none => none
  | _ => none

/-- The package that `e` in `e.f(…)` is, if it is one. -/
def packageOf (env : Env E) : Expr → Option String
  | .name x => if (env.lookup x).isSome then none else some x
  | _ => none

/-- `p.F` where `p` is a package. -/
def qualified (env : Env E) : Expr → Option String
  | .sel e f =>
    match packageOf env e with
    | some p => some (p ++ "." ++ f)
    | none => none
  | _ => none

mutual
/-- The values of an expression (a call may have several or none). -/
def eval (X : Ctx E) (C : Calls E) (env : Env E) : Expr → Mem E → R (List (Val E) × Mem E)
  | .int n, m => pure ([.num .lit n], m)
  | .str s, m => pure ([.str s], m)
  | .name x, m =>
    match env.lookup x with
    | some v => do
      let v ← fetch m v
      pure ([v], m)
    | none =>
      match X.prog.consts.lookup x with
      | some n => pure ([.num .lit n], m)
      | none =>
        if x = "nil" then pure ([.nil], m)
        else if x = "true" then pure ([.bool true], m)
        else if x = "false" then pure ([.bool false], m)
        else pure ([.fn x], m)
  | .ty _, _ => stuck
  | .un op e, m =>
    if op = "&" then do
      let (v, m) ← addr X C env e m
      pure ([v], m)
    else do
      let (v, m) ← eval X C env e m >>= one
      let w ← if op = "*" then load m v else unop op v
      pure ([w], m)
  | .bin op a b, m =>
    if op = "&&" then do
      let (v, m) ← eval X C env a m >>= one
      match v with
      | .bool c => if c = true then eval X C env b m else pure ([.bool false], m)
      | _ => stuck
    else if op = "||" then do
      let (v, m) ← eval X C env a m >>= one
      match v with
      | .bool c => if c = true then pure ([.bool true], m) else eval X C env b m
      | _ => stuck
    else do
      let (v, m) ← eval X C env a m >>= one
      let (w, m) ← eval X C env b m >>= one
      let r ← binop X op v w
      pure ([r], m)
  | .sel e f, m => do
    let (v, m) ← eval X C env e m >>= one
    match v with
    | .struct .. =>
      match field f v with
      | some w => pure ([w], m)
      | none => stuck
    | .ptr a i p => do
      let w ← load m (.ptr a i (p ++ [f]))
      pure ([w], m)
    | .nil => panic "invalid memory address or nil pointer dereference"
    | _ => stuck
  -- `p.F[T]`, or an element
  | .idx e i, m =>
    match qualified env e with
    | some g => pure ([.fn g], m)
    | none => do
      let (v, m) ← eval X C env e m >>= one
      let (j, m) ← eval X C env i m >>= one
      let w ← index m v j
      pure ([w], m)
  | .inst .., _ => stuck
  | .slc e lo hi, m => do
    let (v, m) ← match arrayOf env e with
      | some v => pure (v, m)
      | none => eval X C env e m >>= one
    let (a, m) ← bound X C env lo (.num .int 0) m
    let n ← len m v
    let (b, m) ← bound X C env hi n m
    match a, b with
    | .num _ a, .num _ b => do
      let w ← reslice v a b
      pure ([w], m)
    | _, _ => stuck
  | .lit t ks es, m => do
    let (vs, m) ← evals X C env es m
    let (v, m) ← literal X t ks vs m
    pure ([v], m)
  | .call (.ty t) es _, m => do
    let (v, m) ← evals X C env es m >>= one
    let w ← convert X t v
    pure ([w], m)
  | .call (.name f) es s, m =>
    match env.lookup f with
    | some g => do
      let (vs, m) ← evals X C env es m
      match g with
      | .fn g => invoke X C g vs s m
      | _ => stuck
    | none =>
      if f = "make" then
        match es with
        | .ty t :: es => do
          let (vs, m) ← evals X C env es m
          make X t vs m
        | _ => stuck
      else do
        let (vs, m) ← evals X C env es m
        if f ∈ builtins then builtin X f vs s m
        else
          match kindOf X.prog f, vs with
          | some _, [v] => do
            let w ← convert X (.name f []) v
            pure ([w], m)
          | _, _ => invoke X C f vs s m
  -- `F[T](…)`
  | .call (.idx (.name f) _) es s, m => do
    let (vs, m) ← evals X C env es m
    invoke X C f vs s m
  | .call (.inst (.name f) _) es s, m => do
    let (vs, m) ← evals X C env es m
    invoke X C f vs s m
  -- `p.F[T](…)`
  | .call (.idx (.sel (.name p) f) _) es s, m =>
    if (env.lookup p).isSome then stuck
    else do
      let (vs, m) ← evals X C env es m
      invoke X C (p ++ "." ++ f) vs s m
  | .call (.inst (.sel (.name p) f) _) es s, m =>
    if (env.lookup p).isSome then stuck
    else do
      let (vs, m) ← evals X C env es m
      invoke X C (p ++ "." ++ f) vs s m
  -- `e.f(…)`, where `e` may be a package
  | .call (.sel e f) es s, m => do
    match packageOf env e with
    | some p => do
      let (vs, m) ← evals X C env es m
      invoke X C (p ++ "." ++ f) vs s m
    | none => do
      let (v, m) ← eval X C env e m >>= one
      let (vs, m) ← evals X C env es m
      callOn X C f v (boxOf env e) vs s m
  | .call .., _ => stuck

/-- A bound of a slice expression. -/
def bound (X : Ctx E) (C : Calls E) (env : Env E) : Option Expr → Val E → Mem E → R (Val E × Mem E)
  | none, v, m => pure (v, m)
  | some e, _, m => eval X C env e m >>= one

/-- Arguments: one value each, or all the values of a single call. -/
def evals (X : Ctx E) (C : Calls E) (env : Env E) : List Expr → Mem E → R (List (Val E) × Mem E)
  | [], m => pure ([], m)
  | e :: es, m => do
    let (vs, m) ← eval X C env e m
    let (ws, m) ← evals X C env es m
    pure (vs ++ ws, m)

/-- The address of an expression. -/
def addr (X : Ctx E) (C : Calls E) (env : Env E) : Expr → Mem E → R (Val E × Mem E)
  | .name x, m =>
    match env.lookup x with
    | some (.box a) => pure (.ptr a 0 [], m)
    | _ => stuck
  | .idx e i, m => do
    let (v, m) ← eval X C env e m >>= one
    let (j, m) ← eval X C env i m >>= one
    let p ← elemAddr v j
    pure (p, m)
  | .sel e f, m => do
    let (v, m) ← eval X C env e m >>= one
    match v with
    | .ptr a i p => pure (.ptr a i (p ++ [f]), m)
    | _ => stuck
  | .lit t ks es, m => do
    let (vs, m) ← evals X C env es m
    let (v, m) ← literal X t ks vs m
    pure (.ptr m.arrs.length 0 [], m.alloc [v])
  | _, _ => stuck
end

/-! ## Statements -/

/-- Where an assignment goes. -/
inductive Ref (E : Type) where
  | blank
  | var (x : String)
  | fld (x f : String)
  | elem (s i : Val E)
  | ptr (p : Val E)

/-- The operands of the left side of an assignment. -/
def ref (X : Ctx E) (C : Calls E) (env : Env E) (e : Expr) (m : Mem E) : R (Ref E × Mem E) :=
  match e with
  | .name x => if x = "_" then pure (.blank, m) else pure (.var x, m)
  | .idx e i => do
    let (v, m) ← eval X C env e m >>= one
    let (j, m) ← eval X C env i m >>= one
    pure (.elem v j, m)
  | .un "*" e => do
    let (v, m) ← eval X C env e m >>= one
    pure (.ptr v, m)
  | .sel e f => do
    let (v, m) ← eval X C env e m >>= one
    match v, e with
    | .ptr a i p, _ => pure (.ptr (.ptr a i (p ++ [f])), m)
    | .nil, _ => panic "invalid memory address or nil pointer dereference"
    | .struct .., .name x => pure (.fld x f, m)
    | _, _ => stuck
  | _ => stuck

def refs (X : Ctx E) (C : Calls E) (env : Env E) : List Expr → Mem E → R (List (Ref E) × Mem E)
  | [], m => pure ([], m)
  | e :: es, m => do
    let (r, m) ← ref X C env e m
    let (rs, m) ← refs X C env es m
    pure (r :: rs, m)

/-- A new value of a variable. -/
def update (x : String) (v : Val E) : Env E → Env E
  | [] => []
  | (y, w) :: l => if y = x then (y, fit w v) :: l else (y, w) :: update x v l

/-- An assignment. -/
def store (env : Env E) (m : Mem E) (v : Val E) : Ref E → R (Env E × Mem E)
  | .blank => pure (env, m)
  | .var x =>
    match env.lookup x with
    | some (.box a) =>
      match m.cell a 0 with
      | some w => pure (env, m.put a 0 (fit w v))
      | none => stuck
    | some _ => pure (update x v env, m)
    | none => stuck
  | .fld x f =>
    match env.lookup x with
    | some (.box a) =>
      match m.cell a 0 with
      | some (.struct t fs) => pure (env, m.put a 0 (.struct t (setField f v fs)))
      | _ => stuck
    | some (.struct t fs) => pure (update x (.struct t (setField f v fs)) env, m)
    | _ => stuck
  | .elem (.slice a o l _) (.num _ i) =>
    if 0 ≤ i ∧ i < l then
      match m.cell a (o + i.toNat) with
      | some w => pure (env, m.put a (o + i.toNat) (fit w v))
      | none => stuck
    else panic "index out of range"
  | .elem .nil (.num _ _) => panic "index out of range"
  | .elem .nil (.elem _) => panic "assignment to entry in nil map"
  | .elem (.map id) k => do
    let m ← assignMap m id k v
    pure (env, m)
  | .ptr (.ptr a i p) =>
    match m.cell a i with
    | some w =>
      match setPath v p w with
      | some w' => pure (env, m.put a i w')
      | none => stuck
    | none => stuck
  | .ptr .nil => panic "invalid memory address or nil pointer dereference"
  | _ => stuck

/-- Assignments from left to right. -/
def stores (env : Env E) (m : Mem E) : List (Ref E) → List (Val E) → R (Env E × Mem E)
  | [], [] => pure (env, m)
  | r :: rs, v :: vs => do
    let (env, m) ← store env m v r
    stores env m rs vs
  | _, _ => stuck

/-- A new variable. -/
def declare (X : Ctx E) (env : Env E) (m : Mem E) (x : String) (v : Val E) : Env E × Mem E :=
  if x = "_" then (env, m)
  else if x ∈ X.boxed then ((x, .box m.arrs.length) :: env, m.alloc [v])
  else ((x, v) :: env, m)

def declares (X : Ctx E) (env : Env E) (m : Mem E) : List String → List (Val E) → R (Env E × Mem E)
  | [], [] => pure (env, m)
  | x :: xs, v :: vs => declares X (declare X env m x v).1 (declare X env m x v).2 xs vs
  | _, _ => stuck

/-- The values that `var xs t = vs` gives: zero values if there are none. -/
def initial (X : Ctx E) (t : Option Ty) (xs : List String) (vs : List (Val E)) : R (List (Val E)) :=
  match t, vs with
  | some t, [] =>
    match zero X t with
    | some v => pure (xs.map fun _ => v)
    | none => stuck
  | some t, vs => pure (vs.map (coerce X.prog t))
  | none, vs => pure vs

/-- The length and the elements' type of an array type. -/
def arrayTy : Option Ty → Option (Nat × Ty)
  | some (.arr n t) => some (n, t)
  | _ => none

/-- `var x [n]T`: a new array of zero values. -/
def declareArray (X : Ctx E) (env : Env E) (m : Mem E) (n : Nat) (t : Ty) : List String → R (Env E × Mem E)
  | [x] =>
    match zeroSimple X t with
    | some v => pure ((x, .array m.arrs.length n) :: env, m.alloc (List.replicate n v))
    | none => stuck
  | _ => stuck

/-- What a statement does next. -/
inductive Flow (E : Type) where
  | next | brk | cont
  | ret (vs : List (Val E))

/-- A loop: from each state on to another or out of it. -/
def loop {σ α : Type} (body : σ → R (σ ⊕ α)) (s : σ) : R α := do
  match ← body s with
  | .inl s' => loop body s'
  | .inr a => pure a
partial_fixpoint

/-- The variables of the enclosing block, after the block. -/
def leave (outer env : Env E) : Env E := env.drop (env.length - outer.length)

/-- The end of a round of a loop. -/
def round (outer : Env E) (x : Flow E × Env E × Mem E) (post : Env E → Mem E → R (Flow E × Env E × Mem E)) :
    R ((Env E × Mem E) ⊕ (Flow E × Env E × Mem E)) :=
  match x.1 with
  | .brk => pure (.inr (.next, leave outer x.2.1, x.2.2))
  | .ret vs => pure (.inr (.ret vs, leave outer x.2.1, x.2.2))
  | _ => do
    let (_, env, m) ← post (leave outer x.2.1) x.2.2
    pure (.inl (leave outer env, m))

/-- The rounds of `range` over a map, for the entries that are left. An entry whose key is not `==` to itself stays in the map. -/
def visit (id : Nat) (body : Val E → Val E → Env E → Mem E → R ((Env E × Mem E) ⊕ (Flow E × Env E × Mem E))) :
    List (Val E × Val E) → Env E → Mem E → R (Flow E × Env E × Mem E)
  | [], env, m => pure (.next, env, m)
  | (k, v) :: l, env, m =>
    match m.maps[id]? with
    | some o =>
      match (if o.eq k k = true then o.get k else some v) with
      | some w => do
        let y ← body k w env m
        match y with
        | .inl s => visit id body l s.1 s.2
        | .inr r => pure r
      | none => visit id body l env m
    | none => stuck

mutual
/-- What a statement does. -/
def exec (X : Ctx E) (C : Calls E) : Stmt → Env E → Mem E → R (Flow E × Env E × Mem E)
  | .expr e, env, m => do
    let (_, m) ← eval X C env e m
    pure (.next, env, m)
  | .define xs es, env, m => do
    let (vs, m) ← evals X C env es m
    let (env, m) ← declares X env m xs (vs.map settle)
    pure (.next, env, m)
  | .assign ls es, env, m => do
    let (rs, m) ← refs X C env ls m
    let (vs, m) ← evals X C env es m
    let (env, m) ← stores env m rs vs
    pure (.next, env, m)
  | .opset op l e, env, m => do
    let (r, m) ← ref X C env l m
    let (v, m) ← eval X C env (.bin op l e) m >>= one
    let (env, m) ← store env m v r
    pure (.next, env, m)
  | .var xs t es, env, m => do
    let (vs, m) ← evals X C env es m
    let (env, m) ← match arrayTy t, vs with
      | some (n, t), [] => declareArray X env m n t xs
      | _, _ => do
        let vs ← initial X t xs vs
        declares X env m xs vs
    pure (.next, env, m)
  | .ite init c t e, env, m => do
    let (_, env', m) ← execs X C init env m
    let (v, m) ← eval X C env' c m >>= one
    match v with
    | .bool b => do
      let (f, env', m) ← if b = true then execs X C t env' m else execs X C e env' m
      pure (f, leave env env', m)
    | _ => stuck
  | .loop init c post body, env, m => do
    let (_, env', m) ← execs X C init env m
    let (f, env', m) ← loop (fun (s : Env E × Mem E) => do
      let (go, m) ← test X C s.1 c s.2
      if go = true then
        let x ← execs X C body s.1 m
        round s.1 x (fun env m => execs X C post env m)
      else pure (.inr (.next, s.1, m))) (env', m)
    pure (f, leave env env', m)
  | .range k v e body, env, m => do
    let (s, m) ← eval X C env e m >>= one
    match mapOf s with
    | some id =>
      match m.maps[id]? with
      | some o => do
        let (f, env', m) ← visit id (fun key w env m => do
          let (env', m) ← declares X env m [k, v] [key, w]
          let x ← execs X C body env' m
          round env x (fun env m => pure (.next, env, m))) (X.order m o.entries) env m
        pure (f, leave env env', m)
      | none => stuck
    | none => do
      let n ← len m s
      match n with
      | .num _ n => do
        let (f, env', m) ← loop (fun (st : Int × Env E × Mem E) => do
          if st.1 < n then
            let w ← (if v = "_" then pure .nil else index st.2.2 s (.num .int st.1))
            let (env', m) ← declares X st.2.1 st.2.2 [k, v] [.num .int st.1, w]
            let x ← execs X C body env' m
            let y ← round st.2.1 x (fun env m => pure (.next, env, m))
            match y with
            | .inl s => pure (.inl (st.1 + 1, s.1, s.2))
            | .inr r => pure (.inr r)
          else pure (.inr (.next, st.2.1, st.2.2))) (0, env, m)
        pure (f, leave env env', m)
      | _ => stuck
  | .ret es, env, m => do
    let (vs, m) ← evals X C env es m
    pure (.ret vs, env, m)
  | .brk, env, m => pure (.brk, env, m)
  | .cont, env, m => pure (.cont, env, m)
  | .block b, env, m => do
    let (f, env', m) ← execs X C b env m
    pure (f, leave env env', m)

/-- Statements one after the other. -/
def execs (X : Ctx E) (C : Calls E) : List Stmt → Env E → Mem E → R (Flow E × Env E × Mem E)
  | [], env, m => pure (.next, env, m)
  | s :: l, env, m => do
    let (f, env, m) ← exec X C s env m
    match f with
    | .next => execs X C l env m
    | _ => pure (f, env, m)

/-- The condition of a loop. -/
def test (X : Ctx E) (C : Calls E) (env : Env E) : Option Expr → Mem E → R (Bool × Mem E)
  | none, m => pure (true, m)
  | some c, m => do
    let (v, m) ← eval X C env c m >>= one
    match v with
    | .bool b => pure (b, m)
    | _ => stuck
end

/-! ## Calls -/

/-- Parameters with their values, as variables. -/
def bindParams (p : Prog) : List (String × Ty) → List (Val E) → Option (Env E)
  | [], [] => some []
  | (x, t) :: ps, v :: vs =>
    match bindParams p ps vs with
    | some env => some ((x, coerce p t v) :: env)
    | none => none
  | _, _ => none

/-- Parameters that live in memory get a cell. -/
def boxParams (X : Ctx E) : Env E → Mem E → Env E × Mem E
  | [], m => ([], m)
  | (x, v) :: env, m =>
    let r := boxParams X env m
    if x ∈ X.boxedParams then ((x, .box r.2.arrs.length) :: r.1, r.2.alloc [v]) else ((x, v) :: r.1, r.2)

/-- Named results, as variables. -/
def bindResults (X : Ctx E) : List (String × Ty) → Env E → Option (Env E)
  | [], env => some env
  | (x, t) :: rs, env =>
    if x = "" then some env
    else
      match zero X t, bindResults X rs env with
      | some v, some env => some ((x, v) :: env)
      | _, _ => none

/-- The results of a call: those of `return`, or the named ones. -/
def answer (X : Ctx E) (f : Fn) (env : Env E) (vs : List (Val E)) : Option (List (Val E)) :=
  if vs.length = 0 then
    match f.results with
    | [] => some []
    | rs => rs.mapM (fun r => env.lookup r.1)
  else if vs.length = f.results.length then some ((f.results.zip vs).map (fun r => coerce X.prog r.1.2 r.2))
  else none

/-- What a call of a function does, the calls in it being given. -/
def apply (X : Ctx E) (C : Calls E) (f : Fn) (vs : List (Val E)) (m : Mem E) : R (List (Val E) × Mem E) :=
  match bindParams X.prog ((f.recv.map (fun r => (r.1, Ty.name r.2.1 []))).toList ++ f.params) vs with
  | some env =>
    let (env, m) := boxParams X env m
    match bindResults X f.results env with
    | some env => do
      let (fl, env, m) ← execs X C f.body env m
      match fl with
      | .next =>
        match answer X f env [] with
        | some r => pure (r, m)
        | none => stuck
      | .ret ws =>
        match answer X f env ws with
        | some r => pure (r, m)
        | none => stuck
      | _ => stuck
    | none => stuck
  | none => stuck

/-- Calls nested at most `n` deep; beyond, `stuck`. -/
def calls (X : Ctx E) : Nat → Calls E
  | 0 => fun _ _ _ => stuck
  | n + 1 => fun f vs m =>
    match X.prog.fns.lookup f with
    | some g => apply X (calls X n) g vs m
    | none => stuck

end Verif.Src
