import Lean.ToExpr

/-!
# The Go text: syntax trees, tokens and parser

The files in this directory take functions of /repo as text. The text is quoted line by line; the parser below, a Lean function
that the kernel evaluates, turns it into a syntax tree; Src/Sem.lean gives the tree a meaning. The models of the other
directories are then proved to agree with that meaning, so that for the functions covered the reading of the code does not have
to be trusted, only the meaning of the language.

Only what the covered functions use of Go is there. `switch` is turned into `if` … `else if` by the parser.
-/

namespace Verif.Src

/-- Types. -/
inductive Ty where
  /-- A name, perhaps `pkg.Name`, with type arguments. -/
  | name (s : String) (args : List Ty)
  | slice (t : Ty)
  | ptr (t : Ty)
  | map (k v : Ty)
  /-- `[n]T` -/
  | arr (n : Nat) (t : Ty)
  | func
  deriving Lean.ToExpr, Inhabited, Repr

/-- Expressions. `name` is an identifier of whatever kind; `inst` is `e[a, b]`, an index expression or an instantiation. -/
inductive Expr where
  | int (n : Nat)
  | str (s : String)
  | name (x : String)
  | ty (t : Ty)
  | un (op : String) (e : Expr)
  | bin (op : String) (a b : Expr)
  | sel (e : Expr) (f : String)
  | idx (e i : Expr)
  | inst (e : Expr) (ts : List Ty)
  | slc (e : Expr) (lo hi : Option Expr)
  | call (f : Expr) (args : List Expr) (spread : Bool)
  /-- A composite literal; the keys are "" in a list of elements. -/
  | lit (t : Ty) (keys : List String) (es : List Expr)
  deriving Lean.ToExpr, Inhabited, Repr

/-- Statements. -/
inductive Stmt where
  | expr (e : Expr)
  | define (xs : List String) (es : List Expr)
  | assign (ls es : List Expr)
  /-- `l op= e`; also `l++` and `l--`. -/
  | opset (op : String) (l e : Expr)
  /-- `var` with a type, or `const`. -/
  | var (xs : List String) (t : Option Ty) (es : List Expr)
  | ite (init : List Stmt) (c : Expr) (t e : List Stmt)
  | loop (init : List Stmt) (c : Option Expr) (post body : List Stmt)
  /-- `for k, v := range e`; unused variables are "_". -/
  | range (k v : String) (e : Expr) (body : List Stmt)
  | ret (es : List Expr)
  | brk
  | cont
  | block (b : List Stmt)
  deriving Lean.ToExpr, Inhabited, Repr

/-- A function or method. -/
structure Fn where
  /-- Name of the receiver, name of its type, and whether it is a pointer. -/
  recv : Option (String × String × Bool)
  name : String
  params : List (String × Ty)
  /-- The last parameter is `...T`. -/
  variadic : Bool
  /-- Named results. -/
  results : List (String × Ty)
  body : List Stmt
  deriving Lean.ToExpr, Inhabited, Repr

/-- A declaration at the top of a file. -/
inductive Decl where
  | fn (f : Fn)
  | struct (name : String) (fields : List (String × Ty))
  | typ (name : String) (t : Ty)
  | const (name : String) (n : Nat)
  deriving Lean.ToExpr, Inhabited, Repr

/-! ## Tokens -/

inductive Tok where
  | id (s : String)
  | int (n : Nat)
  | str (s : String)
  | op (s : String)
  deriving DecidableEq, Lean.ToExpr, Inhabited, Repr

def isLetter (c : Char) : Bool := ('a' ≤ c && c ≤ 'z') || ('A' ≤ c && c ≤ 'Z') || c == '_'
def isDigit (c : Char) : Bool := '0' ≤ c && c ≤ '9'

/-- The longest beginning all of whose characters have the property, and the rest. -/
def span (p : Char → Bool) : List Char → List Char × List Char
  | [] => ([], [])
  | c :: l => if p c then ((c :: (span p l).1), (span p l).2) else ([], c :: l)

def digits : List Char → Nat → Nat
  | [], n => n
  | c :: l, n => digits l (n * 10 + (c.toNat - 48))

def isHex (c : Char) : Bool := isDigit c || ('a' ≤ c && c ≤ 'f') || ('A' ≤ c && c ≤ 'F')

def hexDigits : List Char → Nat → Nat
  | [], n => n
  | c :: l, n => hexDigits l (n * 16 + (if isDigit c then c.toNat - 48 else if 'a' ≤ c then c.toNat - 87 else c.toNat - 55))

/-- The operators, the longest first. -/
def operators : List (List Char) :=
  ["<<=", ">>=", "&^=", "...", "&&", "||", "<<", ">>", "==", "!=", "<=", ">=", ":=", "+=", "-=", "*=", "/=", "%=", "&=", "|=",
    "^=", "++", "--", "&^"].map String.toList

/-- The rest of the text after `p`, if it begins with it. -/
def after : List Char → List Char → Option (List Char)
  | [], l => some l
  | c :: p, d :: l => if c == d then after p l else none
  | _ :: _, [] => none

def operator : List (List Char) → List Char → Option (List Char × List Char)
  | [], c :: l => some ([c], l)
  | [], [] => none
  | o :: os, l =>
    match after o l with
    | some r => some (o, r)
    | none => operator os l

/-- The tokens of one line (at most `k` of them). Comments end the line. -/
def tokens : Nat → List Char → List Tok
  | 0, _ => []
  | _, [] => []
  | k + 1, c :: l =>
    if c == ' ' || c == '\t' then tokens k l
    else if c == '/' && l.head? == some '/' then []
    else if isLetter c then
      .id (String.ofList (c :: (span (fun c => isLetter c || isDigit c) l).1)) ::
        tokens k (span (fun c => isLetter c || isDigit c) l).2
    else if c == '0' && l.head? == some 'x' then
      .int (hexDigits (span isHex (l.drop 1)).1 0) :: tokens k (span isHex (l.drop 1)).2
    else if isDigit c then .int (digits (c :: (span isDigit l).1) 0) :: tokens k (span isDigit l).2
    else if c == '"' then .str (String.ofList (span (· != '"') l).1) :: tokens k ((span (· != '"') l).2.drop 1)
    else
      match operator operators (c :: l) with
      | some (o, r) => .op (String.ofList o) :: tokens k r
      | none => []

/-- A semicolon comes at the end of a line whose last token is one of these (Go specification, "Semicolons"). -/
def endsStmt : Tok → Bool
  | .id s => !(["if", "for", "func", "var", "const", "type", "switch", "case", "default", "else", "range", "package",
      "import", "struct", "map", "go", "defer", "chan", "select", "interface", "goto"].contains s)
  | .int _ => true
  | .str _ => true
  | .op s => ["++", "--", ")", "]", "}"].contains s

/-- The tokens of a text. -/
def lex : List String → List Tok
  | [] => []
  | s :: l =>
    match (tokens s.length s.toList).getLast? with
    | none => lex l
    | some t => tokens s.length s.toList ++ (if endsStmt t then .op ";" :: lex l else lex l)

/-! ## Parser

Recursive descent, with a bound on the depth. -/

abbrev P (α : Type) := List Tok → Option (α × List Tok)

/-- Exactly this operator. -/
def op (s : String) : P Unit
  | .op t :: l => if t == s then some ((), l) else none
  | _ => none

/-- Exactly this word. -/
def word (s : String) : P Unit
  | .id t :: l => if t == s then some ((), l) else none
  | _ => none

/-- Semicolons, any number of them. -/
def semis : P Unit
  | .op ";" :: l => semis l
  | l => some ((), l)

def ident : P String
  | .id s :: l => some (s, l)
  | _ => none

/-- How strongly a binary operator binds. -/
def strength : String → Nat
  | "||" => 1
  | "&&" => 2
  | "==" | "!=" | "<" | "<=" | ">" | ">=" => 3
  | "+" | "-" | "|" | "^" => 4
  | "*" | "/" | "%" | "<<" | ">>" | "&" | "&^" => 5
  | _ => 0

/-- An expression that is a type. -/
def asTy : Expr → Option Ty
  | .name s => some (.name s [])
  | .sel (.name p) s => some (.name (p ++ "." ++ s) [])
  | .inst (.name s) ts => some (.name s ts)
  | .inst (.sel (.name p) s) ts => some (.name (p ++ "." ++ s) ts)
  | .idx (.name s) (.name t) => some (.name s [.name t []])
  | .ty t => some t
  | .un "*" (.name s) => some (.ptr (.name s []))
  | _ => none

mutual
/-- A type. -/
def ty : Nat → P Ty
  | 0, _ => none
  | k + 1, .op "*" :: l => (ty k l).map fun (t, l) => (.ptr t, l)
  | k + 1, .op "[" :: .op "]" :: l => (ty k l).map fun (t, l) => (.slice t, l)
  | k + 1, .op "[" :: .int n :: .op "]" :: l => (ty k l).map fun (t, l) => (.arr n t, l)
  | k + 1, .id "map" :: .op "[" :: l => do
    let (a, l) ← ty k l
    let (_, l) ← op "]" l
    let (b, l) ← ty k l
    return (.map a b, l)
  | _ + 1, .id "struct" :: .op "{" :: .op "}" :: l => some (.name "struct{}" [], l)
  | k + 1, .id "func" :: .op "(" :: l => do
    let (_, _, l) ← params k l
    match l with
    | .id _ :: _ => (ty k l).map fun (_, l) => (.func, l)
    | .op "*" :: _ => (ty k l).map fun (_, l) => (.func, l)
    | .op "(" :: l => do
      let (_, _, l) ← params k l
      return (.func, l)
    | _ => return (.func, l)
  | k + 1, .id p :: .op "." :: .id s :: .op "[" :: l => (tys k l).map fun (ts, l) => (.name (p ++ "." ++ s) ts, l)
  | _ + 1, .id p :: .op "." :: .id s :: l => some (.name (p ++ "." ++ s) [], l)
  | k + 1, .id s :: .op "[" :: l => (tys k l).map fun (ts, l) => (.name s ts, l)
  | _ + 1, .id s :: l => some (.name s [], l)
  | _ + 1, _ => none

/-- Types up to `]`. -/
def tys : Nat → P (List Ty)
  | 0, _ => none
  | k + 1, l => do
    let (t, l) ← ty k l
    match l with
    | .op "," :: l => (tys k l).map fun (ts, l) => (t :: ts, l)
    | .op "]" :: l => some ([t], l)
    | _ => none

/-- Parameters up to `)`, each with its type, and whether the last is variadic. Names without a type of their own (`a, b int`)
get that of the next one. A list of types only has empty names. -/
def params : Nat → List Tok → Option (List (String × Ty) × Bool × List Tok)
  | 0, _ => none
  | _ + 1, .op ")" :: l => some ([], false, l)
  | k + 1, .id x :: .op "," :: l => do
    let (ps, v, l) ← params k l
    match ps with
    | (y, t) :: _ => return ((if y = "" then ("", .name x []) else (x, t)) :: ps, v, l)
    | [] => none
  | k + 1, .id x :: .op "..." :: l => do
    let (t, l) ← ty k l
    let (_, l) ← op ")" l
    return ([(x, .slice t)], true, l)
  | _ + 1, .id x :: .op ")" :: l => some ([("", .name x [])], false, l)
  | k + 1, .id x :: l =>
    match ty k l with
    | some (t, .op "," :: l) => do
      let (ps, v, l) ← params k l
      return ((x, t) :: ps, v, l)
    | some (t, .op ")" :: l) => some ([(x, t)], false, l)
    | _ => none
  | _ + 1, _ => none
end

mutual
/-- An expression whose operators bind at least as strongly as `p`; `b` says whether `T{` may begin a literal. -/
def expr : Nat → Bool → Nat → P Expr
  | 0, _, _, _ => none
  | k + 1, b, p, l => do
    let (e, l) ← unary k b l
    binary k b p e l

/-- The operators and operands that follow `e`. -/
def binary : Nat → Bool → Nat → Expr → P Expr
  | 0, _, _, _, _ => none
  | k + 1, b, p, e, .op o :: l =>
    if strength o = 0 || strength o < p then some (e, .op o :: l)
    else do
      let (f, l) ← expr k b (strength o + 1) l
      binary k b p (.bin o e f) l
  | _ + 1, _, _, e, l => some (e, l)

def unary : Nat → Bool → P Expr
  | 0, _, _ => none
  | k + 1, b, .op o :: l =>
    if o == "!" || o == "-" || o == "&" || o == "*" || o == "^" then (unary k b l).map fun (e, l) => (.un o e, l)
    else do
      let (e, l) ← operand k b (.op o :: l)
      suffixes k b e l
  | k + 1, b, l => do
    let (e, l) ← operand k b l
    suffixes k b e l

def operand : Nat → Bool → P Expr
  | 0, _, _ => none
  | _ + 1, _, .int n :: l => some (.int n, l)
  | _ + 1, _, .str s :: l => some (.str s, l)
  | k + 1, _, .op "(" :: l => do
    let (e, l) ← expr k true 1 l
    let (_, l) ← op ")" l
    return (e, l)
  | k + 1, _, .op "[" :: l => (ty k (.op "[" :: l)).map fun (t, l) => (.ty t, l)
  | k + 1, _, .id "map" :: l => (ty k (.id "map" :: l)).map fun (t, l) => (.ty t, l)
  | k + 1, _, .id "struct" :: l => (ty k (.id "struct" :: l)).map fun (t, l) => (.ty t, l)
  | _ + 1, _, .id s :: l => some (.name s, l)
  | _ + 1, _, _ => none

/-- Selectors, indices, calls and literals after `e`. -/
def suffixes : Nat → Bool → Expr → P Expr
  | 0, _, _, _ => none
  | k + 1, b, e, .op "." :: .id f :: l => suffixes k b (.sel e f) l
  | k + 1, b, e, .op "(" :: l => do
    let (es, s, l) ← args k l
    suffixes k b (.call e es s) l
  | k + 1, b, e, .op "[" :: .op ":" :: l => do
    let (h, l) ← upper k l
    suffixes k b (.slc e none h) l
  | k + 1, b, e, .op "[" :: l => do
    let (i, l') ← expr k true 1 l
    match l' with
    | .op "]" :: l' => suffixes k b (.idx e i) l'
    | .op ":" :: l' => do
      let (h, l') ← upper k l'
      suffixes k b (.slc e (some i) h) l'
    | .op "," :: _ => do
      let (ts, l') ← tys k l
      suffixes k b (.inst e ts) l'
    | _ => none
  | k + 1, b, e, .op "{" :: l =>
    if b then
      match asTy e with
      | some t => do
        let (ks, es, l) ← elems k l
        suffixes k b (.lit t ks es) l
      | none => some (e, .op "{" :: l)
    else some (e, .op "{" :: l)
  | _ + 1, _, e, l => some (e, l)

/-- What is between `:` and `]`. -/
def upper : Nat → P (Option Expr)
  | 0, _ => none
  | _ + 1, .op "]" :: l => some (none, l)
  | k + 1, l => do
    let (h, l) ← expr k true 1 l
    let (_, l) ← op "]" l
    return (some h, l)

/-- Arguments up to `)`, and whether the last has `...`. -/
def args : Nat → List Tok → Option (List Expr × Bool × List Tok)
  | 0, _ => none
  | _ + 1, .op ")" :: l => some ([], false, l)
  | k + 1, l => do
    let (e, l) ← expr k true 1 l
    match l with
    | .op "," :: l => do
      let (es, s, l) ← args k l
      return (e :: es, s, l)
    | .op "..." :: .op ")" :: l => return ([e], true, l)
    | .op ")" :: l => return ([e], false, l)
    | _ => none

/-- The elements of a literal up to `}`. -/
def elems : Nat → List Tok → Option (List String × List Expr × List Tok)
  | 0, _ => none
  | _ + 1, .op "}" :: l => some ([], [], l)
  | k + 1, .op ";" :: l => elems k l
  | k + 1, .op "," :: l => elems k l
  | k + 1, .id x :: .op ":" :: l => do
    let (e, l) ← expr k true 1 l
    let (ks, es, l) ← elems k l
    return (x :: ks, e :: es, l)
  | k + 1, l => do
    let (e, l) ← expr k true 1 l
    let (ks, es, l) ← elems k l
    return ("" :: ks, e :: es, l)
end

/-- Expressions separated by commas. -/
def exprs : Nat → Bool → P (List Expr)
  | 0, _, _ => none
  | k + 1, b, l => do
    let (e, l) ← expr k b 1 l
    match l with
    | .op "," :: l => (exprs k b l).map fun (es, l) => (e :: es, l)
    | _ => return ([e], l)

/-- The names, if they are all names. -/
def names : List Expr → Option (List String)
  | [] => some []
  | .name x :: es => (names es).map (x :: ·)
  | _ :: _ => none

/-- The operator of `op=`. -/
def setOp : String → Option String
  | "+=" => some "+" | "-=" => some "-" | "*=" => some "*" | "/=" => some "/" | "%=" => some "%" | "&=" => some "&"
  | "|=" => some "|" | "^=" => some "^" | "<<=" => some "<<" | ">>=" => some ">>" | _ => none

/-- `v, ok := m[k]` is a call of `map lookup`. -/
def commaOk : Nat → List Expr → List Expr
  | 2, [.idx e i] => [.call (.name "map lookup") [e, i] false]
  | _, rs => rs

/-- A simple statement. -/
def simple (k : Nat) (b : Bool) (l : List Tok) : Option (Stmt × List Tok) := do
  let (es, l) ← exprs k b l
  match l with
  | .op ":=" :: l => do
    let xs ← names es
    let (rs, l) ← exprs k b l
    return (.define xs (commaOk xs.length rs), l)
  | .op "=" :: l => do
    let (rs, l) ← exprs k b l
    return (.assign es (commaOk es.length rs), l)
  | .op "++" :: l => match es with | [e] => some (.opset "+" e (.int 1), l) | _ => none
  | .op "--" :: l => match es with | [e] => some (.opset "-" e (.int 1), l) | _ => none
  | .op o :: l' =>
    match setOp o, es with
    | some o, [e] => do
      let (r, l) ← expr k b 1 l'
      return (.opset o e r, l)
    | _, [e] => some (.expr e, l)
    | _, _ => none
  | _ => match es with | [e] => some (.expr e, l) | _ => none

/-- `x, y T = …` after `var` or `const`. -/
def varSpec : Nat → P Stmt
  | 0, _ => none
  | k + 1, .id x :: .op "," :: l => do
    let (s, l) ← varSpec k l
    match s with
    | .var xs t es => return (.var (x :: xs) t es, l)
    | _ => none
  | k + 1, .id x :: .op "=" :: l => do
    let (es, l) ← exprs k true l
    return (.var [x] none es, l)
  | k + 1, .id x :: l => do
    let (t, l) ← ty k l
    match l with
    | .op "=" :: l => do
      let (es, l) ← exprs k true l
      return (.var [x] (some t) es, l)
    | _ => return (.var [x] (some t) [], l)
  | _ + 1, _ => none

/-- Such declarations up to `)`. -/
def varSpecs : Nat → P (List Stmt)
  | 0, _ => none
  | _ + 1, .op ")" :: l => some ([], l)
  | k + 1, .op ";" :: l => varSpecs k l
  | k + 1, l => do
    let (s, l) ← varSpec k l
    let (ss, l) ← varSpecs k l
    return (s :: ss, l)

/-- `var x = e` means `x := e`. -/
def asVar : Stmt → Stmt
  | .var xs none es => .define xs es
  | s => s

mutual
/-- A statement; a declaration in parentheses is several. -/
def stmt : Nat → P (List Stmt)
  | 0, _ => none
  | k + 1, .id "if" :: l => do
    let (s, l) ← ifRest k l
    return ([s], l)
  | k + 1, .id "for" :: .op "{" :: l => do
    let (b, l) ← block k l
    return ([.loop [] none [] b], l)
  | k + 1, .id "for" :: .id x :: .op "," :: .id y :: .op ":=" :: .id "range" :: l => do
    let (e, l) ← expr k false 1 l
    let (_, l) ← op "{" l
    let (b, l) ← block k l
    return ([.range x y e b], l)
  | k + 1, .id "for" :: .id x :: .op ":=" :: .id "range" :: l => do
    let (e, l) ← expr k false 1 l
    let (_, l) ← op "{" l
    let (b, l) ← block k l
    return ([.range x "_" e b], l)
  | k + 1, .id "for" :: .op ";" :: l => do
    let (c, l) ← expr k false 1 l
    let (_, l) ← op ";" l
    let (p, l) ← simple k false l
    let (_, l) ← op "{" l
    let (b, l) ← block k l
    return ([.loop [] (some c) [p] b], l)
  | k + 1, .id "for" :: l => do
    let (s, l) ← simple k false l
    match l with
    | .op "{" :: l =>
      match s with
      | .expr c => do
        let (b, l) ← block k l
        return ([.loop [] (some c) [] b], l)
      | _ => none
    | .op ";" :: l => do
      let (c, l) ← expr k false 1 l
      let (_, l) ← op ";" l
      let (p, l) ← simple k false l
      let (_, l) ← op "{" l
      let (b, l) ← block k l
      return ([.loop [s] (some c) [p] b], l)
    | _ => none
  | k + 1, .id "switch" :: .op "{" :: l => do
    let (b, l) ← cases k none l
    match b with
    | [s] => return ([s], l)
    | _ => none
  | k + 1, .id "switch" :: .id x :: .op "{" :: l => do
    let (b, l) ← cases k (some (.name x)) l
    match b with
    | [s] => return ([s], l)
    | _ => none
  | _ + 1, .id "return" :: .op ";" :: l => some ([.ret []], .op ";" :: l)
  | k + 1, .id "return" :: l => do
    let (es, l) ← exprs k true l
    return ([.ret es], l)
  | _ + 1, .id "break" :: .op ";" :: l => some ([.brk], .op ";" :: l)
  | _ + 1, .id "continue" :: .op ";" :: l => some ([.cont], .op ";" :: l)
  | k + 1, .id "var" :: .op "(" :: l => (varSpecs k l).map fun (ss, l) => (ss.map asVar, l)
  | k + 1, .id "const" :: .op "(" :: l => varSpecs k l
  | k + 1, .id "var" :: l => (varSpec k l).map fun (s, l) => ([asVar s], l)
  | k + 1, .id "const" :: l => (varSpec k l).map fun (s, l) => ([s], l)
  | k + 1, .op "{" :: l => (block k l).map fun (b, l) => ([.block b], l)
  | k + 1, l => (simple k true l).map fun (s, l) => ([s], l)

/-- Statements up to `}`. -/
def block : Nat → P (List Stmt)
  | 0, _ => none
  | k + 1, .op ";" :: l => block k l
  | _ + 1, .op "}" :: l => some ([], l)
  | k + 1, l => do
    let (s, l) ← stmt k l
    let (b, l) ← block k l
    return (s ++ b, l)

/-- What follows `if`. -/
def ifRest : Nat → P Stmt
  | 0, _ => none
  | k + 1, l => do
    let (s, l) ← simple k false l
    match l with
    | .op ";" :: l => do
      let (c, l) ← expr k false 1 l
      let (_, l) ← op "{" l
      let (t, l) ← block k l
      let (e, l) ← elseRest k l
      return (.ite [s] c t e, l)
    | .op "{" :: l =>
      match s with
      | .expr c => do
        let (t, l) ← block k l
        let (e, l) ← elseRest k l
        return (.ite [] c t e, l)
      | _ => none
    | _ => none

def elseRest : Nat → P (List Stmt)
  | 0, _ => none
  | k + 1, .id "else" :: .id "if" :: l => (ifRest k l).map fun (s, l) => ([s], l)
  | k + 1, .id "else" :: .op "{" :: l => block k l
  | _ + 1, l => some ([], l)

/-- The cases of a `switch`, as `if` … `else`; `break` must not occur in them. -/
def cases : Nat → Option Expr → P (List Stmt)
  | 0, _, _ => none
  | k + 1, t, .op ";" :: l => cases k t l
  | _ + 1, _, .op "}" :: l => some ([], l)
  | k + 1, t, .id "case" :: l => do
    let (c, l) ← expr k true 1 l
    let (_, l) ← op ":" l
    let (b, l) ← clause k l
    let (r, l) ← cases k t l
    return ([.ite [] (match t with | some e => .bin "==" e c | none => c) b r], l)
  | k + 1, _, .id "default" :: .op ":" :: l => do
    let (b, l) ← clause k l
    let (_, l) ← op "}" l
    return (b, l)
  | _ + 1, _, _ => none

/-- Statements up to the next case. -/
def clause : Nat → P (List Stmt)
  | 0, _ => none
  | k + 1, .op ";" :: l => clause k l
  | _ + 1, .id "case" :: l => some ([], .id "case" :: l)
  | _ + 1, .id "default" :: l => some ([], .id "default" :: l)
  | _ + 1, .op "}" :: l => some ([], .op "}" :: l)
  | k + 1, l => do
    let (s, l) ← stmt k l
    let (b, l) ← clause k l
    return (s ++ b, l)
end

/-- Skips type parameters, `[…]`, if there are any. -/
def typeParams : Nat → Nat → List Tok → List Tok
  | 0, _, l => l
  | k + 1, 0, .op "[" :: l => typeParams k 1 l
  | _ + 1, 0, l => l
  | k + 1, d + 1, .op "[" :: l => typeParams k (d + 2) l
  | k + 1, d + 1, .op "]" :: l => if d = 0 then l else typeParams k d l
  | k + 1, d + 1, _ :: l => typeParams k (d + 1) l
  | _ + 1, _ + 1, [] => []

/-- The results of a function: none, one type, or a list in parentheses. -/
def results (k : Nat) : P (List (String × Ty))
  | .op "{" :: l => some ([], .op "{" :: l)
  | .op "(" :: l => (params k l).map fun (ps, _, l) => (ps, l)
  | l => (ty k l).map fun (t, l) => ([("", t)], l)

/-- A function after its receiver. -/
def fnRest (k : Nat) (r : Option (String × String × Bool)) (l : List Tok) : Option (Fn × List Tok) := do
  let (x, l) ← ident l
  let (_, l) ← op "(" (typeParams k 0 l)
  let (ps, v, l) ← params k l
  let (rs, l) ← results k l
  let (_, l) ← op "{" l
  let (b, l) ← block k l
  return (⟨r, x, ps, v, rs, b⟩, l)

/-- A function declaration. -/
def fn (k : Nat) : P Fn
  | .id "func" :: .op "(" :: .id r :: .op "*" :: .id t :: l => do
    let (_, l) ← op ")" (typeParams k 0 l)
    fnRest k (some (r, t, true)) l
  | .id "func" :: .op "(" :: .id r :: .id t :: l => do
    let (_, l) ← op ")" (typeParams k 0 l)
    fnRest k (some (r, t, false)) l
  | .id "func" :: l => fnRest k none l
  | _ => none

/-- The function that the lines consist of. -/
def parseFn (text : List String) : Option Fn :=
  match fn 400 (lex text) with
  | some (f, l) => if l.all (· == .op ";") then some f else none
  | none => none

end Verif.Src
