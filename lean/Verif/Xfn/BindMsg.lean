import Verif.Xfn.BindProps

/-!
# C109: what `Bind` says when it panics (xfn/bind.go)

`bindMsg` is `bind` with the messages in full. Trusted: what `fmt` does with integers and strings, and the text of the
panic of `reflect.Value.Type` on the zero `Value`.
-/

namespace Verif.Xfn

variable {R : Refl}

/-- `Type.String` for the types at hand: of values, of functions, and of `src` and `Dest` if they are not functions. -/
structure Names (R : Refl) where
  ty : R.Ty → String
  sig : Sig R → String
  src : String
  dest : String

/-- xfn/bind.go:14-16 `Placeholder.String`. -/
def placeholderString (p : Int) : String := "Placeholder(" ++ toString p ++ ")"

/-- xfn/bind.go:37-48 `_ith`; `%` is that of Go. -/
def ith (i : Int) : String :=
  let lastDigit := i.tmod 10
  if lastDigit = 1 then toString i ++ "st"
  else if lastDigit = 2 then toString i ++ "nd"
  else if lastDigit = 3 then toString i ++ "rd"
  else toString i ++ "th"

/-- The panic of `reflect.Value.Type` on the zero `Value`. -/
def zeroValue : String := "reflect: call of reflect.Value.Type on zero Value"

variable (N : Names R)

/-- xfn/bind.go:65-71, the loop over the outputs, `n` of them left. -/
def outLoop (s d : Sig R) : Nat → Nat → Go Unit
  | 0, _ => .ok ()
  | n + 1, i => do
    let so ← goGet s.outs i
    let dO ← goGet d.outs i
    if so ≠ dO then
      throw ("incompatible output: " ++ ith (i + 1) ++ " output of src [" ++ N.sig s ++ "] is [" ++ N.ty so ++
        "] but " ++ ith (i + 1) ++ " output of dest [" ++ N.sig d ++ "] is [" ++ N.ty dO ++ "]")
    outLoop s d n (i + 1)

/-- xfn/bind.go:83-107, the loop over the bind arguments. -/
def argLoopMsg (s d : Sig R) : Nat → List (Arg R) → Bound R → Nat → Go (Bound R × Nat)
  | _, [], b, destIdx => .ok (b, destIdx)
  | i, .ph k :: as, b, destIdx => do
    let destPH := k - 1
    if destPH < 0 ∨ (d.ins.length : Int) ≤ destPH then
      throw ("invalid placeholder: dest [" ++ N.sig d ++ "] has " ++ toString d.ins.length ++ " inputs but provided " ++
        placeholderString k ++ " at " ++ ith (i + 1) ++ " bind argument")
    let si ← goGet s.ins i
    let di ← goGet d.ins destPH
    if si ≠ di then
      throw ("type mismatch: src [" ++ N.sig s ++ "] " ++ ith (i + 1) ++ " input is [" ++ N.ty si ++ "] but provided [" ++
        N.ty di ++ "] via " ++ placeholderString k ++ " at " ++ ith (i + 1) ++ " bind argument")
    argLoopMsg s d (i + 1) as { b with placeholders := b.placeholders ++ [(destPH.toNat, i)] }
      (max destIdx (destPH.toNat + 1))
  | _, .nil :: _, _, _ => .error zeroValue
  | i, .val v :: as, b, destIdx => do
    let si ← goGet s.ins i
    match R.conv v si with
    | none =>
      throw ("type mismatch: src [" ++ N.sig s ++ "] " ++ ith (i + 1) ++ " input is [" ++ N.ty si ++ "] but provided [" ++
        N.ty (R.typeOf v) ++ "] at " ++ ith (i + 1) ++ " bind argument")
    | some w => argLoopMsg s d (i + 1) as { b with values := ← goSet b.values i (some w) } destIdx

/-- xfn/bind.go:113-118, the loop that writes the missing types, `n` of them left; `sb` is what is written. -/
def missingLoop (s : Sig R) : Nat → Int → String → Go String
  | 0, _, sb => .ok sb
  | n + 1, i, sb => do
    let sb := sb ++ N.ty (← goGet s.ins i)
    let sb := if i < s.ins.length - 1 then sb ++ ", " else sb
    missingLoop s n (i + 1) sb

/-- xfn/bind.go:122-130, the loop over the remaining inputs of `src`, `n` of them. -/
def restLoopMsg (s d : Sig R) : Nat → Nat → Nat → List (Nat × Nat) → Go (List (Nat × Nat))
  | 0, _, _, ps => .ok ps
  | n + 1, i, destIdx, ps => do
    let si ← goGet s.ins i
    let di ← goGet d.ins destIdx
    if si ≠ di then
      throw ("type mismatch: src [" ++ N.sig s ++ "] " ++ ith (i + 1) ++ " input is [" ++ N.ty si ++ "] but provided [" ++
        N.ty di ++ "] via " ++ ith (destIdx + 1) ++ " dest input [" ++ N.sig d ++ "]")
    restLoopMsg s d n (i + 1) (destIdx + 1) (ps ++ [(destIdx, i)])

/-- `Bind[Dest](src, args...)` up to `MakeFunc` (xfn/bind.go:50-130). -/
def bindMsg (src : Src R) (dest : Dest R) (args : List (Arg R)) : Go (Bound R) :=
  match src with
  | .nil => .error zeroValue
  | .other => .error ("invalid type: src [" ++ N.src ++ "] is not a function type")
  | .func s _ =>
    match dest with
    | .other => .error ("invalid type: dest [" ++ N.dest ++ "] is not a function type")
    | .func d => do
      if s.outs.length ≠ d.outs.length then
        throw ("incompatible output: src [" ++ N.sig s ++ "] has " ++ toString s.outs.length ++ " outputs but dest [" ++
          N.sig d ++ "] has " ++ toString d.outs.length)
      outLoop N s d s.outs.length 0
      if args.length > s.ins.length then
        throw ("too many arguments: src [" ++ N.sig s ++ "] has " ++ toString s.ins.length ++ " inputs but provided " ++
          toString args.length ++ " bind arguments")
      let (b, destIdx) ← argLoopMsg N s d 0 args ⟨List.replicate s.ins.length none, []⟩ 0
      let need : Int := s.ins.length - args.length
      let have_ : Int := d.ins.length - destIdx
      if need > have_ then
        let missing := need - have_
        let sb ← missingLoop N s missing.toNat (s.ins.length - missing) ""
        throw ("not enough inputs: dest [" ++ N.sig d ++ "] needs " ++ toString missing ++ " more inputs [" ++ sb ++ "]")
      let ps ← restLoopMsg N s d (s.ins.length - args.length) args.length destIdx b.placeholders
      return { b with placeholders := ps }

/-! ## What it ought to say -/

/-- What can be wrong; positions count from 0. -/
inductive Problem
  /-- `src` is nil -/
  | srcNil
  /-- `src` is no function -/
  | srcNot
  /-- `Dest` is no function type -/
  | destNot
  /-- they have different numbers of outputs -/
  | outCount
  /-- output `i` differs -/
  | out (i : Nat)
  /-- more arguments than inputs -/
  | tooMany
  /-- argument `i` names input `k` of `Dest`, which does not exist -/
  | badPlaceholder (i : Nat) (k : Int)
  /-- argument `i` names input `k` of `Dest`, which has another type -/
  | placeholderType (i k : Nat)
  /-- argument `i` is nil -/
  | nilArg (i : Nat)
  /-- argument `i` cannot be converted -/
  | argType (i : Nat)
  /-- `Dest` has `n` inputs too few after the highest named by a placeholder -/
  | notEnough (n : Nat)
  /-- input `i` of `src`, for which there is no argument, gets one of another type -/
  | restType (i : Nat)
deriving DecidableEq

/-- That is wrong with these signatures and arguments. -/
def Wrong (s d : Sig R) (args : List (Arg R)) : Problem → Prop
  | .srcNil | .srcNot | .destNot => False
  | .outCount => s.outs.length ≠ d.outs.length
  | .out i => i < s.outs.length ∧ s.outs[i]? ≠ d.outs[i]?
  | .tooMany => s.ins.length < args.length
  | .badPlaceholder i k => args[i]? = some (.ph k) ∧ (k < 1 ∨ d.ins.length < k)
  | .placeholderType i k => args[i]? = some (.ph k) ∧ 1 ≤ k ∧ k ≤ d.ins.length ∧ s.ins[i]? ≠ d.ins[k - 1]?
  | .nilArg i => args[i]? = some .nil
  | .argType i => ∃ v t, args[i]? = some (.val v) ∧ s.ins[i]? = some t ∧ R.conv v t = none
  | .notEnough n => 0 < n ∧ s.ins.length + highest args = args.length + d.ins.length + n
  | .restType i => args.length ≤ i ∧ i < s.ins.length ∧ s.ins[i]? ≠ d.ins[highest args + (i - args.length)]?

/-- That is wrong with this call of `Bind`. -/
def Blame (src : Src R) (dest : Dest R) (args : List (Arg R)) (p : Problem) : Prop :=
  match p with
  | .srcNil => src = .nil
  | .srcNot => src = .other
  | .destNot => dest = .other
  | p => ∃ s f d, src = .func s f ∧ dest = .func d ∧ Wrong s d args p

/-- What is looked at first: the function types, the outputs, the arguments, the remaining inputs. -/
def Problem.stage : Problem → Nat
  | .srcNil | .srcNot => 0
  | .destNot => 1
  | .outCount => 2
  | .out _ => 3
  | .tooMany => 4
  | .badPlaceholder _ _ | .placeholderType _ _ | .nilArg _ | .argType _ => 5
  | .notEnough _ => 6
  | .restType _ => 7

/-- In each, from left to right. -/
def Problem.place : Problem → Nat
  | .out i | .badPlaceholder i _ | .placeholderType i _ | .nilArg i | .argType i | .restType i => i
  | _ => 0

/-- `p` comes before `q`. -/
def Problem.Before (p q : Problem) : Prop := p.stage < q.stage ∨ p.stage = q.stage ∧ p.place < q.place

/-- The first thing that is wrong. -/
def First (src : Src R) (dest : Dest R) (args : List (Arg R)) (p : Problem) : Prop :=
  Blame src dest args p ∧ ∀ q, Blame src dest args q → ¬ q.Before p

/-- Separated by commas. -/
def commas : List String → String
  | [] => ""
  | [x] => x
  | x :: y :: l => x ++ ", " ++ commas (y :: l)

/-- The name of the `i`-th type. -/
def nameAt (ts : List R.Ty) (i : Nat) : String := (ts[i]?.map N.ty).getD ""

/-- The message, given how ordinals are written. -/
def messageOf (ord : Nat → String) (s d : Sig R) (args : List (Arg R)) : Problem → String
  | .srcNil | .nilArg _ => "reflect: call of reflect.Value.Type on zero Value"
  | .srcNot => "invalid type: src [" ++ N.src ++ "] is not a function type"
  | .destNot => "invalid type: dest [" ++ N.dest ++ "] is not a function type"
  | .outCount => "incompatible output: src [" ++ N.sig s ++ "] has " ++ toString s.outs.length ++ " outputs but dest [" ++
      N.sig d ++ "] has " ++ toString d.outs.length
  | .out i => "incompatible output: " ++ ord (i + 1) ++ " output of src [" ++ N.sig s ++ "] is [" ++ nameAt N s.outs i ++
      "] but " ++ ord (i + 1) ++ " output of dest [" ++ N.sig d ++ "] is [" ++ nameAt N d.outs i ++ "]"
  | .tooMany => "too many arguments: src [" ++ N.sig s ++ "] has " ++ toString s.ins.length ++ " inputs but provided " ++
      toString args.length ++ " bind arguments"
  | .badPlaceholder i k => "invalid placeholder: dest [" ++ N.sig d ++ "] has " ++ toString d.ins.length ++
      " inputs but provided Placeholder(" ++ toString k ++ ") at " ++ ord (i + 1) ++ " bind argument"
  | .placeholderType i k => "type mismatch: src [" ++ N.sig s ++ "] " ++ ord (i + 1) ++ " input is [" ++ nameAt N s.ins i ++
      "] but provided [" ++ nameAt N d.ins (k - 1) ++ "] via Placeholder(" ++ toString k ++ ") at " ++ ord (i + 1) ++
      " bind argument"
  | .argType i => "type mismatch: src [" ++ N.sig s ++ "] " ++ ord (i + 1) ++ " input is [" ++ nameAt N s.ins i ++
      "] but provided [" ++ (match args[i]? with | some (.val v) => N.ty (R.typeOf v) | _ => "") ++ "] at " ++ ord (i + 1) ++
      " bind argument"
  | .notEnough n => "not enough inputs: dest [" ++ N.sig d ++ "] needs " ++ toString n ++ " more inputs [" ++
      commas ((s.ins.drop (s.ins.length - n)).map N.ty) ++ "]"
  | .restType i => "type mismatch: src [" ++ N.sig s ++ "] " ++ ord (i + 1) ++ " input is [" ++ nameAt N s.ins i ++
      "] but provided [" ++ nameAt N d.ins (highest args + (i - args.length)) ++ "] via " ++
      ord (highest args + (i - args.length) + 1) ++ " dest input [" ++ N.sig d ++ "]"

/-- The message for a call of `Bind`; signatures only matter when both are functions. -/
def message (ord : Nat → String) (src : Src R) (dest : Dest R) (args : List (Arg R)) (p : Problem) : String :=
  match src, dest with
  | .func s _, .func d => messageOf N ord s d args p
  | _, _ => messageOf N ord ⟨[], [], false⟩ ⟨[], [], false⟩ args p

/-- English ordinals: 11th, 12th and 13th are not 11st, 12nd and 13rd. -/
def ordinal (n : Nat) : String :=
  toString n ++ (if n % 100 = 11 ∨ n % 100 = 12 ∨ n % 100 = 13 then "th"
    else match n % 10 with | 1 => "st" | 2 => "nd" | 3 => "rd" | _ => "th")

end Verif.Xfn
