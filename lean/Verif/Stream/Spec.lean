import Verif.Stream.Model

/-!
# What the stream properties say

Lists and sequences only; nothing here looks inside a stream or a source except through `Next` and
`SkipNext`.
-/

namespace Verif.Stream

variable {T E : Type} {S : Source T E}

/-! ## The list pipeline (C42) -/

/-- The meaning of an intermediate operation on the list of elements. -/
def Call.onList : Call T E → List T → List T
  | .map f, xs => xs.map f
  | .filter p, xs => xs.filter p
  | .skip n, xs => xs.drop n.toNat
  | .limit n, xs => xs.take n.toNat
  | .peek _, xs => xs

/-- The meaning of a chain, in the order of the calls. -/
def listChain : List (Call T E) → List T → List T
  | [], xs => xs
  | c :: cs, xs => listChain cs (c.onList xs)

/-- The arguments are legal (`Skip` and `Limit` panic on a negative argument). -/
def Call.legal : Call T E → Prop
  | .skip n | .limit n => 0 ≤ n
  | _ => True

/-- How far a call may move a source. -/
def Call.cost : Call T E → Nat
  | .skip n => n.toNat
  | _ => 0

/-- The sum of the arguments of all calls of `Skip`. -/
def skips (cs : List (Call T E)) : Nat := (cs.map Call.cost).sum

/-! ## Streams that yield a list (C45) -/

/-- Reading `s` to its end gives exactly the list. -/
inductive Lists : Stream S → List T → Prop
  | nil {s s' : Stream S} {l : List E} : s.next = some (.ok ⟨none, s', l⟩) → Lists s []
  | cons {s s' : Stream S} {l : List E} {v : T} {vs : List T} :
      s.next = some (.ok ⟨some v, s', l⟩) → Lists s' vs → Lists s (v :: vs)

/-! ## Sources that behave like a sequence (C48) -/

/-- A finite or infinite sequence: `none` from the end on. -/
abbrev Seq (T : Type) := Nat → Option T

/-- A list as a sequence. -/
def seqOf (xs : List T) : Seq T := fun i => xs[i]?

/-- The sequence without its first `n` elements. -/
def Seq.drop (a : Seq T) (n : Nat) : Seq T := fun i => a (i + n)

/-- `P b a q` is a correct description of source states `q` by sequences `a`: `Next` gives the first element
and the rest describes the new state; `SkipNext(n)` drops `n` elements. `b` bounds how far the source may
still be moved by `SkipNext` (machine integers are finite). Nothing is required after the end was
reported. -/
structure Describes (S : Source T E) (P : Nat → Seq T → S.σ → Prop) : Prop where
  some : ∀ {b a q x}, P b a q → a 0 = .some x →
    ∃ q' l, S.next q = .some (.ok ⟨.some x, q', l⟩) ∧ P b (a.drop 1) q'
  none : ∀ {b a q}, P b a q → a 0 = .none → (∀ i, a i = .none) ∧
    ∃ q' l, S.next q = .some (.ok ⟨.none, q', l⟩)
  skip : ∀ {b a q} {n : Nat}, P b a q → n ≤ b →
    ∃ r q', S.skip n q = .ok (r, q') ∧ P (b - n) (a.drop n) q'

/-- The state `q` of source `S` behaves like the sequence `a`, as long as it is not moved by more than `b`
elements with `SkipNext`. -/
def Behaves (S : Source T E) (b : Nat) (a : Seq T) (q : S.σ) : Prop :=
  ∃ P, Describes S P ∧ P b a q

/-- The values of the first `k` calls of `Next`, up to the end of the source. -/
def reads (S : Source T E) : Nat → S.σ → Option (Go (List T))
  | 0, _ => some (.ok [])
  | k + 1, q =>
    match S.next q with
    | none => none
    | some (.error e) => some (.error e)
    | some (.ok ⟨none, _, _⟩) => some (.ok [])
    | some (.ok ⟨some v, q', _⟩) =>
      match reads S k q' with
      | none => none
      | some (.error e) => some (.error e)
      | some (.ok vs) => some (.ok (v :: vs))

/-- `SkipNext(n)` followed by reading yields what reading `n` more elements and discarding the first `n`
yields. -/
def SkipIsDrop (S : Source T E) (n : Nat) (q : S.σ) : Prop :=
  ∃ r q', S.skip n q = .ok (r, q') ∧
    ∀ k, ∃ vs, reads S (n + k) q = some (.ok vs) ∧ reads S k q' = some (.ok (vs.drop n))

/-- The source's own reads produce no events (true of every source that is not itself a stream). -/
def Silent (S : Source T E) : Prop := ∀ q r, S.next q = some (.ok r) → r.log = []

/-! ## Reading from the source (C44) -/

/-- The source `S`, with one event for every call of its `Next` and no others. -/
def ticking (S : Source T E) : Source T Unit where
  σ := S.σ
  next q :=
    match S.next q with
    | none => none
    | some (.error e) => some (.error e)
    | some (.ok ⟨v, q', _⟩) => some (.ok ⟨v, q', [()]⟩)
  skip := S.skip

/-- The call produces no events of its own. -/
def Call.quiet : Call T E → Prop
  | .peek c => ∀ v, c v = []
  | _ => True

end Verif.Stream
