import Verif.Src.IterRestProg
import Verif.Src.AlgoPerm

/-!
# The rest of ds/iter, from the text

The iterators of ds/iter/reverse.go:3-106, dummy.go and inserter.go, for any values that have the methods they call. What the methods
do is said by the operations of Iter/Model.lean, one clause per method (`NextIs` …), so that an iterator that lacks a method needs
nothing of that method.
-/

namespace Verif.Src.IterRest

open Verif.Iter
open Verif.Src.Algo (plain fetch_plain coerce_plain settle_plain fit_plain boxNo_plain Does Gives Leaves wrap_wrap64)

section methods
variable {E S T J : Type} [Iter S T J] (X : Ctx E) (Rep : S → Mem E → Prop) (val : T → Val E) (k : Nat) (enc : J → Val E)

/-- ds/iter/iterator.go:4-39: the methods of the values `enc j`, from the call depth `k` on. -/
def NextIs : Prop := ∀ n, k ≤ n → ∀ j p s m, Rep s m →
  Does (callOn X (calls X n) "Next" (enc j) p [] false m) ((St.lift (next j) : St S J) s) (Gives Rep enc)
def GetIs : Prop := ∀ n, k ≤ n → ∀ j p s m, Rep s m →
  Does (callOn X (calls X n) "Get" (enc j) p [] false m) (get j s) (Gives Rep val)
def SetIs : Prop := ∀ n, k ≤ n → ∀ j t p s m, Rep s m →
  Does (callOn X (calls X n) "Set" (enc j) p [val t] false m) (set j t s) (Leaves Rep)
def EqualIs : Prop := ∀ n, k ≤ n → ∀ j j' p s m, Rep s m →
  Does (callOn X (calls X n) "Equal" (enc j) p [enc j'] false m) ((St.lift (equal j j') : St S Bool) s) (Gives Rep .bool)

end methods

section random
variable {E S T J : Type} [RandIter S T J] (X : Ctx E) (Rep : S → Mem E → Prop) (k : Nat) (enc : J → Val E)

def PrevIs : Prop := ∀ n, k ≤ n → ∀ j p s m, Rep s m →
  Does (callOn X (calls X n) "Prev" (enc j) p [] false m) ((St.lift (prev j) : St S J) s) (Gives Rep enc)
def AddIs : Prop := ∀ n, k ≤ n → ∀ j i p s m, Rep s m → isInt64 i →
  Does (callOn X (calls X n) "Add" (enc j) p [.num .int i] false m) ((St.lift (add j i) : St S J) s) (Gives Rep enc)
def PosIs : Prop := ∀ n, k ≤ n → ∀ j p s m, Rep s m →
  Does (callOn X (calls X n) "Pos" (enc j) p [] false m) ((St.lift (.ok (pos j)) : St S Int) s) (Gives Rep (.num .int))

end random

open Lean Parser.Tactic in
/-- `go_run` in the presence of unknown values `enc _`. -/
macro "pl_run" h:term:max v:term:max "[" ls:simpLemma,* "]" : tactic =>
  `(tactic| refine Does.congr (by
      go_run [fetch_plain ($h _), ↓coerce_plain ($h _), ↓settle_plain ($h _), ↓fit_plain ($h _), ↓boxNo_plain ($h _),
        fetch_plain ($v _), ↓coerce_plain ($v _), ↓settle_plain ($v _), ↓fit_plain ($v _), ↓boxNo_plain ($v _), $ls,*]
      (try simp only [bind_assoc])
      exact rfl) ?_)

section rev
variable {E S T J : Type} [RandIter S T J] {p : Par E} {Rep : S → Mem E → Prop} {val : T → Val E} {k : Nat} {enc : J → Val E}

/-- A reverse iterator, as a value of the struct type `t`. -/
def encRev (t : String) (enc : J → Val E) (c : Rev J) : Val E := .struct t [("i", enc c.i)]

theorem lift_next (j : Rev J) : (St.lift (next j) : St S (Rev J)) = (do
    let i ← St.lift (prev j.i)
    pure ⟨i⟩) := by
  funext s
  show (_, _) = _
  rw [St.bind_apply]
  simp only [next, St.lift]
  cases prev j.i <;> rfl

theorem lift_prev (j : Rev J) : (St.lift (prev j) : St S (Rev J)) = (do
    let i ← St.lift (next j.i)
    pure ⟨i⟩) := by
  funext s
  show (_, _) = _
  rw [St.bind_apply]
  simp only [prev, St.lift]
  cases next j.i <;> rfl

theorem lift_add (j : Rev J) (d : Int) : (St.lift (add j d) : St S (Rev J)) = (do
    let i ← St.lift (add j.i (wrap64 (-d)))
    pure ⟨i⟩) := by
  funext s
  show (_, _) = _
  rw [St.bind_apply]
  simp only [add, St.lift]
  cases add j.i (wrap64 (-d)) <;> rfl

theorem lift_pos (j : Rev J) : (St.lift (.ok (pos j)) : St S Int) = (do
    let i ← St.lift (.ok (pos j.i))
    pure (wrap64 (-i))) := rfl

/-- **C156.** ds/iter/reverse.go:3-32, of any iterator with the methods of `ConstBidirIterator`. -/
theorem C156_ConstReverse (hp : ∀ j, plain (enc j) = true) (hv : ∀ t, plain (val t) = true)
    (hnx : NextIs (ctx p) Rep k enc)
    (hpv : PrevIs (ctx p) Rep k enc)
    (hgt : GetIs (ctx p) Rep val k enc)
    (heq : EqualIs (ctx p) Rep k enc) :
    (∀ n j m, calls (ctx p) (n + 1) "ConstReverse" [enc j] m = pure ([encRev "ConstReverseIterator" enc ⟨j⟩], m)) ∧
    (∀ n j q m, callOn (ctx p) (calls (ctx p) (n + 1)) "Base" (encRev "ConstReverseIterator" enc j) q [] false m = pure ([enc j.base], m)) ∧
    NextIs (ctx p) Rep (k + 1) (encRev "ConstReverseIterator" enc) ∧
    PrevIs (ctx p) Rep (k + 1) (encRev "ConstReverseIterator" enc) ∧
    GetIs (ctx p) Rep val (k + 1) (encRev "ConstReverseIterator" enc) ∧
    EqualIs (ctx p) Rep (k + 1) (encRev "ConstReverseIterator" enc) := by
  refine ⟨fun n j m => ?_, fun n j q m => ?_, fun n hn j q s m hm => ?_, fun n hn j q s m hm => ?_, fun n hn j q s m hm => ?_, fun n hn j j' q s m hm => ?_⟩
  · rw [calls]
    go_run [ConstReverse_fn, encRev, fetch_plain (hp _), coerce_plain (hp _), fit_plain (hp _)]
  · simp only [encRev, Rev.base]
    go_run [calls, ConstReverseIterator_Base_fn, coerce_plain (hp _)]
  · obtain ⟨n, rfl⟩ : ∃ n', n = n' + 1 := ⟨n - 1, by omega⟩
    rw [lift_next]
    simp only [encRev]
    pl_run hp hv [calls, ConstReverseIterator_Next_fn]
    refine Does.bind1 (hpv n (by omega) j.i _ s m hm) fun i s m hm => ?_
    pl_run hp hv []
    exact .ret ⟨rfl, hm⟩
  · obtain ⟨n, rfl⟩ : ∃ n', n = n' + 1 := ⟨n - 1, by omega⟩
    rw [lift_prev]
    simp only [encRev]
    pl_run hp hv [calls, ConstReverseIterator_Prev_fn]
    refine Does.bind1 (hnx n (by omega) j.i _ s m hm) fun i s m hm => ?_
    pl_run hp hv []
    exact .ret ⟨rfl, hm⟩
  · obtain ⟨n, rfl⟩ : ∃ n', n = n' + 1 := ⟨n - 1, by omega⟩
    simp only [encRev, Iter.get]
    pl_run hp hv [calls, ConstReverseIterator_Get_fn]
    refine Does.bind1 (hpv n (by omega) j.i _ s m hm) fun i s m hm => ?_
    pl_run hp hv []
    refine (hgt n (by omega) i _ s m hm).andThen ?_
    rintro x s' ⟨_, m'⟩ ⟨rfl, hm'⟩
    exact ⟨([val x], m'), by go_run [coerce_plain (hv _)], rfl, hm'⟩
  · obtain ⟨n, rfl⟩ : ∃ n', n = n' + 1 := ⟨n - 1, by omega⟩
    simp only [encRev, equal]
    pl_run hp hv [calls, ConstReverseIterator_Equal_fn]
    refine (heq n (by omega) j.i j'.i _ s m hm).andThen ?_
    rintro b s' ⟨_, m'⟩ ⟨rfl, hm'⟩
    exact ⟨([.bool b], m'), by go_run [], rfl, hm'⟩

/-- **C156.** ds/iter/reverse.go:34-67, of any iterator with the methods of `BidirIterator`. -/
theorem C156_Reverse (hp : ∀ j, plain (enc j) = true) (hv : ∀ t, plain (val t) = true)
    (hnx : NextIs (ctx p) Rep k enc)
    (hpv : PrevIs (ctx p) Rep k enc)
    (hgt : GetIs (ctx p) Rep val k enc)
    (hst : SetIs (ctx p) Rep val k enc)
    (heq : EqualIs (ctx p) Rep k enc) :
    (∀ n j m, calls (ctx p) (n + 1) "Reverse" [enc j] m = pure ([encRev "ReverseIterator" enc ⟨j⟩], m)) ∧
    (∀ n j q m, callOn (ctx p) (calls (ctx p) (n + 1)) "Base" (encRev "ReverseIterator" enc j) q [] false m = pure ([enc j.base], m)) ∧
    NextIs (ctx p) Rep (k + 1) (encRev "ReverseIterator" enc) ∧
    PrevIs (ctx p) Rep (k + 1) (encRev "ReverseIterator" enc) ∧
    GetIs (ctx p) Rep val (k + 1) (encRev "ReverseIterator" enc) ∧
    SetIs (ctx p) Rep val (k + 1) (encRev "ReverseIterator" enc) ∧
    EqualIs (ctx p) Rep (k + 1) (encRev "ReverseIterator" enc) := by
  refine ⟨fun n j m => ?_, fun n j q m => ?_, fun n hn j q s m hm => ?_, fun n hn j q s m hm => ?_, fun n hn j q s m hm => ?_, fun n hn j t q s m hm => ?_, fun n hn j j' q s m hm => ?_⟩
  · rw [calls]
    go_run [Reverse_fn, encRev, fetch_plain (hp _), coerce_plain (hp _), fit_plain (hp _)]
  · simp only [encRev, Rev.base]
    go_run [calls, ReverseIterator_Base_fn, coerce_plain (hp _)]
  · obtain ⟨n, rfl⟩ : ∃ n', n = n' + 1 := ⟨n - 1, by omega⟩
    rw [lift_next]
    simp only [encRev]
    pl_run hp hv [calls, ReverseIterator_Next_fn]
    refine Does.bind1 (hpv n (by omega) j.i _ s m hm) fun i s m hm => ?_
    pl_run hp hv []
    exact .ret ⟨rfl, hm⟩
  · obtain ⟨n, rfl⟩ : ∃ n', n = n' + 1 := ⟨n - 1, by omega⟩
    rw [lift_prev]
    simp only [encRev]
    pl_run hp hv [calls, ReverseIterator_Prev_fn]
    refine Does.bind1 (hnx n (by omega) j.i _ s m hm) fun i s m hm => ?_
    pl_run hp hv []
    exact .ret ⟨rfl, hm⟩
  · obtain ⟨n, rfl⟩ : ∃ n', n = n' + 1 := ⟨n - 1, by omega⟩
    simp only [encRev, Iter.get]
    pl_run hp hv [calls, ReverseIterator_Get_fn]
    refine Does.bind1 (hpv n (by omega) j.i _ s m hm) fun i s m hm => ?_
    pl_run hp hv []
    refine (hgt n (by omega) i _ s m hm).andThen ?_
    rintro x s' ⟨_, m'⟩ ⟨rfl, hm'⟩
    exact ⟨([val x], m'), by go_run [coerce_plain (hv _)], rfl, hm'⟩
  · obtain ⟨n, rfl⟩ : ∃ n', n = n' + 1 := ⟨n - 1, by omega⟩
    simp only [encRev, Iter.set]
    pl_run hp hv [calls, ReverseIterator_Set_fn]
    refine Does.bind1 (hpv n (by omega) j.i _ s m hm) fun i s m hm => ?_
    pl_run hp hv []
    refine (hst n (by omega) i t _ s m hm).andThen ?_
    rintro ⟨⟩ s' ⟨_, m'⟩ ⟨rfl, hm'⟩
    exact ⟨([], m'), by go_run [], rfl, hm'⟩
  · obtain ⟨n, rfl⟩ : ∃ n', n = n' + 1 := ⟨n - 1, by omega⟩
    simp only [encRev, equal]
    pl_run hp hv [calls, ReverseIterator_Equal_fn]
    refine (heq n (by omega) j.i j'.i _ s m hm).andThen ?_
    rintro b s' ⟨_, m'⟩ ⟨rfl, hm'⟩
    exact ⟨([.bool b], m'), by go_run [], rfl, hm'⟩

/-- **C156.** ds/iter/reverse.go:69-106, of any iterator with the methods of `ConstRandomIterator`. -/
theorem C156_ConstReverseRandom (hp : ∀ j, plain (enc j) = true) (hv : ∀ t, plain (val t) = true)
    (hnx : NextIs (ctx p) Rep k enc)
    (hpv : PrevIs (ctx p) Rep k enc)
    (had : AddIs (ctx p) Rep k enc)
    (hps : PosIs (ctx p) Rep k enc)
    (hgt : GetIs (ctx p) Rep val k enc)
    (heq : EqualIs (ctx p) Rep k enc) :
    (∀ n j m, calls (ctx p) (n + 1) "ConstReverseRandom" [enc j] m = pure ([encRev "ConstReverseRandomIterator" enc ⟨j⟩], m)) ∧
    (∀ n j q m, callOn (ctx p) (calls (ctx p) (n + 1)) "Base" (encRev "ConstReverseRandomIterator" enc j) q [] false m = pure ([enc j.base], m)) ∧
    NextIs (ctx p) Rep (k + 1) (encRev "ConstReverseRandomIterator" enc) ∧
    PrevIs (ctx p) Rep (k + 1) (encRev "ConstReverseRandomIterator" enc) ∧
    AddIs (ctx p) Rep (k + 1) (encRev "ConstReverseRandomIterator" enc) ∧
    PosIs (ctx p) Rep (k + 1) (encRev "ConstReverseRandomIterator" enc) ∧
    GetIs (ctx p) Rep val (k + 1) (encRev "ConstReverseRandomIterator" enc) ∧
    EqualIs (ctx p) Rep (k + 1) (encRev "ConstReverseRandomIterator" enc) := by
  refine ⟨fun n j m => ?_, fun n j q m => ?_, fun n hn j q s m hm => ?_, fun n hn j q s m hm => ?_, fun n hn j d q s m hm hd => ?_, fun n hn j q s m hm => ?_, fun n hn j q s m hm => ?_, fun n hn j j' q s m hm => ?_⟩
  · rw [calls]
    go_run [ConstReverseRandom_fn, encRev, fetch_plain (hp _), coerce_plain (hp _), fit_plain (hp _)]
  · simp only [encRev, Rev.base]
    go_run [calls, ConstReverseRandomIterator_Base_fn, coerce_plain (hp _)]
  · obtain ⟨n, rfl⟩ : ∃ n', n = n' + 1 := ⟨n - 1, by omega⟩
    rw [lift_next]
    simp only [encRev]
    pl_run hp hv [calls, ConstReverseRandomIterator_Next_fn]
    refine Does.bind1 (hpv n (by omega) j.i _ s m hm) fun i s m hm => ?_
    pl_run hp hv []
    exact .ret ⟨rfl, hm⟩
  · obtain ⟨n, rfl⟩ : ∃ n', n = n' + 1 := ⟨n - 1, by omega⟩
    rw [lift_prev]
    simp only [encRev]
    pl_run hp hv [calls, ConstReverseRandomIterator_Prev_fn]
    refine Does.bind1 (hnx n (by omega) j.i _ s m hm) fun i s m hm => ?_
    pl_run hp hv []
    exact .ret ⟨rfl, hm⟩
  · obtain ⟨n, rfl⟩ : ∃ n', n = n' + 1 := ⟨n - 1, by omega⟩
    rw [lift_add]
    simp only [encRev]
    pl_run hp hv [calls, ConstReverseRandomIterator_Add_fn, wrap_wrap64]
    refine Does.bind1 (had n (by omega) j.i _ _ s m hm (wrap64_isInt64 _)) fun i s m hm => ?_
    pl_run hp hv []
    exact .ret ⟨rfl, hm⟩
  · obtain ⟨n, rfl⟩ : ∃ n', n = n' + 1 := ⟨n - 1, by omega⟩
    rw [lift_pos]
    simp only [encRev]
    pl_run hp hv [calls, ConstReverseRandomIterator_Pos_fn]
    refine Does.bind1 (hps n (by omega) j.i _ s m hm) fun i s m hm => ?_
    pl_run hp hv [wrap_wrap64]
    exact .ret ⟨rfl, hm⟩
  · obtain ⟨n, rfl⟩ : ∃ n', n = n' + 1 := ⟨n - 1, by omega⟩
    simp only [encRev, Iter.get]
    pl_run hp hv [calls, ConstReverseRandomIterator_Get_fn]
    refine Does.bind1 (hpv n (by omega) j.i _ s m hm) fun i s m hm => ?_
    pl_run hp hv []
    refine (hgt n (by omega) i _ s m hm).andThen ?_
    rintro x s' ⟨_, m'⟩ ⟨rfl, hm'⟩
    exact ⟨([val x], m'), by go_run [coerce_plain (hv _)], rfl, hm'⟩
  · obtain ⟨n, rfl⟩ : ∃ n', n = n' + 1 := ⟨n - 1, by omega⟩
    simp only [encRev, equal]
    pl_run hp hv [calls, ConstReverseRandomIterator_Equal_fn]
    refine (heq n (by omega) j.i j'.i _ s m hm).andThen ?_
    rintro b s' ⟨_, m'⟩ ⟨rfl, hm'⟩
    exact ⟨([.bool b], m'), by go_run [], rfl, hm'⟩

end rev

section dummy
variable {E S T : Type} [Inhabited T] {p : Par E} {Rep : S → Mem E → Prop} {val : T → Val E} {k : Nat}

/-- A dummy iterator, as a value. -/
def encDummy (_ : Dummy S T) : Val E := .struct "DummyIterator" []

/-- **C156.** ds/iter/dummy.go: every method of `DummyIterator`. -/
theorem C156_Dummy (hv : ∀ t, plain (val t) = true) (hz : p.zeroT = val default) :
    (∀ n m, calls (ctx p) (n + 1) "Dummy" [] m = pure ([encDummy (S := S) (T := T) ⟨⟩], m)) ∧
    NextIs (ctx p) Rep 2 (encDummy (S := S) (T := T)) ∧
    GetIs (ctx p) Rep val 2 (encDummy (S := S) (T := T)) ∧
    SetIs (ctx p) Rep val 2 (encDummy (S := S) (T := T)) ∧
    EqualIs (ctx p) Rep 2 (encDummy (S := S) (T := T)) ∧
    PrevIs (ctx p) Rep 2 (encDummy (S := S) (T := T)) ∧
    AddIs (ctx p) Rep 2 (encDummy (S := S) (T := T)) ∧
    PosIs (ctx p) Rep 2 (encDummy (S := S) (T := T)) := by
  refine ⟨fun n m => ?_, fun n hn j q s m hm => ?_, fun n hn j q s m hm => ?_, fun n hn j t q s m hm => ?_, fun n hn j j' q s m hm => ?_,
    fun n hn j q s m hm => ?_, fun n hn j d q s m hm hd => ?_, fun n hn j q s m hm => ?_⟩
  · rw [calls]
    go_run [Dummy_fn, encDummy]
  all_goals obtain ⟨n, rfl⟩ : ∃ n', n = n' + 2 := ⟨n - 2, by omega⟩
  all_goals simp only [encDummy, next, Iter.get, Iter.set, equal, prev, add, pos]
  · pl_run hv hv [calls, DummyIterator_Next_fn]
    exact .ret ⟨rfl, hm⟩
  · pl_run hv hv [calls, DummyIterator_Get_fn, ZeroOf_fn, hz]
    exact .ret ⟨rfl, hm⟩
  · pl_run hv hv [calls, DummyIterator_Set_fn]
    exact .ret ⟨rfl, hm⟩
  · pl_run hv hv [calls, DummyIterator_Equal_fn]
    exact .ret ⟨rfl, hm⟩
  · pl_run hv hv [calls, DummyIterator_Prev_fn]
    exact .ret ⟨rfl, hm⟩
  · pl_run hv hv [calls, DummyIterator_Add_fn]
    exact .ret ⟨rfl, hm⟩
  · pl_run hv hv [calls, DummyIterator_Pos_fn]
    exact .ret ⟨rfl, hm⟩

end dummy

section inserters
variable {E S T : Type} [Inhabited T] {p : Par E} {Rep : S → Mem E → Prop} {val : T → Val E} {k : Nat}

/-- What the model returns, as a result of the program. -/
def ofGo : Go Bool → R (Val E)
  | .ok b => pure (.bool b)
  | .error e => panic e

/-- `==` on the values `enc a` is the model's: it may panic. -/
def SameIs {A : Type} [IfaceEq A] (X : Ctx E) (enc : A → Val E) : Prop := ∀ a b, binop X "==" (enc a) (enc b) = ofGo (IfaceEq.same a b)

/-- An inserter, as a value. -/
def encAppend {A : Type} (enc : A → Val E) (it : AppendIter A) : Val E := .struct "AppendIterator" [("a", enc it.a)]
def encPrepend {A : Type} (enc : A → Val E) (it : PrependIter A) : Val E := .struct "PrependIterator" [("p", enc it.p)]

/-- **C156.** ds/iter/inserter.go:7-36: `AppendIterator` over any value with `Append`. -/
theorem C156_Append {A : Type} [IfaceEq A] [Appender S T A] {encA : A → Val E} (hp : ∀ a, plain (encA a) = true)
    (hv : ∀ t, plain (val t) = true) (hz : p.zeroT = val default) (he : SameIs (ctx p) encA)
    (ha : ∀ n, k ≤ n → ∀ a t q s m, Rep s m →
      Does (callOn (ctx p) (calls (ctx p) n) "Append" (encA a) q [val t] false m) (Appender.append a t s) (Leaves Rep)) :
    (∀ n a m, calls (ctx p) (n + 1) "Append" [encA a] m = pure ([encAppend encA ⟨a⟩], m)) ∧
    NextIs (ctx p) Rep (k + 2) (encAppend encA) ∧
    GetIs (ctx p) Rep val (k + 2) (encAppend encA) ∧
    SetIs (ctx p) Rep val (k + 2) (encAppend encA) ∧
    EqualIs (ctx p) Rep (k + 2) (encAppend encA) := by
  refine ⟨fun n a m => ?_, fun n hn j q s m hm => ?_, fun n hn j q s m hm => ?_, fun n hn j t q s m hm => ?_, fun n hn j j' q s m hm => ?_⟩
  · rw [calls]
    go_run [Append_fn, encAppend, fetch_plain (hp _), coerce_plain (hp _), fit_plain (hp _)]
  · obtain ⟨n, rfl⟩ : ∃ n', n = n' + 2 := ⟨n - 2, by omega⟩
    simp only [encAppend, next]
    pl_run hp hv [calls, AppendIterator_Next_fn]
    exact .ret ⟨rfl, hm⟩
  · obtain ⟨n, rfl⟩ : ∃ n', n = n' + 2 := ⟨n - 2, by omega⟩
    simp only [encAppend, Iter.get]
    pl_run hp hv [calls, AppendIterator_Get_fn, ZeroOf_fn, hz]
    exact .ret ⟨rfl, hm⟩
  · obtain ⟨n, rfl⟩ : ∃ n', n = n' + 1 := ⟨n - 1, by omega⟩
    simp only [encAppend, Iter.set]
    pl_run hp hv [calls, AppendIterator_Set_fn]
    refine (ha n (by omega) j.a t _ s m hm).andThen ?_
    rintro ⟨⟩ s' ⟨_, m'⟩ ⟨rfl, hm'⟩
    exact ⟨([], m'), by go_run [], rfl, hm'⟩
  · obtain ⟨n, rfl⟩ : ∃ n', n = n' + 1 := ⟨n - 1, by omega⟩
    simp only [encAppend, equal]
    pl_run hp hv [calls, AppendIterator_Equal_fn, ↓he j.a j'.a]
    cases h : IfaceEq.same j.a j'.a with
    | ok b =>
      pl_run hp hv [ofGo]
      exact .ret ⟨rfl, hm⟩
    | error e => exact .inr rfl

/-- **C156.** ds/iter/inserter.go:38-67: `PrependIterator` over any value with `Prepend`. -/
theorem C156_Prepend {A : Type} [IfaceEq A] [Prepender S T A] {encA : A → Val E} (hp : ∀ a, plain (encA a) = true)
    (hv : ∀ t, plain (val t) = true) (hz : p.zeroT = val default) (he : SameIs (ctx p) encA)
    (ha : ∀ n, k ≤ n → ∀ a t q s m, Rep s m →
      Does (callOn (ctx p) (calls (ctx p) n) "Prepend" (encA a) q [val t] false m) (Prepender.prepend a t s) (Leaves Rep)) :
    (∀ n a m, calls (ctx p) (n + 1) "Prepend" [encA a] m = pure ([encPrepend encA ⟨a⟩], m)) ∧
    NextIs (ctx p) Rep (k + 2) (encPrepend encA) ∧
    GetIs (ctx p) Rep val (k + 2) (encPrepend encA) ∧
    SetIs (ctx p) Rep val (k + 2) (encPrepend encA) ∧
    EqualIs (ctx p) Rep (k + 2) (encPrepend encA) := by
  refine ⟨fun n a m => ?_, fun n hn j q s m hm => ?_, fun n hn j q s m hm => ?_, fun n hn j t q s m hm => ?_, fun n hn j j' q s m hm => ?_⟩
  · rw [calls]
    go_run [Prepend_fn, encPrepend, fetch_plain (hp _), coerce_plain (hp _), fit_plain (hp _)]
  · obtain ⟨n, rfl⟩ : ∃ n', n = n' + 2 := ⟨n - 2, by omega⟩
    simp only [encPrepend, next]
    pl_run hp hv [calls, PrependIterator_Next_fn]
    exact .ret ⟨rfl, hm⟩
  · obtain ⟨n, rfl⟩ : ∃ n', n = n' + 2 := ⟨n - 2, by omega⟩
    simp only [encPrepend, Iter.get]
    pl_run hp hv [calls, PrependIterator_Get_fn, ZeroOf_fn, hz]
    exact .ret ⟨rfl, hm⟩
  · obtain ⟨n, rfl⟩ : ∃ n', n = n' + 1 := ⟨n - 1, by omega⟩
    simp only [encPrepend, Iter.set]
    pl_run hp hv [calls, PrependIterator_Set_fn]
    refine (ha n (by omega) j.p t _ s m hm).andThen ?_
    rintro ⟨⟩ s' ⟨_, m'⟩ ⟨rfl, hm'⟩
    exact ⟨([], m'), by go_run [], rfl, hm'⟩
  · obtain ⟨n, rfl⟩ : ∃ n', n = n' + 1 := ⟨n - 1, by omega⟩
    simp only [encPrepend, equal]
    pl_run hp hv [calls, PrependIterator_Equal_fn, ↓he j.p j'.p]
    cases h : IfaceEq.same j.p j'.p with
    | ok b =>
      pl_run hp hv [ofGo]
      exact .ret ⟨rfl, hm⟩
    | error e => exact .inr rfl

/-- What an `InsertIterator` points to. -/
def insCell {I J : Type} (encI : I → Val E) (enc : J → Val E) (ins : I) (j : J) : Val E :=
  .struct "InsertIterator" [("ins", encI ins), ("p", enc j)]

/-- The memory holds the model's, and the cell `c` at `a`. -/
def RepAt (Rep : S → Mem E → Prop) (a : Nat) (c : Val E) (s : S) (m : Mem E) : Prop := Rep s m ∧ m.cell a 0 = some c

/-- **C156.** ds/iter/inserter.go:69-99: `InsertIterator` over any value with `Insert`, provided that `Insert` and `Next` leave the
iterator's own cell alone and do not depend on it. `Insert` makes a new cell, `Next` returns the iterator itself, `Equal` compares the
inserters and not the positions, and `Set` moves the position behind what was inserted. -/
theorem C156_Insert {I J : Type} [IfaceEq I] [Iter S T J] [Inserter S T I J] {encI : I → Val E} {enc : J → Val E} (a : Nat)
    (hp : ∀ j, plain (enc j) = true) (hI : ∀ i, plain (encI i) = true) (hv : ∀ t, plain (val t) = true) (hz : p.zeroT = val default)
    (he : SameIs (ctx p) encI)
    (hi : ∀ c n, k ≤ n → ∀ i j t q s m, RepAt Rep a c s m →
      Does (callOn (ctx p) (calls (ctx p) n) "Insert" (encI i) q [enc j, val t] false m) (Inserter.insert i j t s) (Gives (RepAt Rep a c) enc))
    (hn : ∀ c, NextIs (ctx p) (RepAt Rep a c) k enc)
    (hw : ∀ c c' s m, RepAt Rep a c s m → Rep s (m.put a 0 c')) :
    (∀ n i j m, calls (ctx p) (n + 1) "Insert" [enc j, encI i] m = pure ([.ptr m.arrs.length 0 []], m.alloc [insCell encI enc i j])) ∧
    (∀ n q i j s m, RepAt Rep a (insCell encI enc i j) s m →
      callOn (ctx p) (calls (ctx p) (n + 2)) "Next" (.ptr a 0 []) q [] false m = pure ([.ptr a 0 []], m)) ∧
    (∀ n q i j s m, RepAt Rep a (insCell encI enc i j) s m →
      callOn (ctx p) (calls (ctx p) (n + 2)) "Get" (.ptr a 0 []) q [] false m = pure ([val default], m)) ∧
    (∀ n q b i j i' j' s m, RepAt Rep a (insCell encI enc i j) s m → m.cell b 0 = some (insCell encI enc i' j') →
      callOn (ctx p) (calls (ctx p) (n + 2)) "Equal" (.ptr a 0 []) q [.ptr b 0 []] false m =
        ofGo (IfaceEq.same i i') >>= fun v => pure ([v], m)) ∧
    (∀ n, k < n → ∀ q i j t s m, RepAt Rep a (insCell encI enc i j) s m →
      Does (callOn (ctx p) (calls (ctx p) n) "Set" (.ptr a 0 []) q [val t] false m) (insertIterSet i j t s)
        (fun j' s' r => r.1 = [] ∧ RepAt Rep a (insCell encI enc i j') s' r.2)) := by
  refine ⟨fun n i j m => ?_, fun n q i j s m hm => ?_, fun n q i j s m hm => ?_, fun n q b i j i' j' s m hm hb => ?_,
    fun n hk q i j t s m hm => ?_⟩
  · rw [calls]
    go_run [Insert_fn, insCell, fetch_plain (hp _), coerce_plain (hp _), fit_plain (hp _), fetch_plain (hI _), coerce_plain (hI _), fit_plain (hI _)]
  · have hc := hm.2
    simp only [insCell] at hc
    go_run [calls, InsertIterator_Next_fn, hc]
  · have hc := hm.2
    simp only [insCell] at hc
    go_run [calls, InsertIterator_Get_fn, ZeroOf_fn, hz, hc, fetch_plain (hv _), ↓coerce_plain (hv _), ↓settle_plain (hv _), ↓boxNo_plain (hv _)]
  · have hc := hm.2
    simp only [insCell] at hc hb
    go_run [calls, InsertIterator_Equal_fn, hc, hb, fetch_plain (hI _), ↓he i i']
    cases h : IfaceEq.same i i' <;> go_run [ofGo]
  · obtain ⟨n, rfl⟩ : ∃ n', n = n' + 1 := ⟨n - 1, by omega⟩
    have hc := hm.2
    simp only [insCell] at hc
    rw [insertIterSet]
    pl_run hp hI [calls, InsertIterator_Set_fn, hc, fetch_plain (hv _), ↓coerce_plain (hv _)]
    refine Does.bind1 (hi _ n (by omega) i j t _ s m hm) fun j' s' m' hm' => ?_
    pl_run hp hI []
    refine (hn _ n (by omega) j' _ s' m' hm').andThen ?_
    rintro j2 s2 ⟨_, m2⟩ ⟨rfl, hm2⟩
    have hc2 := hm2.2
    simp only [insCell] at hc2
    refine ⟨([], m2.put a 0 (insCell encI enc i j2)), ?_, rfl, hw _ _ _ _ hm2, cell_put_same hc2 _⟩
    go_run [hc2, insCell, fit_plain (hp _)]

end inserters

/-! ## A case: integers in array 0, positions and containers as elements

The elements of the program's memory are integers; array 0 holds a list. An iterator is its position, an integer, and the container is
any integer too. -/

section case
/-- Iterators: positions in the list. -/
structure At where
  i : Int

/-- The container. -/
structure Box where

instance : RandIter (List Int) Int At where
  next j := .ok ⟨j.i + 1⟩
  prev j := .ok ⟨j.i - 1⟩
  add j d := .ok ⟨j.i + d⟩
  pos j := wrap64 j.i
  equal a b := .ok (decide (a.i = b.i))
  get j := fun s => match s[j.i.toNat]? with
    | some x => (.ok x, s)
    | none => (.error "index out of range", s)
  set j x := fun s => if j.i.toNat < s.length then (.ok (), s.set j.i.toNat x) else (.error "index out of range", s)

instance : IfaceEq Box := ⟨fun _ _ => .ok true⟩
instance : Appender (List Int) Int Box := ⟨fun _ x s => (.ok (), s ++ [x])⟩
instance : Prepender (List Int) Int Box := ⟨fun _ x s => (.ok (), x :: s)⟩
instance : Inserter (List Int) Int Box At := ⟨fun _ j x s => (.ok j, s.take j.i.toNat ++ x :: s.drop j.i.toNat)⟩

/-- The elements of array 0. -/
def ints (m : Mem Int) : List Int := (m.arrs[0]?.getD []).filterMap fun v => match v with | .elem x => some x | _ => none

/-- Memory with the list `l` in array 0. -/
def withInts (m : Mem Int) (l : List Int) : Mem Int := { m with arrs := m.arrs.set 0 (l.map .elem) }

/-- Array 0 is the list. -/
def RepInts (s : List Int) (m : Mem Int) : Prop := m.arrs[0]? = some (s.map .elem)

def caseExt : String → List (Val Int) → Mem Int → R (List (Val Int) × Mem Int)
  | "Next", [.elem i], m => pure ([.elem (i + 1)], m)
  | "Prev", [.elem i], m => pure ([.elem (i - 1)], m)
  | "Add", [.elem i, .num .int d], m => pure ([.elem (i + d)], m)
  | "Pos", [.elem i], m => pure ([.num .int (wrap64 i)], m)
  | "Equal", [.elem i, .elem j], m => pure ([.bool (decide (i = j))], m)
  | "Get", [.elem i], m => match (ints m)[i.toNat]? with
    | some x => pure ([.elem x], m)
    | none => panic "index out of range"
  | "Set", [.elem i, .elem x], m =>
    if i.toNat < (ints m).length then pure ([], withInts m ((ints m).set i.toNat x)) else panic "index out of range"
  | "Append", [.elem _, .elem x], m => pure ([], withInts m (ints m ++ [x]))
  | "Prepend", [.elem _, .elem x], m => pure ([], withInts m (x :: ints m))
  | "Insert", [.elem _, .elem i, .elem x], m => pure ([.elem i], withInts m ((ints m).take i.toNat ++ x :: (ints m).drop i.toNat))
  | _, _, _ => stuck

def casePar : Par Int where
  cmp op a b := if op = "==" then some (decide (a = b)) else none
  zeroT := .elem 0
  ext := caseExt

def encAt (j : At) : Val Int := .elem j.i
def encBox (_ : Box) : Val Int := .elem 7

theorem ints_rep {s : List Int} {m : Mem Int} (h : RepInts s m) : ints m = s := by
  rw [ints, h, Option.getD_some, List.filterMap_map]
  exact List.filterMap_some
theorem rep_with {m : Mem Int} {s : List Int} (h : RepInts s m) (l : List Int) : RepInts l (withInts m l) := by
  have h0 : 0 < m.arrs.length := by
    by_cases h0 : 0 < m.arrs.length
    · exact h0
    · rw [RepInts, List.getElem?_eq_none (by omega)] at h; cases h
  simp [RepInts, withInts, h0]

theorem case_next : NextIs (ctx casePar) RepInts 0 encAt := fun _ _ _ _ _ m hm => ⟨(_, m), rfl, rfl, hm⟩
theorem case_prev : PrevIs (ctx casePar) RepInts 0 encAt := fun _ _ _ _ _ m hm => ⟨(_, m), rfl, rfl, hm⟩
theorem case_add : AddIs (ctx casePar) RepInts 0 encAt := fun _ _ _ _ _ _ m hm _ => ⟨(_, m), rfl, rfl, hm⟩
theorem case_pos : PosIs (ctx casePar) RepInts 0 encAt := fun _ _ _ _ _ m hm => ⟨(_, m), rfl, rfl, hm⟩
theorem case_equal : EqualIs (ctx casePar) RepInts 0 encAt := fun _ _ _ _ _ _ m hm => ⟨(_, m), rfl, rfl, hm⟩
theorem case_get : GetIs (ctx casePar) RepInts .elem 0 encAt := by
  intro n _ j q s m hm
  have e : callOn (ctx casePar) (calls (ctx casePar) n) "Get" (encAt j) q [] false m =
      match (ints m)[j.i.toNat]? with
      | some x => pure ([.elem x], m)
      | none => panic "index out of range" := rfl
  rw [e, ints_rep hm]
  simp only [Iter.get]
  cases h : s[j.i.toNat]? with
  | some x => exact ⟨_, rfl, rfl, hm⟩
  | none => exact .inr rfl
theorem case_set : SetIs (ctx casePar) RepInts .elem 0 encAt := by
  intro n _ j t q s m hm
  have e : callOn (ctx casePar) (calls (ctx casePar) n) "Set" (encAt j) q [.elem t] false m =
      if j.i.toNat < (ints m).length then pure ([], withInts m ((ints m).set j.i.toNat t)) else panic "index out of range" := rfl
  rw [e, ints_rep hm]
  simp only [Iter.set]
  split
  · exact ⟨_, rfl, rfl, rep_with hm _⟩
  · exact .inr rfl

/-- The hypotheses of the three theorems about reverse iterators are met. -/
example := C156_ConstReverse (fun _ => rfl) (fun _ => rfl) case_next case_prev case_get case_equal
example := C156_Reverse (fun _ => rfl) (fun _ => rfl) case_next case_prev case_get case_set case_equal
example := C156_ConstReverseRandom (fun _ => rfl) (fun _ => rfl) case_next case_prev case_add case_pos case_get case_equal

/-- Those of the theorem about the dummy are. -/
example := C156_Dummy (S := List Int) (p := casePar) (Rep := RepInts) (val := .elem) (fun _ => rfl) rfl

theorem case_same : SameIs (ctx casePar) encBox := fun _ _ => rfl

/-- Those about the inserters are. -/
example := C156_Append (S := List Int) (T := Int) (p := casePar) (k := 0) (Rep := RepInts) (val := .elem) (encA := encBox) (fun _ => rfl) (fun _ => rfl) rfl case_same
  (fun n _ a t q s m hm => by
    refine ⟨([], withInts m (ints m ++ [t])), rfl, rfl, ?_⟩
    rw [ints_rep hm]
    exact rep_with hm _)
example := C156_Prepend (S := List Int) (T := Int) (p := casePar) (k := 0) (Rep := RepInts) (val := .elem) (encA := encBox) (fun _ => rfl) (fun _ => rfl) rfl case_same
  (fun n _ a t q s m hm => by
    refine ⟨([], withInts m (t :: ints m)), rfl, rfl, ?_⟩
    rw [ints_rep hm]
    exact rep_with hm _)
example := C156_Insert (S := List Int) (T := Int) (p := casePar) (k := 0) (Rep := RepInts) (val := .elem) (encI := encBox) (enc := encAt) 1
  (fun _ => rfl) (fun _ => rfl) (fun _ => rfl) rfl case_same
  (fun c n _ i j t q s m hm => by
    refine ⟨([.elem j.i], withInts m ((ints m).take j.i.toNat ++ t :: (ints m).drop j.i.toNat)), rfl, rfl, ?_, ?_⟩
    · rw [ints_rep hm.1]
      exact rep_with hm.1 _
    · rw [← hm.2]
      refine cell_of_arrs ?_ 0
      simp [withInts])
  (fun c _ _ j q s m hm => ⟨(_, m), rfl, rfl, hm⟩)
  (fun c c' s m hm => by
    show _ = _
    rw [put_arrs (by decide)]
    exact hm.1)

/-- Run from the text: two `Set`s through an `InsertIterator` at position 1 of `[1, 2]` insert in order, and the position moves on. -/
example : (do
    let (v, m) ← calls (ctx casePar) 3 "Insert" [.elem 1, .elem 7] ⟨[[.elem 1, .elem 2]], []⟩
    match v with
    | [it] =>
      let (_, m) ← callOn (ctx casePar) (calls (ctx casePar) 3) "Set" it none [.elem 8] false m
      let (_, m) ← callOn (ctx casePar) (calls (ctx casePar) 3) "Set" it none [.elem 9] false m
      pure (ints m, m.cell 1 0 matches some (.struct "InsertIterator" [("ins", .elem 7), ("p", .elem 3)]))
    | _ => stuck : R (List Int × Bool)) = pure ([1, 8, 9, 2], true) := by kernel_rfl

/-- Run from the text: the reverse iterator at the end of `[1, 2]` reads the last element, and the next the one before. -/
example : (do
    let m : Mem Int := ⟨[[.elem 1, .elem 2]], []⟩
    let c := encRev "ReverseIterator" encAt ⟨⟨2⟩⟩
    let (v, _) ← callOn (ctx casePar) (calls (ctx casePar) 3) "Get" c none [] false m
    let (d, _) ← callOn (ctx casePar) (calls (ctx casePar) 3) "Next" c none [] false m
    match v, d with
    | [.elem x], [d] =>
      let (w, _) ← callOn (ctx casePar) (calls (ctx casePar) 3) "Get" d none [] false m
      match w with
      | [.elem y] => pure (x, y)
      | _ => stuck
    | _, _ => stuck : R (Int × Int)) = pure (2, 1) := by kernel_rfl

end case

end Verif.Src.IterRest
