import Verif.Src.AlgoBase

/-!
# algo/binary_search.go, from its text
-/

namespace Verif.Src.Algo

open Verif.Iter
open Verif.Src.Sort (forOf nth bodyOf)

variable {E S T J : Type} [RandIter S T J] {p : Par E} {Rep : S → Mem E → Prop} {val : T → Val E} {k : Nat} {enc : J → Val E}

theorem distance_src (H : RandImpl (ctx p) Rep val k enc) (n : Nat) (hn : k ≤ n) (a b : J) (s : S) (m : Mem E) (hm : Rep s m) :
    Does (calls (ctx p) (n + 1) "iter.Distance" [enc a, enc b] m) ((St.lift (distance a b) : St S Int) s)
      (fun a s r => Gives Rep (.num .int) a s r ∧ isInt64 a) := by
  have e : (St.lift (distance a b) : St S Int) = (do
      let _ ← St.lift (equal a b)
      let y ← St.lift (.ok (pos b))
      let x ← St.lift (.ok (pos a))
      pure (wrap64 (y - x))) := by
    unfold distance
    cases equal a b <;> rfl
  rw [e, calls]
  it_run H.toImpl [Distance_fn]
  refine Does.bind1 (H.equal n hn a b _ s m hm) fun e s m hm => ?_
  it_run H.toImpl []
  refine Does.bind1 (H.pos n hn b _ s m hm) fun y s m hm => ?_
  it_run H.toImpl []
  refine Does.bind1 (H.pos n hn a _ s m hm) fun x s m hm => ?_
  it_run H.toImpl []
  exact Does.ret ⟨⟨rfl, hm⟩, wrap64_isInt64 _⟩

abbrev ubBody : List Stmt := UpperBoundIterators_fn.body

theorem upperLoop_src (H : RandImpl (ctx p) Rep val k enc) {g : String} {comp : T → T → Bool}
    (hc : IsComp (ctx p) val k g comp) (n : Nat) (hn : k ≤ n) (value : T) (l : Val E) (count : Nat) (hb : count < 2 ^ 63)
    (first : J) (s : S) (m : Mem E) (hm : Rep s m) :
    Does (forOf (ctx p) (calls (ctx p) n) (nth ubBody 2) [("count", .num .int count), ("first", enc first), ("last", l),
        ("value", val value), ("comp", .fn g)] m) (Verif.Algo.upperBoundLoop comp value first count s)
      (fun it s r => ∃ c m', r = (.next, [("count", c), ("first", enc it), ("last", l), ("value", val value), ("comp", .fn g)], m')
        ∧ Rep s m') := by
  induction count using Nat.strongRecOn generalizing first s m with
  | ind count ih =>
    rw [Verif.Algo.upperBoundLoop]
    simp only [forOf, ubBody, nth, UpperBoundIterators_fn]
    rw [rounds_eq]
    by_cases h0 : 0 < count
    · rw [if_pos h0]
      have e1 : (count : Int) - ((count : Int) / 2 + 1) = ((count - (count / 2 + 1) : Nat) : Int) := by omega
      have e2 : (count : Int) / 2 = ((count / 2 : Nat) : Int) := by omega
      it_run H.toImpl []
      refine Does.bind1 (H.add n hn first _ _ s m hm ⟨by omega, by omega⟩) fun it s m hm => ?_
      it_run H.toImpl []
      refine Does.bind1 (H.get n hn it _ s m hm) fun x s m hm => ?_
      cases hx : comp value x with
      | false =>
        rw [if_pos (by simp)]
        it_run H.toImpl [↓hc n hn, hx, Bool.not_false]
        refine Does.bind1 (H.next n hn it _ s m hm) fun it' s m hm => ?_
        it_run H.toImpl [e1]
        exact ih _ (by omega) (by omega) it' s m hm
      | true =>
        rw [if_neg (by simp)]
        it_run H.toImpl [↓hc n hn, hx, Bool.not_true, e2]
        exact ih _ (by omega) (by omega) first s m hm
    · rw [if_neg h0]
      it_run H.toImpl []
      exact Does.ret ⟨_, _, rfl, hm⟩

theorem upper_src (H : RandImpl (ctx p) Rep val k enc) {g : String} {comp : T → T → Bool}
    (hc : IsComp (ctx p) val k g comp) (n : Nat) (hn : k ≤ n) (first last : J) (value : T) (s : S) (m : Mem E) (hm : Rep s m) :
    Does (calls (ctx p) (n + 2) "UpperBoundIterators" [enc first, enc last, val value, .fn g] m)
      (Verif.Algo.upperBound comp first last value s) (Gives Rep enc) := by
  rw [Verif.Algo.upperBound, calls]
  it_run H.toImpl [UpperBoundIterators_fn]
  refine Does.bind (distance_src H n hn first last s m hm) ?_
  rintro count s ⟨_, m⟩ ⟨⟨rfl, hm⟩, hi⟩
  by_cases h0 : count < 0
  · rw [if_pos h0]
    it_run H.toImpl []
    exact Does.fails
  · rw [if_neg h0]
    it_run H.toImpl []
    have hw : ((count.toNat : Nat) : Int) = count := by omega
    have hl := upperLoop_src H hc (n + 1) (by omega) value (enc last) count.toNat (by have := hi.2; omega) first s m hm
    rw [hw] at hl
    refine hl.andThen ?_
    rintro it s' _ ⟨c, m', rfl, hm'⟩
    refine ⟨([enc it], m'), ?_, rfl, hm'⟩
    go_run [fetch_plain (H.plain _), ↓coerce_plain (H.plain _)]

theorem upperAny_src (H : RandImpl (ctx p) Rep val k enc) {g : String} {comp : T → T → Bool}
    (hc : IsComp (ctx p) val k g comp) (n : Nat) (hn : k ≤ n) (first last : J) (value : T) (s : S) (m : Mem E) (hm : Rep s m) :
    Does (calls (ctx p) (n + 3) "UpperBoundAny" [.struct "Range" [("Begin", enc first), ("End", enc last)], val value, .fn g] m)
      (Verif.Algo.upperBound comp first last value s) (Gives Rep enc) := by
  rw [calls]
  it_run H.toImpl [UpperBoundAny_fn]
  refine (upper_src H hc n hn first last value s m hm).andThen ?_
  rintro it s' ⟨_, m'⟩ ⟨rfl, hm'⟩
  exact ⟨([enc it], m'), by go_run [↓coerce_plain (H.plain _)], rfl, hm'⟩

theorem upperOrd_src (H : RandImpl (ctx p) Rep val k enc) {comp : T → T → Bool}
    (hc : IsComp (ctx p) val k "xfn.Less" comp) (n : Nat) (hn : k ≤ n) (first last : J) (value : T) (s : S) (m : Mem E) (hm : Rep s m) :
    Does (calls (ctx p) (n + 3) "UpperBound" [.struct "Range" [("Begin", enc first), ("End", enc last)], val value] m)
      (Verif.Algo.upperBound comp first last value s) (Gives Rep enc) := by
  rw [calls]
  it_run H.toImpl [UpperBound_fn]
  refine (upper_src H hc n hn first last value s m hm).andThen ?_
  rintro it s' ⟨_, m'⟩ ⟨rfl, hm'⟩
  exact ⟨([enc it], m'), by go_run [↓coerce_plain (H.plain _)], rfl, hm'⟩

abbrev lbBody : List Stmt := LowerBoundIterators_fn.body

theorem lowerLoop_src (H : RandImpl (ctx p) Rep val k enc) {g : String} {comp : T → T → Bool}
    (hc : IsComp (ctx p) val k g comp) (n : Nat) (hn : k ≤ n) (value : T) (l : Val E) (count : Nat) (hb : count < 2 ^ 63)
    (first : J) (s : S) (m : Mem E) (hm : Rep s m) :
    Does (forOf (ctx p) (calls (ctx p) n) (nth lbBody 2) [("count", .num .int count), ("first", enc first), ("last", l),
        ("value", val value), ("comp", .fn g)] m) (Verif.Algo.lowerBoundLoop comp value first count s)
      (fun it s r => ∃ c m', r = (.next, [("count", c), ("first", enc it), ("last", l), ("value", val value), ("comp", .fn g)], m')
        ∧ Rep s m') := by
  induction count using Nat.strongRecOn generalizing first s m with
  | ind count ih =>
    rw [Verif.Algo.lowerBoundLoop]
    simp only [forOf, lbBody, nth, LowerBoundIterators_fn]
    rw [rounds_eq]
    by_cases h0 : 0 < count
    · rw [if_pos h0]
      have e1 : (count : Int) - ((count : Int) / 2 + 1) = ((count - (count / 2 + 1) : Nat) : Int) := by omega
      have e2 : (count : Int) / 2 = ((count / 2 : Nat) : Int) := by omega
      it_run H.toImpl []
      refine Does.bind1 (H.add n hn first _ _ s m hm ⟨by omega, by omega⟩) fun it s m hm => ?_
      it_run H.toImpl []
      refine Does.bind1 (H.get n hn it _ s m hm) fun x s m hm => ?_
      cases hx : comp x value with
      | true =>
        rw [if_pos rfl]
        it_run H.toImpl [↓hc n hn, hx]
        refine Does.bind1 (H.next n hn it _ s m hm) fun it' s m hm => ?_
        it_run H.toImpl [e1]
        exact ih _ (by omega) (by omega) it' s m hm
      | false =>
        rw [if_neg (by simp)]
        it_run H.toImpl [↓hc n hn, hx, e2]
        exact ih _ (by omega) (by omega) first s m hm
    · rw [if_neg h0]
      it_run H.toImpl []
      exact Does.ret ⟨_, _, rfl, hm⟩

theorem lower_src (H : RandImpl (ctx p) Rep val k enc) {g : String} {comp : T → T → Bool}
    (hc : IsComp (ctx p) val k g comp) (n : Nat) (hn : k ≤ n) (first last : J) (value : T) (s : S) (m : Mem E) (hm : Rep s m) :
    Does (calls (ctx p) (n + 2) "LowerBoundIterators" [enc first, enc last, val value, .fn g] m)
      (Verif.Algo.lowerBound comp first last value s) (Gives Rep enc) := by
  rw [Verif.Algo.lowerBound, calls]
  it_run H.toImpl [LowerBoundIterators_fn]
  refine Does.bind (distance_src H n hn first last s m hm) ?_
  rintro count s ⟨_, m⟩ ⟨⟨rfl, hm⟩, hi⟩
  by_cases h0 : count < 0
  · rw [if_pos h0]
    it_run H.toImpl []
    exact Does.fails
  · rw [if_neg h0]
    it_run H.toImpl []
    have hw : ((count.toNat : Nat) : Int) = count := by omega
    have hl := lowerLoop_src H hc (n + 1) (by omega) value (enc last) count.toNat (by have := hi.2; omega) first s m hm
    rw [hw] at hl
    refine hl.andThen ?_
    rintro it s' _ ⟨c, m', rfl, hm'⟩
    refine ⟨([enc it], m'), ?_, rfl, hm'⟩
    go_run [fetch_plain (H.plain _), ↓coerce_plain (H.plain _)]

theorem lowerAny_src (H : RandImpl (ctx p) Rep val k enc) {g : String} {comp : T → T → Bool}
    (hc : IsComp (ctx p) val k g comp) (n : Nat) (hn : k ≤ n) (first last : J) (value : T) (s : S) (m : Mem E) (hm : Rep s m) :
    Does (calls (ctx p) (n + 3) "LowerBoundAny" [.struct "Range" [("Begin", enc first), ("End", enc last)], val value, .fn g] m)
      (Verif.Algo.lowerBound comp first last value s) (Gives Rep enc) := by
  rw [calls]
  it_run H.toImpl [LowerBoundAny_fn]
  refine (lower_src H hc n hn first last value s m hm).andThen ?_
  rintro it s' ⟨_, m'⟩ ⟨rfl, hm'⟩
  exact ⟨([enc it], m'), by go_run [↓coerce_plain (H.plain _)], rfl, hm'⟩

theorem lowerOrd_src (H : RandImpl (ctx p) Rep val k enc) {comp : T → T → Bool}
    (hc : IsComp (ctx p) val k "xfn.Less" comp) (n : Nat) (hn : k ≤ n) (first last : J) (value : T) (s : S) (m : Mem E) (hm : Rep s m) :
    Does (calls (ctx p) (n + 3) "LowerBound" [.struct "Range" [("Begin", enc first), ("End", enc last)], val value] m)
      (Verif.Algo.lowerBound comp first last value s) (Gives Rep enc) := by
  rw [calls]
  it_run H.toImpl [LowerBound_fn]
  refine (lower_src H hc n hn first last value s m hm).andThen ?_
  rintro it s' ⟨_, m'⟩ ⟨rfl, hm'⟩
  exact ⟨([enc it], m'), by go_run [↓coerce_plain (H.plain _)], rfl, hm'⟩

end Verif.Src.Algo
