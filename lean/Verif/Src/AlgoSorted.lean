import Verif.Src.AlgoBound

/-!
# algo/is_sorted.go, generic.go and fill.go, from their text
-/

namespace Verif.Src.Algo

open Verif.Iter
open Verif.Src.Sort (forOf nth bodyOf)

section
variable {E S T J : Type} [Iter S T J] {p : Par E} {Rep : S → Mem E → Prop} {val : T → Val E} {k : Nat} {enc : J → Val E}

abbrev isBody : List Stmt := IsSortedUntilIterators_fn.body

theorem sortedLoop_src (H : Impl (ctx p) Rep val k enc) {g : String} {comp : T → T → Bool}
    (hc : IsComp (ctx p) val k g comp) (n : Nat) (hn : k ≤ n) (fuel : Nat) (first nxt last : J) (s : S) (m : Mem E) (hm : Rep s m) :
    Does (forOf (ctx p) (calls (ctx p) n) (nth (bodyOf (nth isBody 0)) 1)
        [("next", enc nxt), ("first", enc first), ("last", enc last), ("comp", .fn g)] m)
      (Verif.Algo.isSortedLoop comp last fuel first nxt s)
      (fun it s r => ∃ a b m', (r = (.ret [enc it], [("next", a), ("first", b), ("last", enc last), ("comp", .fn g)], m') ∨
          it = last ∧ r = (.next, [("next", a), ("first", b), ("last", enc last), ("comp", .fn g)], m')) ∧ Rep s m') := by
  induction fuel generalizing first nxt s m with
  | zero => exact .fuel
  | succ fuel ih =>
    rw [Verif.Algo.isSortedLoop]
    simp only [forOf, isBody, nth, bodyOf, IsSortedUntilIterators_fn]
    rw [rounds_eq]
    it_run H []
    refine Does.bind1 (H.equal n hn nxt last _ s m hm) fun e s m hm => ?_
    cases e with
    | true =>
      rw [if_pos rfl]
      it_run H [Bool.not_true]
      exact .ret ⟨_, _, _, .inr ⟨rfl, rfl⟩, hm⟩
    | false =>
      rw [if_neg (by simp)]
      it_run H [Bool.not_false]
      refine Does.bind1 (H.get n hn nxt _ s m hm) fun a s m hm => ?_
      it_run H []
      refine Does.bind1 (H.get n hn first _ s m hm) fun b s m hm => ?_
      cases hx : comp a b with
      | true =>
        rw [if_pos rfl]
        it_run H [↓hc n hn, hx]
        exact .ret ⟨_, _, _, .inl rfl, hm⟩
      | false =>
        rw [if_neg (by simp)]
        it_run H [↓hc n hn, hx]
        refine Does.bind1 (H.next n hn nxt _ s m hm) fun nxt' s m hm => ?_
        it_run H []
        exact ih nxt nxt' s m hm

theorem sortedUntil_src (H : Impl (ctx p) Rep val k enc) {g : String} {comp : T → T → Bool}
    (hc : IsComp (ctx p) val k g comp) (n : Nat) (hn : k ≤ n) (fuel : Nat) (first last : J) (s : S) (m : Mem E) (hm : Rep s m) :
    Does (calls (ctx p) (n + 1) "IsSortedUntilIterators" [enc first, enc last, .fn g] m)
      (Verif.Algo.isSortedUntil fuel comp first last s) (Gives Rep enc) := by
  rw [Verif.Algo.isSortedUntil, calls]
  it_run H [IsSortedUntilIterators_fn]
  refine Does.bind1 (H.equal n hn first last _ s m hm) fun e s m hm => ?_
  cases e with
  | true =>
    rw [if_pos rfl]
    it_run H [Bool.not_true]
    exact .ret ⟨rfl, hm⟩
  | false =>
    rw [if_neg (by simp)]
    it_run H [Bool.not_false]
    refine Does.bind1 (H.next n hn first _ s m hm) fun nxt s m hm => ?_
    it_run H []
    refine (sortedLoop_src H hc n hn fuel first nxt last s m hm).andThen ?_
    rintro it s' _ ⟨a, b, m', h, hm'⟩
    refine ⟨([enc it], m'), ?_, rfl, hm'⟩
    rcases h with rfl | ⟨rfl, rfl⟩
    · go_run [fetch_plain (H.plain _), coerce_plain (H.plain _)]
    · go_run [fetch_plain (H.plain _), coerce_plain (H.plain _)]

theorem sorted_src (H : Impl (ctx p) Rep val k enc) {g : String} {comp : T → T → Bool}
    (hc : IsComp (ctx p) val k g comp) (n : Nat) (hn : k ≤ n) (fuel : Nat) (first last : J) (s : S) (m : Mem E) (hm : Rep s m) :
    Does (calls (ctx p) (n + 2) "IsSortedIterators" [enc first, enc last, .fn g] m)
      (Verif.Algo.isSorted fuel comp first last s) (Gives Rep .bool) := by
  rw [Verif.Algo.isSorted, calls]
  it_run H [IsSortedIterators_fn]
  refine Does.bind1 (sortedUntil_src H hc n hn fuel first last s m hm) fun it s m hm => ?_
  it_run H []
  refine (H.equal (n + 1) (by omega) it last _ s m hm).andThen ?_
  rintro b s' ⟨_, m'⟩ ⟨rfl, hm'⟩
  exact ⟨([.bool b], m'), by go_run [], rfl, hm'⟩

/-- A range, as a value. -/
abbrev range (enc : J → Val E) (first last : J) : Val E := .struct "Range" [("Begin", enc first), ("End", enc last)]

theorem sortedUntilAny_src (H : Impl (ctx p) Rep val k enc) {g : String} {comp : T → T → Bool}
    (hc : IsComp (ctx p) val k g comp) (n : Nat) (hn : k ≤ n) (fuel : Nat) (first last : J) (s : S) (m : Mem E) (hm : Rep s m) :
    Does (calls (ctx p) (n + 2) "IsSortedUntilAny" [range enc first last, .fn g] m)
      (Verif.Algo.isSortedUntil fuel comp first last s) (Gives Rep enc) := by
  rw [calls]
  it_run H [IsSortedUntilAny_fn]
  refine (sortedUntil_src H hc n hn fuel first last s m hm).andThen ?_
  rintro b s' ⟨_, m'⟩ ⟨rfl, hm'⟩
  exact ⟨([enc b], m'), by go_run [coerce_plain (H.plain _)], rfl, hm'⟩

theorem sortedUntilOrd_src (H : Impl (ctx p) Rep val k enc) {comp : T → T → Bool}
    (hc : IsComp (ctx p) val k "xfn.Less" comp) (n : Nat) (hn : k ≤ n) (fuel : Nat) (first last : J) (s : S) (m : Mem E)
    (hm : Rep s m) :
    Does (calls (ctx p) (n + 2) "IsSortedUntil" [range enc first last] m)
      (Verif.Algo.isSortedUntil fuel comp first last s) (Gives Rep enc) := by
  rw [calls]
  it_run H [IsSortedUntil_fn]
  refine (sortedUntil_src H hc n hn fuel first last s m hm).andThen ?_
  rintro b s' ⟨_, m'⟩ ⟨rfl, hm'⟩
  exact ⟨([enc b], m'), by go_run [coerce_plain (H.plain _)], rfl, hm'⟩

theorem sortedAny_src (H : Impl (ctx p) Rep val k enc) {g : String} {comp : T → T → Bool}
    (hc : IsComp (ctx p) val k g comp) (n : Nat) (hn : k ≤ n) (fuel : Nat) (first last : J) (s : S) (m : Mem E) (hm : Rep s m) :
    Does (calls (ctx p) (n + 3) "IsSortedAny" [range enc first last, .fn g] m)
      (Verif.Algo.isSorted fuel comp first last s) (Gives Rep .bool) := by
  rw [calls]
  it_run H [IsSortedAny_fn]
  refine (sorted_src H hc n hn fuel first last s m hm).andThen ?_
  rintro b s' ⟨_, m'⟩ ⟨rfl, hm'⟩
  exact ⟨([.bool b], m'), by go_run [], rfl, hm'⟩

theorem sortedOrd_src (H : Impl (ctx p) Rep val k enc) {comp : T → T → Bool}
    (hc : IsComp (ctx p) val k "xfn.Less" comp) (n : Nat) (hn : k ≤ n) (fuel : Nat) (first last : J) (s : S) (m : Mem E)
    (hm : Rep s m) :
    Does (calls (ctx p) (n + 3) "IsSorted" [range enc first last] m)
      (Verif.Algo.isSorted fuel comp first last s) (Gives Rep .bool) := by
  rw [calls]
  it_run H [IsSorted_fn]
  refine (sorted_src H hc n hn fuel first last s m hm).andThen ?_
  rintro b s' ⟨_, m'⟩ ⟨rfl, hm'⟩
  exact ⟨([.bool b], m'), by go_run [], rfl, hm'⟩

theorem swap_src (H : Impl (ctx p) Rep val k enc) (n : Nat) (hn : k ≤ n) (a b : J) (s : S) (m : Mem E) (hm : Rep s m) :
    Does (calls (ctx p) (n + 1) "Swap" [enc a, enc b] m) (Verif.Algo.swap a b s) (Leaves Rep) := by
  rw [Verif.Algo.swap, calls]
  it_run H [Swap_fn]
  refine Does.bind1 (H.equal n hn a b _ s m hm) fun e s m hm => ?_
  cases e with
  | true =>
    rw [if_pos rfl]
    it_run H [Bool.not_true]
    exact .ret ⟨rfl, hm⟩
  | false =>
    rw [if_neg (by simp)]
    it_run H [Bool.not_false]
    refine Does.bind1 (H.get n hn a _ s m hm) fun va s m hm => ?_
    it_run H []
    refine Does.bind1 (H.get n hn b _ s m hm) fun vb s m hm => ?_
    it_run H []
    refine Does.bind0 (H.set n hn a vb _ s m hm) fun s m hm => ?_
    it_run H []
    refine (H.set n hn b va _ s m hm).andThen ?_
    rintro ⟨⟩ s' ⟨_, m'⟩ ⟨rfl, hm'⟩
    exact ⟨([], m'), by go_run [], rfl, hm'⟩

abbrev fillBody : List Stmt := FillN_fn.body

theorem fillLoop_src (H : Impl (ctx p) Rep val k enc) (n : Nat) (hn : k ≤ n) (value : T) (count : Int) (hb : isInt64 count) (i : Nat)
    (t : Nat) (hi : (i : Int) + t = count) (first : J) (s : S) (m : Mem E) (hm : Rep s m) :
    Does (forOf (ctx p) (calls (ctx p) n) (nth fillBody 0)
        [("i", .num .int i), ("first", enc first), ("count", .num .int count), ("value", val value)] m)
      (Verif.Algo.fillLoop value t first s)
      (fun it s r => ∃ c m', r = (.next, [("i", c), ("first", enc it), ("count", .num .int count), ("value", val value)], m')
        ∧ Rep s m') := by
  have hb2 := hb.2
  induction t generalizing i first s m with
  | zero =>
    rw [Verif.Algo.fillLoop]
    simp only [forOf, fillBody, nth, FillN_fn]
    rw [rounds_eq]
    it_run H []
    exact .ret ⟨_, _, rfl, hm⟩
  | succ t ih =>
    rw [Verif.Algo.fillLoop]
    simp only [forOf, fillBody, nth, FillN_fn]
    rw [rounds_eq]
    it_run H []
    refine Does.bind0 (H.set n hn first value _ s m hm) fun s m hm => ?_
    it_run H []
    refine Does.bind1 (H.next n hn first _ s m hm) fun it s m hm => ?_
    have e1 : (i : Int) + 1 = ((i + 1 : Nat) : Int) := by omega
    it_run H [e1]
    exact ih (i + 1) (by omega) it s m hm

theorem fill_src (H : Impl (ctx p) Rep val k enc) (n : Nat) (hn : k ≤ n) (value : T) (count : Int) (hb : isInt64 count)
    (first : J) (s : S) (m : Mem E) (hm : Rep s m) :
    Does (calls (ctx p) (n + 1) "FillN" [enc first, .num .int count, val value] m)
      (Verif.Algo.fillN first count value s) (Gives Rep enc) := by
  rw [Verif.Algo.fillN, calls]
  by_cases h0 : count ≤ 0
  · have : count.toNat = 0 := by omega
    rw [this, Verif.Algo.fillLoop]
    it_run H [FillN_fn, rounds_eq]
    exact .ret ⟨rfl, hm⟩
  · it_run H [FillN_fn]
    refine (fillLoop_src H n hn value count hb 0 count.toNat (by omega) first s m hm).andThen ?_
    rintro it s' _ ⟨c, m', rfl, hm'⟩
    exact ⟨([enc it], m'), by go_run [fetch_plain (H.plain _), coerce_plain (H.plain _)], rfl, hm'⟩
end

section
variable {E S T J : Type} [RandIter S T J] {p : Par E} {Rep : S → Mem E → Prop} {val : T → Val E} {k : Nat} {enc : J → Val E}

abbrev revBody : List Stmt := Reverse_fn.body

theorem reverseLoop_src (H : RandImpl (ctx p) Rep val k enc) (n : Nat) (hn : k ≤ n) (fuel : Nat) (first last : J) (s : S) (m : Mem E)
    (hm : Rep s m) :
    Does (forOf (ctx p) (calls (ctx p) (n + 1)) (nth revBody 0) [("first", enc first), ("last", enc last)] m)
      (Verif.Algo.reverse fuel first last s)
      (fun _ s r => ∃ a b m', r = (.next, [("first", a), ("last", b)], m') ∧ Rep s m') := by
  induction fuel generalizing first last s m with
  | zero => exact .fuel
  | succ fuel ih =>
    rw [Verif.Algo.reverse]
    simp only [forOf, revBody, nth, Reverse_fn]
    rw [rounds_eq]
    it_run H.toImpl []
    refine Does.bind1 (H.equal (n + 1) (by omega) first last _ s m hm) fun e s m hm => ?_
    cases e with
    | true =>
      rw [if_pos rfl]
      it_run H.toImpl [Bool.not_true]
      exact .ret ⟨_, _, _, rfl, hm⟩
    | false =>
      rw [if_neg (by simp)]
      it_run H.toImpl [Bool.not_false]
      refine Does.bind1 (H.prev (n + 1) (by omega) last _ s m hm) fun last s m hm => ?_
      it_run H.toImpl []
      refine Does.bind1 (H.equal (n + 1) (by omega) first last _ s m hm) fun e s m hm => ?_
      cases e with
      | true =>
        rw [if_pos rfl]
        it_run H.toImpl []
        exact .ret ⟨_, _, _, rfl, hm⟩
      | false =>
        rw [if_neg (by simp)]
        it_run H.toImpl []
        refine Does.bind0 (swap_src H.toImpl n hn first last s m hm) fun s m hm => ?_
        it_run H.toImpl []
        refine Does.bind1 (H.next (n + 1) (by omega) first _ s m hm) fun first s m hm => ?_
        it_run H.toImpl []
        exact ih first last s m hm

theorem reverse_src (H : RandImpl (ctx p) Rep val k enc) (n : Nat) (hn : k ≤ n) (fuel : Nat) (first last : J) (s : S) (m : Mem E)
    (hm : Rep s m) :
    Does (calls (ctx p) (n + 2) "Reverse" [enc first, enc last] m) (Verif.Algo.reverse fuel first last s) (Leaves Rep) := by
  rw [calls]
  it_run H.toImpl [Reverse_fn]
  refine (reverseLoop_src H n hn fuel first last s m hm).andThen ?_
  rintro ⟨⟩ s' _ ⟨a, b, m', rfl, hm'⟩
  exact ⟨([], m'), by go_run [], rfl, hm'⟩
end

end Verif.Src.Algo
