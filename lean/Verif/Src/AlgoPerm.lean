import Verif.Src.AlgoSorted

/-!
# ds/iter/reverse.go, range.go and algo/next_permutation.go, from their text
-/

namespace Verif.Src.Algo

open Verif.Iter

variable {E S T J : Type} [RandIter S T J] {p : Par E} {Rep : S → Mem E → Prop} {val : T → Val E} {k : Nat} {enc : J → Val E}

/-- A reverse iterator, as a value. -/
def encRev (enc : J → Val E) (c : Rev J) : Val E := .struct "ReverseRandomIterator" [("i", enc c.i)]

/-- The text of ds/iter/reverse.go:111-149 makes reverse iterators of iterators. -/
theorem rev_impl (H : RandImpl (ctx p) Rep val k enc) : RandImpl (ctx p) Rep val (k + 1) (encRev enc) where
  plain _ := rfl
  vals := H.vals
  next n hn j q s m hm := by
    obtain ⟨n, rfl⟩ : ∃ n', n = n' + 1 := ⟨n - 1, by omega⟩
    have e : (St.lift (next j) : St S (Rev J)) = (do
        let i ← St.lift (prev j.i)
        pure ⟨i⟩) := by
      funext s
      show (_, _) = _
      rw [St.bind_apply]
      simp only [next, St.lift]
      cases prev j.i <;> rfl
    rw [e]
    simp only [encRev]
    it_run H.toImpl [calls, ReverseRandomIterator_Next_fn]
    refine Does.bind1 (H.prev n (by omega) j.i _ s m hm) fun i s m hm => ?_
    it_run H.toImpl []
    exact .ret ⟨rfl, hm⟩
  prev n hn j q s m hm := by
    obtain ⟨n, rfl⟩ : ∃ n', n = n' + 1 := ⟨n - 1, by omega⟩
    have e : (St.lift (prev j) : St S (Rev J)) = (do
        let i ← St.lift (next j.i)
        pure ⟨i⟩) := by
      funext s
      show (_, _) = _
      rw [St.bind_apply]
      simp only [prev, St.lift]
      cases next j.i <;> rfl
    rw [e]
    simp only [encRev]
    it_run H.toImpl [calls, ReverseRandomIterator_Prev_fn]
    refine Does.bind1 (H.next n (by omega) j.i _ s m hm) fun i s m hm => ?_
    it_run H.toImpl []
    exact .ret ⟨rfl, hm⟩
  add n hn j d q s m hm hd := by
    obtain ⟨n, rfl⟩ : ∃ n', n = n' + 1 := ⟨n - 1, by omega⟩
    have e : (St.lift (add j d) : St S (Rev J)) = (do
        let i ← St.lift (add j.i (wrap64 (-d)))
        pure ⟨i⟩) := by
      funext s
      show (_, _) = _
      rw [St.bind_apply]
      simp only [add, St.lift]
      cases add j.i (wrap64 (-d)) <;> rfl
    rw [e]
    simp only [encRev]
    it_run H.toImpl [calls, ReverseRandomIterator_Add_fn, wrap_wrap64]
    refine Does.bind1 (H.add n (by omega) j.i _ _ s m hm (wrap64_isInt64 _)) fun i s m hm => ?_
    it_run H.toImpl []
    exact .ret ⟨rfl, hm⟩
  pos n hn j q s m hm := by
    obtain ⟨n, rfl⟩ : ∃ n', n = n' + 1 := ⟨n - 1, by omega⟩
    have e : (St.lift (.ok (pos j)) : St S Int) = (do
        let i ← St.lift (.ok (pos j.i))
        pure (wrap64 (-i))) := rfl
    rw [e]
    simp only [encRev]
    it_run H.toImpl [calls, ReverseRandomIterator_Pos_fn]
    refine Does.bind1 (H.pos n (by omega) j.i _ s m hm) fun i s m hm => ?_
    it_run H.toImpl [wrap_wrap64]
    exact .ret ⟨rfl, hm⟩
  get n hn j q s m hm := by
    obtain ⟨n, rfl⟩ : ∃ n', n = n' + 1 := ⟨n - 1, by omega⟩
    simp only [encRev, Iter.get]
    it_run H.toImpl [calls, ReverseRandomIterator_Get_fn]
    refine Does.bind1 (H.prev n (by omega) j.i _ s m hm) fun i s m hm => ?_
    it_run H.toImpl []
    refine (H.get n (by omega) i _ s m hm).andThen ?_
    rintro x s' ⟨_, m'⟩ ⟨rfl, hm'⟩
    exact ⟨([val x], m'), by go_run [coerce_plain (H.vals _)], rfl, hm'⟩
  set n hn j t q s m hm := by
    obtain ⟨n, rfl⟩ : ∃ n', n = n' + 1 := ⟨n - 1, by omega⟩
    simp only [encRev, Iter.set]
    it_run H.toImpl [calls, ReverseRandomIterator_Set_fn]
    refine Does.bind1 (H.prev n (by omega) j.i _ s m hm) fun i s m hm => ?_
    it_run H.toImpl []
    refine (H.set n (by omega) i t _ s m hm).andThen ?_
    rintro ⟨⟩ s' ⟨_, m'⟩ ⟨rfl, hm'⟩
    exact ⟨([], m'), by go_run [], rfl, hm'⟩
  equal n hn j j' q s m hm := by
    obtain ⟨n, rfl⟩ : ∃ n', n = n' + 1 := ⟨n - 1, by omega⟩
    simp only [encRev, equal]
    it_run H.toImpl [calls, ReverseRandomIterator_Equal_fn]
    refine (H.equal n (by omega) j.i j'.i _ s m hm).andThen ?_
    rintro b s' ⟨_, m'⟩ ⟨rfl, hm'⟩
    exact ⟨([.bool b], m'), by go_run [], rfl, hm'⟩

theorem reverseRandom_src (H : RandImpl (ctx p) Rep val k enc) (n : Nat) (j : J) (m : Mem E) :
    calls (ctx p) (n + 1) "iter.ReverseRandom" [enc j] m = pure ([encRev enc ⟨j⟩], m) := by
  rw [calls]
  go_run [ReverseRandom_fn, encRev, fetch_plain (H.plain _), coerce_plain (H.plain _), fit_plain (H.plain _)]

theorem base_src (H : RandImpl (ctx p) Rep val k enc) (n : Nat) (j : Rev J) (q : Option (Val E)) (m : Mem E) :
    callOn (ctx p) (calls (ctx p) (n + 1)) "Base" (encRev enc j) q [] false m = pure ([enc j.base], m) := by
  simp only [encRev, Rev.base]
  go_run [calls, ReverseRandomIterator_Base_fn, coerce_plain (H.plain _)]

theorem st_bind_assoc {α β γ : Type} (g : St S α) (f : α → St S β) (h : β → St S γ) :
    (g >>= f) >>= h = g >>= fun a => f a >>= h := by
  funext s
  simp only [St.bind_apply]
  rcases g s with ⟨_ | _, _⟩ <;> rfl

theorem st_pure_bind {α β : Type} (a : α) (f : α → St S β) : (pure a >>= f : St S β) = f a := rfl

theorem nextPermutation_src (H : RandImpl (ctx p) Rep val k enc) {g : String} {comp : T → T → Bool}
    (hc : IsComp (ctx p) val k g comp) (n : Nat) (hn : k ≤ n) (fuel : Nat) (first last : J) (s : S) (m : Mem E) (hm : Rep s m) :
    Does (calls (ctx p) (n + 4) "NextPermutationIterators" [enc first, enc last, .fn g] m)
      (Verif.Algo.nextPermutation fuel comp first last s) (Gives Rep .bool) := by
  have HR := rev_impl H
  have hcR : IsComp (ctx p) val (k + 1) g comp := fun n hn => hc n (by omega)
  rw [Verif.Algo.nextPermutation, calls]
  it_run H.toImpl [NextPermutationIterators_fn, reverseRandom_src H, fetch_plain (HR.plain _), settle_plain (HR.plain _)]
  refine Does.bind1 (sortedUntil_src HR.toImpl hcR (n + 2) (by omega) fuel ⟨last⟩ ⟨first⟩ s m hm) fun left s m hm => ?_
  it_run HR.toImpl []
  rw [Verif.Algo.permSwap, st_bind_assoc]
  refine Does.bind1 (HR.equal (n + 3) (by omega) left ⟨first⟩ _ s m hm) fun e s m hm => ?_
  cases e with
  | true =>
    rw [if_pos rfl, st_pure_bind]
    it_run HR.toImpl [Bool.not_true, base_src H, fetch_plain (H.plain _)]
    refine Does.bind0 (reverse_src H (n + 1) (by omega) fuel left.base last s m hm) fun s m hm => ?_
    it_run HR.toImpl []
    refine Does.bind1 (HR.equal (n + 3) (by omega) left ⟨first⟩ _ s m hm) fun e s m hm => ?_
    it_run HR.toImpl []
    exact .ret ⟨rfl, hm⟩
  | false =>
    rw [if_neg (by simp), st_bind_assoc]
    it_run HR.toImpl [Bool.not_false]
    refine Does.bind1 (HR.get (n + 3) (by omega) left _ s m hm) fun x s m hm => ?_
    rw [st_bind_assoc]
    it_run HR.toImpl []
    refine Does.bind1 (upper_src HR hcR (n + 1) (by omega) ⟨last⟩ left x s m hm) fun right s m hm => ?_
    it_run HR.toImpl []
    refine Does.bind0 (swap_src HR.toImpl (n + 2) (by omega) left right s m hm) fun s m hm => ?_
    it_run HR.toImpl [base_src H, fetch_plain (H.plain _)]
    refine Does.bind0 (reverse_src H (n + 1) (by omega) fuel left.base last s m hm) fun s m hm => ?_
    it_run HR.toImpl []
    refine Does.bind1 (HR.equal (n + 3) (by omega) left ⟨first⟩ _ s m hm) fun e s m hm => ?_
    it_run HR.toImpl []
    exact .ret ⟨rfl, hm⟩

theorem nextPermutationAny_src (H : RandImpl (ctx p) Rep val k enc) {g : String} {comp : T → T → Bool}
    (hc : IsComp (ctx p) val k g comp) (n : Nat) (hn : k ≤ n) (fuel : Nat) (first last : J) (s : S) (m : Mem E) (hm : Rep s m) :
    Does (calls (ctx p) (n + 5) "NextPermutationAny" [range enc first last, .fn g] m)
      (Verif.Algo.nextPermutation fuel comp first last s) (Gives Rep .bool) := by
  rw [calls]
  it_run H.toImpl [NextPermutationAny_fn]
  refine (nextPermutation_src H hc n hn fuel first last s m hm).andThen ?_
  rintro b s' ⟨_, m'⟩ ⟨rfl, hm'⟩
  exact ⟨([.bool b], m'), by go_run [], rfl, hm'⟩

theorem nextPermutationOrd_src (H : RandImpl (ctx p) Rep val k enc) {comp : T → T → Bool}
    (hc : IsComp (ctx p) val k "xfn.Less" comp) (n : Nat) (hn : k ≤ n) (fuel : Nat) (first last : J) (s : S) (m : Mem E)
    (hm : Rep s m) :
    Does (calls (ctx p) (n + 5) "NextPermutation" [range enc first last] m)
      (Verif.Algo.nextPermutation fuel comp first last s) (Gives Rep .bool) := by
  rw [calls]
  it_run H.toImpl [NextPermutation_fn]
  refine (nextPermutation_src H hc n hn fuel first last s m hm).andThen ?_
  rintro b s' ⟨_, m'⟩ ⟨rfl, hm'⟩
  exact ⟨([.bool b], m'), by go_run [], rfl, hm'⟩

/-! ## ds/iter/range.go -/

theorem makeRange_src (H : Impl (ctx p) Rep val k enc) (n : Nat) (first last : J) (m : Mem E) :
    calls (ctx p) (n + 1) "iter.MakeRange" [enc first, enc last] m = pure ([range enc first last], m) := by
  rw [calls]
  go_run [MakeRange_fn, fetch_plain (H.plain _), coerce_plain (H.plain _), fit_plain (H.plain _)]

theorem reverseRange_src (H : RandImpl (ctx p) Rep val k enc) (n : Nat) (r : Range J) (m : Mem E) :
    calls (ctx p) (n + 2) "iter.ReverseRandomRange" [range enc r.first r.last] m =
      pure ([range (encRev enc) (reverseRandomRange r).first (reverseRandomRange r).last], m) := by
  have HR := rev_impl H
  have h1 : ∀ j m, calls (ctx p) (n + 1) "ReverseRandom" [enc j] m = pure ([encRev enc ⟨j⟩], m) := by
    intro j m
    rw [calls]
    go_run [ReverseRandom_fn, encRev, fetch_plain (H.plain _), coerce_plain (H.plain _), fit_plain (H.plain _)]
  have h2 : ∀ a b m, calls (ctx p) (n + 1) "MakeRange" [encRev enc a, encRev enc b] m = pure ([range (encRev enc) a b], m) := by
    intro a b m
    rw [calls]
    go_run [MakeRange_fn, fetch_plain (HR.plain _), coerce_plain (HR.plain _), fit_plain (HR.plain _)]
  rw [calls]
  go_run [ReverseRandomRange_fn, h1, h2, fetch_plain (H.plain _), reverseRandomRange]

theorem subRange_src (H : RandImpl (ctx p) Rep val k enc) (n : Nat) (hn : k ≤ n + 1) (r : Range J) (a b : Int) (ha : isInt64 a) (hb : isInt64 b)
    (s : S) (m : Mem E) (hm : Rep s m) :
    Does (calls (ctx p) (n + 2) "iter.SubRange" [range enc r.first r.last, .num .int a, .num .int b] m)
      ((St.lift (subRange r a b) : St S (Range J)) s) (Gives Rep (fun r => range enc r.first r.last)) := by
  have e : (St.lift (subRange r a b) : St S (Range J)) = (do
      let x ← St.lift (add r.first a)
      let y ← St.lift (add r.first b)
      pure ⟨x, y⟩) := by
    unfold subRange
    cases add r.first a <;> cases add r.first b <;> rfl
  have h2 : ∀ a b m, calls (ctx p) (n + 1) "MakeRange" [enc a, enc b] m = pure ([range enc a b], m) := by
    intro a b m
    rw [calls]
    go_run [MakeRange_fn, fetch_plain (H.plain _), coerce_plain (H.plain _), fit_plain (H.plain _)]
  rw [e, calls]
  it_run H.toImpl [SubRange_fn]
  refine Does.bind1 (H.add (n + 1) hn r.first a _ s m hm ha) fun x s m hm => ?_
  it_run H.toImpl []
  refine Does.bind1 (H.add (n + 1) hn r.first b _ s m hm hb) fun y s m hm => ?_
  it_run H.toImpl [h2]
  exact .ret ⟨rfl, hm⟩

theorem rangeDistance_src (H : RandImpl (ctx p) Rep val k enc) (n : Nat) (hn : k ≤ n) (r : Range J) (s : S) (m : Mem E)
    (hm : Rep s m) :
    Does (calls (ctx p) (n + 1) "iter.RangeDistance" [range enc r.first r.last] m)
      ((pure (rangeDistance r) : St S Int) s) (Gives Rep (.num .int)) := by
  have e : (pure (rangeDistance r) : St S Int) = (do
      let x ← St.lift (.ok (pos r.last))
      let y ← St.lift (.ok (pos r.first))
      pure (wrap64 (x - y))) := rfl
  rw [e, calls]
  it_run H.toImpl [RangeDistance_fn]
  refine Does.bind1 (H.pos n hn r.last _ s m hm) fun x s m hm => ?_
  it_run H.toImpl []
  refine Does.bind1 (H.pos n hn r.first _ s m hm) fun y s m hm => ?_
  it_run H.toImpl []
  exact .ret ⟨rfl, hm⟩

end Verif.Src.Algo
