import Verif.Slice.Ops
import Verif.Xfn.Props
import Verif.Xfn.BindProps

/-!
# C138: what the functions made by package xfn keep

`Or`, `And`, `Not`, `IsEqAny`, `IsNeqAny`, `HasPrefixBytes` and `HasSuffixBytes` keep the slice they are given; the methods
`p.Or` and `p.And` and `Bind` keep copies. Here slices are headers with memory behind (Verif/Slice/Model.lean) which others
may change. A call of a function made by `Bind` works on a copy of its own; calls are broken up into steps so that they
can overlap, in other goroutines or because `src` calls the bound function again.
-/

namespace Verif.Xfn.Kept

open Verif.Iter Verif.Slice

/-! ## Predicates -/

section predicates
variable {T F : Type}

/-- Calling function values: `F` are the function values that memory holds; a call may change memory. -/
abbrev App (F T : Type) := F → T → St (Heap F) Bool

/-- The loop of `Or` and `And` (xfn/predicate.go:72-77, 83-88), `n` elements before its end; `range fns` fixes the header,
elements are read one by one. -/
def anyLoop [Inhabited F] (app : App F T) (fns : Slice) (v : T) : Nat → Nat → St (Heap F) Bool
  | 0, _ => return false
  | n + 1, i => do
    let f ← load fns i
    if ← app f v then return true else anyLoop app fns v n (i + 1)

/-- The loop of `Not` (xfn/predicate.go:94-99). -/
def noneLoop [Inhabited F] (app : App F T) (fns : Slice) (v : T) : Nat → Nat → St (Heap F) Bool
  | 0, _ => return true
  | n + 1, i => do
    let f ← load fns i
    if ← app f v then return false else noneLoop app fns v n (i + 1)

/-- xfn/predicate.go:67-79, the function returned. -/
def or [Inhabited F] (app : App F T) (fns : Slice) (v : T) : St (Heap F) Bool := anyLoop app fns v fns.len 0

/-- xfn/predicate.go:81-90, the function returned. -/
def and [Inhabited F] (app : App F T) (fns : Slice) (v : T) : St (Heap F) Bool := anyLoop app fns v fns.len 0

/-- xfn/predicate.go:92-101, the function returned. -/
def not [Inhabited F] (app : App F T) (fns : Slice) (v : T) : St (Heap F) Bool := noneLoop app fns v fns.len 0

/-- `append([]Predicate[T]{p}, fns...)` (xfn/predicate.go:14, 18). -/
def withFns [Inhabited F] (extra : Nat) (p : F) (fns : Slice) : St (Heap F) Slice := fun h =>
  appendMany extra ⟨.arr h.length 0, 1, 1⟩ (contents h fns) (h ++ [[p]])

/-- The loop of `IsEqAny` (xfn/predicate.go:33-37). -/
def eqLoop [Inhabited T] (o : Ops T) (rhs : Slice) (v : T) : Nat → Nat → St (Heap T) Bool
  | 0, _ => return false
  | n + 1, i => do
    let r ← load rhs i
    if o.eq v r then return true else eqLoop o rhs v n (i + 1)

/-- The loop of `IsNeqAny` (xfn/predicate.go:50-54). -/
def neqLoop [Inhabited T] (o : Ops T) (rhs : Slice) (v : T) : Nat → Nat → St (Heap T) Bool
  | 0, _ => return true
  | n + 1, i => do
    let r ← load rhs i
    if o.eq v r then return false else neqLoop o rhs v n (i + 1)

/-- xfn/predicate.go:31-40, the function returned. -/
def isEqAny [Inhabited T] (o : Ops T) (rhs : Slice) (v : T) : St (Heap T) Bool := eqLoop o rhs v rhs.len 0

/-- xfn/predicate.go:48-57, the function returned. -/
def isNeqAny [Inhabited T] (o : Ops T) (rhs : Slice) (v : T) : St (Heap T) Bool := neqLoop o rhs v rhs.len 0

/-- xfn/predicate.go:141-146, the function returned; `v` is a slice, too. -/
def hasPrefixBytes (pre v : Slice) : St (Heap UInt8) Bool := fun h =>
  if v.len ≥ pre.len then
    match reslice v 0 pre.len with
    | .ok w => (.ok (decide (contents h w = contents h pre)), h)
    | .error e => (.error e, h)
  else (.ok false, h)

/-- xfn/predicate.go:148-153, the function returned. -/
def hasSuffixBytes (suf v : Slice) : St (Heap UInt8) Bool := fun h =>
  if v.len ≥ suf.len then
    match reslice v ((v.len : Int) - suf.len) v.len with
    | .ok w => (.ok (decide (contents h w = contents h suf)), h)
    | .error e => (.error e, h)
  else (.ok false, h)

theorem drop_cons {l : List F} {i : Nat} (h : i < l.length) : ∃ x, l[i]? = some x ∧ l.drop i = x :: l.drop (i + 1) :=
  ⟨l[i], List.getElem?_eq_getElem h, List.drop_eq_getElem_cons h⟩

theorem anyLoop_eq [Inhabited F] {app : App F T} {p : F → Predicate T} {fns : Slice} {h : Heap F} (v : T)
    (happ : ∀ f ∈ contents h fns, app f v h = (p f v, h)) : ∀ n i, i + n = (contents h fns).length →
      anyLoop app fns v n i h = (Or (((contents h fns).drop i).map p) v, h) := by
  intro n
  induction n with
  | zero =>
    intro i hi
    rw [List.drop_of_length_le (by omega)]
    rfl
  | succ n ih =>
    intro i hi
    obtain ⟨x, hx, hd⟩ := drop_cons (l := contents h fns) (i := i) (by omega)
    rw [hd, List.map_cons]
    unfold anyLoop Or
    rw [St.bind_ok (load_ok hx)]
    have hap := happ x (List.mem_of_getElem? hx)
    cases hp : p x v with
    | error e =>
      rw [hp] at hap
      rw [St.bind_error hap]
      rfl
    | ok b =>
      rw [hp] at hap
      rw [St.bind_ok hap]
      cases b with
      | true => rfl
      | false => exact ih (i + 1) (by omega)

theorem noneLoop_eq [Inhabited F] {app : App F T} {p : F → Predicate T} {fns : Slice} {h : Heap F} (v : T)
    (happ : ∀ f ∈ contents h fns, app f v h = (p f v, h)) : ∀ n i, i + n = (contents h fns).length →
      noneLoop app fns v n i h = (Not (((contents h fns).drop i).map p) v, h) := by
  intro n
  induction n with
  | zero =>
    intro i hi
    rw [List.drop_of_length_le (by omega)]
    rfl
  | succ n ih =>
    intro i hi
    obtain ⟨x, hx, hd⟩ := drop_cons (l := contents h fns) (i := i) (by omega)
    rw [hd, List.map_cons]
    unfold noneLoop Not
    rw [St.bind_ok (load_ok hx)]
    have hap := happ x (List.mem_of_getElem? hx)
    cases hp : p x v with
    | error e =>
      rw [hp] at hap
      rw [St.bind_error hap]
      rfl
    | ok b =>
      rw [hp] at hap
      rw [St.bind_ok hap]
      cases b with
      | true => rfl
      | false => exact ih (i + 1) (by omega)

theorem eqLoop_eq [Inhabited T] {o : Ops T} {rhs : Slice} {h : Heap T} (v : T) : ∀ n i, i + n = (contents h rhs).length →
    eqLoop o rhs v n i h = (Xfn.isEqAny o ((contents h rhs).drop i) v, h) ∧
    neqLoop o rhs v n i h = (Xfn.isNeqAny o ((contents h rhs).drop i) v, h) := by
  intro n
  induction n with
  | zero =>
    intro i hi
    rw [List.drop_of_length_le (by omega)]
    exact ⟨rfl, rfl⟩
  | succ n ih =>
    intro i hi
    obtain ⟨x, hx, hd⟩ := drop_cons (l := contents h rhs) (i := i) (by omega)
    obtain ⟨h1, h2⟩ := ih (i + 1) (by omega)
    rw [hd]
    unfold eqLoop neqLoop Xfn.isEqAny Xfn.isNeqAny
    rw [St.bind_ok (load_ok hx), St.bind_ok (load_ok hx)]
    by_cases e : o.eq v x
    · simp only [e, if_true]; exact ⟨rfl, rfl⟩
    · simp only [e]
      exact ⟨h1, h2⟩

/-- **C138.** At every call, `Or`, `And` and `Not` of a slice mean what the functions mean that the slice holds at the time
of the call (if these do not change memory), whatever it held when they were made. -/
theorem C138_current [Inhabited F] (app : App F T) (p : F → Predicate T) (fns : Slice) (h : Heap F) (hv : Valid h fns) (v : T)
    (happ : ∀ f ∈ contents h fns, app f v h = (p f v, h)) :
    or app fns v h = (Or ((contents h fns).map p) v, h) ∧
    and app fns v h = (And ((contents h fns).map p) v, h) ∧
    not app fns v h = (Not ((contents h fns).map p) v, h) := by
  have hL := length_contents hv
  have e := anyLoop_eq v happ fns.len 0 (by omega)
  rw [List.drop_zero] at e
  refine ⟨e, ?_, ?_⟩
  · unfold Kept.and
    rw [e, or_eq_and]
  · have := noneLoop_eq v happ fns.len 0 (by omega)
    rw [List.drop_zero] at this
    exact this
where
  or_eq_and {T : Type} {l : List (Predicate T)} {v : T} : Or l v = And l v := by
    induction l with
    | nil => rfl
    | cons f l ih => unfold Or And; simp only [ih]

/-- **C138.** So storing `g` at index `i` of the slice replaces the function there in every `Or` made from it. -/
theorem C138_replaced [Inhabited F] (app : App F T) (p : F → Predicate T) (fns : Slice) (h : Heap F) (hv : Valid h fns) (i : Nat)
    (hi : i < fns.len) (g : F) (v : T) (happ : ∀ f h, app f v h = (p f v, h)) :
    ∃ h', store fns i g h = (.ok (), h') ∧
      (or app fns v h').1 = Or (((contents h fns).map p).set i (p g)) v ∧
      (not app fns v h').1 = Not (((contents h fns).map p).set i (p g)) v := by
  refine ⟨_, store_ok g hi, ?_⟩
  have hL := length_contents hv
  have hv' := (poke_upd hv (i := i) (l := [g]) (by have := hv.1; simp; omega)).valid hv
  have hc : contents (poke h fns.ptr i [g]) fns = (contents h fns).set i g := by
    rw [poke_contents hv (by simp; omega), splice_singleton _ (by omega)]
  obtain ⟨h1, -, h3⟩ := C138_current app p fns _ hv' v fun f _ => happ f _
  rw [h1, h3, hc, List.map_set]
  exact ⟨rfl, rfl⟩

/-- **C138.** `p.Or(fns...)` and `p.And(fns...)` keep a new slice: whatever is done to memory afterwards but to that slice,
they mean what `p` and the functions in `fns` at the time they were made mean. -/
theorem C138_copied [Inhabited F] (extra : Nat) (f : F) (fns : Slice) (h : Heap F) (hv : Valid h fns)
    (hsz : ((1 + fns.len + extra : Nat) : Int) < 9223372036854775808) :
    ∃ s h', withFns extra f fns h = (.ok s, h') ∧ Valid h' s ∧ contents h' s = f :: contents h fns ∧
      (∃ a, s.ptr = .arr a 0 ∧ h.length ≤ a) ∧ Upd (fun _ _ => False) h h' ∧
      ∀ (h'' : Heap F) (app : App F T) (p : F → Predicate T) (v : T),
        Upd (fun a _ => s.ptr ≠ .arr a 0) h' h'' → (∀ g ∈ f :: contents h fns, app g v h'' = (p g v, h'')) →
        or app s v h'' = (Or (p f :: (contents h fns).map p) v, h'') ∧
        and app s v h'' = (And (p f :: (contents h fns).map p) v, h'') := by
  have hL := length_contents hv
  have hv1 : Valid (h ++ [[f]]) ⟨.arr h.length 0, 1, 1⟩ :=
    ⟨Nat.le_refl _, by show ((1 : Nat) : Int) < _; omega, [f], by simp, by simp⟩
  obtain ⟨s, h', e, hv', hl', hc', hin, hout⟩ := appendMany_spec extra hv1 (contents h fns) (by
    rw [hL]; exact hsz)
  have u0 := alloc_upd h [f]
  have hc0 : contents (h ++ [[f]]) ⟨.arr h.length 0, 1, 1⟩ = [f] := by simp [contents]
  have hp : (∃ a, s.ptr = .arr a 0 ∧ h.length ≤ a) ∧ Upd (fun _ _ => False) h h' := by
    by_cases c : 1 + (contents h fns).length ≤ 1
    · obtain ⟨p1, -, u⟩ := hin c
      refine ⟨⟨_, p1, Nat.le_refl _⟩, ?_⟩
      refine u0.trans (u.mono ?_)
      rintro a k - ⟨off, -, h1, h2⟩
      omega
    · obtain ⟨p1, u⟩ := hout (by dsimp only; omega)
      exact ⟨⟨_, p1, by simp⟩, u0.trans u⟩
  refine ⟨s, h', e, hv', by rw [hc', hc0]; rfl, hp.1, hp.2, ?_⟩
  intro h'' app p v u happ
  obtain ⟨⟨a, ea, -⟩, -⟩ := hp
  have hcs : contents h'' s = f :: contents h fns := by
    rw [u.contents hv' ?_, hc', hc0]
    · rfl
    · rintro b k ⟨off, eb, -⟩ hne
      rw [ea] at eb hne
      injection eb with e1 e2
      subst e1 e2
      exact hne rfl
  obtain ⟨h1, h2, -⟩ := C138_current app p s h'' (u.valid hv') v (by rw [hcs]; exact happ)
  rw [h1, h2, hcs]
  exact ⟨rfl, rfl⟩

/-- **C138.** `IsEqAny`, `IsNeqAny`, `HasPrefixBytes` and `HasSuffixBytes` compare with what the slice holds at the time of
the call. -/
theorem C138_values [Inhabited T] (o : Ops T) (rhs : Slice) (h : Heap T) (hv : Valid h rhs) (v : T) :
    isEqAny o rhs v h = (Xfn.isEqAny o (contents h rhs) v, h) ∧
    isNeqAny o rhs v h = (Xfn.isNeqAny o (contents h rhs) v, h) := by
  have := eqLoop_eq (o := o) v rhs.len 0 (by rw [length_contents hv]; omega)
  rw [List.drop_zero] at this
  exact this

theorem C138_bytes (pre v : Slice) (h : Heap UInt8) (hp : Valid h pre) (hv : Valid h v) :
    hasPrefixBytes pre v h = (hasPrefix (contents h pre) (contents h v), h) ∧
    hasSuffixBytes pre v h = (hasSuffix (contents h pre) (contents h v), h) := by
  have h1 := length_contents hp
  have h2 := length_contents hv
  unfold hasPrefixBytes hasSuffixBytes hasPrefix hasSuffix Xfn.sub
  rw [h1, h2]
  by_cases c : v.len ≥ pre.len
  · obtain ⟨w, ew, -, -, -, -, cw, -⟩ := reslice_spec hv (i := 0) (j := pre.len) (by omega) c
    obtain ⟨w', ew', -, -, -, -, cw', -⟩ := reslice_spec hv (i := v.len - pre.len) (j := v.len) (by omega) (Nat.le_refl _)
    have e0 : reslice v 0 pre.len = .ok w := ew
    have e1 : reslice v ((v.len : Int) - pre.len) v.len = .ok w' := by rw [← ew']; congr 1; omega
    rw [if_pos c, if_pos c, e0, e1]
    dsimp only
    rw [if_pos (show ((v.len : Int) ≥ pre.len) by omega), if_pos (by omega), if_pos (show ((v.len : Int) ≥ pre.len) by omega),
      if_pos (by omega), cw, cw']
    constructor
    · simp only [Nat.sub_zero, List.drop_zero, Int.toNat_natCast, Int.toNat_zero]
      rfl
    · have e2 : ((v.len : Int) - pre.len).toNat = v.len - pre.len := by omega
      have e3 : v.len - (v.len - pre.len) = pre.len := by omega
      simp only [e2, e3, Int.toNat_natCast]
      rw [List.take_of_length_le (l := (contents h v).drop (v.len - pre.len)) (by rw [List.length_drop]; omega),
        List.take_of_length_le (l := contents h v) (by omega)]
      rfl
  · rw [if_neg c, if_neg c, if_neg (by omega), if_neg (by omega)]
    exact ⟨rfl, rfl⟩

end predicates

/-! ## Overlapping calls of a bound function -/

section bound
variable {R : Refl} {ι : Type}

/-- A call of the bound function: it has its inputs; it has made `callValues`, the array at `addr`, and has these
placeholders still to fill in; it has called `src` with these values; it has panicked. -/
inductive Phase (R : Refl) where
  | begun
  | filling (addr : Nat) (rest : List (Nat × Nat))
  | passed (vs : List (Option R.Val))
  | failed

/-- Memory, where array 0 is `values`, and the calls. -/
structure State (R : Refl) (ι : Type) where
  heap : List (List (Option R.Val))
  calls : ι → Option (List R.Val × Phase R)

/-- What `Bind` leaves. -/
def init (b : Bound R) : State R ι := ⟨[b.values], fun _ => none⟩

/-- One step of a call (xfn/bind.go:131-137). -/
inductive Step (b : Bound R) (s s' : State R ι) : Prop where
  /-- the call begins; it may be made by another goroutine, or by `src` in the middle of another call -/
  | start (i : ι) (ys : List R.Val) : s.calls i = none → s'.heap = s.heap →
    s'.calls i = some (ys, .begun) → (∀ j, j ≠ i → s'.calls j = s.calls j) → Step b s s'
  /-- `callValues := append([]reflect.Value(nil), values...)` -/
  | copy (i : ι) (ys : List R.Val) (vs : List (Option R.Val)) : s.calls i = some (ys, .begun) → s.heap[0]? = some vs →
    s'.heap = s.heap ++ [vs] → s'.calls i = some (ys, .filling s.heap.length b.placeholders) →
    (∀ j, j ≠ i → s'.calls j = s.calls j) → Step b s s'
  /-- `callValues[pi.toArg] = args[pi.fromArg]` -/
  | write (i : ι) (ys : List R.Val) (a : Nat) (from_ to : Nat) (ps : List (Nat × Nat)) (vs : List (Option R.Val)) :
    s.calls i = some (ys, .filling a ((from_, to) :: ps)) → s.heap[a]? = some vs →
    (match (do let y ← goGet ys from_; goSet vs to (some y) : Go (List (Option R.Val))) with
      | .ok vs' => s'.heap = s.heap.set a vs' ∧ s'.calls i = some (ys, .filling a ps)
      | .error _ => s'.heap = s.heap ∧ s'.calls i = some (ys, .failed)) →
    (∀ j, j ≠ i → s'.calls j = s.calls j) → Step b s s'
  /-- `srcV.Call(callValues)` -/
  | pass (i : ι) (ys : List R.Val) (a : Nat) (vs : List (Option R.Val)) : s.calls i = some (ys, .filling a []) →
    s.heap[a]? = some vs → s'.heap = s.heap → s'.calls i = some (ys, .passed vs) →
    (∀ j, j ≠ i → s'.calls j = s.calls j) → Step b s s'

/-- The states that overlapping calls can lead to. -/
inductive Reach (b : Bound R) : State R ι → Prop where
  | init : Reach b (init b)
  | step {s s' : State R ι} : Reach b s → Step b s s' → Reach b s'

/-- What holds all the time. -/
structure Inv (b : Bound R) (s : State R ι) : Prop where
  values : s.heap[0]? = some b.values
  filling : ∀ i ys a ps, s.calls i = some (ys, .filling a ps) →
    0 < a ∧ ∃ vs, s.heap[a]? = some vs ∧ fill ys ps vs = fill ys b.placeholders b.values
  apart : ∀ i j ys ys' a ps ps', s.calls i = some (ys, .filling a ps) → s.calls j = some (ys', .filling a ps') → i = j
  passed : ∀ i ys vs, s.calls i = some (ys, .passed vs) → fill ys b.placeholders b.values = .ok vs
  failed : ∀ i ys, s.calls i = some (ys, .failed) → ∃ e, fill ys b.placeholders b.values = .error e

theorem inv_step {b : Bound R} {s s' : State R ι} (hi : Inv b s) (st : Step b s s') : Inv b s' := by
  cases st with
  | start i ys h1 h2 h3 h4 =>
    have other : ∀ j r, s'.calls j = some r → r.2 ≠ .begun → s.calls j = some r := by
      intro j r hj hr
      by_cases c : j = i
      · subst c; rw [h3] at hj; injection hj with hj; subst hj; exact absurd rfl hr
      · rw [← h4 j c]; exact hj
    exact {
      values := by rw [h2]; exact hi.values
      filling := fun j ys a ps hj => by rw [h2]; exact hi.filling j ys a ps (other j _ hj (by simp))
      apart := fun j k ys ys' a ps ps' hj hk => hi.apart j k ys ys' a ps ps' (other j _ hj (by simp)) (other k _ hk (by simp))
      passed := fun j ys vs hj => hi.passed j ys vs (other j _ hj (by simp))
      failed := fun j ys hj => hi.failed j ys (other j _ hj (by simp)) }
  | copy i ys vs h1 h2 h3 h4 h5 =>
    have hvs : vs = b.values := by have := hi.values; rw [h2] at this; injection this
    subst hvs
    have other : ∀ j, j ≠ i → ∀ r, s'.calls j = some r → s.calls j = some r := fun j c r hj => by rw [← h5 j c]; exact hj
    have hpos : 0 < s.heap.length := (List.getElem?_eq_some_iff.1 h2).1
    have lt : ∀ j ys a ps, s.calls j = some (ys, .filling a ps) → a < s.heap.length := fun j ys a ps hj => by
      obtain ⟨-, vs, e, -⟩ := hi.filling j ys a ps hj
      exact (List.getElem?_eq_some_iff.1 e).1
    exact {
      values := by rw [h3, List.getElem?_append_left hpos]; exact hi.values
      filling := fun j zs a ps hj => by
        by_cases c : j = i
        · subst c
          rw [h4] at hj
          injection hj with hj
          injection hj with e1 e2
          injection e2 with e2 e3
          subst e1 e2 e3
          exact ⟨hpos, b.values, by rw [h3]; simp, rfl⟩
        · obtain ⟨h0, ws, e, ef⟩ := hi.filling j zs a ps (other j c _ hj)
          exact ⟨h0, ws, by rw [h3, List.getElem?_append_left (List.getElem?_eq_some_iff.1 e).1]; exact e, ef⟩
      apart := fun j k zs zs' a ps ps' hj hk => by
        by_cases c : j = i
        · subst c
          by_cases d : k = j
          · exact d.symm
          · have := lt k zs' a ps' (other k d _ hk)
            rw [h4] at hj
            injection hj with hj
            injection hj with e1 e2
            injection e2 with e2 e3
            omega
        · by_cases d : k = i
          · subst d
            have := lt j zs a ps (other j c _ hj)
            rw [h4] at hk
            injection hk with hk
            injection hk with e1 e2
            injection e2 with e2 e3
            omega
          · exact hi.apart j k zs zs' a ps ps' (other j c _ hj) (other k d _ hk)
      passed := fun j zs ws hj => by
        by_cases c : j = i
        · subst c; rw [h4] at hj; cases hj
        · exact hi.passed j zs ws (other j c _ hj)
      failed := fun j zs hj => by
        by_cases c : j = i
        · subst c; rw [h4] at hj; cases hj
        · exact hi.failed j zs (other j c _ hj) }
  | write i ys a from_ to ps vs h1 h2 h3 h4 =>
    have other : ∀ j, j ≠ i → ∀ r, s'.calls j = some r → s.calls j = some r := fun j c r hj => by rw [← h4 j c]; exact hj
    obtain ⟨ha, vs0, hvs, hf⟩ := hi.filling i ys a _ h1
    have : vs0 = vs := by rw [h2] at hvs; injection hvs with hvs; exact hvs.symm
    subst this
    have hal := (List.getElem?_eq_some_iff.1 h2).1
    have hf : (do let y ← goGet ys from_; let vs ← goSet vs0 to (some y); fill ys ps vs) =
        fill ys b.placeholders b.values := by rw [← hf]; rfl
    cases hgo : (do let y ← goGet ys from_; goSet vs0 to (some y) : Go (List (Option R.Val))) with
    | error e =>
      rw [hgo] at h3
      obtain ⟨hh, hc⟩ := h3
      have hfe : fill ys b.placeholders b.values = .error e := by
        rw [← hf]
        cases hy : goGet ys (from_ : Int) with
        | error e' => rw [hy] at hgo; injection hgo with hgo; rw [← hgo]; rfl
        | ok y =>
          rw [hy] at hgo
          have hgo : goSet vs0 to (some y) = .error e := hgo
          show (do let vs ← goSet vs0 to (some y); fill ys ps vs) = _
          rw [hgo]
          rfl
      exact {
        values := by rw [hh]; exact hi.values
        filling := fun j zs a ps hj => by
          by_cases c : j = i
          · subst c; rw [hc] at hj; cases hj
          · rw [hh]; exact hi.filling j zs a ps (other j c _ hj)
        apart := fun j k zs zs' a ps ps' hj hk => by
          by_cases c : j = i
          · subst c; rw [hc] at hj; cases hj
          · by_cases d : k = i
            · subst d; rw [hc] at hk; cases hk
            · exact hi.apart j k zs zs' a ps ps' (other j c _ hj) (other k d _ hk)
        passed := fun j zs ws hj => by
          by_cases c : j = i
          · subst c; rw [hc] at hj; cases hj
          · exact hi.passed j zs ws (other j c _ hj)
        failed := fun j zs hj => by
          by_cases c : j = i
          · subst c
            rw [hc] at hj
            injection hj with hj
            injection hj with e1
            subst e1
            exact ⟨e, hfe⟩
          · exact hi.failed j zs (other j c _ hj) }
    | ok vs' =>
      rw [hgo] at h3
      obtain ⟨hh, hc⟩ := h3
      have hf' : fill ys ps vs' = fill ys b.placeholders b.values := by
        rw [← hf]
        cases hy : goGet ys (from_ : Int) with
        | error e' => rw [hy] at hgo; cases hgo
        | ok y =>
          rw [hy] at hgo
          have hgo : goSet vs0 to (some y) = .ok vs' := hgo
          show _ = (do let vs ← goSet vs0 to (some y); fill ys ps vs)
          rw [hgo]
          rfl
      exact {
        values := by rw [hh, List.getElem?_set_ne (by omega)]; exact hi.values
        filling := fun j zs x qs hj => by
          by_cases c : j = i
          · subst c
            rw [hc] at hj
            injection hj with hj
            injection hj with e1 e2
            injection e2 with e2 e3
            subst e1 e2 e3
            exact ⟨ha, vs', by rw [hh, List.getElem?_set_self hal], hf'⟩
          · have hj' := other j c _ hj
            obtain ⟨h0, ws, e, ef⟩ := hi.filling j zs x qs hj'
            have hne : a ≠ x := fun hax => by
              subst hax
              exact c (hi.apart j i zs ys a qs _ hj' h1)
            exact ⟨h0, ws, by rw [hh, List.getElem?_set_ne hne]; exact e, ef⟩
        apart := fun j k zs zs' x qs qs' hj hk => by
          have back : ∀ j zs x qs, s'.calls j = some (zs, .filling x qs) →
              ∃ qs', s.calls j = some (zs, .filling x qs') := by
            intro j zs x qs hj
            by_cases c : j = i
            · subst c
              rw [hc] at hj
              injection hj with hj
              injection hj with e1 e2
              injection e2 with e2 e3
              subst e1 e2 e3
              exact ⟨_, h1⟩
            · exact ⟨_, other j c _ hj⟩
          obtain ⟨q1, b1⟩ := back j zs x qs hj
          obtain ⟨q2, b2⟩ := back k zs' x qs' hk
          exact hi.apart j k zs zs' x q1 q2 b1 b2
        passed := fun j zs ws hj => by
          by_cases c : j = i
          · subst c; rw [hc] at hj; cases hj
          · exact hi.passed j zs ws (other j c _ hj)
        failed := fun j zs hj => by
          by_cases c : j = i
          · subst c; rw [hc] at hj; cases hj
          · exact hi.failed j zs (other j c _ hj) }
  | pass i ys a vs h1 h2 hh hc h4 =>
    have other : ∀ j, j ≠ i → ∀ r, s'.calls j = some r → s.calls j = some r := fun j c r hj => by rw [← h4 j c]; exact hj
    obtain ⟨ha, vs0, hvs, hf⟩ := hi.filling i ys a _ h1
    have : vs0 = vs := by rw [h2] at hvs; injection hvs with hvs; exact hvs.symm
    subst this
    exact {
      values := by rw [hh]; exact hi.values
      filling := fun j zs a ps hj => by
        by_cases c : j = i
        · subst c; rw [hc] at hj; cases hj
        · rw [hh]; exact hi.filling j zs a ps (other j c _ hj)
      apart := fun j k zs zs' a ps ps' hj hk => by
        by_cases c : j = i
        · subst c; rw [hc] at hj; cases hj
        · by_cases d : k = i
          · subst d; rw [hc] at hk; cases hk
          · exact hi.apart j k zs zs' a ps ps' (other j c _ hj) (other k d _ hk)
      passed := fun j zs ws hj => by
        by_cases c : j = i
        · subst c
          rw [hc] at hj
          injection hj with hj
          injection hj with e1 e2
          injection e2 with e2
          subst e1 e2
          exact hf.symm
        · exact hi.passed j zs ws (other j c _ hj)
      failed := fun j zs hj => by
        by_cases c : j = i
        · subst c; rw [hc] at hj; cases hj
        · exact hi.failed j zs (other j c _ hj) }

theorem inv_reach {b : Bound R} {s : State R ι} (r : Reach b s) : Inv b s := by
  induction r with
  | init =>
    exact ⟨rfl, fun i ys a ps h => (nomatch h), fun i j ys ys' a ps ps' h => (nomatch h), fun i ys vs h => (nomatch h),
      fun i ys h => (nomatch h)⟩
  | step _ st ih => exact inv_step ih st

/-- **C138.** However calls of a bound function overlap, each passes to `src` what it would pass alone: its own inputs
where the placeholders say, and the bound arguments. None panics before `src` is called. -/
theorem C138_bound {s d : Sig R} {f : List R.Val → Go (List R.Val)} {args : List (Arg R)} {b : Bound R}
    (hb : bind (.func s f) (.func d) args = .ok b) {st : State R ι} (r : Reach b st) (i : ι) (ys : List R.Val)
    (hys : ys.map R.typeOf = d.ins) :
    (∀ vs, st.calls i = some (ys, .passed vs) →
      b.call s f ys = Xfn.call s f vs ∧
      ∃ xs : List R.Val, vs = xs.map some ∧ xs.map R.typeOf = s.ins ∧ ∀ (k : Nat) x, xs[k]? = some x → Routed s args ys k x) ∧
    st.calls i ≠ some (ys, .failed) := by
  obtain ⟨xs, e, ht, hr⟩ := bound_fill hb hys
  have inv := inv_reach r
  constructor
  · intro vs hvs
    have := inv.passed i ys vs hvs
    refine ⟨by unfold Bound.call; rw [this], ?_⟩
    rw [e] at this
    injection this with this
    exact ⟨xs, this.symm, ht, hr⟩
  · intro hf
    obtain ⟨msg, h⟩ := inv.failed i ys hf
    rw [e] at h
    cases h

/-- A call that has begun and not yet called `src` can always go on. -/
theorem C138_goes_on [DecidableEq ι] {b : Bound R} {st : State R ι} (r : Reach b st) (i : ι) (ys : List R.Val) (p : Phase R)
    (hp : st.calls i = some (ys, p)) (h1 : ∀ vs, p ≠ .passed vs) (h2 : p ≠ .failed) :
    ∃ st', Step b st st' ∧ st'.calls i ≠ st.calls i := by
  have inv := inv_reach r
  have upd : ∀ q, ∃ g : ι → Option (List R.Val × Phase R), g i = some (ys, q) ∧ ∀ j, j ≠ i → g j = st.calls j :=
    fun q => ⟨fun j => if j = i then some (ys, q) else st.calls j, if_pos rfl, fun j h => if_neg h⟩
  cases p with
  | begun =>
    obtain ⟨g, g1, g2⟩ := upd (.filling st.heap.length b.placeholders)
    exact ⟨⟨st.heap ++ [b.values], g⟩, .copy i ys b.values hp inv.values rfl g1 g2, by show g i ≠ _; rw [g1, hp]; simp⟩
  | filling a ps =>
    obtain ⟨-, vs, hvs, -⟩ := inv.filling i ys a ps hp
    cases ps with
    | nil =>
      obtain ⟨g, g1, g2⟩ := upd (.passed vs)
      exact ⟨⟨st.heap, g⟩, .pass i ys a vs hp hvs rfl g1 g2, by show g i ≠ _; rw [g1, hp]; simp⟩
    | cons q ps =>
      obtain ⟨from_, to⟩ := q
      cases hgo : (do let y ← goGet ys from_; goSet vs to (some y) : Go (List (Option R.Val))) with
      | ok vs' =>
        obtain ⟨g, g1, g2⟩ := upd (.filling a ps)
        exact ⟨⟨st.heap.set a vs', g⟩, .write i ys a from_ to ps vs hp hvs (by rw [hgo]; exact ⟨rfl, g1⟩) g2, by
          show g i ≠ _
          rw [g1, hp]
          intro h
          injection h with h
          injection h with _ h
          injection h with _ h
          have := congrArg List.length h
          simp at this⟩
      | error e =>
        obtain ⟨g, g1, g2⟩ := upd .failed
        exact ⟨⟨st.heap, g⟩, .write i ys a from_ to ps vs hp hvs (by rw [hgo]; exact ⟨rfl, g1⟩) g2, by show g i ≠ _; rw [g1, hp]; simp⟩
  | passed vs => exact absurd rfl (h1 vs)
  | failed => exact absurd rfl h2

end bound

/-! ## Examples -/

/-- Function values are numbers: `k` tells whether the input is `k`, and `100` stores 2 in cell 1 of array 0 first. -/
def exApp : App Nat Nat := fun f v h =>
  if f = 100 then (.ok false, poke h (.arr 0 0) 1 [2]) else (.ok (f == v), h)

/-- An `Or` made from 1 and 3, then 3 is replaced by 2. -/
example : (or exApp ⟨.arr 0 0, 2, 2⟩ 3 [[1, 3]]).1 = .ok true ∧ (or exApp ⟨.arr 0 0, 2, 2⟩ 3 [[1, 2]]).1 = .ok false := by
  decide

/-- An element is read when its turn comes: 100 replaces the next one. -/
example : (or exApp ⟨.arr 0 0, 2, 2⟩ 2 [[100, 3]]).1 = .ok true := by decide

/-- `p.Or(fns...)` keeps a copy. -/
example : ∃ s h', withFns 0 1 ⟨.arr 0 0, 1, 1⟩ [[3]] = (.ok s, h') ∧ (or exApp s 3 (poke h' (.arr 0 0) 0 [2])).1 = .ok true :=
  ⟨_, _, rfl, by decide⟩

example : Valid ([[1, 3]] : Heap Nat) ⟨.arr 0 0, 2, 2⟩ := ⟨by decide, by decide, _, rfl, by decide⟩

/-- Two overlapping calls of a bound `func(int) int`: both copies are made before either placeholder is filled in. -/
example : ∃ (b : Bound small) (st : State small Bool),
    bind (.func (⟨[.str, .int], [.int], false⟩ : Sig small) fun _ => .ok [.int 7]) (.func ⟨[.int], [.int], false⟩)
      [.val (.str [1])] = .ok b ∧ Reach b st ∧
    st.calls true = some ([.int 5], .passed [some (.str [1]), some (.int 5)]) ∧
    st.calls false = some ([.int 6], .filling 2 [(0, 1)]) := by
  let b : Bound small := ⟨[some (.str [1]), none], [(0, 1)]⟩
  let c (p q : Option (List Val × Phase small)) : Bool → Option (List Val × Phase small) := fun i => if i then p else q
  let y5 : List Val := [.int 5]
  let y6 : List Val := [.int 6]
  have r1 : Reach b ⟨[b.values], c (some (y5, .begun)) none⟩ :=
    .step .init (.start true y5 rfl rfl rfl (fun j hj => by cases j <;> first | rfl | exact absurd rfl hj))
  have r2 : Reach b ⟨[b.values], c (some (y5, .begun)) (some (y6, .begun))⟩ :=
    .step r1 (.start false y6 rfl rfl rfl (fun j hj => by cases j <;> first | rfl | exact absurd rfl hj))
  have r3 : Reach b ⟨[b.values, b.values], c (some (y5, .filling 1 [(0, 1)])) (some (y6, .begun))⟩ :=
    .step r2 (.copy true y5 b.values rfl rfl rfl rfl (fun j hj => by cases j <;> first | rfl | exact absurd rfl hj))
  have r4 : Reach b ⟨[b.values, b.values, b.values], c (some (y5, .filling 1 [(0, 1)])) (some (y6, .filling 2 [(0, 1)]))⟩ :=
    .step r3 (.copy false y6 b.values rfl rfl rfl rfl (fun j hj => by cases j <;> first | rfl | exact absurd rfl hj))
  have r5 : Reach b ⟨[b.values, [some (.str [1]), some (.int 5)], b.values],
      c (some (y5, .filling 1 [])) (some (y6, .filling 2 [(0, 1)]))⟩ :=
    .step r4 (.write true y5 1 0 1 [] b.values rfl rfl ⟨rfl, rfl⟩
      (fun j hj => by cases j <;> first | rfl | exact absurd rfl hj))
  exact ⟨b, _, rfl, .step r5 (.pass (s' := ⟨_, c (some (y5, .passed [some (.str [1]), some (.int 5)]))
    (some (y6, .filling 2 [(0, 1)]))⟩) true y5 1 [some (.str [1]), some (.int 5)] rfl rfl rfl rfl
    (fun j hj => by cases j <;> first | rfl | exact absurd rfl hj)), rfl, rfl⟩

end Verif.Xfn.Kept
