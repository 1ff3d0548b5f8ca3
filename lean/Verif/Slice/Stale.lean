import Verif.Slice.Ops

/-!
# C111: iterators of a slice that has changed since

An `Iterator` holds a copy of the slice header. The specification keeps the cells of the storage the iterators were made
from, and the list in the slice variable: as long as the variable still uses that storage, the first cells are the list;
from the first time it grows beyond the storage they have nothing to do with each other.
-/

namespace Verif.Slice.Stale

open Verif.Iter Verif.Slice

variable {T : Type}
set_option linter.unusedSectionVars false

/-- Calls on a slice variable (the first seven), and calls on iterators at position `p` that were made from it at the
start. -/
inductive Call (T : Type) where
  | append (vs : List T)
  | insertAt (i : Int) (v : T)
  | delete (i : Int)
  | unorderedDelete (i : Int)
  | deleteLast
  | at (i : Int)
  | setAt (i : Int) (v : T)
  | get (p : Int)
  | set (p : Int) (v : T)
  | equal (p i : Int)
  | insert (p : Int) (v : T)

/-- What a call returns: nothing, an element, a truth value, an iterator at a position. -/
inductive Res (T : Type) where
  | done
  | elem (v : T)
  | bool (b : Bool)
  | pos (i : Int)

section model
variable [Inhabited T]

/-- A call that leaves the variable alone. -/
def onHeap {α : Type} (f : St (Heap T) α) : St (Mem T) α := fun m =>
  match f m.heap with
  | (r, h) => (r, { m with heap := h })

/-- One call; `s` is the slice at the start, `extra` the spare capacity if `append` makes a new array. `Append` and
`AppendMany` (ds/xslice/slice.go:37-43), `InsertAt` (57-59), `Delete` (45-47), `UnorderedDelete` (53-55), `DeleteLast`
(49-51), `At` (87-89), `Set` (91-93); on an iterator `Get` (ds/xslice/iterator.go:24-26), `Set` (28-30), `Equal` with
`IteratorAt(i)` (73-78, ds/xslice/slice.go:103-108), `Insert` of the variable (ds/xslice/slice.go:61-65). -/
def Call.run (s : Slice) (extra : Nat) : Call T → St (Mem T) (Res T)
  | .append vs => do
    onVar fun s => appendMany extra s vs
    return .done
  | .insertAt i v => do
    varInsertAt ⟨fun _ => extra⟩ i v
    return .done
  | .delete i => do
    varDelete i
    return .done
  | .unorderedDelete i => do
    varUnorderedDelete i
    return .done
  | .deleteLast => do
    varDeleteLast
    return .done
  | .at i => fun m => onHeap (do return .elem (← load m.var i)) m
  | .setAt i v => fun m => onHeap (do
      store m.var i v
      return .done) m
  | .get p => onHeap do return .elem (← Iter.get (⟨p, s⟩ : SIter T))
  | .set p v => onHeap do
      Iter.set (⟨p, s⟩ : SIter T) v
      return .done
  | .equal p i => fun m => (do
      let j ← iteratorAt (T := T) m.var i
      return .bool (← Iter.equal (S := Heap T) (T := T) (⟨p, s⟩ : SIter T) j), m)
  | .insert p v => do
    let it ← varInsert ⟨fun _ => extra⟩ ⟨p, s⟩ v
    return .pos it.pos

/-- A history. -/
def runAll (s : Slice) : List (Call T × Nat) → Mem T → List (Go (Res T)) × Mem T
  | [], m => ([], m)
  | (c, e) :: cs, m => (((c.run s e m).1) :: (runAll s cs (c.run s e m).2).1, (runAll s cs (c.run s e m).2).2)

end model

/-! ## Specification -/

/-- The cells the iterators refer to, and the list in the variable: the first `n` cells, or a list elsewhere. -/
structure Two (T : Type) where
  cells : List T
  cur : Nat ⊕ List T

/-- The list in the variable. -/
def Two.list (t : Two T) : List T :=
  match t.cur with
  | .inl n => t.cells.take n
  | .inr l => l

/-- The list becomes `new`. If it is in the cells and they suffice, it stays there, with `left` in the cells after it. -/
def Two.put (t : Two T) (new left : List T) : Two T :=
  match t.cur with
  | .inl _ =>
    if new.length + left.length ≤ t.cells.length then
      ⟨new ++ left ++ t.cells.drop (new.length + left.length), .inl new.length⟩
    else ⟨t.cells, .inr new⟩
  | .inr _ => ⟨t.cells, .inr new⟩

/-- A call, when the iterators were made from `n` elements. -/
def Two.call [Inhabited T] (n : Nat) (t : Two T) : Call T → Go (Res T) × Two T
  | .append vs => (.ok .done, t.put (t.list ++ vs) [])
  | .insertAt i v =>
    if 0 ≤ i ∧ i ≤ t.list.length then (.ok .done, t.put (t.list.insertIdx i.toNat v) [])
    else (.error "insert out of bound", t)
  | .delete i =>
    if 0 ≤ i ∧ i < t.list.length then (.ok .done, t.put (t.list.eraseIdx i.toNat) [t.list.getLastD default])
    else (.error "delete out of bound", t)
  | .unorderedDelete i =>
    if 0 ≤ i ∧ i < t.list.length then
      (.ok .done, t.put (t.list.set i.toNat (t.list.getLastD default)).dropLast [t.list[i.toNat]?.getD default])
    else (.error "delete out of bound", t)
  | .deleteLast =>
    if t.list.length = 0 then (.error "delete from empty slice", t)
    else (.ok .done, t.put t.list.dropLast [t.list.getLastD default])
  | .at i =>
    if 0 ≤ i ∧ i < t.list.length then (.ok (.elem (t.list[i.toNat]?.getD default)), t)
    else (.error "index out of range", t)
  | .setAt i v =>
    if 0 ≤ i ∧ i < t.list.length then (.ok .done, t.put (t.list.set i.toNat v) [])
    else (.error "index out of range", t)
  | .get p =>
    if 0 ≤ p ∧ p < n then (.ok (.elem (t.cells[p.toNat]?.getD default)), t) else (.error "index out of range", t)
  | .set p v =>
    if 0 ≤ p ∧ p < n then (.ok .done, { t with cells := t.cells.set p.toNat v }) else (.error "index out of range", t)
  | .equal p i =>
    if i < 0 ∨ t.list.length < i then (.error "out of bound", t)
    else match t.cur with
      | .inl _ => (.ok (.bool (decide (i = p))), t)
      | .inr _ => (.error "compare iterator of different slices", t)
  | .insert p v =>
    match t.cur with
    | .inl _ =>
      if 0 ≤ p ∧ p ≤ t.list.length then (.ok (.pos p), t.put (t.list.insertIdx p.toNat v) [])
      else (.error "insert out of bound", t)
    | .inr _ => (.error "iterator does not belongs to this slice", t)

/-- A history. -/
def specAll [Inhabited T] (n : Nat) : List (Call T × Nat) → Two T → List (Go (Res T)) × Two T
  | [], t => ([], t)
  | (c, _) :: cs, t => ((t.call n c).1 :: (specAll n cs (t.call n c).2).1, (specAll n cs (t.call n c).2).2)

/-- By how much the list may get longer. -/
def Call.adds : Call T → Nat
  | .append vs => vs.length
  | .insertAt _ _ | .insert _ _ => 1
  | _ => 0

/-- All lengths and capacities are Go `int`s. -/
def Fits [Inhabited T] (n : Nat) : List (Call T × Nat) → Two T → Prop
  | [], _ => True
  | (c, e) :: cs, t => ((t.list.length + c.adds + e : Nat) : Int) < 9223372036854775808 ∧ Fits n cs (t.call n c).2

/-! ## Proof -/

section proof
variable [Inhabited T]

/-- The slice with all of its capacity. -/
def full (s : Slice) : Slice := ⟨s.ptr, s.cap, s.cap⟩

theorem valid_len {h : Heap T} {s : Slice} (hv : Valid h s) {n : Nat} (hn : n ≤ s.cap) : Valid h ⟨s.ptr, n, s.cap⟩ :=
  ⟨hn, hv.2.1, hv.2.2⟩

theorem valid_full {h : Heap T} {s : Slice} (hv : Valid h s) : Valid h (full s) := valid_len hv (Nat.le_refl _)

theorem contents_len (h : Heap T) (p : Ptr) (n m c c' : Nat) (hn : n ≤ m) :
    contents h ⟨p, n, c⟩ = (contents h ⟨p, m, c'⟩).take n := by
  cases p with
  | nil => simp [contents]
  | zero => simp [contents]
  | arr a off => simp only [contents]; rw [List.take_take, Nat.min_eq_left hn]

/-- The memory fits the specification. -/
structure Rep (s : Slice) (m : Mem T) (t : Two T) : Prop where
  valid : Valid m.heap s
  cells : contents m.heap (full s) = t.cells
  cur : match t.cur with
    | .inl n => m.var = ⟨s.ptr, n, s.cap⟩ ∧ n ≤ s.cap
    | .inr l => Valid m.heap m.var ∧ contents m.heap m.var = l ∧ ∃ a, m.var.ptr = .arr a 0 ∧ ∀ off, s.ptr ≠ .arr a off

theorem Rep.length {s : Slice} {m : Mem T} {t : Two T} (r : Rep s m t) : t.cells.length = s.cap := by
  rw [← r.cells, length_contents (valid_full r.valid)]; rfl

theorem Rep.var {s : Slice} {m : Mem T} {t : Two T} (r : Rep s m t) :
    Valid m.heap m.var ∧ contents m.heap m.var = t.list := by
  have := r.cur
  unfold Two.list
  cases ht : t.cur with
  | inl n =>
    rw [ht] at this
    obtain ⟨e, hn⟩ := this
    rw [e]
    refine ⟨valid_len r.valid hn, ?_⟩
    dsimp only
    rw [← r.cells]
    exact contents_len _ _ _ _ _ _ hn
  | inr l =>
    rw [ht] at this
    exact ⟨this.1, this.2.1⟩

theorem Rep.len {s : Slice} {m : Mem T} {t : Two T} (r : Rep s m t) : t.list.length = m.var.len := by
  rw [← r.var.2, length_contents r.var.1]

theorem Rep.ptr {s : Slice} {m : Mem T} {t : Two T} (r : Rep s m t) :
    match t.cur with
    | .inl _ => m.var.ptr = s.ptr
    | .inr _ => m.var.ptr ≠ s.ptr := by
  have := r.cur
  cases ht : t.cur with
  | inl n => rw [ht] at this; rw [this.1]
  | inr l =>
    rw [ht] at this
    obtain ⟨_, _, a, e, hd⟩ := this
    rw [e]
    exact fun h => hd 0 h.symm

/-- Overwriting the first cells. -/
theorem full_upd {h h' : Heap T} {s : Slice} (hv : Valid h s) {k : Nat} (hk : k ≤ s.cap) (u : Upd (Win s k) h h')
    {X : List T} (hX : contents h' ⟨s.ptr, k, s.cap⟩ = X) :
    contents h' (full s) = X ++ (contents h (full s)).drop k := by
  rw [← List.take_append_drop k (contents h' (full s))]
  congr 1
  · rw [← hX]; exact (contents_len _ _ _ _ _ _ hk).symm
  · apply List.ext_getElem?
    intro j
    rw [List.getElem?_drop, List.getElem?_drop]
    unfold full contents
    cases hp : s.ptr with
    | nil => rfl
    | zero => rfl
    | arr a off =>
      obtain ⟨h1, h2, h3⟩ := hv
      rw [hp] at h3
      obtain ⟨A, hA, hl⟩ := h3
      obtain ⟨A', e, l, f⟩ := u a A hA
      simp only [e, hA, Option.getD_some]
      show (window A' off s.cap)[k + j]? = (window A off s.cap)[k + j]?
      rw [getElem?_window, getElem?_window]
      split
      · refine f _ ?_
        rintro ⟨off', e', h1, h2⟩
        rw [hp] at e'
        injection e' with e1 e2
        omega
      · rfl

/-- The variable changed within its capacity. -/
theorem Rep.put_in {s : Slice} {m : Mem T} {t : Two T} (r : Rep s m t) {h' : Heap T} {s' : Slice} {new left : List T}
    (hv' : Valid h' s') (hc : contents h' s' = new) (hp : s'.ptr = m.var.ptr) (hcap : s'.cap = m.var.cap)
    (hk : new.length + left.length ≤ m.var.cap) (u : Upd (Win m.var (new.length + left.length)) m.heap h')
    (hX : contents h' ⟨m.var.ptr, new.length + left.length, m.var.cap⟩ = new ++ left) :
    Rep s ⟨h', s'⟩ (t.put new left) := by
  have hlen : s'.len = new.length := by rw [← hc, length_contents hv']
  have hs' : s' = ⟨m.var.ptr, new.length, m.var.cap⟩ := by rw [← hp, ← hcap, ← hlen]
  have := r.cur
  unfold Two.put
  cases ht : t.cur with
  | inl n =>
    rw [ht] at this
    obtain ⟨e, hn⟩ := this
    have ep : m.var.ptr = s.ptr := by rw [e]
    have ec : m.var.cap = s.cap := by rw [e]
    rw [ep, ec] at hs' hX
    rw [ec] at hk
    dsimp only
    rw [if_pos (by rw [r.length]; exact hk)]
    have u' : Upd (Win s (new.length + left.length)) m.heap h' := u.mono fun a k _ hw => by
      obtain ⟨off, h1, h2⟩ := hw
      exact ⟨off, by rw [← ep]; exact h1, h2⟩
    refine ⟨u.valid r.valid, ?_, ?_⟩
    · dsimp only
      rw [full_upd r.valid hk u' hX, r.cells]
    · exact ⟨hs', by omega⟩
  | inr l =>
    rw [ht] at this
    obtain ⟨hv, hl, a, e, hd⟩ := this
    refine ⟨u.valid r.valid, ?_, hv', hc, a, by rw [hp]; exact e, hd⟩
    dsimp only
    rw [← r.cells]
    refine u.contents (valid_full r.valid) ?_
    rintro b k ⟨off, e1, _⟩ ⟨off', e2, _⟩
    rw [e] at e2
    injection e2 with e2 e3
    subst e2
    exact hd off e1

/-- The variable got a new array. -/
theorem Rep.put_new {s : Slice} {m : Mem T} {t : Two T} (r : Rep s m t) {h' : Heap T} {s' : Slice} {new : List T}
    (hv' : Valid h' s') (hc : contents h' s' = new) (hp : s'.ptr = .arr m.heap.length 0)
    (hk : m.var.cap < new.length) (u : Upd (fun _ _ => False) m.heap h') :
    Rep s ⟨h', s'⟩ (t.put new []) := by
  have hcells : contents h' (full s) = t.cells := by
    rw [← r.cells]
    exact u.contents (valid_full r.valid) fun _ _ _ h => h
  have hd : ∀ off, s.ptr ≠ .arr m.heap.length off := by
    intro off e
    have := r.valid.2.2
    rw [e] at this
    obtain ⟨A, hA, -⟩ := this
    have := (List.getElem?_eq_some_iff.1 hA).1
    omega
  have := r.cur
  unfold Two.put
  cases ht : t.cur with
  | inl n =>
    rw [ht] at this
    obtain ⟨e, hn⟩ := this
    have ec : m.var.cap = s.cap := by rw [e]
    dsimp only
    rw [if_neg (by rw [r.length]; simp; omega)]
    exact ⟨u.valid r.valid, hcells, hv', hc, _, hp, hd⟩
  | inr l => exact ⟨u.valid r.valid, hcells, hv', hc, _, hp, hd⟩

theorem onVar_ok {f : Slice → St (Heap T) Slice} {m : Mem T} {s' : Slice} {h' : Heap T}
    (e : f m.var m.heap = (.ok s', h')) : onVar f m = (.ok (), ⟨h', s'⟩) := by
  unfold onVar; rw [e]

theorem onVar_err {f : Slice → St (Heap T) Slice} {m : Mem T} {msg : String}
    (e : f m.var m.heap = (.error msg, m.heap)) : onVar f m = (.error msg, m) := by
  unfold onVar; rw [e]

/-- `InsertAt`. -/
theorem rep_insertAt {s : Slice} {m : Mem T} {t : Two T} (r : Rep s m t) (extra : Nat) (i : Int) (v : T)
    (hb : ((t.list.length + 1 + extra : Nat) : Int) < 9223372036854775808) :
    (0 ≤ i ∧ i ≤ t.list.length → ∃ m', varInsertAt ⟨fun _ => extra⟩ i v m = (.ok (), m') ∧
      Rep s m' (t.put (t.list.insertIdx i.toNat v) [])) ∧
    (¬ (0 ≤ i ∧ i ≤ t.list.length) → varInsertAt ⟨fun _ => extra⟩ i v m = (.error "insert out of bound", m)) := by
  have hl := r.len
  obtain ⟨hv, hc⟩ := r.var
  constructor
  · rintro ⟨h0, h1⟩
    obtain ⟨s', h', e, hv', hl', hc', hin, hout⟩ := insert_spec extra hv v (i := i.toNat) (by omega) (by omega)
    rw [show ((i.toNat : Nat) : Int) = i by omega] at e
    refine ⟨_, onVar_ok e, ?_⟩
    rw [hc] at hc'
    have hlen : (t.list.insertIdx i.toNat v).length = m.var.len + 1 := by
      rw [List.length_insertIdx, if_pos (by omega), hl]
    by_cases hcap : m.var.len + 1 ≤ m.var.cap
    · obtain ⟨p1, p2, u⟩ := hin hcap
      refine r.put_in hv' hc' p1 p2 (by rw [hlen]; simpa using hcap) (by rw [hlen]; exact u) ?_
      rw [List.append_nil, hlen, ← hc', ← p1, ← p2]
      show contents h' ⟨s'.ptr, m.var.len + 1, s'.cap⟩ = contents h' s'
      rw [← hl']
    · obtain ⟨p1, u⟩ := hout (by omega)
      exact r.put_new hv' hc' p1 (by omega) u
  · intro hi
    refine onVar_err ?_
    unfold Slice.insert
    rw [if_pos (by omega)]
    rfl

theorem getLastD_eq (l : List T) : l.getLastD default = l[l.length - 1]?.getD default := by
  rw [List.getLastD_eq_getLast?, List.getLast?_eq_getElem?]

theorem contents_split {h : Heap T} {s : Slice} (hv : Valid h s) (hs : 0 < s.len) {new : List T} {x : T} {c : Nat}
    (h1 : contents h ⟨s.ptr, s.len - 1, c⟩ = new) (h2 : (contents h s)[s.len - 1]? = some x) :
    contents h s = new ++ [x] := by
  have hL := length_contents hv
  rw [← h1, contents_len h s.ptr (s.len - 1) s.len c s.cap (by omega)]
  show contents h s = (contents h s).take (s.len - 1) ++ [x]
  apply List.ext_getElem?
  intro k
  have e : ((contents h s).take (s.len - 1)).length = s.len - 1 := by rw [List.length_take]; omega
  rw [List.getElem?_append, e, List.getElem?_take]
  split
  · rfl
  · by_cases hk : k = s.len - 1
    · subst hk; simpa using h2
    · rw [List.getElem?_eq_none (by omega), List.getElem?_eq_none (by simp; omega)]

/-- An operation that drops an element. -/
theorem Rep.put_less {s : Slice} {m : Mem T} {t : Two T} (r : Rep s m t) {h' : Heap T} {s' : Slice} {new : List T} {x : T}
    (hpos : 0 < m.var.len)
    (hv' : Valid h' s') (hl' : s'.len = m.var.len - 1) (hcap : s'.cap = m.var.cap) (hp : s'.ptr = m.var.ptr)
    (hc : contents h' s' = new) (u : Upd (Win m.var m.var.len) m.heap h')
    (hx : (contents h' m.var)[m.var.len - 1]? = some x) : Rep s ⟨h', s'⟩ (t.put new [x]) := by
  have hn : new.length = m.var.len - 1 := by rw [← hc, length_contents hv', hl']
  have hk : new.length + [x].length = m.var.len := by simp; omega
  have hv := r.var.1
  refine r.put_in hv' hc hp hcap (by rw [hk]; exact hv.1) (by rw [hk]; exact u) ?_
  rw [hk]
  show contents h' m.var = _
  refine contents_split (u.valid hv) hpos (c := s'.cap) ?_ hx
  rw [← hp, ← hl']
  exact hc

theorem run_call {s : Slice} {m : Mem T} {t : Two T} (r : Rep s m t) (hs : s.len ≤ s.cap) (c : Call T) (extra : Nat)
    (hb : ((t.list.length + c.adds + extra : Nat) : Int) < 9223372036854775808) :
    ∃ m', c.run s extra m = ((t.call s.len c).1, m') ∧ Rep s m' (t.call s.len c).2 := by
  have hl := r.len
  obtain ⟨hv, hc⟩ := r.var
  have hL := length_contents hv
  cases c with
  | append vs =>
    obtain ⟨s', h', e, hv', hl', hc', hin, hout⟩ := appendMany_spec extra hv vs (by simpa [hl, Call.adds] using hb)
    rw [hc] at hc'
    refine ⟨_, by simp only [Call.run]; rw [St.bind_ok (onVar_ok e)]; rfl, ?_⟩
    have hlen : (t.list ++ vs).length = m.var.len + vs.length := by simp [hl]
    by_cases hcap : m.var.len + vs.length ≤ m.var.cap
    · obtain ⟨p1, p2, u⟩ := hin hcap
      refine r.put_in hv' hc' p1 p2 (by rw [hlen]; simpa using hcap) (u.mono ?_) ?_
      · rintro a k - ⟨off, e, h1, h2⟩
        exact ⟨off, e, by omega, by rw [hlen]; simp; omega⟩
      · rw [List.append_nil, ← hc', ← p1, ← p2, hc', hlen]
        show contents h' ⟨s'.ptr, m.var.len + vs.length, s'.cap⟩ = _
        rw [← hl']
        exact hc'
    · obtain ⟨p1, u⟩ := hout (by omega)
      exact r.put_new hv' hc' p1 (by omega) u
  | insertAt i v =>
    obtain ⟨h1, h2⟩ := rep_insertAt r extra i v hb
    by_cases hi : 0 ≤ i ∧ i ≤ t.list.length
    · obtain ⟨m', e, r'⟩ := h1 hi
      simp only [Two.call, if_pos hi]
      exact ⟨m', by simp only [Call.run]; rw [St.bind_ok e]; rfl, r'⟩
    · simp only [Two.call, if_neg hi]
      exact ⟨m, by simp only [Call.run]; rw [St.bind_error (h2 hi)], r⟩
  | delete i =>
    by_cases hi : 0 ≤ i ∧ i < t.list.length
    · obtain ⟨s', h', e, hv', hl', hcap, hp, hc', u, hx⟩ := delete_spec' hv (i := i.toNat) (by omega)
      rw [show ((i.toNat : Nat) : Int) = i by omega] at e
      simp only [Two.call, if_pos hi]
      refine ⟨_, by simp only [Call.run, varDelete]; rw [St.bind_ok (onVar_ok (f := fun s => Slice.delete s i) e)]; rfl, ?_⟩
      refine r.put_less (by omega) hv' hl' hcap hp (by rw [hc', hc]) u ?_
      rw [hx, hc, getLastD_eq, hl, List.getElem?_eq_getElem (by omega)]
      rfl
    · simp only [Two.call, if_neg hi]
      refine ⟨m, ?_, r⟩
      have e : Slice.delete m.var i m.heap = (.error "delete out of bound", m.heap) := by
        unfold Slice.delete; rw [if_pos (by omega)]; rfl
      simp only [Call.run, varDelete]
      rw [St.bind_error (onVar_err (f := fun s => Slice.delete s i) e)]
  | unorderedDelete i =>
    by_cases hi : 0 ≤ i ∧ i < t.list.length
    · obtain ⟨s', h', e, hv', hl', hcap, hp, hc', u, hx⟩ := unorderedDelete_spec' hv (i := i.toNat) (by omega)
      rw [show ((i.toNat : Nat) : Int) = i by omega] at e
      simp only [Two.call, if_pos hi]
      refine ⟨_, by simp only [Call.run, varUnorderedDelete]; rw [St.bind_ok (onVar_ok (f := fun s => Slice.unorderedDelete s i) e)]; rfl, ?_⟩
      refine r.put_less (by omega) hv' hl' hcap hp (by rw [hc', hc, getLastD_eq, hl]) u ?_
      rw [hx, hc, List.getElem?_eq_getElem (by omega)]
      rfl
    · simp only [Two.call, if_neg hi]
      refine ⟨m, ?_, r⟩
      have e : Slice.unorderedDelete m.var i m.heap = (.error "delete out of bound", m.heap) := by
        unfold Slice.unorderedDelete; rw [if_pos (by omega)]; rfl
      simp only [Call.run, varUnorderedDelete]
      rw [St.bind_error (onVar_err (f := fun s => Slice.unorderedDelete s i) e)]
  | deleteLast =>
    by_cases hi : t.list.length = 0
    · simp only [Two.call, if_pos hi]
      refine ⟨m, ?_, r⟩
      have e : Slice.deleteLast m.var m.heap = (.error "delete from empty slice", m.heap) := by
        unfold Slice.deleteLast; rw [if_pos (by omega)]; rfl
      simp only [Call.run, varDeleteLast]
      rw [St.bind_error (onVar_err (f := fun s => Slice.deleteLast s) e)]
    · obtain ⟨s', e, hv', hl', hcap, hp, hc'⟩ := deleteLast_spec hv (by omega)
      simp only [Two.call, if_neg hi]
      refine ⟨_, by simp only [Call.run, varDeleteLast]; rw [St.bind_ok (onVar_ok (f := fun s => Slice.deleteLast s) e)]; rfl, ?_⟩
      refine r.put_less (by omega) hv' hl' hcap hp (by rw [hc', hc]) (Upd.refl _ _) ?_
      rw [hc, getLastD_eq, hl, List.getElem?_eq_getElem (by omega)]
      rfl
  | «at» i =>
    by_cases hi : 0 ≤ i ∧ i < t.list.length
    · simp only [Two.call, if_pos hi]
      refine ⟨m, ?_, r⟩
      obtain ⟨x, hx⟩ : ∃ x, t.list[i.toNat]? = some x := ⟨_, List.getElem?_eq_getElem (by omega)⟩
      have e : load m.var i m.heap = (.ok x, m.heap) := by
        have := load_ok (h := m.heap) (s := m.var) (i := i.toNat) (x := x) (by rw [hc]; exact hx)
        rwa [show ((i.toNat : Nat) : Int) = i by omega] at this
      simp only [Call.run, onHeap]
      rw [St.bind_ok e, hx]
      rfl
    · simp only [Two.call, if_neg hi]
      refine ⟨m, ?_, r⟩
      have e : load m.var i m.heap = (.error "index out of range", m.heap) := by
        unfold load
        by_cases h0 : 0 ≤ i
        · rw [if_pos h0, List.getElem?_eq_none (by omega)]
        · rw [if_neg h0]
      simp only [Call.run, onHeap]
      rw [St.bind_error e]
  | setAt i v =>
    by_cases hi : 0 ≤ i ∧ i < t.list.length
    · simp only [Two.call, if_pos hi]
      have e : store m.var i v m.heap = (.ok (), poke m.heap m.var.ptr i.toNat [v]) := by
        unfold store; rw [if_pos (by omega)]
      refine ⟨⟨poke m.heap m.var.ptr i.toNat [v], m.var⟩, ?_, ?_⟩
      · simp only [Call.run, onHeap]
        rw [St.bind_ok e]; rfl
      · have u : Upd (Win m.var m.var.len) m.heap (poke m.heap m.var.ptr i.toNat [v]) :=
          poke_win hv (by simp; omega) hv.1
        have hlen : (t.list.set i.toNat v).length = m.var.len := by simp [hl]
        have hc' : contents (poke m.heap m.var.ptr i.toNat [v]) m.var = t.list.set i.toNat v := by
          rw [poke_contents hv (by simp; omega), splice_singleton _ (by omega), hc]
        refine r.put_in (u.valid hv) hc' rfl rfl (by rw [hlen]; exact hv.1) (by rw [hlen]; exact u) ?_
        rw [hlen, List.append_nil]
        exact hc'
    · simp only [Two.call, if_neg hi]
      refine ⟨m, ?_, r⟩
      have e : store m.var i v m.heap = (.error "index out of range", m.heap) := by
        unfold store; rw [if_neg (by omega)]
      simp only [Call.run, onHeap]
      rw [St.bind_error e]
  | get p =>
    have hcs : contents m.heap s = t.cells.take s.len := by
      rw [← r.cells]; exact contents_len _ _ _ _ _ _ hs
    have hcl : (contents m.heap s).length = s.len := length_contents r.valid
    by_cases hi : 0 ≤ p ∧ p < s.len
    · simp only [Two.call, if_pos hi]
      refine ⟨m, ?_, r⟩
      obtain ⟨x, hx⟩ : ∃ x, t.cells[p.toNat]? = some x := ⟨_, List.getElem?_eq_getElem (by rw [r.length]; omega)⟩
      have e : load s p m.heap = (.ok x, m.heap) := by
        have := load_ok (h := m.heap) (s := s) (i := p.toNat) (x := x) (by
          rw [hcs, List.getElem?_take, if_pos (by omega)]; exact hx)
        rwa [show ((p.toNat : Nat) : Int) = p by omega] at this
      simp only [Call.run, onHeap]
      rw [St.bind_ok (m := Iter.get (⟨p, s⟩ : SIter T)) e, hx]
      rfl
    · simp only [Two.call, if_neg hi]
      refine ⟨m, ?_, r⟩
      have e : load s p m.heap = (.error "index out of range", m.heap) := by
        unfold load
        by_cases h0 : 0 ≤ p
        · rw [if_pos h0, List.getElem?_eq_none (by omega)]
        · rw [if_neg h0]
      simp only [Call.run, onHeap]
      rw [St.bind_error (m := Iter.get (⟨p, s⟩ : SIter T)) e]
  | set p v =>
    by_cases hi : 0 ≤ p ∧ p < s.len
    · simp only [Two.call, if_pos hi]
      have e : store s p v m.heap = (.ok (), poke m.heap s.ptr p.toNat [v]) := by
        unfold store; rw [if_pos (by omega)]
      refine ⟨⟨poke m.heap s.ptr p.toNat [v], m.var⟩, ?_, ?_⟩
      · simp only [Call.run, onHeap]
        rw [St.bind_ok (m := Iter.set (⟨p, s⟩ : SIter T) v) e]; rfl
      · have u : Upd (Win s s.cap) m.heap (poke m.heap s.ptr p.toNat [v]) :=
          poke_win r.valid (by simp; omega) (Nat.le_refl _)
        refine ⟨u.valid r.valid, ?_, ?_⟩
        · show contents (poke m.heap (full s).ptr p.toNat [v]) (full s) = t.cells.set p.toNat v
          have hfl : (full s).len = s.cap := rfl
          rw [poke_contents (valid_full r.valid) (by rw [hfl]; simp; omega), r.cells,
            splice_singleton _ (by rw [r.length]; omega)]
        · have := r.cur
          cases ht : t.cur with
          | inl n => rw [ht] at this; exact this
          | inr l =>
            rw [ht] at this
            obtain ⟨hv, hl, a, e, hd⟩ := this
            refine ⟨u.valid hv, ?_, a, e, hd⟩
            rw [← hl]
            refine u.contents hv ?_
            rintro b k ⟨off, e1, _⟩ ⟨off', e2, _⟩
            rw [e] at e1
            injection e1 with e1
            subst e1
            exact hd _ e2
    · simp only [Two.call, if_neg hi]
      refine ⟨m, ?_, r⟩
      have e : store s p v m.heap = (.error "index out of range", m.heap) := by
        unfold store; rw [if_neg (by omega)]
      simp only [Call.run, onHeap]
      rw [St.bind_error (m := Iter.set (⟨p, s⟩ : SIter T) v) e]
  | equal p i =>
    refine ⟨m, ?_, ?_⟩
    · simp only [Call.run, Two.call, iteratorAt]
      by_cases hi : i < 0 ∨ t.list.length < i
      · rw [if_pos hi, if_pos (by omega)]; rfl
      · rw [if_neg hi, if_neg (by omega)]
        have hp := r.ptr
        have he : Iter.equal (S := Heap T) (T := T) (⟨p, s⟩ : SIter T) (⟨i, m.var⟩ : SIter T) =
            (if !referenceEqual s m.var then .error "compare iterator of different slices" else .ok (decide (i = p))) := rfl
        show (do
          let b ← Iter.equal (S := Heap T) (T := T) (⟨p, s⟩ : SIter T) (⟨i, m.var⟩ : SIter T)
          return Res.bool b, m) = _
        rw [he]
        cases ht : t.cur with
        | inl n =>
          rw [ht] at hp
          rw [if_neg (by simp [referenceEqual, hp])]
          rfl
        | inr l =>
          rw [ht] at hp
          have : ¬ s.ptr = m.var.ptr := fun h => hp h.symm
          rw [if_pos (by simp [referenceEqual, this])]
          rfl
    · simp only [Two.call]
      split
      · exact r
      · split <;> exact r
  | insert p v =>
    have hp := r.ptr
    cases ht : t.cur with
    | inl n =>
      rw [ht] at hp
      obtain ⟨h1, h2⟩ := rep_insertAt r extra p v hb
      simp only [Two.call, ht, Call.run]
      have hre : (!referenceEqual m.var (⟨p, s⟩ : SIter T).s) = false := by simp [referenceEqual, hp]
      by_cases hi : 0 ≤ p ∧ p ≤ t.list.length
      · obtain ⟨m', e, r'⟩ := h1 hi
        rw [if_pos hi]
        refine ⟨m', ?_, r'⟩
        have e' : varInsert ⟨fun _ => extra⟩ (⟨p, s⟩ : SIter T) v m = (.ok ⟨p, m'.var⟩, m') := by
          unfold varInsert
          rw [hre, if_neg (by decide)]
          dsimp only
          rw [e]
        rw [St.bind_ok e']
        rfl
      · rw [if_neg hi]
        refine ⟨m, ?_, r⟩
        have e' : varInsert ⟨fun _ => extra⟩ (⟨p, s⟩ : SIter T) v m = (.error "insert out of bound", m) := by
          unfold varInsert
          rw [hre, if_neg (by decide)]
          dsimp only
          rw [h2 hi]
        rw [St.bind_error e']
    | inr l =>
      rw [ht] at hp
      simp only [Two.call, ht, Call.run]
      refine ⟨m, ?_, r⟩
      have e' : varInsert ⟨fun _ => extra⟩ (⟨p, s⟩ : SIter T) v m =
          (.error "iterator does not belongs to this slice", m) := by
        unfold varInsert
        rw [if_pos (by simp [referenceEqual, hp])]
      rw [St.bind_error e']

theorem run_all {s : Slice} (hs : s.len ≤ s.cap) (cs : List (Call T × Nat)) : ∀ {m : Mem T} {t : Two T}, Rep s m t →
    Fits s.len cs t → (runAll s cs m).1 = (specAll s.len cs t).1 ∧ Rep s (runAll s cs m).2 (specAll s.len cs t).2 := by
  induction cs with
  | nil => intro m t r _; exact ⟨rfl, r⟩
  | cons c cs ih =>
    obtain ⟨c, e⟩ := c
    intro m t r hf
    obtain ⟨hb, hf⟩ := hf
    obtain ⟨m', e1, r'⟩ := run_call r hs c e hb
    obtain ⟨h1, h2⟩ := ih r' hf
    simp only [runAll, specAll, e1]
    exact ⟨by rw [h1], h2⟩

/-- The start: the iterators are those of the slice in the variable. -/
def start (h : Heap T) (s : Slice) : Two T := ⟨contents h ⟨s.ptr, s.cap, s.cap⟩, .inl s.len⟩

/-- **C111.** Every history of calls on the variable and on iterators made at its start, whatever capacities `append`
chooses, does what the specification says: results, panics, list and storage. -/
theorem C111_iterators (h : Heap T) (s : Slice) (hv : Valid h s) (cs : List (Call T × Nat))
    (hf : Fits s.len cs (start h s)) :
    (runAll s cs ⟨h, s⟩).1 = (specAll s.len cs (start h s)).1 ∧
    contents (runAll s cs ⟨h, s⟩).2.heap (runAll s cs ⟨h, s⟩).2.var = (specAll s.len cs (start h s)).2.list ∧
    contents (runAll s cs ⟨h, s⟩).2.heap ⟨s.ptr, s.cap, s.cap⟩ = (specAll s.len cs (start h s)).2.cells := by
  have r0 : Rep s ⟨h, s⟩ (start h s) := ⟨hv, rfl, rfl, hv.1⟩
  obtain ⟨h1, r⟩ := run_all hv.1 cs r0 hf
  exact ⟨h1, r.var.2, r.cells⟩

/-! ## Attached and detached iterators -/

theorem specAll_append (n : Nat) (cs ds : List (Call T × Nat)) : ∀ t : Two T,
    (specAll n (cs ++ ds) t).2 = (specAll n ds (specAll n cs t).2).2 := by
  induction cs with
  | nil => intro t; rfl
  | cons c cs ih => intro t; exact ih _

theorem runAll_append (s : Slice) (cs ds : List (Call T × Nat)) : ∀ m : Mem T,
    (runAll s (cs ++ ds) m).2 = (runAll s ds (runAll s cs m).2).2 := by
  induction cs with
  | nil => intro m; rfl
  | cons c cs ih => intro m; exact ih _

theorem fits_append (n : Nat) (cs ds : List (Call T × Nat)) : ∀ t : Two T,
    Fits n (cs ++ ds) t ↔ Fits n cs t ∧ Fits n ds (specAll n cs t).2 := by
  induction cs with
  | nil => intro t; exact ⟨fun h => ⟨trivial, h⟩, fun h => h.2⟩
  | cons c cs ih =>
    intro t
    obtain ⟨c, e⟩ := c
    simp only [List.cons_append, Fits, ih, specAll]
    exact and_assoc.symm

/-- The list is in the cells. -/
def Two.shared (t : Two T) : Prop := ∃ n, t.cur = .inl n ∧ n ≤ t.cells.length

theorem put_shared {t : Two T} (h : t.shared) (new left : List T) (hl : left = [] ∨ new.length + left.length = t.list.length) :
    ((t.put new left).shared ↔ (t.put new left).list.length ≤ t.cells.length) ∧
      (t.put new left).cells.length = t.cells.length := by
  obtain ⟨n, e, hn⟩ := h
  have hll : t.list.length ≤ t.cells.length := by unfold Two.list; rw [e]; simp; omega
  unfold Two.put
  rw [e]
  dsimp only
  by_cases hc : new.length + left.length ≤ t.cells.length
  · rw [if_pos hc]
    have hlen : (new ++ left ++ t.cells.drop (new.length + left.length)).length = t.cells.length := by
      simp; omega
    refine ⟨⟨fun _ => ?_, fun _ => ⟨_, rfl, ?_⟩⟩, hlen⟩
    · simp only [Two.list, List.length_take]; omega
    · show new.length ≤ (new ++ left ++ t.cells.drop (new.length + left.length)).length
      omega
  · rw [if_neg hc]
    refine ⟨⟨?_, ?_⟩, rfl⟩
    · rintro ⟨n', e', -⟩; cases e'
    · intro hle
      exfalso
      have : new.length ≤ t.cells.length := hle
      rcases hl with rfl | hl
      · simp at hc; omega
      · omega

/-- A call keeps the list in the cells exactly if they suffice for it. -/
theorem call_shared {t : Two T} (h : t.shared) (n : Nat) (c : Call T) :
    ((t.call n c).2.shared ↔ (t.call n c).2.list.length ≤ t.cells.length) ∧
      (t.call n c).2.cells.length = t.cells.length := by
  have hll : t.list.length ≤ t.cells.length := by
    obtain ⟨k, e, hk⟩ := h
    unfold Two.list; rw [e]; simp; omega
  have same : (t.shared ↔ t.list.length ≤ t.cells.length) ∧ t.cells.length = t.cells.length :=
    ⟨⟨fun _ => hll, fun _ => h⟩, rfl⟩
  cases c with
  | append vs => exact put_shared h _ _ (.inl rfl)
  | insertAt i v =>
    unfold Two.call
    dsimp only
    split
    · exact put_shared h _ _ (.inl rfl)
    · exact same
  | delete i =>
    unfold Two.call
    dsimp only
    split
    · rename_i hi
      refine put_shared h _ _ (.inr ?_)
      rw [List.length_eraseIdx, if_pos (by omega)]; simp; omega
    · exact same
  | unorderedDelete i =>
    unfold Two.call
    dsimp only
    split
    · rename_i hi
      refine put_shared h _ _ (.inr ?_)
      simp; omega
    · exact same
  | deleteLast =>
    unfold Two.call
    dsimp only
    split
    · exact same
    · rename_i hi
      refine put_shared h _ _ (.inr ?_)
      simp; omega
  | «at» i =>
    unfold Two.call
    dsimp only
    split <;> exact same
  | setAt i v =>
    unfold Two.call
    dsimp only
    split
    · exact put_shared h _ _ (.inl rfl)
    · exact same
  | get p =>
    unfold Two.call
    dsimp only
    split <;> exact same
  | set p v =>
    unfold Two.call
    dsimp only
    split
    · obtain ⟨k, e, hk⟩ := h
      refine ⟨⟨fun _ => ?_, fun _ => ⟨k, e, by simpa using hk⟩⟩, by simp⟩
      simp only [Two.list, e]
      simp
      omega
    · exact same
  | equal p i =>
    unfold Two.call
    dsimp only
    split
    · exact same
    · split <;> exact same
  | insert p v =>
    unfold Two.call
    dsimp only
    split
    · split
      · exact put_shared h _ _ (.inl rfl)
      · exact same
    · exact same

/-- What a call does to a list elsewhere: it stays there; the cells change only by `Set` through an iterator, and that
leaves the list alone, as do the other calls on iterators. -/
theorem call_apart {t : Two T} {l : List T} (h : t.cur = .inr l) (n : Nat) (c : Call T) :
    (∃ l', (t.call n c).2.cur = .inr l') ∧ ((∀ p v, c ≠ .set p v) → (t.call n c).2.cells = t.cells) ∧
      ((∃ p, c = .get p) ∨ (∃ p v, c = .set p v) ∨ (∃ p i, c = .equal p i) ∨ (∃ p v, c = .insert p v) →
        (t.call n c).2.list = t.list) := by
  have hput : ∀ new left, t.put new left = ⟨t.cells, .inr new⟩ := fun new left => by unfold Two.put; rw [h]
  cases c with
  | set p v =>
    unfold Two.call
    dsimp only
    split
    · refine ⟨⟨l, h⟩, fun hn => absurd rfl (hn p v), fun _ => ?_⟩
      simp only [Two.list, h]
    · exact ⟨⟨l, h⟩, fun _ => rfl, fun _ => rfl⟩
  | insert p v =>
    unfold Two.call
    rw [h]
    exact ⟨⟨l, h⟩, fun _ => rfl, fun _ => rfl⟩
  | equal p i =>
    unfold Two.call
    rw [h]
    dsimp only
    split <;> exact ⟨⟨l, h⟩, fun _ => rfl, fun _ => rfl⟩
  | get p =>
    unfold Two.call
    dsimp only
    split <;> exact ⟨⟨l, h⟩, fun _ => rfl, fun _ => rfl⟩
  | append vs =>
    have e : t.call n (.append vs) = (.ok .done, ⟨t.cells, .inr (t.list ++ vs)⟩) := by simp only [Two.call, hput]
    rw [e]
    refine ⟨⟨_, rfl⟩, fun _ => rfl, ?_⟩
    rintro (⟨_, h⟩ | ⟨_, _, h⟩ | ⟨_, _, h⟩ | ⟨_, _, h⟩) <;> cases h
  | _ =>
    unfold Two.call
    try simp only [hput]
    first
      | done
      | split <;> refine ⟨⟨_, by first | exact h | rfl⟩, fun _ => rfl, ?_⟩ <;>
          (rintro (⟨_, h⟩ | ⟨_, _, h⟩ | ⟨_, _, h⟩ | ⟨_, _, h⟩) <;> cases h)

theorem spec_shared_iff (n : Nat) (cs : List (Call T × Nat)) : ∀ t : Two T, t.shared →
    ((specAll n cs t).2.shared ↔ ∀ k, (specAll n (cs.take k) t).2.list.length ≤ t.cells.length) := by
  have apart : ∀ (cs : List (Call T × Nat)) (t : Two T), ¬ t.shared → (∃ l, t.cur = .inr l) → ¬ (specAll n cs t).2.shared := by
    intro cs
    induction cs with
    | nil => intro t h _; exact h
    | cons c cs ih =>
      rintro t - ⟨l, e⟩
      obtain ⟨⟨l', e'⟩, -⟩ := call_apart e n c.1
      refine ih _ ?_ ⟨l', e'⟩
      rintro ⟨_, e2, _⟩
      have e3 := e'.symm.trans e2
      cases e3
  have hll : ∀ t : Two T, t.shared → t.list.length ≤ t.cells.length := by
    rintro t ⟨k, e, hk⟩
    unfold Two.list; rw [e]; simp; omega
  induction cs with
  | nil =>
    intro t h
    refine ⟨fun _ k => ?_, fun _ => h⟩
    rw [List.take_nil]
    exact hll t h
  | cons c cs ih =>
    intro t h
    obtain ⟨h1, h2⟩ := call_shared h n c.1
    by_cases hs : (t.call n c.1).2.shared
    · have := ih _ hs
      rw [h2] at this
      refine this.trans ⟨fun hk k => ?_, fun hk k => hk (k + 1)⟩
      cases k with
      | zero => exact hll t h
      | succ k => exact hk k
    · refine ⟨fun hc => absurd hc (apart cs _ hs ?_), fun hk => absurd (h1.2 (hk 1)) hs⟩
      cases e : (t.call n c.1).2.cur with
      | inr l => exact ⟨l, rfl⟩
      | inl k =>
        exfalso
        -- a list in the cells fits
        refine hs ?_
        refine h1.2 ?_
        unfold Two.list
        rw [e]
        dsimp only
        rw [List.length_take]
        omega

theorem Rep.shared_iff {s : Slice} {m : Mem T} {t : Two T} (r : Rep s m t) : t.shared ↔ m.var.ptr = s.ptr := by
  have hp := r.ptr
  have hc := r.cur
  cases e : t.cur with
  | inl n =>
    rw [e] at hp hc
    exact ⟨fun _ => hp, fun _ => ⟨n, e, by rw [r.length]; exact hc.2⟩⟩
  | inr l =>
    rw [e] at hp
    refine ⟨?_, fun h => absurd h hp⟩
    rintro ⟨n, e', _⟩
    rw [e] at e'
    cases e'

/-- **C111.** The iterators belong to the variable's slice (`Insert` takes them, `Equal` compares them) exactly as long as
the list has never been longer than the capacity there was at the start. -/
theorem C111_belongs_iff (h : Heap T) (s : Slice) (hv : Valid h s) (cs : List (Call T × Nat))
    (hf : Fits s.len cs (start h s)) :
    referenceEqual (runAll s cs ⟨h, s⟩).2.var s = true ↔
      ∀ k, (contents (runAll s (cs.take k) ⟨h, s⟩).2.heap (runAll s (cs.take k) ⟨h, s⟩).2.var).length ≤ s.cap := by
  have r0 : Rep s ⟨h, s⟩ (start h s) := ⟨hv, rfl, rfl, hv.1⟩
  have hs0 : (start h s).shared := ⟨s.len, rfl, by rw [r0.length]; exact hv.1⟩
  have r := (run_all hv.1 cs r0 hf).2
  unfold referenceEqual
  rw [decide_eq_true_iff, ← r.shared_iff, spec_shared_iff s.len cs _ hs0, r0.length]
  refine forall_congr' fun k => ?_
  have hf' : Fits s.len (cs.take k) (start h s) := by
    rw [← List.take_append_drop k cs, fits_append] at hf
    exact hf.1
  rw [← (run_all hv.1 (cs.take k) r0 hf').2.var.2]

/-- **C111.** While they belong to it, reading and writing through an iterator is `At` and `Set` of its position. -/
theorem C111_attached (s : Slice) (m : Mem T) (hp : m.var.ptr = s.ptr) (p : Int) (hps : p < s.len) (hpv : p < m.var.len)
    (e e' : Nat) (v : T) :
    Call.run s e (.get p) m = Call.run s e' (.at p) m ∧
    Call.run s e (.set p v) m = Call.run s e' (.setAt p v) m := by
  have hc : (contents m.heap s)[p.toNat]? = (contents m.heap m.var)[p.toNat]? ∨ p < 0 := by
    by_cases h0 : p < 0
    · exact .inr h0
    · left
      unfold contents
      rw [hp]
      cases s.ptr with
      | nil => rfl
      | zero => rfl
      | arr a off =>
        dsimp only
        rw [List.getElem?_take, List.getElem?_take, if_pos (by omega), if_pos (by omega)]
  have hl : Iter.get (⟨p, s⟩ : SIter T) m.heap = load m.var p m.heap := by
    show load s p m.heap = _
    unfold load
    by_cases h0 : 0 ≤ p
    · rw [if_pos h0, if_pos h0, hc.resolve_right (by omega)]
    · rw [if_neg h0, if_neg h0]
  have hst : Iter.set (⟨p, s⟩ : SIter T) v m.heap = store m.var p v m.heap := by
    show store s p v m.heap = _
    unfold store
    rw [hp]
    by_cases h0 : 0 ≤ p
    · rw [if_pos (by omega), if_pos (by omega)]
    · rw [if_neg (by omega), if_neg (by omega)]
  constructor
  · simp only [Call.run, onHeap, St.bind_apply, hl]
  · simp only [Call.run, onHeap, St.bind_apply, hst]

/-- **C111.** Once they do not belong to it any more they never do again; calls on the variable do not change what they
read, and calls on them do not change the list in the variable. -/
theorem C111_detached (h : Heap T) (s : Slice) (hv : Valid h s) (cs ds : List (Call T × Nat))
    (hf : Fits s.len (cs ++ ds) (start h s)) (hn : (runAll s cs ⟨h, s⟩).2.var.ptr ≠ s.ptr) :
    (runAll s (cs ++ ds) ⟨h, s⟩).2.var.ptr ≠ s.ptr ∧
    ((∀ c ∈ ds, ∀ p v, c.1 ≠ .set p v) → contents (runAll s (cs ++ ds) ⟨h, s⟩).2.heap s = contents (runAll s cs ⟨h, s⟩).2.heap s) ∧
    ((∀ c ∈ ds, (∃ p, c.1 = .get p) ∨ (∃ p v, c.1 = .set p v) ∨ (∃ p i, c.1 = .equal p i) ∨ (∃ p v, c.1 = .insert p v)) →
      contents (runAll s (cs ++ ds) ⟨h, s⟩).2.heap (runAll s (cs ++ ds) ⟨h, s⟩).2.var =
        contents (runAll s cs ⟨h, s⟩).2.heap (runAll s cs ⟨h, s⟩).2.var) := by
  have r0 : Rep s ⟨h, s⟩ (start h s) := ⟨hv, rfl, rfl, hv.1⟩
  obtain ⟨hf1, hf2⟩ := (fits_append _ _ _ _).1 hf
  have r1 := (run_all hv.1 cs r0 hf1).2
  have r2 := (run_all hv.1 ds r1 hf2).2
  rw [runAll_append]
  generalize (runAll s cs ⟨h, s⟩).2 = m1 at *
  generalize (specAll s.len cs (start h s)).2 = t1 at *
  have hcut : ∀ {m : Mem T} {t : Two T}, Rep s m t → contents m.heap s = t.cells.take s.len := fun r => by
    rw [← r.cells]; exact contents_len _ _ _ _ _ _ hv.1
  rw [r2.var.2, r1.var.2, hcut r2, hcut r1]
  have hp2 := r2.ptr
  have key : ∀ (ds : List (Call T × Nat)) (t1 : Two T), (∃ l, t1.cur = .inr l) →
      (∃ l, (specAll s.len ds t1).2.cur = .inr l) ∧
      ((∀ c ∈ ds, ∀ p v, c.1 ≠ .set p v) → (specAll s.len ds t1).2.cells = t1.cells) ∧
      ((∀ c ∈ ds, (∃ p, c.1 = .get p) ∨ (∃ p v, c.1 = .set p v) ∨ (∃ p i, c.1 = .equal p i) ∨ (∃ p v, c.1 = .insert p v)) →
        (specAll s.len ds t1).2.list = t1.list) := by
    intro ds
    induction ds with
    | nil => intro t h; exact ⟨h, fun _ => rfl, fun _ => rfl⟩
    | cons c ds ih =>
      rintro t ⟨l, e⟩
      obtain ⟨h1, h2, h3⟩ := call_apart e s.len c.1
      obtain ⟨g1, g2, g3⟩ := ih _ h1
      refine ⟨g1, fun hc => ?_, fun hc => ?_⟩
      · exact (g2 fun c hm => hc c (List.mem_cons_of_mem _ hm)).trans (h2 (hc c List.mem_cons_self))
      · exact (g3 fun c hm => hc c (List.mem_cons_of_mem _ hm)).trans (h3 (hc c List.mem_cons_self))
  have h1 : ∃ l, t1.cur = .inr l := by
    cases e : t1.cur with
    | inr l => exact ⟨l, rfl⟩
    | inl n =>
      have := r1.ptr
      rw [e] at this
      exact absurd this hn
  obtain ⟨⟨l, e⟩, g2, g3⟩ := key ds t1 h1
  rw [e] at hp2
  exact ⟨hp2, fun hc => by rw [g2 hc], g3⟩

end proof

/-! ## A case -/

/-- Five cells, the first three of them in the slice. -/
def exHeap : Heap Nat := [[10, 11, 12, 13, 14]]
/-- The slice. -/
def exSlice : Slice := ⟨.arr 0 0, 3, 5⟩
/-- Deletes the first element, reads the last position through an old iterator (the element that was left behind), fills
the storage, writes through an iterator, outgrows the storage, writes through the iterator again. -/
def exCalls : List (Call Nat × Nat) :=
  [(.delete 0, 0), (.get 2, 0), (.append [20, 21], 0), (.set 2 99, 0), (.equal 2 2, 0), (.insert 1 30, 7), (.append [31], 7),
    (.set 0 77, 0), (.equal 2 2, 0), (.insert 0 5, 0), (.get 0, 0)]

example : Valid exHeap exSlice := ⟨by decide, by decide, _, rfl, by decide⟩
example : Fits 3 exCalls (start exHeap exSlice) := by
  refine ⟨?_, ?_, ?_, ?_, ?_, ?_, ?_, ?_, ?_, ?_, ?_, trivial⟩ <;> decide
example : (runAll exSlice exCalls ⟨exHeap, exSlice⟩).2.var.ptr = .arr 1 0 ∧
    contents (runAll exSlice exCalls ⟨exHeap, exSlice⟩).2.heap (runAll exSlice exCalls ⟨exHeap, exSlice⟩).2.var =
      [11, 30, 12, 99, 21, 31] ∧
    contents (runAll exSlice exCalls ⟨exHeap, exSlice⟩).2.heap ⟨.arr 0 0, 5, 5⟩ = [77, 30, 12, 99, 21] := by
  decide
/-- The iterators still belong to the slice after six of the calls. -/
example : referenceEqual (runAll exSlice (exCalls.take 6) ⟨exHeap, exSlice⟩).2.var exSlice = true := by decide

end Verif.Slice.Stale
