import Verif.Slice.Ops
import Verif.Ring.Props

/-!
# Properties C16–C21: slices

The specification is the standard list: `List.insertIdx`, `List.eraseIdx`, `List.dropLast`,
`List.reverse`. `Upd W h h'` (Lemmas.lean) says that memory `h'` differs from `h` at most in the array
cells `W`; `Cells s n` are the first `n` cells of the storage of `s`.
-/

namespace Verif.Slice

open Verif.Iter

variable {T : Type} [Inhabited T]
set_option linter.unusedSectionVars false

/-! ## C16: list semantics -/

/-- **C16**, `InsertAt`: for every valid slice, every index and every spare capacity chosen by `append`. -/
theorem C16_insertAt (extra : Nat) (h : Heap T) (s : Slice) (hv : Valid h s) (v : T) (i : Int)
    (hb : ((s.len + 1 + extra : Nat) : Int) < 9223372036854775808) :
    (0 ≤ i ∧ i ≤ s.len → ∃ s' h', insert extra s i v h = (.ok s', h') ∧ Valid h' s' ∧
      contents h' s' = (contents h s).insertIdx i.toNat v) ∧
    (¬ (0 ≤ i ∧ i ≤ s.len) → ∃ msg, insert extra s i v h = (.error msg, h)) := by
  constructor
  · intro hi
    obtain ⟨s', h', e, hv', _, hc, _⟩ := insert_spec extra hv v (i := i.toNat) (by omega) hb
    rw [show ((i.toNat : Nat) : Int) = i by omega] at e
    exact ⟨s', h', e, hv', hc⟩
  · intro hi
    exact ⟨_, by unfold insert; rw [if_pos (by omega)]; rfl⟩

/-- **C16**, `Delete`. -/
theorem C16_delete (h : Heap T) (s : Slice) (hv : Valid h s) (i : Int) :
    (0 ≤ i ∧ i < s.len → ∃ s' h', delete s i h = (.ok s', h') ∧ Valid h' s' ∧
      contents h' s' = (contents h s).eraseIdx i.toNat) ∧
    (¬ (0 ≤ i ∧ i < s.len) → ∃ msg, delete s i h = (.error msg, h)) := by
  constructor
  · intro hi
    obtain ⟨s', h', e, hv', _, _, _, hc, _⟩ := delete_spec hv (i := i.toNat) (by omega)
    rw [show ((i.toNat : Nat) : Int) = i by omega] at e
    exact ⟨s', h', e, hv', hc⟩
  · intro hi
    exact ⟨_, by unfold delete; rw [if_pos (by omega)]; rfl⟩

/-- **C16**, `UnorderedDelete`: element `i` is replaced by the last and the last is dropped. -/
theorem C16_unorderedDelete (h : Heap T) (s : Slice) (hv : Valid h s) (i : Int) :
    (0 ≤ i ∧ i < s.len → ∃ s' h' x, unorderedDelete s i h = (.ok s', h') ∧ Valid h' s' ∧
      (contents h s).getLast? = some x ∧ contents h' s' = ((contents h s).set i.toNat x).dropLast) ∧
    (¬ (0 ≤ i ∧ i < s.len) → ∃ msg, unorderedDelete s i h = (.error msg, h)) := by
  constructor
  · intro hi
    obtain ⟨s', h', e, hv', _, _, _, hc, _⟩ := unorderedDelete_spec hv (i := i.toNat) (by omega)
    rw [show ((i.toNat : Nat) : Int) = i by omega] at e
    have hL := length_contents hv
    obtain ⟨x, hx⟩ : ∃ x, (contents h s)[s.len - 1]? = some x := ⟨_, List.getElem?_eq_getElem (by omega)⟩
    refine ⟨s', h', x, e, hv', ?_, ?_⟩
    · rw [List.getLast?_eq_getElem?, hL, hx]
    · rw [hc, hx]; rfl
  · intro hi
    exact ⟨_, by unfold unorderedDelete; rw [if_pos (by omega)]; rfl⟩

/-- **C16**, `DeleteLast`. -/
theorem C16_deleteLast (h : Heap T) (s : Slice) (hv : Valid h s) :
    (0 < s.len → ∃ s', deleteLast s h = (.ok s', h) ∧ Valid h s' ∧
      contents h s' = (contents h s).dropLast) ∧
    (s.len = 0 → ∃ msg, deleteLast s h = (.error msg, h)) := by
  constructor
  · intro hi
    obtain ⟨s', e, hv', _, _, _, hc⟩ := deleteLast_spec hv hi
    exact ⟨s', e, hv', hc⟩
  · intro hi
    exact ⟨_, by unfold deleteLast; rw [if_pos hi]; rfl⟩

/-- A slice in the middle of an array, with and without spare capacity. -/
def exHeap : Heap Nat := [[10, 11, 12, 13, 14, 15], [7]]
/-- Window of `exHeap` with spare capacity. -/
def exSlice : Slice := ⟨.arr 0 1, 3, 5⟩
/-- Window of `exHeap` without spare capacity. -/
def exFull : Slice := ⟨.arr 0 1, 3, 3⟩

theorem exSlice_valid : Valid exHeap exSlice :=
  ⟨by decide, by decide, [10, 11, 12, 13, 14, 15], rfl, by decide⟩
theorem exFull_valid : Valid exHeap exFull :=
  ⟨by decide, by decide, [10, 11, 12, 13, 14, 15], rfl, by decide⟩

example : contents exHeap exSlice = [11, 12, 13] := by decide
example : insert 3 exSlice 1 99 exHeap = (.ok ⟨.arr 0 1, 4, 5⟩, [[10, 11, 99, 12, 13, 15], [7]]) := by decide
example : (insert 2 exFull 1 99 exHeap).2 = [[10, 11, 12, 13, 14, 15], [7], [11, 99, 12, 13, 0, 0]] := by decide
example : delete exSlice 0 exHeap = (.ok ⟨.arr 0 1, 2, 5⟩, [[10, 12, 13, 13, 14, 15], [7]]) := by decide
example : unorderedDelete exSlice 0 exHeap = (.ok ⟨.arr 0 1, 2, 5⟩, [[10, 13, 12, 11, 14, 15], [7]]) := by decide
example : unorderedDelete exSlice (-1) exHeap = (.error "delete out of bound", exHeap) := by decide
example : ∃ s' h', insert 3 exSlice 1 99 exHeap = (.ok s', h') ∧ Valid h' s' ∧
    contents h' s' = [11, 99, 12, 13] :=
  (C16_insertAt 3 exHeap exSlice exSlice_valid 99 1 (by decide)).1 (by decide)

/-! ## C17: what is written -/

/-- The operations of C17. -/
inductive Op (T : Type)
  | append (v : T)
  | insertAt (i : Int) (v : T)
  | delete (i : Int)
  | unorderedDelete (i : Int)
  | deleteLast

/-- Run one operation. -/
def Op.run (extra : Nat) (s : Slice) : Op T → St (Heap T) Slice
  | .append v => appendMany extra s [v]
  | .insertAt i v => Slice.insert extra s i v
  | .delete i => Slice.delete s i
  | .unorderedDelete i => Slice.unorderedDelete s i
  | .deleteLast => Slice.deleteLast s

/-- Whether the operation makes the slice longer. -/
def Op.grows : Op T → Bool
  | .append _ => true
  | .insertAt _ _ => true
  | _ => false

/-- **C17.** Whatever the operation and its outcome, every array keeps its length and changes at most in
the cells of the slice's window — the old window, or the one longer by one when the operation grows the
slice within capacity; when it grows beyond capacity, or panics, no existing array changes. -/
theorem C17_writes_in_window (extra : Nat) (h : Heap T) (s : Slice) (hv : Valid h s) (o : Op T)
    (hb : ((s.len + 1 + extra : Nat) : Int) < 9223372036854775808) :
    Upd (fun a k => Cells s (if o.grows = true then s.len + 1 else s.len) a k ∧
      ¬ (o.grows = true ∧ s.cap < s.len + 1)) h (o.run extra s h).2 ∧
    (∀ msg, (o.run extra s h).1 = .error msg → (o.run extra s h).2 = h) := by
  cases o with
  | append v =>
    obtain ⟨s', h', e, _, _, _, hin, hout⟩ := appendMany_spec extra hv [v] hb
    simp only [List.length_cons, List.length_nil, Nat.zero_add] at hin hout
    simp only [Op.run, e]
    refine ⟨?_, fun _ hm => by simp at hm⟩
    by_cases hc : s.len + 1 ≤ s.cap
    · refine (hin hc).2.2.mono ?_
      rintro a k - ⟨off, e, h1, h2⟩
      exact ⟨⟨off, e, by omega, by simp [Op.grows]; omega⟩, by omega⟩
    · exact (hout (by omega)).2.mono fun _ _ _ hf => hf.elim
  | insertAt i v =>
    by_cases hi : 0 ≤ i ∧ i ≤ s.len
    · obtain ⟨s', h', e, _, _, _, hin, hout⟩ := insert_spec extra hv v (i := i.toNat) (by omega) hb
      rw [show ((i.toNat : Nat) : Int) = i by omega] at e
      simp only [Op.run, e]
      refine ⟨?_, fun _ hm => by simp at hm⟩
      by_cases hc : s.len + 1 ≤ s.cap
      · refine (hin hc).2.2.mono ?_
        rintro a k - hw
        exact ⟨by simpa [Op.grows] using hw, by omega⟩
      · exact (hout (by omega)).2.mono fun _ _ _ hf => hf.elim
    · obtain ⟨msg, e⟩ := (C16_insertAt extra h s hv v i hb).2 hi
      simp only [Op.run, e]
      exact ⟨Upd.refl _ _, fun _ _ => by trivial⟩
  | delete i =>
    by_cases hi : 0 ≤ i ∧ i < s.len
    · obtain ⟨s', h', e, _, _, _, _, _, u⟩ := delete_spec hv (i := i.toNat) (by omega)
      rw [show ((i.toNat : Nat) : Int) = i by omega] at e
      simp only [Op.run, e]
      refine ⟨u.mono ?_, fun _ hm => by simp at hm⟩
      rintro a k - hw
      exact ⟨by simpa [Op.grows] using hw, by simp [Op.grows]⟩
    · obtain ⟨msg, e⟩ := (C16_delete h s hv i).2 hi
      simp only [Op.run, e]
      exact ⟨Upd.refl _ _, fun _ _ => by trivial⟩
  | unorderedDelete i =>
    by_cases hi : 0 ≤ i ∧ i < s.len
    · obtain ⟨s', h', e, _, _, _, _, _, u⟩ := unorderedDelete_spec hv (i := i.toNat) (by omega)
      rw [show ((i.toNat : Nat) : Int) = i by omega] at e
      simp only [Op.run, e]
      refine ⟨u.mono ?_, fun _ hm => by simp at hm⟩
      rintro a k - hw
      exact ⟨by simpa [Op.grows] using hw, by simp [Op.grows]⟩
    · obtain ⟨msg, e⟩ := (C16_unorderedDelete h s hv i).2 hi
      simp only [Op.run, e]
      exact ⟨Upd.refl _ _, fun _ _ => by trivial⟩
  | deleteLast =>
    by_cases hi : 0 < s.len
    · obtain ⟨s', e, _⟩ := deleteLast_spec hv hi
      simp only [Op.run, e]
      exact ⟨Upd.refl _ _, fun _ hm => by simp at hm⟩
    · obtain ⟨msg, e⟩ := (C16_deleteLast h s hv).2 (by omega)
      simp only [Op.run, e]
      exact ⟨Upd.refl _ _, fun _ _ => by trivial⟩

/-- **C17**, seen from another slice `t` of the same (or any) array: it stays valid, and an element of it
that lies outside the window of `s` keeps its value. -/
theorem C17_other_slices (extra : Nat) (h : Heap T) (s t : Slice) (hv : Valid h s) (ht : Valid h t) (o : Op T)
    (hb : ((s.len + 1 + extra : Nat) : Int) < 9223372036854775808) :
    Valid (o.run extra s h).2 t ∧
    (∀ (j a off : Nat), t.ptr = .arr a off → j < t.len →
      ¬ Cells s (if o.grows = true then s.len + 1 else s.len) a (off + j) →
      (contents (o.run extra s h).2 t)[j]? = (contents h t)[j]?) ∧
    (o.grows = true → s.cap < s.len + 1 → contents (o.run extra s h).2 t = contents h t) := by
  have u := (C17_writes_in_window extra h s hv o hb).1
  refine ⟨u.valid ht, ?_, ?_⟩
  · intro j a off hp hj hn
    obtain ⟨_, _, h3⟩ := ht
    rw [hp] at h3
    obtain ⟨A, hA, hl⟩ := h3
    obtain ⟨A', e, l, f⟩ := u a A hA
    simp only [contents, hp, e, hA, Option.getD_some]
    show (window A' off t.len)[j]? = (window A off t.len)[j]?
    rw [getElem?_window, getElem?_window, if_pos hj, if_pos hj]
    exact f _ fun hw => hn hw.1
  · intro hg hc
    exact u.contents ht fun a k _ hw => hw.2 ⟨hg, hc⟩

example : Valid exHeap (⟨.arr 0 4, 2, 2⟩ : Slice) ∧ ¬ Cells exSlice 4 0 5 ∧
    contents (Op.run 3 exSlice (.insertAt 1 99) exHeap).2 ⟨.arr 0 4, 2, 2⟩ = [13, 15] ∧
    contents exHeap ⟨.arr 0 4, 2, 2⟩ = [14, 15] := by
  refine ⟨⟨by decide, by decide, [10, 11, 12, 13, 14, 15], rfl, by decide⟩, ?_, by decide, by decide⟩
  rintro ⟨off, e, h1, h2⟩
  simp [exSlice] at e; omega
example : contents (Op.run 3 exFull (.append 99) exHeap).2 ⟨.arr 0 4, 2, 2⟩ = [14, 15] := by decide

/-! ## C18: iterators stay inside -/

/-- The iterator is at a position of its slice, between 0 and the length. -/
def InRange (it : SIter T) : Prop :=
  0 ≤ it.pos ∧ it.pos ≤ it.s.len ∧ (it.s.len : Int) < 9223372036854775808

/-- **C18**, `Add`/`Advance`: for every 64-bit offset — the computed sum wraps around — the call gives
the iterator at exactly `pos + x` when that is inside, and panics otherwise. -/
theorem C18_add (it : SIter T) (hr : InRange it) (x : Int) (hx : isInt64 x) :
    (0 ≤ it.pos + x ∧ it.pos + x ≤ it.s.len →
      add it x = .ok { it with pos := it.pos + x } ∧ InRange (T := T) { it with pos := it.pos + x }) ∧
    (¬ (0 ≤ it.pos + x ∧ it.pos + x ≤ it.s.len) → ∃ msg, add it x = .error msg) := by
  obtain ⟨h1, h2, h3⟩ := hr
  unfold isInt64 at hx
  constructor
  · intro hi
    refine ⟨?_, hi.1, hi.2, h3⟩
    show SIter.advance it x = _
    unfold SIter.advance
    rw [wrap64_id (by unfold isInt64; omega)]
    simp only
    rw [if_neg (by omega)]
  · intro hi
    refine ⟨"offset out of bound", ?_⟩
    show SIter.advance it x = _
    unfold SIter.advance
    simp only
    rw [if_pos (by unfold wrap64; omega)]

/-- **C18**, `Next`/`Inc` and `Prev`/`Dec`. -/
theorem C18_next_prev (it : SIter T) (hr : InRange it) :
    (it.pos < it.s.len → next it = .ok { it with pos := it.pos + 1 } ∧ InRange (T := T) { it with pos := it.pos + 1 }) ∧
    (it.pos = it.s.len → ∃ msg, next it = .error msg) ∧
    (0 < it.pos → prev it = .ok { it with pos := it.pos - 1 } ∧ InRange (T := T) { it with pos := it.pos - 1 }) ∧
    (it.pos = 0 → ∃ msg, prev it = .error msg) := by
  obtain ⟨h1, h2, h3⟩ := hr
  refine ⟨fun h => ⟨?_, ?_⟩, fun h => ⟨"increment out of bound", ?_⟩,
    fun h => ⟨?_, ?_⟩, fun h => ⟨"decrement out of bound", ?_⟩⟩
  · show SIter.inc it = _; unfold SIter.inc; rw [if_neg (by omega)]
  · exact ⟨by dsimp only; omega, by dsimp only; omega, h3⟩
  · show SIter.inc it = _; unfold SIter.inc; rw [if_pos (by omega)]
  · show SIter.dec it = _; unfold SIter.dec; rw [if_neg (by omega)]
  · exact ⟨by dsimp only; omega, by dsimp only; omega, h3⟩
  · show SIter.dec it = _; unfold SIter.dec; rw [if_pos (by omega)]

/-- **C18**: whatever is called, an iterator obtained from a valid one is valid and of the same slice. -/
theorem C18_stays_inside (it it' : SIter T) (hr : InRange it)
    (h : next it = .ok it' ∨ prev it = .ok it' ∨ ∃ x, isInt64 x ∧ add it x = .ok it') :
    InRange it' ∧ it'.s = it.s := by
  obtain ⟨n1, n2, p1, p2⟩ := C18_next_prev it hr
  have hr' := hr
  obtain ⟨h1, h2, h3⟩ := hr'
  rcases h with h | h | ⟨x, hx, h⟩
  · by_cases c : it.pos < it.s.len
    · obtain ⟨e, i⟩ := n1 c; rw [e] at h; injection h with h; subst h; exact ⟨i, rfl⟩
    · obtain ⟨msg, e⟩ := n2 (by omega); rw [e] at h; simp at h
  · by_cases c : 0 < it.pos
    · obtain ⟨e, i⟩ := p1 c; rw [e] at h; injection h with h; subst h; exact ⟨i, rfl⟩
    · obtain ⟨msg, e⟩ := p2 (by omega); rw [e] at h; simp at h
  · obtain ⟨a1, a2⟩ := C18_add it hr x hx
    by_cases c : 0 ≤ it.pos + x ∧ it.pos + x ≤ it.s.len
    · obtain ⟨e, i⟩ := a1 c; rw [e] at h; injection h with h; subst h; exact ⟨i, rfl⟩
    · obtain ⟨msg, e⟩ := a2 c; rw [e] at h; simp at h

/-- **C18**: `Add(x)` then `Add(y)` is `Add(x+y)`. -/
theorem C18_add_add (it it' : SIter T) (hr : InRange it) (x y : Int) (hx : isInt64 x) (hy : isInt64 y)
    (hxy : isInt64 (x + y)) (h : add it x = .ok it') :
    (∀ it'', add it' y = .ok it'' → add it (x + y) = .ok it'') ∧
    (∀ it'', add it (x + y) = .ok it'' → add it' y = .ok it'') := by
  obtain ⟨a1, a2⟩ := C18_add it hr x hx
  by_cases c : 0 ≤ it.pos + x ∧ it.pos + x ≤ it.s.len
  · obtain ⟨e, i⟩ := a1 c
    rw [e] at h; injection h with h; subst h
    obtain ⟨b1, b2⟩ := C18_add _ i y hy
    obtain ⟨c1, c2⟩ := C18_add it hr (x + y) hxy
    simp only at b1 b2
    by_cases d : 0 ≤ it.pos + (x + y) ∧ it.pos + (x + y) ≤ it.s.len
    · rw [(c1 d).1, (b1 (by omega)).1]
      have : it.pos + x + y = it.pos + (x + y) := by omega
      rw [this]
      exact ⟨fun _ h => h, fun _ h => h⟩
    · obtain ⟨m1, e1⟩ := c2 d
      obtain ⟨m2, e2⟩ := b2 (by omega)
      rw [e1, e2]
      exact ⟨fun _ h => by simp at h, fun _ h => by simp at h⟩
  · obtain ⟨msg, e⟩ := a2 c; rw [e] at h; simp at h

/-- **C18**: `Next` and `Prev` undo each other. -/
theorem C18_next_prev_inverse (it it' : SIter T) (hr : InRange it) :
    (next it = .ok it' → prev it' = .ok it) ∧ (prev it = .ok it' → next it' = .ok it) := by
  constructor
  · intro h
    obtain ⟨n1, n2, -, -⟩ := C18_next_prev it hr
    by_cases c : it.pos < it.s.len
    · obtain ⟨e, i⟩ := n1 c; rw [e] at h; injection h with h; subst h
      rw [((C18_next_prev _ i).2.2.1 (by have := hr.1; dsimp only; omega)).1]
      simp
    · obtain ⟨msg, e⟩ := n2 (by have := hr.2.1; omega); rw [e] at h; simp at h
  · intro h
    obtain ⟨-, -, p1, p2⟩ := C18_next_prev it hr
    by_cases c : 0 < it.pos
    · obtain ⟨e, i⟩ := p1 c; rw [e] at h; injection h with h; subst h
      rw [((C18_next_prev _ i).1 (by have := hr.2.1; dsimp only; omega)).1]
      simp
    · obtain ⟨msg, e⟩ := p2 (by have := hr.1; omega); rw [e] at h; simp at h

/-- **C18**: `Get` and `Set` at a valid position: they panic exactly at the end. -/
theorem C18_get_set (h : Heap T) (it : SIter T) (hr : InRange it) (hv : Valid h it.s) (v : T) :
    (it.pos < it.s.len → (∃ x, (contents h it.s)[it.pos.toNat]? = some x ∧ get it h = (.ok x, h)) ∧
      ∃ h', set it v h = (.ok (), h') ∧ contents h' it.s = (contents h it.s).set it.pos.toNat v) ∧
    (it.pos = it.s.len → (∃ msg, get it h = (.error msg, h)) ∧ ∃ msg, set it v h = (.error msg, h)) := by
  have hL := length_contents hv
  obtain ⟨h1, h2, h3⟩ := hr
  constructor
  · intro hp
    have e1 : ((it.pos.toNat : Nat) : Int) = it.pos := by omega
    constructor
    · obtain ⟨x, hx⟩ : ∃ x, (contents h it.s)[it.pos.toNat]? = some x := ⟨_, List.getElem?_eq_getElem (by omega)⟩
      have := load_ok hx
      rw [e1] at this
      exact ⟨x, hx, this⟩
    · have := store_ok (h := h) (s := it.s) (i := it.pos.toNat) v (by omega)
      rw [e1] at this
      refine ⟨_, this, ?_⟩
      rw [poke_contents hv (by simp; omega), splice_singleton _ (by omega)]
  · intro hp
    constructor
    · refine ⟨"index out of range", ?_⟩
      show load it.s it.pos h = _
      unfold load
      rw [if_pos h1, List.getElem?_eq_none (by omega)]
    · refine ⟨"index out of range", ?_⟩
      show store it.s it.pos v h = _
      unfold store
      rw [if_neg (by omega)]

example : InRange (⟨2, exSlice⟩ : SIter Nat) ∧
    add (⟨2, exSlice⟩ : SIter Nat) (-2) = .ok ⟨0, exSlice⟩ ∧
    add (⟨2, exSlice⟩ : SIter Nat) 9223372036854775807 = .error "offset out of bound" :=
  ⟨⟨by decide, by decide, by decide⟩, by decide, by decide⟩

/-! ## C19: inserting through an iterator -/

/-- **C19**, `Slice.Insert(it, v)`: any iterator that refers to the variable's storage, at a position of
the variable's slice. The new iterator is at the same position of the updated slice and reads `v`. -/
theorem C19_insert (w : Var T) (m : Mem T) (hv : Valid m.heap m.var) (it : SIter T) (v : T) (i : Nat)
    (hit : it.s.ptr = m.var.ptr) (hpos : it.pos = i) (hi : i ≤ m.var.len)
    (hb : ((m.var.len + 1 + w.grow (m.var.len + 1) : Nat) : Int) < 9223372036854775808) :
    ∃ m', varInsert w it v m = (.ok ⟨i, m'.var⟩, m') ∧ Valid m'.heap m'.var ∧
      m'.var.len = m.var.len + 1 ∧
      contents m'.heap m'.var = (contents m.heap m.var).insertIdx i v ∧
      get (⟨i, m'.var⟩ : SIter T) m'.heap = (.ok v, m'.heap) := by
  obtain ⟨s', h', e, hv', hl, hc, _⟩ := insert_spec (w.grow (m.var.len + 1)) hv v hi hb
  refine ⟨⟨h', s'⟩, ?_, hv', hl, hc, ?_⟩
  · unfold varInsert
    rw [if_neg (by simp [referenceEqual, hit])]
    unfold varInsertAt onVar
    simp only [hpos, e]
  · apply load_ok
    dsimp only
    rw [hc, List.getElem?_insertIdx, if_neg (by omega), if_pos rfl, if_pos]
    rw [length_contents hv]; exact hi

/-- **C19**: an iterator of a slice with other storage is rejected, and nothing changes. -/
theorem C19_foreign (w : Var T) (m : Mem T) (it : SIter T) (v : T) (hit : it.s.ptr ≠ m.var.ptr) :
    ∃ msg, varInsert w it v m = (.error msg, m) := by
  refine ⟨"iterator does not belongs to this slice", ?_⟩
  unfold varInsert
  have : ¬ m.var.ptr = it.s.ptr := fun h => hit h.symm
  rw [if_pos (by simp [referenceEqual, this])]

/-- Setting the values `vs` one after the other through the insert iterator made by `iter.Insert(p, s)`
(`Next` on it does nothing, ds/iter/inserter.go:85-87). -/
def insertAll (w : Var T) (p : VIter T) : List T → St (Mem T) (VIter T)
  | [] => pure p
  | v :: vs => do
    let p ← insertIterSet w p v
    insertAll w p vs

/-- **C19**, filling through `iter.Insert(pos, slice)`: the values end up in order at `pos`, whatever
reallocations happen on the way. -/
theorem C19_fill (w : Var T) (vs : List T) : ∀ (m : Mem T), Valid m.heap m.var → ∀ (it : SIter T) (i : Nat),
    it.s.ptr = m.var.ptr → it.pos = i → i ≤ m.var.len →
    (∀ n, n ≤ m.var.len + vs.length → ((n + w.grow n : Nat) : Int) < 9223372036854775808) →
    ∃ it' m', insertAll w ⟨it⟩ vs m = (.ok ⟨it'⟩, m') ∧ Valid m'.heap m'.var ∧
      contents m'.heap m'.var = (contents m.heap m.var).take i ++ vs ++ (contents m.heap m.var).drop i ∧
      it'.pos = ((i + vs.length : Nat) : Int) ∧ it'.s.ptr = m'.var.ptr := by
  induction vs with
  | nil =>
    intro m hv it i hit hpos hi _
    exact ⟨it, m, rfl, hv, by simp, by simp [hpos], hit⟩
  | cons v vs ih =>
    intro m hv it i hit hpos hi hb
    simp only [List.length_cons] at hb
    obtain ⟨m1, e1, hv1, hl1, hc1, -⟩ := C19_insert w m hv it v i hit hpos hi (hb _ (by omega))
    have hL := length_contents hv
    obtain ⟨it', m', e, hv', hc, hp, hs⟩ := ih m1 hv1 ⟨(i : Int) + 1, m1.var⟩ (i + 1) rfl (by simp) (by omega)
      (fun n hn => hb n (by omega))
    refine ⟨it', m', ?_, hv', ?_, by rw [hp, List.length_cons]; congr 1; omega, hs⟩
    · have q : insertIterSet w (⟨it⟩ : VIter T) v m = (.ok (⟨⟨(i : Int) + 1, m1.var⟩⟩ : VIter T), m1) := by
        unfold insertIterSet
        have q1 : (Inserter.insert w (⟨it⟩ : VIter T) v : St (Mem T) (VIter T)) m = (.ok ⟨⟨i, m1.var⟩⟩, m1) := by
          show (match varInsert w it v m with
            | (.ok i, m') => ((.ok ⟨i⟩ : Go (VIter T)), m') | (.error e, m') => (.error e, m')) = _
          rw [e1]
        rw [St.bind_ok q1]
        have q2 : next (⟨⟨(i : Int), m1.var⟩⟩ : VIter T) = .ok ⟨⟨(i : Int) + 1, m1.var⟩⟩ := by
          show (match SIter.inc (⟨(i : Int), m1.var⟩ : SIter T) with
            | .ok i => (.ok ⟨i⟩ : Go (VIter T)) | .error e => .error e) = _
          unfold SIter.inc
          rw [if_neg (by dsimp only; omega)]
        exact St.lift_ok q2 _
      unfold insertAll
      rw [St.bind_ok q]
      exact e
    · rw [hc, hc1]
      apply List.ext_getElem?
      intro k
      have e1 : ((List.insertIdx (contents m.heap m.var) i v).take (i + 1)).length = i + 1 := by
        rw [List.length_take, List.length_insertIdx, if_pos (by omega)]; omega
      have e2 : ((contents m.heap m.var).take i).length = i := by rw [List.length_take]; omega
      simp only [List.getElem?_append, List.length_append, e1, e2, List.length_cons, List.getElem?_take,
        List.getElem?_drop, List.getElem?_insertIdx]
      by_cases c1 : k < i
      · simp [c1, show k < i + 1 + vs.length by omega, show k < i + 1 by omega, show k < i + (vs.length + 1) by omega]
      · by_cases c2 : k = i
        · subst c2; simp [show k < k + 1 + vs.length by omega, show k < k + (vs.length + 1) by omega, hi, hL]
        · by_cases c3 : k < i + 1 + vs.length
          · rw [if_pos c3, if_neg (by omega), if_pos (by omega), if_neg c1,
              show k - i = (k - (i + 1)) + 1 by omega, List.getElem?_cons_succ]
          · rw [if_neg c3, if_neg (by omega), if_neg (by omega), if_neg (by omega)]
            congr 1; omega

/-- Growth by `n` spare elements; the slice of `exHeap` starts without spare capacity. -/
def exVar : Var Nat := ⟨fun n => n⟩
example : (match insertAll exVar ⟨⟨2, exFull⟩⟩ [71, 72, 73, 74, 75] ⟨exHeap, exFull⟩ with
    | (_, m) => contents m.heap m.var) = [11, 12, 71, 72, 73, 74, 75, 13] := by decide +kernel
example : ∃ it' m', insertAll exVar ⟨⟨2, exFull⟩⟩ [71, 72, 73] ⟨exHeap, exFull⟩ = (.ok ⟨it'⟩, m') ∧
    Valid m'.heap m'.var ∧ contents m'.heap m'.var = [11, 12, 71, 72, 73, 13] ∧
    it'.pos = 5 ∧ it'.s.ptr = m'.var.ptr := by
  refine C19_fill exVar [71, 72, 73] ⟨exHeap, exFull⟩ exFull_valid ⟨2, exFull⟩ 2 rfl rfl (by decide) ?_
  intro n hn
  simp [exVar, exFull] at *
  omega
/-- An iterator made before the reallocation is foreign afterwards. -/
example : ∃ msg, varInsert exVar ⟨2, exFull⟩ 9 ⟨exHeap, ⟨.arr 1 0, 1, 1⟩⟩ = (.error msg, ⟨exHeap, ⟨.arr 1 0, 1, 1⟩⟩) :=
  C19_foreign _ _ _ _ (by decide)

/-! ## C20: fresh storage -/

/-- A sequence of element writes `s[i] = v` (those out of range panic and write nothing). -/
def stores (s : Slice) : List (Int × T) → Heap T → Heap T
  | [], h => h
  | (i, v) :: ws, h => stores s ws (store s i v h).2

theorem stores_upd {h : Heap T} {s : Slice} (hv : Valid h s) (ws : List (Int × T)) :
    Upd (Cells s s.cap) h (stores s ws h) := by
  induction ws generalizing h with
  | nil => exact Upd.refl _ _
  | cons w ws ih =>
    obtain ⟨i, v⟩ := w
    have u : Upd (Cells s s.cap) h (store s i v h).2 := by
      unfold store
      split
      · exact poke_win hv (by have := hv.1; simp; omega) (Nat.le_refl _)
      · exact Upd.refl _ _
    exact u.trans (ih (u.valid hv))

/-- No write within the capacity of one slice is seen by the other. -/
def Independent (h : Heap T) (r s : Slice) : Prop :=
  (∀ h', Upd (Cells s s.cap) h h' → contents h' r = contents h r) ∧
  (∀ h', Upd (Cells r r.cap) h h' → contents h' s = contents h s)

theorem independent_of {h : Heap T} {r s : Slice} (hr : Valid h r) (hs : Valid h s)
    (hd : ∀ a k k' off off', r.ptr = .arr a off → s.ptr = .arr a off' → off ≤ k ∧ k < off + r.cap →
      off' ≤ k' ∧ k' < off' + s.cap → k ≠ k') : Independent h r s := by
  constructor
  · intro h' u
    refine u.contents hr ?_
    rintro a k ⟨off, e, h1, h2⟩ ⟨off', e', h1', h2'⟩
    exact hd a k k off off' e e' ⟨h1, by have := hr.1; omega⟩ ⟨h1', h2'⟩ rfl
  · intro h' u
    refine u.contents hs ?_
    rintro a k ⟨off, e, h1, h2⟩ ⟨off', e', h1', h2'⟩
    exact hd a k k off' off e' e ⟨h1', h2'⟩ ⟨h1, by have := hs.1; omega⟩ rfl

theorem fresh_independent {h h' : Heap T} {r s : Slice} (hs : Valid h s) (hr : Valid h' r)
    (u : Upd (fun _ _ => False) h h') (hp : r.ptr = .arr h.length 0 ∨ r.cap = 0) :
    Independent h' r s := by
  refine independent_of hr (u.valid hs) ?_
  intro a k k' off off' e e' hk hk'
  rcases hp with hp | hp
  · rw [e] at hp; injection hp with hp _
    obtain ⟨_, _, h3⟩ := hs
    rw [e'] at h3
    obtain ⟨A, hA, _⟩ := h3
    have := (List.getElem?_eq_some_iff.1 hA).1
    omega
  · omega

/-- **C20**, `Copy`: the same elements, in storage independent of the original, which is unchanged. -/
theorem C20_copy (extra : Nat) (h : Heap T) (s : Slice) (hv : Valid h s)
    (hb : ((s.len + extra : Nat) : Int) < 9223372036854775808) :
    ∃ r h', copy extra s h = (.ok r, h') ∧ Valid h' r ∧ contents h' r = contents h s ∧
      contents h' s = contents h s ∧ Independent h' r s := by
  have hL := length_contents hv
  by_cases h0 : s.len = 0
  · have ec : copy extra s h = (.ok Slice.nil, h) := by unfold copy; rw [if_pos h0]; rfl
    have hvn : Valid h Slice.nil := ⟨by simp [Slice.nil], by simp [Slice.nil], by simp [Slice.nil]⟩
    have : contents h s = [] := List.eq_nil_of_length_eq_zero (by omega)
    refine ⟨Slice.nil, h, ec, hvn, by rw [this]; rfl, rfl, ?_⟩
    exact fresh_independent hv hvn (Upd.refl _ _) (Or.inr rfl)
  · have ec : copy extra s h = appendMany extra Slice.nil (contents h s) h := by
      unfold copy; rw [if_neg h0]; rfl
    have hvn : Valid h Slice.nil := ⟨by simp [Slice.nil], by simp [Slice.nil], by simp [Slice.nil]⟩
    obtain ⟨r, h', e, hvr, hl, hc, _, hout⟩ := appendMany_spec extra hvn (contents h s)
      (by rw [hL]; simpa [Slice.nil] using hb)
    obtain ⟨hp, u⟩ := hout (by rw [hL]; simp [Slice.nil]; omega)
    refine ⟨r, h', ec.trans e, hvr, ?_, u.contents hv (fun _ _ _ hf => hf), fresh_independent hv hvr u (Or.inl hp)⟩
    rw [hc]; simp [contents, Slice.nil]

/-- **C20**, `Reversed`: the elements in reverse order, in storage independent of the original, which is
unchanged. -/
theorem C20_reversed (h : Heap T) (s : Slice) (hv : Valid h s) :
    ∃ r h', reversed s h = (.ok r, h') ∧ Valid h' r ∧ contents h' r = (contents h s).reverse ∧
      contents h' s = contents h s ∧ Independent h' r s := by
  have hL := length_contents hv
  have hvn : Valid h Slice.nil := ⟨by simp [Slice.nil], by simp [Slice.nil], by simp [Slice.nil]⟩
  unfold reversed
  by_cases h0 : s.len = 0
  · rw [if_pos h0]
    have : contents h s = [] := List.eq_nil_of_length_eq_zero (by omega)
    refine ⟨Slice.nil, h, rfl, hvn, by rw [this]; rfl, rfl, ?_⟩
    exact fresh_independent hv hvn (Upd.refl _ _) (Or.inr rfl)
  · rw [if_neg h0]
    obtain ⟨r, h1, e, hvr, hl, hcap, hc, hp, u⟩ := makeSlice_spec h (n := s.len)
      (by have := hv.1; have := hv.2.1; omega)
    have hs1 : contents h1 s = contents h s := u.contents hv (fun _ _ _ hf => hf)
    have hrn : Valid h1 s := u.valid hv
    obtain ⟨h2, e2, u2, c2⟩ := reversedLoop_spec (r := r) (contents h1 s) h1 0 hvr (by rw [hs1, hL, hl]; simp)
    have hnocell : ∀ a k, a < h.length → ¬ Win r r.len a k := by
      rintro a k ha ⟨off, e, -, -⟩
      rw [hp h0] at e; injection e with e; omega
    have u12 : Upd (fun _ _ => False) h h2 :=
      (Upd.trans (W := Win r r.len) (u.mono fun _ _ _ hf => hf.elim) u2).mono fun a k ha hw => hnocell a k ha hw
    refine ⟨r, h2, ?_, u2.valid hvr, ?_, u12.contents hv (fun _ _ _ hf => hf),
      fresh_independent hv (u2.valid hvr) u12 (Or.inl (hp h0))⟩
    · rw [St.bind_ok e]
      have q : readAll s h1 = (.ok (contents h1 s), h1) := rfl
      rw [hl, Int.natCast_zero] at e2
      rw [St.bind_ok q, St.bind_ok e2]; rfl
    · rw [c2, hs1, hc]
      rw [List.drop_of_length_le (by simp [hL])]
      simp

/-- What independence gives for later element writes through either slice. -/
theorem C20_later_writes {h : Heap T} {r s : Slice} (hr : Valid h r) (hs : Valid h s)
    (hi : Independent h r s) (ws : List (Int × T)) :
    contents (stores s ws h) r = contents h r ∧ contents (stores r ws h) s = contents h s :=
  ⟨hi.1 _ (stores_upd hs ws), hi.2 _ (stores_upd hr ws)⟩

/-- …and for later appends and inserts, in capacity or not. -/
theorem C20_later_ops (extra : Nat) {h : Heap T} {r s : Slice} (hr : Valid h r) (hs : Valid h s)
    (hi : Independent h r s) (o : Op T) :
    (((s.len + 1 + extra : Nat) : Int) < 9223372036854775808 →
      contents (o.run extra s h).2 r = contents h r) ∧
    (((r.len + 1 + extra : Nat) : Int) < 9223372036854775808 →
      contents (o.run extra r h).2 s = contents h s) := by
  have key : ∀ s : Slice, s.len ≤ s.cap → ∀ a k, Cells s (if o.grows = true then s.len + 1 else s.len) a k ∧
      ¬ (o.grows = true ∧ s.cap < s.len + 1) → Cells s s.cap a k := by
    rintro s hcap a k ⟨⟨off, e, h1, h2⟩, hn⟩
    refine ⟨off, e, h1, ?_⟩
    split at h2
    · rename_i hg
      have : ¬ s.cap < s.len + 1 := fun h => hn ⟨hg, h⟩
      omega
    · omega
  constructor
  · intro hb
    exact hi.1 _ ((C17_writes_in_window extra h s hs o hb).1.mono fun a k _ hw => key s hs.1 a k hw)
  · intro hb
    exact hi.2 _ ((C17_writes_in_window extra h r hr o hb).1.mono fun a k _ hw => key r hr.1 a k hw)

example : (match reversed exSlice exHeap with
    | (.ok r, h) => (contents h r, contents (stores r [(0, 5), (1, 6)] h) exSlice,
        contents (stores exSlice [(0, 5), (1, 6)] h) r)
    | _ => ([], [], [])) = ([13, 12, 11], [11, 12, 13], [13, 12, 11]) := by decide
/-- Two windows of one array are not independent: `Independent` is not vacuous. -/
example : ¬ Independent exHeap exSlice ⟨.arr 0 3, 1, 1⟩ := by
  intro hi
  have h1 := (C20_later_writes exSlice_valid (s := ⟨.arr 0 3, 1, 1⟩)
    ⟨by decide, by decide, [10, 11, 12, 13, 14, 15], rfl, by decide⟩ hi [(0, 5)]).1
  revert h1; decide

/-! ## C21: `NewLenCap` -/

/-- The full C21: both constructors give the requested length, zero values, and the capacity. It does
not hold for `xslice.NewLenCap` (`C21_newLenCap_false`). -/
def C21_full (T : Type) [Inhabited T] : Prop :=
  (∀ (len cap : Nat) (h : Heap T), len ≤ cap → (cap : Int) < 9223372036854775808 →
    ∃ s h', newLenCap len cap h = (.ok s, h') ∧ s.len = len ∧ cap ≤ s.cap ∧
      contents h' s = List.replicate len default) ∧
  (∀ len cap : Nat, len ≤ cap → ∃ r : Ring.Ring T, Ring.newLenCap len cap = .ok r ∧ Ring.Len r = len ∧
    (Ring.toSlice r none).map (fun p => p.1.getD []) = .ok (List.replicate len default))

/-- **C21** as far as it holds: the ring constructor always; the slice constructor when `len = cap`.
Missing: `len < cap` for slices, where the claim is false. -/
theorem C21_newLenCap_partial (len cap : Nat) (hlc : len ≤ cap) (hb : (cap : Int) < 9223372036854775808) :
    (∀ h : Heap T, len = cap → ∃ s h', newLenCap len cap h = (.ok s, h') ∧ s.len = len ∧ cap ≤ s.cap ∧
      contents h' s = List.replicate len default ∧ Upd (fun _ _ => False) h h') ∧
    (∃ r : Ring.Ring T, Ring.newLenCap len cap = .ok r ∧ Ring.Len r = len ∧
      (Ring.toSlice r none).map (fun p => p.1.getD []) = .ok (List.replicate len default)) := by
  constructor
  · rintro h rfl
    obtain ⟨s, h', e, _, hl, hcap, hc, _, u⟩ := makeSlice_spec h hb
    exact ⟨s, h', e, hl, by omega, hc, u⟩
  · refine ⟨_, by unfold Ring.newLenCap; rw [if_pos hlc], rfl, ?_⟩
    rw [Ring.toSlice_none_eq (by simp [Ring.WF])]
    simp only [Ring.contents, List.drop_zero, List.take_zero, List.append_nil, Except.map]
    rw [List.take_of_length_le (by simp)]
    by_cases h0 : len = 0 <;> simp [h0]

/-- For `len < cap` the slice has length `cap` instead. -/
theorem C21_newLenCap_wrong (len cap : Nat) (h : Heap T) (hlc : len < cap)
    (hb : (cap : Int) < 9223372036854775808) :
    ∃ s h', newLenCap len cap h = (.ok s, h') ∧ s.len = cap ∧ s.len ≠ len := by
  obtain ⟨s, h', e, _, hl, _⟩ := makeSlice_spec h (n := cap) hb
  exact ⟨s, h', e, hl, by omega⟩

/-- Hence the full C21 is false for the code as it is. -/
theorem C21_newLenCap_false : ¬ C21_full Nat := by
  intro hf
  obtain ⟨s, h', e, hl, _⟩ := hf.1 0 1 [] (by decide) (by decide)
  obtain ⟨s1, h1, e1, _, hne⟩ := C21_newLenCap_wrong (T := Nat) 0 1 [] (by decide) (by decide)
  rw [e] at e1
  injection e1 with e1 _
  injection e1 with e1
  subst e1
  exact hne hl

/-- `NewLen` gives what was asked for. -/
theorem C21_newLen (len : Nat) (hb : (len : Int) < 9223372036854775808) (h : Heap T) :
    ∃ s h', newLen len h = (.ok s, h') ∧ Valid h' s ∧ s.len = len ∧
      contents h' s = List.replicate len default ∧ Upd (fun _ _ => False) h h' := by
  obtain ⟨s, h', e, hv, hl, _, hc, _, u⟩ := makeSlice_spec h hb
  exact ⟨s, h', e, hv, hl, hc, u⟩

end Verif.Slice
