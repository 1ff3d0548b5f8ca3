import Verif.Slice.Stale

/-!
# C137: element access, and sub-slices that share an array

`Sub` gives a slice that shares its array with the one it was taken from. The specification keeps the cells of the shared
array and, for each of any number of slice variables, where its view begins and either how long it is or, once it has
grown out of the shared array, its own list.
-/

namespace Verif.Slice.Views

open Verif.Iter Verif.Slice Verif.Slice.Stale

variable {T ι : Type}
set_option linter.unusedSectionVars false

section model
variable [Inhabited T]

/-- ds/xslice/slice.go:67-69 `Len`. -/
def len (s : Slice) : Int := s.len

/-- ds/xslice/slice.go:71-73 `Cap`. -/
def cap (s : Slice) : Int := s.cap

/-- ds/xslice/slice.go:75-77 `Empty`. -/
def empty (s : Slice) : Bool := s.len == 0

/-- ds/xslice/slice.go:79-81 `Sub`. -/
def sub (s : Slice) (start stop : Int) : Go Slice := reslice s start stop

/-- ds/xslice/slice.go:87-89 `At`. -/
def get (s : Slice) (i : Int) : St (Heap T) T := load s i

/-- ds/xslice/slice.go:91-93 `Set`. -/
def set (s : Slice) (i : Int) (x : T) : St (Heap T) Unit := store s i x

/-- ds/xslice/slice.go:95-97 `First`. -/
def first (s : Slice) : St (Heap T) T := load s 0

/-- ds/xslice/slice.go:99-101 `Last`. -/
def last (s : Slice) : St (Heap T) T := load s (len s - 1)

/-- The memory, and slice variables named by `ι`. -/
structure State (T ι : Type) where
  heap : Heap T
  var : ι → Slice

/-- Give one name a new value. -/
def put {α : Type} [DecidableEq ι] (f : ι → α) (i : ι) (x : α) : ι → α := fun j => if j = i then x else f j

/-- A call on variable `i`, or on iterators made from it at the start, when it held `u i`; the calls are those of
`Verif.Slice.Stale.Call`. -/
def call [DecidableEq ι] (u : ι → Slice) (i : ι) (c : Call T) (extra : Nat) (m : State T ι) : Go (Res T) × State T ι :=
  ((c.run (u i) extra ⟨m.heap, m.var i⟩).1,
    ⟨(c.run (u i) extra ⟨m.heap, m.var i⟩).2.heap, put m.var i (c.run (u i) extra ⟨m.heap, m.var i⟩).2.var⟩)

/-- A history of calls. -/
def runAll [DecidableEq ι] (u : ι → Slice) : List (ι × Call T × Nat) → State T ι → List (Go (Res T)) × State T ι
  | [], m => ([], m)
  | (i, c, e) :: cs, m => ((call u i c e m).1 :: (runAll u cs (call u i c e m).2).1, (runAll u cs (call u i c e m).2).2)

end model

/-! ## Specification -/

/-- The shared cells; the list of variable `i` is the cells from `at i` on, as many as `cur i` says, or a list of its
own. -/
structure Shared (T ι : Type) where
  cells : List T
  cur : ι → Nat ⊕ List T

/-- What variable `i` sees. -/
def Shared.view (a : ι → Nat) (t : Shared T ι) (i : ι) : Two T := ⟨t.cells.drop (a i), t.cur i⟩

/-- The list in variable `i`. -/
def Shared.list (a : ι → Nat) (t : Shared T ι) (i : ι) : List T := (t.view a i).list

/-- A call on variable `i` changes what it sees and nothing else. -/
def Shared.call [Inhabited T] [DecidableEq ι] (a n : ι → Nat) (t : Shared T ι) (i : ι) (c : Call T) :
    Go (Res T) × Shared T ι :=
  (((t.view a i).call (n i) c).1,
    ⟨t.cells.take (a i) ++ ((t.view a i).call (n i) c).2.cells, put t.cur i ((t.view a i).call (n i) c).2.cur⟩)

/-- A history. -/
def specAll [Inhabited T] [DecidableEq ι] (a n : ι → Nat) :
    List (ι × Call T × Nat) → Shared T ι → List (Go (Res T)) × Shared T ι
  | [], t => ([], t)
  | (i, c, _) :: cs, t =>
    ((t.call a n i c).1 :: (specAll a n cs (t.call a n i c).2).1, (specAll a n cs (t.call a n i c).2).2)

/-- All lengths and capacities are Go `int`s. -/
def Fits [Inhabited T] [DecidableEq ι] (a n : ι → Nat) : List (ι × Call T × Nat) → Shared T ι → Prop
  | [], _ => True
  | (i, c, e) :: cs, t =>
    (((t.list a i).length + c.adds + e : Nat) : Int) < 9223372036854775808 ∧ Fits a n cs (t.call a n i c).2

/-! ## Proof -/

section proof
variable [Inhabited T]

theorem onVar_frame {f : Slice → St (Heap T) Slice} {m : Mem T} {W : Nat → Nat → Prop}
    (H : ∃ r h', f m.var m.heap = (r, h') ∧ Upd W m.heap h' ∧
      ∀ s', r = .ok s' → s'.ptr = m.var.ptr ∨ s'.ptr = .arr m.heap.length 0) :
    Upd W m.heap (onVar f m).2.heap ∧
      ((onVar f m).2.var.ptr = m.var.ptr ∨ (onVar f m).2.var.ptr = .arr m.heap.length 0) := by
  obtain ⟨r, h', e, u, hp⟩ := H
  unfold onVar
  rw [e]
  cases r with
  | ok s' => exact ⟨u, hp s' rfl⟩
  | error _ => exact ⟨u, .inl rfl⟩

theorem bind_frame {α β : Type} (x : St (Mem T) α) (g : α → β) (m : Mem T) :
    ((do let y ← x; return g y : St (Mem T) β) m).2 = (x m).2 := by
  show ((x >>= fun y => pure (g y)) m).2 = _
  cases e : x m with
  | mk r m' =>
    cases r with
    | ok y => rw [St.bind_ok e]; rfl
    | error _ => rw [St.bind_error e]

theorem bind_frame_heap {α β : Type} (x : St (Heap T) α) (g : α → β) (h : Heap T) :
    ((do let y ← x; return g y : St (Heap T) β) h).2 = (x h).2 := by
  show ((x >>= fun y => pure (g y)) h).2 = _
  cases e : x h with
  | mk r m' =>
    cases r with
    | ok y => rw [St.bind_ok e]; rfl
    | error _ => rw [St.bind_error e]

theorem load_snd (s : Slice) (i : Int) (h : Heap T) : (load s i h).2 = h := by
  unfold load
  split
  · split <;> rfl
  · rfl

theorem win_mono {s : Slice} {n m a k : Nat} (h : n ≤ m) (w : Win s n a k) : Win s m a k := by
  obtain ⟨off, e, h1, h2⟩ := w
  exact ⟨off, e, h1, by omega⟩

/-- What a call may write: the cells of the storage, and those of the variable. -/
theorem frame {s : Slice} {m : Mem T} (hs : Valid m.heap s) (hv : Valid m.heap m.var) (c : Call T) (extra : Nat)
    (hb : ((m.var.len + c.adds + extra : Nat) : Int) < 9223372036854775808) :
    Upd (fun a k => Win s s.cap a k ∨ Win m.var m.var.cap a k) m.heap (c.run s extra m).2.heap ∧
      ((c.run s extra m).2.var.ptr = m.var.ptr ∨ (c.run s extra m).2.var.ptr = .arr m.heap.length 0) := by
  have ins : ∀ i v, ((m.var.len + 1 + extra : Nat) : Int) < 9223372036854775808 →
      Upd (fun a k => Win s s.cap a k ∨ Win m.var m.var.cap a k) m.heap (varInsertAt ⟨fun _ => extra⟩ i v m).2.heap ∧
      ((varInsertAt ⟨fun _ => extra⟩ i v m).2.var.ptr = m.var.ptr ∨
        (varInsertAt ⟨fun _ => extra⟩ i v m).2.var.ptr = .arr m.heap.length 0) := by
    intro i v hb
    refine onVar_frame ?_
    by_cases hi : 0 ≤ i ∧ i ≤ m.var.len
    · obtain ⟨s', h', e, hv', hl', hc', hin, hout⟩ := insert_spec extra hv v (i := i.toNat) (by omega) (by omega)
      rw [show ((i.toNat : Nat) : Int) = i by omega] at e
      refine ⟨_, _, e, ?_, ?_⟩
      · by_cases hcap : m.var.len + 1 ≤ m.var.cap
        · exact (hin hcap).2.2.mono fun a k _ w => .inr (win_mono hcap w)
        · exact (hout (by omega)).2.mono fun _ _ _ w => w.elim
      · rintro _ ⟨⟩
        by_cases hcap : m.var.len + 1 ≤ m.var.cap
        · exact .inl (hin hcap).1
        · exact .inr (hout (by omega)).1
    · refine ⟨.error "insert out of bound", m.heap, ?_, Upd.refl _ _, by rintro _ ⟨⟩⟩
      unfold Slice.insert
      rw [if_pos (by omega)]
      rfl
  cases c with
  | append vs =>
    simp only [Call.run]
    rw [bind_frame]
    refine onVar_frame ?_
    obtain ⟨s', h', e, hv', hl', hc', hin, hout⟩ := appendMany_spec extra hv vs hb
    refine ⟨_, _, e, ?_, ?_⟩
    · by_cases hcap : m.var.len + vs.length ≤ m.var.cap
      · refine (hin hcap).2.2.mono fun a k _ w => .inr ?_
        obtain ⟨off, e, h1, h2⟩ := w
        exact ⟨off, e, by omega, by omega⟩
      · exact (hout (by omega)).2.mono fun _ _ _ w => w.elim
    · rintro _ ⟨⟩
      by_cases hcap : m.var.len + vs.length ≤ m.var.cap
      · exact .inl (hin hcap).1
      · exact .inr (hout (by omega)).1
  | insertAt i v =>
    simp only [Call.run]
    rw [bind_frame]
    exact ins i v hb
  | delete i =>
    simp only [Call.run]
    rw [bind_frame]
    refine onVar_frame ?_
    by_cases hi : 0 ≤ i ∧ i < m.var.len
    · obtain ⟨s', h', e, hv', hl', hcap, hp, hc', u, -⟩ := delete_spec' hv (i := i.toNat) (by omega)
      rw [show ((i.toNat : Nat) : Int) = i by omega] at e
      exact ⟨_, _, e, u.mono fun a k _ w => .inr (win_mono hv.1 w), by rintro _ ⟨⟩; exact .inl hp⟩
    · refine ⟨.error "delete out of bound", m.heap, ?_, Upd.refl _ _, by rintro _ ⟨⟩⟩
      unfold Slice.delete
      rw [if_pos (by omega)]
      rfl
  | unorderedDelete i =>
    simp only [Call.run]
    rw [bind_frame]
    refine onVar_frame ?_
    by_cases hi : 0 ≤ i ∧ i < m.var.len
    · obtain ⟨s', h', e, hv', hl', hcap, hp, hc', u, -⟩ := unorderedDelete_spec' hv (i := i.toNat) (by omega)
      rw [show ((i.toNat : Nat) : Int) = i by omega] at e
      exact ⟨_, _, e, u.mono fun a k _ w => .inr (win_mono hv.1 w), by rintro _ ⟨⟩; exact .inl hp⟩
    · refine ⟨.error "delete out of bound", m.heap, ?_, Upd.refl _ _, by rintro _ ⟨⟩⟩
      unfold Slice.unorderedDelete
      rw [if_pos (by omega)]
      rfl
  | deleteLast =>
    simp only [Call.run]
    rw [bind_frame]
    refine onVar_frame ?_
    by_cases hi : 0 < m.var.len
    · obtain ⟨s', e, hv', hl', hcap, hp, hc'⟩ := deleteLast_spec hv hi
      exact ⟨_, _, e, Upd.refl _ _, by rintro _ ⟨⟩; exact .inl hp⟩
    · refine ⟨.error "delete from empty slice", m.heap, ?_, Upd.refl _ _, by rintro _ ⟨⟩⟩
      unfold Slice.deleteLast
      rw [if_pos (by omega)]
      rfl
  | «at» i =>
    refine ⟨?_, .inl rfl⟩
    simp only [Call.run, onHeap]
    rw [bind_frame_heap, load_snd]
    exact Upd.refl _ _
  | setAt i v =>
    refine ⟨?_, .inl rfl⟩
    simp only [Call.run, onHeap]
    rw [bind_frame_heap]
    unfold store
    split
    · refine (poke_win hv (i := i.toNat) (l := [v]) (n := m.var.cap) ?_ (Nat.le_refl _)).mono fun a k _ w => .inr w
      have := hv.1
      simp; omega
    · exact Upd.refl _ _
  | get p =>
    refine ⟨?_, .inl rfl⟩
    simp only [Call.run, onHeap]
    rw [bind_frame_heap]
    have : (Iter.get (⟨p, s⟩ : SIter T) m.heap).2 = m.heap := load_snd s p m.heap
    rw [this]
    exact Upd.refl _ _
  | set p v =>
    refine ⟨?_, .inl rfl⟩
    simp only [Call.run, onHeap]
    rw [bind_frame_heap]
    show Upd _ _ (store s p v m.heap).2
    unfold store
    split
    · refine (poke_win hs (i := p.toNat) (l := [v]) (n := s.cap) ?_ (Nat.le_refl _)).mono fun a k _ w => .inl w
      have := hs.1
      simp; omega
    · exact Upd.refl _ _
  | equal p i => exact ⟨Upd.refl _ _, .inl rfl⟩
  | insert p v =>
    simp only [Call.run]
    rw [bind_frame]
    unfold varInsert
    split
    · exact ⟨Upd.refl _ _, .inl rfl⟩
    · have := ins p v hb
      dsimp only
      revert this
      cases e : varInsertAt (T := T) ⟨fun _ => extra⟩ p v m with
      | mk r m' => cases r <;> exact id

/-! ### `Sub` -/

/-- The view of a slice beginning at `a`, of length `n`. -/
def viewOf (s : Slice) (a n : Nat) : Slice :=
  ⟨match s.ptr with
    | .arr x off => if s.cap - a = 0 then .arr x off else .arr x (off + a)
    | p => p, n, s.cap - a⟩

theorem sub_eq (s : Slice) (a b : Int) :
    sub s a b = if 0 ≤ a ∧ a ≤ b ∧ b ≤ s.cap then .ok (viewOf s a.toNat (b - a).toNat)
      else .error "slice bounds out of range" := rfl

theorem viewOf_valid {h : Heap T} {s : Slice} (hv : Valid h s) {a n : Nat} (hn : a + n ≤ s.cap) : Valid h (viewOf s a n) := by
  obtain ⟨h1, h2, h3⟩ := hv
  refine ⟨by simp only [viewOf]; omega, by simp only [viewOf]; omega, ?_⟩
  unfold viewOf
  cases hp : s.ptr with
  | nil => rw [hp] at h3; simp at h3; simp; omega
  | zero => rw [hp] at h3; simp at h3; simp; omega
  | arr x off =>
    rw [hp] at h3
    obtain ⟨A, hA, hl⟩ := h3
    dsimp only
    by_cases c : s.cap - a = 0
    · rw [if_pos c]; exact ⟨A, hA, by omega⟩
    · rw [if_neg c]; exact ⟨A, hA, by omega⟩

theorem viewOf_contents {h : Heap T} {s : Slice} {a n : Nat} (hn : a + n ≤ s.cap) :
    contents h (viewOf s a n) = ((contents h (full s)).drop a).take n := by
  unfold viewOf full contents
  cases hp : s.ptr with
  | nil => simp
  | zero => simp
  | arr x off =>
    dsimp only
    by_cases c : s.cap - a = 0
    · rw [if_pos c]
      have : n = 0 := by omega
      subst this
      simp
    · rw [if_neg c]
      dsimp only
      show window (h[x]?.getD []) (off + a) n = window (window (h[x]?.getD []) off s.cap) a n
      apply List.ext_getElem?
      intro k
      rw [getElem?_window, getElem?_window, getElem?_window]
      by_cases c1 : k < n
      · rw [if_pos c1, if_pos c1, if_pos (by omega)]; congr 1; omega
      · rw [if_neg c1, if_neg c1]

theorem viewOf_full {h : Heap T} {s : Slice} (hv : Valid h s) {a n : Nat} (hn : a + n ≤ s.cap) :
    contents h (full (viewOf s a n)) = (contents h (full s)).drop a := by
  have e : full (viewOf s a n) = viewOf s a (s.cap - a) := rfl
  rw [e, viewOf_contents (by omega)]
  apply List.take_of_length_le
  rw [List.length_drop, length_contents (valid_full hv)]
  exact Nat.le_refl _

/-- The cells of a view are cells of the slice, from `a` on. -/
theorem viewOf_win {s : Slice} {a n x k : Nat} (w : Win (viewOf s a n) (viewOf s a n).cap x k) :
    ∃ off, s.ptr = .arr x off ∧ off + a ≤ k := by
  obtain ⟨off, e, h1, h2⟩ := w
  unfold viewOf at e h2
  cases hp : s.ptr with
  | nil => rw [hp] at e; cases e
  | zero => rw [hp] at e; cases e
  | arr y o =>
    rw [hp] at e
    dsimp only at e h2
    by_cases c : s.cap - a = 0
    · omega
    · rw [if_neg c] at e
      injection e with e1 e2
      subst e1
      exact ⟨o, rfl, by omega⟩

theorem viewOf_ptr {s : Slice} {a n x off : Nat} (e : (viewOf s a n).ptr = .arr x off) : ∃ o, s.ptr = .arr x o := by
  unfold viewOf at e
  cases hp : s.ptr with
  | nil => rw [hp] at e; cases e
  | zero => rw [hp] at e; cases e
  | arr y o =>
    rw [hp] at e
    dsimp only at e
    split at e
    · injection e with e1 e2; subst e1; exact ⟨_, rfl⟩
    · injection e with e1 e2; subst e1; exact ⟨_, rfl⟩

/-! ### Any number of views -/

/-- The memory fits the specification. -/
structure Rep (s : Slice) (a n : ι → Nat) (m : State T ι) (t : Shared T ι) : Prop where
  valid : Valid m.heap s
  cells : contents m.heap (full s) = t.cells
  cur : ∀ i, match t.cur i with
    | .inl l => m.var i = ⟨(viewOf s (a i) (n i)).ptr, l, s.cap - a i⟩ ∧ l ≤ s.cap - a i
    | .inr l => Valid m.heap (m.var i) ∧ contents m.heap (m.var i) = l ∧
      ∃ x, (m.var i).ptr = .arr x 0 ∧ ∀ off, s.ptr ≠ .arr x off
  apart : ∀ i j x, i ≠ j → (∃ l, t.cur i = .inr l) → (∃ l, t.cur j = .inr l) →
    (m.var i).ptr = .arr x 0 → (m.var j).ptr ≠ .arr x 0

theorem Rep.one {s : Slice} {a n : ι → Nat} {m : State T ι} {t : Shared T ι} (r : Rep s a n m t)
    (hn : ∀ i, a i + n i ≤ s.cap) (i : ι) :
    Stale.Rep (viewOf s (a i) (n i)) ⟨m.heap, m.var i⟩ (t.view a i) := by
  refine ⟨viewOf_valid r.valid (hn i), ?_, ?_⟩
  · show contents m.heap (full (viewOf s (a i) (n i))) = t.cells.drop (a i)
    rw [viewOf_full r.valid (hn i), r.cells]
  · have := r.cur i
    show match t.cur i with
      | .inl l => _
      | .inr l => _
    cases ht : t.cur i with
    | inl l => rw [ht] at this; exact this
    | inr l =>
      rw [ht] at this
      obtain ⟨h1, h2, x, h3, h4⟩ := this
      refine ⟨h1, h2, x, h3, fun off e => ?_⟩
      obtain ⟨o, e⟩ := viewOf_ptr e
      exact h4 o e

variable [DecidableEq ι]

theorem put_same {α : Type} (f : ι → α) (i : ι) (x : α) : put f i x i = x := if_pos rfl

theorem put_other {α : Type} (f : ι → α) {i j : ι} (x : α) (h : j ≠ i) : put f i x j = f j := if_neg h

/-- The cells of the whole when the view from `a` on changed. -/
theorem whole {h h' : Heap T} {s : Slice} (hv : Valid h s) {a n : Nat} (hn : a + n ≤ s.cap) {W : Nat → Nat → Prop}
    (u : Upd W h h') (hw : ∀ x k off, s.ptr = .arr x off → W x k → off + a ≤ k) :
    contents h' (full s) = (contents h (full s)).take a ++ contents h' (full (viewOf s a n)) := by
  rw [viewOf_full (u.valid hv) hn, ← List.take_append_drop a (contents h' (full s))]
  congr 1
  · have e : ∀ g : Heap T, (contents g (full s)).take a = contents g ⟨s.ptr, a, s.cap⟩ := fun g =>
      (contents_len g s.ptr a s.cap s.cap s.cap (by omega)).symm
    rw [e, e]
    refine u.contents (valid_len hv (by omega)) ?_
    rintro x k ⟨off, e1, h1, h2⟩ w
    have := hw x k off e1 w
    dsimp only at h2
    omega
  · rw [List.take_append_drop]

theorem step {s : Slice} {a n : ι → Nat} {m : State T ι} {t : Shared T ι} (r : Rep s a n m t)
    (hn : ∀ i, a i + n i ≤ s.cap) (i : ι) (c : Call T) (extra : Nat)
    (hb : (((t.list a i).length + c.adds + extra : Nat) : Int) < 9223372036854775808) :
    (call (fun i => viewOf s (a i) (n i)) i c extra m).1 = (t.call a n i c).1 ∧
      Rep s a n (call (fun i => viewOf s (a i) (n i)) i c extra m).2 (t.call a n i c).2 := by
  have r1 := r.one hn i
  obtain ⟨m', e, r'⟩ := run_call r1 (viewOf_valid r.valid (hn i)).1 c extra hb
  rw [show (viewOf s (a i) (n i)).len = n i from rfl] at e r'
  have hl := r1.len
  have fr := frame (m := ⟨m.heap, m.var i⟩) (viewOf_valid r.valid (hn i)) r1.var.1 c extra (by
    rw [← hl]; exact hb)
  obtain ⟨u, hp⟩ := fr
  unfold call Shared.call
  dsimp only
  rw [e] at u hp ⊢
  dsimp only at u hp ⊢
  refine ⟨rfl, ?_⟩
  -- what was written
  have hw : ∀ x k off, s.ptr = .arr x off →
      Win (viewOf s (a i) (n i)) (viewOf s (a i) (n i)).cap x k ∨ Win (m.var i) (m.var i).cap x k → off + a i ≤ k := by
    rintro x k off es (w | w)
    · obtain ⟨o, e1, h1⟩ := viewOf_win w
      rw [es] at e1
      injection e1 with _ e2
      omega
    · have hc := r.cur i
      cases ht : t.cur i with
      | inl l =>
        rw [ht] at hc
        obtain ⟨ev, _⟩ := hc
        have w' : Win (viewOf s (a i) (n i)) (viewOf s (a i) (n i)).cap x k := by
          obtain ⟨o, e1, h1, h2⟩ := w
          rw [ev] at e1 h2
          exact ⟨o, e1, h1, h2⟩
        obtain ⟨o, e1, h1⟩ := viewOf_win w'
        rw [es] at e1
        injection e1 with _ e2
        omega
      | inr l =>
        rw [ht] at hc
        obtain ⟨_, _, y, e1, hd⟩ := hc
        obtain ⟨o, e2, h1, h2⟩ := w
        rw [e1] at e2
        injection e2 with e2 e3
        subst e2
        exact absurd es (hd off)
  have hv' : Valid m'.heap s := u.valid r.valid
  have lt : ∀ {z : Slice} {x off : Nat}, Valid m.heap z → z.ptr = .arr x off → x < m.heap.length := by
    intro z x off hz ez
    have := hz.2.2
    rw [ez] at this
    obtain ⟨A, hA, -⟩ := this
    exact (List.getElem?_eq_some_iff.1 hA).1
  have rc := r'.cur
  -- the array of a detached variable `i`
  have hi : ∀ x, (∃ l, ((t.view a i).call (n i) c).2.cur = .inr l) → m'.var.ptr = .arr x 0 →
      x = m.heap.length ∨ ((∃ l, t.cur i = .inr l) ∧ (m.var i).ptr = .arr x 0) := by
    rintro x ⟨l, hl'⟩ hx
    rw [hl'] at rc
    obtain ⟨_, _, y, e1, hd⟩ := rc
    rw [hx] at e1
    injection e1 with e1
    subst e1
    rcases hp with hp | hp
    · right
      rw [hp] at hx
      refine ⟨?_, hx⟩
      cases ht : t.cur i with
      | inr l => exact ⟨l, rfl⟩
      | inl l =>
        have hc := r.cur i
        rw [ht] at hc
        obtain ⟨ev, _⟩ := hc
        rw [ev] at hx
        exact absurd hx (hd 0)
    · left
      rw [hp] at hx
      injection hx with h1
      exact h1.symm
  refine ⟨hv', ?_, ?_, ?_⟩
  · show contents m'.heap (full s) = _
    rw [whole r.valid (hn i) u hw, r.cells, r'.cells]
  · intro j
    by_cases hj : j = i
    · subst hj
      simp only [put_same]
      revert rc
      cases ((t.view a j).call (n j) c).2.cur with
      | inl l => exact fun rc => rc
      | inr l =>
        rintro ⟨h1, h2, x, h3, h4⟩
        refine ⟨h1, h2, x, h3, ?_⟩
        intro off es
        rcases hp with hp | hp
        · -- the old array
          rw [h3] at hp
          have hc := r.cur j
          cases ht : t.cur j with
          | inl l =>
            rw [ht] at hc
            obtain ⟨ev, _⟩ := hc
            rw [ev] at hp
            exact h4 0 hp.symm
          | inr l =>
            rw [ht] at hc
            obtain ⟨_, _, y, e1, hd⟩ := hc
            rw [e1] at hp
            injection hp with hp
            subst hp
            exact hd _ es
        · rw [h3] at hp
          injection hp with hp
          subst hp
          have := lt r.valid es
          omega
    · simp only [put_other _ _ hj]
      have hc := r.cur j
      cases ht : t.cur j with
      | inl l => rw [ht] at hc; exact hc
      | inr l =>
        rw [ht] at hc
        obtain ⟨h1, h2, x, h3, h4⟩ := hc
        refine ⟨u.valid h1, ?_, x, h3, h4⟩
        rw [← h2]
        refine u.contents h1 ?_
        rintro y k ⟨off, e1, h5, h6⟩ w
        rw [h3] at e1
        injection e1 with e1 e2
        subst e1 e2
        rcases w with w | w
        · obtain ⟨o, e1, _⟩ := viewOf_win w
          exact h4 o e1
        · obtain ⟨o, e1, _⟩ := w
          have hc := r.cur i
          cases ht' : t.cur i with
          | inl l' =>
            rw [ht'] at hc
            obtain ⟨ev, _⟩ := hc
            rw [ev] at e1
            obtain ⟨o, e1⟩ := viewOf_ptr e1
            exact h4 o e1
          | inr l' =>
            rw [ht'] at hc
            obtain ⟨_, _, y, e2, _⟩ := hc
            rw [e1] at e2
            injection e2 with e2 e3
            subst e2 e3
            exact r.apart j i _ hj ⟨l, ht⟩ ⟨l', ht'⟩ h3 e1
  · intro j k x hjk hj hk ej ek
    dsimp only at hj hk ej ek
    have main : ∀ j, j ≠ i → (∃ l, t.cur j = .inr l) → (m.var j).ptr = .arr x 0 →
        (∃ l, ((t.view a i).call (n i) c).2.cur = .inr l) → m'.var.ptr = .arr x 0 → False := by
      intro j hji hj ej hk ek
      rcases hi x hk ek with h | ⟨h1, h2⟩
      · obtain ⟨l, hl'⟩ := hj
        have hc := r.cur j
        rw [hl'] at hc
        have := lt hc.1 ej
        omega
      · exact r.apart j i x hji hj h1 ej h2
    by_cases h1 : j = i
    · subst h1
      have h2 : k ≠ j := fun h => hjk h.symm
      rw [put_same] at hj ej
      rw [put_other _ _ h2] at hk ek
      exact main k h2 hk ek hj ej
    · rw [put_other _ _ h1] at hj ej
      by_cases h2 : k = i
      · subst h2
        rw [put_same] at hk ek
        exact main j h1 hj ej hk ek
      · rw [put_other _ _ h2] at hk ek
        exact r.apart j k x hjk hj hk ej ek

theorem run_all {s : Slice} {a n : ι → Nat} (hn : ∀ i, a i + n i ≤ s.cap) (cs : List (ι × Call T × Nat)) :
    ∀ {m : State T ι} {t : Shared T ι}, Rep s a n m t → Fits a n cs t →
      (runAll (fun i => viewOf s (a i) (n i)) cs m).1 = (specAll a n cs t).1 ∧
        Rep s a n (runAll (fun i => viewOf s (a i) (n i)) cs m).2 (specAll a n cs t).2 := by
  induction cs with
  | nil => intro m t r _; exact ⟨rfl, r⟩
  | cons c cs ih =>
    obtain ⟨i, c, e⟩ := c
    intro m t r hf
    obtain ⟨hb, hf⟩ := hf
    obtain ⟨h1, r'⟩ := step r hn i c e hb
    obtain ⟨h2, r''⟩ := ih r' hf
    simp only [runAll, specAll]
    exact ⟨by rw [h1, h2], r''⟩

/-- The start: each variable sees its part of the cells. -/
def start (h : Heap T) (s : Slice) (n : ι → Nat) : Shared T ι := ⟨contents h ⟨s.ptr, s.cap, s.cap⟩, fun i => .inl (n i)⟩

/-- **C137.** `Sub` returns exactly for `0 ≤ start ≤ end ≤ cap`, and the result holds the cells from `start` to `end` of
all the capacity; up to the length these are the elements. -/
theorem C137_sub (h : Heap T) (s : Slice) (hv : Valid h s) (a b : Int) :
    (0 ≤ a ∧ a ≤ b ∧ b ≤ s.cap → ∃ u, sub s a b = .ok u ∧ Valid h u ∧ u.len = (b - a).toNat ∧ u.cap = s.cap - a.toNat ∧
      contents h u = ((contents h ⟨s.ptr, s.cap, s.cap⟩).drop a.toNat).take (b - a).toNat ∧
      (b ≤ s.len → contents h u = ((contents h s).drop a.toNat).take (b - a).toNat)) ∧
    (¬ (0 ≤ a ∧ a ≤ b ∧ b ≤ s.cap) → sub s a b = .error "slice bounds out of range") := by
  rw [sub_eq]
  constructor
  · intro hab
    rw [if_pos hab]
    have hn : a.toNat + (b - a).toNat ≤ s.cap := by omega
    refine ⟨_, rfl, viewOf_valid hv hn, rfl, rfl, viewOf_contents hn, fun hb => ?_⟩
    rw [viewOf_contents hn, show contents h s = (contents h (full s)).take s.len from
      contents_len h s.ptr s.len s.cap s.cap s.cap hv.1]
    apply List.ext_getElem?
    intro k
    rw [List.getElem?_take, List.getElem?_take]
    split
    · rw [List.getElem?_drop, List.getElem?_drop, List.getElem?_take, if_pos (by omega)]
    · rfl
  · exact fun hab => if_neg hab

/-- **C137.** Any number of variables holding sub-slices of one slice (the slice itself may be one of them), any history of
calls on them and on their iterators: results, panics, the list in every variable and the shared cells are as specified. -/
theorem C137_views (h : Heap T) (s : Slice) (hv : Valid h s) (a b : ι → Nat) (hab : ∀ i, a i ≤ b i ∧ b i ≤ s.cap)
    (u : ι → Slice) (hu : ∀ i, sub s (a i) (b i) = .ok (u i)) (cs : List (ι × Call T × Nat))
    (hf : Fits a (fun i => b i - a i) cs (start h s fun i => b i - a i)) :
    (runAll u cs ⟨h, u⟩).1 = (specAll a (fun i => b i - a i) cs (start h s fun i => b i - a i)).1 ∧
    (∀ i, Valid (runAll u cs ⟨h, u⟩).2.heap ((runAll u cs ⟨h, u⟩).2.var i) ∧
      contents (runAll u cs ⟨h, u⟩).2.heap ((runAll u cs ⟨h, u⟩).2.var i) =
        (specAll a (fun i => b i - a i) cs (start h s fun i => b i - a i)).2.list a i) ∧
    contents (runAll u cs ⟨h, u⟩).2.heap ⟨s.ptr, s.cap, s.cap⟩ =
      (specAll a (fun i => b i - a i) cs (start h s fun i => b i - a i)).2.cells := by
  have hu' : u = fun i => viewOf s (a i) (b i - a i) := by
    funext i
    have e := hu i
    have := hab i
    rw [sub_eq, if_pos (by omega)] at e
    injection e with e
    rw [← e]
    congr 1
    omega
  have hn : ∀ i, a i + (b i - a i) ≤ s.cap := fun i => by have := hab i; omega
  have r0 : Rep s a (fun i => b i - a i) ⟨h, u⟩ (start h s fun i => b i - a i) := by
    refine ⟨hv, rfl, fun i => ?_, ?_⟩
    · show u i = _ ∧ _
      rw [hu']
      exact ⟨rfl, by have := hab i; dsimp only; omega⟩
    · rintro i j x - ⟨l, hl⟩
      cases hl
  rw [hu'] at r0 ⊢
  obtain ⟨h1, r⟩ := run_all hn cs r0 hf
  exact ⟨h1, fun i => (r.one hn i).var, r.cells⟩

/-! ## One call on a sub-slice, seen from the slice -/

/-- **C137.** `AppendMany` on `s.Sub(a, b)`: with room in the capacity of `s` it overwrites the elements of `s` behind `b`;
without, `s` stays. -/
theorem C137_append (h : Heap T) (s : Slice) (hv : Valid h s) (a b : Nat) (hab : a ≤ b) (hb : b ≤ s.len) (u : Slice)
    (hu : sub s a b = .ok u) (vs : List T) (extra : Nat)
    (hsz : ((b - a + vs.length + extra : Nat) : Int) < 9223372036854775808) :
    ∃ u' h', appendMany extra u vs h = (.ok u', h') ∧
      contents h' u' = ((contents h s).drop a).take (b - a) ++ vs ∧
      (b + vs.length ≤ s.cap → contents h' s = ((contents h s).take b ++ vs ++ (contents h s).drop (b + vs.length)).take s.len) ∧
      (s.cap < b + vs.length → contents h' s = contents h s) := by
  have hcap := hv.1
  have hL := length_contents hv
  obtain ⟨u0, e0, hvu, hlu, hcu, -, hcc⟩ := (C137_sub h s hv a b).1 (by omega)
  rw [hu] at e0
  injection e0 with e0
  subst e0
  replace hcc := hcc (by omega)
  rw [show ((a : Int)).toNat = a by omega, show ((b : Int) - a).toNat = b - a by omega] at hcc
  rw [show ((a : Int)).toNat = a by omega] at hcu
  rw [show ((b : Int) - a).toNat = b - a by omega] at hlu
  obtain ⟨u', h', e, hv', hl', hc', hin, hout⟩ := appendMany_spec extra hvu vs (by rw [hlu]; exact hsz)
  refine ⟨u', h', e, by rw [hc', hcc], ?_, ?_⟩
  · intro hroom
    obtain ⟨p1, p2, up⟩ := hin (by omega)
    -- the cells of the slice
    have hu2 : u = viewOf s a (b - a) := by
      rw [sub_eq, if_pos (by omega)] at hu
      injection hu with hu
      rw [← hu]
      congr 1
      omega
    subst hu2
    have hw := whole hv (a := a) (n := b - a) (by omega) up (by
      rintro x k off es ⟨o, e1, h1, h2⟩
      have w : Win (viewOf s a (b - a)) (viewOf s a (b - a)).cap x k := ⟨o, e1, by omega, by omega⟩
      obtain ⟨o', e2, h3⟩ := viewOf_win w
      rw [es] at e2
      injection e2 with _ e3
      omega)
    have hf : contents h' (full (viewOf s a (b - a))) =
        contents h' u' ++ (contents h (full (viewOf s a (b - a)))).drop (b - a + vs.length) := by
      refine full_upd hvu (by omega) (up.mono ?_) ?_
      · rintro x k - ⟨o, e1, h1, h2⟩
        exact ⟨o, e1, by omega, by omega⟩
      · have : u' = ⟨(viewOf s a (b - a)).ptr, b - a + vs.length, (viewOf s a (b - a)).cap⟩ := by
          rw [← p1, ← p2, ← hlu, ← hl']
        rw [this]
    rw [hf, viewOf_full hv (by omega), hc', hcc, List.drop_drop] at hw
    have e1 : ∀ g : Heap T, contents g s = (contents g (full s)).take s.len := fun g =>
      contents_len g s.ptr s.len s.cap s.cap s.cap hcap
    have hF := length_contents (valid_full hv)
    have hFl : (full s).len = s.cap := rfl
    rw [e1 h', hw, e1 h]
    generalize contents h (full s) = F at *
    apply List.ext_getElem?
    intro k
    simp only [List.getElem?_take, List.getElem?_append, List.getElem?_drop, List.length_take, List.length_drop,
      List.length_append]
    grind
  · intro hroom
    obtain ⟨p1, up⟩ := hout (by omega)
    exact up.contents hv fun _ _ _ w => w

/-- **C137.** What `DeleteLast` removed can be had back with `Sub`. -/
theorem C137_deleted (h : Heap T) (s : Slice) (hv : Valid h s) (hs : 0 < s.len) :
    ∃ s' u, deleteLast s h = (.ok s', h) ∧ sub s' 0 s.len = .ok u ∧ contents h u = contents h s := by
  obtain ⟨s', e, hv', hl, hc, hp, -⟩ := deleteLast_spec hv hs
  have := hv.1
  obtain ⟨u, eu, -, -, -, hcu, -⟩ := (C137_sub h s' hv' 0 s.len).1 (by omega)
  refine ⟨s', u, e, eu, ?_⟩
  rw [hcu, hp, hc]
  simp only [Int.toNat_zero, List.drop_zero, Int.sub_zero, Int.toNat_natCast]
  exact (contents_len h s.ptr s.len s.cap s.cap s.cap hv.1).symm

/-- **C137.** `At`, `Set`, `First`, `Last`, `Len`, `Cap`, `Empty`. -/
theorem C137_access (h : Heap T) (s : Slice) (hv : Valid h s) :
    (∀ i : Int, (∀ x, get s i h = (.ok x, h) ↔ 0 ≤ i ∧ (contents h s)[i.toNat]? = some x) ∧
      (get s i h = (.error "index out of range", h) ↔ i < 0 ∨ len s ≤ i)) ∧
    (∀ (i : Int) (x : T), (0 ≤ i ∧ i < len s → ∃ h', set s i x h = (.ok (), h') ∧
        contents h' s = (contents h s).set i.toNat x) ∧
      (i < 0 ∨ len s ≤ i → set s i x h = (.error "index out of range", h))) ∧
    (∀ x, first s h = (.ok x, h) ↔ (contents h s).head? = some x) ∧
    (∀ x, last s h = (.ok x, h) ↔ (contents h s).getLast? = some x) ∧
    (empty s = true → first s h = (.error "index out of range", h) ∧ last s h = (.error "index out of range", h)) ∧
    len s = (contents h s).length ∧ len s ≤ cap s ∧ (empty s = true ↔ contents h s = []) := by
  have hL := length_contents hv
  have hg : ∀ i : Int, (∀ x, get s i h = (.ok x, h) ↔ 0 ≤ i ∧ (contents h s)[i.toNat]? = some x) ∧
      (get s i h = (.error "index out of range", h) ↔ i < 0 ∨ len s ≤ i) := by
    intro i
    unfold get load len
    by_cases h0 : 0 ≤ i
    · rw [if_pos h0]
      cases hx : (contents h s)[i.toNat]? with
      | none =>
        have := List.getElem?_eq_none_iff.1 hx
        refine ⟨fun x => ⟨fun e => by simp at e, fun e => by simp at e⟩, ⟨fun _ => ?_, fun _ => rfl⟩⟩
        omega
      | some y =>
        have := (List.getElem?_eq_some_iff.1 hx).1
        refine ⟨fun x => ⟨fun e => ?_, fun e => ?_⟩, ⟨fun e => by simp at e, fun e => ?_⟩⟩
        · simp at e; exact ⟨h0, by rw [e]⟩
        · have := e.2; injection this with e; rw [e]
        · omega
    · rw [if_neg h0]
      refine ⟨fun x => ⟨fun e => by simp at e, fun e => absurd e.1 h0⟩, ⟨fun _ => by omega, fun _ => rfl⟩⟩
  refine ⟨hg, ?_, ?_, ?_, ?_, ?_, ?_, ?_⟩
  · intro i x
    unfold set store len
    refine ⟨fun hi => ?_, fun hi => if_neg (by omega)⟩
    rw [if_pos hi]
    exact ⟨_, rfl, by rw [poke_contents hv (by simp; omega), splice_singleton _ (by omega)]⟩
  · intro x
    rw [List.head?_eq_getElem?]
    exact ((hg 0).1 x).trans ⟨fun e => e.2, fun e => ⟨Int.le_refl _, e⟩⟩
  · intro x
    rw [List.getLast?_eq_getElem?]
    refine ((hg (len s - 1)).1 x).trans ?_
    unfold len
    rw [hL, show ((s.len : Int) - 1).toNat = s.len - 1 by omega]
    refine ⟨fun e => e.2, fun e => ⟨?_, e⟩⟩
    have := (List.getElem?_eq_some_iff.1 e).1
    omega
  · intro he
    have : s.len = 0 := by simpa [empty] using he
    exact ⟨((hg 0).2).2 (by unfold len; omega), ((hg (len s - 1)).2).2 (by unfold len; omega)⟩
  · unfold len; rw [hL]
  · unfold len cap; have := hv.1; omega
  · rw [← List.length_eq_zero_iff, hL]; simp [empty]

end proof

/-! ## Examples -/

/-- Memory with one array of six cells, and a slice of five of them. -/
def exHeap : Heap Nat := [[1, 2, 3, 4, 5, 0]]
def exS : Slice := ⟨.arr 0 0, 5, 6⟩

example : Valid exHeap exS := ⟨by decide, by decide, _, rfl, by decide⟩

/-- The slice, and two overlapping sub-slices. -/
def exA : Fin 3 → Nat := fun i => [0, 1, 2][i]
def exB : Fin 3 → Nat := fun i => [5, 3, 4][i]
def exU : Fin 3 → Slice := fun i => viewOf exS (exA i) (exB i - exA i)

example : ∀ i, exA i ≤ exB i ∧ exB i ≤ exS.cap := by decide
example : ∀ i, sub exS (exA i) (exB i) = .ok (exU i) := by
  intro i
  match i with
  | 0 => rfl
  | 1 => rfl
  | 2 => rfl

/-- An append to the second, which overwrites; a deletion from the third; three appends to the second, by which it gets
an array of its own; a `Set` on it. -/
def exCalls : List (Fin 3 × Call Nat × Nat) :=
  [(1, .append [7], 0), (2, .delete 0, 0), (1, .append [8, 9, 10], 3), (1, .setAt 0 100, 0), (0, .setAt 1 20, 0)]

example : Fits exA (fun i => exB i - exA i) exCalls (start exHeap exS fun i => exB i - exA i) := by
  refine ⟨?_, ?_, ?_, ?_, ?_, trivial⟩ <;> decide

example : (specAll exA (fun i => exB i - exA i) exCalls (start exHeap exS fun i => exB i - exA i)).2.cells =
    [1, 20, 7, 7, 5, 0] := by decide
example : (specAll exA (fun i => exB i - exA i) exCalls (start exHeap exS fun i => exB i - exA i)).2.list exA 1 =
    [100, 7, 7, 8, 9, 10] := by decide
example : (specAll exA (fun i => exB i - exA i) exCalls (start exHeap exS fun i => exB i - exA i)).2.list exA 2 =
    [7] := by decide

end Verif.Slice.Views
