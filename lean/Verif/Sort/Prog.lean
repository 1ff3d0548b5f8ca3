import Verif.Base

/-!
# Programs that sort a slice in place by asking a comparator

The sorting functions of `/repo/xsort` touch their slice only through element reads and element
swaps, and decide only by calling the comparator (`less(x, y)`, or `x < y` and `x >= y` in the
`Ordered` variants).  A run is therefore a decision tree: `ask` nodes are comparator calls, whose
answer selects the subtree.  A tree says what happens for *every* comparator, including one that
keeps internal state or answers inconsistently; every branch of a tree is finite.

`fail` is a run-time panic (index out of range) or running out of fuel; the theorems show that no
`fail` is ever reached.
-/

namespace Verif.Sort

/-- Which comparison is made: `less(x,y)` / `x < y`, or `!less(x,y)` / `x >= y`. -/
inductive Kind
  | lt | nlt
deriving DecidableEq

/-- Things worth counting. -/
inductive Event
  /-- two elements are exchanged -/
  | swap
  /-- a function calls itself -/
  | enter
  /-- and that call returns -/
  | leave
deriving DecidableEq

/-- Decision trees over comparisons of `E`s with result `α`. An `ask` node also records the slice as it
is while the comparator runs. A `note` has no effect; it makes the event visible to theorems that count. -/
inductive Prog (E α : Type)
  | ret (a : α)
  | fail (msg : String)
  | note (e : Event) (next : Prog E α)
  | ask (k : Kind) (x y : E) (d : List E) (next : Bool → Prog E α)

/-- Sequencing. -/
def Prog.bind {E α β : Type} : Prog E α → (α → Prog E β) → Prog E β
  | .ret a, f => f a
  | .fail msg, _ => .fail msg
  | .note e p, f => .note e (p.bind f)
  | .ask k x y d next, f => .ask k x y d fun b => (next b).bind f

/-- A program that works on the slice `data` (the state). -/
def M (E α : Type) := List E → Prog E (α × List E)

instance {E : Type} : Monad (M E) where
  pure a := fun d => .ret (a, d)
  bind m f := fun d => (m d).bind fun p => f p.1 p.2

variable {E α β : Type} [Inhabited E]

/-- The element at a (possibly meaningless) index; `default` outside the slice. -/
def el (d : List E) (i : Int) : E := if 0 ≤ i then d.getD i.toNat default else default

/-- `i` is a valid index. -/
def inRange (d : List E) (i : Int) : Prop := 0 ≤ i ∧ i < d.length

instance (d : List E) (i : Int) : Decidable (inRange d i) := by unfold inRange; infer_instance

/-- A run-time panic. -/
def M.fail (msg : String) : M E α := fun _ => .fail msg

/-- `data[i]`, panicking when out of range. -/
def get (i : Int) : M E E := fun d =>
  if inRange d i then .ret (el d i, d) else .fail "index out of range"

/-- `data[i], data[j] = data[j], data[i]`. -/
def swap (i j : Int) : M E Unit := fun d =>
  if inRange d i ∧ inRange d j then
    .note .swap (.ret ((), (d.set i.toNat (el d j)).set j.toNat (el d i)))
  else .fail "index out of range"

/-- Note an event. -/
def M.note (e : Event) : M E Unit := fun d => .note e (.ret ((), d))

/-- A function calls itself. -/
def recurse (m : M E Unit) : M E Unit := do
  M.note .enter
  m
  M.note .leave

/-- A comparator call on two values. -/
def ask (k : Kind) (x y : E) : M E Bool := fun d => .ask k x y d fun b => .ret (b, d)

/-- `less(data[i], data[j])` (or `data[i] < data[j]`). -/
def lessAt (i j : Int) : M E Bool := do
  let x ← get i
  let y ← get j
  ask .lt x y

/-- `!less(data[i], data[j])` (or `data[i] >= data[j]`). -/
def nlessAt (i j : Int) : M E Bool := do
  let x ← get i
  let y ← get j
  ask .nlt x y

/-! ## Running a program against a comparator -/

/-- Run against a comparator that may keep a state `σ` and answer from it. Result: the value, the
final comparator state and the number of comparator calls; or the panic. -/
def Prog.exec {σ : Type} (cmp : σ → Kind → E → E → Bool × σ) : σ → Prog E α → Go (α × σ × Nat)
  | s, .ret a => .ok (a, s, 0)
  | _, .fail msg => .error msg
  | s, .note _ p => p.exec cmp s
  | s, .ask k x y _ next =>
    match (next (cmp s k x y).1).exec cmp (cmp s k x y).2 with
    | .ok (a, s', n) => .ok (a, s', n + 1)
    | .error e => .error e

/-- How a run against a comparator that may panic ends. -/
inductive Outcome (α E : Type)
  /-- normally -/
  | done (a : α)
  /-- with a panic of the comparator, at which time the slice was `slice` -/
  | panicked (msg : String) (slice : List E)
  /-- with a panic of the sorting function itself -/
  | crashed (msg : String)
deriving DecidableEq

/-- Run against a comparator that may also panic instead of answering. -/
def Prog.runP {σ : Type} (cmp : σ → Kind → E → E → Go Bool × σ) : σ → Prog E α → Outcome α E
  | _, .ret a => .done a
  | _, .fail msg => .crashed msg
  | s, .note _ p => p.runP cmp s
  | s, .ask k x y d next =>
    match (cmp s k x y).1 with
    | .ok b => (next b).runP cmp (cmp s k x y).2
    | .error e => .panicked e d

/-! ## What is true of every run -/

/-- `wp adm p Q`: in every run of `p` in which each answer `b` to `ask k x y` satisfies
`adm k x y b`, no panic occurs and the result satisfies `Q`. -/
def Prog.wp (adm : Kind → E → E → Bool → Prop) : Prog E α → (α → Prop) → Prop
  | .ret a, Q => Q a
  | .fail _, _ => False
  | .note _ p, Q => p.wp adm Q
  | .ask k x y _ next, Q => ∀ b, adm k x y b → (next b).wp adm Q

/-- `wp` for programs on a slice. -/
def wp (adm : Kind → E → E → Bool → Prop) (m : M E α) (Q : α → List E → Prop) (d : List E) : Prop :=
  (m d).wp adm fun p => Q p.1 p.2

variable {adm : Kind → E → E → Bool → Prop}

omit [Inhabited E] in
theorem Prog.wp_bind (p : Prog E α) (f : α → Prog E β) (Q : β → Prop) :
    (p.bind f).wp adm Q ↔ p.wp adm (fun a => (f a).wp adm Q) := by
  induction p with
  | ret a => rfl
  | fail msg => rfl
  | note e p ih => exact ih
  | ask k x y d next ih => simp only [Prog.bind, Prog.wp, ih]

omit [Inhabited E] in
theorem Prog.wp_mono {p : Prog E α} {Q Q' : α → Prop} (h : p.wp adm Q) (hq : ∀ a, Q a → Q' a) :
    p.wp adm Q' := by
  induction p with
  | ret a => exact hq _ h
  | fail msg => exact h
  | note e p ih => exact ih h
  | ask k x y d next ih => exact fun b hb => ih b (h b hb)

omit [Inhabited E] in
theorem Prog.wp_and {p : Prog E α} {Q Q' : α → Prop} (h : p.wp adm Q) (h' : p.wp adm Q') :
    p.wp adm (fun a => Q a ∧ Q' a) := by
  induction p with
  | ret a => exact ⟨h, h'⟩
  | fail msg => exact h
  | note e p ih => exact ih h h'
  | ask k x y d next ih => exact fun b hb => ih b (h b hb) (h' b hb)

omit [Inhabited E] in
theorem Prog.wp_adm {adm' : Kind → E → E → Bool → Prop} {p : Prog E α} {Q : α → Prop}
    (h : p.wp adm Q) (ha : ∀ k x y b, adm' k x y b → adm k x y b) : p.wp adm' Q := by
  induction p with
  | ret a => exact h
  | fail msg => exact h
  | note e p ih => exact ih h
  | ask k x y d next ih => exact fun b hb => ih b (h b (ha _ _ _ _ hb))

omit [Inhabited E] in
theorem Prog.wp_exec {σ : Type} {cmp : σ → Kind → E → E → Bool × σ}
    (hc : ∀ s k x y, adm k x y (cmp s k x y).1) {p : Prog E α} {Q : α → Prop}
    (h : p.wp adm Q) (s : σ) : ∃ a s' n, p.exec cmp s = .ok (a, s', n) ∧ Q a := by
  induction p generalizing s with
  | ret a => exact ⟨a, s, 0, rfl, h⟩
  | fail msg => exact h.elim
  | note e p ih => exact ih h s
  | ask k x y d next ih =>
    obtain ⟨a, s', n, e, q⟩ := ih _ (h _ (hc s k x y)) (cmp s k x y).2
    exact ⟨a, s', n + 1, by simp only [Prog.exec, e], q⟩

omit [Inhabited E] in
theorem wp_pure {a : α} {Q : α → List E → Prop} {d : List E} :
    wp adm (pure a) Q d ↔ Q a d := Iff.rfl

omit [Inhabited E] in
theorem wp_bind {m : M E α} {f : α → M E β} {Q : β → List E → Prop} {d : List E} :
    wp adm (m >>= f) Q d ↔ wp adm m (fun a => wp adm (f a) Q) d := by
  show ((m d).bind _).wp adm _ ↔ _
  rw [Prog.wp_bind]; rfl

omit [Inhabited E] in
theorem wp_mono {m : M E α} {Q Q' : α → List E → Prop} {d : List E}
    (h : wp adm m Q d) (hq : ∀ a d, Q a d → Q' a d) : wp adm m Q' d :=
  Prog.wp_mono h fun p => hq p.1 p.2

omit [Inhabited E] in
theorem wp_and {m : M E α} {Q Q' : α → List E → Prop} {d : List E}
    (h : wp adm m Q d) (h' : wp adm m Q' d) : wp adm m (fun a d => Q a d ∧ Q' a d) d :=
  Prog.wp_and h h'

theorem wp_get {i : Int} {Q : E → List E → Prop} {d : List E} (hi : inRange d i)
    (h : Q (el d i) d) : wp adm (get i) Q d := by
  unfold wp get; rw [if_pos hi]; exact h

omit [Inhabited E] in
theorem wp_recurse {m : M E Unit} {Q : Unit → List E → Prop} {d : List E} :
    wp adm (recurse m) Q d ↔ wp adm m Q d := by
  show ((m d).bind fun p => (M.note .leave : M E Unit) p.2).wp adm _ ↔ _
  rw [Prog.wp_bind]
  rfl

/-- The slice after a swap. -/
def swapL (d : List E) (i j : Int) : List E := (d.set i.toNat (el d j)).set j.toNat (el d i)

theorem wp_swap {i j : Int} {Q : Unit → List E → Prop} {d : List E} (hi : inRange d i)
    (hj : inRange d j) (h : Q () (swapL d i j)) : wp adm (swap i j) Q d := by
  unfold wp swap; rw [if_pos ⟨hi, hj⟩]; exact h

theorem wp_lessAt {i j : Int} {Q : Bool → List E → Prop} {d : List E} (hi : inRange d i)
    (hj : inRange d j) (h : ∀ b, adm .lt (el d i) (el d j) b → Q b d) :
    wp adm (lessAt i j) Q d := by
  unfold lessAt
  rw [wp_bind]
  refine wp_get hi ?_
  rw [wp_bind]
  refine wp_get hj ?_
  exact fun b hb => h b hb

theorem wp_nlessAt {i j : Int} {Q : Bool → List E → Prop} {d : List E} (hi : inRange d i)
    (hj : inRange d j) (h : ∀ b, adm .nlt (el d i) (el d j) b → Q b d) :
    wp adm (nlessAt i j) Q d := by
  unfold nlessAt
  rw [wp_bind]
  refine wp_get hi ?_
  rw [wp_bind]
  refine wp_get hj ?_
  exact fun b hb => h b hb

theorem el_swapL {d : List E} {i j : Int} (hi : inRange d i) (hj : inRange d j) (k : Int) :
    el (swapL d i j) k = if k = i then el d j else if k = j then el d i else el d k := by
  obtain ⟨hi0, hi1⟩ := hi
  obtain ⟨hj0, hj1⟩ := hj
  by_cases hk : 0 ≤ k
  · have e : ∀ (d' : List E) (i : Int), 0 ≤ i → el d' i = (d'[i.toNat]?).getD default := by
      intro d' i hi; simp [el, hi, List.getD_eq_getElem?_getD]
    rw [e _ _ hk, e _ _ hi0, e _ _ hj0, e d k hk]
    unfold swapL
    rw [List.getElem?_set, List.getElem?_set, List.length_set, e _ _ hi0, e _ _ hj0]
    have hil : i.toNat < d.length := by omega
    have hjl : j.toNat < d.length := by omega
    by_cases h1 : k = i
    · subst h1
      by_cases h2 : k = j
      · subst h2; simp [hil]
      · have : ¬ j.toNat = k.toNat := by omega
        simp [this, hil]
    · have h4 : ¬ i.toNat = k.toNat := by omega
      by_cases h2 : k = j
      · subst h2; simp [h1, hjl]
      · have h3 : ¬ j.toNat = k.toNat := by omega
        simp [h1, h2, h3, h4]
  · have : ∀ d' : List E, el d' k = default := by intro d'; simp [el, hk]
    rw [this, if_neg (by omega), if_neg (by omega), this]

@[simp] theorem length_swapL (d : List E) (i j : Int) : (swapL d i j).length = d.length := by
  simp [swapL]

@[simp] theorem inRange_swapL (d : List E) (i j k : Int) : inRange (swapL d i j) k ↔ inRange d k := by
  simp [inRange]

theorem el_eq_getElem {d : List E} {i : Int} (h : inRange d i) :
    el d i = d[i.toNat]'(by have := h.1; have := h.2; omega) := by
  have := h.1; have := h.2
  simp [el, h.1, List.getD_eq_getElem?_getD]
  rw [List.getElem?_eq_getElem (by omega)]; rfl

end Verif.Sort
