import Verif.GoMap.Lemmas

/-!
# Properties C31 and C32: sets, and enumerating and clearing maps
-/

namespace Verif.GoMap

/-! ## C31 -/

/-- The operations of a set. -/
inductive SetOp (T : Type) where
  | add (k : T) | tryAdd (k : T) | delete (k : T) | tryDelete (k : T) | has (k : T) | len | values | clear

/-- Their results. -/
inductive SetRes (T : Type) where
  | unit | bool (b : Bool) | nat (n : Nat) | list (l : List T)
  deriving DecidableEq

/-- Runs one operation of the model; `o` is the order in which it visits the map, if it does. -/
def runSet {T : Type} [BEq T] (s : SetVar T) (o : Order T Unit) : SetOp T → Go (SetRes T × SetVar T)
  | .add k => (s.add k).map fun s' => (.unit, s')
  | .tryAdd k => (s.tryAdd k).map fun p => (.bool p.1, p.2)
  | .delete k => .ok (.unit, s.delete k)
  | .tryDelete k => .ok (.bool (s.tryDelete k).1, (s.tryDelete k).2)
  | .has k => .ok (.bool (s.has k), s)
  | .len => .ok (.nat s.len, s)
  | .values => .ok (.list (s.values o), s)
  | .clear => .ok (.unit, s.clear o)

/-- Runs a sequence of operations. -/
def runSetAll {T : Type} [BEq T] (s : SetVar T) : List (SetOp T × Order T Unit) → Go (List (SetRes T) × SetVar T)
  | [] => .ok ([], s)
  | (op, o) :: ops => do
    let (r, s1) ← runSet s o op
    let (rs, s2) ← runSetAll s1 ops
    return (r :: rs, s2)

/-- `l` lists the members of the set `s`, each once. -/
def ListsSet {T : Type} (s : T → Prop) (l : List T) : Prop := l.Nodup ∧ ∀ x, x ∈ l ↔ s x

/-- What an operation does on a mathematical set: result and set afterwards. -/
def SetSpec {T : Type} (s : T → Prop) : SetOp T → SetRes T → (T → Prop) → Prop
  | .add k, r, s' => r = .unit ∧ ∀ x, s' x ↔ x = k ∨ s x
  | .tryAdd k, r, s' => (∃ b, r = .bool b ∧ (b = true ↔ ¬ s k)) ∧ ∀ x, s' x ↔ x = k ∨ s x
  | .delete k, r, s' => r = .unit ∧ ∀ x, s' x ↔ x ≠ k ∧ s x
  | .tryDelete k, r, s' => (∃ b, r = .bool b ∧ (b = true ↔ s k)) ∧ ∀ x, s' x ↔ x ≠ k ∧ s x
  | .has k, r, s' => (∃ b, r = .bool b ∧ (b = true ↔ s k)) ∧ ∀ x, s' x ↔ s x
  | .len, r, s' => (∃ l, ListsSet s l ∧ r = .nat l.length) ∧ ∀ x, s' x ↔ s x
  | .values, r, s' => (∃ l, ListsSet s l ∧ r = .list l) ∧ ∀ x, s' x ↔ s x
  | .clear, r, s' => r = .unit ∧ ∀ x, ¬ s' x

/-- A sequence of results is what a mathematical set, starting from `s`, gives. -/
def SetSpecAll {T : Type} (s : T → Prop) : List (SetOp T) → List (SetRes T) → Prop
  | [], [] => True
  | op :: ops, r :: rs => ∃ s', SetSpec s op r s' ∧ SetSpecAll s' ops rs
  | _, _ => False

section
variable {T : Type} [BEq T] [LawfulBEq T]

theorem listsSet_of_wf {t : Tab T Unit} (h : t.WF) (o : Order T Unit) :
    ListsSet (fun x => (x, ()) ∈ t) ((o.visit t).map (·.1)) := by
  have hl := Lists.perm_of (lists h) (o.perm t)
  refine ⟨hl.nodup, fun x => ?_⟩
  rw [List.mem_map]
  constructor
  · rintro ⟨⟨y, u⟩, hy, rfl⟩
    exact ((o.perm t).mem_iff).1 hy
  · intro hx
    exact ⟨(x, ()), ((o.perm t).mem_iff).2 hx, rfl⟩

theorem runSet_spec (t : Tab T Unit) (h : t.WF) (o : Order T Unit) (op : SetOp T) :
    ∃ r t', runSet (some t) o op = .ok (r, some t') ∧ t'.WF ∧
      SetSpec (fun x => (x, ()) ∈ t) op r (fun x => (x, ()) ∈ t') := by
  have hput : ∀ k x, (x, ()) ∈ t.put k () ↔ x = k ∨ (x, ()) ∈ t := by
    intro k x
    rw [mem_put]
    simp only [Prod.mk.injEq, and_true]
    constructor
    · rintro (c | c)
      · exact Or.inl c
      · exact Or.inr c.1
    · rintro (c | c)
      · exact Or.inl c
      · cases hb : x == k
        · exact Or.inr ⟨c, by intro e; rw [e] at hb; simp at hb⟩
        · exact Or.inl (eq_of_beq hb)
  have hdel : ∀ k x, (x, ()) ∈ t.del k ↔ x ≠ k ∧ (x, ()) ∈ t := by
    intro k x; rw [mem_del]; exact And.comm
  have hget : ∀ k, (MapVar.get? (some t) k).isSome = true ↔ (k, ()) ∈ t := by
    intro k
    show (t.get? k).isSome = true ↔ _
    rw [get?_isSome h]
    exact ⟨fun ⟨_, h⟩ => h, fun h => ⟨_, h⟩⟩
  cases op with
  | add k => exact ⟨_, _, rfl, WF.put h k (), rfl, hput k⟩
  | tryAdd k =>
    by_cases c : (MapVar.get? (some t) k).isSome = true
    · refine ⟨.bool false, t, ?_, h, ⟨false, rfl, by simp [(hget k).1 c]⟩, ?_⟩
      · simp only [runSet, SetVar.tryAdd, c, if_true]; rfl
      · intro x
        refine ⟨Or.inr, ?_⟩
        rintro (e | e)
        · rw [e]; exact (hget k).1 c
        · exact e
    · refine ⟨.bool true, t.put k (), ?_, WF.put h k (), ⟨true, rfl, ?_⟩, hput k⟩
      · simp only [runSet, SetVar.tryAdd, if_neg c]; rfl
      · simp only [true_iff]
        exact fun e => c ((hget k).2 e)
  | delete k => exact ⟨_, _, rfl, WF.del h k, rfl, hdel k⟩
  | tryDelete k =>
    by_cases c : (MapVar.get? (some t) k).isSome = true
    · refine ⟨.bool true, t.del k, ?_, WF.del h k, ⟨true, rfl, by simp [(hget k).1 c]⟩, hdel k⟩
      simp only [runSet, SetVar.tryDelete, c, Bool.not_true, Bool.false_eq_true, if_false]; rfl
    · have c' : (k, ()) ∉ t := fun e => c ((hget k).2 e)
      refine ⟨.bool false, t, ?_, h, ⟨false, rfl, by simp [c']⟩, ?_⟩
      · simp only [runSet, SetVar.tryDelete, Bool.not_eq_true _ ▸ c]; rfl
      · intro x
        refine ⟨fun hx => ⟨?_, hx⟩, fun hx => hx.2⟩
        rintro rfl; exact c' hx
  | has k => exact ⟨_, _, rfl, h, ⟨_, rfl, hget k⟩, fun _ => Iff.rfl⟩
  | len =>
    refine ⟨_, _, rfl, h, ⟨_, listsSet_of_wf h Order.id, ?_⟩, fun _ => Iff.rfl⟩
    simp [SetVar.len, MapVar.len, Order.id]
  | values =>
    refine ⟨_, _, rfl, h, ⟨_, listsSet_of_wf h o, ?_⟩, fun _ => Iff.rfl⟩
    rw [SetVar.values, keys_eq]; rfl
  | clear =>
    refine ⟨.unit, [], ?_, List.Pairwise.nil, rfl, fun x => by simp⟩
    simp only [runSet, SetVar.clear, clear_some]
    rw [List.filter_eq_nil_iff.2 (by simp)]

/-- **C31.** Every sequence of operations on a new `Set`, whatever the iteration orders, gives the results
that a mathematical set gives, and never panics. -/
theorem C31_set (ops : List (SetOp T × Order T Unit)) :
    ∃ rs s', runSetAll newSet ops = .ok (rs, s') ∧ SetSpecAll (fun _ => False) (ops.map (·.1)) rs := by
  have key : ∀ (ops : List (SetOp T × Order T Unit)) (t : Tab T Unit) (s : T → Prop), t.WF →
      (∀ x, s x ↔ (x, ()) ∈ t) →
      ∃ rs s', runSetAll (some t) ops = .ok (rs, s') ∧ SetSpecAll s (ops.map (·.1)) rs := by
    intro ops
    induction ops with
    | nil => intro t s _ _; exact ⟨[], some t, rfl, trivial⟩
    | cons e ops ih =>
      intro t s h hs
      obtain ⟨op, o⟩ := e
      have : s = fun x => (x, ()) ∈ t := funext fun x => propext (hs x)
      subst this
      obtain ⟨r, t', e1, h', hspec⟩ := runSet_spec t h o op
      obtain ⟨rs, s', e2, hrest⟩ := ih t' _ h' (fun _ => Iff.rfl)
      refine ⟨r :: rs, s', ?_, _, hspec, hrest⟩
      simp only [runSetAll, e1, e2, bind, Except.bind, pure, Except.pure]
  exact key ops [] _ List.Pairwise.nil (fun x => by simp)

end

example : (match runSetAll (T := Nat) newSet [(.add 3, .id), (.tryAdd 3, .id), (.tryAdd 4, .id), (.add 5, .id),
      (.len, .id), (.values, .backwards), (.tryDelete 4, .id), (.tryDelete 4, .id), (.has 5, .id), (.clear, .id),
      (.len, .id)] with
    | .ok (rs, _) => rs | .error _ => []) =
    [.unit, .bool false, .bool true, .unit, .nat 3, .list [5, 4, 3], .bool true, .bool false, .bool true, .unit,
      .nat 0] := by decide +kernel

/-! ## C32 -/

/-- **C32**, enumerating: for every key type, `Entries`, `Keys` and `Values` list the entries of the map,
each once, in some order. -/
theorem C32_enumerate {K V : Type} [BEq K] (m : Tab K V) (o : Order K V) :
    (entries o (some m)).Perm m ∧ (keys o (some m)).Perm (m.map Prod.fst) ∧
    (values o (some m)).Perm (m.map Prod.snd) ∧ entries o (none : MapVar K V) = [] ∧
    keys o (none : MapVar K V) = [] ∧ values o (none : MapVar K V) = [] := by
  have hn : o.visit [] = [] := List.Perm.eq_nil (o.perm [])
  rw [entries_eq, keys_eq, values_eq, entries_eq, keys_eq, values_eq]
  refine ⟨o.perm m, (o.perm m).map _, (o.perm m).map _, ?_, ?_, ?_⟩ <;>
    simp only [Option.getD_none, hn, List.map_nil]

/-- **C32**, enumerating, for key types with ordinary equality: `Entries` lists the map that lookups show;
a set of keys appears in `Keys` exactly if present. -/
theorem C32_entries_lookup {K V : Type} [BEq K] [LawfulBEq K] (m : Tab K V) (h : m.WF) (o : Order K V) :
    PMap.Lists (fun k => MapVar.get? (some m) k) (entries o (some m)) ∧
    (keys o (some m)).Nodup ∧ (∀ k, k ∈ keys o (some m) ↔ (MapVar.get? (some m) k).isSome) := by
  have hl := Lists.perm_of (lists h) (o.perm m)
  rw [entries_eq, keys_eq]
  refine ⟨hl, hl.nodup, fun k => ?_⟩
  show _ ↔ (m.get? k).isSome = true
  rw [get?_isSome h, List.mem_map]
  constructor
  · rintro ⟨⟨k', v⟩, hk, rfl⟩
    exact ⟨v, ((o.perm m).mem_iff).1 hk⟩
  · rintro ⟨v, hv⟩
    exact ⟨(k, v), ((o.perm m).mem_iff).2 hv, rfl⟩

/-- The full claim about `Clear`, for a key type. It is false for key types with NaN (`C32_full_false`). -/
def C32_clear_full (K V : Type) [BEq K] : Prop :=
  ∀ (m : Tab K V) (o : Order K V), m.WF → clear o (some m) = some []

/-- **C32**, `Clear`: it removes exactly the entries whose key is `==` to itself; so for a key type whose
`==` is reflexive nothing remains. Missing: key types whose `==` is not reflexive, for which it is false. -/
theorem C32_clear_partial {K V : Type} [BEq K] [PartialEquivBEq K] (m : Tab K V) (o : Order K V) :
    clear o (some m) = some (m.filter (fun e => !(e.1 == e.1))) ∧
    ((∀ k : K, (k == k) = true) → clear o (some m) = some []) := by
  refine ⟨clear_some m o, fun hr => ?_⟩
  rw [clear_some, List.filter_eq_nil_iff.2]
  intro e _; simp [hr]

/-- A key type with a NaN, compared as Go compares floats. -/
inductive Flt where
  | nan | num (n : Int)

instance : BEq Flt where
  beq
    | .num a, .num b => a == b
    | _, _ => false

instance : PartialEquivBEq Flt where
  symm {a b} := by cases a <;> cases b <;> simp [BEq.beq] <;> exact fun h => h.symm
  trans {a b c} := by cases a <;> cases b <;> cases c <;> simp [BEq.beq] <;> exact fun h h' => h.trans h'

/-- `Clear` leaves the NaN key (and hence the full C32 is false). -/
theorem C32_full_false : ¬ C32_clear_full Flt Nat := by
  intro h
  have := h [(.num 1, 10), (.nan, 20), (.nan, 30)] Order.id (by unfold Tab.WF; decide +kernel)
  rw [clear_some] at this
  have := congrArg (fun m : MapVar Flt Nat => m.len) this
  revert this
  decide +kernel

example : entries (K := Nat) Order.backwards (some [(1, 2), (3, 4)]) = [(3, 4), (1, 2)] := by decide +kernel
example : Tab.WF (K := Nat) (V := Nat) [(1, 2), (3, 4)] := by unfold Tab.WF; decide

end Verif.GoMap
