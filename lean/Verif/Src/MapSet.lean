import Verif.Src.MapOps
import Verif.GoMap.Props

/-!
# C152 (Set and the functions on maps): histories of calls, from the text

A sequence of calls of the methods of `Set`, as the text has them, returns what a mathematical set gives (C31 of the text). `Entries`,
`Keys`, `Values` and `Clear` are C32 of the text.
-/

set_option linter.unusedSectionVars false

namespace Verif.Src.XMap

open Verif.GoMap

variable {K V : Type} [BEq K] [LawfulBEq K] {p : Par K V} {m : Mem (K ⊕ V)} {id : Nat} {z : Val (K ⊕ V)} {t : Tab K Unit}

/-- The call of a method on the set `w`. -/
def callSet (p : Par K V) (n : Nat) (w : Val (K ⊕ V)) : SetOp K → Mem (K ⊕ V) → R (List (Val (K ⊕ V)) × Mem (K ⊕ V))
  | .add k => calls (ctx p) n "Set.Add" [w, kE k]
  | .tryAdd k => calls (ctx p) n "Set.TryAdd" [w, kE k]
  | .delete k => calls (ctx p) n "Set.Delete" [w, kE k]
  | .tryDelete k => calls (ctx p) n "Set.TryDelete" [w, kE k]
  | .has k => calls (ctx p) n "Set.Has" [w, kE k]
  | .len => calls (ctx p) n "Set.Len" [w]
  | .values => calls (ctx p) n "Set.Values" [w]
  | .clear => calls (ctx p) n "Set.Clear" [w]

/-- Calls one after the other. -/
def historySet (p : Par K V) (n : Nat) (w : Val (K ⊕ V)) : List (SetOp K) → Mem (K ⊕ V) → R (List (List (Val (K ⊕ V))) × Mem (K ⊕ V))
  | [], m => pure ([], m)
  | op :: ops, m => do
    let (vs, m) ← callSet p n w op m
    let (rs, m) ← historySet p n w ops m
    pure (vs :: rs, m)

/-- The values `vs`, in memory `m`, are the result. -/
def IsRes (m : Mem (K ⊕ V)) : SetRes K → List (Val (K ⊕ V)) → Prop
  | .unit, vs => vs = []
  | .bool b, vs => vs = [.bool b]
  | .nat n, vs => vs = [.num .int n]
  | .list l, vs => ∃ v, vs = [v] ∧ Items kE m v l

/-- The same for each of a sequence. -/
def AreRes (m : Mem (K ⊕ V)) : List (SetRes K) → List (List (Val (K ⊕ V))) → Prop
  | [], [] => True
  | r :: rs, vs :: vss => IsRes m r vs ∧ AreRes m rs vss
  | _, _ => False

/-- What there was before is as it was, but for the map `id`. -/
structure Touches (id : Nat) (m m' : Mem (K ⊕ V)) : Prop where
  arrs : ∀ b, b < m.arrs.length → m'.arrs[b]? = m.arrs[b]?
  len : m.arrs.length ≤ m'.arrs.length
  maps : ∀ d, d ≠ id → m'.maps[d]? = m.maps[d]?

theorem Touches.refl (id : Nat) (m : Mem (K ⊕ V)) : Touches id m m := ⟨fun _ _ => rfl, Nat.le_refl _, fun _ _ => rfl⟩

theorem Touches.trans {m1 m2 : Mem (K ⊕ V)} (h : Touches id m m1) (h' : Touches id m1 m2) : Touches id m m2 where
  arrs b hb := (h'.arrs b (Nat.lt_of_lt_of_le hb h.len)).trans (h.arrs b hb)
  len := Nat.le_trans h.len h'.len
  maps d hne := (h'.maps d hne).trans (h.maps d hne)

theorem Touches.setMap (id : Nat) (m : Mem (K ⊕ V)) (o : MapObj (K ⊕ V)) : Touches id m (m.setMap id o) :=
  ⟨fun _ _ => rfl, Nat.le_refl _, fun _ h => setMap_other h _⟩

theorem IsRes.mono {m m' : Mem (K ⊕ V)} {r : SetRes K} {vs : List (Val (K ⊕ V))} (h : IsRes m r vs) (hm : Touches id m m') : IsRes m' r vs := by
  cases r with
  | unit => exact h
  | bool b => exact h
  | nat n => exact h
  | list l =>
    obtain ⟨v, e, hi⟩ := h
    exact ⟨v, e, hi.mono fun a o l c hv => hm.arrs a (hi.old a o l c hv)⟩

theorem becomes_some {B : Type} {fv : B → Val (K ⊕ V)} {t : Tab K B} {m' : Mem (K ⊕ V)} (h : Becomes p z fv m (.map id) (some t) m') :
    m' = m.setMap id (obj p z kE fv t) := by
  obtain ⟨id', e, e'⟩ := h
  cases e
  exact e'

theorem C152_set_call (hf : Fair p) (h : m.maps[id]? = some (obj p z kE unitV t)) (hw : t.WF) (n : Nat) (op : SetOp K) :
    ∃ r vs m' t', callSet p (n + 2) (.map id) op m = pure (vs, m') ∧ IsRes m' r vs ∧ m'.maps[id]? = some (obj p z kE unitV t') ∧ t'.WF ∧
      SetSpec (fun x => (x, ()) ∈ t) op r (fun x => (x, ()) ∈ t') ∧ Touches id m m' := by
  have hid := (List.getElem?_eq_some_iff.mp h).1
  have hm : IsMap p z kE unitV m (.map id) (some t) := ⟨id, rfl, h⟩
  cases op with
  | add k =>
    obtain ⟨r, t', e1, hw', hs⟩ := runSet_spec t hw .id (.add k)
    have := setAdd_src hm k (n + 1)
    cases ha : SetVar.add (some t) k with
    | error e => simp only [runSet, ha, Except.map] at e1; cases e1
    | ok s =>
      simp only [runSet, ha, Except.map] at e1
      cases e1
      rw [ha] at this
      obtain ⟨m', e, hb⟩ := this
      rw [becomes_some hb] at e
      exact ⟨.unit, [], _, t', e, rfl, setMap_here hid _, hw', hs, .setMap _ _ _⟩
  | tryAdd k =>
    obtain ⟨r, t', e1, hw', hs⟩ := runSet_spec t hw .id (.tryAdd k)
    have := setTryAdd_src hm k (n + 1)
    cases ha : SetVar.tryAdd (some t) k with
    | error e => simp only [runSet, ha, Except.map] at e1; cases e1
    | ok s =>
      obtain ⟨b, s⟩ := s
      simp only [runSet, ha, Except.map] at e1
      cases e1
      rw [ha] at this
      obtain ⟨m', e, hb⟩ := this
      cases b with
      | true =>
        rw [becomes_some hb] at e
        exact ⟨.bool true, _, _, t', e, rfl, setMap_here hid _, hw', hs, .setMap _ _ _⟩
      | false =>
        obtain ⟨rfl, e'⟩ := hb
        cases e'
        exact ⟨.bool false, _, _, _, e, rfl, h, hw', hs, .refl _ _⟩
  | delete k =>
    obtain ⟨r, t', e1, hw', hs⟩ := runSet_spec t hw .id (.delete k)
    obtain ⟨m', e, hb⟩ := setDelete_src hm k (n + 1)
    cases e1
    rw [becomes_some hb] at e
    exact ⟨.unit, [], _, _, e, rfl, setMap_here hid _, hw', hs, .setMap _ _ _⟩
  | tryDelete k =>
    obtain ⟨r, t', e1, hw', hs⟩ := runSet_spec t hw .id (.tryDelete k)
    obtain ⟨m', e, hb⟩ := setTryDelete_src hm k (n + 1)
    simp only [runSet, Except.ok.injEq, Prod.mk.injEq] at e1
    obtain ⟨rfl, e2⟩ := e1
    rw [e2] at hb
    rw [becomes_some hb] at e
    exact ⟨.bool _, _, _, t', e, rfl, setMap_here hid _, hw', hs, .setMap _ _ _⟩
  | has k =>
    obtain ⟨r, t', e1, hw', hs⟩ := runSet_spec t hw .id (.has k)
    cases e1
    exact ⟨.bool _, _, m, t, setHas_src hm k (n + 1), rfl, h, hw, hs, .refl _ _⟩
  | len =>
    obtain ⟨r, t', e1, hw', hs⟩ := runSet_spec t hw .id .len
    cases e1
    exact ⟨.nat _, _, m, t, setLen_src hm (n + 1), rfl, h, hw, hs, .refl _ _⟩
  | values =>
    obtain ⟨o, v, m', e, hi, hg⟩ := setValues_src hf hm hw n
    obtain ⟨r, t', e1, hw', hs⟩ := runSet_spec t hw o .values
    cases e1
    exact ⟨.list _, _, m', t, e, ⟨v, rfl, hi⟩, by rw [hg.maps]; exact h, hw, hs,
      ⟨fun b hb => (hg.arrs b hb (fun _ _ _ _ h => by cases h)).1, hg.len, fun d _ => by rw [hg.maps]⟩⟩
  | clear =>
    obtain ⟨o, m', e, hb⟩ := setClear_src hf hm n
    obtain ⟨r, t', e1, hw', hs⟩ := runSet_spec t hw o .clear
    cases e1
    rw [becomes_some hb] at e
    exact ⟨.unit, [], _, _, e, rfl, setMap_here hid _, hw', hs, .setMap _ _ _⟩

theorem C152_set_history (hf : Fair p) (n : Nat) : ∀ (ops : List (SetOp K)) {m : Mem (K ⊕ V)} {t : Tab K Unit}, m.maps[id]? = some (obj p z kE unitV t) →
    t.WF → ∃ rs vss m', historySet p (n + 2) (.map id) ops m = pure (vss, m') ∧ AreRes m' rs vss ∧ SetSpecAll (fun x => (x, ()) ∈ t) ops rs ∧ Touches id m m' := by
  intro ops
  induction ops with
  | nil => intro m t _ _; exact ⟨[], [], m, rfl, trivial, trivial, .refl _ _⟩
  | cons op ops ih =>
    intro m t h hw
    obtain ⟨r, vs, m1, t1, e1, hr, h1, hw1, hs, k1⟩ := C152_set_call hf h hw n op
    obtain ⟨rs, vss, m2, e2, hrs, hss, k2⟩ := ih h1 hw1
    refine ⟨r :: rs, vs :: vss, m2, ?_, ⟨hr.mono k2, hrs⟩, ⟨_, hs, hss⟩, k1.trans k2⟩
    simp only [historySet, e1, pure_bind, e2]

/-- **C152 (Set), C31 of the text.** From `NewSet`, any sequence of calls of the methods of `Set` returns what a mathematical set gives, and
changes nothing else in memory. -/
theorem C152_set_text (hf : Fair p) (n : Nat) (m : Mem (K ⊕ V)) (ops : List (SetOp K)) :
    ∃ w m1 rs vss m2, calls (ctx p) (n + 1) "NewSet" [] m = pure ([w], m1) ∧ historySet p (n + 2) w ops m1 = pure (vss, m2) ∧ AreRes m2 rs vss ∧
      SetSpecAll (fun _ => False) ops rs ∧ (∀ b, b < m.arrs.length → m2.arrs[b]? = m.arrs[b]?) ∧ ∀ d, d < m.maps.length → m2.maps[d]? = m.maps[d]? := by
  obtain ⟨m1, e1, rfl⟩ := newSet_src (p := p) m n
  obtain ⟨rs, vss, m2, e2, hr, hs, k⟩ := C152_set_history hf n ops (newMap_here m _) List.Pairwise.nil
  refine ⟨_, _, rs, vss, m2, e1, e2, hr, ?_, fun b hb => k.arrs b hb, fun d hd => (k.maps d (by omega)).trans (newMap_other hd _)⟩
  simpa using hs

/-! ## C32 -/

section
variable {K V B : Type} [BEq K] [PartialEquivBEq K] {p : Par K V} {m : Mem (K ⊕ V)} {id : Nat} {z : Val (K ⊕ V)}

/-- **C152 (functions on maps), C32 of the text.** `Entries`, `Keys` and `Values` return new slices that list the entries of the map, each once. -/
theorem C152_enumerate {t : Tab K V} (hf : Fair p) (h : m.maps[id]? = some (obj p z kE vE t)) (hw : t.WF) (n : Nat) :
    (∃ l, NewSlice entryV m (calls (ctx p) (n + 1) "Entries" [.map id] m) l ∧ l.Perm t) ∧
    (∃ l, NewSlice kE m (calls (ctx p) (n + 1) "Keys" [.map id] m) l ∧ l.Perm (t.map Prod.fst)) ∧
    (∃ l, NewSlice vE m (calls (ctx p) (n + 1) "Values" [.map id] m) l ∧ l.Perm (t.map Prod.snd)) := by
  have hm : IsMap p z kE vE m (.map id) (some t) := ⟨id, rfl, h⟩
  refine ⟨?_, ?_, ?_⟩
  · obtain ⟨o, h1⟩ := entries_src hf hm hw n
    exact ⟨_, h1, (C32_enumerate t o).1⟩
  · obtain ⟨o, h1⟩ := keys_src hf hm hw n
    exact ⟨_, h1, (C32_enumerate t o).2.1⟩
  · obtain ⟨o, h1⟩ := values_src hf hm hw n
    exact ⟨_, h1, (C32_enumerate t o).2.2.1⟩

/-- **C152 (functions on maps), C32 of the text.** `Clear` leaves the entries whose key is not `==` to itself, and changes nothing else. -/
theorem C152_clear {fv : B → Val (K ⊕ V)} {t : Tab K B} (hf : Fair p) (h : m.maps[id]? = some (obj p z kE fv t)) (n : Nat) :
    calls (ctx p) (n + 1) "Clear" [.map id] m = pure ([], m.setMap id (obj p z kE fv (t.filter fun e => !(e.1 == e.1)))) := by
  have hm : IsMap p z kE fv m (.map id) (some t) := ⟨id, rfl, h⟩
  obtain ⟨o, m', e, hb⟩ := clear_src hf hm n
  obtain ⟨id', e1, rfl⟩ : Becomes p z fv m (.map id) (some (t.filter fun e => !(e.1 == e.1))) m' := by
    rw [← (clear_some t o)]
    exact hb
  cases e1
  exact e

end

end Verif.Src.XMap
