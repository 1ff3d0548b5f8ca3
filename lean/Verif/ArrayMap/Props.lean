import Verif.ArrayMap.Model
import Verif.GoMap.Lemmas

/-!
# Properties C27 and C28: `ArrayMap`

The code does not have these properties: `Set` of a present key adds a second slot, and `Delete` of a key
that is not in the last slot records the old place of the entry it moved. The theorems say for which
histories it is right, and that it goes wrong as soon as they are left.
-/

set_option linter.unusedSectionVars false

namespace Verif.ArrayMap

open Verif.GoMap

/-- Operations on a map. -/
inductive Op (K V : Type) where
  | set (k : K) (v : V) | delete (k : K) | has (k : K) | tryGet (k : K) | get (k : K) | clear

/-- Results. -/
inductive Res (V : Type) where
  | unit | bool (b : Bool) | val (v : V) | found (v : V) | notFound (zero : V) | panic (msg : String)
  deriving DecidableEq

section
variable {K V : Type} [DecidableEq K] [Inhabited V]

/-- One operation of the model. A call that panics leaves the map as it was. -/
def run (p : ArrayMap K V) (o : Order K Int) : Op K V → Res V × ArrayMap K V
  | .set k v => match set p k v with
    | .ok p' => (.unit, p') | .error e => (.panic e, p)
  | .delete k => match delete p k with
    | .ok (b, p') => (.bool b, p') | .error e => (.panic e, p)
  | .has k => (.bool (has p k), p)
  | .tryGet k => match tryGet p k with
    | .ok (v, true) => (.found v, p) | .ok (v, false) => (.notFound v, p) | .error e => (.panic e, p)
  | .get k => match get p k with
    | .ok v => (.val v, p) | .error e => (.panic e, p)
  | .clear => (.unit, clear o p)

/-- A sequence of operations. -/
def runAll (p : ArrayMap K V) : List (Op K V × Order K Int) → List (Res V) × ArrayMap K V
  | [] => ([], p)
  | (op, o) :: ops =>
    ((run p o op).1 :: (runAll (run p o op).2 ops).1, (runAll (run p o op).2 ops).2)

/-- What the operations do on a mathematical map. -/
def spec (m : PMap K V) : Op K V → Res V × PMap K V
  | .set k v => (.unit, m.set k v)
  | .delete k => (.bool (m k).isSome, m.erase k)
  | .has k => (.bool (m k).isSome, m)
  | .tryGet k => (match m k with | some v => .found v | none => .notFound default, m)
  | .get k => (match m k with | some v => .val v | none => .panic "key not found", m)
  | .clear => (.unit, PMap.empty)

/-- A sequence of operations on a mathematical map. -/
def specAll (m : PMap K V) : List (Op K V) → List (Res V) × PMap K V
  | [] => ([], m)
  | op :: ops => ((spec m op).1 :: (specAll (spec m op).2 ops).1, (specAll (spec m op).2 ops).2)

/-- The full C27: every sequence gives the results of a mathematical map. False (`C27_full_false`). -/
def C27_full (K V : Type) [DecidableEq K] [Inhabited V] : Prop :=
  ∀ ops : List (Op K V × Order K Int), (runAll new ops).1 = (specAll PMap.empty (ops.map (·.1))).1

/-- The histories in which each `Delete` is of an absent key or undoes the latest `Set` not yet undone.
`m` is the mathematical map so far, `st` the keys of the `Set`s not yet undone, latest first. -/
def Lifo (m : PMap K V) (st : List K) : List (Op K V) → Prop
  | [] => True
  | .set k v :: ops => Lifo (m.set k v) (k :: st) ops
  | .delete k :: ops => match m k with
    | none => Lifo m st ops
    | some _ => st.head? = some k ∧ Lifo (m.erase k) st.tail ops
  | .clear :: ops => Lifo PMap.empty [] ops
  | .has _ :: ops => Lifo m st ops
  | .tryGet _ :: ops => Lifo m st ops
  | .get _ :: ops => Lifo m st ops

/-- Moreover each `Set` is of an absent key. -/
def LifoFresh (m : PMap K V) (st : List K) : List (Op K V) → Prop
  | [] => True
  | .set k v :: ops => m k = none ∧ LifoFresh (m.set k v) (k :: st) ops
  | .delete k :: ops => match m k with
    | none => LifoFresh m st ops
    | some _ => st.head? = some k ∧ LifoFresh (m.erase k) st.tail ops
  | .clear :: ops => LifoFresh PMap.empty [] ops
  | .has _ :: ops => LifoFresh m st ops
  | .tryGet _ :: ops => LifoFresh m st ops
  | .get _ :: ops => LifoFresh m st ops

/-! ## The invariant -/

/-- The receiver represents `m`: each live key is at its recorded slot, and later slots are of other keys. -/
structure Rep (p : ArrayMap K V) (m : PMap K V) (st : List K) : Prop where
  wf : (p.pos.getD []).WF
  nil : p.pos = none → p.kv = []
  stack : st = (p.kv.map Prod.fst).reverse
  live : ∀ k i, p.pos.get? k = some i → ∃ n : Nat, i = n ∧ ∃ v, p.kv[n]? = some (k, v) ∧ m k = some v ∧
    ∀ j v', n < j → p.kv[j]? ≠ some (k, v')
  dead : ∀ k, p.pos.get? k = none → m k = none

theorem rep_new : Rep (new : ArrayMap K V) PMap.empty [] where
  wf := List.Pairwise.nil
  nil _ := rfl
  stack := rfl
  live k i h := by cases h
  dead k _ := rfl

theorem rep_isSome {p : ArrayMap K V} {m : PMap K V} {st : List K} (h : Rep p m st) (k : K) :
    (p.pos.get? k).isSome = (m k).isSome := by
  cases hp : p.pos.get? k with
  | none => rw [h.dead k hp]; rfl
  | some i =>
    obtain ⟨n, -, v, -, hm, -⟩ := h.live k i hp
    rw [hm]; rfl

theorem rep_set {p : ArrayMap K V} {m : PMap K V} {st : List K} (h : Rep p m st) (k : K) (v : V) :
    ∃ p', set p k v = .ok p' ∧ Rep p' (m.set k v) (k :: st) := by
  have key : ∀ t : Tab K Int, p.pos.getD [] = t → Rep ⟨some (t.put k (p.kv.length : Int)), p.kv ++ [(k, v)]⟩
      (m.set k v) (k :: st) := by
    intro t ht
    have hwf : t.WF := ht ▸ h.wf
    have hget : ∀ x, p.pos.get? x = t.get? x := by intro x; unfold MapVar.get?; rw [ht]
    refine ⟨WF.put hwf _ _, (by intro c; cases c), ?_, ?_, ?_⟩
    · simp [h.stack]
    · intro x i hx
      have hx' : (t.put k (p.kv.length : Int)).get? x = some i := hx
      rw [get?_put hwf] at hx'
      split at hx'
      · rename_i hk
        injection hx' with hi
        refine ⟨p.kv.length, hi.symm, v, ?_, ?_, ?_⟩
        · rw [hk]; simp
        · simp [PMap.set, hk]
        · intro j v' hj
          rw [List.getElem?_eq_none (by simp; omega)]
          exact fun c => by cases c
      · rename_i hk
        obtain ⟨n, hi, w, hn, hm, hlater⟩ := h.live x i (by rw [hget]; exact hx')
        have hlt : n < p.kv.length := (List.getElem?_eq_some_iff.1 hn).1
        refine ⟨n, hi, w, ?_, ?_, ?_⟩
        · simp only
          rw [List.getElem?_append_left hlt]; exact hn
        · simp [PMap.set, hk, hm]
        · intro j v' hj
          simp only
          by_cases c : j < p.kv.length
          · rw [List.getElem?_append_left c]; exact hlater j v' hj
          · rw [List.getElem?_append_right (by omega)]
            intro e
            by_cases c' : j = p.kv.length
            · subst c'
              simp at e
              exact hk e.1.symm
            · rw [List.getElem?_eq_none (by simp; omega)] at e
              cases e
    · intro x hx
      have hx' : (t.put k (p.kv.length : Int)).get? x = none := hx
      rw [get?_put hwf] at hx'
      split at hx'
      · cases hx'
      · rename_i hk
        simp only [PMap.set, if_neg hk]
        exact h.dead x (by rw [hget]; exact hx')
  obtain ⟨pos, kv⟩ := p
  cases pos with
  | none =>
    refine ⟨_, rfl, key [] rfl⟩
  | some t => exact ⟨_, rfl, key t rfl⟩

theorem getLast_stack {l : List (K × V)} {k : K} (h : (l.map Prod.fst).reverse.head? = some k) :
    ∃ l' v, l = l' ++ [(k, v)] := by
  cases hl : l.getLast? with
  | none => rw [List.getLast?_eq_none_iff] at hl; subst hl; cases h
  | some e =>
    obtain ⟨l', rfl⟩ := List.getLast?_eq_some_iff.1 hl
    simp at h
    exact ⟨l', e.2, by rw [← h]⟩

theorem rep_delete_absent {p : ArrayMap K V} {m : PMap K V} {st : List K} (h : Rep p m st) (k : K)
    (hm : m k = none) : delete p k = .ok (false, p) ∧ m.erase k = m := by
  constructor
  · have := rep_isSome h k
    rw [hm] at this
    unfold delete
    cases hp : p.pos.get? k with
    | none => rfl
    | some i => rw [hp] at this; cases this
  · funext x
    unfold PMap.erase
    split
    · rename_i e; rw [e, hm]
    · rfl

theorem rep_delete {p : ArrayMap K V} {m : PMap K V} {st : List K} (h : Rep p m st) (k : K) (hm : m k ≠ none)
    (htop : st.head? = some k) : ∃ p', delete p k = .ok (true, p') ∧ Rep p' (m.erase k) st.tail ∧
      p'.kv = p.kv.dropLast := by
  obtain ⟨pos, kv⟩ := p
  obtain ⟨kv', v, rfl⟩ := getLast_stack (l := kv) (k := k) (by rw [← h.stack]; exact htop)
  cases pos with
  | none => have := h.nil rfl; simp at this
  | some t =>
    have hwf : t.WF := h.wf
    have hpos : t.get? k = some ((kv'.length : Nat) : Int) := by
      have := rep_isSome h k
      cases hp : MapVar.get? (some t) k with
      | none => exact absurd (h.dead k hp) hm
      | some i =>
        obtain ⟨n, hi, w, hn, -, hlater⟩ := h.live k i hp
        have hlt : n < (kv' ++ [(k, v)]).length := (List.getElem?_eq_some_iff.1 hn).1
        have : n = kv'.length := by
          by_cases c : n = kv'.length
          · exact c
          · simp at hlt
            exact absurd (by simp) (hlater kv'.length v (by omega))
        subst this
        rw [← hi]; exact hp
    refine ⟨⟨some (t.del k), kv'⟩, ?_, ⟨?_, (by intro c; cases c), ?_, ?_, ?_⟩, by simp⟩
    · unfold delete
      have : (MapVar.get? (some t) k) = some ((kv'.length : Nat) : Int) := hpos
      simp only [this]
      rw [if_neg (by simp)]
      have hs : goSlice (kv' ++ [(k, v)]) 0 (((kv' ++ [(k, v)]).length : Int) - 1) = .ok kv' := by
        unfold goSlice
        rw [if_pos (by simp only [List.length_append, List.length_singleton]; omega)]
        simp
      simp only [pure, Except.pure, bind, Except.bind, hs]
      rfl
    · exact WF.del hwf k
    · rw [h.stack]; simp
    · intro x i hx
      have hx' : (t.del k).get? x = some i := hx
      rw [get?_del hwf] at hx'
      split at hx'
      · cases hx'
      · rename_i hk
        obtain ⟨n, hi, w, hn, hmx, hlater⟩ := h.live x i hx'
        have hlt : n < kv'.length := by
          have hl := (List.getElem?_eq_some_iff.1 hn).1
          simp only [List.length_append, List.length_singleton] at hl
          by_cases c : n = kv'.length
          · subst c; simp at hn; exact absurd hn.1.symm hk
          · omega
        refine ⟨n, hi, w, ?_, ?_, ?_⟩
        · simp only at hn
          rwa [List.getElem?_append_left hlt] at hn
        · simp [PMap.erase, hk, hmx]
        · intro j v' hj e
          have hj' : j < kv'.length := (List.getElem?_eq_some_iff.1 e).1
          refine hlater j v' hj ?_
          simp only
          rw [List.getElem?_append_left hj']; exact e
    · intro x hx
      have hx' : (t.del k).get? x = none := hx
      rw [get?_del hwf] at hx'
      unfold PMap.erase
      split at hx'
      · rename_i hk; rw [if_pos hk]
      · rename_i hk; rw [if_neg hk]; exact h.dead x hx'

theorem rep_tryGet {p : ArrayMap K V} {m : PMap K V} {st : List K} (h : Rep p m st) (k : K) :
    tryGet p k = .ok (match m k with | some v => (v, true) | none => (default, false)) := by
  unfold tryGet
  cases hp : p.pos.get? k with
  | none => rw [h.dead k hp]
  | some i =>
    obtain ⟨n, rfl, v, hn, hm, -⟩ := h.live k i hp
    simp only [hm]
    rw [goGet_nat hn]; rfl

theorem rep_clear (p : ArrayMap K V) (o : Order K Int) : Rep (clear o p) (PMap.empty : PMap K V) [] := by
  obtain ⟨pos, kv⟩ := p
  cases pos with
  | none => exact rep_new
  | some t =>
    have : clear o (⟨some t, kv⟩ : ArrayMap K V) = ⟨some [], []⟩ := by
      unfold clear
      rw [clear_some, List.filter_eq_nil_iff.2 (by simp)]
    rw [this]
    exact ⟨List.Pairwise.nil, fun _ => rfl, rfl, fun k i h => by (cases h), fun _ _ => rfl⟩

/-- The stack of `Set`s not yet undone after an operation. -/
def nextStack (m : PMap K V) (st : List K) : Op K V → List K
  | .set k _ => k :: st
  | .delete k => match m k with | none => st | some _ => st.tail
  | .clear => []
  | _ => st

theorem run_spec {p : ArrayMap K V} {m : PMap K V} {st : List K} (h : Rep p m st) (op : Op K V) (ops : List (Op K V))
    (hl : Lifo m st (op :: ops)) (o : Order K Int) :
    (run p o op).1 = (spec m op).1 ∧ Rep (run p o op).2 (spec m op).2 (nextStack m st op) ∧
      Lifo (spec m op).2 (nextStack m st op) ops := by
  cases op with
  | set k v =>
    obtain ⟨p', e, h'⟩ := rep_set h k v
    simp only [run, e]
    exact ⟨rfl, h', hl⟩
  | delete k =>
    simp only [Lifo] at hl
    cases hm : m k with
    | none =>
      rw [hm] at hl
      obtain ⟨e, e'⟩ := rep_delete_absent h k hm
      simp only [run, e, spec, hm, e', nextStack]
      exact ⟨rfl, h, hl⟩
    | some v =>
      rw [hm] at hl
      obtain ⟨p', e, h', -⟩ := rep_delete h k (by rw [hm]; exact fun c => by cases c) hl.1
      simp only [run, e, spec, hm, nextStack]
      exact ⟨rfl, h', hl.2⟩
  | has k =>
    refine ⟨?_, h, hl⟩
    simp only [run, spec, has, rep_isSome h]
  | tryGet k =>
    have e := rep_tryGet h k
    simp only [run, spec, e]
    cases hm : m k <;> exact ⟨rfl, h, hl⟩
  | get k =>
    have e := rep_tryGet h k
    cases hm : m k with
    | none =>
      have e' : get p k = .error "key not found" := by
        unfold get; rw [e, hm]; rfl
      simp only [run, spec, e', hm]
      exact ⟨trivial, h, hl⟩
    | some v =>
      have e' : get p k = .ok v := by
        unfold get; rw [e, hm]; rfl
      simp only [run, spec, e', hm]
      exact ⟨trivial, h, hl⟩
  | clear => exact ⟨rfl, rep_clear p o, hl⟩

/-- **C27** for the histories in which each `Delete` is of an absent key or undoes the latest `Set` not yet
undone. Missing: other deletions, for which the claim is false (`C27_full_false`, `C27_delete_damages`). -/
theorem C27_arrayMap_partial (ops : List (Op K V × Order K Int))
    (hl : Lifo (PMap.empty : PMap K V) [] (ops.map (·.1))) :
    (runAll new ops).1 = (specAll PMap.empty (ops.map (·.1))).1 := by
  have key : ∀ (ops : List (Op K V × Order K Int)) (p : ArrayMap K V) (m : PMap K V) (st : List K), Rep p m st →
      Lifo m st (ops.map (·.1)) → (runAll p ops).1 = (specAll m (ops.map (·.1))).1 := by
    intro ops
    induction ops with
    | nil => intro p m st _ _; rfl
    | cons e ops ih =>
      intro p m st h hl
      obtain ⟨op, o⟩ := e
      obtain ⟨h1, h2, h3⟩ := run_spec h op (ops.map Prod.fst) hl o
      simp only [runAll, List.map_cons, specAll, h1]
      rw [ih _ _ _ h2 h3]
  exact key ops new PMap.empty [] rep_new hl

/-- Deleting a live key that is not in the last slot, after any history of the good kind, makes the next
lookup of the key that is in the last slot panic. -/
theorem C27_delete_damages (p : ArrayMap K V) (m : PMap K V) (st : List K) (h : Rep p m st) (k k' : K)
    (hk : m k ≠ none) (htop : st.head? = some k') (hne : k ≠ k') :
    ∃ p', delete p k = .ok (true, p') ∧ tryGet p' k' = .error "index out of range" := by
  obtain ⟨pos, kv⟩ := p
  obtain ⟨kv', v', rfl⟩ := getLast_stack (l := kv) (k := k') (by rw [← h.stack]; exact htop)
  cases pos with
  | none => have := h.nil rfl; simp at this
  | some t =>
    have hwf : t.WF := h.wf
    cases hp : MapVar.get? (some t) k with
    | none => exact absurd (h.dead k hp) hk
    | some i =>
      obtain ⟨n, rfl, w, hn, -, -⟩ := h.live k i hp
      have hlt : n < kv'.length := by
        have hl := (List.getElem?_eq_some_iff.1 hn).1
        simp only [List.length_append, List.length_singleton] at hl
        by_cases c : n = kv'.length
        · subst c; simp at hn; exact absurd hn.1.symm hne
        · omega
      have hlast : (((kv' ++ [(k', v')]).length : Int) - 1) = ((kv'.length : Nat) : Int) := by simp
      refine ⟨⟨some ((t.put k' ((kv'.length : Nat) : Int)).del k), kv'.set n (k', v')⟩, ?_, ?_⟩
      · unfold delete
        simp only [hp, hlast]
        rw [if_pos (by omega)]
        have g1 : goGet (kv' ++ [(k', v')]) ((kv'.length : Nat) : Int) = .ok (k', v') := goGet_nat (by simp)
        have g2 : goSet (kv' ++ [(k', v')]) (n : Int) (k', v') = .ok ((kv' ++ [(k', v')]).set n (k', v')) :=
          goSet_nat (by simp; omega)
        have g3 : goGet ((kv' ++ [(k', v')]).set n (k', v')) (n : Int) = .ok (k', v') :=
          goGet_nat (by rw [List.getElem?_set]; simp; omega)
        have g4 : goSlice ((kv' ++ [(k', v')]).set n (k', v')) 0 ((kv'.length : Nat) : Int) =
            .ok (kv'.set n (k', v')) := by
          unfold goSlice
          rw [if_pos (by simp only [List.length_set, List.length_append, List.length_singleton]; omega), List.set_append_left _ _ hlt]
          simp
        simp only [g1, g2, g3, MapVar.put, pure, Except.pure, bind, Except.bind, g4]
        rfl
      · unfold tryGet
        have hget : MapVar.get? (some ((t.put k' ((kv'.length : Nat) : Int)).del k)) k' =
            some ((kv'.length : Nat) : Int) := by
          show ((t.put k' ((kv'.length : Nat) : Int)).del k).get? k' = _
          rw [get?_del (WF.put hwf _ _), if_neg (fun c => hne c.symm), get?_put hwf, if_pos rfl]
        simp only [hget]
        unfold goGet
        rw [if_pos (by omega), List.getElem?_eq_none (by simp)]
        rfl

/-! ## C28 -/

/-- The full C28: after every sequence, `Len` is the number of entries of the mathematical map and
`At(0), …, At(Len-1)` list it. False (`C28_full_false`). -/
def C28_full (K V : Type) [DecidableEq K] [Inhabited V] : Prop :=
  ∀ ops : List (Op K V × Order K Int), ∃ l : List (K × V),
    (specAll PMap.empty (ops.map (·.1))).2.Lists l ∧ len (runAll new ops).2 = l.length ∧
    ∀ i : Nat, i < l.length → ∃ e, l[i]? = some e ∧ at_ (runAll new ops).2 i = .ok e ∧
      keyAt (runAll new ops).2 i = .ok e.1 ∧ valueAt (runAll new ops).2 i = .ok e.2

theorem fresh_lifo : ∀ (ops : List (Op K V)) (m : PMap K V) (st : List K), LifoFresh m st ops → Lifo m st ops := by
  intro ops
  induction ops with
  | nil => intro m st _; trivial
  | cons op ops ih =>
    intro m st h
    cases op with
    | set k v => exact ih _ _ h.2
    | delete k =>
      simp only [LifoFresh, Lifo] at *
      cases hm : m k <;> rw [hm] at h
      · exact ih _ _ h
      · exact ⟨h.1, ih _ _ h.2⟩
    | has k => exact ih _ _ h
    | tryGet k => exact ih _ _ h
    | get k => exact ih _ _ h
    | clear => exact ih _ _ h

/-- Every slot is of a live key, and each key has one. -/
structure Tight (p : ArrayMap K V) (m : PMap K V) : Prop where
  nodup : (p.kv.map Prod.fst).Nodup
  live : ∀ k v, (k, v) ∈ p.kv → m k = some v

theorem tight_lists {p : ArrayMap K V} {m : PMap K V} {st : List K} (h : Rep p m st) (ht : Tight p m) :
    m.Lists p.kv where
  nodup := ht.nodup
  mem k v := by
    refine ⟨ht.live k v, fun hm => ?_⟩
    cases hp : p.pos.get? k with
    | none => rw [h.dead k hp] at hm; cases hm
    | some i =>
      obtain ⟨n, -, w, hn, hm', -⟩ := h.live k i hp
      rw [hm] at hm'; injection hm' with e
      subst e
      exact List.mem_of_getElem? hn

theorem run_tight {p : ArrayMap K V} {m : PMap K V} {st : List K} (h : Rep p m st) (ht : Tight p m) (op : Op K V)
    (ops : List (Op K V)) (hl : LifoFresh m st (op :: ops)) (o : Order K Int) :
    Tight (run p o op).2 (spec m op).2 ∧ LifoFresh (spec m op).2 (nextStack m st op) ops := by
  cases op with
  | set k v =>
    obtain ⟨hk, hl'⟩ := hl
    refine ⟨?_, hl'⟩
    have e : ∀ p', set p k v = .ok p' → p'.kv = p.kv ++ [(k, v)] := by
      intro p' e
      obtain ⟨pos, kv⟩ := p
      cases pos <;> (injection e with e; rw [← e]; rfl)
    obtain ⟨p', e1, -⟩ := rep_set h k v
    simp only [run, e1]
    have e2 := e p' e1
    have hnot : k ∉ p.kv.map Prod.fst := by
      intro hmem
      obtain ⟨⟨k', v'⟩, hx, rfl⟩ := List.mem_map.1 hmem
      rw [ht.live _ _ hx] at hk; cases hk
    constructor
    · rw [e2, List.map_append, List.nodup_append]
      refine ⟨ht.nodup, by simp, ?_⟩
      intro a ha b hb
      simp at hb; subst hb
      intro c; subst c; exact hnot ha
    · intro x w hx
      rw [e2] at hx
      simp only [spec, PMap.set]
      rcases List.mem_append.1 hx with hx1 | hx
      · rw [if_neg]
        · exact ht.live x w hx1
        · rintro rfl; exact hnot (List.mem_map.2 ⟨(x, w), hx1, rfl⟩)
      · simp at hx; rw [if_pos hx.1, hx.2]
  | delete k =>
    simp only [LifoFresh] at hl
    cases hm : m k with
    | none =>
      rw [hm] at hl
      obtain ⟨e, e'⟩ := rep_delete_absent h k hm
      simp only [run, e, spec, e', nextStack, hm]
      exact ⟨ht, hl⟩
    | some v =>
      rw [hm] at hl
      obtain ⟨p', e, -, e2⟩ := rep_delete h k (by rw [hm]; exact fun c => by cases c) hl.1
      obtain ⟨kv', w, hkv⟩ := getLast_stack (l := p.kv) (k := k) (by rw [← h.stack]; exact hl.1)
      simp only [run, e, spec, nextStack, hm]
      refine ⟨?_, hl.2⟩
      have hnd := ht.nodup
      rw [hkv] at e2 hnd
      rw [List.dropLast_concat] at e2
      rw [List.map_append, List.nodup_append] at hnd
      constructor
      · rw [e2]; exact hnd.1
      · intro x w' hx
        rw [e2] at hx
        unfold PMap.erase
        rw [if_neg, ht.live x w' (by rw [hkv]; exact List.mem_append.2 (Or.inl hx))]
        rintro rfl
        exact hnd.2.2 x (List.mem_map.2 ⟨(x, w'), hx, rfl⟩) x (by simp) rfl
  | has k => exact ⟨ht, hl⟩
  | tryGet k =>
    have e := rep_tryGet h k
    simp only [run, e]
    cases hm : m k <;> exact ⟨ht, hl⟩
  | get k =>
    refine ⟨?_, hl⟩
    simp only [run]
    split <;> exact ht
  | clear => exact ⟨⟨List.nodup_nil, fun k v h => by (simp [clear, run] at h)⟩, hl⟩

/-- **C28** for the histories that moreover `Set` only absent keys. Missing: other histories, for which the
claim is false (`C28_full_false`). -/
theorem C28_len_at_partial (ops : List (Op K V × Order K Int))
    (hl : LifoFresh (PMap.empty : PMap K V) [] (ops.map (·.1))) :
    ∃ l : List (K × V), (specAll PMap.empty (ops.map (·.1))).2.Lists l ∧
      len (runAll new ops).2 = l.length ∧ empty (runAll new ops).2 = l.isEmpty ∧
      (∀ i : Nat, i < l.length → ∃ e, l[i]? = some e ∧ at_ (runAll new ops).2 i = .ok e ∧
        keyAt (runAll new ops).2 i = .ok e.1 ∧ valueAt (runAll new ops).2 i = .ok e.2) ∧
      (∀ i : Int, ¬ (0 ≤ i ∧ i < l.length) → (at_ (runAll new ops).2 i).panics = true) := by
  have key : ∀ (ops : List (Op K V × Order K Int)) (p : ArrayMap K V) (m : PMap K V) (st : List K), Rep p m st →
      Tight p m → LifoFresh m st (ops.map (·.1)) →
      ∃ st', Rep (runAll p ops).2 (specAll m (ops.map (·.1))).2 st' ∧
        Tight (runAll p ops).2 (specAll m (ops.map (·.1))).2 := by
    intro ops
    induction ops with
    | nil => intro p m st h ht _; exact ⟨st, h, ht⟩
    | cons e ops ih =>
      intro p m st h ht hl
      obtain ⟨op, o⟩ := e
      obtain ⟨-, h2, -⟩ := run_spec h op (ops.map Prod.fst) (fresh_lifo _ _ _ hl) o
      obtain ⟨t2, hl2⟩ := run_tight h ht op (ops.map Prod.fst) hl o
      exact ih _ _ _ h2 t2 hl2
  obtain ⟨st, hr, ht⟩ := key ops new PMap.empty [] rep_new ⟨List.nodup_nil, fun k v h => by (simp [new] at h)⟩ hl
  refine ⟨(runAll new ops).2.kv, tight_lists hr ht, rfl, ?_, ?_, ?_⟩
  · unfold empty
    cases (runAll new ops).2.kv <;> rfl
  · intro i hi
    refine ⟨_, List.getElem?_eq_getElem hi, ?_, ?_, ?_⟩
    · exact goGet_nat (List.getElem?_eq_getElem hi)
    · unfold keyAt; rw [goGet_nat (List.getElem?_eq_getElem hi)]; rfl
    · unfold valueAt; rw [goGet_nat (List.getElem?_eq_getElem hi)]; rfl
  · intro i hi
    unfold at_ goGet
    split
    · rw [List.getElem?_eq_none (by omega)]; rfl
    · rfl

end

/-! ## Counterexamples -/

/-- Two keys, the first deleted, the second looked up: the lookup panics. -/
theorem C27_full_false : ¬ C27_full Nat Nat := by
  intro h
  have := h [(.set 1 10, .id), (.set 2 20, .id), (.delete 1, .id), (.tryGet 2, .id)]
  revert this
  decide +kernel

/-- With a further `Set` the lookup returns the value of another key. -/
theorem C27_wrong_value : (runAll (K := Nat) (V := Nat) new [(.set 1 10, .id), (.set 2 20, .id), (.delete 1, .id),
    (.set 3 30, .id), (.tryGet 2, .id)]).1 = [.unit, .unit, .bool true, .unit, .found 30] := by decide +kernel

/-- A deleted key comes back: its second slot is still there when the next `Delete` moves it. -/
theorem C27_comes_back : (runAll (K := Nat) (V := Nat) new [(.set 1 10, .id), (.set 2 20, .id), (.set 2 21, .id),
    (.delete 2, .id), (.has 2, .id), (.delete 1, .id), (.has 2, .id), (.tryGet 2, .id)]).1 =
    [.unit, .unit, .unit, .bool true, .bool false, .bool true, .bool true, .panic "index out of range"] := by decide +kernel

/-- Setting a key twice makes `Len` 2, though there is one entry. -/
theorem C28_full_false : ¬ C28_full Nat Nat := by
  intro h
  obtain ⟨l, hl, hlen, -⟩ := h [(.set 1 10, .id), (.set 1 11, .id)]
  have h1 : PMap.Lists (specAll (K := Nat) (V := Nat) PMap.empty [.set 1 10, .set 1 11]).2 [(1, 11)] := by
    refine ⟨by simp, fun k v => ?_⟩
    simp only [specAll, spec, PMap.set, PMap.empty]
    by_cases c : k = 1 <;> simp [c, eq_comm]
  have := (Lists.perm hl h1).length_eq
  rw [this] at hlen
  revert hlen
  decide +kernel

/-- It also fails if no key is ever set twice: after this history the keys are 2 and 4, but the entries listed are
those of 3 and 2. -/
theorem C28_delete_false : ¬ ∃ l : List (Nat × Nat), (specAll (K := Nat) (V := Nat) PMap.empty
      [.set 1 10, .set 2 20, .set 3 30, .delete 1, .set 4 40, .delete 3]).2.Lists l ∧
    ∀ i : Nat, i < l.length → ∃ e, l[i]? = some e ∧ at_ (runAll new [(.set 1 10, .id), (.set 2 20, .id), (.set 3 30, .id),
      (.delete 1, .id), (.set 4 40, .id), (.delete 3, .id)]).2 i = .ok e := by
  rintro ⟨l, hl, h⟩
  have h4 : (4, 40) ∈ l := (hl.mem 4 40).2 (by simp [specAll, spec, PMap.set, PMap.erase])
  have hlen : l.length = 2 := by
    have h1 : PMap.Lists (specAll (K := Nat) (V := Nat) PMap.empty
        [.set 1 10, .set 2 20, .set 3 30, .delete 1, .set 4 40, .delete 3]).2 [(2, 20), (4, 40)] := by
      refine ⟨by simp, fun k v => ?_⟩
      simp only [specAll, spec, PMap.set, PMap.empty, PMap.erase]
      by_cases c4 : k = 4
      · simp [c4, eq_comm]
      · by_cases c3 : k = 3
        · simp [c3]
        · by_cases c2 : k = 2
          · simp [c2, eq_comm]
          · by_cases c1 : k = 1
            · simp [c1]
            · simp [c1, c2, c3, c4]
    exact (Lists.perm hl h1).length_eq
  obtain ⟨i, hi⟩ := List.getElem?_of_mem h4
  have hlt := (List.getElem?_eq_some_iff.1 hi).1
  obtain ⟨e, he, ha⟩ := h i hlt
  rw [hi] at he
  injection he with he
  subst he
  rw [hlen] at hlt
  have : i = 0 ∨ i = 1 := by omega
  rcases this with rfl | rfl
  · revert ha; decide +kernel
  · revert ha; decide +kernel

/-- A history of the good kind that uses everything, repeated keys and deletions included. -/
example : Lifo (PMap.empty : PMap Nat Nat) [] [.set 1 10, .set 2 20, .set 1 11, .delete 1, .delete 7, .delete 2,
    .set 2 21, .tryGet 2, .get 1, .clear, .has 2] := by
  simp [Lifo, PMap.empty, PMap.set, PMap.erase]
example : LifoFresh (PMap.empty : PMap Nat Nat) [] [.set 1 10, .set 2 20, .delete 2, .set 3 30, .set 2 21,
    .delete 9] := by
  simp [LifoFresh, PMap.empty, PMap.set, PMap.erase]
example : (runAll (K := Nat) (V := Nat) new [(.set 1 10, .id), (.set 2 20, .id), (.set 1 11, .id), (.tryGet 1, .id),
    (.delete 1, .id), (.tryGet 1, .id), (.get 2, .id), (.get 1, .id)]).1 =
    [.unit, .unit, .unit, .found 11, .bool true, .notFound 0, .val 20, .panic "key not found"] := by decide +kernel
example : ∃ p : ArrayMap Nat Nat, ∃ m : PMap Nat Nat, ∃ st, Rep p m st ∧ m 1 ≠ none ∧ st.head? = some 2 := by
  obtain ⟨p, -, h⟩ := rep_set (rep_new (K := Nat) (V := Nat)) 1 10
  obtain ⟨p', -, h'⟩ := rep_set h 2 20
  exact ⟨p', _, _, h', by simp [PMap.set], rfl⟩

end Verif.ArrayMap
