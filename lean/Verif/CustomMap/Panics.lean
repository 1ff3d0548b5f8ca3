import Verif.CustomMap.Props

/-!
# C112: hash functions and comparators of `Custom` that panic
-/

set_option linter.unusedSectionVars false

namespace Verif.CustomMap.Panics

open Verif.GoMap Verif.CustomMap

section
variable {K V : Type} [Inhabited V] (hash : K → Go UInt64) (equal : K → K → Go Bool)

/-- The loops over the overflow (ds/xmap/custom.go:37-41, 60-65, 84-89): the first entry with an equal key, from number
`i` on. -/
def find (key : K) : List (K × V) → Nat → Go (Option (Nat × V))
  | [], _ => .ok none
  | entry :: es, i => do
    if ← equal entry.1 key then return some (i, entry.2) else find key es (i + 1)

/-- A call that panics, with the map as the caller sees it then. -/
def after {α β : Type} (m : Custom K V) (g : Go α) (f : α → Go β × Custom K V) : Go β × Custom K V :=
  match g with
  | .error e => (.error e, m)
  | .ok a => f a

/-- `Get` (ds/xmap/custom.go:24-43). -/
def get (m : Custom K V) (key : K) : Go (V × Bool) × Custom K V :=
  after m (hash key) fun h =>
    match m.main.get? h with
    | none => (.ok (default, false), m)
    | some main => after m (equal main.1 key) fun b =>
      if b then (.ok (main.2, true), m)
      else match m.ovf.get? h with
        | none => (.ok (main.2, false), m)
        | some overflow => after m (find equal key overflow 0) fun r =>
          match r with
          | some (_, v) => (.ok (v, true), m)
          | none => (.ok (main.2, false), m)

/-- `Set` (ds/xmap/custom.go:45-68). The call works on `c`, a copy of the receiver; `writeBack` is what the caller sees. -/
def set (m : Custom K V) (key : K) (value : V) : Go Bool × Custom K V :=
  let c := m
  after (writeBack m c) (hash key) fun h =>
    match c.main.get? h with
    | none =>
      let c := { c with main := c.main.put h (key, value) }
      (.ok true, writeBack m c)
    | some mainEntry => after (writeBack m c) (equal mainEntry.1 key) fun b =>
      if b then
        let c := { c with main := c.main.put h (key, value) }
        (.ok false, writeBack m c)
      else match c.ovf.get? h with
        | none =>
          let c := { c with ovf := some (c.ovf.getD []) }
          let c := { c with ovf := some (Tab.put (c.ovf.getD []) h [(key, value)]) }
          (.ok true, writeBack m c)
        | some overflow => after (writeBack m c) (find equal key overflow 0) fun r =>
          match r with
          | some (i, _) =>
            let c := { c with ovf := some (Tab.put (c.ovf.getD []) h (overflow.set i (key, value))) }
            (.ok false, writeBack m c)
          | none =>
            let c := { c with ovf := some (Tab.put (c.ovf.getD []) h (overflow ++ [(key, value)])) }
            (.ok true, writeBack m c)

/-- `Delete` (ds/xmap/custom.go:70-91). -/
def delete (m : Custom K V) (key : K) : Go Bool × Custom K V :=
  let c := m
  after (writeBack m c) (hash key) fun h =>
    match c.main.get? h with
    | none => (.ok false, writeBack m c)
    | some main => after (writeBack m c) (equal main.1 key) fun b =>
      if b then
        let c := { c with main := c.main.del h }
        (.ok true, writeBack m c)
      else match c.ovf.get? h with
        | none => (.ok false, writeBack m c)
        | some overflow => after (writeBack m c) (find equal key overflow 0) fun r =>
          match r with
          | some (i, _) =>
            let c := { c with ovf := some (Tab.put (c.ovf.getD []) h (unorderedDelete overflow i)) }
            (.ok true, writeBack m c)
          | none => (.ok false, writeBack m c)

/-- One operation. -/
def run (m : Custom K V) : Op K V → Go (Res V) × Custom K V
  | .set k v => ((set hash equal m k v).1.map .flag, (set hash equal m k v).2)
  | .get k => ((get hash equal m k).1.map fun r => .got r.1 r.2, (get hash equal m k).2)
  | .delete k => ((delete hash equal m k).1.map .flag, (delete hash equal m k).2)

end

section
variable {K V : Type} [Inhabited V]

theorem writeBack_self (m : Custom K V) : writeBack m m = m := by
  unfold writeBack
  obtain ⟨a, b⟩ := m
  cases b <;> rfl

theorem after_error {α β : Type} {m : Custom K V} {g : Go α} {f : α → Go β × Custom K V} {e : String} {m' : Custom K V}
    (h : after m g f = (.error e, m')) (hf : ∀ a, f a = (.error e, m') → m' = m) : m' = m := by
  unfold after at h
  cases g with
  | error x => exact (Prod.mk.inj h).2.symm
  | ok a => exact hf a h

/-- **C112.** A call of `Custom` in which the hash function or the comparator panics leaves the map as it was. -/
theorem C112_custom (hash : K → Go UInt64) (equal : K → K → Go Bool) (m : Custom K V) (op : Op K V) (e : String)
    (h : (run hash equal m op).1 = .error e) : (run hash equal m op).2 = m := by
  have map_err : ∀ {α β : Type} {g : Go α} {f : α → β}, g.map f = .error e → g = .error e := by
    intro α β g f h
    cases g with
    | error x => cases h; rfl
    | ok a => cases h
  have no : ∀ {α : Type} {a : α} {m' m'' : Custom K V} {P : Prop}, ((.ok a : Go α), m') = (.error e, m'') → P :=
    fun h => by cases (Prod.mk.inj h).1
  cases op with
  | get k =>
    have h' := map_err h
    have : get hash equal m k = (.error e, (get hash equal m k).2) := Prod.ext h' rfl
    show (get hash equal m k).2 = m
    generalize (get hash equal m k).2 = m' at this
    unfold get at this
    refine after_error this fun a ha => ?_
    split at ha
    · exact no ha
    · refine after_error ha fun b hb => ?_
      split at hb
      · exact no hb
      · split at hb
        · exact no hb
        · refine after_error hb fun r hr => ?_
          split at hr <;> exact no hr
  | set k v =>
    have h' := map_err h
    have : set hash equal m k v = (.error e, (set hash equal m k v).2) := Prod.ext h' rfl
    show (set hash equal m k v).2 = m
    generalize (set hash equal m k v).2 = m' at this
    unfold set at this
    simp only [writeBack_self m] at this
    refine after_error this fun a ha => ?_
    split at ha
    · exact no ha
    · refine after_error ha fun b hb => ?_
      split at hb
      · exact no hb
      · split at hb
        · exact no hb
        · refine after_error hb fun r hr => ?_
          split at hr <;> exact no hr
  | delete k =>
    have h' := map_err h
    have : delete hash equal m k = (.error e, (delete hash equal m k).2) := Prod.ext h' rfl
    show (delete hash equal m k).2 = m
    generalize (delete hash equal m k).2 = m' at this
    unfold delete at this
    simp only [writeBack_self m] at this
    refine after_error this fun a ha => ?_
    split at ha
    · exact no ha
    · refine after_error ha fun b hb => ?_
      split at hb
      · exact no hb
      · split at hb
        · exact no hb
        · refine after_error hb fun r hr => ?_
          split at hr <;> exact no hr

theorem find_ok (equal : K → K → Bool) (key : K) : ∀ (l : List (K × V)) (i : Nat),
    find (fun a b => .ok (equal a b)) key l i =
      .ok (match l.findIdx? (fun entry => equal entry.1 key), l.find? (fun entry => equal entry.1 key) with
        | some j, some e => some (i + j, e.2)
        | _, _ => none) := by
  intro l
  induction l with
  | nil => intro i; rfl
  | cons x l ih =>
    intro i
    unfold find
    by_cases h : equal x.1 key = true
    · show (if equal x.1 key = true then _ else _) = _
      rw [if_pos h]
      simp [List.findIdx?_cons, h]
      rfl
    · show (if equal x.1 key = true then _ else _) = _
      rw [if_neg h, ih]
      simp only [List.findIdx?_cons, h, List.find?_cons]
      cases l.findIdx? (fun entry => equal entry.1 key) with
      | none => rfl
      | some j =>
        cases l.find? (fun entry => equal entry.1 key) with
        | none => rfl
        | some e => simp; omega

theorem find_both (equal : K → K → Bool) (key : K) (l : List (K × V)) :
    (∃ j e, l.findIdx? (fun entry => equal entry.1 key) = some j ∧ l.find? (fun entry => equal entry.1 key) = some e) ∨
    (l.findIdx? (fun entry => equal entry.1 key) = none ∧ l.find? (fun entry => equal entry.1 key) = none) := by
  cases h : l.find? (fun entry => equal entry.1 key) with
  | none =>
    right
    refine ⟨?_, rfl⟩
    rw [List.findIdx?_eq_none_iff]
    intro x hx
    have := List.find?_eq_none.1 h x hx
    simpa using this
  | some e =>
    left
    cases h' : l.findIdx? (fun entry => equal entry.1 key) with
    | none =>
      rw [List.findIdx?_eq_none_iff] at h'
      have h1 := List.find?_some h
      have h2 := h' e (List.mem_of_find?_eq_some h)
      exact absurd (h1.symm.trans h2) (by decide)
    | some j => exact ⟨j, e, rfl, rfl⟩

/-- Without panics it is the model of C29 and C30. -/
theorem C112_custom_agrees (hash : K → UInt64) (equal : K → K → Bool) (m : Custom K V) (op : Op K V) :
    run (fun k => .ok (hash k)) (fun a b => .ok (equal a b)) m op =
      (.ok (CustomMap.run hash equal m op).1, (CustomMap.run hash equal m op).2) := by
  cases op with
  | get k =>
    simp only [run, CustomMap.run, get, CustomMap.get, after]
    cases m.main.get? (hash k) with
    | none => rfl
    | some main =>
      dsimp only
      by_cases he : equal main.1 k = true
      · simp only [he, if_true]; rfl
      · simp only [he]
        cases m.ovf.get? (hash k) with
        | none => rfl
        | some overflow =>
          simp only [find_ok]
          rcases find_both equal k overflow with ⟨j, e, h1, h2⟩ | ⟨h1, h2⟩ <;> simp only [h1, h2] <;> rfl
  | set k v =>
    simp only [run, CustomMap.run, set, CustomMap.set, CustomMap.setBody, after]
    cases m.main.get? (hash k) with
    | none => rfl
    | some main =>
      dsimp only
      by_cases he : equal main.1 k = true
      · simp only [he, if_true]; rfl
      · simp only [he]
        cases m.ovf.get? (hash k) with
        | none => rfl
        | some overflow =>
          simp only [find_ok]
          rcases find_both equal k overflow with ⟨j, e, h1, h2⟩ | ⟨h1, h2⟩ <;>
            simp only [h1, h2, Nat.zero_add] <;> rfl
  | delete k =>
    simp only [run, CustomMap.run, delete, CustomMap.delete, CustomMap.deleteBody, after]
    cases m.main.get? (hash k) with
    | none => rfl
    | some main =>
      dsimp only
      by_cases he : equal main.1 k = true
      · simp only [he, if_true]; rfl
      · simp only [he]
        cases m.ovf.get? (hash k) with
        | none => rfl
        | some overflow =>
          simp only [find_ok]
          rcases find_both equal k overflow with ⟨j, e, h1, h2⟩ | ⟨h1, h2⟩ <;>
            simp only [h1, h2, Nat.zero_add] <;> rfl

end

/-- A comparator that panics on the key 13. -/
example : (run (V := Nat) (fun _ => .ok 7) (fun a b => if b = 13 then .error "13" else .ok (a == b)) ⟨[(7, (1, 10))], none⟩
    (.set 13 5)).1 = .error "13" := rfl

end Verif.CustomMap.Panics
