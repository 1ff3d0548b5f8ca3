import Verif.ArrayMap.Props
import Verif.Iter.State

/-!
# C112: keys of an `ArrayMap` that cannot be hashed

A struct key with an interface field that holds a slice, map or function makes every use of a Go map with it panic.
`ArrayMap.Set` has appended the entry by then.
-/

set_option linter.unusedSectionVars false

namespace Verif.ArrayMap.Panics

open Verif.GoMap Verif.ArrayMap

section
variable {K V : Type} [BEq K] [Inhabited V] (bad : K → Bool)

/-- A statement that changes the receiver or panics. -/
abbrev M (K V α : Type) := St (ArrayMap K V) α

/-- Read something, or panic. -/
def rd {α : Type} (f : ArrayMap K V → Go α) : M K V α := fun p => (f p, p)

/-- Change the receiver, or panic. -/
def wr (f : ArrayMap K V → Go (ArrayMap K V)) : M K V Unit := fun p =>
  match f p with
  | .ok p' => (.ok (), p')
  | .error e => (.error e, p)

/-- Every use of a map with the key, also if the map is nil or empty. -/
def hash (key : K) : M K V Unit := rd fun _ => if bad key then .error "hash of unhashable type" else .ok ()

/-- `p.pos[key]`. -/
def look (key : K) : M K V (Option Int) := do
  hash bad key
  rd fun p => .ok (p.pos.get? key)

/-- `p.pos[key] = i`. -/
def record (key : K) (i : Int) : M K V Unit := do
  hash bad key
  wr fun p => (p.pos.put key i).map fun pos => { p with pos }

/-- `Has` (ds/xmap/arraymap.go:26-29). -/
def has (key : K) : M K V Bool := do return (← look bad key).isSome

/-- `TryGet` (ds/xmap/arraymap.go:39-44). -/
def tryGet (key : K) : M K V (V × Bool) := do
  match ← look bad key with
  | some i => rd fun p => (goGet p.kv i).map fun e => (e.2, true)
  | none => return (default, false)

/-- `Get` (ds/xmap/arraymap.go:31-37). -/
def get (key : K) : M K V V := do
  let (value, found) ← tryGet bad key
  if !found then rd fun _ => .error "key not found" else return value

/-- `Set` (ds/xmap/arraymap.go:46-51). -/
def set (key : K) (value : V) : M K V Unit := do
  wr fun p => .ok (lazeInit p)
  let i : Int ← rd fun p => .ok (p.kv.length : Int)
  wr fun p => .ok { p with kv := p.kv ++ [(key, value)] }
  record bad key i

/-- ds/xmap/arraymap.go:58-62: fill the gap at `i` with the last entry. -/
def move (i last : Int) : M K V Unit := do
  let e ← rd fun p => goGet p.kv last
  wr fun p => (goSet p.kv i e).map fun kv => { p with kv }
  let ei ← rd fun p => goGet p.kv i
  record bad ei.1 last

/-- ds/xmap/arraymap.go:63-64. -/
def drop (key : K) (last : Int) : M K V Unit := do
  hash bad key
  wr fun p => .ok { p with pos := p.pos.del key }
  wr fun p => (goSlice p.kv 0 last).map fun kv => { p with kv }

/-- `Delete` (ds/xmap/arraymap.go:53-66). -/
def delete (key : K) : M K V Bool := do
  match ← look bad key with
  | none => return false
  | some i =>
    let last : Int ← rd fun p => .ok ((p.kv.length : Int) - 1)
    if i ≠ last then move bad i last
    drop bad key last
    return true

end

section
variable {K V : Type} [DecidableEq K] [Inhabited V] (bad : K → Bool)

/-- One operation. `Clear` sees only keys that are in the map. -/
def run (o : Order K Int) : Op K V → M K V (Res V)
  | .set k v => do
    set bad k v
    return .unit
  | .delete k => do return .bool (← delete bad k)
  | .has k => do return .bool (← has bad k)
  | .tryGet k => do
    let (v, ok) ← tryGet bad k
    return if ok then .found v else .notFound v
  | .get k => do return .val (← get bad k)
  | .clear => fun p => (.ok .unit, clear o p)

/-- The key of an operation. -/
def key? : Op K V → Option K
  | .set k _ | .delete k | .has k | .tryGet k | .get k => some k
  | .clear => none

/-- As the results of the other model. -/
def show_ : Go (Res V) × ArrayMap K V → Res V × ArrayMap K V
  | (.ok r, p) => (r, p)
  | (.error e, p) => (.panic e, p)

/-- What a caller can see of two maps is the same. -/
def Same (p q : ArrayMap K V) : Prop := p.kv = q.kv ∧ ∀ k, p.pos.get? k = q.pos.get? k

/-- C112 as stated: whatever panics leaves the map as it was. -/
def C112_full (K V : Type) [DecidableEq K] [Inhabited V] : Prop :=
  ∀ (bad : K → Bool) (ops : List (Op K V × Order K Int)) (op : Op K V) (o : Order K Int) (e : String),
    let p := ops.foldl (fun p x => (run bad x.2 x.1 p).2) new
    (run bad o op p).1 = .error e → Same (run bad o op p).2 p

end

section
variable {K V : Type} [DecidableEq K] [Inhabited V]

theorem rd_bind {α β : Type} (f : ArrayMap K V → Go α) (g : α → M K V β) (p : ArrayMap K V) :
    (rd f >>= g) p = match f p with
      | .ok a => g a p
      | .error e => (.error e, p) := by
  rw [St.bind_apply]
  unfold rd
  cases f p <;> rfl

theorem wr_bind {β : Type} (f : ArrayMap K V → Go (ArrayMap K V)) (g : Unit → M K V β) (p : ArrayMap K V) :
    (wr f >>= g) p = match f p with
      | .ok p' => g () p'
      | .error e => (.error e, p) := by
  rw [St.bind_apply]
  unfold wr
  cases f p <;> rfl

theorem hash_good {bad : K → Bool} {key : K} (h : bad key = false) (p : ArrayMap K V) :
    hash (V := V) bad key p = (.ok (), p) := by
  unfold hash rd; rw [h]; rfl

theorem hash_bad {bad : K → Bool} {key : K} (h : bad key = true) (p : ArrayMap K V) :
    hash (V := V) bad key p = (.error "hash of unhashable type", p) := by
  unfold hash rd; rw [h]; rfl

theorem look_good {bad : K → Bool} {key : K} (h : bad key = false) (p : ArrayMap K V) :
    look (V := V) bad key p = (.ok (p.pos.get? key), p) := by
  unfold look; rw [St.bind_ok (hash_good h p)]; rfl

theorem look_bad {bad : K → Bool} {key : K} (h : bad key = true) (p : ArrayMap K V) :
    look (V := V) bad key p = (.error "hash of unhashable type", p) := by
  unfold look
  rw [St.bind_error (hash_bad h p)]

theorem record_good {bad : K → Bool} {key : K} (h : bad key = false) (i : Int) (p : ArrayMap K V) :
    record (V := V) bad key i p = wr (fun p => (p.pos.put key i).map fun pos => { p with pos }) p := by
  unfold record; rw [St.bind_ok (hash_good h p)]

theorem tryGet_good {bad : K → Bool} {key : K} (h : bad key = false) (p : ArrayMap K V) :
    tryGet bad key p = (ArrayMap.tryGet p key, p) := by
  unfold tryGet ArrayMap.tryGet
  rw [St.bind_ok (look_good h p)]
  cases p.pos.get? key <;> rfl

theorem get_good {bad : K → Bool} {key : K} (h : bad key = false) (p : ArrayMap K V) :
    get bad key p = (ArrayMap.get p key, p) := by
  unfold get ArrayMap.get
  have e := tryGet_good h p
  cases ht : ArrayMap.tryGet p key with
  | error x => rw [ht] at e; rw [St.bind_error e]; rfl
  | ok r =>
    rw [ht] at e
    rw [St.bind_ok e]
    obtain ⟨v, b⟩ := r
    cases b <;> rfl

theorem set_good {bad : K → Bool} {key : K} (h : bad key = false) (value : V) (p : ArrayMap K V) :
    set bad key value p = match ArrayMap.set p key value with
      | .ok p' => (.ok (), p')
      | .error e => (.error e, p) := by
  unfold set
  rw [wr_bind]
  dsimp only
  rw [rd_bind]
  dsimp only
  rw [wr_bind]
  dsimp only
  rw [record_good h]
  unfold wr ArrayMap.set lazeInit
  cases hp : p.pos with
  | none => simp [MapVar.put]; rfl
  | some t => simp [MapVar.put, hp]; rfl

/-- A call of the model without panicking keys, which leaves the map `p` as it was when it panics. -/
def outcome {β : Type} (p : ArrayMap K V) : Go (β × ArrayMap K V) → Go β × ArrayMap K V
  | .ok (b, p') => (.ok b, p')
  | .error e => (.error e, p)

/-- No key is bad and no place is negative. -/
structure Fine (bad : K → Bool) (p : ArrayMap K V) : Prop where
  keys : ∀ e ∈ p.kv, bad e.1 = false
  pos : ∀ e ∈ p.pos.getD [], 0 ≤ e.2

theorem Fine.place {bad : K → Bool} {p : ArrayMap K V} (h : Fine bad p) {k : K} {i : Int} (hp : p.pos.get? k = some i) :
    0 ≤ i := by
  unfold MapVar.get? Tab.get? at hp
  cases hf : (p.pos.getD []).find? (fun e => e.1 == k) with
  | none => rw [hf] at hp; cases hp
  | some e =>
    rw [hf] at hp
    cases hp
    exact h.pos e (List.mem_of_find?_eq_some hf)

theorem drop_good {bad : K → Bool} {key : K} (h : bad key = false) (p : ArrayMap K V) {last : Int} (h0 : 0 ≤ last)
    (h1 : last ≤ p.kv.length) :
    drop bad key last p = (.ok (), ⟨p.pos.del key, p.kv.take last.toNat⟩) := by
  unfold drop
  rw [St.bind_ok (hash_good h p), wr_bind]
  dsimp only
  unfold wr goSlice
  dsimp only
  rw [if_pos ⟨by omega, h0, h1⟩]
  rfl

theorem goGet_mem {α : Type} {l : List α} {i : Int} {x : α} (h : goGet l i = .ok x) : x ∈ l ∧ 0 ≤ i ∧ i < l.length := by
  unfold goGet at h
  split at h
  · rename_i h0
    split at h
    · rename_i y hy
      cases h
      have := (List.getElem?_eq_some_iff.1 hy).1
      exact ⟨List.mem_of_getElem? hy, h0, by omega⟩
    · cases h
  · cases h

theorem delete_good {bad : K → Bool} {key : K} (h : bad key = false) (p : ArrayMap K V) (hf : Fine bad p) :
    delete bad key p = outcome p (ArrayMap.delete p key) := by
  unfold delete ArrayMap.delete
  rw [St.bind_ok (look_good h p)]
  cases hp : p.pos.get? key with
  | none => rfl
  | some i =>
    have hi0 := hf.place hp
    obtain ⟨t, ht⟩ : ∃ t, p.pos = some t := by
      cases hq : p.pos with
      | none => rw [hq] at hp; cases hp
      | some t => exact ⟨t, rfl⟩
    dsimp only
    rw [rd_bind]
    dsimp only
    by_cases hi : i ≠ (p.kv.length : Int) - 1
    · rw [if_pos hi, if_pos hi]
      cases hg : goGet p.kv ((p.kv.length : Int) - 1) with
      | error e =>
        have : move bad i ((p.kv.length : Int) - 1) p = (.error e, p) := by
          unfold move; rw [rd_bind, hg]
        rw [St.bind_error this]
        rfl
      | ok x =>
        obtain ⟨hx, hl0, -⟩ := goGet_mem hg
        cases hs : goSet p.kv i x with
        | error e =>
          have : move bad i ((p.kv.length : Int) - 1) p = (.error e, p) := by
            unfold move; rw [rd_bind, hg]; dsimp only; rw [wr_bind, hs]; rfl
          rw [St.bind_error this]
          show _ = outcome p (do
            let kv ← goSet p.kv i x
            let ei ← goGet kv i
            let pos ← p.pos.put ei.1 ((p.kv.length : Int) - 1)
            let p' : ArrayMap K V ← pure (⟨pos, kv⟩ : ArrayMap K V)
            let kv ← goSlice p'.kv 0 ((p.kv.length : Int) - 1)
            return (true, (⟨p'.pos.del key, kv⟩ : ArrayMap K V)))
          rw [hs]
          rfl
        | ok kv =>
          have hin := goSet_inv hs
          have hgi : goGet kv i = .ok x := by
            refine goGet_ok hin.1 ?_
            rw [hin.2.2, List.getElem?_set, if_pos rfl, if_pos hin.2.1]
          have hlen : kv.length = p.kv.length := by rw [hin.2.2]; simp
          have hput : p.pos.put x.1 ((p.kv.length : Int) - 1) = .ok (some (t.put x.1 ((p.kv.length : Int) - 1))) := by
            rw [ht]; rfl
          have hm : move bad i ((p.kv.length : Int) - 1) p = (.ok (), ⟨some (t.put x.1 ((p.kv.length : Int) - 1)), kv⟩) := by
            unfold move
            rw [rd_bind, hg]
            dsimp only
            rw [wr_bind, hs]
            show (rd (fun p => goGet p.kv i) >>= fun ei => record bad ei.1 _) _ = _
            rw [rd_bind]
            dsimp only
            rw [hgi]
            dsimp only
            rw [record_good (hf.keys x hx)]
            unfold wr
            dsimp only
            rw [hput]
            rfl
          rw [St.bind_ok hm, St.bind_ok (drop_good h _ hl0 (by dsimp only; omega))]
          show _ = outcome p (do
            let kv ← goSet p.kv i x
            let ei ← goGet kv i
            let pos ← p.pos.put ei.1 ((p.kv.length : Int) - 1)
            let p' : ArrayMap K V ← pure (⟨pos, kv⟩ : ArrayMap K V)
            let kv ← goSlice p'.kv 0 ((p.kv.length : Int) - 1)
            return (true, (⟨p'.pos.del key, kv⟩ : ArrayMap K V)))
          rw [hs]
          show _ = outcome p (do
            let ei ← goGet kv i
            let pos ← p.pos.put ei.1 ((p.kv.length : Int) - 1)
            let p' : ArrayMap K V ← pure (⟨pos, kv⟩ : ArrayMap K V)
            let kv ← goSlice p'.kv 0 ((p.kv.length : Int) - 1)
            return (true, (⟨p'.pos.del key, kv⟩ : ArrayMap K V)))
          rw [hgi]
          show _ = outcome p (do
            let pos ← p.pos.put x.1 ((p.kv.length : Int) - 1)
            let p' : ArrayMap K V ← pure (⟨pos, kv⟩ : ArrayMap K V)
            let kv ← goSlice p'.kv 0 ((p.kv.length : Int) - 1)
            return (true, (⟨p'.pos.del key, kv⟩ : ArrayMap K V)))
          rw [hput]
          show _ = outcome p (do
            let kv ← goSlice kv 0 ((p.kv.length : Int) - 1)
            return (true, (⟨MapVar.del (some (t.put x.1 ((p.kv.length : Int) - 1))) key, kv⟩ : ArrayMap K V)))
          unfold goSlice
          rw [if_pos (by omega)]
          rfl
    · rw [if_neg hi, if_neg hi]
      rw [St.bind_ok (drop_good h _ (by omega) (by omega))]
      show _ = outcome p (do
        let kv ← goSlice p.kv 0 ((p.kv.length : Int) - 1)
        return (true, (⟨p.pos.del key, kv⟩ : ArrayMap K V)))
      unfold goSlice
      rw [if_pos (by omega)]
      rfl

/-- With no bad keys it is the model of C27 and C28. -/
theorem C112_arrayMap_agrees {bad : K → Bool} {p : ArrayMap K V} (hf : Fine bad p) (o : Order K Int) (op : Op K V)
    (hk : ∀ k, key? op = some k → bad k = false) : show_ (run bad o op p) = ArrayMap.run p o op := by
  cases op with
  | clear => rfl
  | set k v =>
    have e := set_good (hk k rfl) v p
    simp only [run, ArrayMap.run, St.bind_apply, e]
    cases ArrayMap.set p k v <;> rfl
  | delete k =>
    have e := delete_good (hk k rfl) p hf
    simp only [run, ArrayMap.run, St.bind_apply, e]
    cases ArrayMap.delete p k with
    | error x => rfl
    | ok r => rfl
  | has k =>
    simp only [run, ArrayMap.run, has, St.bind_apply, look_good (hk k rfl) p]
    rfl
  | tryGet k =>
    simp only [run, ArrayMap.run, St.bind_apply, tryGet_good (hk k rfl) p]
    cases ArrayMap.tryGet p k with
    | error x => rfl
    | ok r => obtain ⟨v, b⟩ := r; cases b <;> rfl
  | get k =>
    simp only [run, ArrayMap.run, St.bind_apply, get_good (hk k rfl) p]
    cases ArrayMap.get p k <;> rfl

theorem Fine.drop {bad : K → Bool} {p : ArrayMap K V} (h : Fine bad p) (key : K) (n : Nat) :
    Fine bad (⟨p.pos.del key, p.kv.take n⟩ : ArrayMap K V) where
  keys e he := h.keys e (List.mem_of_mem_take he)
  pos e he := by
    cases hp : p.pos with
    | none => dsimp only at he; rw [hp] at he; cases he
    | some t =>
      dsimp only at he
      rw [hp] at he
      exact h.pos e (by rw [hp]; exact ((mem_del key e).1 he).1)

theorem move_fine {bad : K → Bool} {p : ArrayMap K V} (h : Fine bad p) (i last : Int)
    (hn : p.pos ≠ none) : (∃ e, move bad i last p = (.error e, p)) ∨
      0 ≤ last ∧ last < p.kv.length ∧ ∃ q, move bad i last p = (.ok (), q) ∧ Fine bad q ∧ q.kv.length = p.kv.length := by
  unfold move
  rw [rd_bind]
  cases hg : goGet p.kv last with
  | error e => exact .inl ⟨e, rfl⟩
  | ok x =>
    obtain ⟨hx, hl0, hl1⟩ := goGet_mem hg
    dsimp only
    rw [wr_bind]
    cases hs : goSet p.kv i x with
    | error e => exact .inl ⟨e, rfl⟩
    | ok kv =>
      have hin := goSet_inv hs
      have hgi : goGet kv i = .ok x := by
        refine goGet_ok hin.1 ?_
        rw [hin.2.2, List.getElem?_set, if_pos rfl, if_pos hin.2.1]
      show (∃ e, (rd (fun p => goGet p.kv i) >>= fun ei => record bad ei.1 _) _ = _) ∨ _ ∧ _ ∧ ∃ q,
        (rd (fun p => goGet p.kv i) >>= fun ei => record bad ei.1 _) _ = _ ∧ _
      rw [rd_bind]
      dsimp only
      rw [hgi]
      dsimp only
      rw [record_good (h.keys x hx)]
      unfold wr
      dsimp only
      cases hp : p.pos with
      | none =>
        exact absurd hp hn
      | some t =>
        refine .inr ⟨hl0, hl1, ⟨some (t.put x.1 last), kv⟩, rfl, ⟨fun e he => ?_, fun e he => ?_⟩, ?_⟩
        · dsimp only at he
          rw [hin.2.2] at he
          rcases List.mem_or_eq_of_mem_set he with he | rfl
          · exact h.keys e he
          · exact h.keys e hx
        · rcases (mem_put _ _ e).1 he with rfl | ⟨he, -⟩
          · exact hl0
          · exact h.pos e (by rw [hp]; exact he)
        · dsimp only; rw [hin.2.2, List.length_set]

theorem delete_fine {bad : K → Bool} {key : K} (h : bad key = false) {p : ArrayMap K V} (hf : Fine bad p) :
    (∃ e, delete bad key p = (.error e, p)) ∨ ∃ b q, delete bad key p = (.ok b, q) ∧ Fine bad q := by
  unfold delete
  rw [St.bind_ok (look_good h p)]
  cases hp : p.pos.get? key with
  | none => exact .inr ⟨false, p, rfl, hf⟩
  | some i =>
    have hi0 := hf.place hp
    have hn : p.pos ≠ none := by intro c; rw [c] at hp; cases hp
    dsimp only
    rw [rd_bind]
    dsimp only
    by_cases hi : i ≠ (p.kv.length : Int) - 1
    · rw [if_pos hi]
      rcases move_fine hf i ((p.kv.length : Int) - 1) hn with ⟨e, he⟩ | ⟨h0, h1, q, hq, hfq, hlen⟩
      · exact .inl ⟨e, by rw [St.bind_error he]⟩
      · rw [St.bind_ok hq, St.bind_ok (drop_good h q h0 (by omega))]
        exact .inr ⟨true, _, rfl, hfq.drop _ _⟩
    · rw [if_neg hi, St.bind_ok (drop_good h _ (by omega) (by omega))]
      exact .inr ⟨true, _, rfl, hf.drop _ _⟩

theorem set_fine {bad : K → Bool} {key : K} (h : bad key = false) (value : V) {p : ArrayMap K V} (hf : Fine bad p) :
    ∃ q, set bad key value p = (.ok (), q) ∧ Fine bad q := by
  have e : set bad key value p = (.ok (), ⟨some ((p.pos.getD []).put key p.kv.length), p.kv ++ [(key, value)]⟩) := by
    rw [set_good h]
    unfold ArrayMap.set lazeInit
    cases hp : p.pos with
    | none => rfl
    | some t => simp [MapVar.put, hp]; rfl
  refine ⟨_, e, ⟨fun x hx => ?_, fun x hx => ?_⟩⟩
  · rcases List.mem_append.1 hx with hx | hx
    · exact hf.keys x hx
    · cases List.mem_singleton.1 hx; exact h
  · rcases (mem_put _ _ x).1 hx with rfl | ⟨hx, -⟩
    · exact Int.natCast_nonneg _
    · exact hf.pos x hx

/-- The operation does not set a key that cannot be hashed. -/
def Hashed (bad : K → Bool) (op : Op K V) : Prop := ∀ k v, op = .set k v → bad k = false

theorem tryGet_state (bad : K → Bool) (key : K) (p : ArrayMap K V) : (tryGet bad key p).2 = p := by
  cases h : bad key with
  | true => unfold tryGet; rw [St.bind_error (look_bad h p)]
  | false => rw [tryGet_good h]

theorem get_state (bad : K → Bool) (key : K) (p : ArrayMap K V) : (get bad key p).2 = p := by
  cases h : bad key with
  | true =>
    unfold get tryGet
    rw [St.bind_error (s' := p) (e := "hash of unhashable type") (by rw [St.bind_error (look_bad h p)])]
  | false => rw [get_good h]

theorem run_fine {bad : K → Bool} {p : ArrayMap K V} (hf : Fine bad p) (o : Order K Int) (op : Op K V)
    (hop : Hashed bad op) :
    (∃ e, run bad o op p = (.error e, p)) ∨ ∃ r q, run bad o op p = (.ok r, q) ∧ Fine bad q := by
  have obs : ∀ {α : Type} (m : M K V α) (f : α → Res V), (m p).2 = p →
      (∃ e, (m >>= fun a => pure (f a)) p = (.error e, p)) ∨
        ∃ r q, (m >>= fun a => pure (f a)) p = (.ok r, q) ∧ Fine bad q := by
    intro α m f hm
    rw [St.bind_apply]
    rcases hr : m p with ⟨r, q⟩
    rw [hr] at hm
    dsimp only at hm
    subst hm
    cases r with
    | error e => exact .inl ⟨e, rfl⟩
    | ok a => exact .inr ⟨f a, q, rfl, hf⟩
  cases op with
  | clear =>
    refine .inr ⟨_, _, rfl, ⟨fun e he => (by cases he), fun e he => ?_⟩⟩
    cases hp : p.pos with
    | none => rw [show (clear o p).pos = GoMap.clear o p.pos from rfl, hp] at he; cases he
    | some t =>
      rw [show (clear o p).pos = GoMap.clear o p.pos from rfl, hp, clear_some] at he
      exact hf.pos e (by rw [hp]; exact (List.mem_filter.1 he).1)
  | set k v =>
    obtain ⟨q, hq, hfq⟩ := set_fine (hop k v rfl) v hf
    refine .inr ⟨.unit, q, ?_, hfq⟩
    simp only [run]
    rw [St.bind_ok hq]
    rfl
  | delete k =>
    simp only [run]
    cases hk : bad k with
    | true =>
      refine .inl ⟨"hash of unhashable type", ?_⟩
      rw [St.bind_error (s' := p) (e := "hash of unhashable type")
        (by unfold delete; rw [St.bind_error (look_bad hk p)])]
    | false =>
      rcases delete_fine hk hf with ⟨e, he⟩ | ⟨b, q, hq, hfq⟩
      · exact .inl ⟨e, by rw [St.bind_error he]⟩
      · exact .inr ⟨.bool b, q, by rw [St.bind_ok hq]; rfl, hfq⟩
  | has k =>
    refine obs (has bad k) _ ?_
    unfold has
    cases hk : bad k with
    | true => rw [St.bind_error (look_bad hk p)]
    | false => rw [St.bind_ok (look_good hk p)]; rfl
  | tryGet k => exact obs (tryGet bad k) _ (tryGet_state bad k p)
  | get k => exact obs (get bad k) _ (get_state bad k p)

theorem fine_new (bad : K → Bool) : Fine bad (new : ArrayMap K V) := ⟨fun _ h => (by cases h), fun _ h => (by cases h)⟩

theorem fold_fine {bad : K → Bool} (ops : List (Op K V × Order K Int)) (h : ∀ x ∈ ops, Hashed bad x.1) :
    ∀ {p : ArrayMap K V}, Fine bad p → Fine bad (ops.foldl (fun p x => (run bad x.2 x.1 p).2) p) := by
  induction ops with
  | nil => exact fun hp => hp
  | cons x xs ih =>
    intro p hp
    refine ih (fun y hy => h y (List.mem_cons_of_mem _ hy)) ?_
    rcases run_fine hp x.2 x.1 (h x (List.mem_cons_self ..)) with ⟨e, he⟩ | ⟨r, q, hq, hfq⟩
    · dsimp only; rw [he]; exact hp
    · dsimp only; rw [hq]; exact hfq

/-- Without `Set`s of keys that cannot be hashed, whatever panics leaves the map as it was. -/
theorem C112_arrayMap_partial (bad : K → Bool) (ops : List (Op K V × Order K Int)) (op : Op K V) (o : Order K Int)
    (e : String) (h : ∀ x ∈ ops, Hashed bad x.1) (hop : Hashed bad op) :
    let p := ops.foldl (fun p x => (run bad x.2 x.1 p).2) new
    (run bad o op p).1 = .error e → (run bad o op p).2 = p := by
  intro p hp
  rcases run_fine (fold_fine ops h (fine_new bad)) o op hop with ⟨x, hx⟩ | ⟨r, q, hq, -⟩
  · show (run bad o op p).2 = p
    rw [show run bad o op p = _ from hx]
  · rw [show run bad o op p = _ from hq] at hp; cases hp

/-- `Set` with such a key panics and leaves an entry at the end that no key leads to. -/
theorem C112_set {bad : K → Bool} {k : K} (hk : bad k = true) (v : V) (o : Order K Int) (p : ArrayMap K V) :
    run bad o (.set k v) p =
      (.error "hash of unhashable type", ⟨some (p.pos.getD []), p.kv ++ [(k, v)]⟩) := by
  simp only [run]
  have e : set bad k v p = (.error "hash of unhashable type", ⟨some (p.pos.getD []), p.kv ++ [(k, v)]⟩) := by
    unfold set
    rw [wr_bind]
    dsimp only
    rw [rd_bind]
    dsimp only
    rw [wr_bind]
    dsimp only
    unfold record
    rw [St.bind_error (hash_bad hk _)]
    unfold lazeInit
    cases hp : p.pos with
    | none => rfl
    | some t => simp [hp]
  rw [St.bind_error e]

/-- Deleting another key then panics too, and from then on that key has the value of the entry that was never set. -/
theorem C112_get {bad : K → Bool} {k b : K} (hk : bad k = false) (hb : bad b = true) (v w : V) (o : Order K Int) :
    let p := [Op.set k v, .set b w, .delete k].foldl (fun p x => (run bad o x p).2) (new : ArrayMap K V)
    (run bad o (.get k) p).1 = .ok (.val w) := by
  have e1 : run bad o (.set k v) (new : ArrayMap K V) = (.ok .unit, ⟨some [(k, 0)], [(k, v)]⟩) := by
    simp only [run]
    have : set bad k v (new : ArrayMap K V) = (.ok (), ⟨some [(k, 0)], [(k, v)]⟩) := by rw [set_good hk]; rfl
    rw [St.bind_ok this]; rfl
  have e3 : run bad o (.delete k) (⟨some [(k, 0)], [(k, v), (b, w)]⟩ : ArrayMap K V) =
      (.error "hash of unhashable type", ⟨some [(k, 0)], [(b, w), (b, w)]⟩) := by
    simp only [run]
    have hd : delete bad k (⟨some [(k, 0)], [(k, v), (b, w)]⟩ : ArrayMap K V) =
        (.error "hash of unhashable type", ⟨some [(k, 0)], [(b, w), (b, w)]⟩) := by
      unfold delete
      rw [St.bind_ok (look_good hk _)]
      have : MapVar.get? (some [(k, (0 : Int))]) k = some 0 := by simp [MapVar.get?, Tab.get?]
      dsimp only
      rw [this]
      dsimp only
      rw [rd_bind]
      dsimp only
      have hm : move bad 0 1 (⟨some [(k, 0)], [(k, v), (b, w)]⟩ : ArrayMap K V) =
          (.error "hash of unhashable type", ⟨some [(k, 0)], [(b, w), (b, w)]⟩) := by
        unfold move
        rw [rd_bind]
        show (wr _ >>= _) _ = _
        rw [wr_bind]
        show (rd (fun p => goGet p.kv 0) >>= fun ei => record bad ei.1 _) _ = _
        rw [rd_bind]
        show record bad b 1 (⟨some [(k, 0)], [(b, w), (b, w)]⟩ : ArrayMap K V) = _
        unfold record
        rw [St.bind_error (hash_bad hb _)]
      show (move bad 0 1 >>= _) _ = _
      rw [St.bind_error hm]
    rw [St.bind_error hd]
  simp only [List.foldl_cons, List.foldl_nil, e1, C112_set hb]
  rw [show (⟨some ((some [(k, (0 : Int))]).getD []), [(k, v)] ++ [(b, w)]⟩ : ArrayMap K V) =
    ⟨some [(k, 0)], [(k, v), (b, w)]⟩ from rfl, e3]
  simp only [run, St.bind_apply, get_good hk]
  have : MapVar.get? (some [(k, (0 : Int))]) k = some 0 := by simp [MapVar.get?, Tab.get?]
  simp only [ArrayMap.get, ArrayMap.tryGet, this]
  rfl

/-- C112 fails for `ArrayMap`: a panicking `Set` makes it longer. -/
theorem C112_false : ¬ C112_full Nat Nat := by
  intro h
  have := (h (· == 0) [] (.set 0 7) Order.id "hash of unhashable type" (by rw [C112_set rfl])).1
  rw [C112_set rfl] at this
  cases this

/-- **C112, exactly.** In a history every call that panics leaves the map as it was, if and only if no call
is a `Set` of a key that cannot be hashed. -/
theorem C112_exact (bad : K → Bool) (ops : List (Op K V × Order K Int)) :
    (∀ (i : Nat) (x : Op K V × Order K Int) (e : String), ops[i]? = some x →
      let p := (ops.take i).foldl (fun p x => (run bad x.2 x.1 p).2) new
      (run bad x.2 x.1 p).1 = .error e → Same (run bad x.2 x.1 p).2 p) ↔
    ∀ x ∈ ops, ∀ k v, x.1 = .set k v → bad k = false := by
  constructor
  · intro h x hx k v hkv
    obtain ⟨i, hi⟩ := List.getElem?_of_mem hx
    cases hb : bad k with
    | false => rfl
    | true =>
      have := h i x "hash of unhashable type" hi (by rw [hkv, C112_set hb])
      rw [hkv, C112_set hb] at this
      have hl := congrArg List.length this.1
      simp at hl
  · intro h i x e hi p hp
    have hall : ∀ y ∈ ops, Hashed bad y.1 := fun y hy k v e => h y hy k v e
    have := C112_arrayMap_partial bad (ops.take i) x.1 x.2 e (fun y hy => hall y (List.mem_of_mem_take hy))
      (hall x (List.mem_of_getElem? hi)) hp
    rw [this]
    exact ⟨rfl, fun _ => rfl⟩

/-! Key 0 cannot be hashed: `Get(1)` is 99 although only `Set(1, 10)` returned. -/
example : (run (· == 0) Order.id (.get 1)
    ([Op.set 1 10, .set 0 99, .delete 1].foldl (fun p x => (run (· == 0) Order.id x p).2) (new : ArrayMap Nat Nat))).1 =
      .ok (.val 99) := by decide

/-! The hypotheses of `C112_arrayMap_partial` are met when a panic comes from `Get` and `Delete` of key 0. -/
example : let ops : List (Op Nat Nat × Order Nat Int) := [(.set 1 10, Order.id), (.delete 0, Order.id)]
    (∀ x ∈ ops, Hashed (· == 0) x.1) ∧
      (run (· == 0) Order.id (.get 0) (ops.foldl (fun p x => (run (· == 0) x.2 x.1 p).2) new)) =
        (.error "hash of unhashable type", ⟨some [(1, 0)], [(1, 10)]⟩) := by
  refine ⟨?_, rfl⟩
  intro x hx
  simp only [List.mem_cons, List.not_mem_nil, or_false] at hx
  rcases hx with rfl | rfl
  · intro k v h; cases h; rfl
  · intro k v h; cases h

end
end Verif.ArrayMap.Panics
