import Verif.Src.MapRun
import Verif.Src.MapOps

/-!
# C152 (ArrayMap): histories of calls, from the text

`history` calls the methods of `ArrayMap`, as the text has them, one after the other. The results are those of the model of
ArrayMap/Model.lean; so C27 and what goes wrong beyond it hold of the text.
-/

set_option linter.unusedSectionVars false

namespace Verif.Src.XMap

open Verif.GoMap Verif.ArrayMap

variable {K V : Type} [BEq K] [Inhabited V] {p : Par K V} {m : Mem (K ⊕ V)} {a i : Nat} {pv kv : Val (K ⊕ V)} {q : ArrayMap K V}

theorem new_src (m : Mem (K ⊕ V)) (t : Nat) :
    ∃ m', calls (ctx p) (t + 1) "New" [] m = pure ([.ptr m.arrs.length 0 []], m') ∧ Holds p m' m.arrs.length 0 .nil .nil ArrayMap.new ∧
      m'.maps = m.maps ∧ ∀ b, b < m.arrs.length → m'.arrs[b]? = m.arrs[b]? := by
  refine ⟨m.alloc [arrV .nil .nil], ?_, ⟨?_, rfl, .nil, fun _ _ _ _ h => by cases h⟩, rfl, fun b hb => alloc_arrs hb _⟩
  · rw [calls]
    go_run [New_fn, arrV]
  · simp [Mem.cell, Mem.alloc]

theorem len_src (h : Holds p m a i pv kv q) (t : Nat) :
    calls (ctx p) (t + 1) "ArrayMap.Len" [.ptr a i []] m = pure ([.num .int (ArrayMap.len q)], m) := by
  rw [calls]
  go_run [ArrayMap_Len_fn, h.cell, arrV, h.items.len]
  rfl

theorem empty_src (h : Holds p m a i pv kv q) (t : Nat) :
    calls (ctx p) (t + 1) "ArrayMap.Empty" [.ptr a i []] m = pure ([.bool (ArrayMap.empty q)], m) := by
  rw [calls]
  unfold ArrayMap.empty
  by_cases hl : q.kv.length = 0
  · go_run [ArrayMap_Empty_fn, h.cell, arrV, h.items.len]
    simp [hl]
  · have : ¬ ((q.kv.length : Int) = 0) := by omega
    go_run [ArrayMap_Empty_fn, h.cell, arrV, h.items.len]
    show pure ([Val.bool false], m) = pure ([Val.bool (q.kv.length == 0)], m)
    rw [beq_eq_false_iff_ne.mpr hl]

theorem at_src (h : Holds p m a i pv kv q) (j : Int) (t : Nat) :
    calls (ctx p) (t + 1) "ArrayMap.At" [.ptr a i [], .num .int j] m =
      match ArrayMap.at_ q j with
      | .ok e => pure ([entryV e], m)
      | .error e => panic e := by
  rw [calls]
  unfold ArrayMap.at_
  by_cases hj : 0 ≤ j ∧ j < q.kv.length
  · have hj' : j.toNat < q.kv.length := by omega
    simp only [goGet_at hj.1 hj']
    go_run [ArrayMap_At_fn, h.cell, arrV, h.items.index hj.1 hj', entryV]
  · simp only [goGet_bad hj]
    go_run [ArrayMap_At_fn, h.cell, arrV, h.items.index_bad hj]

theorem valueAt_src (h : Holds p m a i pv kv q) (j : Int) (t : Nat) :
    calls (ctx p) (t + 1) "ArrayMap.ValueAt" [.ptr a i [], .num .int j] m =
      match ArrayMap.valueAt q j with
      | .ok v => pure ([vE v], m)
      | .error e => panic e := by
  rw [calls]
  unfold ArrayMap.valueAt
  by_cases hj : 0 ≤ j ∧ j < q.kv.length
  · have hj' : j.toNat < q.kv.length := by omega
    simp only [goGet_at hj.1 hj', Except.map]
    go_run [ArrayMap_ValueAt_fn, h.cell, arrV, h.items.index hj.1 hj', entryV]
  · simp only [goGet_bad hj, Except.map]
    go_run [ArrayMap_ValueAt_fn, h.cell, arrV, h.items.index_bad hj]

theorem keyAt_src (h : Holds p m a i pv kv q) (j : Int) (t : Nat) :
    calls (ctx p) (t + 1) "ArrayMap.KeyAt" [.ptr a i [], .num .int j] m =
      match ArrayMap.keyAt q j with
      | .ok k => pure ([kE k], m)
      | .error e => panic e := by
  rw [calls]
  unfold ArrayMap.keyAt
  by_cases hj : 0 ≤ j ∧ j < q.kv.length
  · have hj' : j.toNat < q.kv.length := by omega
    simp only [goGet_at hj.1 hj', Except.map]
    go_run [ArrayMap_KeyAt_fn, h.cell, arrV, h.items.index hj.1 hj', entryV]
  · simp only [goGet_bad hj, Except.map]
    go_run [ArrayMap_KeyAt_fn, h.cell, arrV, h.items.index_bad hj]

theorem arrClear_src [PartialEquivBEq K] (hf : Fair p) (h : Holds p m a i pv kv q) (t : Nat) :
    ∃ (o : Order K Int) (m' : Mem (K ⊕ V)), calls (ctx p) (t + 2) "ArrayMap.Clear" [.ptr a i []] m = pure ([], m') ∧
      Holds p m' a i pv .nil (ArrayMap.clear o q) ∧ Keeps a i m pv kv m' pv .nil := by
  obtain ⟨o, m1, e, hb⟩ := clear_src hf h.map t
  have key : Holds p m1 a i pv kv ⟨GoMap.clear o q.pos, q.kv⟩ ∧ Keeps a i m pv kv m1 pv kv := by
    cases hq : q.pos with
    | none =>
      rw [hq] at hb
      cases hb
      refine ⟨?_, .refl _ _ _ _ _⟩
      cases q with
      | mk pos l => cases hq; exact h
    | some s =>
      rw [hq] at hb
      obtain ⟨id, rfl, rfl⟩ := hb
      exact h.setMap _
  obtain ⟨h2, k2⟩ := key.1.setKv (kv' := .nil) (l := []) .nil (fun _ _ _ _ _ _ h => by cases h)
  refine ⟨o, m1.put a i (arrV pv .nil), ?_, h2, key.2.trans k2⟩
  rw [calls]
  obtain rfl | ⟨id, rfl⟩ := h.map.shape <;> go_run [ArrayMap_Clear_fn, h.cell, arrV, ↓e, key.1.cell]

/-! ## Histories -/

section
variable {K V : Type} [DecidableEq K] [Inhabited V] {p : Par K V} {m : Mem (K ⊕ V)} {a i : Nat} {pv kv : Val (K ⊕ V)} {q : ArrayMap K V}

/-- The call of a method on the receiver `r`. -/
def callArr (p : Par K V) (t : Nat) (r : Val (K ⊕ V)) : Op K V → Mem (K ⊕ V) → R (List (Val (K ⊕ V)) × Mem (K ⊕ V))
  | .set k v => calls (ctx p) t "ArrayMap.Set" [r, kE k, vE v]
  | .delete k => calls (ctx p) t "ArrayMap.Delete" [r, kE k]
  | .has k => calls (ctx p) t "ArrayMap.Has" [r, kE k]
  | .tryGet k => calls (ctx p) t "ArrayMap.TryGet" [r, kE k]
  | .get k => calls (ctx p) t "ArrayMap.Get" [r, kE k]
  | .clear => calls (ctx p) t "ArrayMap.Clear" [r]

/-- Calls one after the other, up to the first panic. -/
def history (p : Par K V) (t : Nat) (r : Val (K ⊕ V)) : List (Op K V) → Mem (K ⊕ V) → R (List (List (Val (K ⊕ V))) × Mem (K ⊕ V))
  | [], m => pure ([], m)
  | op :: ops, m => do
    let (vs, m) ← callArr p t r op m
    let (rs, m) ← history p t r ops m
    pure (vs :: rs, m)

/-- The values that stand for a result. -/
def resV : Res V → List (Val (K ⊕ V))
  | .unit => []
  | .bool b => [.bool b]
  | .val v => [vE v]
  | .found v => [vE v, .bool true]
  | .notFound v => [vE v, .bool false]
  | .panic _ => []

/-- The result is a panic. -/
def panicked : Res V → Bool
  | .panic _ => true
  | _ => false

theorem C152_arrayMap_call (hz : p.zeroV = default) (hf : Fair p) (h : Holds p m a i pv kv q) (hl : (q.kv.length : Int) < 9223372036854775808) (t : Nat) (op : Op K V) :
    ∃ o : Order K Int,
      if panicked (run q o op).1 = true then ∃ e, callArr p (t + 3) (.ptr a i []) op m = panic e
      else ∃ m' pv' kv', callArr p (t + 3) (.ptr a i []) op m = pure (resV (run q o op).1, m') ∧ Holds p m' a i pv' kv' (run q o op).2 ∧
        Keeps a i m pv kv m' pv' kv' := by
  cases op with
  | set k v =>
    obtain ⟨m', pv', kv', q', e, em, h', k'⟩ := set_src h (t + 1) k v
    have hr : run q .id (.set k v) = (.unit, q') := by simp only [run, em]
    refine ⟨.id, ?_⟩
    rw [hr]
    exact ⟨m', pv', kv', e, h', k'⟩
  | delete k =>
    have := delete_src h hl (t + 2) k
    refine ⟨.id, ?_⟩
    cases hd : ArrayMap.delete q k with
    | error e =>
      have hr : run q .id (.delete k) = (.panic e, q) := by simp only [run, hd]
      rw [hd] at this
      rw [hr]
      exact ⟨e, this⟩
    | ok r =>
      obtain ⟨b, q'⟩ := r
      have hr : run q .id (.delete k) = (.bool b, q') := by simp only [run, hd]
      rw [hd] at this
      rw [hr]
      exact this
  | has k => exact ⟨.id, m, pv, kv, has_src h (t + 2) k, h, .refl _ _ _ _ _⟩
  | tryGet k =>
    have := tryGet_src h hz (t + 1) k
    refine ⟨.id, ?_⟩
    cases hd : ArrayMap.tryGet q k with
    | error e =>
      have hr : run q .id (.tryGet k) = (.panic e, q) := by simp only [run, hd]
      rw [hd] at this
      rw [hr]
      exact ⟨e, this⟩
    | ok r =>
      rw [hd] at this
      obtain ⟨v, b⟩ := r
      cases b
      · have hr : run q .id (.tryGet k) = (.notFound v, q) := by simp only [run, hd]
        rw [hr]
        exact ⟨m, pv, kv, this, h, .refl _ _ _ _ _⟩
      · have hr : run q .id (.tryGet k) = (.found v, q) := by simp only [run, hd]
        rw [hr]
        exact ⟨m, pv, kv, this, h, .refl _ _ _ _ _⟩
  | get k =>
    have := get_src h hz t k
    refine ⟨.id, ?_⟩
    cases hd : ArrayMap.tryGet q k with
    | error e =>
      have hg : ArrayMap.get q k = .error e := by simp only [ArrayMap.get, hd]; rfl
      have hr : run q .id (.get k) = (.panic e, q) := by simp only [run, hg]
      rw [hd] at this
      rw [hr]
      exact ⟨e, this⟩
    | ok r =>
      rw [hd] at this
      obtain ⟨v, b⟩ := r
      cases b
      · have hg : ArrayMap.get q k = .error "key not found" := by simp only [ArrayMap.get, hd]; rfl
        have hr : run q .id (.get k) = (.panic "key not found", q) := by simp only [run, hg]
        rw [hr]
        exact ⟨_, this⟩
      · have hg : ArrayMap.get q k = .ok v := by simp only [ArrayMap.get, hd]; rfl
        have hr : run q .id (.get k) = (.val v, q) := by simp only [run, hg]
        rw [hr]
        exact ⟨m, pv, kv, this, h, .refl _ _ _ _ _⟩
  | clear =>
    obtain ⟨o, m', e, h', k'⟩ := arrClear_src hf h (t + 1)
    exact ⟨o, m', pv, .nil, e, h', k'⟩

theorem delete_length {q q' : ArrayMap K V} {k : K} {b : Bool} (h : ArrayMap.delete q k = .ok (b, q')) : q'.kv.length ≤ q.kv.length := by
  unfold ArrayMap.delete at h
  split at h
  · cases h; exact Nat.le_refl _
  · rename_i j _
    have hs : ∀ (l l' : List (K × V)) (n : Int), goSlice l 0 n = .ok l' → l'.length ≤ l.length := by
      intro l l' n e
      unfold goSlice at e
      split at e
      · cases e; simp; omega
      · cases e
    by_cases hj : j ≠ (q.kv.length : Int) - 1
    · simp only [hj, if_true, ne_eq, not_false_eq_true, bind, Except.bind] at h
      cases hg : goGet q.kv ((q.kv.length : Int) - 1) with
      | error e => rw [hg] at h; cases h
      | ok x =>
        rw [hg] at h
        simp only at h
        cases hset : goSet q.kv j x with
        | error e => rw [hset] at h; cases h
        | ok l =>
          rw [hset] at h
          have hll : l.length = q.kv.length := by
            unfold goSet at hset
            split at hset
            · cases hset; simp
            · cases hset
          simp only at h
          cases hg2 : goGet l j with
          | error e => rw [hg2] at h; cases h
          | ok y =>
            rw [hg2] at h
            simp only at h
            cases hput : q.pos.put y.1 ((q.kv.length : Int) - 1) with
            | error e => rw [hput] at h; cases h
            | ok s =>
              rw [hput] at h
              simp only [pure, Except.pure] at h
              cases hsl : goSlice l 0 ((q.kv.length : Int) - 1) with
              | error e => rw [hsl] at h; cases h
              | ok l' =>
                rw [hsl] at h
                cases h
                have := hs _ _ _ hsl
                simp only
                omega
    · simp only [hj, if_false, bind, Except.bind, pure, Except.pure] at h
      cases hsl : goSlice q.kv 0 ((q.kv.length : Int) - 1) with
      | error e => rw [hsl] at h; cases h
      | ok l' =>
        rw [hsl] at h
        cases h
        exact hs _ _ _ hsl

theorem run_length (q : ArrayMap K V) (o : Order K Int) (op : Op K V) : (run q o op).2.kv.length ≤ q.kv.length + 1 := by
  cases op with
  | set k v =>
    simp only [run]
    have : ∀ q' : ArrayMap K V, ArrayMap.set q k v = .ok q' → q'.kv.length ≤ q.kv.length + 1 := by
      intro q' e
      unfold ArrayMap.set ArrayMap.lazeInit at e
      cases hq : q.pos with
      | none => simp [hq, MapVar.put, bind, Except.bind] at e; cases e; simp
      | some s => simp [hq, MapVar.put, bind, Except.bind] at e; cases e; simp
    cases hs : ArrayMap.set q k v with
    | ok q' => exact this q' hs
    | error e => simp
  | delete k =>
    simp only [run]
    cases hd : ArrayMap.delete q k with
    | ok r =>
      obtain ⟨b, q'⟩ := r
      have := delete_length hd
      simp only
      omega
    | error e => simp
  | has k => simp [run]
  | tryGet k =>
    simp only [run]
    split <;> simp
  | get k =>
    simp only [run]
    split <;> simp
  | clear => simp [run, ArrayMap.clear]

/-- **C152 (ArrayMap).** A sequence of calls of the methods of `ArrayMap`, from the text, gives the results of the model, for some orders in
which `Clear` visits; if one of them panics in the model, so does the text. -/
theorem C152_arrayMap_history (hz : p.zeroV = default) (hf : Fair p) (t : Nat) : ∀ (ops : List (Op K V)) {m : Mem (K ⊕ V)} {pv kv : Val (K ⊕ V)} {q : ArrayMap K V},
    Holds p m a i pv kv q → (q.kv.length + ops.length : Int) < 9223372036854775808 →
    ∃ os : List (Op K V × Order K Int), os.map Prod.fst = ops ∧
      if (runAll q os).1.any panicked = true then ∃ e, history p (t + 3) (.ptr a i []) ops m = panic e
      else ∃ m' pv' kv', history p (t + 3) (.ptr a i []) ops m = pure ((runAll q os).1.map resV, m') ∧ Holds p m' a i pv' kv' (runAll q os).2 ∧
        Keeps a i m pv kv m' pv' kv' := by
  intro ops
  induction ops with
  | nil =>
    intro m pv kv q h _
    exact ⟨[], rfl, m, pv, kv, rfl, h, .refl _ _ _ _ _⟩
  | cons op ops ih =>
    intro m pv kv q h hl
    simp only [List.length_cons] at hl
    obtain ⟨o, ho⟩ := C152_arrayMap_call hz hf h (by omega) t op
    cases hp : panicked (run q o op).1 with
    | true =>
      rw [hp] at ho
      obtain ⟨e, he⟩ := ho
      refine ⟨(op, o) :: ops.map fun x => (x, o), by simp [Function.comp_def], ?_⟩
      have hany : (runAll q ((op, o) :: ops.map fun x => (x, o))).1.any panicked = true := by
        simp only [runAll, List.any_cons, hp, Bool.true_or]
      rw [if_pos hany]
      refine ⟨e, ?_⟩
      simp only [history, he]
      rfl
    | false =>
      rw [hp] at ho
      obtain ⟨m1, pv1, kv1, e1, h1, k1⟩ := ho
      have hn := run_length q o op
      obtain ⟨os, hos, hr⟩ := ih h1 (by omega)
      refine ⟨(op, o) :: os, by simp [hos], ?_⟩
      simp only [runAll, List.any_cons, hp, Bool.false_or]
      split at hr
      · rename_i hc
        obtain ⟨e, he⟩ := hr
        rw [if_pos hc]
        refine ⟨e, ?_⟩
        simp only [history, e1, pure_bind, he]
        rfl
      · rename_i hc
        obtain ⟨m2, pv2, kv2, e2, h2, k2⟩ := hr
        rw [if_neg hc]
        refine ⟨m2, pv2, kv2, ?_, h2, k1.trans k2⟩
        simp only [history, e1, pure_bind, e2, List.map_cons]

/-- **C152 (ArrayMap), C27 of the text.** From `New`, the calls of a history in which each `Delete` undoes the latest `Set` return what a
mathematical map gives, if no `Get` of an absent key is among them. -/
theorem C152_arrayMap_text (hz : p.zeroV = default) (hf : Fair p) (t : Nat) (m : Mem (K ⊕ V)) (ops : List (Op K V)) (hl : (ops.length : Int) < 9223372036854775808)
    (hlifo : Lifo (PMap.empty : PMap K V) [] ops) (hp : (specAll (PMap.empty : PMap K V) ops).1.any panicked = false) :
    ∃ r m1 m2, calls (ctx p) (t + 1) "New" [] m = pure ([r], m1) ∧ history p (t + 3) r ops m1 = pure ((specAll (PMap.empty : PMap K V) ops).1.map resV, m2) := by
  obtain ⟨m1, e1, h1, -⟩ := new_src (p := p) m t
  obtain ⟨os, hos, hr⟩ := C152_arrayMap_history hz hf t ops h1 (by simpa [ArrayMap.new] using hl)
  have key := C27_arrayMap_partial os (by rw [hos]; exact hlifo)
  rw [hos] at key
  rw [key, hp] at hr
  obtain ⟨m2, -, -, e2, -⟩ := hr
  exact ⟨_, m1, m2, e1, e2⟩

/-- **C152 (ArrayMap), C28 of the text.** If moreover each `Set` is of an absent key, `Len`, `Empty`, `At`, `KeyAt` and `ValueAt` list the
entries. -/
theorem C152_arrayMap_list (hz : p.zeroV = default) (hf : Fair p) (t : Nat) (m : Mem (K ⊕ V)) (ops : List (Op K V)) (hl : (ops.length : Int) < 9223372036854775808)
    (hlifo : LifoFresh (PMap.empty : PMap K V) [] ops)
    (hp : (specAll (PMap.empty : PMap K V) ops).1.any panicked = false) :
    ∃ r m1 m2, ∃ l : List (K × V), calls (ctx p) (t + 1) "New" [] m = pure ([r], m1) ∧
      history p (t + 3) r ops m1 = pure ((specAll (PMap.empty : PMap K V) ops).1.map resV, m2) ∧ (specAll (PMap.empty : PMap K V) ops).2.Lists l ∧
      calls (ctx p) (t + 1) "ArrayMap.Len" [r] m2 = pure ([.num .int l.length], m2) ∧
      calls (ctx p) (t + 1) "ArrayMap.Empty" [r] m2 = pure ([.bool l.isEmpty], m2) ∧
      ∀ i : Nat, (h : i < l.length) → calls (ctx p) (t + 1) "ArrayMap.At" [r, .num .int i] m2 = pure ([entryV l[i]], m2) ∧
        calls (ctx p) (t + 1) "ArrayMap.KeyAt" [r, .num .int i] m2 = pure ([kE l[i].1], m2) ∧
        calls (ctx p) (t + 1) "ArrayMap.ValueAt" [r, .num .int i] m2 = pure ([vE l[i].2], m2) := by
  obtain ⟨m1, e1, h1, -⟩ := new_src (p := p) m t
  obtain ⟨os, hos, hr⟩ := C152_arrayMap_history hz hf t ops h1 (by simpa [ArrayMap.new] using hl)
  have key := C27_arrayMap_partial os (by rw [hos]; exact fresh_lifo ops _ _ hlifo)
  obtain ⟨l, h2, h3, h4, h5, -⟩ := C28_len_at_partial os (by rw [hos]; exact hlifo)
  rw [hos] at key h2
  rw [key, hp] at hr
  obtain ⟨m2, pv, kv, e2, h, -⟩ := hr
  refine ⟨_, m1, m2, l, e1, e2, h2, ?_, ?_, fun i hi => ?_⟩
  · rw [len_src h t, h3]
  · rw [empty_src h t, h4]
  · obtain ⟨e, he, ha, hk, hv⟩ := h5 i hi
    have : e = l[i] := by
      rw [List.getElem?_eq_getElem hi] at he
      exact (Option.some.inj he).symm
    subst this
    refine ⟨?_, ?_, ?_⟩
    · rw [at_src h, ha]
    · rw [keyAt_src h, hk]
    · rw [valueAt_src h, hv]

end

/-! ## Where the text goes wrong -/

section
variable {p : Par Nat Nat}

/-- **C152 (ArrayMap), what goes wrong.** Two keys set and the first deleted: looking up the second panics. -/
theorem C152_arrayMap_panics (hz : p.zeroV = default) (hf : Fair p) (t : Nat) (m : Mem (Nat ⊕ Nat)) :
    ∃ r m1 e, calls (ctx p) (t + 1) "New" [] m = pure ([r], m1) ∧ history p (t + 3) r [.set 1 10, .set 2 20, .delete 1, .tryGet 2] m1 = panic e := by
  obtain ⟨m1, e1, h1, -⟩ := new_src (p := p) m t
  obtain ⟨os, hos, hr⟩ := C152_arrayMap_history hz hf t [.set 1 10, .set 2 20, .delete 1, .tryGet 2] h1 (by simp [ArrayMap.new])
  have key : (runAll (ArrayMap.new : ArrayMap Nat Nat) os).1.any panicked = true := by
    match os, hos with
    | [(_, _), (_, _), (_, _), (_, _)], h =>
      simp only [List.map_cons, List.map_nil, List.cons.injEq, and_true] at h
      obtain ⟨rfl, rfl, rfl, rfl⟩ := h
      rfl
  rw [if_pos key] at hr
  obtain ⟨e, he⟩ := hr
  exact ⟨_, m1, e, e1, he⟩

/-- **C152 (ArrayMap), what goes wrong.** After a further `Set` of a third key it returns the value of that one. -/
theorem C152_arrayMap_wrong (hz : p.zeroV = default) (hf : Fair p) (t : Nat) (m : Mem (Nat ⊕ Nat)) :
    ∃ r m1 m2, calls (ctx p) (t + 1) "New" [] m = pure ([r], m1) ∧
      history p (t + 3) r [.set 1 10, .set 2 20, .delete 1, .set 3 30, .tryGet 2] m1 = pure ([[], [], [.bool true], [], [vE 30, .bool true]], m2) := by
  obtain ⟨m1, e1, h1, -⟩ := new_src (p := p) m t
  obtain ⟨os, hos, hr⟩ := C152_arrayMap_history hz hf t [.set 1 10, .set 2 20, .delete 1, .set 3 30, .tryGet 2] h1 (by simp [ArrayMap.new])
  have key : (runAll (ArrayMap.new : ArrayMap Nat Nat) os).1 = [.unit, .unit, .bool true, .unit, .found 30] := by
    match os, hos with
    | [(_, _), (_, _), (_, _), (_, _), (_, _)], h =>
      simp only [List.map_cons, List.map_nil, List.cons.injEq, and_true] at h
      obtain ⟨rfl, rfl, rfl, rfl, rfl⟩ := h
      rfl
  rw [key] at hr
  obtain ⟨m2, -, -, he, -⟩ := hr
  exact ⟨_, m1, m2, e1, he⟩

end

end Verif.Src.XMap
