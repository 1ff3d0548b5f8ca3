import Verif.Src.MapBase
import Verif.GoMap.Lemmas

/-!
# ds/xmap/ops.go, map.go and set.go: what the text does

C152: the functions on maps and the methods of `Map` and `Set`, from the text, by the semantics of Src/Sem.lean, do what the models of
GoMap/Model.lean do, for some order of visiting.
-/

set_option linter.unusedSectionVars false

namespace Verif.Src.XMap

open Verif.GoMap

variable {K V : Type} [BEq K] {p : Par K V}

/-- `range` visits every entry once. -/
def Fair (p : Par K V) : Prop := ∀ m es, (p.order m es).Perm es

theorem perm_map_inv {α β : Type} {f : α → β} {l1 l2 : List β} (h : l1.Perm l2) : ∀ t : List α, l2 = t.map f → ∃ l : List α, l.Perm t ∧ l1 = l.map f := by
  induction h with
  | nil =>
    intro t ht
    have : t = [] := by simpa using ht.symm
    exact ⟨[], by rw [this], rfl⟩
  | cons x _ ih =>
    intro t ht
    cases t with
    | nil => cases ht
    | cons y t =>
      injection ht with e1 e2
      obtain ⟨l, hp, hl⟩ := ih t e2
      exact ⟨y :: l, hp.cons y, by rw [hl, e1]; rfl⟩
  | swap x y l =>
    intro t ht
    cases t with
    | nil => cases ht
    | cons a t =>
      cases t with
      | nil => cases ht
      | cons b t =>
        injection ht with e1 e2
        injection e2 with e2 e3
        exact ⟨b :: a :: t, .swap _ _ _, by rw [e1, e2, e3]; rfl⟩
  | trans _ _ ih1 ih2 =>
    intro t ht
    obtain ⟨l, hp, hl⟩ := ih2 t ht
    obtain ⟨l', hp', hl'⟩ := ih1 l hl
    exact ⟨l', hp'.trans hp, hl'⟩

/-- The order in which the entries of a table are visited. -/
theorem order_of {A B : Type} (hf : Fair p) (m : Mem (K ⊕ V)) (fk : A → Val (K ⊕ V)) (fv : B → Val (K ⊕ V)) (t : Tab A B) :
    ∃ o : Order A B, p.order m (enc fk fv t) = enc fk fv (o.visit t) := by
  obtain ⟨l, hp, hl⟩ := perm_map_inv (hf m (enc fk fv t)) t rfl
  classical
  refine ⟨⟨fun t' => if t' = t then l else t', ?_⟩, ?_⟩
  · intro t'
    split
    · rename_i e; rw [e]; exact hp
    · exact .refl _
  · simp only [if_true]
    exact hl

variable {B : Type} {z : Val (K ⊕ V)} {fv : B → Val (K ⊕ V)} {t : Tab K B} {m : Mem (K ⊕ V)} {id : Nat}

/-! ## `Clear` -/

/-- `delete` of the keys of `l`, one after the other. -/
theorem foldl_del (l : List (K × B)) : ∀ t : Tab K B, l.foldl (fun t e => t.del e.1) t = t.filter fun e => l.all fun x => !(e.1 == x.1) := by
  induction l with
  | nil => intro t; exact (List.filter_eq_self.2 (by simp)).symm
  | cons x l ih =>
    intro t
    rw [List.foldl_cons, ih, Tab.del, List.filter_filter]
    congr 1
    funext e
    rw [List.all_cons, Bool.and_comm]

theorem del_absent {k : K} (h : t.get? k = none) : t.del k = t := by
  unfold Tab.get? at h
  simp only [Option.map_eq_none_iff, List.find?_eq_none] at h
  exact List.filter_eq_self.2 fun e he => by simpa using h e he

theorem setMap_same (m : Mem (K ⊕ V)) (h : m.maps[id]? = some (obj p z kE fv t)) : m.setMap id (obj p z kE fv t) = m := by
  unfold Mem.setMap
  obtain ⟨hl, e⟩ := List.getElem?_eq_some_iff.mp h
  have : m.maps.set id (obj p z kE fv t) = m.maps := by
    conv => lhs; rw [← e]
    exact List.set_getElem_self hl
  rw [this]

theorem setMap_setMap (m : Mem (K ⊕ V)) (o o' : MapObj (K ⊕ V)) : (m.setMap id o).setMap id o' = m.setMap id o' := by
  simp [Mem.setMap]

/-- An entry that is visited. -/
theorem visit_next {body : Val (K ⊕ V) → Val (K ⊕ V) → Env (K ⊕ V) → Mem (K ⊕ V) → R ((Env (K ⊕ V) × Mem (K ⊕ V)) ⊕ (Flow (K ⊕ V) × Env (K ⊕ V) × Mem (K ⊕ V)))}
    {k v w : Val (K ⊕ V)} {l : List (Val (K ⊕ V) × Val (K ⊕ V))} {env env' : Env (K ⊕ V)} {m m' : Mem (K ⊕ V)} {o : MapObj (K ⊕ V)} (h : m.maps[id]? = some o)
    (hw : (if o.eq k k = true then o.get k else some v) = some w) (hb : body k w env m = pure (.inl (env', m'))) :
    visit id body ((k, v) :: l) env m = visit id body l env' m' := by
  rw [visit]
  simp only [h, hw, hb, pure_bind]

/-- An entry that has been deleted. -/
theorem visit_skip {body : Val (K ⊕ V) → Val (K ⊕ V) → Env (K ⊕ V) → Mem (K ⊕ V) → R ((Env (K ⊕ V) × Mem (K ⊕ V)) ⊕ (Flow (K ⊕ V) × Env (K ⊕ V) × Mem (K ⊕ V)))}
    {k v : Val (K ⊕ V)} {l : List (Val (K ⊕ V) × Val (K ⊕ V))} {env : Env (K ⊕ V)} {m : Mem (K ⊕ V)} {o : MapObj (K ⊕ V)} (h : m.maps[id]? = some o)
    (hw : (if o.eq k k = true then o.get k else some v) = none) :
    visit id body ((k, v) :: l) env m = visit id body l env m := by
  rw [visit]
  simp only [h, hw]

theorem clear_rounds (C : Calls (K ⊕ V)) (l : List (K × B)) : ∀ (t : Tab K B) (m : Mem (K ⊕ V)), m.maps[id]? = some (obj p z kE fv t) →
    roundsMap (ctx p) C "k" "_" id [Stmt.expr ((Expr.name "delete").call [Expr.name "m", Expr.name "k"] false)] (enc kE fv l) [("m", .map id)] m =
      pure (.next, [("m", .map id)], m.setMap id (obj p z kE fv (l.foldl (fun t e => t.del e.1) t))) := by
  induction l with
  | nil =>
    intro t m h
    rw [List.foldl_nil, setMap_same m h]
    rfl
  | cons e l ih =>
    intro t m h
    have hid := (List.getElem?_eq_some_iff.mp h).1
    have hd := delete_map (p := p) (z := z) (fv := fv) keyed_kE h e.1
    rw [List.foldl_cons]
    have next := ih (t.del e.1) (m.setMap id (obj p z kE fv (t.del e.1))) (setMap_here hid _)
    rw [setMap_setMap] at next
    have go : ∀ w, (if (obj p z kE fv t).eq (kE e.1) (kE e.1) = true then (obj p z kE fv t).get (kE e.1) else some (fv e.2)) = some w →
        roundsMap (ctx p) C "k" "_" id [Stmt.expr ((Expr.name "delete").call [Expr.name "m", Expr.name "k"] false)] (enc kE fv (e :: l)) [("m", .map id)] m =
          pure (.next, [("m", .map id)], m.setMap id (obj p z kE fv (l.foldl (fun t e => t.del e.1) (t.del e.1)))) := by
      intro w hw
      refine (visit_next (env' := [("m", .map id)]) (m' := m.setMap id (obj p z kE fv (t.del e.1))) h hw ?_).trans next
      go_run [↓hd]
    cases hk : e.1 == e.1 with
    | true =>
      have hk' : (obj p z kE fv t).eq (kE e.1) (kE e.1) = true := by
        show keyEq (ctx p) (kE e.1) (kE e.1) = true
        rw [keyed_kE.eq]; exact hk
      rw [if_pos hk', obj_get keyed_kE] at go
      cases hg : t.get? e.1 with
      | some w => exact go (fv w) (by rw [hg]; rfl)
      | none =>
        rw [del_absent hg] at next ⊢
        rw [setMap_same m h] at next
        exact (visit_skip h (by rw [if_pos hk', obj_get keyed_kE, hg]; rfl)).trans next
    | false =>
      have hk' : ¬ (obj p z kE fv t).eq (kE e.1) (kE e.1) = true := by
        show ¬ keyEq (ctx p) (kE e.1) (kE e.1) = true
        rw [keyed_kE.eq, hk]; decide
      exact go (fv e.2) (if_neg hk')

/-- The map that `w` is becomes `x`, in a memory that is otherwise the same. -/
def Becomes (p : Par K V) (z : Val (K ⊕ V)) (fv : B → Val (K ⊕ V)) (m : Mem (K ⊕ V)) (w : Val (K ⊕ V)) (x : MapVar K B) (m' : Mem (K ⊕ V)) : Prop :=
  match x with
  | none => m' = m
  | some t => ∃ id, w = .map id ∧ m' = m.setMap id (obj p z kE fv t)

theorem Becomes.isMap {w : Val (K ⊕ V)} {x y : MapVar K B} {m' : Mem (K ⊕ V)} (h : IsMap p z kE fv m w x) (hb : Becomes p z fv m w y m')
    (hn : x.isSome = y.isSome) : IsMap p z kE fv m' w y := by
  cases y with
  | none =>
    cases x with
    | none => exact h
    | some t => cases hn
  | some t =>
    obtain ⟨id, rfl, rfl⟩ := hb
    cases x with
    | none => cases hn
    | some s =>
      obtain ⟨id', e, hm⟩ := h
      cases e
      exact ⟨id, rfl, setMap_here (List.getElem?_eq_some_iff.mp hm).1 _⟩

variable {w : Val (K ⊕ V)} {x : MapVar K B}

theorem clear_src [PartialEquivBEq K] (hf : Fair p) (h : IsMap p z kE fv m w x) (n : Nat) :
    ∃ (o : Order K B) (m' : Mem (K ⊕ V)), calls (ctx p) (n + 1) "Clear" [w] m = pure ([], m') ∧ Becomes p z fv m w (GoMap.clear o x) m' := by
  rw [calls]
  cases x with
  | none =>
    cases h
    refine ⟨.id, m, ?_, rfl⟩
    have e0 := fun b => turns_done (ctx p) (calls (ctx p) n) "k" "_" .nil b (Int.le_refl 0) [("m", .nil)] m
    go_run [Clear_fn, e0]
  | some t =>
    obtain ⟨id, rfl, hm⟩ := h
    obtain ⟨o, ho⟩ := order_of hf m kE fv t
    refine ⟨o, m.setMap id (obj p z kE fv (clearLoop (o.visit t) t)), ?_, id, rfl, rfl⟩
    have key := clear_rounds (p := p) (calls (ctx p) n) (o.visit t) t m hm
    rw [foldl_del, ← clearLoop_spec _ _ t (Nat.le_refl _)] at key
    have ho' : p.order m (obj p z kE fv t).entries = enc kE fv (o.visit t) := ho
    go_run [Clear_fn, hm, ho', ↓key]

/-! ## Lookup, assignment, `delete` and `len` -/

theorem IsMap.shape (h : IsMap p z kE fv m w x) : w = .nil ∨ ∃ id, w = .map id := by
  cases x with
  | none => exact .inl h
  | some t => obtain ⟨id, e, -⟩ := h; exact .inr ⟨id, e⟩

theorem IsMap.lookup (h : IsMap p z kE fv m w x) (k : K) : ∃ u, lookupMap m w (kE k) = pure [u, .bool (x.get? k).isSome] := by
  cases x with
  | none => cases h; exact ⟨_, lookup_nil (p := p) keyed_kE k⟩
  | some t =>
    obtain ⟨id, rfl, hm⟩ := h
    rw [lookup_map keyed_kE hm k]
    show ∃ u, _ = pure [u, Val.bool (t.get? k).isSome]
    cases t.get? k <;> exact ⟨_, rfl⟩

theorem IsMap.deleteKey (h : IsMap p z kE fv m w x) (k : K) : ∃ m', deleteMap m w (kE k) = pure m' ∧ Becomes p z fv m w (x.del k) m' := by
  cases x with
  | none => cases h; exact ⟨m, rfl, rfl⟩
  | some t =>
    obtain ⟨id, rfl, hm⟩ := h
    exact ⟨_, delete_map keyed_kE hm k, id, rfl, rfl⟩

theorem store_nil (env : Env (K ⊕ V)) (m : Mem (K ⊕ V)) (v : Val (K ⊕ V)) (e : K ⊕ V) :
    store env m v (.elem .nil (.elem e)) = panic "assignment to entry in nil map" := rfl

theorem IsMap.assign (h : IsMap p z kE fv m w x) (hv : ∀ v, fit z (fv v) = fv v) (k : K) (b : B) :
    match x.put k b with
    | .ok y => ∃ m', (∀ env, store env m (fv b) (.elem w (kE k)) = pure (env, m')) ∧ Becomes p z fv m w y m'
    | .error e => ∀ env, store env m (fv b) (.elem w (kE k)) = panic e := by
  cases x with
  | none => cases h; exact fun env => store_nil env m _ _
  | some t =>
    obtain ⟨id, rfl, hm⟩ := h
    exact ⟨_, fun env => store_map keyed_kE hv hm env k b, id, rfl, rfl⟩

theorem IsMap.length (h : IsMap p z kE fv m w x) : Src.len m w = pure (.num .int x.len) := by
  cases x with
  | none => cases h; rfl
  | some t =>
    obtain ⟨id, rfl, hm⟩ := h
    simp [Src.len, hm, obj, enc, MapVar.len]

theorem fit_unit (w : Val (K ⊕ V)) (u : Unit) : fit w (unitV u : Val (K ⊕ V)) = unitV u := by cases w <;> rfl

/-! ## `Set` -/

section
variable {s : SetVar K}

theorem newSet_src (m : Mem (K ⊕ V)) (n : Nat) :
    ∃ m', calls (ctx p) (n + 1) "NewSet" [] m = pure ([.map m.maps.length], m') ∧ m' = m.newMap (obj p (unitV ()) (kE : K → Val (K ⊕ V)) unitV []) := by
  refine ⟨_, ?_, rfl⟩
  rw [calls]
  go_run [NewSet_fn]
  rfl

theorem setAdd_src (h : IsMap p z kE unitV m w s) (k : K) (n : Nat) :
    match SetVar.add s k with
    | .ok s' => ∃ m', calls (ctx p) (n + 1) "Set.Add" [w, kE k] m = pure ([], m') ∧ Becomes p z unitV m w s' m'
    | .error e => calls (ctx p) (n + 1) "Set.Add" [w, kE k] m = panic e := by
  have ha := h.assign (fit_unit z) k ()
  rw [calls]
  unfold SetVar.add
  cases hp : MapVar.put s k () with
  | error e =>
    rw [hp] at ha
    simp only [unitV] at ha
    obtain rfl | ⟨id, rfl⟩ := h.shape <;> go_run [Set_Add_fn, ↓ha]
  | ok y =>
    rw [hp] at ha
    obtain ⟨m', e, hb⟩ := ha
    simp only [unitV] at e
    refine ⟨m', ?_, hb⟩
    obtain rfl | ⟨id, rfl⟩ := h.shape <;> go_run [Set_Add_fn, ↓e]

theorem setTryAdd_src (h : IsMap p z kE unitV m w s) (k : K) (n : Nat) :
    match SetVar.tryAdd s k with
    | .ok (b, s') => ∃ m', calls (ctx p) (n + 1) "Set.TryAdd" [w, kE k] m = pure ([.bool b], m') ∧ (if b = true then Becomes p z unitV m w s' m' else m' = m ∧ s' = s)
    | .error e => calls (ctx p) (n + 1) "Set.TryAdd" [w, kE k] m = panic e := by
  have ha := h.assign (fit_unit z) k ()
  obtain ⟨u, hu⟩ := h.lookup k
  rw [calls]
  unfold SetVar.tryAdd
  cases hg : (MapVar.get? s k).isSome with
  | true =>
    rw [hg] at hu
    refine ⟨m, ?_, rfl, rfl⟩
    obtain rfl | ⟨id, rfl⟩ := h.shape <;> go_run [Set_TryAdd_fn, hu]
  | false =>
    rw [hg] at hu
    simp only [Bool.false_eq_true, if_false]
    cases hp : MapVar.put s k () with
    | error e =>
      rw [hp] at ha
      simp only [unitV] at ha
      obtain rfl | ⟨id, rfl⟩ := h.shape <;> go_run [Set_TryAdd_fn, hu, ↓ha]
    | ok y =>
      rw [hp] at ha
      obtain ⟨m', e, hb⟩ := ha
      simp only [unitV] at e
      refine ⟨m', ?_, hb⟩
      obtain rfl | ⟨id, rfl⟩ := h.shape <;> go_run [Set_TryAdd_fn, hu, ↓e]

theorem setDelete_src (h : IsMap p z kE unitV m w s) (k : K) (n : Nat) :
    ∃ m', calls (ctx p) (n + 1) "Set.Delete" [w, kE k] m = pure ([], m') ∧ Becomes p z unitV m w (SetVar.delete s k) m' := by
  obtain ⟨m', e, hb⟩ := h.deleteKey k
  rw [calls]
  refine ⟨m', ?_, hb⟩
  obtain rfl | ⟨id, rfl⟩ := h.shape <;> go_run [Set_Delete_fn, ↓e]

theorem setTryDelete_src (h : IsMap p z kE unitV m w s) (k : K) (n : Nat) :
    ∃ m', calls (ctx p) (n + 1) "Set.TryDelete" [w, kE k] m = pure ([.bool (SetVar.tryDelete s k).1], m') ∧
      Becomes p z unitV m w (SetVar.tryDelete s k).2 m' := by
  obtain ⟨m', e, hb⟩ := h.deleteKey k
  obtain ⟨u, hu⟩ := h.lookup k
  rw [calls]
  unfold SetVar.tryDelete
  cases hg : (MapVar.get? s k).isSome with
  | true =>
    rw [hg] at hu
    refine ⟨m', ?_, hb⟩
    obtain rfl | ⟨id, rfl⟩ := h.shape <;> go_run [Set_TryDelete_fn, hu, ↓e, Bool.not_true]
  | false =>
    rw [hg] at hu
    refine ⟨m, ?_, ?_⟩
    · obtain rfl | ⟨id, rfl⟩ := h.shape <;> go_run [Set_TryDelete_fn, hu, Bool.not_false]
    · show Becomes p z unitV m w s m
      cases s with
      | none => rfl
      | some t => obtain ⟨id, e, hm⟩ := h; exact ⟨id, e, (setMap_same m hm).symm⟩

theorem setHas_src (h : IsMap p z kE unitV m w s) (k : K) (n : Nat) :
    calls (ctx p) (n + 1) "Set.Has" [w, kE k] m = pure ([.bool (SetVar.has s k)], m) := by
  obtain ⟨u, hu⟩ := h.lookup k
  rw [calls]
  obtain rfl | ⟨id, rfl⟩ := h.shape <;> go_run [Set_Has_fn, hu] <;> rfl

theorem setLen_src (h : IsMap p z kE unitV m w s) (n : Nat) :
    calls (ctx p) (n + 1) "Set.Len" [w] m = pure ([.num .int (SetVar.len s)], m) := by
  have hl := h.length
  rw [calls]
  obtain rfl | ⟨id, rfl⟩ := h.shape <;> go_run [Set_Len_fn, ↓hl] <;> rfl

theorem setRaw_src (h : IsMap p z kE unitV m w s) (n : Nat) : calls (ctx p) (n + 1) "Set.Raw" [w] m = pure ([w], m) := by
  rw [calls]
  obtain rfl | ⟨id, rfl⟩ := h.shape <;> go_run [Set_Raw_fn]

theorem setClear_src [PartialEquivBEq K] (hf : Fair p) (h : IsMap p z kE unitV m w s) (n : Nat) :
    ∃ (o : Order K Unit) (m' : Mem (K ⊕ V)), calls (ctx p) (n + 2) "Set.Clear" [w] m = pure ([], m') ∧ Becomes p z unitV m w (SetVar.clear o s) m' := by
  obtain ⟨o, m', e, hb⟩ := clear_src hf h n
  rw [calls]
  refine ⟨o, m', ?_, hb⟩
  obtain rfl | ⟨id, rfl⟩ := h.shape <;> go_run [Set_Clear_fn, ↓e]

end

/-! ## `Entries`, `Keys` and `Values` -/

theorem get_mem [PartialEquivBEq K] (hw : t.WF) {e : K × B} (he : e ∈ t) (hk : (e.1 == e.1) = true) : t.get? e.1 = some e.2 := by
  unfold Tab.get?
  induction t with
  | nil => cases he
  | cons a t ih =>
    obtain ⟨h1, h2⟩ := List.pairwise_cons.1 hw
    rw [List.find?_cons]
    rcases List.mem_cons.1 he with rfl | he
    · rw [hk]; rfl
    · rw [h1 e he]
      exact ih h2 he

/-- From `m` to `m'` only the array of `v` and new ones change. -/
structure Grows (m : Mem (K ⊕ V)) (v : Val (K ⊕ V)) (m' : Mem (K ⊕ V)) (v' : Val (K ⊕ V)) : Prop where
  maps : m'.maps = m.maps
  len : m.arrs.length ≤ m'.arrs.length
  arrs : ∀ q, q < m.arrs.length → Apart q v → m'.arrs[q]? = m.arrs[q]? ∧ Apart q v'

theorem Grows.refl (m : Mem (K ⊕ V)) (v : Val (K ⊕ V)) : Grows m v m v := ⟨rfl, Nat.le_refl _, fun _ _ h => ⟨rfl, h⟩⟩

theorem Grows.trans {m m1 m2 : Mem (K ⊕ V)} {v v1 v2 : Val (K ⊕ V)} (h : Grows m v m1 v1) (h' : Grows m1 v1 m2 v2) : Grows m v m2 v2 where
  maps := h'.maps.trans h.maps
  len := Nat.le_trans h.len h'.len
  arrs q hq hv := by
    obtain ⟨e1, p1⟩ := h.arrs q hq hv
    obtain ⟨e2, p2⟩ := h'.arrs q (Nat.lt_of_lt_of_le hq h.len) p1
    exact ⟨e2.trans e1, p2⟩

/-- The result is a new slice that holds `l`; nothing that there was changes. -/
def NewSlice {A : Type} (g : A → Val (K ⊕ V)) (m : Mem (K ⊕ V)) (r : R (List (Val (K ⊕ V)) × Mem (K ⊕ V))) (l : List A) : Prop :=
  ∃ v m', r = pure ([v], m') ∧ Items g m' v l ∧ Grows m .nil m' v

section
variable {A : Type} {g : A → Val (K ⊕ V)} {f : K × B → A} {C : Calls (K ⊕ V)} {kn vn : String} {body : List Stmt} {env : Val (K ⊕ V) → Env (K ⊕ V)}

/-- A loop that appends one value for each entry. -/
theorem collect [PartialEquivBEq K] (hwf : t.WF)
    (step : ∀ (e : K × B) (v : Val (K ⊕ V)) (acc : List A) (m : Mem (K ⊕ V)), Items g m v acc → ∀ v' m', Src.append (ctx p) m v [g (f e)] = pure (v', m') →
      Items g m' v' (acc ++ [f e]) → (do
        let (env', m) ← declares (ctx p) (env v) m [kn, vn] [kE e.1, fv e.2]
        let x ← execs (ctx p) C body env' m
        round (env v) x (fun env m => pure (.next, env, m)) : R ((Env (K ⊕ V) × Mem (K ⊕ V)) ⊕ (Flow (K ⊕ V) × Env (K ⊕ V) × Mem (K ⊕ V)))) = pure (.inl (env v', m')))
    (l : List (K × B)) : (∀ e ∈ l, e ∈ t) → ∀ (v : Val (K ⊕ V)) (acc : List A) (m : Mem (K ⊕ V)), Items g m v acc → m.maps[id]? = some (obj p z kE fv t) →
      ∃ v' m', roundsMap (ctx p) C kn vn id body (enc kE fv l) (env v) m = pure (.next, env v', m') ∧ Items g m' v' (acc ++ l.map f) ∧ Grows m v m' v' := by
  induction l with
  | nil => intro _ v acc m h _; exact ⟨v, m, rfl, by simpa using h, .refl _ _⟩
  | cons e l ih =>
    intro hl v acc m h hm
    obtain ⟨v1, m1, e1, h1, hlen, hmaps, hk⟩ := h.append (ctx p) (f e)
    obtain ⟨v2, m2, e2, h2, g2⟩ := ih (fun x hx => hl x (List.mem_cons_of_mem _ hx)) v1 (acc ++ [f e]) m1 h1 (by rw [hmaps]; exact hm)
    refine ⟨v2, m2, ?_, by simpa using h2, Grows.trans ⟨hmaps, hlen, hk⟩ g2⟩
    have hw : (if (obj p z kE fv t).eq (kE e.1) (kE e.1) = true then (obj p z kE fv t).get (kE e.1) else some (fv e.2)) = some (fv e.2) := by
      split
      · rename_i hh
        have hh' : keyEq (ctx p) (kE e.1) (kE e.1) = true := hh
        rw [keyed_kE.eq] at hh'
        rw [obj_get keyed_kE, get_mem hwf (hl e (List.mem_cons_self ..)) hh']
        rfl
      · rfl
    exact (visit_next hm hw (step e v acc m h v1 m1 e1 h1)).trans e2

end

theorem keys_src [PartialEquivBEq K] (hf : Fair p) (h : IsMap p z kE fv m w x) (hw : (x.getD []).WF) (n : Nat) :
    ∃ o : Order K B, NewSlice kE m (calls (ctx p) (n + 1) "Keys" [w] m) (GoMap.keys o x) := by
  rw [calls]
  cases x with
  | none =>
    cases h
    refine ⟨.id, .nil, m, ?_, .nil, .refl _ _⟩
    have e0 := fun b => turns_done (ctx p) (calls (ctx p) n) "k" "_" .nil b (Int.le_refl 0) [("keys", .nil), ("m", .nil)] m
    go_run [Keys_fn, e0]
  | some t =>
    obtain ⟨id, rfl, hm⟩ := h
    obtain ⟨o, ho⟩ := order_of hf m kE fv t
    obtain ⟨v, m', e, hi, hg⟩ := collect (p := p) (A := K) (g := kE) (f := Prod.fst) (C := calls (ctx p) n) (kn := "k") (vn := "_") (id := id) (z := z)
      (body := [Stmt.assign [Expr.name "keys"] [(Expr.name "append").call [Expr.name "keys", Expr.name "k"] false]])
      (env := fun v => [("keys", v), ("m", .map id)]) hw (by
        intro e v acc m h v' m' ha hi
        go_run [h.fetch, h.settle, h.fit, ↓h.boxNo, ↓ha, hi.fit, hi.settle, hi.fetch]) (o.visit t) (fun e he => (o.perm t).mem_iff.1 he) .nil [] m .nil hm
    refine ⟨o, v, m', ?_, ?_, hg⟩
    · have ho' : p.order m (obj p z kE fv t).entries = enc kE fv (o.visit t) := ho
      go_run [Keys_fn, hm, ho', ↓e, hi.fetch, hi.coerce, hi.settle]
    · rw [GoMap.keys_eq]
      simpa using hi

theorem values_src [PartialEquivBEq K] {x : MapVar K V} (hf : Fair p) (h : IsMap p z kE vE m w x) (hw : (x.getD []).WF) (n : Nat) :
    ∃ o : Order K V, NewSlice vE m (calls (ctx p) (n + 1) "Values" [w] m) (GoMap.values o x) := by
  rw [calls]
  cases x with
  | none =>
    cases h
    refine ⟨.id, .nil, m, ?_, .nil, .refl _ _⟩
    have e0 := fun b => turns_done (ctx p) (calls (ctx p) n) "_" "v" .nil b (Int.le_refl 0) [("values", .nil), ("m", .nil)] m
    go_run [Values_fn, e0]
  | some t =>
    obtain ⟨id, rfl, hm⟩ := h
    obtain ⟨o, ho⟩ := order_of hf m kE vE t
    obtain ⟨v, m', e, hi, hg⟩ := collect (p := p) (A := V) (g := vE) (f := Prod.snd) (C := calls (ctx p) n) (kn := "_") (vn := "v") (id := id) (z := z)
      (body := [Stmt.assign [Expr.name "values"] [(Expr.name "append").call [Expr.name "values", Expr.name "v"] false]])
      (env := fun v => [("values", v), ("m", .map id)]) hw (by
        intro e v acc m h v' m' ha hi
        go_run [h.fetch, h.settle, h.fit, ↓h.boxNo, ↓ha, hi.fit, hi.settle, hi.fetch]) (o.visit t) (fun e he => (o.perm t).mem_iff.1 he) .nil [] m .nil hm
    refine ⟨o, v, m', ?_, ?_, hg⟩
    · have ho' : p.order m (obj p z kE vE t).entries = enc kE vE (o.visit t) := ho
      go_run [Values_fn, hm, ho', ↓e, hi.fetch, hi.coerce, hi.settle]
    · rw [GoMap.values_eq]
      simpa using hi

theorem entries_src [PartialEquivBEq K] {x : MapVar K V} (hf : Fair p) (h : IsMap p z kE vE m w x) (hw : (x.getD []).WF) (n : Nat) :
    ∃ o : Order K V, NewSlice entryV m (calls (ctx p) (n + 1) "Entries" [w] m) (GoMap.entries o x) := by
  rw [calls]
  cases x with
  | none =>
    cases h
    refine ⟨.id, .nil, m, ?_, .nil, .refl _ _⟩
    have e0 := fun b => turns_done (ctx p) (calls (ctx p) n) "k" "v" .nil b (Int.le_refl 0) [("entries", .nil), ("m", .nil)] m
    go_run [Entries_fn, e0]
  | some t =>
    obtain ⟨id, rfl, hm⟩ := h
    obtain ⟨o, ho⟩ := order_of hf m kE vE t
    obtain ⟨v, m', e, hi, hg⟩ := collect (p := p) (A := K × V) (g := entryV) (f := fun e => e) (C := calls (ctx p) n) (kn := "k") (vn := "v") (id := id) (z := z)
      (body := [Stmt.assign [Expr.name "entries"] [(Expr.name "append").call [Expr.name "entries",
        Expr.lit (.name "Entry" [.name "K" [], .name "V" []]) ["Key", "Value"] [Expr.name "k", Expr.name "v"]] false]])
      (env := fun v => [("entries", v), ("m", .map id)]) hw (by
        intro e v acc m h v' m' ha hi
        simp only [entryV] at ha
        go_run [h.fetch, h.settle, h.fit, ↓h.boxNo, ↓ha, hi.fit, hi.settle, hi.fetch]) (o.visit t) (fun e he => (o.perm t).mem_iff.1 he) .nil [] m .nil hm
    refine ⟨o, v, m', ?_, ?_, hg⟩
    · have ho' : p.order m (obj p z kE vE t).entries = enc kE vE (o.visit t) := ho
      go_run [Entries_fn, hm, ho', ↓e, hi.fetch, hi.coerce, hi.settle]
    · rw [GoMap.entries_eq]
      simpa using hi

/-! ## The methods of `Map`, and `Set.Values` -/

theorem setValues_src [PartialEquivBEq K] {s : SetVar K} (hf : Fair p) (h : IsMap p z kE unitV m w s) (hw : (s.getD []).WF) (n : Nat) :
    ∃ o : Order K Unit, NewSlice kE m (calls (ctx p) (n + 2) "Set.Values" [w] m) (SetVar.values o s) := by
  obtain ⟨o, v, m', e, hi, hg⟩ := keys_src hf h hw n
  rw [calls]
  refine ⟨o, v, m', ?_, hi, hg⟩
  obtain rfl | ⟨id, rfl⟩ := h.shape <;> go_run [Set_Values_fn, ↓e, hi.coerce, hi.settle, hi.fetch]

theorem newMap_src (m : Mem (K ⊕ V)) (n : Nat) :
    calls (ctx p) (n + 1) "NewMap" [] m = pure ([.map m.maps.length], m.newMap (obj p (vE p.zeroV) (kE : K → Val (K ⊕ V)) vE ([] : Tab K V))) := by
  rw [calls]
  go_run [NewMap_fn]
  rfl

theorem newEntry_src (m : Mem (K ⊕ V)) (e : K × V) (n : Nat) :
    calls (ctx p) (n + 1) "NewEntry" [kE e.1, vE e.2] m = pure ([entryV e], m) := by
  rw [calls]
  go_run [NewEntry_fn, entryV]

theorem deleteKey_src (h : IsMap p z kE fv m w x) (k : K) (n : Nat) :
    ∃ m', calls (ctx p) (n + 1) "Delete" [w, kE k] m = pure ([], m') ∧ calls (ctx p) (n + 1) "Map.Delete" [w, kE k] m = pure ([], m') ∧
      Becomes p z fv m w (x.del k) m' := by
  obtain ⟨m', e, hb⟩ := h.deleteKey k
  refine ⟨m', ?_, ?_, hb⟩
  · rw [calls]
    obtain rfl | ⟨id, rfl⟩ := h.shape <;> go_run [Delete_fn, ↓e]
  · rw [calls]
    obtain rfl | ⟨id, rfl⟩ := h.shape <;> go_run [Map_Delete_fn, ↓e]

theorem mapMap_src (h : IsMap p z kE fv m w x) (n : Nat) : calls (ctx p) (n + 1) "Map.Map" [w] m = pure ([w], m) := by
  rw [calls]
  obtain rfl | ⟨id, rfl⟩ := h.shape <;> go_run [Map_Map_fn]

theorem mapClear_src [PartialEquivBEq K] (hf : Fair p) (h : IsMap p z kE fv m w x) (n : Nat) :
    ∃ (o : Order K B) (m' : Mem (K ⊕ V)), calls (ctx p) (n + 2) "Map.Clear" [w] m = pure ([], m') ∧ Becomes p z fv m w (GoMap.clear o x) m' := by
  obtain ⟨o, m', e, hb⟩ := clear_src hf h n
  rw [calls]
  refine ⟨o, m', ?_, hb⟩
  obtain rfl | ⟨id, rfl⟩ := h.shape <;> go_run [Map_Clear_fn, ↓e]

theorem mapKeys_src [PartialEquivBEq K] (hf : Fair p) (h : IsMap p z kE fv m w x) (hw : (x.getD []).WF) (n : Nat) :
    ∃ o : Order K B, NewSlice kE m (calls (ctx p) (n + 2) "Map.Keys" [w] m) (GoMap.keys o x) := by
  obtain ⟨o, v, m', e, hi, hg⟩ := keys_src hf h hw n
  rw [calls]
  refine ⟨o, v, m', ?_, hi, hg⟩
  obtain rfl | ⟨id, rfl⟩ := h.shape <;> go_run [Map_Keys_fn, ↓e, hi.coerce, hi.settle, hi.fetch]

theorem mapValues_src [PartialEquivBEq K] {x : MapVar K V} (hf : Fair p) (h : IsMap p z kE vE m w x) (hw : (x.getD []).WF) (n : Nat) :
    ∃ o : Order K V, NewSlice vE m (calls (ctx p) (n + 2) "Map.Values" [w] m) (GoMap.values o x) := by
  obtain ⟨o, v, m', e, hi, hg⟩ := values_src hf h hw n
  rw [calls]
  refine ⟨o, v, m', ?_, hi, hg⟩
  obtain rfl | ⟨id, rfl⟩ := h.shape <;> go_run [Map_Values_fn, ↓e, hi.coerce, hi.settle, hi.fetch]

theorem mapEntries_src [PartialEquivBEq K] {x : MapVar K V} (hf : Fair p) (h : IsMap p z kE vE m w x) (hw : (x.getD []).WF) (n : Nat) :
    ∃ o : Order K V, NewSlice entryV m (calls (ctx p) (n + 2) "Map.Entries" [w] m) (GoMap.entries o x) := by
  obtain ⟨o, v, m', e, hi, hg⟩ := entries_src hf h hw n
  rw [calls]
  refine ⟨o, v, m', ?_, hi, hg⟩
  obtain rfl | ⟨id, rfl⟩ := h.shape <;> go_run [Map_Entries_fn, ↓e, hi.coerce, hi.settle, hi.fetch]

end Verif.Src.XMap
