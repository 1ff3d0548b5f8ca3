import Verif.CustomMap.Props

/-!
# C154: `Custom` with an overflow table

`NewCustom` leaves the overflow table nil and the methods lose the one they make (C29, C30). Here is what the methods do when there is
one, as there would be if `NewCustom` made it or the receivers were pointers: every history is exact, collisions or not, up to the first
`Delete` of the key that was added first of the live keys with its hash while others of that hash are live. That one loses the others.
-/

set_option linter.unusedSectionVars false

namespace Verif.CustomMap.Overflow

open Verif.GoMap Verif.CustomMap

section
variable {K V : Type} [Inhabited V] (hash : K → UInt64) (equal : K → K → Bool)

/-- The mathematical map, and for each hash the key that was added first of the live keys with it (`none` if there is none). -/
structure Spec (K V : Type) where
  map : PMap K V
  first : UInt64 → Option K

def Spec.empty : Spec K V := ⟨PMap.empty, fun _ => none⟩

/-- One operation. A `Get` that does not find its key returns the value of the first key with its hash. -/
def step (s : Spec K V) : Op K V → Res V × Spec K V
  | .set k v => (.flag (s.map k).isNone, ⟨fun x => if equal k x then some v else s.map x,
      fun h => if h = hash k then some ((s.first h).getD k) else s.first h⟩)
  | .get k =>
    (match s.map k with
      | some v => .got v true
      | none => .got (((s.first (hash k)).bind s.map).getD default) false, s)
  | .delete k => (.flag (s.map k).isSome, ⟨fun x => if equal k x then none else s.map x,
      fun h => if h = hash k ∧ (s.first h).any (equal k) then none else s.first h⟩)

/-- A sequence of operations. -/
def steps (s : Spec K V) : List (Op K V) → List (Res V)
  | [] => []
  | op :: ops => (step hash equal s op).1 :: steps (step hash equal s op).2 ops

/-- The state after a sequence of operations. -/
def after (s : Spec K V) : List (Op K V) → Spec K V
  | [] => s
  | op :: ops => after (step hash equal s op).2 ops

/-- If the operation deletes the first key of its hash, no other key of the hash is live. -/
def Fine (s : Spec K V) : Op K V → Prop
  | .delete k => (s.first (hash k)).any (equal k) = true → ∀ x, s.map x ≠ none → hash x = hash k → equal k x = true
  | _ => True

/-- Every operation of the sequence is. -/
def FineAll (s : Spec K V) : List (Op K V) → Prop
  | [] => True
  | op :: ops => Fine hash equal s op ∧ FineAll (step hash equal s op).2 ops

/-! ## The entries of a hash -/

/-- The entries that `Get` can find for the hash. -/
def bucket (t : Tab UInt64 (K × V)) (o : Tab UInt64 (List (K × V))) (h : UInt64) : List (K × V) :=
  match t.get? h with
  | none => []
  | some e => e :: (o.get? h).getD []

/-- No two entries have equivalent keys. -/
def Distinct (b : List (K × V)) : Prop := b.Pairwise fun a b => equal a.1 b.1 = false

/-- The entry with the key is replaced, or added at the end. -/
def upd (k : K) (v : V) : List (K × V) → List (K × V)
  | [] => [(k, v)]
  | e :: b => if equal e.1 k then (k, v) :: b else e :: upd k v b

variable {hash equal}

theorem not_equal (g : Good hash equal) {a b c : K} (h : equal a b = true) (h' : equal a c = false) : equal b c = false := by
  cases e : equal b c with
  | false => rfl
  | true => rw [g.trans _ _ _ h e] at h'; cases h'

theorem not_equal' (g : Good hash equal) {a b : K} (h : equal a b = false) : equal b a = false := by
  cases e : equal b a with
  | false => rfl
  | true => rw [g.symm _ _ e] at h; cases h

theorem mem_upd (g : Good hash equal) (k : K) (v : V) {b : List (K × V)} (hd : Distinct equal b) (e : K × V) :
    e ∈ upd equal k v b ↔ e = (k, v) ∨ (e ∈ b ∧ equal e.1 k = false) := by
  induction b with
  | nil => simp [upd]
  | cons x b ih =>
    have hd := List.pairwise_cons.mp hd
    unfold upd
    cases hx : equal x.1 k with
    | true =>
      simp only [if_true, List.mem_cons]
      constructor
      · rintro (h | h)
        · exact .inl h
        · exact .inr ⟨.inr h, not_equal' g (not_equal g hx (hd.1 e h))⟩
      · rintro (h | ⟨rfl | h, h'⟩)
        · exact .inl h
        · rw [hx] at h'; cases h'
        · exact .inr h
    | false =>
      simp only [Bool.false_eq_true, if_false, List.mem_cons, ih hd.2]
      constructor
      · rintro (rfl | h | ⟨h, h'⟩)
        · exact .inr ⟨.inl rfl, hx⟩
        · exact .inl h
        · exact .inr ⟨.inr h, h'⟩
      · rintro (h | ⟨rfl | h, h'⟩)
        · exact .inr (.inl h)
        · exact .inl rfl
        · exact .inr (.inr ⟨h, h'⟩)

theorem distinct_upd (g : Good hash equal) (k : K) (v : V) {b : List (K × V)} (hd : Distinct equal b) : Distinct equal (upd equal k v b) := by
  induction b with
  | nil => exact List.pairwise_singleton _ _
  | cons x b ih =>
    have hd' := List.pairwise_cons.mp hd
    unfold upd
    cases hx : equal x.1 k with
    | true =>
      simp only [if_true]
      exact List.pairwise_cons.mpr ⟨fun e h => not_equal g hx (hd'.1 e h), hd'.2⟩
    | false =>
      simp only [Bool.false_eq_true, if_false]
      refine List.pairwise_cons.mpr ⟨fun e h => ?_, ih hd'.2⟩
      rcases (mem_upd g k v hd'.2 e).mp h with rfl | ⟨h, -⟩
      · exact hx
      · exact hd'.1 e h

/-- What the loop of `Set` does to the overflow entries. -/
theorem upd_eq (k : K) (v : V) (b : List (K × V)) : upd equal k v b =
    match b.findIdx? (fun e => equal e.1 k) with
    | some i => b.set i (k, v)
    | none => b ++ [(k, v)] := by
  induction b with
  | nil => rfl
  | cons x b ih =>
    rw [upd, List.findIdx?_cons]
    cases equal x.1 k with
    | true => rfl
    | false =>
      simp only [Bool.false_eq_true, if_false]
      rw [ih]
      cases b.findIdx? (fun e => equal e.1 k) <;> rfl

theorem unorderedDelete_perm {α : Type} (l : List α) {i : Nat} (hi : i < l.length) : (unorderedDelete l i).Perm (l.eraseIdx i) := by
  obtain ⟨l', e, rfl⟩ : ∃ l' e, l = l' ++ [e] := ⟨l.dropLast, l.getLast (by intro h; subst h; cases hi), (List.dropLast_concat_getLast _).symm⟩
  simp only [List.length_append, List.length_cons, List.length_nil] at hi
  simp only [unorderedDelete, List.getLast?_concat]
  by_cases h : i < l'.length
  · rw [List.set_append_left _ _ h, List.dropLast_concat, List.eraseIdx_append_of_lt_length h, List.set_eq_take_append_cons_drop, if_pos h,
      List.eraseIdx_eq_take_drop_succ, List.append_assoc]
    exact (List.perm_append_singleton e _).symm.append_left _
  · obtain rfl : i = l'.length := by omega
    rw [List.set_append_right _ _ (Nat.le_refl _), List.eraseIdx_append_of_length_le (Nat.le_refl _)]
    simp

theorem mem_delete (g : Good hash equal) {k : K} {b : List (K × V)} (hd : Distinct equal b) {i : Nat}
    (hi : b.findIdx? (fun e => equal e.1 k) = some i) (e : K × V) : e ∈ unorderedDelete b i ↔ e ∈ b ∧ equal e.1 k = false := by
  obtain ⟨h1, h2, -⟩ := List.findIdx?_eq_some_iff_getElem.mp hi
  rw [(unorderedDelete_perm b h1).mem_iff]
  have split : b = b.take i ++ b[i] :: b.drop (i + 1) := by rw [List.getElem_cons_drop, List.take_append_drop]
  rw [List.eraseIdx_eq_take_drop_succ]
  have hd' := hd
  unfold Distinct at hd'
  rw [split, List.pairwise_append, List.pairwise_cons] at hd'
  obtain ⟨-, ⟨h3, -⟩, h4⟩ := hd'
  have m : e ∈ b ↔ e ∈ b.take i ∨ e = b[i] ∨ e ∈ b.drop (i + 1) := by
    rw [← List.mem_cons, ← List.mem_append, ← split]
  rw [m, List.mem_append]
  have k1 : ∀ {x : K × V}, equal b[i].1 x.1 = false → equal x.1 k = false := fun h => not_equal' g (not_equal g h2 h)
  constructor
  · rintro (h | h)
    · exact ⟨.inl h, k1 (not_equal' g (h4 e h _ List.mem_cons_self))⟩
    · exact ⟨.inr (.inr h), k1 (h3 e h)⟩
  · rintro ⟨h | rfl | h, h'⟩
    · exact .inl h
    · rw [h2] at h'; cases h'
    · exact .inr h

theorem distinct_delete (g : Good hash equal) {b : List (K × V)} (hd : Distinct equal b) {i : Nat} (hi : i < b.length) :
    Distinct equal (unorderedDelete b i) := by
  have h : Distinct equal (b.eraseIdx i) := List.Pairwise.sublist (List.eraseIdx_sublist _ _) hd
  exact ((unorderedDelete_perm b hi).pairwise_iff fun h => not_equal' g h).mpr h

/-! ## The methods on the entries of a hash -/

variable {t : Tab UInt64 (K × V)} {o : Tab UInt64 (List (K × V))} {s : Spec K V}

theorem get_bucket (k : K) : get hash equal ⟨t, some o⟩ k =
    match (bucket t o (hash k)).find? (fun e => equal e.1 k) with
    | some e => (e.2, true)
    | none => ((bucket t o (hash k)).head?.map (·.2) |>.getD default, false) := by
  unfold get bucket
  dsimp only
  cases t.get? (hash k) with
  | none => rfl
  | some e =>
    simp only [List.find?_cons, MapVar.get?, Option.getD_some]
    cases equal e.1 k with
    | true => rfl
    | false =>
      simp only [Bool.false_eq_true, if_false]
      cases o.get? (hash k) with
      | none => rfl
      | some l => simp only [Option.getD_some]; cases l.find? (fun e => equal e.1 k) <;> rfl

/-- The invariant: the tables, the entries of each hash, and the mathematical map. -/
structure Inv (hash : K → UInt64) (equal : K → K → Bool) (t : Tab UInt64 (K × V)) (o : Tab UInt64 (List (K × V))) (s : Spec K V) : Prop where
  wf : t.WF
  wfo : o.WF
  stale : ∀ h, t.get? h = none → (o.get? h).getD [] = []
  hashed : ∀ h, ∀ e ∈ bucket t o h, hash e.1 = h
  distinct : ∀ h, Distinct equal (bucket t o h)
  map : ∀ x v, s.map x = some v ↔ ∃ k, (k, v) ∈ bucket t o (hash x) ∧ equal k x = true
  first : ∀ h, match bucket t o h, s.first h with
    | [], none => True
    | e :: _, some k => equal e.1 k = true
    | _, _ => False

theorem Inv.found (i : Inv hash equal t o s) (k : K) : s.map k = ((bucket t o (hash k)).find? (fun e => equal e.1 k)).map (·.2) := by
  cases h : (bucket t o (hash k)).find? (fun e => equal e.1 k) with
  | some e => exact (i.map k e.2).mpr ⟨e.1, List.mem_of_find?_eq_some h, by simpa using List.find?_some h⟩
  | none =>
    cases hm : s.map k with
    | none => rfl
    | some v =>
      obtain ⟨k', h1, h2⟩ := (i.map k v).mp hm
      have := List.find?_eq_none.mp h _ h1
      exact absurd h2 this

theorem inv_new : Inv hash equal ([] : Tab UInt64 (K × V)) [] Spec.empty where
  wf := List.Pairwise.nil
  wfo := List.Pairwise.nil
  stale _ _ := rfl
  hashed _ _ h := by cases h
  distinct _ := List.Pairwise.nil
  map x v := ⟨fun h => (by cases h), fun ⟨_, h, _⟩ => (by cases h)⟩
  first _ := trivial

theorem set_bucket (i : Inv hash equal t o s) (k : K) (v : V) : ∃ t' o',
    set hash equal ⟨t, some o⟩ k v = (((bucket t o (hash k)).find? (fun e => equal e.1 k)).isNone, ⟨t', some o'⟩) ∧ t'.WF ∧ o'.WF ∧
      (∀ h, t'.get? h = none → (o'.get? h).getD [] = []) ∧
      ∀ h, bucket t' o' h = if h = hash k then upd equal k v (bucket t o h) else bucket t o h := by
  unfold set setBody writeBack
  dsimp only
  have main : ∀ h, (t.put (hash k) (k, v)).get? h = none → (o.get? h).getD [] = [] := by
    intro h hn
    rw [get?_put i.wf] at hn
    split at hn
    · cases hn
    · exact i.stale h hn
  cases ht : t.get? (hash k) with
  | none =>
    refine ⟨t.put (hash k) (k, v), o, ?_, WF.put i.wf _ _, i.wfo, main, ?_⟩
    · simp [bucket, ht]
    · intro h
      by_cases hh : h = hash k
      · subst hh
        simp only [bucket, get?_put i.wf, ht, if_true, i.stale _ ht, upd]
      · simp only [bucket, get?_put i.wf, if_neg hh]
  | some e =>
    cases he : equal e.1 k with
    | true =>
      refine ⟨t.put (hash k) (k, v), o, ?_, WF.put i.wf _ _, i.wfo, main, ?_⟩
      · simp [bucket, ht, he]
      · intro h
        by_cases hh : h = hash k
        · subst hh
          simp only [bucket, get?_put i.wf, ht, if_true, upd, he]
        · simp only [bucket, get?_put i.wf, if_neg hh]
    | false =>
      refine ⟨t, o.put (hash k) (upd equal k v ((o.get? (hash k)).getD [])), ?_, i.wf, WF.put i.wfo _ _, ?_, ?_⟩
      · simp only [Bool.false_eq_true, if_false, MapVar.get?, Option.getD_some, bucket, ht, List.find?_cons, he, Option.isNone_some]
        cases ho : o.get? (hash k) with
        | none => simp [upd]
        | some l =>
          simp only [Option.getD_some, upd_eq]
          cases hf : l.findIdx? (fun e => equal e.1 k) with
          | none =>
            have : l.find? (fun e => equal e.1 k) = none := by
              rw [List.find?_eq_none]
              intro x hx
              simpa using List.findIdx?_eq_none_iff.mp hf x hx
            simp [this]
          | some j =>
            obtain ⟨h1, h2, -⟩ := List.findIdx?_eq_some_iff_getElem.mp hf
            have : (l.find? (fun e => equal e.1 k)).isSome := by
              rw [List.find?_isSome]
              exact ⟨l[j], List.getElem_mem h1, h2⟩
            cases hq : l.find? (fun e => equal e.1 k) with
            | none => rw [hq] at this; cases this
            | some q => simp
      · intro h hn
        rw [get?_put i.wfo]
        split
        · rename_i hh
          subst hh
          rw [ht] at hn; cases hn
        · exact i.stale h hn
      · intro h
        by_cases hh : h = hash k
        · subst hh
          simp only [bucket, get?_put i.wfo, ht, if_true, upd, he, Bool.false_eq_true, if_false, Option.getD_some]
        · simp only [bucket, get?_put i.wfo, if_neg hh]

/-- The entries of a hash after a `Delete`: what is in the overflow is lost with the entry before it. -/
def del (k : K) : List (K × V) → List (K × V)
  | [] => []
  | e :: l =>
    if equal e.1 k then []
    else match l.findIdx? (fun e => equal e.1 k) with
      | some j => e :: unorderedDelete l j
      | none => e :: l

theorem find_idx {l : List (K × V)} {k : K} : (l.findIdx? (fun e => equal e.1 k)).isSome = (l.find? (fun e => equal e.1 k)).isSome := by
  rw [List.findIdx?_isSome, Bool.eq_iff_iff, List.find?_isSome, List.any_eq_true]

theorem delete_bucket (i : Inv hash equal t o s) (k : K) : ∃ t' o',
    delete hash equal ⟨t, some o⟩ k = (((bucket t o (hash k)).find? (fun e => equal e.1 k)).isSome, ⟨t', some o'⟩) ∧ t'.WF ∧ o'.WF ∧
      ((∀ e l, bucket t o (hash k) = e :: l → equal e.1 k = true → l = []) → ∀ h, t'.get? h = none → (o'.get? h).getD [] = []) ∧
      ∀ h, bucket t' o' h = if h = hash k then del (equal := equal) k (bucket t o h) else bucket t o h := by
  unfold delete deleteBody writeBack
  dsimp only
  cases ht : t.get? (hash k) with
  | none =>
    refine ⟨t, o, ?_, i.wf, i.wfo, fun _ => i.stale, ?_⟩
    · simp [bucket, ht]
    · intro h
      split
      · rename_i hh
        subst hh
        simp only [bucket, ht, del]
      · rfl
  | some e =>
    cases he : equal e.1 k with
    | true =>
      refine ⟨t.del (hash k), o, ?_, WF.del i.wf _, i.wfo, ?_, ?_⟩
      · simp [bucket, ht, he]
      · intro hl h hn
        rw [get?_del i.wf] at hn
        split at hn
        · rename_i hh
          subst hh
          exact hl e _ (by simp only [bucket, ht]) he
        · exact i.stale h hn
      · intro h
        by_cases hh : h = hash k
        · subst hh
          simp only [bucket, get?_del i.wf, ht, if_true, del, he]
        · simp only [bucket, get?_del i.wf, if_neg hh]
    | false =>
      simp only [MapVar.get?, Option.getD_some]
      have hb : bucket t o (hash k) = e :: (o.get? (hash k)).getD [] := by simp only [bucket, ht]
      have hf : ((bucket t o (hash k)).find? fun e => equal e.1 k).isSome =
          (((o.get? (hash k)).getD []).findIdx? fun e => equal e.1 k).isSome := by
        rw [hb, List.find?_cons, he, find_idx]
      rw [hf]
      cases ho : o.get? (hash k) with
      | none =>
        refine ⟨t, o, by simp [he], i.wf, i.wfo, fun _ => i.stale, ?_⟩
        intro h
        split
        · rename_i hh
          subst hh
          simp [hb, ho, del, he]
        · rfl
      | some l =>
        simp only [Option.getD_some]
        cases hj : l.findIdx? (fun e => equal e.1 k) with
        | none =>
          refine ⟨t, o, by simp [he], i.wf, i.wfo, fun _ => i.stale, ?_⟩
          intro h
          split
          · rename_i hh
            subst hh
            simp [hb, ho, del, he, hj]
          · rfl
        | some j =>
          refine ⟨t, o.put (hash k) (unorderedDelete l j), by simp [he], i.wf, WF.put i.wfo _ _, ?_, ?_⟩
          · intro _ h hn
            rw [get?_put i.wfo]
            split
            · rename_i hh
              subst hh
              rw [ht] at hn; cases hn
            · exact i.stale h hn
          · intro h
            by_cases hh : h = hash k
            · subst hh
              rw [if_pos rfl, hb, ho]
              simp only [bucket, ht, get?_put i.wfo, if_true, Option.getD_some, del, he, hj, Bool.false_eq_true, if_false]
            · simp only [bucket, get?_put i.wfo, if_neg hh]

theorem mem_del (g : Good hash equal) {k : K} {b : List (K × V)} (hd : Distinct equal b)
    (hb : ∀ e l, b = e :: l → equal e.1 k = true → l = []) (e : K × V) : e ∈ del (equal := equal) k b ↔ e ∈ b ∧ equal e.1 k = false := by
  cases b with
  | nil => simp [del]
  | cons x l =>
    have hd' := List.pairwise_cons.mp hd
    cases hx : equal x.1 k with
    | true =>
      obtain rfl := hb x l rfl hx
      simp only [del, hx, if_true, List.mem_singleton]
      constructor
      · intro h; cases h
      · rintro ⟨rfl, h⟩
        rw [hx] at h; cases h
    | false =>
      simp only [del, hx, Bool.false_eq_true, if_false]
      cases hj : l.findIdx? (fun e => equal e.1 k) with
      | none =>
        have : ∀ y ∈ l, equal y.1 k = false := fun y hy => by simpa using List.findIdx?_eq_none_iff.mp hj y hy
        simp only [List.mem_cons]
        constructor
        · rintro (rfl | h)
          · exact ⟨.inl rfl, hx⟩
          · exact ⟨.inr h, this e h⟩
        · exact fun h => h.1
      | some j =>
        simp only [List.mem_cons, mem_delete g hd'.2 hj]
        constructor
        · rintro (rfl | h)
          · exact ⟨.inl rfl, hx⟩
          · exact ⟨.inr h.1, h.2⟩
        · rintro ⟨rfl | h, h'⟩
          · exact .inl rfl
          · exact .inr ⟨h, h'⟩

theorem distinct_del (g : Good hash equal) (k : K) {b : List (K × V)} (hd : Distinct equal b) : Distinct equal (del (equal := equal) k b) := by
  cases b with
  | nil => exact List.Pairwise.nil
  | cons x l =>
    have hd' := List.pairwise_cons.mp hd
    cases hx : equal x.1 k with
    | true => simp only [del, hx, if_true]; exact List.Pairwise.nil
    | false =>
      simp only [del, hx, Bool.false_eq_true, if_false]
      cases hj : l.findIdx? (fun e => equal e.1 k) with
      | none => exact hd
      | some j =>
        obtain ⟨h1, -⟩ := List.findIdx?_eq_some_iff_getElem.mp hj
        exact List.pairwise_cons.mpr ⟨fun e h => hd'.1 e ((mem_delete g hd'.2 hj e).mp h).1, distinct_delete g hd'.2 h1⟩

/-! ## Histories -/

theorem step_set (g : Good hash equal) (i : Inv hash equal t o s) (k : K) (v : V) :
    ∃ t' o', run hash equal ⟨t, some o⟩ (.set k v) = ((step hash equal s (.set k v)).1, ⟨t', some o'⟩) ∧
      Inv hash equal t' o' (step hash equal s (.set k v)).2 := by
  obtain ⟨t', o', e, w, wo, st, b⟩ := set_bucket i k v
  refine ⟨t', o', ?_, ⟨w, wo, st, ?_, ?_, ?_, ?_⟩⟩
  · simp only [run, e, step, i.found k, Option.isNone_map]
  · intro h x hx
    rw [b] at hx
    split at hx
    · rename_i hh
      rcases (mem_upd g k v (i.distinct h) x).mp hx with rfl | ⟨hx, -⟩
      · exact hh.symm
      · exact i.hashed h x hx
    · exact i.hashed h x hx
  · intro h
    rw [b]
    split
    · exact distinct_upd g k v (i.distinct h)
    · exact i.distinct h
  · intro x w
    simp only [step]
    by_cases hh : hash x = hash k
    · rw [b, if_pos hh]
      simp only [mem_upd g k v (i.distinct _)]
      cases hk : equal k x with
      | true =>
        simp only [if_true]
        constructor
        · rintro ⟨⟩
          exact ⟨k, .inl rfl, hk⟩
        · rintro ⟨k', h | ⟨h1, h2⟩, h'⟩
          · cases h; rfl
          · rw [g.trans _ _ _ h' (g.symm _ _ hk)] at h2; cases h2
      | false =>
        simp only [Bool.false_eq_true, if_false]
        rw [i.map]
        constructor
        · rintro ⟨k', h1, h2⟩
          exact ⟨k', .inr ⟨h1, not_equal' g (not_equal g (g.symm _ _ (g.symm _ _ (g.refl _))) (by
            cases hq : equal k k' with
            | false => rfl
            | true => rw [g.trans _ _ _ hq h2] at hk; cases hk))⟩, h2⟩
        · rintro ⟨k', h | ⟨h1, h2⟩, h'⟩
          · cases h
            rw [hk] at h'; cases h'
          · exact ⟨k', h1, h'⟩
    · rw [b, if_neg hh, if_neg (fun h => hh (g.hash _ _ h).symm)]
      exact i.map x w
  · intro h
    rw [b]
    have hf := i.first h
    simp only [step]
    by_cases hh : h = hash k
    · rw [if_pos hh, if_pos hh]
      cases hb : bucket t o h with
      | nil =>
        rw [hb] at hf
        cases hs : s.first h with
        | none => simp only [upd, Option.getD_none]; exact g.refl k
        | some f => rw [hs] at hf; exact hf.elim
      | cons x l =>
        rw [hb] at hf
        cases hs : s.first h with
        | none => rw [hs] at hf; exact hf.elim
        | some f =>
          rw [hs] at hf
          simp only [Option.getD_some, upd]
          cases hx : equal x.1 k with
          | true => exact g.trans _ _ _ (g.symm _ _ hx) hf
          | false => exact hf
    · rw [if_neg hh, if_neg hh]
      exact hf

theorem Inv.first_iff (g : Good hash equal) (i : Inv hash equal t o s) (k : K) :
    (s.first (hash k)).any (equal k) = true ↔ ∃ e l, bucket t o (hash k) = e :: l ∧ equal e.1 k = true := by
  have hf := i.first (hash k)
  cases hb : bucket t o (hash k) with
  | nil =>
    rw [hb] at hf
    cases hs : s.first (hash k) with
    | none => simp
    | some f => rw [hs] at hf; exact hf.elim
  | cons x l =>
    rw [hb] at hf
    cases hs : s.first (hash k) with
    | none => rw [hs] at hf; exact hf.elim
    | some f =>
      rw [hs] at hf
      simp only [Option.any_some]
      constructor
      · exact fun h => ⟨x, l, rfl, g.trans _ _ _ hf (g.symm _ _ h)⟩
      · rintro ⟨e, l', h, he⟩
        cases h
        exact g.trans _ _ _ (g.symm _ _ he) hf

/-- No other key of the hash is live: there is no other entry. -/
theorem Inv.alone (g : Good hash equal) (i : Inv hash equal t o s) {k : K} (hf : Fine hash equal s (.delete k)) :
    ∀ e l, bucket t o (hash k) = e :: l → equal e.1 k = true → l = [] := by
  intro e l hb he
  have hq := hf ((i.first_iff g k).mpr ⟨e, l, hb, he⟩)
  cases l with
  | nil => rfl
  | cons y l =>
    have hm : y ∈ bucket t o (hash k) := by rw [hb]; simp
    have hy := i.hashed _ y hm
    have hl : s.map y.1 = some y.2 := (i.map y.1 y.2).mpr ⟨y.1, by rw [hy]; exact hm, g.refl _⟩
    have hk := hq y.1 (by rw [hl]; exact fun h => nomatch h) hy
    have hd := i.distinct (hash k)
    rw [hb] at hd
    have := (List.pairwise_cons.mp hd).1 y List.mem_cons_self
    rw [g.trans _ _ _ he hk] at this
    cases this

theorem step_delete (g : Good hash equal) (i : Inv hash equal t o s) (k : K) (hf : Fine hash equal s (.delete k)) :
    ∃ t' o', run hash equal ⟨t, some o⟩ (.delete k) = ((step hash equal s (.delete k)).1, ⟨t', some o'⟩) ∧
      Inv hash equal t' o' (step hash equal s (.delete k)).2 := by
  obtain ⟨t', o', e, w, wo, st, b⟩ := delete_bucket i k
  have alone := i.alone g hf
  refine ⟨t', o', ?_, ⟨w, wo, st alone, ?_, ?_, ?_, ?_⟩⟩
  · simp only [run, e, step, i.found k, Option.isSome_map]
  · intro h x hx
    rw [b] at hx
    split at hx
    · rename_i hh
      subst hh
      exact i.hashed _ x ((mem_del g (i.distinct _) alone x).mp hx).1
    · exact i.hashed h x hx
  · intro h
    rw [b]
    split
    · exact distinct_del g k (i.distinct h)
    · exact i.distinct h
  · intro x w
    simp only [step]
    by_cases hh : hash x = hash k
    · rw [b, if_pos hh, hh]
      simp only [mem_del g (i.distinct _) alone]
      cases hk : equal k x with
      | true =>
        simp only [if_true]
        constructor
        · intro h; cases h
        · rintro ⟨k', ⟨h1, h2⟩, h'⟩
          rw [g.trans _ _ _ h' (g.symm _ _ hk)] at h2; cases h2
      | false =>
        simp only [Bool.false_eq_true, if_false]
        rw [i.map, hh]
        constructor
        · rintro ⟨k', h1, h2⟩
          refine ⟨k', ⟨h1, ?_⟩, h2⟩
          cases hq : equal k' k with
          | false => rfl
          | true => rw [g.trans _ _ _ (g.symm _ _ hq) h2] at hk; cases hk
        · rintro ⟨k', ⟨h1, h2⟩, h'⟩
          exact ⟨k', h1, h'⟩
    · rw [b, if_neg hh, if_neg (fun h => hh (g.hash _ _ h).symm)]
      exact i.map x w
  · intro h
    rw [b]
    have hf := i.first h
    have hi := i.first_iff g k
    simp only [step]
    by_cases hh : h = hash k
    · subst hh
      rw [if_pos rfl]
      cases hb : bucket t o (hash k) with
      | nil =>
        rw [hb] at hf
        cases hs : s.first (hash k) with
        | none => simp [del]
        | some f => rw [hs] at hf; exact hf.elim
      | cons x l =>
        rw [hb] at hf hi
        cases hs : s.first (hash k) with
        | none => rw [hs] at hf; exact hf.elim
        | some f =>
          rw [hs] at hf hi
          cases hx : equal x.1 k with
          | true =>
            rw [if_pos ⟨rfl, hi.mpr ⟨x, l, rfl, hx⟩⟩]
            simp [del, hx]
          | false =>
            rw [if_neg]
            · simp only [del, hx, Bool.false_eq_true, if_false]
              cases l.findIdx? (fun e => equal e.1 k) <;> exact hf
            · rintro ⟨-, h⟩
              obtain ⟨e, l', he, hq⟩ := hi.mp h
              cases he
              rw [hx] at hq; cases hq
    · rw [if_neg hh, if_neg (fun h => hh h.1)]
      exact hf

theorem step_get (g : Good hash equal) (i : Inv hash equal t o s) (k : K) :
    run hash equal ⟨t, some o⟩ (.get k) = ((step hash equal s (.get k)).1, ⟨t, some o⟩) := by
  simp only [run, step, get_bucket, i.found k]
  cases hq : (bucket t o (hash k)).find? (fun e => equal e.1 k) with
  | some e => rfl
  | none =>
    simp only [Option.map_none]
    have hf := i.first (hash k)
    cases hb : bucket t o (hash k) with
    | nil =>
      rw [hb] at hf
      cases hs : s.first (hash k) with
      | none => rfl
      | some f => rw [hs] at hf; exact hf.elim
    | cons x l =>
      rw [hb] at hf
      cases hs : s.first (hash k) with
      | none => rw [hs] at hf; exact hf.elim
      | some f =>
        rw [hs] at hf
        have hm : x ∈ bucket t o (hash k) := by rw [hb]; simp
        have : s.map f = some x.2 := (i.map f x.2).mpr ⟨x.1, by rw [← g.hash _ _ hf, i.hashed _ x hm]; exact hm, hf⟩
        simp [this]

/-- One operation. -/
theorem step_run (g : Good hash equal) (i : Inv hash equal t o s) (op : Op K V) (hf : Fine hash equal s op) :
    ∃ t' o', run hash equal ⟨t, some o⟩ op = ((step hash equal s op).1, ⟨t', some o'⟩) ∧ Inv hash equal t' o' (step hash equal s op).2 := by
  cases op with
  | set k v => exact step_set g i k v
  | get k => exact ⟨t, o, step_get g i k, i⟩
  | delete k => exact step_delete g i k hf

theorem fine_steps (g : Good hash equal) (ops more : List (Op K V)) (i : Inv hash equal t o s) (hf : FineAll hash equal s ops) :
    ∃ t' o', runAll hash equal ⟨t, some o⟩ (ops ++ more) = steps hash equal s ops ++ runAll hash equal ⟨t', some o'⟩ more ∧
      Inv hash equal t' o' (after hash equal s ops) := by
  induction ops generalizing t o s with
  | nil => exact ⟨t, o, rfl, i⟩
  | cons op ops ih =>
    obtain ⟨t1, o1, e1, i1⟩ := step_run g i op hf.1
    obtain ⟨t2, o2, e2, i2⟩ := ih i1 hf.2
    refine ⟨t2, o2, ?_, i2⟩
    simp only [List.cons_append, runAll, e1, e2, steps]

/-- **C154.** A `Custom` with an overflow table: the results are those of a mathematical map, collisions or not, until the first key of a
hash is deleted while others are live. The one difference: a `Get` that finds nothing returns the value of the first key of the hash. -/
theorem C154_exact (g : Good hash equal) (ops : List (Op K V)) (hf : FineAll hash equal Spec.empty ops) :
    runAll hash equal ⟨[], some []⟩ ops = steps hash equal Spec.empty ops := by
  obtain ⟨t', o', e, -⟩ := fine_steps g ops [] inv_new hf
  simpa [runAll] using e

/-- What the spec says without the values of a miss is what a mathematical map says. -/
theorem C154_spec (ops : List (Op K V)) (s : Spec K V) :
    (steps hash equal s ops).map Res.found = (specAll equal s.map ops).map Res.found ∧
    ∀ (n : Nat) (b : Bool), (steps hash equal s ops)[n]? = some (Res.flag b) ↔ (specAll equal s.map ops)[n]? = some (Res.flag b) := by
  induction ops generalizing s with
  | nil => exact ⟨rfl, fun _ _ => Iff.rfl⟩
  | cons op ops ih =>
    have h1 : (step hash equal s op).2.map = (spec equal s.map op).2 := by cases op <;> rfl
    have h2 : (step hash equal s op).1.found = (spec equal s.map op).1.found := by
      cases op with
      | get k => simp only [step, spec]; cases s.map k <;> rfl
      | _ => rfl
    have h3 : ∀ b, (step hash equal s op).1 = .flag b ↔ (spec equal s.map op).1 = .flag b := by
      intro b
      cases op with
      | get k => simp only [step, spec]; cases s.map k <;> simp
      | _ => rfl
    obtain ⟨i1, i2⟩ := ih (step hash equal s op).2
    rw [h1] at i1 i2
    refine ⟨by simp only [steps, specAll, List.map_cons, h2, i1], fun n b => ?_⟩
    cases n with
    | zero => simp only [steps, specAll, List.getElem?_cons_zero, Option.some.injEq, h3]
    | succ n => simpa only [steps, specAll, List.getElem?_cons_succ] using i2 n b

/-- **C154.** These histories are as many as can be: if after one of them the first key `x` of a hash is deleted while `y` with that hash
is live, `y` is not found, and a `Set` of it says that it was added; a mathematical map has `y`. -/
theorem C154_loses (g : Good hash equal) (ops : List (Op K V)) (hf : FineAll hash equal (Spec.empty : Spec K V) ops) (x y : K) (v w : V)
    (hx : ((after hash equal (Spec.empty : Spec K V) ops).first (hash x)).any (equal x) = true)
    (hy : (after hash equal (Spec.empty : Spec K V) ops).map y = some w) (hh : hash y = hash x) (hne : equal x y = false) :
    runAll hash equal ⟨[], some []⟩ (ops ++ [.delete x, .get y, .set y v]) =
      steps hash equal Spec.empty ops ++ [.flag true, .got default false, .flag true] ∧
    steps hash equal (after hash equal Spec.empty ops) [.delete x, .get y, .set y v] = [.flag true, .got w true, .flag false] := by
  obtain ⟨t, o, e, i⟩ := fine_steps g ops [.delete x, .get y, .set y v] inv_new hf
  rw [e]
  obtain ⟨h0, l, hb, he⟩ := (i.first_iff g x).mp hx
  have hl : (after hash equal (Spec.empty : Spec K V) ops).map x = some h0.2 :=
    (i.map x h0.2).mpr ⟨h0.1, by rw [hb]; exact List.mem_cons_self, he⟩
  refine ⟨?_, by simp [steps, step, hl, hy, hne]⟩
  congr 1
  have ht : t.get? (hash x) = some h0 := by
    unfold bucket at hb
    cases ht : t.get? (hash x) with
    | none => rw [ht] at hb; cases hb
    | some q => rw [ht] at hb; injection hb with hb _; rw [hb]
  have hd : (t.del (hash x)).get? (hash y) = none := by rw [get?_del i.wf, if_pos hh]
  have e1 : delete hash equal ⟨t, some o⟩ x = (true, ⟨t.del (hash x), some o⟩) := by
    simp [delete, deleteBody, writeBack, ht, he]
  have e2 : get hash equal ⟨t.del (hash x), some o⟩ y = (default, false) := by
    simp [get, hd]
  have e3 : (set hash equal ⟨t.del (hash x), some o⟩ y v).1 = true := by
    simp [set, setBody, hd]
  simp only [runAll, run, e1, e2, e3]

end

/-- Keys with the same hash: three of them live at a time, deleted in an order that is fine. -/
example : FineAll (fun k : Fin 6 => UInt64.ofNat (k.val % 2)) (fun a b => a == b) (Spec.empty : Spec (Fin 6) Nat)
    [.set 1 10, .set 3 30, .set 5 50, .delete 3, .get 5, .delete 5, .delete 1, .set 3 31] := by
  simp only [FineAll, Fine, true_and, and_true]
  refine ⟨?_, ?_, ?_⟩ <;> decide +kernel
example : runAll (fun k : Nat => UInt64.ofNat (k % 2)) (fun a b => a == b) ⟨[], some []⟩
    [.set 1 10, .set 3 30, .set 5 50, .set 3 31, .delete 3, .get 5, .get 3, .delete 5, .delete 1, .set 3 31] =
    [.flag true, .flag true, .flag true, .flag false, .flag true, .got 50 true, .got 10 false, .flag true, .flag true, .flag true] := by
  decide +kernel
/-- The first of two keys with the same hash deleted: the other is lost. -/
example : runAll (fun _ : Nat => 7) (fun a b => a == b) ⟨[], some []⟩ [.set 1 10, .set 2 20, .delete 1, .get 2, .set 2 21, .set 3 30, .get 2] =
    [.flag true, .flag true, .flag true, .got 0 false, .flag true, .flag true, .got 21 true] := by
  decide +kernel

end Verif.CustomMap.Overflow
