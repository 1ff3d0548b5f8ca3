import Verif.GoMap.Model
import Verif.GoMap.Spec

/-!
# Facts about entry lists
-/

set_option linter.unusedSectionVars false

namespace Verif.GoMap

variable {K V : Type}

theorem foldl_snoc {α β : Type} (f : α → β) (l : List α) (acc : List β) :
    l.foldl (fun a e => a ++ [f e]) acc = acc ++ l.map f := by
  induction l generalizing acc with
  | nil => simp
  | cons x l ih => simp [ih]

theorem entries_eq [BEq K] (o : Order K V) (m : MapVar K V) : entries o m = o.visit (m.getD []) := by
  unfold entries; rw [foldl_snoc]; simp

theorem keys_eq [BEq K] (o : Order K V) (m : MapVar K V) : keys o m = (o.visit (m.getD [])).map (·.1) := by
  unfold keys; rw [foldl_snoc]; simp

theorem values_eq [BEq K] (o : Order K V) (m : MapVar K V) : values o m = (o.visit (m.getD [])).map (·.2) := by
  unfold values; rw [foldl_snoc]; simp

/-! ## Any key equality that is symmetric and transitive -/

section Partial
variable [BEq K] [PartialEquivBEq K]

theorem WF.del {m : Tab K V} (h : m.WF) (k : K) : (m.del k).WF := List.Pairwise.filter _ h

theorem WF.put {m : Tab K V} (h : m.WF) (k : K) (v : V) : (m.put k v).WF := by
  unfold Tab.put
  split
  · have : ∀ (l : Tab K V), l.WF → Tab.WF (l.map (fun e => if e.1 == k then (k, v) else e)) := by
      intro l hl
      unfold Tab.WF at *
      rw [List.pairwise_map]
      refine hl.imp ?_
      intro a b hab
      cases ha : a.1 == k <;> cases hb : b.1 == k <;> simp only [if_true, Bool.false_eq_true, if_false]
      · exact hab
      · cases hc : a.1 == k
        · rfl
        · rw [ha] at hc; cases hc
      · cases hc : k == b.1
        · rfl
        · rw [BEq.symm hc] at hb; cases hb
      · have := BEq.trans ha (BEq.symm hb)
        rw [this] at hab; cases hab
    exact this m h
  · rename_i hn
    unfold Tab.WF
    rw [List.pairwise_append]
    refine ⟨h, List.pairwise_singleton _ _, ?_⟩
    intro a ha b hb
    simp only [List.mem_singleton] at hb
    subst hb
    cases hc : a.1 == k
    · rfl
    · exact absurd (List.any_eq_true.2 ⟨a, ha, hc⟩) hn

end Partial

/-! ## Key types with ordinary equality -/

section Lawful
variable [BEq K] [LawfulBEq K]

theorem get?_eq_some {m : Tab K V} (h : m.WF) (k : K) (v : V) : m.get? k = some v ↔ (k, v) ∈ m := by
  unfold Tab.get?
  induction m with
  | nil => simp
  | cons e m ih =>
    obtain ⟨h1, h2⟩ := List.pairwise_cons.1 h
    rw [List.find?_cons]
    cases hb : e.1 == k with
    | true =>
      have hk := eq_of_beq hb
      simp only [Option.map_some, Option.some.injEq, List.mem_cons]
      constructor
      · rintro rfl; left; rw [← hk]
      · rintro (he | he)
        · rw [← he]
        · have := h1 _ he
          rw [hk] at this
          simp at this
    | false =>
      simp only [List.mem_cons]
      rw [ih h2]
      constructor
      · exact Or.inr
      · rintro (he | he)
        · rw [← he] at hb; simp at hb
        · exact he

theorem get?_isSome {m : Tab K V} (h : m.WF) (k : K) : (m.get? k).isSome = true ↔ ∃ v, (k, v) ∈ m := by
  rw [Option.isSome_iff_exists]
  exact exists_congr fun v => get?_eq_some h k v

theorem mem_del {m : Tab K V} (k : K) (e : K × V) : e ∈ m.del k ↔ e ∈ m ∧ e.1 ≠ k := by
  simp [Tab.del]

theorem mem_put {m : Tab K V} (k : K) (v : V) (e : K × V) :
    e ∈ m.put k v ↔ e = (k, v) ∨ (e ∈ m ∧ e.1 ≠ k) := by
  unfold Tab.put
  split
  · rename_i hany
    obtain ⟨x, hx, hk⟩ := List.any_eq_true.1 hany
    rw [List.mem_map]
    constructor
    · rintro ⟨y, hy, rfl⟩
      cases hb : y.1 == k with
      | true => left; simp
      | false => right; simp; exact ⟨hy, by intro c; rw [c] at hb; simp at hb⟩
    · rintro (rfl | ⟨he, hne⟩)
      · exact ⟨x, hx, by rw [if_pos hk]⟩
      · exact ⟨e, he, by rw [if_neg (by simpa using hne)]⟩
  · rename_i hn
    rw [List.mem_append, List.mem_singleton]
    constructor
    · rintro (he | he)
      · right
        refine ⟨he, ?_⟩
        intro c
        exact hn (List.any_eq_true.2 ⟨e, he, by simpa using c⟩)
      · exact Or.inl he
    · rintro (he | ⟨he, _⟩)
      · exact Or.inr he
      · exact Or.inl he

theorem opt_ext {o o' : Option V} (h : ∀ v, o = some v ↔ o' = some v) : o = o' := by
  cases o with
  | none =>
    cases o' with
    | none => rfl
    | some w => exact ((h w).2 rfl)
  | some v => exact ((h v).1 rfl).symm

theorem get?_del {m : Tab K V} (h : m.WF) (k x : K) [DecidableEq K] :
    (m.del k).get? x = if x = k then none else m.get? x := by
  apply opt_ext
  intro v
  rw [get?_eq_some (WF.del h k), mem_del]
  split
  · rename_i hx; simp [hx]
  · rename_i hx; rw [get?_eq_some h]; simp [hx]

theorem get?_put {m : Tab K V} (h : m.WF) (k x : K) (v : V) [DecidableEq K] :
    (m.put k v).get? x = if x = k then some v else m.get? x := by
  apply opt_ext
  intro w
  rw [get?_eq_some (WF.put h k v), mem_put]
  split
  · rename_i hx; simp [hx, eq_comm]
  · rename_i hx; rw [get?_eq_some h]; simp [hx]

/-- The entries of a table list the partial function it represents. -/
theorem lists {m : Tab K V} (h : m.WF) : PMap.Lists (fun k => m.get? k) m where
  nodup := by
    unfold List.Nodup
    rw [List.pairwise_map]
    refine List.Pairwise.imp ?_ h
    intro a b hab c
    rw [c] at hab; simp at hab
  mem k v := (get?_eq_some h k v).symm

end Lawful

/-! ## Listings -/

theorem Lists.perm_of {m : PMap K V} {l l' : List (K × V)} (h : m.Lists l) (hp : l'.Perm l) : m.Lists l' where
  nodup := (hp.map Prod.fst).nodup_iff.2 h.nodup
  mem k v := by rw [hp.mem_iff]; exact h.mem k v

theorem nodup_of_map {α β : Type} (f : α → β) {l : List α} (h : (l.map f).Nodup) : l.Nodup := by
  unfold List.Nodup at *
  rw [List.pairwise_map] at h
  exact h.imp fun hab c => hab (by rw [c])

theorem perm_of_nodup {α : Type} {l l' : List α} (h : l.Nodup) (h' : l'.Nodup)
    (hm : ∀ x, x ∈ l ↔ x ∈ l') : l.Perm l' := by
  induction l generalizing l' with
  | nil =>
    cases l' with
    | nil => exact List.Perm.refl _
    | cons x l' => exact absurd ((hm x).2 (by simp)) (by simp)
  | cons x l ih =>
    obtain ⟨h1, h2⟩ := List.nodup_cons.1 h
    obtain ⟨s, t, rfl⟩ := List.append_of_mem ((hm x).1 (by simp))
    have hp : (s ++ x :: t).Perm (x :: (s ++ t)) := List.perm_middle
    have h3 := List.nodup_cons.1 (hp.nodup_iff.1 h')
    refine List.Perm.trans (List.Perm.cons x (ih h2 h3.2 ?_)) hp.symm
    intro y
    have hy := hm y
    rw [hp.mem_iff] at hy
    simp only [List.mem_cons] at hy
    constructor
    · intro hyl
      rcases hy.1 (Or.inr hyl) with c | c
      · exact absurd (c ▸ hyl) h1
      · exact c
    · intro hyl
      rcases hy.2 (Or.inr hyl) with c | c
      · exact absurd (c ▸ hyl) h3.1
      · exact c

/-- Two listings of a map are rearrangements of each other. -/
theorem Lists.perm {m : PMap K V} {l l' : List (K × V)} (h : m.Lists l) (h' : m.Lists l') : l.Perm l' :=
  perm_of_nodup (nodup_of_map _ h.nodup) (nodup_of_map _ h'.nodup) fun ⟨k, v⟩ => by rw [h.mem, h'.mem]

/-- So the size of a map is unique. -/
theorem Size.unique {m : PMap K V} {n n' : Nat} (h : m.Size n) (h' : m.Size n') : n = n' := by
  obtain ⟨l, hl, rfl⟩ := h
  obtain ⟨l', hl', rfl⟩ := h'
  exact (Lists.perm hl hl').length_eq

/-! ## `Clear` -/

section Clear
variable [BEq K] [PartialEquivBEq K]

theorem clearLoop_spec (n : Nat) : ∀ (l : List (K × V)) (m : Tab K V), l.length ≤ n →
    clearLoop l m = m.filter (fun e => l.all (fun x => !(e.1 == x.1))) := by
  induction n with
  | zero =>
    intro l m h
    have : l = [] := List.length_eq_zero_iff.1 (by omega)
    subst this
    unfold clearLoop
    exact (List.filter_eq_self.2 (by simp)).symm
  | succ n ih =>
    intro l m h
    cases l with
    | nil => unfold clearLoop; exact (List.filter_eq_self.2 (by simp)).symm
    | cons x l =>
      unfold clearLoop
      rw [ih _ _ (by have := List.length_filter_le (fun y => !(y.1 == x.1)) l; simp at h; omega)]
      unfold Tab.del
      rw [List.filter_filter]
      congr 1
      funext e
      simp only [List.all_cons, List.all_filter]
      cases hx : e.1 == x.1 with
      | true => simp
      | false =>
        simp only [Bool.not_false, Bool.and_true, Bool.true_and]
        congr 1
        funext y
        cases hy : y.1 == x.1 with
        | false => simp
        | true =>
          cases he : e.1 == y.1 with
          | false => rfl
          | true => rw [BEq.trans he hy] at hx; cases hx

/-- `Clear` removes exactly the entries whose key equals itself. -/
theorem clear_some (m : Tab K V) (o : Order K V) :
    clear o (some m) = some (m.filter (fun e => !(e.1 == e.1))) := by
  unfold clear
  simp only
  rw [clearLoop_spec _ _ _ (Nat.le_refl _)]
  congr 1
  apply List.filter_congr
  intro e he
  cases hr : e.1 == e.1 with
  | true =>
    rw [Bool.not_true, List.all_eq_false]
    exact ⟨e, ((o.perm m).mem_iff).2 he, by simp [hr]⟩
  | false =>
    rw [Bool.not_false, List.all_eq_true]
    intro x hx
    have hx' := ((o.perm m).mem_iff).1 hx
    cases hc : e.1 == x.1 with
    | false => rfl
    | true => rw [BEq.trans hc (BEq.symm hc)] at hr; cases hr

end Clear

end Verif.GoMap
