import Verif.Conc.Client

/-!
# Several objects

Linearizability is local (Herlihy and Wing): if the history of each of several objects is linearizable, so is
the history of all of them together, with respect to the object that consists of all of them. `Family` puts the
machines of several objects side by side; `Family.linearizable` is the theorem for its executions.
-/

namespace Verif.Conc

/-! ## Merging sequences -/

section
variable {E I : Type} [DecidableEq I]

/-- Sequences, one for each object, in which no call comes after one that had returned before it was made, can be
merged into one such sequence. -/
theorem merge (obj : E → I) (start : E → Nat) (resp : E → Nat → Prop) (hr : ∀ e j, resp e j → start e < j) :
    ∀ (n : Nat) (M : List E), M.length = n →
    M.Pairwise (fun a b => obj a = obj b → ∀ j, resp b j → start a < j) →
    ∃ L : List E, L.Pairwise (fun a b => ∀ j, resp b j → start a < j) ∧
      L.Perm M ∧ ∀ i, L.filter (fun e => decide (obj e = i)) = M.filter (fun e => decide (obj e = i))
  | 0, M, hn, _ => by
    have : M = [] := List.length_eq_zero_iff.1 hn
    subst this
    exact ⟨[], List.Pairwise.nil, .refl _, fun i => rfl⟩
  | n + 1, M, hn, hp => by
    -- a call that can come first
    have pick : ∃ A h B, M = A ++ h :: B ∧ (∀ a ∈ A, obj a ≠ obj h) ∧ ∀ x ∈ M, ∀ j, resp x j → start h < j := by
      have split : ∀ (l : List E) (i : I), (∃ e ∈ l, obj e = i) →
          ∃ A h B, l = A ++ h :: B ∧ obj h = i ∧ ∀ a ∈ A, obj a ≠ i := by
        intro l i
        induction l with
        | nil => rintro ⟨e, he, -⟩; cases he
        | cons x l ih =>
          rintro ⟨e, he, hi⟩
          by_cases c : obj x = i
          · exact ⟨[], x, l, rfl, c, fun a h => by cases h⟩
          · rcases List.mem_cons.1 he with rfl | he
            · exact absurd hi c
            · obtain ⟨A, h, B, e1, e2, e3⟩ := ih ⟨e, he, hi⟩
              refine ⟨x :: A, h, B, by rw [e1]; rfl, e2, fun a ha => ?_⟩
              rcases List.mem_cons.1 ha with rfl | ha
              · exact c
              · exact e3 a ha
      by_cases ce : ∃ j, ∃ e ∈ M, resp e j
      · -- the first to return, or one before it at its object
        obtain ⟨j, ⟨e, he, hj⟩, hmin⟩ : ∃ j, (∃ e ∈ M, resp e j) ∧ ∀ k, k < j → ¬ ∃ e ∈ M, resp e k := by
          obtain ⟨j, hj⟩ := ce
          clear hn hp
          induction j using Nat.strongRecOn with
          | ind j ih =>
            by_cases c : ∃ k, k < j ∧ ∃ e ∈ M, resp e k
            · obtain ⟨k, hk, h⟩ := c; exact ih k hk h
            · exact ⟨j, hj, fun k hk h => c ⟨k, hk, h⟩⟩
        obtain ⟨A, h, B, e1, e2, e3⟩ := split M (obj e) ⟨e, he, rfl⟩
        refine ⟨A, h, B, e1, fun a ha => by rw [e2]; exact e3 a ha, fun x hx k hk => ?_⟩
        have hjk : j ≤ k := by
          rcases Nat.lt_or_ge k j with c | c
          · exact absurd ⟨x, hx, hk⟩ (hmin k c)
          · exact c
        have : start h < j := by
          rw [e1] at he
          rcases List.mem_append.1 he with h' | h'
          · exact absurd rfl (e3 e h')
          · rcases List.mem_cons.1 h' with rfl | h'
            · exact hr _ _ hj
            · rw [e1, List.pairwise_append] at hp
              exact (List.pairwise_cons.1 hp.2.1).1 e h' e2 j hj
        omega
      · cases M with
        | nil => cases hn
        | cons x M => exact ⟨[], x, M, rfl, fun a h => (by cases h), fun y hy j hj => absurd ⟨j, y, hy, hj⟩ ce⟩
    obtain ⟨A, h, B, rfl, h1, h2⟩ := pick
    obtain ⟨L, g1, g2, g3⟩ := merge obj start resp hr n (A ++ B) (by simp at hn ⊢; omega)
      (hp.sublist (List.Sublist.append (List.Sublist.refl A) (List.sublist_cons_self h B)))
    refine ⟨h :: L, List.pairwise_cons.2 ⟨fun x hx j hj => ?_, g1⟩,
      (g2.cons h).trans List.perm_middle.symm, fun i => ?_⟩
    · refine h2 x ?_ j hj
      have := g2.mem_iff.1 hx
      rcases List.mem_append.1 this with h' | h' <;> simp [h']
    · rw [List.filter_append, List.filter_cons, List.filter_cons, g3, List.filter_append]
      by_cases c : obj h = i
      · have : A.filter (fun e => decide (obj e = i)) = [] := by
          refine List.filter_eq_nil_iff.2 fun a ha => ?_
          have := h1 a ha
          rw [c] at this
          simpa using this
        simp [c, this]
      · simp [c]

end

/-! ## Events of one object -/

section
variable {I : Type} [DecidableEq I] {Op R : I → Type}

/-- An event of object `i` among those of all. -/
def Event.up (i : I) : Event (Op i) (R i) → Event (Sigma Op) (Sigma R)
  | .inv t op => .inv t ⟨i, op⟩
  | .ret t r => .ret t ⟨i, r⟩

/-- The event, if it is one of object `i`. -/
def Event.down (i : I) : Event (Sigma Op) (Sigma R) → Option (Event (Op i) (R i))
  | .inv t op => if h : op.1 = i then some (.inv t (h ▸ op.2)) else none
  | .ret t r => if h : r.1 = i then some (.ret t (h ▸ r.2)) else none

theorem Event.down_eq {i : I} {e : Event (Sigma Op) (Sigma R)} {e' : Event (Op i) (R i)} :
    e.down i = some e' ↔ e = e'.up i := by
  cases e with
  | inv t op =>
    obtain ⟨j, op⟩ := op
    simp only [Event.down]
    constructor
    · intro h
      split at h
      · rename_i hj
        subst hj
        injection h with h; subst h; rfl
      · cases h
    · intro h
      cases e' with
      | inv u o =>
        simp only [Event.up, Event.inv.injEq] at h
        obtain ⟨rfl, h⟩ := h
        cases h
        simp
      | ret u o => cases h
  | ret t r =>
    obtain ⟨j, r⟩ := r
    simp only [Event.down]
    constructor
    · intro h
      split at h
      · rename_i hj
        subst hj
        injection h with h; subst h; rfl
      · cases h
    · intro h
      cases e' with
      | inv u o => cases h
      | ret u o =>
        simp only [Event.up, Event.ret.injEq] at h
        obtain ⟨rfl, h⟩ := h
        cases h
        simp

/-- The events of object `i`. -/
def ofObject (i : I) (H : List (Event (Sigma Op) (Sigma R))) : List (Event (Op i) (R i)) := H.filterMap (Event.down i)

/-- Where the events of object `i` are: an order-preserving correspondence of positions. -/
theorem positions (i : I) (H : List (Event (Sigma Op) (Sigma R))) : ∃ f : Nat → Nat,
    (∀ a b, a < b → b < (ofObject i H).length → f a < f b) ∧
    (∀ (a : Nat) (e : Event (Op i) (R i)), (ofObject i H)[a]? = some e → H[f a]? = some (e.up i)) ∧
    ∀ (n : Nat) (e : Event (Op i) (R i)), H[n]? = some (e.up i) → ∃ a, f a = n ∧ (ofObject i H)[a]? = some e := by
  induction H with
  | nil =>
    refine ⟨fun a => a, fun a b h _ => h, fun a e h => ?_, fun n e h => ?_⟩
    · simp [ofObject] at h
    · simp at h
  | cons x H ih =>
    obtain ⟨f, h1, h2, h3⟩ := ih
    cases hx : Event.down i x with
    | none =>
      have e0 : ofObject i (x :: H) = ofObject i H := by simp [ofObject, hx]
      rw [e0]
      refine ⟨fun a => f a + 1, fun a b h hb => Nat.succ_lt_succ (h1 a b h hb), fun a e h => ?_, fun n e h => ?_⟩
      · rw [List.getElem?_cons_succ]; exact h2 a e h
      · cases n with
        | zero =>
          rw [List.getElem?_cons_zero] at h
          injection h with h
          rw [Event.down_eq.2 h] at hx; cases hx
        | succ n =>
          rw [List.getElem?_cons_succ] at h
          obtain ⟨a, e1, e2⟩ := h3 n e h
          exact ⟨a, congrArg (· + 1) e1, e2⟩
    | some e1 =>
      have e0 : ofObject i (x :: H) = e1 :: ofObject i H := by simp [ofObject, hx]
      rw [e0]
      refine ⟨fun a => match a with | 0 => 0 | a + 1 => f a + 1, fun a b h hb => ?_, fun a e h => ?_, fun n e h => ?_⟩
      · cases b with
        | zero => omega
        | succ b =>
          cases a with
          | zero => exact Nat.succ_pos _
          | succ a => exact Nat.succ_lt_succ (h1 a b (by omega) (by simp at hb; omega))
      · cases a with
        | zero =>
          rw [List.getElem?_cons_zero] at h ⊢
          injection h with h; subst h
          rw [Event.down_eq.1 hx]
        | succ a => rw [List.getElem?_cons_succ] at h ⊢; exact h2 a e h
      · cases n with
        | zero =>
          rw [List.getElem?_cons_zero] at h
          injection h with h
          refine ⟨0, rfl, ?_⟩
          rw [Event.down_eq.2 h] at hx
          rw [List.getElem?_cons_zero, hx]
        | succ n =>
          rw [List.getElem?_cons_succ] at h
          obtain ⟨a, e1, e2⟩ := h3 n e h
          exact ⟨a + 1, congrArg (· + 1) e1, e2⟩

/-- All objects together. -/
def SeqSpec.all (S : ∀ i, SeqSpec (Op i) (R i)) : SeqSpec (Sigma Op) (Sigma R) where
  St := ∀ i, (S i).St
  init := fun i => (S i).init
  legal s op r s' := ∃ h : r.1 = op.1, (S op.1).legal (s op.1) op.2 (h ▸ r.2) (s' op.1) ∧ ∀ j, j ≠ op.1 → s' j = s j

/-- A call with its result, if it is one of object `i`. -/
def pairAt (i : I) (x : Sigma Op × Sigma R) : Option (Op i × R i) :=
  if h : x.1.1 = i ∧ x.2.1 = i then some (h.1 ▸ x.1.2, h.2 ▸ x.2.2) else none

theorem pairAt_same (i : I) (op : Op i) (r : R i) : pairAt (Op := Op) (R := R) i (⟨i, op⟩, ⟨i, r⟩) = some (op, r) := by
  simp [pairAt]

theorem pairAt_other {i j : I} (op : Op j) (r : R j) (h : j ≠ i) : pairAt (Op := Op) (R := R) i (⟨j, op⟩, ⟨j, r⟩) = none := by
  simp [pairAt, h]

theorem SeqSpec.all_run (S : ∀ i, SeqSpec (Op i) (R i)) : ∀ (n : Nat) (l : List (Sigma Op × Sigma R)), l.length = n →
    (∀ x ∈ l, x.2.1 = x.1.1) → ∀ (s : ∀ i, (S i).St),
    (∀ i, (S i).Run (S i).init (l.filterMap (pairAt i)) (s i)) → (SeqSpec.all S).Run (SeqSpec.all S).init l s
  | 0, l, hn, _, s, hs => by
    have : l = [] := List.length_eq_zero_iff.1 hn
    subst this
    have : s = fun i => (S i).init := by
      funext i
      have := hs i
      generalize hl : ([] : List (Sigma Op × Sigma R)).filterMap (pairAt i) = lm at this
      generalize hsi : s i = si at this
      cases this with
      | nil => rfl
      | snoc _ _ => simp at hl
    subst this
    exact .nil _
  | n + 1, l, hn, hm, s, hs => by
    obtain ⟨l0, x, rfl⟩ : ∃ l0 x, l = l0 ++ [x] := by
      rcases List.eq_nil_or_concat l with h | ⟨l', x, h⟩
      · subst h; cases hn
      · exact ⟨l', x, by simpa using h⟩
    obtain ⟨⟨i, op⟩, ⟨j, r⟩⟩ := x
    have : j = i := hm (⟨i, op⟩, ⟨j, r⟩) (by simp)
    subst this
    -- the state before
    have hlast := hs j
    rw [List.filterMap_append, List.filterMap_cons, pairAt_same] at hlast
    replace hlast : (S j).Run (S j).init (l0.filterMap (pairAt j) ++ [(op, r)]) (s j) := hlast
    have : ∃ x0, (S j).Run (S j).init (l0.filterMap (pairAt j)) x0 ∧ (S j).legal x0 op r (s j) := by
      generalize hl : l0.filterMap (pairAt (Op := Op) (R := R) j) ++ [(op, r)] = lm at hlast
      generalize s j = sj at hlast
      cases hlast with
      | nil => simp at hl
      | @snoc s1 _ l' op' r' g1 g2 =>
        obtain ⟨e1, e2⟩ := List.append_inj' hl rfl
        injection e2 with e2
        injection e2 with e2 e3
        subst e1 e2 e3
        exact ⟨s1, g1, g2⟩
    obtain ⟨x0, g1, g2⟩ := this
    let s0 : ∀ i, (S i).St := fun i => if h : i = j then h ▸ x0 else s i
    have e0 : s0 j = x0 := by simp [s0]
    have ene : ∀ i, i ≠ j → s0 i = s i := fun i h => by simp [s0, h]
    refine SeqSpec.Run.snoc (s1 := s0) (all_run S n l0 (by simpa using hn) (fun x hx => hm x (by simp [hx])) s0 fun i => ?_) ?_
    · by_cases c : i = j
      · subst c; rw [e0]; exact g1
      · rw [ene i c]
        have := hs i
        rw [List.filterMap_append, List.filterMap_cons, pairAt_other op r (Ne.symm c)] at this
        simpa using this
    · refine ⟨rfl, ?_, fun k hk => (ene k hk).symm⟩
      show (S j).legal (s0 j) op r (s j)
      rw [e0]; exact g2

theorem Returns.ofObject {H : List (Event (Sigma Op) (Sigma R))} {i : I} {n m : Nat} {op : Op i} {r : R i}
    (h : Returns H n m ⟨i, op⟩ ⟨i, r⟩) {f : Nat → Nat}
    (h1 : ∀ a b, a < b → b < (ofObject i H).length → f a < f b)
    (h2 : ∀ (a : Nat) (e : Event (Op i) (R i)), (Conc.ofObject i H)[a]? = some e → H[f a]? = some (e.up i))
    (h3 : ∀ (n : Nat) (e : Event (Op i) (R i)), H[n]? = some (e.up i) → ∃ a, f a = n ∧ (Conc.ofObject i H)[a]? = some e) :
    ∃ a b, f a = n ∧ f b = m ∧ Returns (Conc.ofObject i H) a b op r := by
  obtain ⟨t, g1, g2, g3, g4⟩ := h
  obtain ⟨a, rfl, ha⟩ := h3 n (.inv t op) g1
  obtain ⟨b, rfl, hb⟩ := h3 m (.ret t r) g2
  have la := (List.getElem?_eq_some_iff.1 ha).1
  have lb := (List.getElem?_eq_some_iff.1 hb).1
  refine ⟨a, b, rfl, rfl, t, ha, hb, ?_, fun k e k1 k2 hk => ?_⟩
  · rcases Nat.lt_trichotomy a b with c | c | c
    · exact c
    · subst c; omega
    · have := h1 b a c la; omega
  · have := g4 (f k) (e.up i) (h1 a k k1 (by omega)) (h1 k b k2 lb) (h2 k e hk)
    cases e <;> exact this

theorem nodup_of {α : Type} [DecidableEq α] : ∀ l : List α, ∃ l' : List α, l'.Nodup ∧ ∀ x, x ∈ l' ↔ x ∈ l
  | [] => ⟨[], List.nodup_nil, fun _ => Iff.rfl⟩
  | a :: l => by
    obtain ⟨l', h1, h2⟩ := nodup_of l
    by_cases c : a ∈ l
    · refine ⟨l', h1, fun x => ?_⟩
      rw [h2, List.mem_cons]
      exact ⟨Or.inr, fun h => h.elim (fun e => e ▸ c) id⟩
    · refine ⟨a :: l', List.nodup_cons.2 ⟨fun h => c ((h2 a).1 h), h1⟩, fun x => ?_⟩
      rw [List.mem_cons, List.mem_cons, h2]

theorem flatMap_one {α β : Type} [DecidableEq α] (g : α → List β) (i : α) (hg : ∀ j, j ≠ i → g j = []) :
    ∀ l : List α, l.Nodup → i ∈ l → l.flatMap g = g i
  | [], _, h => by cases h
  | a :: l, hn, hi => by
    rw [List.nodup_cons] at hn
    rw [List.flatMap_cons]
    by_cases c : a = i
    · subst c
      have : l.flatMap g = [] := by
        rw [List.flatMap_eq_nil_iff]
        exact fun x hx => hg x (fun e => hn.1 (e ▸ hx))
      rw [this, List.append_nil]
    · rw [hg a c, List.nil_append]
      refine flatMap_one g i hg l hn.2 ?_
      rcases List.mem_cons.1 hi with e | h
      · exact absurd e.symm c
      · exact h

/-- The object of an event. -/
def Event.obj : Event (Sigma Op) (Sigma R) → I
  | .inv _ op => op.1
  | .ret _ r => r.1

/-- **Linearizability is local.** If the history of each object is linearizable, so is the whole. -/
theorem linearizable_local {S : ∀ i, SeqSpec (Op i) (R i)} {H : List (Event (Sigma Op) (Sigma R))}
    (hm : ∀ i j op r, Returns H i j op r → r.1 = op.1) (h : ∀ i, Linearizable (S i) (ofObject i H)) :
    Linearizable (SeqSpec.all S) H := by
  obtain ⟨f, hf⟩ := Classical.skolem.1 (fun i => positions i H)
  obtain ⟨L, h⟩ := Classical.skolem.1 h
  obtain ⟨s, h⟩ := Classical.skolem.1 h
  let up : ∀ i, Nat × Op i × R i → Nat × Sigma Op × Sigma R := fun i x => (f i x.1, ⟨i, x.2.1⟩, ⟨i, x.2.2⟩)
  obtain ⟨objs, ho1, ho2⟩ := nodup_of (H.map Event.obj)
  have inv : ∀ i, ∀ x ∈ L i, ∃ t, H[f i x.1]? = some (.inv t ⟨i, x.2.1⟩) := by
    intro i x hx
    obtain ⟨t, ht⟩ := (h i).2.2.1 x.1 x.2.1 x.2.2 hx
    exact ⟨t, (hf i).2.1 _ _ ht⟩
  have short : ∀ i, ∀ x ∈ L i, x.1 < (ofObject i H).length := by
    intro i x hx
    obtain ⟨t, ht⟩ := (h i).2.2.1 x.1 x.2.1 x.2.2 hx
    exact (List.getElem?_eq_some_iff.1 ht).1
  have inj : ∀ i a b, a < (ofObject i H).length → b < (ofObject i H).length → f i a = f i b → a = b := by
    intro i a b la lb e
    rcases Nat.lt_trichotomy a b with c | c | c
    · have := (hf i).1 a b c lb; omega
    · exact c
    · have := (hf i).1 b a c la; omega
  have inobjs : ∀ i, ∀ x ∈ L i, i ∈ objs := by
    intro i x hx
    obtain ⟨t, ht⟩ := inv i x hx
    exact (ho2 i).2 (List.mem_map.2 ⟨_, List.mem_of_getElem? ht, rfl⟩)
  let M : List (Nat × Sigma Op × Sigma R) := objs.flatMap fun i => (L i).map (up i)
  have memM : ∀ e, e ∈ M ↔ ∃ i, ∃ x ∈ L i, e = up i x := by
    intro e
    simp only [M, List.mem_flatMap, List.mem_map]
    constructor
    · rintro ⟨i, -, x, hx, rfl⟩; exact ⟨i, x, hx, rfl⟩
    · rintro ⟨i, x, hx, rfl⟩; exact ⟨i, inobjs i x hx, x, hx, rfl⟩
  have hord : M.Pairwise (fun a b => a.2.1.1 = b.2.1.1 → ∀ j, (∃ op r, Returns H b.1 j op r) → a.1 < j) := by
    rw [List.pairwise_flatMap]
    refine ⟨fun i _ => ?_, ?_⟩
    · rw [List.pairwise_map]
      refine (h i).2.2.2.2.imp_of_mem ?_
      rintro a b ha hb hab - j ⟨op, r, hr⟩
      obtain ⟨t, ht⟩ := inv i b hb
      have eop : op = ⟨i, b.2.1⟩ := by
        obtain ⟨u, hu, -⟩ := hr
        have : Event.inv (R := Sigma R) u op = .inv t ⟨i, b.2.1⟩ := Option.some.inj (hu.symm.trans ht)
        injection this
      subst eop
      have er := hm _ _ _ _ hr
      obtain ⟨k, r⟩ := r
      simp only at er
      subst er
      obtain ⟨a', b', e1, rfl, hR⟩ := hr.ofObject (hf k).1 (hf k).2.1 (hf k).2.2
      have la' : a' < (ofObject k H).length := by
        obtain ⟨u, hu, -⟩ := hR
        exact (List.getElem?_eq_some_iff.1 hu).1
      have lb' : b' < (ofObject k H).length := by
        obtain ⟨u, -, hu, -⟩ := hR
        exact (List.getElem?_eq_some_iff.1 hu).1
      have := inj k a' b.1 la' (short k b hb) e1
      subst this
      exact (hf k).1 _ _ (hab b' _ _ hR) lb'
    · refine ho1.imp ?_
      intro i j hij x hx y hy e
      obtain ⟨x', -, rfl⟩ := List.mem_map.1 hx
      obtain ⟨y', -, rfl⟩ := List.mem_map.1 hy
      exact absurd e hij
  obtain ⟨N, n1, n2, n3⟩ := merge (fun e : Nat × Sigma Op × Sigma R => e.2.1.1) (fun e => e.1)
    (fun e j => ∃ op r, Returns H e.1 j op r) (fun e j ⟨op, r, hr⟩ => by obtain ⟨t, -, -, h, -⟩ := hr; exact h)
    M.length M rfl hord
  refine ⟨N, s, ?_, ?_, ?_, ?_, ?_⟩
  · refine SeqSpec.all_run S _ _ rfl ?_ s fun i => ?_
    · intro x hx
      obtain ⟨e, he, rfl⟩ := List.mem_map.1 hx
      obtain ⟨i, y, -, rfl⟩ := (memM e).1 (n2.mem_iff.1 he)
      rfl
    · have key : (N.map Prod.snd).filterMap (pairAt i) = (L i).map Prod.snd := by
        have filt : ∀ l : List (Nat × Sigma Op × Sigma R),
            (l.map Prod.snd).filterMap (pairAt i) = ((l.filter (fun e => decide (e.2.1.1 = i))).map Prod.snd).filterMap (pairAt i) := by
          intro l
          induction l with
          | nil => rfl
          | cons x l ih =>
            rw [List.filter_cons]
            split
            · rw [List.map_cons, List.map_cons, List.filterMap_cons, List.filterMap_cons, ih]
            · rename_i hx
              have hx : x.2.1.1 ≠ i := by simpa using hx
              have : pairAt i x.2 = none := by simp [pairAt, hx]
              rw [List.map_cons, List.filterMap_cons, this, ← ih]
        rw [filt N, n3, ← filt M]
        have : (M.map Prod.snd).filterMap (pairAt i) =
            objs.flatMap fun j => (((L j).map (up j)).map Prod.snd).filterMap (pairAt i) := by
          simp only [M, List.map_flatMap, List.filterMap_flatMap]
        rw [this]
        have self : (((L i).map (up i)).map Prod.snd).filterMap (pairAt i) = (L i).map Prod.snd := by
          rw [List.map_map, List.filterMap_map]
          have : pairAt i ∘ (Prod.snd ∘ up i) = some ∘ Prod.snd := funext fun x => pairAt_same i x.2.1 x.2.2
          rw [this, List.filterMap_eq_map]
        by_cases ci : i ∈ objs
        · rw [flatMap_one _ i _ objs ho1 ci, self]
          intro j hj
          refine List.filterMap_eq_nil_iff.2 fun x hx => ?_
          obtain ⟨y, hy, rfl⟩ := List.mem_map.1 hx
          obtain ⟨z, -, rfl⟩ := List.mem_map.1 hy
          exact pairAt_other _ _ hj
        · have el : L i = [] := by
            cases hL : L i with
            | nil => rfl
            | cons x l => exact absurd (inobjs i x (by rw [hL]; simp)) ci
          rw [el, List.flatMap_eq_nil_iff.2]
          · rfl
          · intro j hj
            have hji : j ≠ i := fun e => ci (e ▸ hj)
            refine List.filterMap_eq_nil_iff.2 fun x hx => ?_
            obtain ⟨y, hy, rfl⟩ := List.mem_map.1 hx
            obtain ⟨z, -, rfl⟩ := List.mem_map.1 hy
            exact pairAt_other _ _ hji
      rw [key]; exact (h i).1
  · refine (n2.map Prod.fst).nodup_iff.2 ?_
    rw [List.Nodup, List.pairwise_map, List.pairwise_flatMap]
    refine ⟨fun i _ => ?_, ?_⟩
    · rw [List.pairwise_map]
      have := (h i).2.1
      rw [List.Nodup, List.pairwise_map] at this
      refine this.imp_of_mem fun {a b} ha hb hne e => hne (inj i _ _ (short i a ha) (short i b hb) e)
    · refine ho1.imp ?_
      intro i j hij x hx y hy e
      obtain ⟨x', hx', rfl⟩ := List.mem_map.1 hx
      obtain ⟨y', hy', rfl⟩ := List.mem_map.1 hy
      obtain ⟨t, ht⟩ := inv i x' hx'
      obtain ⟨u, hu⟩ := inv j y' hy'
      have e : f i x'.1 = f j y'.1 := e
      rw [e, hu] at ht
      injection ht with ht
      injection ht with _ ht
      injection ht with ht _
      exact hij ht.symm
  · intro n op r he
    obtain ⟨i, x, hx, e⟩ := (memM _).1 (n2.mem_iff.1 he)
    obtain ⟨t, ht⟩ := inv i x hx
    injection e with e1 e2
    injection e2 with e2 e3
    subst e1 e2
    exact ⟨t, ht⟩
  · intro n m op r hr
    have er := hm _ _ _ _ hr
    obtain ⟨i, op⟩ := op
    obtain ⟨k, r⟩ := r
    simp only at er
    subst er
    obtain ⟨a, b, rfl, rfl, hR⟩ := hr.ofObject (hf k).1 (hf k).2.1 (hf k).2.2
    refine n2.mem_iff.2 ((memM _).2 ⟨k, (a, op, r), (h k).2.2.2.1 _ _ _ _ hR, rfl⟩)
  · refine n1.imp ?_
    intro a b hab j op r hr
    exact hab j ⟨op, r, hr⟩

end

/-! ## Executions -/

/-- Several objects with their methods. -/
structure Family (I : Type) where
  /-- machines -/
  M : I → Machine
  /-- methods -/
  Op : I → Type
  /-- results -/
  R : I → Type
  /-- bodies -/
  body : ∀ i, Op i → Prog (M i).A (M i).Ans (R i)
  /-- initial memory -/
  sh : ∀ i, (M i).Sh

namespace Family

variable {I : Type} [DecidableEq I] (F : Family I)

/-- The machines side by side. -/
abbrev mach : Machine where
  A := Σ i, (F.M i).A
  Ans a := (F.M a.1).Ans a.2
  Sh := ∀ i, (F.M i).Sh
  step t a σ ans σ' := (F.M a.1).step t a.2 (σ a.1) ans (σ' a.1) ∧ ∀ j, j ≠ a.1 → σ' j = σ j

/-- A method of one object as a method of all. -/
def embed (i : I) : Prog (F.M i).A (F.M i).Ans (F.R i) → Prog F.mach.A F.mach.Ans (Sigma F.R)
  | .ret r => .ret ⟨i, r⟩
  | .act a k => .act ⟨i, a⟩ fun ans => embed i (k ans)

/-- The methods of all objects. -/
def bodies (op : Sigma F.Op) : Prog F.mach.A F.mach.Ans (Sigma F.R) := F.embed op.1 (F.body op.1 op.2)

/-- What a goroutine does, and where. -/
inductive At where
  | idle
  | run (i : I) (op : F.Op i) (p : Prog (F.M i).A (F.M i).Ans (F.R i))

variable {F}

/-- The goroutine among all objects. -/
def At.all : At F → Thread F.mach (Sigma F.Op) (Sigma F.R)
  | .idle => .idle
  | .run i op p => .run ⟨i, op⟩ (F.embed i p)

/-- The goroutine as object `i` sees it. -/
def At.one (i : I) : At F → Thread (F.M i) (F.Op i) (F.R i)
  | .idle => .idle
  | .run j op p => if h : j = i then h ▸ Thread.run op p else .idle

theorem At.one_same (i : I) (op : F.Op i) (p : Prog (F.M i).A (F.M i).Ans (F.R i)) : (At.run i op p).one i = .run op p := by
  simp [At.one]

theorem At.one_other {i j : I} (op : F.Op j) (p : Prog (F.M j).A (F.M j).Ans (F.R j)) (h : j ≠ i) :
    (At.run j op p).one i = .idle := by
  simp [At.one, h]

omit [DecidableEq I] in
theorem At.all_idle {g : At F} (h : g.all = .idle) : g = .idle := by
  cases g with
  | idle => rfl
  | run i op p => cases h

/-- An execution of all objects is made of executions of each. -/
theorem split {tr : List (Label F.mach (Sigma F.Op) (Sigma F.R))} {c : Config F.mach (Sigma F.Op) (Sigma F.R)}
    (he : Exec F.bodies (Config.init (M := F.mach) F.sh) tr c) :
    (∃ g : Tid → At F, (∀ t, c.th t = (g t).all) ∧ ∀ i, ∃ tri : List (Label (F.M i) (F.Op i) (F.R i)),
      Exec (F.body i) (Config.init (F.sh i)) tri ⟨c.sh i, fun t => (g t).one i⟩ ∧
      history tri = ofObject i (history tr) ∧ ∀ t op, .call t op ∈ tri → .call t ⟨i, op⟩ ∈ tr) ∧
    ∀ t op r, .ret t op r ∈ tr → r.1 = op.1 := by
  induction he with
  | nil =>
    exact ⟨⟨fun _ => .idle, fun _ => rfl, fun i => ⟨[], .nil, rfl, fun t op h => by cases h⟩⟩, fun t op r h => by cases h⟩
  | @snoc tr c c' l _ hs ih =>
    obtain ⟨⟨g, h1, h2⟩, h3⟩ := ih
    -- an object that is not concerned
    have other : ∀ i t (x : At F), (g t).one i = .idle → x.one i = .idle →
        (fun u => (upd g t x u).one i) = fun u => (g u).one i := by
      intro i t x e1 e2
      rw [upd_map (At.one i)]
      exact upd_self _ t _ (by rw [e1, e2])
    have drop : ∀ (i : I) (e : Event (Sigma F.Op) (Sigma F.R)), e.down i = none →
        ofObject i (history tr ++ [e]) = ofObject i (history tr) := by
      intro i e h; simp [ofObject, h]
    have keep : ∀ (i : I) (e : Event (F.Op i) (F.R i)),
        ofObject i (history tr ++ [e.up i]) = ofObject i (history tr) ++ [e] := by
      intro i e; simp [ofObject, Event.down_eq.2 (rfl : e.up i = e.up i)]
    rw [history_append]
    cases hs with
    | call t op ht =>
      obtain ⟨i, op⟩ := op
      have hg : g t = .idle := At.all_idle (by rw [← h1]; exact ht)
      refine ⟨⟨upd g t (.run i op (F.body i op)), fun u => ?_, fun j => ?_⟩, fun u o r h => ?_⟩
      · show upd c.th t _ u = _
        by_cases e : u = t
        · subst e; rw [upd_same, upd_same]; rfl
        · rw [upd_other _ _ e, upd_other _ _ e]; exact h1 u
      · obtain ⟨tri, g1, g2, g3⟩ := h2 j
        by_cases e : j = i
        · subst e
          refine ⟨tri ++ [.call t op], ?_, ?_, ?_⟩
          · have := g1.snoc (.call t op (by show (g t).one j = _; rw [hg]; rfl))
            rw [upd_map (At.one j), At.one_same]
            exact this
          · rw [history_append, g2]
            exact (keep j (.inv t op)).symm
          · intro u o h
            rcases List.mem_append.1 h with h | h
            · exact List.mem_append.2 (Or.inl (g3 u o h))
            · have := List.mem_singleton.1 h
              injection this with e1 e2
              subst e1 e2
              simp
        · refine ⟨tri, ?_, ?_, fun u o h => List.mem_append.2 (Or.inl (g3 u o h))⟩
          · rw [other j t _ (by rw [hg]; rfl) (At.one_other op _ (Ne.symm e))]
            exact g1
          · rw [g2]
            exact (drop j (.inv t ⟨i, op⟩) (by simp [Event.down, Ne.symm e])).symm
      · exact h3 u o r (by simpa using h)
    | act t op a k ans sh' ht hst =>
      have hg := (h1 t).symm.trans ht
      cases hgt : g t with
      | idle => rw [hgt] at hg; cases hg
      | run i o p =>
        rw [hgt] at hg
        cases p with
        | ret r => injection hg with _ hg; cases hg
        | act b k' =>
          injection hg with e1 e2
          injection e2 with e2 e3
          subst e1 e2
          have e3 := eq_of_heq e3
          subst e3
          obtain ⟨s1, s2⟩ := hst
          refine ⟨⟨upd g t (.run i o (k' ans)), fun u => ?_, fun j => ?_⟩, fun u o r h => ?_⟩
          · show upd c.th t _ u = _
            by_cases e : u = t
            · subst e; rw [upd_same, upd_same]; rfl
            · rw [upd_other _ _ e, upd_other _ _ e]; exact h1 u
          · obtain ⟨tri, g1, g2, g3⟩ := h2 j
            by_cases e : j = i
            · subst e
              refine ⟨tri ++ [.act t b ans], ?_, ?_, ?_⟩
              · have := g1.snoc (.act t o b k' ans (sh' j) (by show (g t).one j = _; rw [hgt]; exact At.one_same j o _) s1)
                rw [upd_map (At.one j), At.one_same]
                exact this
              · rw [history_append, g2]; simp [history]
              · intro u o h
                rcases List.mem_append.1 h with h | h
                · exact List.mem_append.2 (Or.inl (g3 u o h))
                · have := List.mem_singleton.1 h
                  cases this
            · refine ⟨tri, ?_, ?_, fun u o h => List.mem_append.2 (Or.inl (g3 u o h))⟩
              · rw [other j t _ (by rw [hgt]; exact At.one_other o _ (Ne.symm e)) (At.one_other o _ (Ne.symm e))]
                have : sh' j = c.sh j := s2 j e
                show Exec (F.body j) (Config.init (F.sh j)) tri ⟨sh' j, _⟩
                rw [this]; exact g1
              · rw [g2]; simp [history]
          · exact h3 u o r (by simpa using h)
    | ret t op r ht =>
      have hg := (h1 t).symm.trans ht
      cases hgt : g t with
      | idle => rw [hgt] at hg; cases hg
      | run i o p =>
        rw [hgt] at hg
        cases p with
        | act b k' => injection hg with _ hg; cases hg
        | ret r' =>
          injection hg with e1 e2
          injection e2 with e2
          subst e1 e2
          refine ⟨⟨upd g t .idle, fun u => ?_, fun j => ?_⟩, fun u o' r'' h => ?_⟩
          · show upd c.th t _ u = _
            by_cases e : u = t
            · subst e; rw [upd_same, upd_same]; rfl
            · rw [upd_other _ _ e, upd_other _ _ e]; exact h1 u
          · obtain ⟨tri, g1, g2, g3⟩ := h2 j
            by_cases e : j = i
            · subst e
              refine ⟨tri ++ [.ret t o r'], ?_, ?_, ?_⟩
              · have := g1.snoc (.ret t o r' (by show (g t).one j = _; rw [hgt]; exact At.one_same j o _))
                rw [upd_map (At.one j)]
                exact this
              · rw [history_append, g2]
                exact (keep j (.ret t r')).symm
              · intro u o' h
                rcases List.mem_append.1 h with h | h
                · exact List.mem_append.2 (Or.inl (g3 u o' h))
                · have := List.mem_singleton.1 h
                  cases this
            · refine ⟨tri, ?_, ?_, fun u o h => List.mem_append.2 (Or.inl (g3 u o h))⟩
              · rw [other j t _ (by rw [hgt]; exact At.one_other o _ (Ne.symm e)) rfl]
                exact g1
              · rw [g2]
                exact (drop j (.ret t ⟨i, r'⟩) (by simp [Event.down, Ne.symm e])).symm
          · rcases List.mem_append.1 h with h | h
            · exact h3 u o' r'' h
            · have := List.mem_singleton.1 h
              injection this with _ e1 e2
              subst e1 e2
              rfl

/-- **Objects can be used together.** If the executions of each object (with calls as allowed) have linearizable
histories, so have the executions of all of them together. -/
theorem linearizable {S : ∀ i, SeqSpec (F.Op i) (F.R i)} {A : ∀ i, F.Op i → Prop}
    (h : ∀ i tr c, Exec (F.body i) (Config.init (F.sh i)) tr c → Calls (fun _ => A i) tr → Linearizable (S i) (history tr))
    {tr : List (Label F.mach (Sigma F.Op) (Sigma F.R))} {c : Config F.mach (Sigma F.Op) (Sigma F.R)}
    (he : Exec F.bodies (Config.init (M := F.mach) F.sh) tr c) (hA : Calls (fun _ op => A op.1 op.2) tr) :
    Linearizable (SeqSpec.all S) (history tr) := by
  obtain ⟨⟨g, -, h2⟩, h3⟩ := split he
  refine linearizable_local (fun i j op r ⟨t, hr⟩ => (he.turns_of (W := fun op r => r.1 = op.1) h3).matched (t := t) hr) fun i => ?_
  obtain ⟨tri, g1, g2, g3⟩ := h2 i
  rw [← g2]
  exact h i tri _ g1 fun t op hm => hA t _ (g3 t op hm)

/-- Hence programs over several objects may take each call as one step. -/
theorem atomic {Q : Type} {S : ∀ i, SeqSpec (F.Op i) (F.R i)} {A : ∀ i, F.Op i → Prop}
    (h : ∀ i tr c, Exec (F.body i) (Config.init (F.sh i)) tr c → Calls (fun _ => A i) tr → Linearizable (S i) (history tr))
    (P : Client (Sigma F.Op) (Sigma F.R) Q) (q0 : Tid → Q) (hop : ∀ q op, P.ask q = some op → A op.1 op.2)
    {tr : List (Label F.mach (Sigma F.Op) (Sigma F.R))} {c : Config F.mach (Sigma F.Op) (Sigma F.R)}
    (he : Exec F.bodies (Config.init (M := F.mach) F.sh) tr c) (hf : P.Follows q0 (history tr)) :
    ∃ l s q, P.Atomic (SeqSpec.all S) q0 l s q ∧ ∀ t, q t = P.after q0 (history tr) t ∨
      ∃ op r, (c.th t).op = some op ∧ q t = P.go (P.after q0 (history tr) t) r :=
  P.atomic_exec he hf (linearizable h he (hf.calls fun _ => hop))

end Family

end Verif.Conc
