import Verif.Sort.Props

/-!
# Property C116: what sorting determines

With a strict weak order, an ascending rearrangement is determined up to equivalence, place by place; so `Sort` and
`Stable` agree up to equivalence, whatever order the elements come in, and agree altogether if different elements are
never equivalent. An ascending rearrangement that keeps equivalent elements in order is determined altogether; so the
specification of `Stable` leaves no choice, and sorting by one order and then by another, with `Stable`, is sorting by
the second order where ties are broken by the first.
-/

namespace Verif.Sort

variable {E : Type} [Inhabited E]
set_option linter.unusedSectionVars false

/-! ## Specification -/

/-- Lists of the same length with equivalent elements at the same place. -/
def SamePlaces (lt : E → E → Bool) (l l' : List E) : Prop :=
  l.length = l'.length ∧ ∀ (i : Nat) (h : i < l.length) (h' : i < l'.length), equiv lt (l[i]'h) (l'[i]'h') = true

/-- By `lt`, ties broken by `lt'`. -/
def lexBy (lt lt' : E → E → Bool) (x y : E) : Bool := lt x y || (equiv lt x y && lt' x y)

/-! ## Lemmas -/

theorem StrictWeak.asymm {lt : E → E → Bool} (hw : StrictWeak lt) {x y : E} (h : lt x y = true) : lt y x = false := by
  cases h' : lt y x with
  | false => rfl
  | true => rw [← hw.irrefl x, hw.trans _ _ _ h h']

theorem equiv_iff {lt : E → E → Bool} {x y : E} : equiv lt x y = true ↔ lt x y = false ∧ lt y x = false := by
  simp [equiv]

/-- "Not less" is transitive. -/
theorem StrictWeak.negTrans {lt : E → E → Bool} (hw : StrictWeak lt) {x y z : E} (h1 : lt y x = false)
    (h2 : lt z y = false) : lt z x = false := by
  cases h : lt z x with
  | false => rfl
  | true =>
    cases hxy : lt x y with
    | true => rw [hw.trans _ _ _ h hxy] at h2; cases h2
    | false =>
      cases hyz : lt y z with
      | true => rw [hw.trans _ _ _ hyz h] at h1; cases h1
      | false => rw [(hw.incomp x y z hxy h1 hyz h2).2] at h; cases h

theorem StrictWeak.equiv_left {lt : E → E → Bool} (hw : StrictWeak lt) {x y : E} (h : equiv lt x y = true) (z : E) :
    lt x z = lt y z ∧ lt z x = lt z y := by
  obtain ⟨h1, h2⟩ := equiv_iff.1 h
  constructor
  · cases ha : lt x z <;> cases hb : lt y z
    · rfl
    · rw [hw.negTrans (x := z) (y := x) (z := y) ha h2] at hb; cases hb
    · rw [hw.negTrans (x := z) (y := y) (z := x) hb h1] at ha; cases ha
    · rfl
  · cases ha : lt z x <;> cases hb : lt z y
    · rfl
    · rw [hw.negTrans (x := y) (y := x) (z := z) h1 ha] at hb; cases hb
    · rw [hw.negTrans (x := x) (y := y) (z := z) h2 hb] at ha; cases ha
    · rfl

/-- How many elements the first `i + 1` places of a list give. -/
theorem countP_take_drop (p : E → Bool) (l : List E) (i : Nat) :
    l.countP p = (l.take i).countP p + (l.drop i).countP p := by
  rw [← List.countP_append, List.take_append_drop]

/-- An ascending rearrangement does not have a greater element at a place than another one. -/
theorem not_less_at {lt : E → E → Bool} (hw : StrictWeak lt) {l l' : List E} (hp : l.Perm l') (ha : Ascending lt l)
    (ha' : Ascending lt l') (i : Nat) (h : i < l.length) (h' : i < l'.length) : lt (l[i]'h) (l'[i]'h') = false := by
  cases hlt : lt (l[i]'h) (l'[i]'h') with
  | false => rfl
  | true =>
    exfalso
    -- at most l[i]: all of l up to and with place i, of l' none from place i on
    have h1 : i + 1 ≤ l.countP fun e => !lt (l[i]'h) e := by
      rw [countP_take_drop _ l (i + 1)]
      have : (l.take (i + 1)).countP (fun e => !lt (l[i]'h) e) = (l.take (i + 1)).length := by
        rw [List.countP_eq_length]
        intro e he
        obtain ⟨j, hj, rfl⟩ := List.getElem_of_mem he
        rw [List.getElem_take]
        have hj' : j < i + 1 ∧ j < l.length := by rw [List.length_take] at hj; omega
        rcases Nat.lt_or_ge j i with hji | hji
        · rw [List.pairwise_iff_getElem.1 ha j i hj'.2 h hji]; rfl
        · have : j = i := by omega
          subst this
          rw [hw.irrefl]; rfl
      rw [this, List.length_take]
      omega
    have h2 : l'.countP (fun e => !lt (l[i]'h) e) ≤ i := by
      rw [countP_take_drop _ l' i]
      have : (l'.drop i).countP (fun e => !lt (l[i]'h) e) = 0 := by
        rw [List.countP_eq_zero]
        intro e he
        obtain ⟨j, hj, rfl⟩ := List.getElem_of_mem he
        rw [List.getElem_drop]
        have hj' : j < l'.length - i := by simpa using hj
        have : lt (l'[i + j]'(by omega)) (l'[i]'h') = false := by
          rcases Nat.eq_zero_or_pos j with rfl | hj0
          · exact hw.irrefl _
          · exact List.pairwise_iff_getElem.1 ha' i (i + j) h' (by omega) (by omega)
        cases hc : lt (l[i]'h) (l'[i + j]'(by omega)) with
        | true => simp
        | false => rw [hw.negTrans this hc] at hlt; cases hlt
      rw [this]
      have := List.countP_le_length (p := fun e => !lt (l[i]'h) e) (l := l'.take i)
      rw [List.length_take] at this
      omega
    rw [hp.countP_eq] at h1
    omega

/-- Two ascending rearrangements of the same elements have equivalent elements at the same places. -/
theorem ascending_unique {lt : E → E → Bool} (hw : StrictWeak lt) {l l' : List E} (hp : l.Perm l')
    (ha : Ascending lt l) (ha' : Ascending lt l') : SamePlaces lt l l' :=
  ⟨hp.length_eq, fun i h h' => equiv_iff.2 ⟨not_less_at hw hp ha ha' i h h', not_less_at hw hp.symm ha' ha i h' h⟩⟩

/-- An ascending list is determined by the lists of its equivalent elements. -/
theorem stable_unique {lt : E → E → Bool} (hw : StrictWeak lt) : ∀ {l l' : List E}, Ascending lt l → Ascending lt l' →
    (∀ x, l.filter (equiv lt x) = l'.filter (equiv lt x)) → l = l' := by
  have refl : ∀ x, equiv lt x x = true := fun x => equiv_iff.2 ⟨hw.irrefl x, hw.irrefl x⟩
  intro l
  induction l with
  | nil =>
    intro l' _ _ hf
    cases l' with
    | nil => rfl
    | cons b t' => have := hf b; rw [List.filter_cons_of_pos (refl b)] at this; cases this
  | cons a t ih =>
    intro l' ha ha' hf
    cases l' with
    | nil => have := hf a; rw [List.filter_cons_of_pos (refl a)] at this; cases this
    | cons b t' =>
      obtain ⟨ha1, ha2⟩ := List.pairwise_cons.1 ha
      obtain ⟨ha1', ha2'⟩ := List.pairwise_cons.1 ha'
      -- the first elements are equivalent
      have hab : lt a b = false := by
        have : a ∈ (b :: t').filter (equiv lt a) := by
          rw [← hf a, List.filter_cons_of_pos (refl a)]; exact List.mem_cons_self
        rcases List.mem_cons.1 (List.mem_filter.1 this).1 with rfl | h
        · exact hw.irrefl _
        · exact ha1' a h
      have hba : lt b a = false := by
        have : b ∈ (a :: t).filter (equiv lt b) := by
          rw [hf b, List.filter_cons_of_pos (refl b)]; exact List.mem_cons_self
        rcases List.mem_cons.1 (List.mem_filter.1 this).1 with rfl | h
        · exact hw.irrefl _
        · exact ha1 b h
      have heq := hf a
      rw [List.filter_cons_of_pos (refl a), List.filter_cons_of_pos (equiv_iff.2 ⟨hab, hba⟩)] at heq
      injection heq with h1 h2
      subst h1
      congr 1
      refine ih ha2 ha2' fun x => ?_
      have := hf x
      by_cases hx : equiv lt x a = true
      · rw [List.filter_cons_of_pos hx, List.filter_cons_of_pos hx] at this
        injection this
      · rw [List.filter_cons_of_neg hx, List.filter_cons_of_neg hx] at this
        exact this

theorem lexBy_strictWeak {lt lt' : E → E → Bool} (hw : StrictWeak lt) (hw' : StrictWeak lt') :
    StrictWeak (lexBy lt lt') := by
  have neg : ∀ x y, lexBy lt lt' x y = false ↔ lt x y = false ∧ (lt y x = false → lt' x y = false) := by
    intro x y
    unfold lexBy equiv
    cases lt x y <;> cases lt y x <;> cases lt' x y <;> simp
  have pos : ∀ x y, lexBy lt lt' x y = true ↔ lt x y = true ∨ (equiv lt x y = true ∧ lt' x y = true) := by
    intro x y; unfold lexBy; simp
  refine ⟨fun x => ?_, fun x y z h1 h2 => ?_, fun x y z h1 h2 h3 h4 => ?_⟩
  · rw [neg]; exact ⟨hw.irrefl x, fun _ => hw'.irrefl x⟩
  · rw [pos] at h1 h2 ⊢
    rcases h1 with h1 | ⟨h1, h1'⟩
    · rcases h2 with h2 | ⟨h2, -⟩
      · exact .inl (hw.trans _ _ _ h1 h2)
      · exact .inl (by rw [← (hw.equiv_left h2 x).2]; exact h1)
    · rcases h2 with h2 | ⟨h2, h2'⟩
      · exact .inl (by rw [(hw.equiv_left h1 z).1]; exact h2)
      · refine .inr ⟨?_, hw'.trans _ _ _ h1' h2'⟩
        obtain ⟨a1, a2⟩ := equiv_iff.1 h1
        obtain ⟨b1, b2⟩ := equiv_iff.1 h2
        exact equiv_iff.2 (hw.incomp _ _ _ a1 a2 b1 b2)
  · rw [neg] at h1 h2 h3 h4 ⊢
    rw [neg]
    obtain ⟨c1, c2⟩ := hw.incomp _ _ _ h1.1 h2.1 h3.1 h4.1
    obtain ⟨d1, d2⟩ := hw'.incomp _ _ _ (h1.2 h2.1) (h2.2 h1.1) (h3.2 h4.1) (h4.2 h3.1)
    exact ⟨⟨c1, fun _ => d1⟩, c2, fun _ => d2⟩

/-! ## C116 -/

/-- **C116.** What `Sort` leaves is, up to equivalence, any ascending rearrangement. -/
theorem C116_sort_determined (less : E → E → Bool) (hw : StrictWeak less) (data : List E) :
    ∃ out, sort less data = .ok out ∧
      ∀ l : List E, l.Perm data → Ascending less l → SamePlaces less out l := by
  obtain ⟨out, h, ha⟩ := C01_sort_ascending less hw data
  obtain ⟨out', h', hp⟩ := (C02_sort_rearranges data).1 less
  rw [h] at h'
  injection h' with h'
  subst h'
  exact ⟨out, h, fun l hl hla => ascending_unique hw (hp.trans hl.symm) ha hla⟩

/-- **C116.** `Sort` and `Stable` agree up to equivalence, even if the elements come in another order. If different
elements are never equivalent they leave the same slice. -/
theorem C116_sort_stable_agree (less : E → E → Bool) (hw : StrictWeak less) (data data' : List E)
    (hperm : data.Perm data') : ∃ out out', sort less data = .ok out ∧ stableSort less data' = .ok out' ∧
      SamePlaces less out out' ∧
      ((∀ x ∈ data, ∀ y ∈ data, equiv less x y = true → x = y) → out = out' ∧
        sort less data' = .ok out ∧ stableSort less data = .ok out) := by
  have key : ∀ d d' : List E, d.Perm d' → ∃ out out', sort less d = .ok out ∧ stableSort less d' = .ok out' ∧
      SamePlaces less out out' ∧ out.Perm d ∧ out'.Perm d' := by
    intro d d' hdd
    obtain ⟨out, h, hs⟩ := C116_sort_determined less hw d
    obtain ⟨o, h', hp⟩ := (C02_sort_rearranges d).1 less
    rw [h] at h'
    injection h' with h'
    subst h'
    obtain ⟨out', h1, h2, h3⟩ := C04_stable_sorts less hw d'
    exact ⟨out, out', h, h1, hs out' (h3.trans hdd.symm) h2, hp, h3⟩
  have eq : ∀ d d' : List E, data.Perm d → d.Perm d' → (∀ x ∈ data, ∀ y ∈ data, equiv less x y = true → x = y) →
      ∃ out, sort less d = .ok out ∧ stableSort less d' = .ok out := by
    intro d d' hd hdd hx
    obtain ⟨out, out', h1, h2, h3, h4, h5⟩ := key d d' hdd
    have : out = out' := by
      apply List.ext_getElem h3.1
      intro i h h'
      refine hx _ ?_ _ ?_ (h3.2 i h h')
      · exact hd.symm.subset (h4.subset (List.getElem_mem h))
      · exact hd.symm.subset (hdd.symm.subset (h5.subset (List.getElem_mem h')))
    subst this
    exact ⟨out, h1, h2⟩
  obtain ⟨out, out', h1, h2, h3, -, -⟩ := key data data' hperm
  refine ⟨out, out', h1, h2, h3, fun hx => ?_⟩
  obtain ⟨o1, a1, b1⟩ := eq data data' (.refl _) hperm hx
  obtain ⟨o2, a2, b2⟩ := eq data data (.refl _) (.refl _) hx
  obtain ⟨o3, a3, b3⟩ := eq data' data' hperm (.refl _) hx
  rw [h1] at a1 a2
  injection a1 with a1
  injection a2 with a2
  subst a1 a2
  rw [h2] at b1 b3
  injection b1 with b1
  injection b3 with b3
  subst b1 b3
  exact ⟨rfl, a3, b2⟩

/-- **C116.** What `Stable` leaves is the only ascending list with the same equivalent elements in the same order. -/
theorem C116_stable_determined (less : E → E → Bool) (hw : StrictWeak less) (data l : List E) :
    stableSort less data = .ok l ↔
      Ascending less l ∧ ∀ x, l.filter (equiv less x) = data.filter (equiv less x) := by
  obtain ⟨out, h1, h2, -⟩ := C04_stable_sorts less hw data
  obtain ⟨out', h1', h3⟩ := C05_stable_is_stable less hw data
  rw [h1] at h1'
  injection h1' with h1'
  subst h1'
  constructor
  · intro h
    rw [h1] at h
    injection h with h
    subst h
    exact ⟨h2, fun x => h3 x⟩
  · rintro ⟨h4, h5⟩
    rw [h1, stable_unique hw h2 h4 fun x => (h3 x).trans (h5 x).symm]

/-- **C116.** Sorting by one order and then by another, with `Stable`: the same as sorting by the second, where the
first breaks ties. -/
theorem C116_stable_twice (less less' : E → E → Bool) (hw : StrictWeak less) (hw' : StrictWeak less') (data : List E) :
    ∃ mid out, stableSort less' data = .ok mid ∧ stableSort less mid = .ok out ∧
      stableSort (lexBy less less') data = .ok out := by
  obtain ⟨mid, h, -⟩ := C04_stable_sorts less' hw' data
  obtain ⟨out, h', -⟩ := C04_stable_sorts less hw mid
  refine ⟨mid, out, h, h', ?_⟩
  obtain ⟨m1, m2⟩ := (C116_stable_determined less' hw' data mid).1 h
  obtain ⟨o1, o2⟩ := (C116_stable_determined less hw mid out).1 h'
  refine (C116_stable_determined _ (lexBy_strictWeak hw hw') data out).2 ⟨?_, ?_⟩
  · -- two elements of `out`: in order by `less`, and if equivalent in the order of `mid`
    have inmid : ∀ x y, [x, y].Sublist out → equiv less x y = true → [x, y].Sublist mid := by
      intro x y hs he
      have : [x, y].filter (equiv less x) = [x, y] := by
        rw [List.filter_cons_of_pos (equiv_iff.2 ⟨hw.irrefl x, hw.irrefl x⟩), List.filter_cons_of_pos he]; rfl
      have hs' := hs.filter (equiv less x)
      rw [this, o2 x] at hs'
      exact hs'.trans List.filter_sublist
    refine List.pairwise_iff_forall_sublist.2 fun {x y} hs => ?_
    have hyx : less y x = false := List.pairwise_iff_forall_sublist.1 o1 hs
    unfold lexBy
    rw [hyx, Bool.false_or]
    cases he : equiv less y x with
    | false => rfl
    | true =>
      have he' : equiv less x y = true := by
        obtain ⟨a, b⟩ := equiv_iff.1 he; exact equiv_iff.2 ⟨b, a⟩
      have : less' y x = false := List.pairwise_iff_forall_sublist.1 m1 (inmid x y hs he')
      rw [this]; rfl
  · intro x
    have split : ∀ l : List E, l.filter (equiv (lexBy less less') x) =
        (l.filter (equiv less x)).filter (equiv less' x) := by
      intro l
      rw [List.filter_filter]
      congr 1
      funext y
      unfold equiv lexBy equiv
      cases less x y <;> cases less y x <;> simp
    have comm : ∀ l : List E, (l.filter (equiv less x)).filter (equiv less' x) =
        (l.filter (equiv less' x)).filter (equiv less x) := by
      intro l
      rw [List.filter_filter, List.filter_filter]
      congr 1
      funext a
      exact Bool.and_comm _ _
    rw [split, o2 x, comm, m2 x, ← comm, ← split]

/-! ## Examples -/

/-- Two orders on pairs that do have ties. -/
example : stableSort (fun a b : Nat × Nat => decide (a.2 < b.2)) [(1, 2), (0, 1), (1, 1), (0, 2)] =
    .ok [(0, 1), (1, 1), (1, 2), (0, 2)] ∧
    stableSort (fun a b : Nat × Nat => decide (a.1 < b.1)) [(0, 1), (1, 1), (1, 2), (0, 2)] =
    .ok [(0, 1), (0, 2), (1, 1), (1, 2)] := by decide +kernel
example : StrictWeak (fun a b : Nat × Nat => decide (a.1 < b.1)) :=
  ⟨fun x => by simp, fun x y z => by simp; omega, fun x y z => by simp; omega⟩
/-- Elements at the same place may differ. -/
example : SamePlaces (fun a b : Nat × Nat => decide (a.1 < b.1)) [(0, 1), (0, 2)] [(0, 2), (0, 1)] := by
  refine ⟨rfl, fun i h h' => ?_⟩
  rcases i with _ | _ | i
  · rfl
  · rfl
  · exact absurd h (by simp)

end Verif.Sort
