import Verif.Sort.OrderedRacedSim
import Verif.Sort.WrittenRace

/-!
# `SortOrdered` and `StableOrdered` while others write to the slice

Other goroutines may write to the slice at any time. What is left of `SortOrdered` and `StableOrdered` then: they return,
they do not index out of range, they compare a bounded number of times, and they put no values into the slice that were
not there or came from outside. Nothing is asked of `<` and `>=`.
-/

set_option linter.unusedSectionVars false

namespace Verif.Sort.OrderedRaced

open Verif.Sort
open Verif.Sort.Written (Leaf leaf_prog_wp lessAt_eq nlessAt_eq Reach Path path_leaf path_bind path_bound el_mem)

variable {σ E : Type} [Inhabited E] {α β : Type}

/-- The slice keeps its length, and values from a set `V` stay in `V`, whatever the other goroutines do; and what is
read of such values is in `V`. -/
structure Keeps (env : World σ E) (V : E → Prop) : Prop where
  tick_length : ∀ w, (env.tick w).2.length = w.2.length
  tick_values : ∀ w, (∀ v ∈ w.2, V v) → ∀ v ∈ (env.tick w).2, V v
  torn_values : ∀ w, (∀ v ∈ w.2, V v) → ∀ v ∈ w.2, V (env.torn w v)

/-- `calls` counts the comparisons, or fewer. -/
structure Counts (env : World σ E) (calls : σ → Nat) : Prop where
  tick : ∀ w, calls (env.tick w).1 ≤ calls w.1
  mark : ∀ s, calls (env.mark s) ≤ calls s + 1

/-! ## Functions built alike take a way through the program -/

variable {env : World σ E} {V : E → Prop} {calls : σ → Nat} {n : Nat}

/-- The slice has length `n` and holds values from `V`. -/
def Good (n : Nat) (V : E → Prop) (w : σ × List E) : Prop := w.2.length = n ∧ ∀ v ∈ w.2, V v

/-- Whatever is in the slice, `q` does what `p` does on some way through it. -/
def Follows (V : E → Prop) (calls : σ → Nat) (n : Nat) (f : α → β) (p : M E α) (q : R σ E β) : Prop :=
  ∀ w d, Good n V w → d.length = n → (p d).wp (fun _ _ _ _ => True) (fun _ => True) →
    ∃ k x d' w', Path (p d) k (some (x, d')) ∧ q w = some (.ok (f x), w') ∧ Good n V w' ∧
      calls w'.1 ≤ calls w.1 + k ∧ d'.length = n

theorem good_tick (hk : Keeps env V) {w : σ × List E} (h : Good n V w) : Good n V (env.tick w) :=
  ⟨(hk.tick_length w).trans h.1, hk.tick_values w h.2⟩

/-- An access inside the slice succeeds and gives a value from `V`. -/
theorem at_good (hk : Keeps env V) (hc : Counts env calls) {w : σ × List E} (h : Good n V w) {i : Int} (h0 : 0 ≤ i)
    (h1 : i < n) : ∃ x w', at_ env i w = some (.ok x, w') ∧ V x ∧ Good n V w' ∧ calls w'.1 ≤ calls w.1 := by
  have hg := good_tick hk h
  have hr : inRange (env.tick w).2 i := ⟨h0, by rw [hg.1]; exact h1⟩
  refine ⟨env.torn (env.tick w) (el (env.tick w).2 i), env.tick w, ?_, hk.torn_values _ hg.2 _ (el_mem hr), hg, hc.tick w⟩
  unfold at_
  rw [Ordered.goGet_in hr]
  rfl

theorem put_good (hk : Keeps env V) (hc : Counts env calls) {w : σ × List E} (h : Good n V w) {i : Int} (h0 : 0 ≤ i)
    (h1 : i < n) {x : E} (hx : V x) : ∃ w', put env i x w = some (.ok (), w') ∧ Good n V w' ∧ calls w'.1 ≤ calls w.1 := by
  have hg := good_tick hk h
  have hl : i.toNat < (env.tick w).2.length := by rw [hg.1]; omega
  refine ⟨((env.tick w).1, (env.tick w).2.set i.toNat x), ?_, ⟨by rw [List.length_set]; exact hg.1, ?_⟩, hc.tick w⟩
  · simp only [put]
    rw [goSet_ok h0 hl]
  · intro v hv
    rcases List.mem_or_eq_of_mem_set hv with hv | rfl
    · exact hg.2 v hv
    · exact hx

theorem compared_good (hc : Counts env calls) {w : σ × List E} (h : Good n V w) :
    ∃ w', compared env w = some (.ok (), w') ∧ Good n V w' ∧ calls w'.1 ≤ calls w.1 + 1 :=
  ⟨_, rfl, h, hc.mark w.1⟩

theorem Follows.pure {f : α → β} (x : α) {y : β} (h : f x = y) :
    Follows (σ := σ) V calls n f (Pure.pure x) (Pure.pure y) :=
  fun w d hg hd _ => ⟨0, x, d, w, .ret _, by rw [h]; rfl, hg, Nat.le_refl _, hd⟩

theorem Follows.fail {f : α → β} (msg : String) (q : R σ E β) : Follows V calls n f (M.fail msg) q :=
  fun _ _ _ _ h => (by cases h)

theorem Follows.bind {α' β' : Type} {f : α' → β'} {g : α → β} {p : M E α'} {k : α' → M E α} {q : R σ E β'}
    {l : β' → R σ E β} (h : Follows V calls n f p q)
    (hk : ∀ a, Reach n p a → Follows V calls n g (k a) (l (f a))) :
    Follows V calls n g (p >>= k) (q >>= l) := by
  intro w d hg hd hw
  have hw : (p d).wp (fun _ _ _ _ => True) fun a => (k a.1 a.2).wp (fun _ _ _ _ => True) fun _ => True :=
    (Prog.wp_bind (p d) (fun a => k a.1 a.2) _).1 hw
  obtain ⟨k1, a, d1, w1, p1, q1, g1, c1, n1⟩ := h w d hg hd (Prog.wp_mono hw fun _ _ => trivial)
  have hl := path_leaf p1 _ rfl
  obtain ⟨k2, x, d2, w2, p2, q2, g2, c2, n2⟩ := hk a ⟨d, d1, hd, hl⟩ w1 d1 g1 n1 (leaf_prog_wp hw hl)
  exact ⟨k1 + k2, x, d2, w2, path_bind p1 _ rfl p2, by rw [bind_ok q1, q2], g2, by omega, n2⟩

theorem Follows.ltAt (hk : Keeps env V) (hc : Counts env calls) (i j : Int) :
    Follows V calls n id (lessAt i j) (isLt env i j) := by
  intro w d hg hd hw
  rw [lessAt_eq] at hw ⊢
  by_cases hr : inRange d i ∧ inRange d j
  · rw [if_pos hr]
    obtain ⟨x, w1, a1, v1, g1, c1⟩ := at_good hk hc hg hr.1.1 (hd ▸ hr.1.2)
    obtain ⟨y, w2, a2, v2, g2, c2⟩ := at_good hk hc g1 hr.2.1 (hd ▸ hr.2.2)
    obtain ⟨w3, a3, g3, c3⟩ := compared_good hc g2
    refine ⟨1, env.lt x y, d, w3, .ask _ (.ret _), ?_, g3, by omega, hd⟩
    unfold isLt
    rw [bind_ok a1, bind_ok a2, bind_ok a3]
    rfl
  · rw [if_neg hr] at hw; cases hw

theorem Follows.nless (hk : Keeps env V) (hc : Counts env calls) (i j : Int) :
    Follows V calls n id (nlessAt i j) (isGe env i j) := by
  intro w d hg hd hw
  rw [nlessAt_eq] at hw ⊢
  by_cases hr : inRange d i ∧ inRange d j
  · rw [if_pos hr]
    obtain ⟨x, w1, a1, v1, g1, c1⟩ := at_good hk hc hg hr.1.1 (hd ▸ hr.1.2)
    obtain ⟨y, w2, a2, v2, g2, c2⟩ := at_good hk hc g1 hr.2.1 (hd ▸ hr.2.2)
    obtain ⟨w3, a3, g3, c3⟩ := compared_good hc g2
    refine ⟨1, env.ge x y, d, w3, .ask _ (.ret _), ?_, g3, by omega, hd⟩
    unfold isGe
    rw [bind_ok a1, bind_ok a2, bind_ok a3]
    rfl
  · rw [if_neg hr] at hw; cases hw

theorem Follows.swap (hk : Keeps env V) (hc : Counts env calls) (i j : Int) :
    Follows V calls n id (Sort.swap i j) (exchange env i j) := by
  intro w d hg hd hw
  unfold Sort.swap at hw ⊢
  by_cases hr : inRange d i ∧ inRange d j
  · rw [if_pos hr]
    have hi := hr.1.1
    have hi' : i < n := hd ▸ hr.1.2
    have hj := hr.2.1
    have hj' : j < n := hd ▸ hr.2.2
    obtain ⟨x, w1, a1, v1, g1, c1⟩ := at_good hk hc hg hj hj'
    obtain ⟨y, w2, a2, v2, g2, c2⟩ := at_good hk hc g1 hi hi'
    obtain ⟨w3, a3, g3, c3⟩ := put_good hk hc g2 hi hi' v1
    obtain ⟨w4, a4, g4, c4⟩ := put_good hk hc g3 hj hj' v2
    have e : exchange env i j w = some (.ok (), w4) := by
      unfold exchange
      rw [bind_ok a1, bind_ok a2, bind_ok a3, a4]
    exact ⟨0, (), _, w4, .note (.ret _), e, g4, by omega, by simp [hd]⟩
  · rw [if_neg hr] at hw; cases hw

theorem Follows.recurse {p : M E Unit} {q : R σ E Unit} (h : Follows V calls n id p q) :
    Follows V calls n id (Sort.recurse p) q := by
  intro w d hg hd hw
  have e : Sort.recurse p d = .note .enter ((p d).bind fun r => .note .leave (.ret ((), r.2))) := rfl
  rw [e] at hw ⊢
  have hw := (Prog.wp_bind (p d) (fun r => .note .leave (.ret ((), r.2))) _).1 hw
  obtain ⟨k, x, d', w', hp, hq, hg', hc, hd'⟩ := h w d hg hd (Prog.wp_mono hw fun _ _ => trivial)
  exact ⟨k + 0, (), d', w', .note (path_bind hp _ rfl (.note (.ret _))), hq, hg', hc, hd'⟩

theorem Follows.inside_less {g : α → β} {i j : Int} {k : Bool → M E α} {q : R σ E β}
    (h : 0 ≤ i → i < n → Follows V calls n g (lessAt i j >>= k) q) :
    Follows V calls n g (lessAt i j >>= k) q := by
  intro w d hg hd hw
  by_cases hr : inRange d i ∧ inRange d j
  · exact h hr.1.1 (hd ▸ hr.1.2) w d hg hd hw
  · have : (lessAt i j >>= k) d = (lessAt i j d).bind fun a => k a.1 a.2 := rfl
    rw [this, lessAt_eq, if_neg hr] at hw
    cases hw

theorem Follows.inside_nless {g : α → β} {i j : Int} {k : Bool → M E α} {q : R σ E β}
    (h : 0 ≤ j → j < n → Follows V calls n g (nlessAt i j >>= k) q) :
    Follows V calls n g (nlessAt i j >>= k) q := by
  intro w d hg hd hw
  by_cases hr : inRange d i ∧ inRange d j
  · exact h hr.2.1 (hd ▸ hr.2.2) w d hg hd hw
  · have : (nlessAt i j >>= k) d = (nlessAt i j d).bind fun a => k a.1 a.2 := rfl
    rw [this, nlessAt_eq, if_neg hr] at hw
    cases hw

theorem follows_of_sim (hk : Keeps env V) (hc : Counts env calls) {f : α → β} {p : M E α} {q : R σ E β}
    (h : Sim env n f p q) : Follows V calls n f p q := by
  induction h with
  | pure x h => exact .pure x h
  | fail msg q => exact .fail msg q
  | bind _ _ ih ihk => exact ih.bind ihk
  | ltAt i j => exact .ltAt hk hc i j
  | nless i j => exact .nless hk hc i j
  | swap i j => exact .swap hk hc i j
  | recurse _ ih => exact ih.recurse
  | inside_less _ ih => exact .inside_less ih
  | inside_nless _ ih => exact .inside_nless ih

/-! ## Nobody else -/

/-- With nobody else, `q` does what `p` does with the operators' answers. -/
def Agrees (lt ge : E → E → Bool) (n : Nat) (f : α → β) (p : M E α) (q : R σ E β) : Prop :=
  ∀ s d x d', d.length = n → Ordered.Does lt ge p d x d' → d'.length = n ∧ ∃ s', q (s, d) = some (.ok (f x), (s', d'))

theorem at_alone (hq : ∀ w, env.tick w = w) (ht : ∀ w x, env.torn w x = x) {s : σ} {d : List E} {i : Int} (h : inRange d i) :
    at_ env i (s, d) = some (.ok (el d i), (s, d)) := by
  unfold at_
  rw [hq, Ordered.goGet_in h]
  show some (Except.ok (env.torn _ _), _) = _
  rw [ht]

theorem Agrees.swap (hq : ∀ w, env.tick w = w) (ht : ∀ w x, env.torn w x = x) (lt ge : E → E → Bool) (i j : Int) :
    Agrees lt ge n id (Sort.swap i j) (exchange env i j) := by
  intro s d x d' hd h
  unfold Ordered.Does Sort.swap at h
  by_cases hr : inRange d i ∧ inRange d j
  · rw [if_pos hr] at h
    have hi : i.toNat < d.length := by have := hr.1.1; have := hr.1.2; omega
    have hj : j.toNat < d.length := by have := hr.2.1; have := hr.2.2; omega
    cases h
    refine ⟨by simp [hd], s, ?_⟩
    have p1 : put env i (el d j) (s, d) = some (.ok (), (s, d.set i.toNat (el d j))) := by
      simp only [put, hq]; rw [goSet_ok hr.1.1 hi]
    have p2 : put env j (el d i) (s, d.set i.toNat (el d j)) =
        some (.ok (), (s, (d.set i.toNat (el d j)).set j.toNat (el d i))) := by
      simp only [put, hq]; rw [goSet_ok hr.2.1 (by rw [List.length_set]; exact hj)]
    unfold exchange
    rw [bind_ok (at_alone hq ht hr.2), bind_ok (at_alone hq ht hr.1), bind_ok p1, p2]
  · rw [if_neg hr] at h; cases h

theorem leaf_of_ev {lt ge : E → E → Bool} {p : Prog E α} {x : α} (h : Ordered.ev lt ge p = .ok x) : Leaf p x := by
  induction p with
  | ret a => cases h; exact .ret _
  | fail _ => cases h
  | note e p ih => exact .note (ih h)
  | ask k x y d next ih =>
    cases k with
    | lt => exact .ask _ (ih _ h)
    | nlt => exact .ask _ (ih _ h)

theorem agrees_of_sim (hq : ∀ w, env.tick w = w) (ht : ∀ w x, env.torn w x = x) {f : α → β} {p : M E α} {q : R σ E β}
    (h : Sim env n f p q) : Agrees env.lt env.ge n f p q := by
  induction h with
  | pure x h =>
    intro s d x' d' hd hx
    cases hx
    exact ⟨hd, s, by rw [h]; rfl⟩
  | fail msg q => intro s d x d' hd hx; cases hx
  | bind hp _ ih ihk =>
    intro s d x d' hd hx
    obtain ⟨a, d1, h1, h2⟩ := Ordered.does_bind hx
    obtain ⟨n1, s1, q1⟩ := ih s d a d1 hd h1
    obtain ⟨n2, s2, q2⟩ := ihk a ⟨d, d1, hd, leaf_of_ev h1⟩ s1 d1 x d' n1 h2
    exact ⟨n2, s2, by rw [bind_ok q1, q2]⟩
  | ltAt i j =>
    intro s d x d' hd hx
    obtain ⟨h1, h2, h3, h4⟩ := Ordered.does_less hx
    subst h4
    refine ⟨hd, env.mark s, ?_⟩
    unfold isLt
    rw [bind_ok (at_alone hq ht h1), bind_ok (at_alone hq ht h2), bind_ok rfl]
    rw [h3]
    rfl
  | nless i j =>
    intro s d x d' hd hx
    obtain ⟨h1, h2, h3, h4⟩ := Ordered.does_nless hx
    subst h4
    refine ⟨hd, env.mark s, ?_⟩
    unfold isGe
    rw [bind_ok (at_alone hq ht h1), bind_ok (at_alone hq ht h2), bind_ok rfl]
    rw [h3]
    rfl
  | swap i j => exact .swap hq ht _ _ i j
  | recurse _ ih =>
    intro s d x d' hd hx
    obtain ⟨_, d1, h1, h2⟩ := Ordered.does_bind hx
    cases h1
    obtain ⟨_, d2, h3, h4⟩ := Ordered.does_bind h2
    cases h4
    exact ih s d _ _ hd h3
  | inside_less _ ih =>
    intro s d x d' hd hx
    obtain ⟨b, d1, h1, -⟩ := Ordered.does_bind hx
    have := Ordered.range_less ⟨d, d1, hd, h1⟩
    exact ih this.1 this.2.1 s d x d' hd hx
  | inside_nless _ ih =>
    intro s d x d' hd hx
    obtain ⟨b, d1, h1, -⟩ := Ordered.does_bind hx
    have := Ordered.range_nless ⟨d, d1, hd, h1⟩
    exact ih this.2.2.1 this.2.2.2 s d x d' hd hx

/-! ## The exported functions -/

theorem race_of (hk : Keeps env V) (hc : Counts env calls) {p : M E Unit} {q : R σ E Unit} {B : Nat} {s : σ}
    {data : List E} (hv : ∀ v ∈ data, V v) (h : Sim env data.length id p q)
    (hw : (p data).wp (fun _ _ _ _ => True) (fun _ => True))
    (hb : (p data).cw (fun _ _ _ _ => True) (fun _ k => k ≤ B) 0) :
    ∃ s' out, q (s, data) = some (.ok (), s', out) ∧ out.length = data.length ∧ (∀ v ∈ out, V v) ∧
      calls s' ≤ calls s + B := by
  obtain ⟨k, r, d', ⟨s', out⟩, hp, hq, hg, hl, -⟩ := follows_of_sim hk hc h (s, data) data ⟨rfl, hv⟩ rfl hw
  have := path_bound hp 0 hw hb
  exact ⟨s', out, hq, hg.1, hg.2, by simp only at hl; omega⟩

theorem race_sort (hk : Keeps env V) (hc : Counts env calls) (s : σ) (data : List E) (hv : ∀ v ∈ data, V v)
    (hn : data.length < 2 ^ 63) :
    ∃ s' out, SortOrdered env s data = some (.ok (), s', out) ∧ out.length = data.length ∧ (∀ v ∈ out, V v) ∧
      calls s' ≤ calls s + data.length * (7 * data.length + 4 * (Nat.log2 data.length + 1) + 18) := by
  refine race_of hk hc hv (sim_pdqsort hn (data.length + 1) 0 data.length (bitsLen data.length) true true
    (by omega) (by omega) (by omega)) ?_ ?_
  · exact Prog.wp_mono (sortProg_any data) fun _ _ => trivial
  · exact Prog.cw_mono (sortProg_cost_any data) fun _ k h =>
      Nat.le_trans h (Nat.mul_le_mul_left _ (by have := Sort.bitsLen_le data.length; omega))

theorem race_stable (hk : Keeps env V) (hc : Counts env calls) (s : σ) (data : List E) (hv : ∀ v ∈ data, V v)
    (hn : data.length < 2 ^ 63) :
    ∃ s' out, StableOrdered env s data = some (.ok (), s', out) ∧ out.length = data.length ∧ (∀ v ∈ out, V v) ∧
      calls s' ≤ calls s + data.length * (4 * (Nat.log2 data.length + 1) + 19) := by
  refine race_of hk hc hv (sim_stable hn) ?_ ?_
  · exact Prog.wp_mono (stableProg_any data) fun _ _ => trivial
  · exact Prog.cw_mono (stableProg_cost data) fun _ k h =>
      Nat.le_trans h (Nat.mul_le_mul_left _ (by have := Sort.bitsLen_le data.length; omega))

/-- **While others write to the slice.** Other goroutines may change the slice before each access; only the length
stays. A read of an element may give a mixture of values. Whatever `<` and `>=` answer, `SortOrdered` and `StableOrdered` return: they never index out of range and never
run on for ever. If all values that the others write, and those in the slice, and mixtures of them, are in a set `V`, then only values from
`V` are in the slice then. -/
theorem C143_returns (env : World σ E) (V : E → Prop) (hk : Keeps env V) (s : σ) (data : List E) (hv : ∀ v ∈ data, V v)
    (hn : data.length < 2 ^ 63) :
    ∀ r ∈ [SortOrdered env s data, StableOrdered env s data],
      ∃ s' out, r = some (.ok (), s', out) ∧ out.length = data.length ∧ ∀ v ∈ out, V v := by
  have key : ∀ {q : R σ E Unit} {p : M E Unit}, Sim env data.length id p q →
      (p data).wp (fun _ _ _ _ => True) (fun _ => True) →
      ∃ s' out, q (s, data) = some (.ok (), s', out) ∧ out.length = data.length ∧ ∀ v ∈ out, V v := by
    intro q p h hw
    have hc : Counts env fun _ => 0 := ⟨fun _ => Nat.le_refl _, fun _ => Nat.zero_le _⟩
    obtain ⟨k, r, d', ⟨s', out⟩, hp, hq, hg, -⟩ := follows_of_sim hk hc h (s, data) data ⟨rfl, hv⟩ rfl hw
    exact ⟨s', out, hq, hg.1, hg.2⟩
  intro r hr
  rcases List.mem_cons.1 hr with rfl | hr
  · exact key (sim_pdqsort hn (data.length + 1) 0 data.length (bitsLen data.length) true true
      (by omega) (by omega) (by omega)) (Prog.wp_mono (sortProg_any data) fun _ _ => trivial)
  · rcases List.mem_singleton.1 hr with rfl
    exact key (sim_stable hn) (Prog.wp_mono (stableProg_any data) fun _ _ => trivial)

/-- **How many comparisons that takes.** Not more than without the others. The state is a number that each comparison
increases and the others leave alone, beside whatever state the others have. -/
theorem C143_comparisons (env : World (σ × Nat) E) (hk : Keeps env fun _ => True)
    (hm : ∀ s, env.mark s = (s.1, s.2 + 1)) (ht : ∀ w, (env.tick w).1.2 = w.1.2) (s : σ) (data : List E)
    (hn : data.length < 2 ^ 63) :
    (∃ s' m out, SortOrdered env (s, 0) data = some (.ok (), (s', m), out) ∧
      m ≤ data.length * (7 * data.length + 4 * (Nat.log2 data.length + 1) + 18)) ∧
    (∃ s' m out, StableOrdered env (s, 0) data = some (.ok (), (s', m), out) ∧
      m ≤ data.length * (4 * (Nat.log2 data.length + 1) + 19)) := by
  have hc : Counts env (fun s => s.2) := ⟨fun w => by rw [ht w]; exact Nat.le_refl _, fun s => by rw [hm]; exact Nat.le_refl _⟩
  refine ⟨?_, ?_⟩
  · obtain ⟨⟨s', m⟩, out, h1, -, -, h2⟩ := race_sort hk hc (s, 0) data (fun _ _ => trivial) hn
    exact ⟨s', m, out, h1, by simpa using h2⟩
  · obtain ⟨⟨s', m⟩, out, h1, -, -, h2⟩ := race_stable hk hc (s, 0) data (fun _ _ => trivial) hn
    exact ⟨s', m, out, h1, by simpa using h2⟩

/-- **With nobody else** these are the functions of `Verif.Sort.OrderedModel`. -/
theorem C143_alone (env : World σ E) (hq : ∀ w, env.tick w = w) (ht : ∀ w x, env.torn w x = x) (s : σ) (data : List E) (hn : data.length < 2 ^ 63) :
    (∃ s' out, SortOrdered env s data = some (.ok (), s', out) ∧
      Ordered.SortOrdered env.lt env.ge data = some (.ok out)) ∧
    (∃ s' out, StableOrdered env s data = some (.ok (), s', out) ∧
      Ordered.StableOrdered env.lt env.ge data = some (.ok out)) := by
  obtain ⟨-, ⟨o1, h1⟩, -, ⟨o2, h2⟩, -⟩ := C03_returns_normally data env.lt env.lt env.ge
  obtain ⟨a1, a2⟩ := Ordered.C06_as_written env.lt env.ge data hn
  refine ⟨?_, ?_⟩
  · obtain ⟨-, s', h⟩ := agrees_of_sim hq ht (sim_pdqsort hn (data.length + 1) 0 data.length (bitsLen data.length) true true
      (by omega) (by omega) (by omega)) s data () o1 rfl (Ordered.contents_does h1)
    exact ⟨s', o1, h, by rw [a1, h1]⟩
  · obtain ⟨-, s', h⟩ := agrees_of_sim hq ht (sim_stable hn) s data () o2 rfl (Ordered.contents_does h2)
    exact ⟨s', o2, h, by rw [a2, h2]⟩

/-! ## Concrete cases -/

/-- Numbers with operators like those of floats, where nothing compares with 0; another goroutine keeps writing the
numbers from 100 up through the slice. -/
def busy : World (Nat × Nat) Nat where
  lt x y := decide (0 < x ∧ 0 < y ∧ x < y)
  ge x y := decide (0 < x ∧ 0 < y ∧ x ≥ y)
  tick w := ((w.1.1 + 1, w.1.2), w.2.set (w.1.1 % 5) (100 + w.1.1 % 3))
  mark s := (s.1, s.2 + 1)

theorem busy_keeps : Keeps busy fun v => v < 10 ∨ 100 ≤ v ∧ v < 103 := by
  refine ⟨fun w => by simp [busy], fun w h v hv => ?_, fun _ h v hv => h v hv⟩
  rcases List.mem_or_eq_of_mem_set hv with hv | rfl
  · exact h v hv
  · omega

example : ∃ s' out, SortOrdered busy (0, 0) [5, 3, 9, 1, 1, 2, 7, 8, 4, 6, 0, 3, 5, 5] = some (.ok (), s', out) ∧
    out.length = 14 ∧ ∀ v ∈ out, v < 10 ∨ 100 ≤ v ∧ v < 103 :=
  C143_returns busy _ busy_keeps (0, 0) [5, 3, 9, 1, 1, 2, 7, 8, 4, 6, 0, 3, 5, 5] (by decide) (by decide) _
    (List.mem_cons_self ..)

example : ∃ s' m out, StableOrdered busy (0, 0) [5, 3, 9, 1, 1, 2, 7, 8] = some (.ok (), (s', m), out) ∧
    m ≤ 8 * 35 := by
  have e : Nat.log2 8 = 3 := by decide
  have := (C143_comparisons busy ⟨busy_keeps.1, fun _ _ _ _ => trivial, fun _ _ _ _ => trivial⟩ (fun _ => rfl) (fun _ => rfl) 0
    [5, 3, 9, 1, 1, 2, 7, 8] (by decide)).2
  simpa [e] using this

example : ∃ s' out, SortOrdered { busy with tick := id } (0, 0) [3, 0, 2] = some (.ok (), s', out) ∧
    Ordered.SortOrdered busy.lt busy.ge [3, 0, 2] = some (.ok out) :=
  (C143_alone { busy with tick := id } (fun _ => rfl) (fun _ _ => rfl) (0, 0) [3, 0, 2] (by decide)).1

/-- Elements of two words, of which a read may get the second from another element; another goroutine swaps the words of
the third element all the time. -/
def mixed : World Nat (Nat × Nat) where
  lt x y := decide (x.1 < y.1)
  ge x y := decide (x.2 ≥ y.2)
  tick w := (w.1 + 1, w.2.set 2 ((w.2.getD 2 (0, 0)).2, (w.2.getD 2 (0, 0)).1))
  mark s := s
  torn w x := (x.1, (w.2.getD (w.1 % w.2.length) (0, 0)).2)

example : ∃ s' out, StableOrdered mixed 0 [(5, 1), (3, 3), (9, 2), (1, 4)] = some (.ok (), s', out) ∧
    out.length = 4 ∧ ∀ v ∈ out, v.1 < 10 ∧ v.2 < 10 := by
  have hd : ∀ (l : List (Nat × Nat)) i, (∀ v ∈ l, v.1 < 10 ∧ v.2 < 10) →
      (l.getD i (0, 0)).1 < 10 ∧ (l.getD i (0, 0)).2 < 10 := by
    intro l i h
    rw [List.getD_eq_getElem?_getD]
    cases e : l[i]? with
    | none => simp
    | some v => exact h v (List.mem_of_getElem? e)
  refine C143_returns mixed (fun v => v.1 < 10 ∧ v.2 < 10) ⟨fun w => by simp [mixed], fun w h v hv => ?_, fun w h v hv => ?_⟩ 0
    [(5, 1), (3, 3), (9, 2), (1, 4)] (by decide) (by decide) _ (List.mem_cons_of_mem _ (List.mem_cons_self ..))
  · rcases List.mem_or_eq_of_mem_set hv with hv | rfl
    · exact h v hv
    · exact ⟨(hd w.2 2 h).2, (hd w.2 2 h).1⟩
  · exact ⟨(h v hv).1, (hd w.2 _ h).2⟩

/-- Another goroutine exchanges the two elements as well, between the two reads of an exchange. -/
def meddler : World Nat Nat where
  lt x y := decide (x < y)
  ge x y := decide (x ≥ y)
  tick w := (w.1 + 1, if w.1 = 3 then w.2.reverse else w.2)
  mark s := s

/-- **What is not left.** Two that exchange the same elements can lose one of them: from 2, 1 comes 2, 2. -/
theorem C143_loses : SortOrdered meddler 0 [2, 1] = some (.ok (), 6, [2, 2]) := by
  have e1 : isLt meddler 1 (1 - 1) (0, [2, 1]) = some (.ok true, (2, [2, 1])) := by decide
  have e2 : exchange meddler 1 (1 - 1) (2, [2, 1]) = some (.ok (), (6, [2, 2])) := by decide
  have e3 : insertionInner meddler 0 1 (0, [2, 1]) = some (.ok (), (6, [2, 2])) := by
    rw [insertionInner, if_pos (by decide), bind_ok e1, if_pos rfl, bind_ok e2, insertionInner, if_neg (by decide)]
    rfl
  show pdqLoop meddler 0 2 2 true true (0, [2, 1]) = _
  rw [pdqLoop]
  show insertionOuter meddler 0 2 1 (0, [2, 1]) = _
  rw [insertionOuter, if_pos (by decide), bind_ok e3, insertionOuter, if_neg (by decide)]
  rfl

end Verif.Sort.OrderedRaced
