import Verif.Sort.ByPlace

/-!
# Property C123, theorems (see Sort/ByPlace.lean)
-/

namespace Verif.Sort

variable {E F : Type} [Inhabited E] [Inhabited F] {σ α : Type}
set_option linter.unusedSectionVars false

theorem Ix.on_ask (k : Kind) (i j : Int) (next : Bool → Ix α) (d : List E) : (Ix.ask k i j next).on E d =
    if inRange d i ∧ inRange d j then .ask k (el d i) (el d j) d fun b => (next b).on E d
    else .fail "index out of range" := by
  cases k <;>
  · by_cases hi : inRange d i
    · by_cases hj : inRange d j
      · simp only [Ix.on, lessAt, nlessAt, Bind.bind, get, hi, hj, if_true, Prog.bind, Sort.ask, and_self]
      · simp only [Ix.on, lessAt, nlessAt, Bind.bind, get, hi, hj, if_true, if_false, Prog.bind, and_false]
    · simp only [Ix.on, lessAt, nlessAt, Bind.bind, get, hi, if_false, Prog.bind, false_and]

theorem Ix.on_swap (i j : Int) (p : Ix α) (d : List E) : (Ix.swap i j p).on E d =
    if inRange d i ∧ inRange d j then .note .swap (p.on E (swapL d i j)) else .fail "index out of range" := by
  simp only [Ix.on, Bind.bind, Sort.swap]
  split <;> rfl

/-- A comparator that gives prepared answers. -/
def replay (bs : List Bool) (_ : Kind) (_ _ : E) : Bool × List Bool := (bs.headD false, bs.tail)

theorem range_length {d d' : List E} (h : d'.length = d.length) (i : Int) : inRange d' i ↔ inRange d i := by
  unfold inRange; rw [h]

theorem swapL_length (d : List E) (i j : Int) : (swapL d i j).length = d.length := by simp [swapL]

/-- A run with a writing comparator takes the way through the program that the answers prescribe. -/
theorem Ix.run_any {cmp : σ → List E → Kind → E → E → Bool × List E × σ}
    (hl : ∀ s d k x y, (cmp s d k x y).2.1.length = d.length) (q : Ix α) : ∀ (s : σ) (d d₀ : List E),
    d₀.length = d.length → (∀ bs, ∃ r, (q.on E d₀).exec replay bs = .ok r) →
    ∃ a out n bs e st, q.run cmp s d = .ok (a, out, n) ∧ (q.on E d₀).exec replay bs = .ok ((a, e), st, n) ∧
      out.length = d.length ∧
      ∀ I : List E → Prop, (∀ l l', l.Perm l' → I l → I l') → (∀ s d k x y, I d → I (cmp s d k x y).2.1) → I d → I out := by
  induction q with
  | ret a => exact fun s d d₀ _ _ => ⟨a, d, 0, [], d₀, [], rfl, rfl, rfl, fun _ _ _ h => h⟩
  | fail msg => intro s d d₀ _ h; obtain ⟨r, hr⟩ := h []; cases hr
  | note e p ih => exact fun s d d₀ hd h => ih s d d₀ hd h
  | swap i j p ih =>
    intro s d d₀ hd h
    simp only [Ix.on_swap, range_length hd] at h ⊢
    by_cases hij : inRange d i ∧ inRange d j
    · simp only [hij, and_self, if_true, Ix.run] at h ⊢
      obtain ⟨a, out, n, bs, e, st, h1, h2, h3, h4⟩ := ih s (swapL d i j) (swapL d₀ i j)
        (by rw [swapL_length, swapL_length, hd]) h
      exact ⟨a, out, n, bs, e, st, h1, h2, by rw [h3, swapL_length], fun I hp hi h0 =>
        h4 I hp hi (hp _ _ (swapL_perm hij.1 hij.2).symm h0)⟩
    · simp only [hij, if_false] at h
      obtain ⟨r, hr⟩ := h []; cases hr
  | ask k i j next ih =>
    intro s d d₀ hd h
    simp only [Ix.on_ask, range_length hd] at h ⊢
    by_cases hij : inRange d i ∧ inRange d j
    · simp only [hij, and_self, if_true, Ix.run] at h ⊢
      generalize hr : cmp s d k (el d i) (el d j) = r
      have hlen : r.2.1.length = d.length := by rw [← hr]; exact hl ..
      obtain ⟨a, out, n, bs, e, st, h1, h2, h3, h4⟩ := ih r.1 r.2.2 r.2.1 d₀ (by rw [hlen, hd]) (by
        intro bs
        obtain ⟨⟨a, st, n⟩, hr⟩ := h (r.1 :: bs)
        simp only [Prog.exec, replay, List.headD_cons, List.tail_cons] at hr
        rcases hx : ((next r.1).on E d₀).exec replay bs with e | ⟨x⟩
        · rw [hx] at hr; cases hr
        · exact ⟨_, rfl⟩)
      refine ⟨a, out, n + 1, r.1 :: bs, e, st, by rw [h1], ?_, by rw [h3, hlen], fun I hp hi h0 =>
        h4 I hp hi (by rw [← hr]; exact hi _ _ _ _ _ h0)⟩
      simp only [Prog.exec, replay, List.headD_cons, List.tail_cons]
      rw [h2]
    · simp only [hij, if_false] at h
      obtain ⟨r, hr⟩ := h []; cases hr

/-- With a comparator that looks at keys, and writes that leave the keys alone. -/
theorem Ix.run_keys (key : E → F) {cmp : σ → List E → Kind → E → E → Bool × List E × σ}
    {ans : Unit → Kind → F → F → Bool × Unit} (ha : ∀ s d k x y, (cmp s d k x y).1 = (ans () k (key x) (key y)).1)
    (hk : ∀ s d k x y, (cmp s d k x y).2.1.map key = d.map key) (q : Ix α) : ∀ (s : σ) (d : List E) (a : α)
    (out : List F) (n : Nat), (q.on F (d.map key)).exec ans () = .ok ((a, out), (), n) →
    ∃ out', q.run cmp s d = .ok (a, out', n) ∧ out'.map key = out := by
  have hr : ∀ (d : List E) i, inRange (d.map key) i ↔ inRange d i := fun d i => by unfold inRange; simp
  have he : ∀ (d : List E) i, inRange d i → el (d.map key) i = key (el d i) := by
    intro d i h
    obtain ⟨h0, h1⟩ := h
    have a : i.toNat < d.length := by omega
    simp [el, h0, a]
  induction q with
  | ret b =>
    intro s d a out n h
    cases h
    exact ⟨d, rfl, rfl⟩
  | fail msg => intro s d a out n h; cases h
  | note e p ih => exact fun s d a out n h => ih s d a out n h
  | swap i j p ih =>
    intro s d a out n h
    simp only [Ix.on_swap, hr] at h
    by_cases hij : inRange d i ∧ inRange d j
    · simp only [hij, and_self, if_true, Ix.run] at h ⊢
      refine ih s _ a out n ?_
      have : (swapL d i j).map key = swapL (d.map key) i j := by
        simp [swapL, List.map_set, he d i hij.1, he d j hij.2]
      unfold swapL at this
      rw [this]
      exact h
    · simp only [hij, if_false] at h; cases h
  | ask k i j next ih =>
    intro s d a out n h
    simp only [Ix.on_ask, hr] at h
    by_cases hij : inRange d i ∧ inRange d j
    · simp only [hij, and_self, if_true, Ix.run, Prog.exec] at h ⊢
      rw [he d i hij.1, he d j hij.2, ← ha s d k] at h
      generalize hrr : cmp s d k (el d i) (el d j) = r at h ⊢
      have hm : r.2.1.map key = d.map key := by rw [← hrr]; exact hk ..
      rcases hx : ((next r.1).on F (d.map key)).exec ans () with e | ⟨⟨b, o⟩, u, m⟩
      · rw [hx] at h; cases h
      · rw [hx] at h
        simp only [Except.ok.injEq, Prod.mk.injEq] at h
        obtain ⟨⟨rfl, rfl⟩, -, rfl⟩ := h
        obtain ⟨out', h1, h2⟩ := ih r.1 r.2.2 r.2.1 b o m (by rw [hm]; exact hx)
        exact ⟨out', by rw [h1], h2⟩
    · simp only [hij, if_false] at h; cases h

/-! ## The run is determined by the model

Sorting `0, …, n-1` in the model shows at every comparison which element has come to which place. With that a run
with writes can be followed. -/

/-- What has come from the places `p`, when they held `m`. -/
def look (p : List Nat) (m : List E) (x : Nat) : E := m.getD (p.idxOf x) default

/-- Follow a run on places. `p` and `m`: the places, and the slice, after the last comparison. -/
def follow (cmp : σ → List E → Kind → E → E → Bool × List E × σ) :
    Prog Nat (α × List Nat) → σ → List Nat → List E → Go (α × List E × Nat)
  | .ret r, _, p, m => .ok (r.1, r.2.map (look p m), 0)
  | .fail msg, _, _, _ => .error msg
  | .note _ q, s, p, m => follow cmp q s p m
  | .ask k x y e next, s, p, m =>
    let r := cmp s (e.map (look p m)) k (look p m x) (look p m y)
    match follow cmp (next r.1) r.2.2 e r.2.1 with
    | .ok (a, d', n) => .ok (a, d', n + 1)
    | .error e => .error e

theorem look_self {e : List Nat} {m : List E} (hn : e.Nodup) (hl : m.length = e.length) : e.map (look e m) = m := by
  apply List.ext_getElem (by simp [hl])
  intro i h h'
  have hi : i < e.length := by simpa using h
  simp [look, hn.idxOf_getElem i hi, h']

theorem Ix.run_follow {cmp : σ → List E → Kind → E → E → Bool × List E × σ}
    (hl : ∀ s d k x y, (cmp s d k x y).2.1.length = d.length) (q : Ix α) : ∀ (s : σ) (e p : List Nat) (m : List E),
    e.Nodup → q.run cmp s (e.map (look p m)) = follow cmp (q.on Nat e) s p m := by
  have hr : ∀ (f : Nat → E) (e : List Nat) i, inRange (e.map f) i ↔ inRange e i := fun f e i => by unfold inRange; simp
  have he : ∀ (f : Nat → E) (e : List Nat) i, inRange e i → el (e.map f) i = f (el e i) := by
    intro f e i h
    obtain ⟨h0, h1⟩ := h
    have a : i.toNat < e.length := by omega
    simp [el, h0, a]
  induction q with
  | ret a => exact fun _ _ _ _ _ => rfl
  | fail msg => exact fun _ _ _ _ _ => rfl
  | note e p ih => exact fun s e p m hn => ih s e p m hn
  | swap i j q ih =>
    intro s e p m hn
    simp only [Ix.on_swap, Ix.run, hr]
    by_cases hij : inRange e i ∧ inRange e j
    · simp only [hij, and_self, if_true, follow]
      rw [← ih s (swapL e i j) p m ((swapL_perm hij.1 hij.2).nodup_iff.2 hn)]
      simp [swapL, List.map_set, he _ e i hij.1, he _ e j hij.2]
    · simp only [hij, if_false, follow]
  | ask k i j next ih =>
    intro s e p m hn
    simp only [Ix.on_ask, Ix.run, hr]
    by_cases hij : inRange e i ∧ inRange e j
    · simp only [hij, and_self, if_true, follow, he _ e i hij.1, he _ e j hij.2]
      generalize hrr : cmp s (e.map (look p m)) k (look p m (el e i)) (look p m (el e j)) = r
      have hlen : r.2.1.length = e.length := by rw [← hrr, hl, List.length_map]
      rw [← ih r.1 r.2.2 e e r.2.1 hn, look_self hn hlen]
      rcases (next r.1).run cmp r.2.2 r.2.1 with e | ⟨a, d', n⟩ <;> rfl
    · simp only [hij, if_false, follow]

/-! ## C123 -/

/-- **C123.** What `Sort` and `Stable` do is given, for every length, by comparisons and exchanges of what is at given
places, the same for all element types and contents. -/
theorem C123_by_place : (∃ q, Describes q fun E [Inhabited E] => (sortProg : M E Unit)) ∧
    ∃ q, Describes q fun E [Inhabited E] => (stableProg : M E Unit) := by
  constructor
  · refine ⟨fun n => Classical.choose (pdqsort_byPlace (n + 1) 0 n (bitsLen n) true true), fun E _ d => ?_⟩
    exact congrFun (Classical.choose_spec (pdqsort_byPlace (d.length + 1) 0 d.length (bitsLen d.length) true true) E) d
  · refine ⟨fun n => Classical.choose (stable_byPlace n), fun E _ d => ?_⟩
    exact congrFun (Classical.choose_spec (stable_byPlace d.length) E) d

/-- **C123.** Whatever the comparator answers and writes to the slice, `Sort` (and `Stable`) returns without an access
out of range, after no more calls than C74 (C73) says. It writes nothing of its own: what is true of the contents of
the slice in any order, and is kept by the writes of the comparator, is true of the contents afterwards. -/
theorem C123_safe (q : Nat → Ix Unit) (less : σ → List E → E → E → Bool × List E × σ) (hl : KeepsLength less) (s : σ)
    (data : List E) :
    (Describes q (fun E [Inhabited E] => (sortProg : M E Unit)) →
      ∃ out n, (q data.length).run (ofWriting less) s data = .ok ((), out, n) ∧ out.length = data.length ∧
        n ≤ data.length * (7 * data.length + 4 * (Nat.log2 data.length + 1) + 18) ∧
        ∀ I : List E → Prop, (∀ l l', l.Perm l' → I l → I l') → (∀ s d x y, I d → I (less s d x y).2.1) →
          I data → I out) ∧
    (Describes q (fun E [Inhabited E] => (stableProg : M E Unit)) →
      ∃ out n, (q data.length).run (ofWriting less) s data = .ok ((), out, n) ∧ out.length = data.length ∧
        n ≤ data.length * (4 * (Nat.log2 data.length + 1) + 19) ∧
        ∀ I : List E → Prop, (∀ l l', l.Perm l' → I l → I l') → (∀ s d x y, I d → I (less s d x y).2.1) →
          I data → I out) := by
  have hl' : ∀ s d k x y, (ofWriting less s d k x y).2.1.length = d.length := by
    intro s d k x y; cases k <;> exact hl.same s d x y
  have key : ∀ (m : M E Unit), wp (fun _ _ _ _ => True) m (fun _ d' => d'.Perm data) data → ∀ B : Nat,
      cw (fun _ _ _ _ => True) m (fun _ _ n => n ≤ B) 0 data → ∀ p : Ix Unit, m data = p.on E data →
      ∃ out n, p.run (ofWriting less) s data = .ok ((), out, n) ∧ out.length = data.length ∧ n ≤ B ∧
        ∀ I : List E → Prop, (∀ l l', l.Perm l' → I l → I l') → (∀ s d x y, I d → I (less s d x y).2.1) →
          I data → I out := by
    intro m hm B hB p hp
    obtain ⟨a, out, n, bs, e, st, h1, h2, h3, h4⟩ := Ix.run_any hl' p s data data rfl (by
      intro bs
      obtain ⟨a, st, n, h, -⟩ := Prog.wp_exec (cmp := replay) (fun _ _ _ _ => trivial) hm bs
      rw [hp] at h
      exact ⟨_, h⟩)
    refine ⟨out, n, h1, h3, ?_, fun I hp hi => h4 I hp fun s d k x y h => by cases k <;> exact hi s d x y h⟩
    have : runProg m replay bs data = .ok (e, n) := by unfold runProg; rw [hp, h2]
    exact runProg_cost (B := fun _ n => n ≤ B) (fun _ _ _ _ => trivial) hB this
  constructor
  · intro hq
    obtain ⟨out, n, h1, h2, h3, h4⟩ := key sortProg (sortProg_any data) _ (sortProg_cost_any data) _ (hq E data)
    exact ⟨out, n, h1, h2, Nat.le_trans h3 (Nat.mul_le_mul_left _ (by have := bitsLen_le data.length; omega)), h4⟩
  · intro hq
    obtain ⟨out, n, h1, h2, h3, h4⟩ := key stableProg (stableProg_any data) _ (stableProg_cost data) _ (hq E data)
    exact ⟨out, n, h1, h2, Nat.le_trans h3 (Nat.mul_le_mul_left _ (by have := bitsLen_le data.length; omega)), h4⟩

/-- **C123.** If the comparator compares keys, and its writes leave the keys as they are (it caches something in the
elements, say), then the keys end up as if they had been sorted themselves. -/
theorem C123_keys (q : Nat → Ix Unit) (key : E → F) (lt : F → F → Bool) (less : σ → List E → E → E → Bool × List E × σ)
    (ha : ∀ s d x y, (less s d x y).1 = lt (key x) (key y)) (hk : ∀ s d x y, (less s d x y).2.1.map key = d.map key)
    (s : σ) (data : List E) :
    (Describes q (fun E [Inhabited E] => (sortProg : M E Unit)) →
      ∃ out n, (q data.length).run (ofWriting less) s data = .ok ((), out, n) ∧
        sort lt (data.map key) = .ok (out.map key)) ∧
    (Describes q (fun E [Inhabited E] => (stableProg : M E Unit)) →
      ∃ out n, (q data.length).run (ofWriting less) s data = .ok ((), out, n) ∧
        stableSort lt (data.map key) = .ok (out.map key)) := by
  have main : ∀ (m : M F Unit), wp (fun _ _ _ _ => True) m (fun _ d' => d'.Perm (data.map key)) (data.map key) →
      m (data.map key) = (q data.length).on F (data.map key) →
      ∃ out n, (q data.length).run (ofWriting less) s data = .ok ((), out, n) ∧
        contentsOf (runProg m (ofLess lt) () (data.map key)) = .ok (out.map key) := by
    intro m hm hq
    obtain ⟨⟨⟨⟩, e⟩, ⟨⟩, n, h, -⟩ := Prog.wp_exec (cmp := ofLess lt) (fun _ _ _ _ => trivial) hm ()
    obtain ⟨out, h1, h2⟩ := Ix.run_keys key (cmp := ofWriting less) (ans := ofLess lt)
      (by intro s d k x y; cases k <;> simp [ofWriting, ofLess, ha])
      (by intro s d k x y; cases k <;> exact hk s d x y) (q data.length) s data () e n (by rw [← hq]; exact h)
    refine ⟨out, n, h1, ?_⟩
    unfold runProg
    rw [h, h2]
    rfl
  constructor
  · intro hq
    exact main sortProg (sortProg_any _) (by have := hq F (data.map key); rwa [List.length_map] at this)
  · intro hq
    exact main stableProg (stableProg_any _) (by have := hq F (data.map key); rwa [List.length_map] at this)

/-- The run, computed in the model. -/
theorem run_eq_follow {f : (E : Type) → [Inhabited E] → M E Unit} {q : Nat → Ix Unit} (hq : Describes q f)
    {less : σ → List E → E → E → Bool × List E × σ} (hl : KeepsLength less) (s : σ) (data : List E) :
    (q data.length).run (ofWriting less) s data =
      follow (ofWriting less) (f Nat (List.range data.length)) s (List.range data.length) data := by
  have hl' : ∀ s d k x y, (ofWriting less s d k x y).2.1.length = d.length := by
    intro s d k x y; cases k <;> exact hl.same s d x y
  have hn : (List.range data.length).Nodup := List.nodup_range
  have h1 := Ix.run_follow hl' (q data.length) s _ (List.range data.length) data hn
  have h3 := hq Nat (List.range data.length)
  rw [List.length_range] at h3
  rw [look_self (m := data) hn (by simp)] at h1
  rw [h1, ← h3]

/-- **C123.** There is but one such run: programs that do the same in the model do the same with any comparator. -/
theorem C123_determined (f : (E : Type) → [Inhabited E] → M E Unit) (q q' : Nat → Ix Unit) (hq : Describes q f)
    (hq' : Describes q' f) (less : σ → List E → E → E → Bool × List E × σ) (hl : KeepsLength less) (s : σ)
    (data : List E) :
    (q data.length).run (ofWriting less) s data = (q' data.length).run (ofWriting less) s data := by
  rw [run_eq_follow hq hl, run_eq_follow hq' hl]

/-- The slice and the number of calls, of a run. -/
def ended : Go (Unit × List E × Nat) → Go (List E × Nat)
  | .ok r => .ok r.2
  | .error e => .error e

/-- **C123.** With a comparator that writes nothing it is the run of the model. -/
theorem C123_agrees (f : (E : Type) → [Inhabited E] → M E Unit) (q : Nat → Ix Unit) (hq : Describes q f)
    (less : σ → E → E → Bool × σ) (s : σ) (data : List E) :
    ended ((q data.length).run (ofWriting fun s d x y => ((less s x y).1, d, (less s x y).2)) s data) =
      runProg (f E) (ofStateful less) s data := by
  unfold runProg
  rw [hq E data]
  generalize q data.length = p
  have key : ∀ (p : Ix Unit) (s : σ) (d : List E),
      p.run (ofWriting fun s d x y => ((less s x y).1, d, (less s x y).2)) s d =
        match (p.on E d).exec (ofStateful less) s with
        | .ok (((), d'), _, n) => .ok ((), d', n)
        | .error e => .error e := by
    intro p
    induction p with
    | ret a => exact fun _ _ => rfl
    | fail msg => exact fun _ _ => rfl
    | note e p ih => exact fun s d => ih s d
    | swap i j p ih =>
      intro s d
      simp only [Ix.on_swap, Ix.run]
      by_cases hij : inRange d i ∧ inRange d j
      · simp only [hij, and_self, if_true, Prog.exec]; exact ih s _
      · simp only [hij, if_false, Prog.exec]
    | ask k i j next ih =>
      intro s d
      simp only [Ix.on_ask, Ix.run]
      by_cases hij : inRange d i ∧ inRange d j
      · simp only [hij, and_self, if_true, Prog.exec, ih]
        cases k <;>
        · simp only [ofWriting, ofStateful]
          generalize ((next _).on E d).exec _ _ = z
          rcases z with e | ⟨⟨⟨⟩, d'⟩, t, n⟩ <;> rfl
      · simp only [hij, if_false, Prog.exec]
  rw [key p s data]
  rcases (p.on E data).exec (ofStateful less) s with e | ⟨⟨⟨⟩, d'⟩, t, n⟩ <;> rfl

/-! ## What does not hold, and examples -/

/-- A comparator that answers `x < y`, and at its first call turns the slice round. -/
def turning (first : Bool) (d : List Nat) (x y : Nat) : Bool × List Nat × Bool :=
  (decide (x < y), if first then d.reverse else d, false)

theorem turning_keeps : KeepsLength turning := ⟨fun s d x y => by unfold turning; cases s <;> simp⟩

/-- **C123.** A comparator that answers by a strict weak order and only rearranges the slice: sorting the ascending
slice `1, 2, 3` leaves it out of order. -/
theorem C123_not_sorted (q : Nat → Ix Unit) (hq : Describes q fun E [Inhabited E] => (sortProg : M E Unit)) :
    (q 3).run (ofWriting turning) true [1, 2, 3] = .ok ((), [1, 3, 2], 3) := by
  have h := run_eq_follow hq turning_keeps true [1, 2, 3]
  exact h.trans (by decide +kernel)

/-- A comparator that marks all elements (second part) and compares their keys (first part). -/
def marking (_ : Unit) (d : List (Nat × Bool)) (x y : Nat × Bool) : Bool × List (Nat × Bool) × Unit :=
  (decide (x.1 < y.1), d.map fun e => (e.1, true), ())

/-- It meets the hypotheses of `C123_keys` and `C123_safe`. -/
example : (∀ s d x y, (marking s d x y).1 = decide (x.1 < y.1)) ∧
    (∀ s d x y, (marking s d x y).2.1.map Prod.fst = d.map Prod.fst) ∧ KeepsLength marking :=
  ⟨fun _ _ _ _ => rfl, fun _ d _ _ => by simp [marking, Function.comp_def], ⟨fun _ d _ _ => by simp [marking]⟩⟩

example (q : Nat → Ix Unit) (hq : Describes q fun E [Inhabited E] => (stableProg : M E Unit)) :
    (q 4).run (ofWriting marking) () [(3, false), (1, false), (4, false), (1, false)] =
      .ok ((), [(1, true), (1, true), (3, true), (4, true)], 5) := by
  have h := run_eq_follow (less := marking) hq ⟨fun _ d _ _ => by simp [marking]⟩ () [(3, false), (1, false), (4, false), (1, false)]
  exact h.trans (by decide +kernel)

end Verif.Sort
