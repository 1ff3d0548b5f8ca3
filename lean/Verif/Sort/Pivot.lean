import Verif.Sort.More

/-!
# C96: the choice of the pivot
-/

namespace Verif.Sort

variable {E : Type} [Inhabited E] {lt : E → E → Bool}
set_option linter.unusedSectionVars false

/-- `m` is a median of the elements at the positions `x`, `y`, `z`: one of the other two is not greater, the
other not less. -/
def IsMedian (lt : E → E → Bool) (d : List E) (x y z m : Int) : Prop :=
  ∃ u v, [u, m, v].Perm [x, y, z] ∧ lt (el d m) (el d u) = false ∧ lt (el d v) (el d m) = false

/-- The elements at the three positions do not descend. -/
def NonDesc (lt : E → E → Bool) (d : List E) (x y z : Int) : Prop :=
  lt (el d y) (el d x) = false ∧ lt (el d z) (el d y) = false

/-- The elements at the three positions descend strictly. -/
def Desc (lt : E → E → Bool) (d : List E) (x y z : Int) : Prop :=
  lt (el d y) (el d x) = true ∧ lt (el d z) (el d y) = true

/-- The program leaves the slice as it is, returns `r` and makes `n` comparisons. -/
def Returns {α : Type} (lt : E → E → Bool) (m : M E α) (d : List E) (r : α) (n : Nat) : Prop :=
  (m d).exec (ofLess lt) () = .ok ((r, d), (), n)

theorem exec_bind {α β : Type} (p : Prog E α) (f : α → Prog E β) {a : α} {b : β} {n n' : Nat}
    (h : p.exec (ofLess lt) () = .ok (a, (), n)) (h' : (f a).exec (ofLess lt) () = .ok (b, (), n')) :
    (p.bind f).exec (ofLess lt) () = .ok (b, (), n + n') := by
  induction p generalizing n with
  | ret x =>
    simp only [Prog.exec, Except.ok.injEq, Prod.mk.injEq] at h
    obtain ⟨rfl, -, rfl⟩ := h
    simpa [Prog.bind] using h'
  | fail msg => cases h
  | note e p ih => exact ih h
  | ask k x y d next ih =>
    simp only [Prog.exec, Prog.bind] at h ⊢
    rcases hx : (next (ofLess lt () k x y).1).exec (ofLess lt) (ofLess lt () k x y).2 with e | ⟨c, t, l⟩
    · rw [hx] at h; cases h
    · rw [hx] at h
      simp only [Except.ok.injEq, Prod.mk.injEq] at h
      obtain ⟨rfl, -, rfl⟩ := h
      have := ih _ hx
      simp only [this, Except.ok.injEq, Prod.mk.injEq, true_and]
      omega

theorem Returns.bind {α β : Type} {m : M E α} {f : α → M E β} {d : List E} {r : α} {r' : β} {n n' : Nat}
    (h : Returns lt m d r n) (h' : Returns lt (f r) d r' n') : Returns lt (m >>= f) d r' (n + n') :=
  exec_bind (m d) _ h h'

theorem Returns.pure {α : Type} {d : List E} (r : α) : Returns lt (pure r) d r 0 := rfl

theorem returns_lessAt {d : List E} {i j : Int} (hi : inRange d i) (hj : inRange d j) :
    Returns lt (lessAt i j) d (lt (el d i) (el d j)) 1 := by
  show Prog.exec _ _ (Prog.bind (get i d) _) = _
  rw [get, if_pos hi]
  show Prog.exec _ _ (Prog.bind (get j d) _) = _
  rw [get, if_pos hj]
  rfl

theorem returns_order2 {d : List E} {a b : Int} (ha : inRange d a) (hb : inRange d b) (s : Nat) :
    Returns lt (order2 a b s) d (if lt (el d b) (el d a) then (b, a, s + 1) else (a, b, s)) 1 := by
  refine (returns_lessAt hb ha).bind (n' := 0) ?_
  split <;> exact Returns.pure _

/-- What `median` does. -/
theorem returns_median (hw : StrictWeak lt) {d : List E} {x y z : Int} (hx : inRange d x) (hy : inRange d y)
    (hz : inRange d z) (s : Nat) : ∃ m s', Returns lt (median x y z s) d (m, s') 3 ∧ IsMedian lt d x y z m ∧
      s ≤ s' ∧ s' ≤ s + 3 ∧ (s' = s ↔ NonDesc lt d x y z) ∧ (s' = s + 3 ↔ Desc lt d x y z) ∧
      (s' = s ∨ s' = s + 3 → m = y) := by
  have go : ∀ {p q r : Int × Int × Nat}, Returns lt (order2 x y s) d p 1 → Returns lt (order2 p.2.1 z p.2.2) d q 1 →
      Returns lt (order2 p.1 q.1 q.2.2) d r 1 → Returns lt (median x y z s) d (r.2.1, r.2.2) 3 := by
    intro p q r h1 h2 h3
    exact h1.bind (n' := 2) (h2.bind (n' := 1) (h3.bind (n' := 0) (Returns.pure _)))
  have asym : ∀ u v : E, lt u v = true → lt v u = false := fun u v h => hw.le_of_lt h
  have hirr := hw.irrefl
  have h1 := returns_order2 (lt := lt) hx hy s
  by_cases c1 : lt (el d y) (el d x) = true
  · rw [if_pos c1] at h1
    have h2 := returns_order2 (lt := lt) hx hz (s + 1)
    by_cases c2 : lt (el d z) (el d x) = true
    · rw [if_pos c2] at h2
      have h3 := returns_order2 (lt := lt) hy hz (s + 2)
      by_cases c3 : lt (el d z) (el d y) = true
      · rw [if_pos c3] at h3
        refine ⟨y, s + 3, go h1 h2 h3, ⟨z, x, ?_, asym _ _ c3, asym _ _ c1⟩, by omega, by omega, ?_, ?_, fun _ => rfl⟩
        · exact (List.Perm.swap' _ _ (List.Perm.refl _)).trans (by
            refine List.perm_iff_count.2 fun a => ?_
            simp only [List.count_cons, List.count_nil]; omega)
        · unfold NonDesc; simp [c1]
        · unfold Desc; simp [c1, c3]
      · rw [if_neg c3] at h3
        rw [Bool.not_eq_true] at c3
        refine ⟨z, s + 2, go h1 h2 h3, ⟨y, x, ?_, c3, asym _ _ c2⟩, by omega, by omega, ?_, ?_, by omega⟩
        · refine List.perm_iff_count.2 fun a => ?_
          simp only [List.count_cons, List.count_nil]; omega
        · unfold NonDesc; simp [c1]
        · unfold Desc; simp [c3]
    · rw [if_neg c2] at h2
      have h3 := returns_order2 (lt := lt) hy hx (s + 1)
      rw [Bool.not_eq_true] at c2
      rw [if_neg (by rw [asym _ _ c1]; simp)] at h3
      refine ⟨x, s + 1, go h1 h2 h3, ⟨y, z, ?_, asym _ _ c1, c2⟩, by omega, by omega, ?_, ?_, by omega⟩
      · refine List.perm_iff_count.2 fun a => ?_
        simp only [List.count_cons, List.count_nil]; omega
      · unfold NonDesc; simp [c1]
      · unfold Desc
        have : ¬ lt (el d z) (el d y) = true := fun h => by
          rw [hw.trans _ _ _ h c1] at c2; cases c2
        simp [this]
  · rw [if_neg c1] at h1
    rw [Bool.not_eq_true] at c1
    have h2 := returns_order2 (lt := lt) hy hz s
    by_cases c2 : lt (el d z) (el d y) = true
    · rw [if_pos c2] at h2
      have h3 := returns_order2 (lt := lt) hx hz (s + 1)
      by_cases c3 : lt (el d z) (el d x) = true
      · rw [if_pos c3] at h3
        refine ⟨x, s + 2, go h1 h2 h3, ⟨z, y, ?_, asym _ _ c3, c1⟩, by omega, by omega, ?_, ?_, by omega⟩
        · refine List.perm_iff_count.2 fun a => ?_
          simp only [List.count_cons, List.count_nil]; omega
        · unfold NonDesc; simp [c2]
        · unfold Desc; simp [c1]
      · rw [if_neg c3] at h3
        rw [Bool.not_eq_true] at c3
        refine ⟨z, s + 1, go h1 h2 h3, ⟨x, y, ?_, c3, asym _ _ c2⟩, by omega, by omega, ?_, ?_, by omega⟩
        · refine List.perm_iff_count.2 fun a => ?_
          simp only [List.count_cons, List.count_nil]; omega
        · unfold NonDesc; simp [c2]
        · unfold Desc; simp [c1]
    · rw [if_neg c2] at h2
      rw [Bool.not_eq_true] at c2
      have h3 := returns_order2 (lt := lt) hx hy s
      rw [if_neg (by rw [c1]; simp)] at h3
      refine ⟨y, s, go h1 h2 h3, ⟨x, z, List.Perm.refl _, c1, c2⟩, by omega, by omega, ?_, ?_, fun _ => rfl⟩
      · unfold NonDesc; simp [c1, c2]
      · unfold Desc; simp [c1]

theorem IsMedian.mem {d : List E} {x y z m : Int} (h : IsMedian lt d x y z m) : m = x ∨ m = y ∨ m = z := by
  obtain ⟨u, v, hp, -⟩ := h
  have := hp.mem_iff (a := m)
  simpa using this

/-- **C96.** `choosePivot` on a range of `l` elements, for a strict weak order: the slice is not changed; with
`i`, `j`, `k` the positions `⌊l/4⌋`, `2⌊l/4⌋`, `3⌊l/4⌋` of the range, the pivot is `j` for `l < 8` (no
comparisons), a median of those three for `l < 50` (3 comparisons), and from 50 a median of the medians of each
with its two neighbours (12 comparisons). The hint is "increasing" just if none of the triples looked at
descends anywhere, and "decreasing" just if there are four triples and all descend strictly. -/
theorem C96_choosePivot (less : E → E → Bool) (hw : StrictWeak less) (d : List E) (a b : Int) (h0 : 0 ≤ a)
    (hab : a < b) (hb : b ≤ d.length) :
    ∃ p hint n, Returns less (choosePivot a b) d (p, hint) n ∧ a ≤ p ∧ p < b ∧
      ∀ q i j k : Int, 4 * q ≤ b - a → b - a < 4 * q + 4 → i = a + q → j = a + 2 * q → k = a + 3 * q →
        (b - a < 8 → p = j ∧ n = 0) ∧
        (8 ≤ b - a → b - a < 50 → IsMedian less d i j k p ∧ n = 3) ∧
        (50 ≤ b - a → n = 12 ∧ ∃ i' j' k', IsMedian less d (i - 1) i (i + 1) i' ∧
          IsMedian less d (j - 1) j (j + 1) j' ∧ IsMedian less d (k - 1) k (k + 1) k' ∧ IsMedian less d i' j' k' p) ∧
        (hint = .increasing ↔ (8 ≤ b - a → NonDesc less d i j k) ∧ (50 ≤ b - a →
          NonDesc less d (i - 1) i (i + 1) ∧ NonDesc less d (j - 1) j (j + 1) ∧ NonDesc less d (k - 1) k (k + 1))) ∧
        (hint = .decreasing ↔ 50 ≤ b - a ∧ Desc less d i j k ∧
          Desc less d (i - 1) i (i + 1) ∧ Desc less d (j - 1) j (j + 1) ∧ Desc less d (k - 1) k (k + 1)) ∧
        (hint ≠ .unknown → p = j) := by
  have hq : ∀ q : Int, 4 * q ≤ b - a → b - a < 4 * q + 4 → q = (b - a) / 4 := by intro q _ _; omega
  obtain ⟨q, hq0, hq1⟩ : ∃ q : Int, 4 * q ≤ b - a ∧ b - a < 4 * q + 4 := ⟨(b - a) / 4, by omega, by omega⟩
  have e := hq q hq0 hq1
  have inR : ∀ x, a ≤ x → x < b → inRange d x := fun x h1 h2 => ⟨by omega, by omega⟩
  -- reduce to `pivotOf`
  suffices H : ∃ p s n, Returns less (pivotOf (b - a) (a + q) (a + 2 * q) (a + 3 * q)) d (p, s) n ∧ a ≤ p ∧ p < b ∧
      (b - a < 8 → p = a + 2 * q ∧ n = 0) ∧
      (8 ≤ b - a → b - a < 50 → IsMedian less d (a + q) (a + 2 * q) (a + 3 * q) p ∧ n = 3) ∧
      (50 ≤ b - a → n = 12 ∧ ∃ i' j' k', IsMedian less d (a + q - 1) (a + q) (a + q + 1) i' ∧
        IsMedian less d (a + 2 * q - 1) (a + 2 * q) (a + 2 * q + 1) j' ∧
        IsMedian less d (a + 3 * q - 1) (a + 3 * q) (a + 3 * q + 1) k' ∧ IsMedian less d i' j' k' p) ∧
      (s = 0 ↔ (8 ≤ b - a → NonDesc less d (a + q) (a + 2 * q) (a + 3 * q)) ∧ (50 ≤ b - a →
        NonDesc less d (a + q - 1) (a + q) (a + q + 1) ∧ NonDesc less d (a + 2 * q - 1) (a + 2 * q) (a + 2 * q + 1) ∧
        NonDesc less d (a + 3 * q - 1) (a + 3 * q) (a + 3 * q + 1))) ∧
      (s = 12 ↔ 50 ≤ b - a ∧ Desc less d (a + q) (a + 2 * q) (a + 3 * q) ∧
        Desc less d (a + q - 1) (a + q) (a + q + 1) ∧ Desc less d (a + 2 * q - 1) (a + 2 * q) (a + 2 * q + 1) ∧
        Desc less d (a + 3 * q - 1) (a + 3 * q) (a + 3 * q + 1)) ∧
      (s = 0 ∨ s = 12 → p = a + 2 * q) by
    obtain ⟨p, s, n, h1, h2, h3, h4, h5, h6, h7, h8, h9⟩ := H
    refine ⟨p, if s = 0 then .increasing else if s = 12 then .decreasing else .unknown, n, ?_, h2, h3, ?_⟩
    · have : choosePivot a b = (pivotOf (b - a) (a + q) (a + 2 * q) (a + 3 * q) : M E _) >>= fun p =>
          pure (p.1, if p.2 = 0 then .increasing else if p.2 = 12 then .decreasing else .unknown) := by
        unfold choosePivot
        dsimp only
        rw [show a + (b - a) / 4 * 1 = a + q by omega, show a + (b - a) / 4 * 2 = a + 2 * q by omega,
          show a + (b - a) / 4 * 3 = a + 3 * q by omega]
      rw [this]
      exact h1.bind (n' := 0) (Returns.pure _)
    · intro q' i j k g1 g2 g3 g4 g5
      obtain rfl : q' = q := by omega
      subst g3 g4 g5
      refine ⟨h4, h5, h6, ?_, ?_, ?_⟩
      · rw [← h7]
        by_cases c : s = 0
        · simp [c]
        · by_cases c' : s = 12 <;> simp [c, c']
      · rw [← h8]
        by_cases c : s = 0
        · simp [c]
        · by_cases c' : s = 12 <;> simp [c, c']
      · intro hh
        apply h9
        by_cases c : s = 0
        · exact Or.inl c
        · by_cases c' : s = 12
          · exact Or.inr c'
          · simp [c, c'] at hh
  by_cases l8 : 8 ≤ b - a
  · by_cases l50 : 50 ≤ b - a
    · obtain ⟨i', s1, m1, n1, u1, v1, w1, x1, y1⟩ := returns_median hw (inR (a + q - 1) (by omega) (by omega))
        (inR (a + q) (by omega) (by omega)) (inR (a + q + 1) (by omega) (by omega)) 0
      obtain ⟨j', s2, m2, n2, u2, v2, w2, x2, y2⟩ := returns_median hw (inR (a + 2 * q - 1) (by omega) (by omega))
        (inR (a + 2 * q) (by omega) (by omega)) (inR (a + 2 * q + 1) (by omega) (by omega)) s1
      obtain ⟨k', s3, m3, n3, u3, v3, w3, x3, y3⟩ := returns_median hw (inR (a + 3 * q - 1) (by omega) (by omega))
        (inR (a + 3 * q) (by omega) (by omega)) (inR (a + 3 * q + 1) (by omega) (by omega)) s2
      have e1 := n1.mem
      have e2 := n2.mem
      have e3 := n3.mem
      obtain ⟨p, s4, m4, n4, u4, v4, w4, x4, y4⟩ := returns_median hw (inR i' (by omega) (by omega))
        (inR j' (by omega) (by omega)) (inR k' (by omega) (by omega)) s3
      have e4 := n4.mem
      refine ⟨p, s4, 12, ?_, by omega, by omega, by omega, by omega,
        fun _ => ⟨rfl, i', j', k', n1, n2, n3, n4⟩, ?_, ?_, ?_⟩
      · unfold pivotOf ninther medianAdjacent
        rw [if_pos (by omega), if_pos (by omega)]
        exact Returns.bind (n := 9) (n' := 3) (m1.bind (n' := 6) (m2.bind (n' := 3) (m3.bind (n' := 0) (Returns.pure _)))) m4
      · constructor
        · intro h
          obtain rfl := y1 (by omega)
          obtain rfl := y2 (by omega)
          obtain rfl := y3 (by omega)
          exact ⟨fun _ => w4.1 (by omega), fun _ => ⟨w1.1 (by omega), w2.1 (by omega), w3.1 (by omega)⟩⟩
        · rintro ⟨g1, g2⟩
          obtain ⟨g2, g3, g4⟩ := g2 l50
          have z1 := w1.2 g2
          have z2 := w2.2 g3
          have z3 := w3.2 g4
          obtain rfl := y1 (by omega)
          obtain rfl := y2 (by omega)
          obtain rfl := y3 (by omega)
          have z4 := w4.2 (g1 l8)
          omega
      · constructor
        · intro h
          obtain rfl := y1 (by omega)
          obtain rfl := y2 (by omega)
          obtain rfl := y3 (by omega)
          exact ⟨l50, x4.1 (by omega), x1.1 (by omega), x2.1 (by omega), x3.1 (by omega)⟩
        · rintro ⟨-, g1, g2, g3, g4⟩
          have z1 := x1.2 g2
          have z2 := x2.2 g3
          have z3 := x3.2 g4
          obtain rfl := y1 (by omega)
          obtain rfl := y2 (by omega)
          obtain rfl := y3 (by omega)
          have z4 := x4.2 g1
          omega
      · intro h
        obtain rfl := y2 (by omega)
        exact y4 (by omega)
    · obtain ⟨p, s, m, n, u, v, w, x, y⟩ := returns_median hw (inR (a + q) (by omega) (by omega))
        (inR (a + 2 * q) (by omega) (by omega)) (inR (a + 3 * q) (by omega) (by omega)) 0
      have e1 := n.mem
      refine ⟨p, s, 3, ?_, by omega, by omega, by omega, fun _ _ => ⟨n, rfl⟩, by omega, ?_, ?_, ?_⟩
      · unfold pivotOf ninther
        rw [if_pos (by omega), if_neg (by omega)]
        exact Returns.bind (n := 0) (n' := 3) (Returns.pure _) m
      · constructor
        · intro h
          exact ⟨fun _ => w.1 h, fun h => absurd h l50⟩
        · exact fun h => w.2 (h.1 l8)
      · exact ⟨fun h => by omega, fun h => absurd h.1 l50⟩
      · intro h; exact y (by omega)
  · refine ⟨a + 2 * q, 0, 0, ?_, by omega, by omega, fun _ => ⟨rfl, rfl⟩, by omega, by omega, ?_, ?_, fun _ => rfl⟩
    · unfold pivotOf
      rw [if_neg (by omega)]
      exact Returns.pure _
    · exact ⟨fun _ => ⟨fun h => absurd h l8, fun h => by omega⟩, fun _ => rfl⟩
    · exact ⟨fun h => by omega, fun h => by omega⟩

/-- A strict weak order and a range of eight: the median of the elements 9, 2 and 5 at positions 2, 4 and 6. -/
example : ∃ hint, Returns (fun a b : Nat => decide (a < b)) (choosePivot 0 8) [0, 0, 9, 0, 2, 0, 5, 0] (6, hint) 3 :=
  ⟨.unknown, by unfold Returns; decide +kernel⟩

/-- Fifty ascending and fifty descending elements. -/
example : Returns (fun a b : Nat => decide (a < b)) (choosePivot 0 50) (List.range 50) (24, .increasing) 12 ∧
    Returns (fun a b : Nat => decide (a < b)) (choosePivot 0 50) (List.range 50).reverse (24, .decreasing) 12 := by
  unfold Returns; decide +kernel

end Verif.Sort
