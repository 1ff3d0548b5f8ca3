import Verif.Conformance.Ring
import Verif.Ring.Props

/-!
# C147: `TestRing_Large` for every `n`

The test appends and prepends `n` times, takes away more than half, puts `n` on each side again and empties the ring. Its
assertions on the contents hold for every `n` but 0 and 1; its last assertion, on the capacity, does not.
-/

namespace Verif.Conformance.RingLarge

open Verif.Ring Verif.Conformance Verif.Conformance.Ring

/-- The capacity of a ring that had capacity `c` and has been filled up to `m` elements: as long as there is no room, 0
becomes 4, what is below 1024 doubles, and the rest grows by a quarter. -/
def roomFor (m c : Nat) : Nat :=
  if h : m ≤ c then c else roomFor m (if c = 0 then 4 else if c < 1024 then c * 2 else c + c / 4)
termination_by m - c
decreasing_by split <;> (try split) <;> omega

/-- The capacity of a ring that had capacity `c` and has been emptied: an eighth as long as it is above 1024. -/
def emptied (c : Nat) : Nat := if h : c ≤ 1024 then c else emptied (c / 8)
termination_by c
decreasing_by omega

/-- The most elements that the test has in the ring. -/
def most (n : Nat) : Nat := 2 * n + 2 * (n / 2) - 2

theorem roomFor_eq (m c : Nat) : roomFor m c = if m ≤ c then c else roomFor m (grown c) := by
  rw [roomFor]
  have : (if c = 0 then 4 else if c < 1024 then c * 2 else c + c / 4) = grown c := by
    unfold grown; split
    · rfl
    · split
      · rfl
      · omega
  split
  · rfl
  · rw [this]

theorem roomFor_ge (m c : Nat) : m ≤ roomFor m c := by
  fun_induction roomFor m c with
  | case1 c h => exact h
  | case2 c h ih => exact ih

theorem le_roomFor (m c : Nat) : c ≤ roomFor m c := by
  rw [roomFor_eq]; split
  · exact Nat.le_refl _
  · have := roomFor_ge m (grown c); omega

/-- One more element. -/
theorem roomFor_succ (m c : Nat) : roomFor (m + 1) c = if m = roomFor m c then grown (roomFor m c) else roomFor m c := by
  fun_induction roomFor m c with
  | case1 c h =>
    rw [roomFor_eq]
    by_cases hm : m = c
    · subst hm
      rw [if_neg (by omega), if_pos rfl, roomFor_eq, if_pos (show m + 1 ≤ grown m from grown_gt m)]
    · rw [if_pos (by omega), if_neg hm]
  | case2 c h ih =>
    have e : (if c = 0 then 4 else if c < 1024 then c * 2 else c + c / 4) = grown c := by
      unfold grown; split
      · rfl
      · split
        · rfl
        · omega
    simp only [dite_eq_ite, e] at ih ⊢
    rw [← ih, roomFor_eq, if_neg (by omega)]

theorem roomFor_self {m c : Nat} (h : m ≤ c) : roomFor m c = c := by rw [roomFor_eq, if_pos h]

theorem roomFor_roomFor {m m' : Nat} (c : Nat) (h : m ≤ m') : roomFor m' (roomFor m c) = roomFor m' c := by
  induction h with
  | refl => exact roomFor_self (roomFor_ge _ _)
  | @step k hk ih => rw [roomFor_succ, ih, roomFor_succ (c := c)]

theorem roomFor_le (m : Nat) : roomFor m 0 ≤ if m = 0 then 0 else max 4 (2 * m) := by
  induction m with
  | zero => rw [roomFor_self (Nat.le_refl _)]; exact Nat.le_refl _
  | succ m ih =>
    rw [roomFor_succ]
    have h := roomFor_ge m 0
    split
    · rename_i e
      rw [← e]
      unfold grown
      split
      · rw [if_neg (by omega)]; omega
      · split
        · rw [if_neg (by omega)]; omega
        · rw [if_neg (by omega)]; omega
    · split at ih
      · omega
      · rw [if_neg (by omega)]; omega

theorem emptied_eq {c : Nat} (h : 1024 < c) : emptied c = emptied (c / 8) := by
  rw [emptied, dif_neg (by omega)]

theorem emptied_self {c : Nat} (h : c ≤ 1024) : emptied c = c := by rw [emptied, dif_pos h]

/-- `-k`, …, `-1` before and `1`, …, `k` after what there was. -/
def around : Nat → List Int → List Int
  | 0, l => l
  | k + 1, l => -((k : Int) + 1) :: (around k l ++ [(k : Int) + 1])

theorem around_length (k : Nat) (l : List Int) : (around k l).length = 2 * k + l.length := by
  induction k with
  | zero => simp [around]
  | succ k ih => simp [around, ih]; omega

/-- The ring holds `l` and has capacity `c`. -/
structure Holds (r : Ring Int) (l : List Int) (c : Nat) : Prop where
  wf : WF r
  contents : contents r = l
  cap : Cap r = c
  ok : CapOk r

theorem Holds.len {r : Ring Int} {l : List Int} {c : Nat} (h : Holds r l c) : Len r = l.length := by
  have := contents_length h.wf
  rw [h.contents] at this
  exact this.symm

/-- One step of the deque keeps the bounds on the capacity. -/
theorem capOk_of {r r' : Ring Int} (hw : WF r) (h : CapOk r) (o : Op Int) (e : (step r o).1 = r') : CapOk r' :=
  e ▸ step_capOk hw h o

theorem Holds.append {r : Ring Int} {l : List Int} {c : Nat} (h : Holds r l c) (v : Int) :
    ∃ r', app v r = (.ok (), r') ∧ Holds r' (l ++ [v]) (if l.length = c then grown c else c) := by
  obtain ⟨r', e, w, k⟩ := append_eq h.wf v
  have hc := append_cap h.wf e
  refine ⟨r', by simp [app, do_, e], w, by rw [k, h.contents], ?_, capOk_of h.wf h.ok (.append v) (by simp [step, e])⟩
  rw [hc.1, h.len, h.cap]

theorem Holds.prepend {r : Ring Int} {l : List Int} {c : Nat} (h : Holds r l c) (v : Int) :
    ∃ r', pre v r = (.ok (), r') ∧ Holds r' (v :: l) (if l.length = c then grown c else c) := by
  obtain ⟨r', e, w, k⟩ := prepend_eq h.wf v
  have hc := prepend_cap h.wf e
  refine ⟨r', by simp [pre, do_, e], w, by rw [k, h.contents], ?_, capOk_of h.wf h.ok (.prepend v) (by simp [step, e])⟩
  rw [hc.1, h.len, h.cap]

/-- What a deletion makes of the capacity. -/
def less (c len : Nat) : Nat := if c > 1024 ∧ c / 8 > len then c / 8 else c

theorem emptied_less (c len : Nat) : emptied (less c len) = emptied c := by
  unfold less; split
  · rename_i h; exact (emptied_eq h.1).symm
  · rfl

theorem Holds.deleteFirst {r : Ring Int} {v : Int} {l : List Int} {c : Nat} (h : Holds r (v :: l) c) :
    ∃ r', do_ deleteFirst r = (.ok (), r') ∧ Holds r' l (less c (l.length + 1)) := by
  obtain ⟨r', e, w, k⟩ := deleteFirst_eq h.wf h.contents
  have hc := deleteFirst_cap h.wf e
  refine ⟨r', by simp [do_, e], w, k, ?_, capOk_of h.wf h.ok .deleteFirst (by simp [step, e])⟩
  rw [hc.1, h.len, h.cap]
  rfl

theorem Holds.deleteLast {r : Ring Int} {v : Int} {l : List Int} {c : Nat} (h : Holds r (l ++ [v]) c) :
    ∃ r', do_ deleteLast r = (.ok (), r') ∧ Holds r' l (less c (l.length + 1)) := by
  obtain ⟨r', e, w, k⟩ := deleteLast_eq h.wf (by rw [h.contents]; simp)
  have hc := deleteLast_cap h.wf e
  refine ⟨r', by simp [do_, e], w, by rw [k, h.contents]; simp, ?_, capOk_of h.wf h.ok .deleteLast (by simp [step, e])⟩
  rw [hc.1, h.len, h.cap]
  simp [less]

theorem same_self (x : Int) (r : Ring Int) : same x x r = (.ok (), r) := by simp [same, check, pure]

/-- Both ends are as the test expects, and are taken away. -/
theorem Holds.both {r : Ring Int} {k : Nat} {l : List Int} {c : Nat} (h : Holds r (around (k + 1) l) c) :
    ∃ r', Ring.both ((k : Int) + 1) r = (.ok (), r') ∧
      Holds r' (around k l) (less (less c (2 * (k + 1) + l.length)) (2 * k + 1 + l.length)) := by
  have h1 : first r = .ok (-((k : Int) + 1)) := first_eq h.wf h.contents
  have h2 : last r = .ok ((k : Int) + 1) := last_eq h.wf (by rw [h.contents, around]; simp [List.getLast?_cons])
  obtain ⟨r1, e1, g1⟩ := h.deleteFirst
  obtain ⟨r2, e2, g2⟩ := g1.deleteLast
  refine ⟨r2, ?_, ?_⟩
  · simp only [Ring.both, ask, Bind.bind, h1, h2, same_self, e1, e2]
  · have a := around_length k l
    simp only [List.length_append, List.length_singleton, a] at g2
    have x1 : 2 * k + l.length + 1 + 1 = 2 * (k + 1) + l.length := by omega
    have x2 : 2 * k + l.length + 1 = 2 * k + 1 + l.length := by omega
    rw [x1, x2] at g2
    exact g2

theorem Holds.pair {r : Ring Int} {k : Nat} {l : List Int} {c : Nat}
    (h : Holds r (around k l) (roomFor (2 * k + l.length) c)) :
    ∃ r', (app ((k : Int) + 1) >>= fun _ => pre (-((k : Int) + 1))) r = (.ok (), r') ∧
      Holds r' (around (k + 1) l) (roomFor (2 * (k + 1) + l.length) c) := by
  obtain ⟨r1, e1, g1⟩ := h.append ((k : Int) + 1)
  obtain ⟨r2, e2, g2⟩ := g1.prepend (-((k : Int) + 1))
  refine ⟨r2, by simp only [Bind.bind, e1, e2], ?_⟩
  rw [around_length, ← roomFor_succ, List.length_append, around_length, List.length_singleton, ← roomFor_succ] at g2
  have x : 2 * k + l.length + 1 + 1 = 2 * (k + 1) + l.length := by omega
  rw [x] at g2
  exact g2

/-- The first loop of the test. -/
def filling (i : Int) : St (Ring Int) Unit := do
  app i
  pre (-i)
  same (-i) (← ask (at_ · 0))
  same i (← ask fun r => at_ r (Len r - 1))

/-- The third loop. -/
def refilling (i : Int) : St (Ring Int) Unit := do
  app i
  pre (-i)

theorem Holds.filling {r : Ring Int} {k : Nat} {l : List Int} {c : Nat}
    (h : Holds r (around k l) (roomFor (2 * k + l.length) c)) :
    ∃ r', RingLarge.filling ((k : Int) + 1) r = (.ok (), r') ∧
      Holds r' (around (k + 1) l) (roomFor (2 * (k + 1) + l.length) c) := by
  obtain ⟨r1, e1, g1⟩ := h.append ((k : Int) + 1)
  obtain ⟨r2, e2, g2⟩ := g1.prepend (-((k : Int) + 1))
  rw [around_length, ← roomFor_succ, List.length_append, around_length, List.length_singleton, ← roomFor_succ] at g2
  have x : 2 * k + l.length + 1 + 1 = 2 * (k + 1) + l.length := by omega
  rw [x] at g2
  have hl := g2.len
  have hcl := contents_length g2.wf
  rw [g2.contents] at hcl
  have hlen : r2.len = 2 * k + l.length + 2 := by rw [← hcl]; simp [around_length]
  obtain ⟨a, ea, ha⟩ := at_eq g2.wf (i := 0) (by omega) (by omega)
  obtain ⟨b, eb, hb⟩ := at_eq g2.wf (i := (Len r2 : Int) - 1) (by simp only [Len]; omega) (by simp only [Len]; omega)
  have ea' : a = -((k : Int) + 1) := by rw [g2.contents] at ha; simpa using ha.symm
  have eb' : b = (k : Int) + 1 := by
    rw [g2.contents] at hb
    have y : ((Len r2 : Int) - 1).toNat = (around k l).length + 1 := by simp only [Len, hlen, around_length]; omega
    rw [y] at hb
    simpa using hb.symm
  subst ea' eb'
  refine ⟨r2, ?_, g2⟩
  simp only [RingLarge.filling, ask, Bind.bind, e1, e2, ea, eb, same_self]

theorem up_succ (a : Int) (n : Nat) (f : Int → St (Ring Int) Unit) {r r' : Ring Int} (h : f a r = (.ok (), r')) :
    up a (n + 1) f r = up (a + 1) n f r' := by simp only [up, Bind.bind, h]

theorem down_succ (a : Int) (n : Nat) (f : Int → St (Ring Int) Unit) {r r' : Ring Int} (h : f a r = (.ok (), r')) :
    down a (n + 1) f r = down (a - 1) n f r' := by simp only [down, Bind.bind, h]

theorem fill_loop {f : Int → St (Ring Int) Unit} {l : List Int} {c : Nat}
    (hf : ∀ (k : Nat) (r : Ring Int), Holds r (around k l) (roomFor (2 * k + l.length) c) →
      ∃ r', f ((k : Int) + 1) r = (.ok (), r') ∧ Holds r' (around (k + 1) l) (roomFor (2 * (k + 1) + l.length) c))
    (n : Nat) : ∀ (k : Nat) (r : Ring Int), Holds r (around k l) (roomFor (2 * k + l.length) c) →
      ∃ r', up ((k : Int) + 1) n f r = (.ok (), r') ∧ Holds r' (around (k + n) l) (roomFor (2 * (k + n) + l.length) c) := by
  induction n with
  | zero => intro k r h; exact ⟨r, rfl, h⟩
  | succ n ih =>
    intro k r h
    obtain ⟨r1, e1, h1⟩ := hf k r h
    rw [up_succ _ _ _ e1]
    obtain ⟨r2, e2, h2⟩ := ih (k + 1) r1 h1
    refine ⟨r2, by push_cast at e2; exact e2, ?_⟩
    have x : k + 1 + n = k + (n + 1) := by omega
    rw [x] at h2
    exact h2

/-- Taking away while the ring is not much too large. -/
theorem keep_loop {l : List Int} {c : Nat} (n : Nat) : ∀ (k : Nat) (r : Ring Int), Holds r (around (k + n) l) c →
    c / 8 ≤ 2 * k + 1 + l.length →
    ∃ r', down ((k + n : Nat) : Int) n Ring.both r = (.ok (), r') ∧ Holds r' (around k l) c := by
  induction n with
  | zero => intro k r h _; exact ⟨r, rfl, h⟩
  | succ n ih =>
    intro k r h hc
    obtain ⟨r1, e1, h1⟩ := Holds.both (k := k + n) h
    have z : less (less c (2 * (k + n + 1) + l.length)) (2 * (k + n) + 1 + l.length) = c := by
      have : less c (2 * (k + n + 1) + l.length) = c := by unfold less; rw [if_neg (by omega)]
      rw [this]; unfold less; rw [if_neg (by omega)]
    rw [z] at h1
    obtain ⟨r2, e2, h2⟩ := ih k r1 h1 hc
    refine ⟨r2, ?_, h2⟩
    have q : ((k + (n + 1) : Nat) : Int) = ((k + n : Nat) : Int) + 1 := by omega
    rw [q, down_succ _ _ _ e1, ← e2]
    congr 1
    omega

/-- Taking away in general. -/
theorem empty_loop {l : List Int} {c : Nat} (n : Nat) : ∀ (r : Ring Int) (c' : Nat), Holds r (around n l) c' →
    emptied c' = emptied c →
    ∃ r' c'', down (n : Int) n Ring.both r = (.ok (), r') ∧ Holds r' l c'' ∧ emptied c'' = emptied c := by
  induction n with
  | zero => intro r c' h hc; exact ⟨r, c', rfl, h, hc⟩
  | succ n ih =>
    intro r c' h hc
    obtain ⟨r1, e1, h1⟩ := Holds.both (k := n) h
    obtain ⟨r2, c'', e2, h2, h3⟩ := ih r1 _ h1 (by rw [emptied_less, emptied_less, hc])
    refine ⟨r2, c'', ?_, h2, h3⟩
    have q : ((n + 1 : Nat) : Int) = (n : Int) + 1 := by omega
    rw [q, down_succ _ _ _ e1, ← e2]
    congr 1
    omega

/-! ## The test -/

theorem seq_ok {α β : Type} {m : St (Ring Int) α} {f : α → St (Ring Int) β} {r r' : Ring Int} {a : α} (h : m r = (.ok a, r')) :
    (m >>= f) r = f a r' := by simp only [Bind.bind, h]

theorem seq_error {α β : Type} {m : St (Ring Int) α} {f : α → St (Ring Int) β} {r r' : Ring Int} {e : String}
    (h : m r = (.error e, r')) : (m >>= f) r = (.error e, r') := by simp only [Bind.bind, h]

theorem check_iff (b : Bool) (r : Ring Int) : passes r (check b) = b := by
  cases b <;> rfl

/-- The run of the test up to its last assertion. -/
theorem runs (n : Nat) (hn : 2 ≤ n) : ∃ r', (Cap r' = emptied (roomFor (most n) 0) ∧ Len r' = 0) ∧
    testLarge n new = (check (decide (emptied (roomFor (most n) 0) < 1024))) r' := by
  have h0 : Holds new (around 0 []) (roomFor (2 * 0 + ([] : List Int).length) 0) :=
    ⟨(made_wf Made.new).1, (made_wf Made.new).2, by rw [roomFor_self (by simp)]; rfl, made_capOk Made.new⟩
  obtain ⟨r1, e1, h1⟩ := fill_loop (f := filling) (fun k r h => h.filling) n 0 new h0
  simp only [Nat.zero_add, List.length_nil, Nat.add_zero] at h1
  have e1' : up 1 n filling new = (.ok (), r1) := by simpa using e1
  have hcap1 : 2 * n ≤ Cap r1 := by rw [h1.cap]; exact roomFor_ge _ _
  have hle : roomFor (2 * n) 0 ≤ 4 * n := by have := roomFor_le (2 * n); rw [if_neg (by omega)] at this; omega
  obtain ⟨r2, e2, h2⟩ := keep_loop (l := []) (n - n / 2 + 1) (n / 2 - 1) r1
    (by rw [show n / 2 - 1 + (n - n / 2 + 1) = n by omega]; exact h1) (by simp only [List.length_nil]; omega)
  rw [show n / 2 - 1 + (n - n / 2 + 1) = n by omega] at e2
  generalize hb : around (n / 2 - 1) [] = base at h2
  have hbl : base.length = 2 * (n / 2 - 1) := by rw [← hb, around_length]; simp
  obtain ⟨r3, e3, h3⟩ := fill_loop (f := refilling) (l := base) (c := roomFor (2 * n) 0) (fun k r h => h.pair) n 0 r2
    (by rw [roomFor_self (by have := roomFor_ge (2 * n) 0; omega)]; exact h2)
  simp only [Nat.zero_add] at h3
  have e3' : up 1 n refilling r2 = (.ok (), r3) := by simpa using e3
  have hm : 2 * n + base.length = most n := by unfold most; omega
  rw [hm, roomFor_roomFor 0 (by unfold most; omega)] at h3
  obtain ⟨r4, c4, e4, h4, k4⟩ := empty_loop (c := roomFor (most n) 0) n r3 _ h3 rfl
  rw [← hb] at h4
  obtain ⟨r5, c5, e5, h5, k5⟩ := empty_loop (c := roomFor (most n) 0) (n / 2 - 1) r4 _ h4 k4
  have hs : slice r5 = (.ok none, r5) := by simp [slice, ask, toSlice_none_eq h5.wf, h5.contents, Except.map]
  have hc5 : Cap r5 = emptied (roomFor (most n) 0) := by
    have hlen := h5.len
    simp at hlen
    have hok := h5.ok
    unfold CapOk at hok
    rw [← k5, ← h5.cap]
    exact (emptied_self (by omega)).symm
  refine ⟨r5, ⟨hc5, by have := h5.len; simpa using this⟩, ?_⟩
  unfold testLarge
  rw [seq_ok (show up 1 n (fun i => do
    app i
    pre (-i)
    same (-i) (← ask (at_ · 0))
    same i (← ask fun r => at_ r (Len r - 1))) new = _ from e1')]
  rw [seq_ok (show ask (fun r => .ok (Cap r)) r1 = (.ok (Cap r1), r1) from rfl)]
  rw [seq_ok (show check (decide (n * 2 ≤ Cap r1)) r1 = (.ok (), r1) by
    rw [decide_eq_true (by omega)]; rfl)]
  rw [seq_ok e2]
  rw [seq_ok (show up 1 n (fun i => do
    app i
    pre (-i)) r2 = _ from e3')]
  rw [seq_ok e4, seq_ok e5, seq_ok hs]
  rw [seq_ok (show same none none r5 = (.ok (), r5) from rfl)]
  rw [seq_ok (show ask (fun r => .ok (Cap r)) r5 = (.ok (Cap r5), r5) from rfl), hc5]

/-- **C147.** The test passes for exactly those `n ≥ 2` for which the ring, filled up to its maximum and emptied, does not
end with a capacity of 1024. -/
theorem C147_large (n : Nat) : passes new (testLarge n) = decide (2 ≤ n ∧ emptied (roomFor (most n) 0) < 1024) := by
  by_cases hn : 2 ≤ n
  · obtain ⟨r', -, e⟩ := runs n hn
    have : passes new (testLarge n) = passes r' (check (decide (emptied (roomFor (most n) 0) < 1024))) := by
      unfold passes; rw [e]
    rw [this, check_iff]
    simp [hn]
  · have h : n = 0 ∨ n = 1 := by omega
    rcases h with rfl | rfl <;> decide +kernel

/-- **C147.** For every `n ≥ 2` all assertions but the last hold: the test ends with the comparison of the capacity. -/
theorem C147_contents (n : Nat) (hn : 2 ≤ n) :
    ∃ r', Cap r' = emptied (roomFor (most n) 0) ∧ Len r' = 0 ∧ testLarge n new = check (decide (Cap r' < 1024)) r' := by
  obtain ⟨r', e, h⟩ := runs n hn
  exact ⟨r', e.1, e.2, by rw [e.1]; exact h⟩

/-- The capacities that a ring can grow to, one after the other. -/
def capacities : Nat → Nat → List Nat
  | 0, _ => []
  | k + 1, c => c :: capacities k (grown c)

theorem roomFor_mem {m : Nat} (k : Nat) : ∀ c, (∃ x ∈ capacities k c, m ≤ x) → roomFor m c ∈ capacities k c := by
  induction k with
  | zero => intro c h; obtain ⟨x, hx, -⟩ := h; cases hx
  | succ k ih =>
    intro c h
    rw [roomFor_eq]
    split
    · exact List.mem_cons_self
    · rename_i hm
      obtain ⟨x, hx, hmx⟩ := h
      rcases List.mem_cons.mp hx with rfl | hx
      · exact absurd hmx hm
      · exact List.mem_cons_of_mem _ (ih _ ⟨x, hx, hmx⟩)

theorem roomFor_1024 (m : Nat) : roomFor m 0 = 1024 ↔ 512 < m ∧ m ≤ 1024 := by
  constructor
  · intro h
    have h1 := roomFor_ge m 0
    refine ⟨?_, by omega⟩
    apply Classical.byContradiction
    intro hm
    have h2 := roomFor_mem (m := m) 9 0 ⟨512, by decide, by omega⟩
    rw [h] at h2
    revert h2; decide
  · intro h
    have e : ∀ c, c ≤ 512 → roomFor m c = roomFor m (grown c) := by
      intro c hc; rw [roomFor_eq, if_neg (by omega)]
    rw [e 0 (by omega), e (grown 0) (by decide), e (grown (grown 0)) (by decide), e (grown (grown (grown 0))) (by decide),
      e (grown (grown (grown (grown 0)))) (by decide), e (grown (grown (grown (grown (grown 0))))) (by decide),
      e (grown (grown (grown (grown (grown (grown 0)))))) (by decide),
      e (grown (grown (grown (grown (grown (grown (grown 0))))))) (by decide),
      e (grown (grown (grown (grown (grown (grown (grown (grown 0)))))))) (by decide)]
    exact roomFor_self (by simpa [grown] using h.2)

/-- **C147.** For an `n` that fits in memory the test fails for 0, 1 and the numbers from 172 to 342, and for no others. -/
theorem C147_passes_iff (n : Nat) (hn : n < 2 ^ 60) :
    passes new (testLarge n) = true ↔ 2 ≤ n ∧ (n < 172 ∨ 342 < n) := by
  rw [C147_large, decide_eq_true_iff]
  refine and_congr_right fun h2 => ?_
  have hmem := roomFor_mem (m := most n) 180 0
    ⟨_, List.getLast_mem (l := capacities 180 0) (List.cons_ne_nil _ _), by
      have : 2 ^ 62 ≤ (capacities 180 0).getLast (List.cons_ne_nil _ _) := by decide +kernel
      unfold most; omega⟩
  have hall : ∀ x ∈ capacities 180 0, emptied x < 1024 ↔ x ≠ 1024 := by decide +kernel
  rw [hall _ hmem, Ne, roomFor_1024]
  unfold most
  omega

-- The two values that the repository uses, and one that fails.
example : passes new (testLarge 100) = true := (C147_passes_iff 100 (by decide)).mpr (by decide)
example : passes new (testLarge 100000) = true := (C147_passes_iff 100000 (by decide)).mpr (by decide)
example : passes new (testLarge 200) = false := by
  rw [← Bool.not_eq_true, C147_passes_iff 200 (by decide)]; decide

end Verif.Conformance.RingLarge
