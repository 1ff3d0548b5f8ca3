import Verif.Stream.RangeExact

/-! # C48, exactly: ranges, bounded generators, type-mapped streams -/

namespace Verif.Stream

section range
variable {w : Nat} {signed : Bool}

/-- What `k` reads of a range give. -/
def got (signed : Bool) (last step : BitVec w) : Nat → BitVec w → List (BitVec w)
  | 0, _ => []
  | k + 1, c => if Over signed last step c then [] else c :: got signed last step k (c + step)

theorem reads_range (E : Type) (last step : BitVec w) (k : Nat) : ∀ c : BitVec w,
    reads (intSource E signed last step false) k c = some (.ok (got signed last step k c)) := by
  induction k with
  | zero => intro c; rfl
  | succ k ih =>
    intro c
    have hn := int_next (signed := signed) E last step c
    refine (reads_succ (intSource E signed last step false) k c).trans ?_
    by_cases h : Over signed last step c
    · rw [if_pos (show past _ _ _ from h)] at hn
      rw [hn]
      simp [got, h]
    · rw [if_neg (show ¬ past _ _ _ from h)] at hn
      rw [hn]
      dsimp only
      rw [ih]
      simp [got, h]

/-- C47, `IntegerSequence`: `start`, `start + step`, … (in the arithmetic of the type) without end; a step of 0 panics. -/
theorem C47_sequence (E : Type) (signed : Bool) (start step : BitVec w) :
    (step = 0#w → integerSequence E signed start step = .error "stream.IntegerSequence: step is 0") ∧
    (step ≠ 0#w → ∃ s, integerSequence E signed start step = .ok s ∧ s = new (intSource E signed 0#w step true) start ∧
      ∀ k, reads (intSource E signed 0#w step true) k start =
        some (.ok ((List.range k).map fun i => start + BitVec.ofNat w i * step))) := by
  refine ⟨fun h => if_pos h, fun h => ⟨_, if_neg h, rfl, fun k => ?_⟩⟩
  induction k generalizing start with
  | zero => rfl
  | succ k ih =>
    refine (reads_succ (intSource E signed 0#w step true) k start).trans ?_
    have hn : (intSource E signed 0#w step true).next start = some (.ok ⟨some start, start + step, []⟩) := rfl
    rw [hn]
    dsimp only
    rw [ih, List.range_succ_eq_map]
    simp only [List.map_cons, List.map_map, Function.comp_def]
    congr 3
    · simp
    · apply List.map_congr_left
      intro i _
      rw [BitVec.add_assoc]
      congr 1
      rw [show i.succ = 1 + i by omega, BitVec.ofNat_add, BitVec.add_mul, BitVec.one_mul]

/-- Bytes: 250, 253, 0, 3. -/
example : reads (intSource Unit false 0#8 3#8 true) 4 250#8 = some (.ok [250#8, 253#8, 0#8, 3#8]) :=
  (C47_sequence Unit false 250#8 3#8).2 (by decide) |>.choose_spec.2.2 4

theorem got_append (last step cur : BitVec w) (k n : Nat) : ∀ i,
    (∀ m, i ≤ m → m < i + n → ¬ Over signed last step (nth cur step m)) →
    ∃ a, a.length = n ∧ got signed last step (n + k) (nth cur step i) =
      a ++ got signed last step k (nth cur step (i + n)) := by
  induction n with
  | zero => intro i _; exact ⟨[], rfl, by simp⟩
  | succ n ih =>
    intro i h
    obtain ⟨a, h1, h2⟩ := ih (i + 1) (fun m h1 h2 => h m (by omega) (by omega))
    refine ⟨nth cur step i :: a, by simp [h1], ?_⟩
    rw [show n + 1 + k = (n + k) + 1 by omega, got, if_neg (h i (by omega) (by omega)), nth_succ, h2]
    simp [show i + 1 + n = i + (n + 1) by omega]

theorem got_length (last step cur : BitVec w) (m : Nat) (k : Nat) : ∀ i, i ≤ m → Over signed last step (nth cur step m) →
    (got signed last step k (nth cur step i)).length ≤ m - i := by
  induction k with
  | zero => intro i _ _; simp [got]
  | succ k ih =>
    intro i hi h
    rw [got]
    split
    · simp
    · rename_i hno
      have : i ≠ m := by rintro rfl; exact hno h
      rw [nth_succ]
      have := ih (i + 1) (by omega) h
      simp only [List.length_cons]
      omega

/-- **C48** for ranges, exactly: unless one of the values skipped is past `end` and the one at which reading goes on is
not. -/
theorem C48_range_iff (E : Type) (last step cur : BitVec w) (n : Nat) :
    SkipIsDrop (intSource E signed last step false) n cur ↔
      ((∃ m, m < n ∧ Over signed last step (nth cur step m)) → Over signed last step (nth cur step n)) := by
  have hs : (intSource E signed last step false).skip n cur = .ok (-1, nth cur step n) := by
    show Except.ok (-1, cur + BitVec.ofInt w n * step) = _
    rw [nth, BitVec.ofInt_natCast]
    rfl
  have h0 : nth cur step 0 = cur := by simp [nth]
  constructor
  · rintro ⟨r, q', h1, h2⟩ ⟨m, hm, ho⟩
    rw [hs] at h1
    cases h1
    obtain ⟨vs, h3, h4⟩ := h2 1
    rw [reads_range] at h3
    cases h3
    have h4' := (reads_range E last step 1 (nth cur step n)).symm.trans h4
    injection h4' with h4'
    injection h4' with h4'
    have hl := got_length last step cur m (n + 1) 0 (by omega) ho
    rw [h0] at hl
    rw [List.drop_of_length_le (by omega), got] at h4'
    by_cases hov : Over signed last step (nth cur step n)
    · exact hov
    · rw [if_neg hov] at h4'
      cases h4'
  · intro h
    refine ⟨-1, nth cur step n, hs, fun k => ⟨_, reads_range E last step (n + k) cur, ?_⟩⟩
    refine (reads_range E last step k (nth cur step n)).trans ?_
    congr 2
    by_cases hex : ∃ m, m < n ∧ Over signed last step (nth cur step m)
    · obtain ⟨m, hm, ho⟩ := hex
      have hl := got_length last step cur m (n + k) 0 (by omega) ho
      rw [h0] at hl
      rw [List.drop_of_length_le (by omega)]
      have := h ⟨m, hm, ho⟩
      cases k with
      | zero => rfl
      | succ k => rw [got, if_pos this]
    · obtain ⟨a, h1, h2⟩ := got_append last step cur k n 0 (fun m _ hm ho => hex ⟨m, by omega, ho⟩)
      rw [h0] at h2
      rw [h2, Nat.zero_add, List.drop_append_of_le_length (by omega), List.drop_of_length_le (by omega)]
      rfl

/-- `Range[uint8](0, 9, 1)`: `SkipNext(255)` is right, `SkipNext(256)` is not (`skip_range_false`). -/
example : SkipIsDrop (intSource Unit false (9#8) (1#8) false) 255 (0#8) ∧
    ¬ SkipIsDrop (intSource Unit false (9#8) (1#8) false) 256 (0#8) := by
  rw [C48_range_iff, C48_range_iff]
  refine ⟨fun _ => by decide, fun h => ?_⟩
  exact absurd (h ⟨10, by decide, by decide⟩) (by decide)

end range

section bounded
variable {T : Type} {γ : Type}

/-- The state of the generator after `n` calls. -/
def after (g : γ → Option T × γ) (q : γ) : Nat → γ
  | 0 => q
  | n + 1 => (g (after g q n)).2

theorem after_shift (g : γ → Option T × γ) (q : γ) (n : Nat) : after g (g q).2 n = after g q (n + 1) := by
  induction n with
  | zero => rfl
  | succ n ih => simp only [after]; rw [ih]; rfl

/-- What `k` reads of a bounded generator give. -/
def drawn (g : γ → Option T × γ) : Nat → γ → List T
  | 0, _ => []
  | k + 1, q => match (g q).1 with
    | none => []
    | some v => v :: drawn g k (g q).2

theorem reads_bounded (E : Type) (g : γ → Option T × γ) (k : Nat) : ∀ q,
    reads (boundedGenerator E g) k q = some (.ok (drawn g k q)) := by
  induction k with
  | zero => intro q; rfl
  | succ k ih =>
    intro q
    refine (reads_succ (boundedGenerator E g) k q).trans ?_
    cases h : (g q).1 with
    | none => simp [boundedGenerator, h, drawn]
    | some v =>
      have := ih (g q).2
      simp only [boundedGenerator] at this
      simp [boundedGenerator, h, drawn, this]

/-- The loop of `SkipNext`: up to the end if that comes within `k` calls. -/
theorem callUntil_cases (g : γ → Option T × γ) (k : Nat) : ∀ (i : Int) (q : γ),
    (∃ m, m < k ∧ (∀ j, j < m → (g (after g q j)).1 ≠ none) ∧ (g (after g q m)).1 = none ∧
      (callUntil g k i q).2 = after g q (m + 1)) ∨
    ((∀ j, j < k → (g (after g q j)).1 ≠ none) ∧ (callUntil g k i q).2 = after g q k) := by
  induction k with
  | zero => intro i q; exact .inr ⟨by omega, rfl⟩
  | succ k ih =>
    intro i q
    cases h : (g q).1 with
    | none =>
      refine .inl ⟨0, by omega, by omega, h, ?_⟩
      have : g q = (none, (g q).2) := Prod.ext h rfl
      rw [callUntil, this]
      simp [after]
    | some v =>
      have : g q = (some v, (g q).2) := Prod.ext h rfl
      have hc : callUntil g (k + 1) i q = callUntil g k (i + 1) (g q).2 := by
        rw [callUntil, this]
      have hj : ∀ b, (∀ j, j < b → (g (after g (g q).2 j)).1 ≠ none) →
          ∀ j, j < b + 1 → (g (after g q j)).1 ≠ none := by
        intro b hb j hjb
        cases j with
        | zero => show (g q).1 ≠ none; rw [h]; simp
        | succ j => rw [← after_shift]; exact hb j (by omega)
      rw [hc]
      rcases ih (i + 1) (g q).2 with ⟨m, h1, h2, h3, h4⟩ | ⟨h1, h2⟩
      · exact .inl ⟨m + 1, by omega, hj m h2, by rw [← after_shift]; exact h3, by rw [h4, after_shift]⟩
      · exact .inr ⟨hj k h1, by rw [h2, after_shift]⟩

theorem drawn_append (g : γ → Option T × γ) (k n : Nat) : ∀ q, (∀ j, j < n → (g (after g q j)).1 ≠ none) →
    ∃ a, a.length = n ∧ drawn g (n + k) q = a ++ drawn g k (after g q n) := by
  induction n with
  | zero => intro q _; exact ⟨[], rfl, by simp [after]⟩
  | succ n ih =>
    intro q h
    obtain ⟨v, hv⟩ := Option.ne_none_iff_exists'.1 (h 0 (by omega))
    obtain ⟨a, h1, h2⟩ := ih (g q).2 (fun j hj => by rw [after_shift]; exact h (j + 1) (by omega))
    refine ⟨v :: a, by simp [h1], ?_⟩
    have hv' : (g q).1 = some v := hv
    rw [show n + 1 + k = (n + k) + 1 by omega, drawn, hv']
    simp only [h2, after_shift]
    rfl

/-- **C48** for bounded generators, exactly: unless one of the calls skipped reports the end and the one after it does
not. -/
theorem C48_bounded_iff (E : Type) (g : γ → Option T × γ) (q : γ) (n : Nat) :
    SkipIsDrop (boundedGenerator E g) n q ↔
      ∀ m, m < n → (∀ j, j < m → (g (after g q j)).1 ≠ none) → (g (after g q m)).1 = none →
        (g (after g q (m + 1))).1 = none := by
  have hs : ∃ r, (boundedGenerator E g).skip n q = .ok (r, (callUntil g n 0 q).2) := by
    simp only [boundedGenerator]
    by_cases h0 : (n : Int) ≤ 0
    · have : n = 0 := by omega
      subst this
      exact ⟨_, by rw [if_pos h0]; rfl⟩
    · exact ⟨_, by rw [if_neg h0, Int.toNat_natCast]⟩
  obtain ⟨r, hs⟩ := hs
  -- the first end among the calls skipped
  have hend : ∀ m, m < n → (∀ j, j < m → (g (after g q j)).1 ≠ none) → (g (after g q m)).1 = none →
      ∀ k, (drawn g (n + k) q).drop n = [] := by
    intro m hm hj h k
    obtain ⟨a, h1, h2⟩ := drawn_append g (n + k - m) m q hj
    rw [show n + k = m + (n + k - m) by omega, h2]
    obtain ⟨d, hd⟩ : ∃ d, n + k - m = d + 1 := ⟨n + k - m - 1, by omega⟩
    rw [hd, drawn, h]
    exact List.drop_of_length_le (by simp [h1]; omega)
  have huniq : ∀ m m', (∀ j, j < m → (g (after g q j)).1 ≠ none) → (g (after g q m)).1 = none →
      (∀ j, j < m' → (g (after g q j)).1 ≠ none) → (g (after g q m')).1 = none → m = m' := by
    intro m m' h1 h2 h3 h4
    rcases Nat.lt_trichotomy m m' with h | h | h
    · exact (h3 m h h2).elim
    · exact h
    · exact (h1 m' h h4).elim
  constructor
  · rintro ⟨r', q', h1, h2⟩ m hm hj h
    rw [hs] at h1
    cases h1
    obtain ⟨vs, h3, h4⟩ := h2 1
    have h3 := (reads_bounded E g (n + 1) q).symm.trans h3
    cases h3
    rcases callUntil_cases g n 0 q with ⟨m', g1, g2, g3, g4⟩ | ⟨g1, _⟩
    · have := huniq m m' hj h g2 g3
      subst this
      rw [g4, hend m hm hj h] at h4
      have h4' := (reads_bounded E g 1 (after g q (m + 1))).symm.trans h4
      injection h4' with h4'
      injection h4' with h4'
      cases hv : (g (after g q (m + 1))).1 with
      | none => rfl
      | some v =>
        have : drawn g 1 (after g q (m + 1)) = [v] := by simp [drawn, hv]
        cases this.symm.trans h4'
    · exact (g1 m hm h).elim
  · intro h
    refine ⟨r, _, hs, fun k => ⟨_, reads_bounded E g (n + k) q, ?_⟩⟩
    refine (reads_bounded E g k _).trans ?_
    congr 2
    rcases callUntil_cases g n 0 q with ⟨m, g1, g2, g3, g4⟩ | ⟨g1, g2⟩
    · rw [hend m g1 g2 g3, g4]
      cases k with
      | zero => rfl
      | succ k => rw [drawn, h m g1 g2 g3]
    · obtain ⟨a, h1, h2⟩ := drawn_append g k n q g1
      rw [g2, h2, List.drop_append_of_le_length (by omega), List.drop_of_length_le (by omega)]
      rfl

/-- A generator that reports the end twice, after 0 and 1, and then starts again. -/
example : SkipIsDrop (boundedGenerator Unit fun n : Nat => (if n % 4 < 2 then some (n % 4) else none, n + 1)) 7 (0 : Nat) ∧
    ¬ SkipIsDrop (boundedGenerator Unit fun n : Nat => (if n % 4 < 2 then some (n % 4) else none, n + 1)) 7 (3 : Nat) := by
  rw [C48_bounded_iff, C48_bounded_iff]
  constructor
  · intro m _ h1 h2
    match m with
    | 0 => simp [after] at h2
    | 1 => simp [after] at h2
    | 2 => simp [after]
    | m + 3 => exact (h1 2 (by omega) (by simp [after])).elim
  · intro h
    have := h 0 (by omega) (by omega) (by simp [after])
    simp [after] at this

end bounded

section mapped
variable {T E R : Type} {S : Source T E}

/-- What `Map`s and `Peek`s make of a value. -/
def mapped : List (Op T E) → T → T
  | [], v => v
  | .map f :: ops, v => mapped ops (f v)
  | _ :: ops, v => mapped ops v

theorem plain_mapped {ops : List (Op T E)} (h : plain ops) (x : T) : ∃ l, runOps ops x = .pass (mapped ops x) ops l := by
  induction ops generalizing x with
  | nil => exact ⟨_, rfl⟩
  | cons op ops ih =>
    cases op with
    | map f => obtain ⟨l, hv⟩ := ih h (f x); exact ⟨[] ++ l, by simp [runOps, hv, Out.cons, mapped]⟩
    | peek c => obtain ⟨l, hv⟩ := ih h x; exact ⟨c x ++ l, by simp [runOps, hv, Out.cons, mapped]⟩
    | filter p => exact h.elim
    | skip p => exact h.elim
    | limit p => exact h.elim

theorem reads_plain {ops : List (Op T E)} (h : plain ops) (f : T → R) (hp : Bool) (k : Nat) : ∀ q,
    reads (tts S f) k (⟨some q, ops, hp⟩ : Stream S) = onRead (List.map fun v => f (mapped ops v)) (reads S k q) := by
  induction k with
  | zero => intro q; rfl
  | succ k ih =>
    intro q
    rw [reads_mapped, reads_succ]
    rcases hn : S.next q with _ | e | ⟨_ | v, q', l⟩
    · have : loop S ops q = none := (loop_cases ops q).trans (by rw [hn])
      simp [Stream.next, this, onRead]
    · have : loop S ops q = some (.error e) := loop_error hn
      simp [Stream.next, this, onRead]
    · rw [next_of_loop (s := ⟨some q, ops, hp⟩) rfl (loop_none hn)]
      rfl
    · obtain ⟨l', hv⟩ := plain_mapped h v
      rw [next_of_loop_some (s := ⟨some q, ops, hp⟩) rfl (loop_pass hn hv)]
      dsimp only
      rw [ih]
      rcases reads S k q' with _ | e | vs <;> rfl

/-- **C48** for type-mapped streams with no `Filter` or `Limit` that have not ended: exactly if it holds of their
source, provided the functions applied do not make different elements the same; and if it holds of the source in any
case. (`skip_mapped_pred` is the case with a `Filter` or `Limit`, `skip_mapped_false` the one of ended streams.) -/
theorem C48_mapped_iff (f : T → R) {ops : List (Op T E)} (h : plain ops) (q : S.σ) {n : Nat} (hn : 0 < n) :
    (SkipIsDrop S n q → SkipIsDrop (tts S f) n (⟨some q, ops, false⟩ : Stream S)) ∧
    ((∀ v v', f (mapped ops v) = f (mapped ops v') → v = v') →
      SkipIsDrop (tts S f) n (⟨some q, ops, false⟩ : Stream S) → SkipIsDrop S n q) := by
  have hskip : (tts S f).skip n (⟨some q, ops, false⟩ : Stream S) =
      match S.skip n q with
      | .error e => .error e
      | .ok (_, q') => .ok (-1, ⟨some q', ops, false⟩) := by
    simp only [tts, Stream.skip, show ¬ (n : Int) < 0 by omega, show ¬ (n : Int) = 0 by omega, if_false]
    rcases S.skip n q with e | ⟨r, q'⟩ <;> rfl
  constructor
  · rintro ⟨r, q', h1, h2⟩
    refine ⟨-1, ⟨some q', ops, false⟩, by rw [hskip, h1], fun k => ?_⟩
    obtain ⟨vs, h3, h4⟩ := h2 k
    refine ⟨vs.map fun v => f (mapped ops v), by rw [reads_plain h, h3]; rfl, ?_⟩
    refine (reads_plain h f false k q').trans ?_
    rw [h4]
    simp [onRead]
  · rintro hinj ⟨r, s', h1, h2⟩
    rw [hskip] at h1
    rcases hs : S.skip n q with e | ⟨r', q'⟩
    · rw [hs] at h1; cases h1
    · rw [hs] at h1
      cases h1
      refine ⟨r', q', hs, fun k => ?_⟩
      obtain ⟨vs, h3, h4⟩ := h2 k
      rw [reads_plain h] at h3
      have h4' := (reads_plain h f false k q').symm.trans h4
      rcases ha : reads S (n + k) q with _ | e | us
      · rw [ha] at h3; cases h3
      · rw [ha] at h3; cases h3
      · rw [ha] at h3
        rcases hb : reads S k q' with _ | e | ws
        · rw [hb] at h4'; cases h4'
        · rw [hb] at h4'; cases h4'
        · rw [hb] at h4'
          cases h3
          injection h4' with h4'
          injection h4' with h4'
          refine ⟨us, rfl, ?_⟩
          congr 2
          rw [← List.map_drop] at h4'
          exact (List.map_inj_right (fun v v' => hinj v v')).1 h4'

/-- `Map(Range[uint8](0, 9, 1), f)` skips 255 but not 256, like the range. -/
example : SkipIsDrop (tts (intSource Unit false (9#8) (1#8) false) BitVec.toNat) 255 (new _ (0#8)) ∧
    ¬ SkipIsDrop (tts (intSource Unit false (9#8) (1#8) false) BitVec.toNat) 256 (new _ (0#8)) := by
  constructor
  · exact (C48_mapped_iff (S := intSource Unit false (9#8) (1#8) false) BitVec.toNat (ops := []) trivial (0#8) (by decide)).1
      ((C48_range_iff ..).2 fun _ => by decide)
  · intro h
    exact skip_range_false ((C48_mapped_iff (S := intSource Unit false (9#8) (1#8) false) BitVec.toNat (ops := []) trivial
      (0#8) (by decide)).2 (fun v v' e => BitVec.eq_of_toNat_eq e) h)

end mapped

end Verif.Stream
