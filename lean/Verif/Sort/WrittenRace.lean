import Verif.Sort.WrittenProps

/-!
# `Sort` and `Stable` while others write to the slice

The comparator may assign to elements of the slice, and other goroutines may do so at any time. What is left of `Sort`
and `Stable` then: they end, they do not index out of range, they call the comparator a bounded number of times, and
they put no values into the slice that were not there or came from outside.
-/

set_option linter.unusedSectionVars false

namespace Verif.Sort.Written

open Verif.Sort

variable {σ E : Type} [Inhabited E] {α β : Type}

/-- The slice keeps its length, and values from a set `V` stay in `V`, whatever the others do: the comparator, when
called with values from `V`, and the other goroutines; and what is read of such values is in `V`. -/
structure Keeps (env : World σ E) (V : E → Prop) : Prop where
  tick_length : ∀ w, (env.tick w).2.length = w.2.length
  less_length : ∀ w x y, (env.less w x y).2.2.length = w.2.length
  tick_values : ∀ w, (∀ v ∈ w.2, V v) → ∀ v ∈ (env.tick w).2, V v
  torn_values : ∀ w, (∀ v ∈ w.2, V v) → ∀ v ∈ w.2, V (env.torn w v)
  less_values : ∀ w x y, V x → V y → (∀ v ∈ w.2, V v) → ∀ v ∈ (env.less w x y).2.2, V v

/-- `calls` counts the calls of the comparator, or fewer. -/
structure Counts (env : World σ E) (calls : σ → Nat) : Prop where
  tick : ∀ w, calls (env.tick w).1 ≤ calls w.1
  less : ∀ w x y, calls (env.less w x y).2.1 ≤ calls w.1 + 1

/-! ## Paths through a program of the common model -/

/-- A way through a program with `k` answers: to a result, or to a question that is not answered (`none`), which also
counts. -/
inductive Path : Prog E α → Nat → Option α → Prop where
  | ret (a : α) : Path (.ret a) 0 (some a)
  | note {e : Event} {p : Prog E α} {k : Nat} {r : Option α} : Path p k r → Path (.note e p) k r
  | ask {k : Nat} {r : Option α} {kd : Kind} {x y : E} {d : List E} {next : Bool → Prog E α} (b : Bool) :
      Path (next b) k r → Path (.ask kd x y d next) (k + 1) r
  | stop {kd : Kind} {x y : E} {d : List E} {next : Bool → Prog E α} : Path (.ask kd x y d next) 1 none

theorem path_leaf {p : Prog E α} {k : Nat} {r : Option α} (h : Path p k r) : ∀ x, r = some x → Leaf p x := by
  induction h with
  | ret a => intro x e; cases e; exact .ret a
  | note _ ih => exact fun x e => .note (ih x e)
  | ask b _ ih => exact fun x e => .ask b (ih x e)
  | stop => intro x e; cases e

theorem path_bind {α' : Type} {p : Prog E α'} {f : α' → Prog E α} {k l : Nat} {a : Option α'} {r : Option α}
    (h : Path p k a) : ∀ x, a = some x → Path (f x) l r → Path (p.bind f) (k + l) r := by
  induction h with
  | ret a => intro x e h; cases e; rw [Nat.zero_add]; exact h
  | note _ ih => exact fun x e h => .note (ih x e h)
  | ask b _ ih =>
    intro x e h
    rw [Nat.add_right_comm]
    exact .ask b (ih x e h)
  | stop => intro x e; cases e

theorem path_bind_stop {α' : Type} {p : Prog E α'} {f : α' → Prog E α} {k : Nat} {a : Option α'}
    (h : Path p k a) : a = none → Path (p.bind f) k none := by
  induction h with
  | ret a => intro e; cases e
  | note _ ih => exact fun e => .note (ih e)
  | ask b _ ih => exact fun e => .ask b (ih e)
  | stop => exact fun _ => .stop

/-- A program that never fails has a way to a result. -/
theorem leaf_exists {p : Prog E α} {Q : α → Prop} (h : p.wp (fun _ _ _ _ => True) Q) : ∃ k x, Path p k (some x) := by
  induction p with
  | ret a => exact ⟨0, a, .ret a⟩
  | fail _ => cases h
  | note e p ih =>
    obtain ⟨k, x, h⟩ := ih h
    exact ⟨k, x, .note h⟩
  | ask kd x y d next ih =>
    obtain ⟨k, x, h⟩ := ih true (h true trivial)
    exact ⟨k + 1, x, .ask true h⟩

/-- If all complete ways have at most `B` questions, so have the others. -/
theorem path_bound {p : Prog E α} {Q : α → Prop} {B : Nat} {k : Nat} {r : Option α} (h : Path p k r) :
    ∀ m, p.wp (fun _ _ _ _ => True) Q → p.cw (fun _ _ _ _ => True) (fun _ n => n ≤ B) m → m + k ≤ B := by
  induction h with
  | ret a => exact fun m _ hc => hc
  | note _ ih => exact fun m hw hc => ih m hw hc
  | ask b _ ih =>
    intro m hw hc
    have := ih (m + 1) (hw b trivial) (hc b trivial)
    omega
  | @stop kd x y d next =>
    intro m hw hc
    obtain ⟨k, a, hp⟩ := leaf_exists (hw true trivial)
    have : ∀ {p : Prog E α} {k : Nat} {r : Option α}, Path p k r → ∀ m, ∀ a, r = some a →
        p.cw (fun _ _ _ _ => True) (fun _ n => n ≤ B) m → m + k ≤ B := by
      intro p k r h
      induction h with
      | ret a => exact fun m _ _ hc => hc
      | note _ ih => exact fun m a e hc => ih m a e hc
      | ask b _ ih =>
        intro m a e hc
        have := ih (m + 1) a e (hc b trivial)
        omega
      | stop => intro m a e; cases e
    have := this hp (m + 1) a rfl (hc true trivial)
    omega

/-! ## Functions built alike take a way through the program -/

variable {env : World σ E} {V : E → Prop} {calls : σ → Nat} {n : Nat}

/-- The slice has length `n` and holds values from `V`. -/
def Good (n : Nat) (V : E → Prop) (w : σ × List E) : Prop := w.2.length = n ∧ ∀ v ∈ w.2, V v

/-- How a function ends, if the way through the program ends with `r`. -/
def Ended (env : World σ E) (V : E → Prop) (n : Nat) (f : α → β) (r : Option (α × List E)) (o : Go β) : Prop :=
  match r with
  | some (x, d') => d'.length = n ∧ o = .ok (f x)
  | none => ∃ e v x y, o = .error e ∧ V x ∧ V y ∧ (env.less v x y).1 = .error e

/-- Whatever is in the slice, `q` does what `p` does on some way through it. -/
def Follows (env : World σ E) (V : E → Prop) (calls : σ → Nat) (n : Nat) (f : α → β) (p : M E α) (q : W σ E β) : Prop :=
  ∀ w d, Good n V w → d.length = n → (p d).wp (fun _ _ _ _ => True) (fun _ => True) →
    ∃ k r w' o, Path (p d) k r ∧ q w = some (o, w') ∧ Good n V w' ∧ calls w'.1 ≤ calls w.1 + k ∧ Ended env V n f r o

theorem good_tick (hk : Keeps env V) {w : σ × List E} (h : Good n V w) : Good n V (env.tick w) :=
  ⟨(hk.tick_length w).trans h.1, hk.tick_values w h.2⟩

theorem el_mem {d : List E} {i : Int} (h : inRange d i) : el d i ∈ d := by
  obtain ⟨h0, h1⟩ := h
  have : i.toNat < d.length := by omega
  simp [el, h0, List.getD, List.getElem?_eq_getElem this]

theorem inRange_length {d d' : List E} (h : d'.length = d.length) {i : Int} (hr : inRange d i) : inRange d' i :=
  ⟨hr.1, by have := hr.2; omega⟩

/-- An access inside the slice succeeds and gives a value from `V`. -/
theorem at_good (hk : Keeps env V) (hc : Counts env calls) {w : σ × List E} (h : Good n V w) {i : Int} (h0 : 0 ≤ i)
    (h1 : i < n) : ∃ x w', at_ env i w = some (.ok x, w') ∧ V x ∧ Good n V w' ∧ calls w'.1 ≤ calls w.1 := by
  have hg := good_tick hk h
  have hr : inRange (env.tick w).2 i := ⟨h0, by rw [hg.1]; exact h1⟩
  refine ⟨env.torn (env.tick w) (el (env.tick w).2 i), env.tick w, ?_, hk.torn_values _ hg.2 _ (el_mem hr), hg, hc.tick w⟩
  unfold at_
  rw [Ordered.goGet_in hr]
  rfl

theorem put_good (hk : Keeps env V) (hc : Counts env calls) {w : σ × List E} (h : Good n V w) {i : Int} (h0 : 0 ≤ i)
    (h1 : i < n) {x : E} (hx : V x) : ∃ w', put env i x w = some (.ok (), w') ∧ Good n V w' ∧ calls w'.1 ≤ calls w.1 := by
  have hg := good_tick hk h
  have hl : i.toNat < (env.tick w).2.length := by rw [hg.1]; omega
  refine ⟨((env.tick w).1, (env.tick w).2.set i.toNat x), ?_, ⟨by rw [List.length_set]; exact hg.1, ?_⟩, hc.tick w⟩
  · simp only [put]
    rw [goSet_ok h0 hl]
  · intro v hv
    rcases List.mem_or_eq_of_mem_set hv with hv | rfl
    · exact hg.2 v hv
    · exact hx

theorem call_good (hk : Keeps env V) (hc : Counts env calls) {w : σ × List E} (h : Good n V w) {x y : E} (hx : V x)
    (hy : V y) : ∃ o w', call env x y w = some (o, w') ∧ (env.less w x y).1 = o ∧ Good n V w' ∧ calls w'.1 ≤ calls w.1 + 1 :=
  ⟨_, _, rfl, rfl, ⟨(hk.less_length w x y).trans h.1, hk.less_values w x y hx hy h.2⟩, hc.less w x y⟩

theorem Follows.pure {f : α → β} (x : α) {y : β} (h : f x = y) :
    Follows env V calls n f (Pure.pure x) (Pure.pure y) :=
  fun w d hg hd _ => ⟨0, some (x, d), w, .ok y, .ret _, rfl, hg, Nat.le_refl _, hd, by rw [h]⟩

theorem Follows.fail {f : α → β} (msg : String) (q : W σ E β) : Follows env V calls n f (M.fail msg) q :=
  fun _ _ _ _ h => (by cases h)

theorem Follows.bind {α' β' : Type} {f : α' → β'} {g : α → β} {p : M E α'} {k : α' → M E α} {q : W σ E β'}
    {l : β' → W σ E β} (h : Follows env V calls n f p q)
    (hk : ∀ a, Reach n p a → Follows env V calls n g (k a) (l (f a))) :
    Follows env V calls n g (p >>= k) (q >>= l) := by
  intro w d hg hd hw
  have hw : (p d).wp (fun _ _ _ _ => True) fun a => (k a.1 a.2).wp (fun _ _ _ _ => True) fun _ => True :=
    (Prog.wp_bind (p d) (fun a => k a.1 a.2) _).1 hw
  obtain ⟨k1, r1, w1, o1, p1, q1, g1, c1, e1⟩ := h w d hg hd (Prog.wp_mono hw fun _ _ => trivial)
  cases r1 with
  | none =>
    obtain ⟨e, v, x, y, rfl, hv⟩ := e1
    exact ⟨k1, none, w1, .error e, path_bind_stop p1 rfl, bind_error q1, g1, c1, e, v, x, y, rfl, hv⟩
  | some a =>
    obtain ⟨a, d1⟩ := a
    obtain ⟨n1, rfl⟩ := e1
    have hl := path_leaf p1 _ rfl
    obtain ⟨k2, r2, w2, o2, p2, q2, g2, c2, e2⟩ := hk a ⟨d, d1, hd, hl⟩ w1 d1 g1 n1 (leaf_prog_wp hw hl)
    exact ⟨k1 + k2, r2, w2, o2, path_bind p1 _ rfl p2, by rw [bind_ok q1, q2], g2, by omega, e2⟩

theorem Follows.ltAt (hk : Keeps env V) (hc : Counts env calls) (i j : Int) :
    Follows env V calls n id (lessAt i j) (isLess env i j) := by
  intro w d hg hd hw
  rw [lessAt_eq] at hw ⊢
  by_cases hr : inRange d i ∧ inRange d j
  · rw [if_pos hr]
    obtain ⟨x, w1, a1, v1, g1, c1⟩ := at_good hk hc hg hr.1.1 (hd ▸ hr.1.2)
    obtain ⟨y, w2, a2, v2, g2, c2⟩ := at_good hk hc g1 hr.2.1 (hd ▸ hr.2.2)
    obtain ⟨o, w3, a3, e3, g3, c3⟩ := call_good hk hc g2 v1 v2
    have e : isLess env i j w = some (o, w3) := by
      unfold isLess
      rw [bind_ok a1, bind_ok a2, a3]
    cases o with
    | ok b => exact ⟨1, some (b, d), w3, _, .ask b (.ret _), e, g3, by omega, hd, rfl⟩
    | error m => exact ⟨1, none, w3, _, .stop, e, g3, by omega, m, w2, x, y, rfl, v1, v2, e3⟩
  · rw [if_neg hr] at hw; cases hw

theorem Follows.nless (hk : Keeps env V) (hc : Counts env calls) (i j : Int) :
    Follows env V calls n id (nlessAt i j) (notLess env i j) := by
  intro w d hg hd hw
  rw [nlessAt_eq] at hw ⊢
  by_cases hr : inRange d i ∧ inRange d j
  · rw [if_pos hr]
    obtain ⟨x, w1, a1, v1, g1, c1⟩ := at_good hk hc hg hr.1.1 (hd ▸ hr.1.2)
    obtain ⟨y, w2, a2, v2, g2, c2⟩ := at_good hk hc g1 hr.2.1 (hd ▸ hr.2.2)
    obtain ⟨o, w3, a3, e3, g3, c3⟩ := call_good hk hc g2 v1 v2
    cases o with
    | ok b =>
      have e : notLess env i j w = some (.ok (!b), w3) := by
        unfold notLess
        rw [bind_ok a1, bind_ok a2, bind_ok a3]
        rfl
      exact ⟨1, some (!b, d), w3, _, .ask (!b) (.ret _), e, g3, by omega, hd, rfl⟩
    | error m =>
      have e : notLess env i j w = some (.error m, w3) := by
        unfold notLess
        rw [bind_ok a1, bind_ok a2, bind_error a3]
      exact ⟨1, none, w3, _, .stop, e, g3, by omega, m, w2, x, y, rfl, v1, v2, e3⟩
  · rw [if_neg hr] at hw; cases hw

theorem Follows.swap (hk : Keeps env V) (hc : Counts env calls) (i j : Int) :
    Follows env V calls n id (Sort.swap i j) (exchange env i j) := by
  intro w d hg hd hw
  unfold Sort.swap at hw ⊢
  by_cases hr : inRange d i ∧ inRange d j
  · rw [if_pos hr]
    have hi := hr.1.1
    have hi' : i < n := hd ▸ hr.1.2
    have hj := hr.2.1
    have hj' : j < n := hd ▸ hr.2.2
    obtain ⟨x, w1, a1, v1, g1, c1⟩ := at_good hk hc hg hj hj'
    obtain ⟨y, w2, a2, v2, g2, c2⟩ := at_good hk hc g1 hi hi'
    obtain ⟨w3, a3, g3, c3⟩ := put_good hk hc g2 hi hi' v1
    obtain ⟨w4, a4, g4, c4⟩ := put_good hk hc g3 hj hj' v2
    have e : exchange env i j w = some (.ok (), w4) := by
      unfold exchange
      rw [bind_ok a1, bind_ok a2, bind_ok a3, a4]
    exact ⟨0, _, w4, _, .note (.ret _), e, g4, by omega, by simp [hd], rfl⟩
  · rw [if_neg hr] at hw; cases hw

theorem Follows.recurse {p : M E Unit} {q : W σ E Unit} (h : Follows env V calls n id p q) :
    Follows env V calls n id (Sort.recurse p) q := by
  intro w d hg hd hw
  have e : Sort.recurse p d = .note .enter ((p d).bind fun r => .note .leave (.ret ((), r.2))) := rfl
  rw [e] at hw ⊢
  have hw := (Prog.wp_bind (p d) (fun r => .note .leave (.ret ((), r.2))) _).1 hw
  obtain ⟨k, r, w', o, hp, hq, hg', hc, he⟩ := h w d hg hd (Prog.wp_mono hw fun _ _ => trivial)
  cases r with
  | none => exact ⟨k, none, w', o, .note (path_bind_stop hp rfl), hq, hg', hc, he⟩
  | some a => exact ⟨k + 0, some ((), a.2), w', o, .note (path_bind hp a rfl (.note (.ret _))), hq, hg', hc, he⟩

theorem Follows.inside_less {g : α → β} {i j : Int} {k : Bool → M E α} {q : W σ E β}
    (h : 0 ≤ i → i < n → Follows env V calls n g (lessAt i j >>= k) q) :
    Follows env V calls n g (lessAt i j >>= k) q := by
  intro w d hg hd hw
  by_cases hr : inRange d i ∧ inRange d j
  · exact h hr.1.1 (hd ▸ hr.1.2) w d hg hd hw
  · have : (lessAt i j >>= k) d = (lessAt i j d).bind fun a => k a.1 a.2 := rfl
    rw [this, lessAt_eq, if_neg hr] at hw
    cases hw

theorem Follows.inside_nless {g : α → β} {i j : Int} {k : Bool → M E α} {q : W σ E β}
    (h : 0 ≤ j → j < n → Follows env V calls n g (nlessAt i j >>= k) q) :
    Follows env V calls n g (nlessAt i j >>= k) q := by
  intro w d hg hd hw
  by_cases hr : inRange d i ∧ inRange d j
  · exact h hr.2.1 (hd ▸ hr.2.2) w d hg hd hw
  · have : (nlessAt i j >>= k) d = (nlessAt i j d).bind fun a => k a.1 a.2 := rfl
    rw [this, nlessAt_eq, if_neg hr] at hw
    cases hw

theorem follows_of_sim (hk : Keeps env V) (hc : Counts env calls) {f : α → β} {p : M E α} {q : W σ E β}
    (h : Sim env n f p q) : Follows env V calls n f p q := by
  induction h with
  | pure x h => exact .pure x h
  | fail msg q => exact .fail msg q
  | bind _ _ ih ihk => exact ih.bind ihk
  | ltAt i j => exact .ltAt hk hc i j
  | nless i j => exact .nless hk hc i j
  | swap i j => exact .swap hk hc i j
  | recurse _ ih => exact ih.recurse
  | inside_less _ ih => exact .inside_less ih
  | inside_nless _ ih => exact .inside_nless ih

/-! ## The exported functions -/

theorem race_of (hk : Keeps env V) (hc : Counts env calls) {p : M E Unit} {q : W σ E Unit} {B : Nat} {s : σ}
    {data : List E} (hv : ∀ v ∈ data, V v) (h : Sim env data.length id p q)
    (hw : (p data).wp (fun _ _ _ _ => True) (fun _ => True))
    (hb : (p data).cw (fun _ _ _ _ => True) (fun _ k => k ≤ B) 0) :
    ∃ res s' out, q (s, data) = some (res, s', out) ∧ out.length = data.length ∧ (∀ v ∈ out, V v) ∧
      calls s' ≤ calls s + B ∧
      (res = .ok () ∨ ∃ msg w x y, res = .error msg ∧ V x ∧ V y ∧ (env.less w x y).1 = .error msg) := by
  obtain ⟨k, r, ⟨s', out⟩, o, hp, hq, hg, hl, he⟩ := follows_of_sim hk hc h (s, data) data ⟨rfl, hv⟩ rfl hw
  have := path_bound hp 0 hw hb
  refine ⟨o, s', out, hq, hg.1, hg.2, by simp only at hl; omega, ?_⟩
  cases r with
  | none => exact Or.inr he
  | some a => exact Or.inl he.2

theorem race_sort (hk : Keeps env V) (hc : Counts env calls) (s : σ) (data : List E) (hv : ∀ v ∈ data, V v)
    (hn : data.length < 2 ^ 63) :
    ∃ res s' out, SortFn env s data = some (res, s', out) ∧ out.length = data.length ∧ (∀ v ∈ out, V v) ∧
      calls s' ≤ calls s + data.length * (7 * data.length + 4 * (Nat.log2 data.length + 1) + 18) ∧
      (res = .ok () ∨ ∃ msg w x y, res = .error msg ∧ V x ∧ V y ∧ (env.less w x y).1 = .error msg) := by
  refine race_of hk hc hv (sim_pdqsort hn (data.length + 1) 0 data.length (bitsLen data.length) true true
    (by omega) (by omega) (by omega)) ?_ ?_
  · exact Prog.wp_mono (sortProg_any data) fun _ _ => trivial
  · exact Prog.cw_mono (sortProg_cost_any data) fun _ k h =>
      Nat.le_trans h (Nat.mul_le_mul_left _ (by have := Sort.bitsLen_le data.length; omega))

theorem race_stable (hk : Keeps env V) (hc : Counts env calls) (s : σ) (data : List E) (hv : ∀ v ∈ data, V v)
    (hn : data.length < 2 ^ 63) :
    ∃ res s' out, StableFn env s data = some (res, s', out) ∧ out.length = data.length ∧ (∀ v ∈ out, V v) ∧
      calls s' ≤ calls s + data.length * (4 * (Nat.log2 data.length + 1) + 19) ∧
      (res = .ok () ∨ ∃ msg w x y, res = .error msg ∧ V x ∧ V y ∧ (env.less w x y).1 = .error msg) := by
  refine race_of hk hc hv (sim_stable hn) ?_ ?_
  · exact Prog.wp_mono (stableProg_any data) fun _ _ => trivial
  · exact Prog.cw_mono (stableProg_cost data) fun _ k h =>
      Nat.le_trans h (Nat.mul_le_mul_left _ (by have := Sort.bitsLen_le data.length; omega))

/-- **While others write to the slice.** The comparator may change the slice, and other goroutines may change it before
each access, and a read of an element may give a mixture of values; only the length stays. `Sort` and `Stable` end nevertheless: they return, or end with a panic that the
comparator raised. They never index out of range. If all values that the others write, and those in the slice, are in a
set `V`, and mixtures of them as well, then the comparator is only called with values from `V`, and only values from `V` are in the slice then. -/
theorem C133_ends (env : World σ E) (V : E → Prop) (hk : Keeps env V) (s : σ) (data : List E) (hv : ∀ v ∈ data, V v)
    (hn : data.length < 2 ^ 63) :
    ∀ r ∈ [SortFn env s data, StableFn env s data],
      ∃ res s' out, r = some (res, s', out) ∧ out.length = data.length ∧ (∀ v ∈ out, V v) ∧
        (res = .ok () ∨ ∃ msg w x y, res = .error msg ∧ V x ∧ V y ∧ (env.less w x y).1 = .error msg) := by
  have hc : Counts env fun _ => 0 := ⟨fun _ => Nat.le_refl _, fun _ _ _ => Nat.zero_le _⟩
  intro r hr
  rcases List.mem_cons.1 hr with rfl | hr
  · obtain ⟨res, s', out, h1, h2, h3, -, h4⟩ := race_sort hk hc s data hv hn
    exact ⟨res, s', out, h1, h2, h3, h4⟩
  · rcases List.mem_singleton.1 hr with rfl
    obtain ⟨res, s', out, h1, h2, h3, -, h4⟩ := race_stable hk hc s data hv hn
    exact ⟨res, s', out, h1, h2, h3, h4⟩

/-- The same world, and the calls of the comparator are counted. -/
def World.counted (env : World σ E) : World (σ × Nat) E where
  less w x y := ((env.less (w.1.1, w.2) x y).1,
    (((env.less (w.1.1, w.2) x y).2.1, w.1.2 + 1), (env.less (w.1.1, w.2) x y).2.2))
  tick w := (((env.tick (w.1.1, w.2)).1, w.1.2), (env.tick (w.1.1, w.2)).2)
  torn w x := env.torn (w.1.1, w.2) x

/-- **How often the comparator is called then.** Not more often than without the others: at most
`n * (7 * n + 4 * (⌊log₂ n⌋ + 1) + 18)` times by `Sort` and at most `n * (4 * (⌊log₂ n⌋ + 1) + 19)` times by `Stable`,
whatever is written to the slice meanwhile. -/
theorem C133_calls (env : World σ E) (hk : Keeps env fun _ => True) (s : σ) (data : List E) (hn : data.length < 2 ^ 63) :
    (∃ res s' m out, SortFn env.counted (s, 0) data = some (res, (s', m), out) ∧
      m ≤ data.length * (7 * data.length + 4 * (Nat.log2 data.length + 1) + 18)) ∧
    (∃ res s' m out, StableFn env.counted (s, 0) data = some (res, (s', m), out) ∧
      m ≤ data.length * (4 * (Nat.log2 data.length + 1) + 19)) := by
  have hk' : Keeps env.counted fun _ => True :=
    ⟨fun w => hk.tick_length (w.1.1, w.2), fun w x y => hk.less_length (w.1.1, w.2) x y, fun _ _ _ _ => trivial,
      fun _ _ _ _ => trivial, fun _ _ _ _ _ _ _ _ => trivial⟩
  have hc : Counts env.counted (fun s => s.2) := ⟨fun _ => Nat.le_refl _, fun _ _ _ => Nat.le_refl _⟩
  refine ⟨?_, ?_⟩
  · obtain ⟨res, ⟨s', m⟩, out, h1, -, -, h2, -⟩ := race_sort hk' hc (s, 0) data (fun _ _ => trivial) hn
    exact ⟨res, s', m, out, h1, by simpa using h2⟩
  · obtain ⟨res, ⟨s', m⟩, out, h1, -, -, h2, -⟩ := race_stable hk' hc (s, 0) data (fun _ _ => trivial) hn
    exact ⟨res, s', m, out, h1, by simpa using h2⟩

/-! ## Concrete cases -/

/-- Another goroutine that keeps writing the numbers from 100 up through the slice; a comparator that sets an element
to zero whenever it is called, and panics on the 2000th call. -/
def busy : World (Nat × Nat) Nat where
  less w x y := (if w.1.1 < 2000 then .ok (decide (x < y)) else .error "boom", ((w.1.1 + 1, w.1.2), w.2.set (w.1.1 % 7) 0))
  tick w := ((w.1.1, w.1.2 + 1), w.2.set (w.1.2 % 5) (100 + w.1.2 % 3))

example : ∃ res s' out, SortFn busy (0, 0) [5, 3, 9, 1, 1, 2, 7, 8, 4, 6, 0, 3, 5, 5] = some (res, s', out) ∧
    out.length = 14 ∧ (∀ v ∈ out, v < 10 ∨ 100 ≤ v ∧ v < 103) ∧ (res = .ok () ∨ res = .error "boom") := by
  have hk : Keeps busy fun v => v < 10 ∨ 100 ≤ v ∧ v < 103 := by
    refine ⟨fun w => by simp [busy], fun w x y => by simp [busy], fun w h v hv => ?_, fun _ h v hv => h v hv,
      fun w x y hx hy h v hv => ?_⟩
    · rcases List.mem_or_eq_of_mem_set hv with hv | rfl
      · exact h v hv
      · omega
    · rcases List.mem_or_eq_of_mem_set hv with hv | rfl
      · exact h v hv
      · omega
  obtain ⟨res, s', out, h1, h2, h3, h4⟩ := C133_ends busy _ hk (0, 0) [5, 3, 9, 1, 1, 2, 7, 8, 4, 6, 0, 3, 5, 5]
    (by decide) (by decide) _ (List.mem_cons_self ..)
  refine ⟨res, s', out, h1, h2, h3, h4.imp id ?_⟩
  rintro ⟨msg, w, x, y, rfl, -, -, he⟩
  simp only [busy] at he
  split at he
  · cases he
  · cases he; rfl

/-- Another goroutine writes 7 to the first element while `Sort` exchanges the two: the 7 is lost, as the values read
before are written back. -/
def meddler : World Nat Nat where
  less w x y := (.ok (decide (x < y)), w)
  tick w := (w.1 + 1, if w.1 = 4 then w.2.set 0 7 else w.2)

example : SortFn meddler 0 [2, 1] = some (.ok (), 6, [1, 2]) := by
  have e1 : isLess meddler 1 (1 - 1) (0, [2, 1]) = some (.ok true, (2, [2, 1])) := by decide
  have e2 : exchange meddler 1 (1 - 1) (2, [2, 1]) = some (.ok (), (6, [1, 2])) := by decide
  have e3 : insertionInner meddler 0 1 (0, [2, 1]) = some (.ok (), (6, [1, 2])) := by
    rw [insertionInner, if_pos (by decide), bind_ok e1, if_pos rfl, bind_ok e2, insertionInner, if_neg (by decide)]
    rfl
  show pdqLoop meddler 0 2 2 true true (0, [2, 1]) = _
  rw [pdqLoop]
  show insertionOuter meddler 0 2 1 (0, [2, 1]) = _
  rw [insertionOuter, if_pos (by decide), bind_ok e3, insertionOuter, if_neg (by decide)]
  rfl

end Verif.Sort.Written
