import Verif.Sharded.Reentrant
import Verif.Sharded.WeakProps

/-!
# C142: user code that goes to higher shards only; `MarshalJSON`

C86 shows how user code that calls back into the map can block for ever. Here goroutines again run arbitrary programs over the
shards, but each asks for a lock only if it is of a higher shard than all it holds. Then there is no deadlock.
-/

set_option linter.unusedSectionVars false

namespace Verif.Sharded.Ascending

open Verif.Conc Verif.GoMap Verif.Sharded

variable {K V : Type} [DecidableEq K] [Inhabited V]

/-! ## The discipline -/

/-- What a goroutine has of a shard: nothing, the shard for reading, the writers' mutex while waiting for the readers to leave,
the shard for writing. -/
inductive Hold where
  | no | R | P | W
  deriving DecidableEq

/-- What a goroutine holds. -/
abbrev Holds := Nat → Hold

/-- No lock at all. -/
def nothing : Holds := fun _ => .no

/-- It is not in the middle of a `Lock`. -/
def Settled (h : Holds) : Prop := ∀ j, h j ≠ .P

/-- All it holds is below shard `i`. -/
def Below (h : Holds) (i : Nat) : Prop := ∀ j, h j ≠ .no → j < i

/-- The action is allowed to who holds `h`, and then they hold `h'`. `q` is what is known of the tables; changes keep it. -/
def After (n : Nat) (q : Nat → Tab K V → Prop) (h h' : Holds) : Act K V → Prop
  | .lockBegin i => Settled h ∧ i < n ∧ Below h i ∧ h' = set1 h i .P
  | .lockWait i => i < n ∧ h i = .P ∧ (∀ j, h j ≠ .no → j ≤ i) ∧ h' = set1 h i .W
  | .unlock i => Settled h ∧ h i = .W ∧ h' = set1 h i .no
  | .rlock i => Settled h ∧ i < n ∧ Below h i ∧ h' = set1 h i .R
  | .runlock i => Settled h ∧ h i = .R ∧ h' = set1 h i .no
  | .write i f => Settled h ∧ h' = h ∧ ∀ m, q i m → q i (f m)
  | _ => Settled h ∧ h' = h

/-- The answer is possible. -/
def May (q : Nat → Tab K V → Prop) : (a : Act K V) → Ans a → Prop
  | .read i, m => q i m
  | _, _ => True

/-- The program of one that holds `h` does only what is allowed, and ends as `post` says. -/
def AscTo (n : Nat) (q : Nat → Tab K V → Prop) {R : Type} (post : R → Holds → Prop) : Holds → P K V R → Prop
  | h, .ret r => post r h
  | h, .act a k => ∃ h', After n q h h' a ∧ ∀ ans, May q a ans → AscTo n q post h' (k ans)

/-- The program of one that holds `h` does only what is allowed, and ends holding the same. -/
def Back (n : Nat) (q : Nat → Tab K V → Prop) (h : Holds) {R : Type} (p : P K V R) : Prop :=
  AscTo n q (fun _ h' => h' = h) h p

theorem AscTo.bind {n : Nat} {q : Nat → Tab K V → Prop} {R R' : Type} {post : R → Holds → Prop}
    {post' : R' → Holds → Prop} {f : R → P K V R'} (hf : ∀ r h, post r h → AscTo n q post' h (f r)) :
    ∀ {h : Holds} {p : P K V R}, AscTo n q post h p → AscTo n q post' h (p >>= f)
  | _, .ret r, e => hf r _ e
  | _, .act a k, ⟨h', e1, e2⟩ => ⟨h', e1, fun ans ha => AscTo.bind hf (e2 ans ha)⟩

/-! ## The locks are as the goroutines think -/

/-- The lock of one shard, and what the goroutines have of it. -/
structure Agree (l : RW) (g : Tid → Hold) : Prop where
  wr : ∀ t, l.wr = some t ↔ g t = .P ∨ g t = .W
  actW : ∀ t, g t = .W → l.active = true ∧ l.rd = []
  actP : ∀ t, g t = .P → l.active = false
  rd : ∀ t, l.rd.count t = if g t = .R then 1 else 0

theorem Agree.start : Agree ⟨none, false, []⟩ (fun _ => .no) where
  wr t := by simp
  actW t h := by cases h
  actP t h := by cases h
  rd t := by simp

theorem Agree.nobody {l : RW} {g : Tid → Hold} (A : Agree l g) (h : l.wr = none) (u : Tid) : g u ≠ .P ∧ g u ≠ .W := by
  constructor
  · intro c; have := (A.wr u).2 (Or.inl c); rw [h] at this; cases this
  · intro c; have := (A.wr u).2 (Or.inr c); rw [h] at this; cases this

theorem Agree.other {l : RW} {g : Tid → Hold} (A : Agree l g) {t u : Tid} (h : l.wr = some t) (hu : u ≠ t) :
    g u ≠ .P ∧ g u ≠ .W := by
  constructor
  · intro c; have := (A.wr u).2 (Or.inl c); rw [h] at this; injection this with this; exact hu this.symm
  · intro c; have := (A.wr u).2 (Or.inr c); rw [h] at this; injection this with this; exact hu this.symm

theorem Agree.lockBegin {l : RW} {g : Tid → Hold} (A : Agree l g) {t : Tid} (h0 : g t = .no) (hn : l.wr = none) :
    Agree { l with wr := some t, active := false } (upd g t .P) := by
  have nb := A.nobody hn
  constructor
  · intro u
    by_cases hu : u = t
    · subst hu; simp [upd_same]
    · rw [upd_other _ _ hu]
      constructor
      · intro e; injection e with e; exact absurd e.symm hu
      · rintro (e | e)
        · exact absurd e (nb u).1
        · exact absurd e (nb u).2
  · intro u hg
    by_cases hu : u = t
    · subst hu; rw [upd_same] at hg; cases hg
    · rw [upd_other _ _ hu] at hg; exact absurd hg (nb u).2
  · intro u _; rfl
  · intro u
    have := A.rd u
    by_cases hu : u = t
    · subst hu; rw [upd_same]; rw [h0] at this; exact this
    · rw [upd_other _ _ hu]; exact this

theorem Agree.lockWait {l : RW} {g : Tid → Hold} (A : Agree l g) {t : Tid} (h0 : g t = .P) (hr : l.rd = []) :
    Agree { l with active := true } (upd g t .W) := by
  have hw := (A.wr t).2 (Or.inl h0)
  constructor
  · intro u
    by_cases hu : u = t
    · subst hu; simp [upd_same, hw]
    · rw [upd_other _ _ hu]; exact A.wr u
  · intro u _; exact ⟨rfl, hr⟩
  · intro u hg
    by_cases hu : u = t
    · subst hu; rw [upd_same] at hg; cases hg
    · rw [upd_other _ _ hu] at hg; exact absurd hg (A.other hw hu).1
  · intro u
    have := A.rd u
    by_cases hu : u = t
    · subst hu; rw [upd_same]; rw [h0] at this; exact this
    · rw [upd_other _ _ hu]; exact this

theorem Agree.unlock {l : RW} {g : Tid → Hold} (A : Agree l g) {t : Tid} (h0 : g t = .W) :
    Agree { l with wr := none, active := false } (upd g t .no) := by
  have hw := (A.wr t).2 (Or.inr h0)
  constructor
  · intro u
    by_cases hu : u = t
    · subst hu; simp [upd_same]
    · rw [upd_other _ _ hu]
      have := A.other hw hu
      constructor
      · intro e; cases e
      · rintro (e | e)
        · exact absurd e this.1
        · exact absurd e this.2
  · intro u hg
    by_cases hu : u = t
    · subst hu; rw [upd_same] at hg; cases hg
    · rw [upd_other _ _ hu] at hg; exact absurd hg (A.other hw hu).2
  · intro u _; rfl
  · intro u
    have := A.rd u
    by_cases hu : u = t
    · subst hu; rw [upd_same]; rw [h0] at this; exact this
    · rw [upd_other _ _ hu]; exact this

theorem Agree.rlock {l : RW} {g : Tid → Hold} (A : Agree l g) {t : Tid} (h0 : g t = .no) (hn : l.wr = none) :
    Agree { l with rd := t :: l.rd } (upd g t .R) := by
  have nb := A.nobody hn
  constructor
  · intro u
    by_cases hu : u = t
    · subst hu; simp [upd_same, hn]
    · rw [upd_other _ _ hu]; exact A.wr u
  · intro u hg
    by_cases hu : u = t
    · subst hu; rw [upd_same] at hg; cases hg
    · rw [upd_other _ _ hu] at hg; exact absurd hg (nb u).2
  · intro u hg
    by_cases hu : u = t
    · subst hu; rw [upd_same] at hg; cases hg
    · rw [upd_other _ _ hu] at hg; exact absurd hg (nb u).1
  · intro u
    have := A.rd u
    by_cases hu : u = t
    · subst hu; rw [upd_same]; rw [h0] at this
      simp only [List.count_cons_self]; simp at this ⊢; exact this
    · rw [upd_other _ _ hu]; simp only [List.count_cons_of_ne (Ne.symm hu)]; exact this

theorem Agree.runlock {l : RW} {g : Tid → Hold} (A : Agree l g) {t : Tid} (h0 : g t = .R) :
    Agree { l with rd := l.rd.erase t } (upd g t .no) := by
  constructor
  · intro u
    by_cases hu : u = t
    · subst hu; have := A.wr u; rw [h0] at this; rw [upd_same]; simpa using this
    · rw [upd_other _ _ hu]; exact A.wr u
  · intro u hg
    by_cases hu : u = t
    · subst hu; rw [upd_same] at hg; cases hg
    · rw [upd_other _ _ hu] at hg
      obtain ⟨a, b⟩ := A.actW u hg
      exact ⟨a, by simp [b]⟩
  · intro u hg
    by_cases hu : u = t
    · subst hu; rw [upd_same] at hg; cases hg
    · rw [upd_other _ _ hu] at hg; exact A.actP u hg
  · intro u
    have := A.rd u
    by_cases hu : u = t
    · subst hu; rw [upd_same]; rw [h0] at this
      simp only [List.count_erase_self, this]; simp
    · rw [upd_other _ _ hu]; simp only [List.count_erase_of_ne hu]; exact this

/-- The locks of all shards. -/
def AllAgree (lock : Nat → RW) (held : Tid → Holds) : Prop := ∀ i, Agree (lock i) (fun t => held t i)

theorem allAgree_set {lock : Nat → RW} {held : Tid → Holds} (A : AllAgree lock held) (t : Tid) (i : Nat) {l : RW}
    {x : Hold} (h : Agree l (upd (fun u => held u i) t x)) :
    AllAgree (set1 lock i l) (upd held t (set1 (held t) i x)) := by
  intro j
  by_cases hj : j = i
  · subst hj
    rw [set1_same]
    have e : (fun u => upd held t (set1 (held t) j x) u j) = upd (fun u => held u j) t x := by
      funext u
      by_cases hu : u = t
      · subst hu; rw [upd_same, upd_same, set1_same]
      · rw [upd_other _ _ hu, upd_other _ _ hu]
    rw [e]
    exact h
  · rw [set1_other _ _ hj]
    have e : (fun u => upd held t (set1 (held t) i x) u j) = fun u => held u j := by
      funext u
      by_cases hu : u = t
      · subst hu; rw [upd_same, set1_other _ _ hj]
      · rw [upd_other _ _ hu]
    rw [e]
    exact A j

theorem below_no {h : Holds} {i : Nat} (hb : Below h i) : h i = .no := by
  cases e : h i with
  | no => rfl
  | _ => exact absurd (hb i (by rw [e]; intro c; cases c)) (Nat.lt_irrefl i)

theorem upd_holds (held : Tid → Holds) (t : Tid) : upd held t (held t) = held := by
  funext u
  by_cases hu : u = t
  · subst hu; rw [upd_same]
  · rw [upd_other _ _ hu]

theorem step_agree {n : Nat} {q : Nat → Tab K V → Prop} {σ σ' : Sh K V} {held : Tid → Holds} (A : AllAgree σ.lock held)
    {t : Tid} {a : Act K V} {ans : Ans a} {h' : Holds} (hs : AStep t a σ ans σ') (ha : After n q (held t) h' a) :
    AllAgree σ'.lock (upd held t h') := by
  have keep : h' = held t → σ'.lock = σ.lock → AllAgree σ'.lock (upd held t h') := by
    intro e1 e2
    rw [e1, e2, upd_holds]
    exact A
  cases hs with
  | lockBegin _ i hn =>
    obtain ⟨-, -, hb, rfl⟩ := ha
    exact allAgree_set A t i ((A i).lockBegin (below_no hb) hn)
  | lockWait _ i hw hact hr =>
    obtain ⟨-, h0, -, rfl⟩ := ha
    exact allAgree_set A t i ((A i).lockWait h0 hr)
  | unlock _ i hw hact =>
    obtain ⟨-, h0, rfl⟩ := ha
    exact allAgree_set A t i ((A i).unlock h0)
  | rlock _ i hn =>
    obtain ⟨-, -, hb, rfl⟩ := ha
    exact allAgree_set A t i ((A i).rlock (below_no hb) hn)
  | runlock _ i hm =>
    obtain ⟨-, h0, rfl⟩ := ha
    exact allAgree_set A t i ((A i).runlock h0)
  | read _ i => exact keep ha.2 rfl
  | write _ i f => exact keep ha.2.1 rfl
  | factory _ k v => exact keep ha.2 rfl
  | callback _ b => exact keep ha.2 rfl
  | edit _ f => exact keep ha.2 rfl
  | order _ o => exact keep ha.2 rfl

theorem step_tables {n : Nat} {q : Nat → Tab K V → Prop} {σ σ' : Sh K V} (hq : ∀ i, q i (σ.items i))
    {t : Tid} {a : Act K V} {ans : Ans a} {h h' : Holds} (hs : AStep t a σ ans σ') (ha : After n q h h' a) :
    May q a ans ∧ ∀ i, q i (σ'.items i) := by
  cases hs with
  | read _ i => exact ⟨hq i, hq⟩
  | write _ i f =>
    refine ⟨trivial, fun j => ?_⟩
    show q j (set1 σ.items i (f (σ.items i)) j)
    by_cases hj : j = i
    · subst hj; rw [set1_same]; exact ha.2.2 _ (hq j)
    · rw [set1_other _ _ hj]; exact hq j
  | _ => exact ⟨trivial, hq⟩

/-! ## Progress -/

variable {R : Type}

/-- The state of a system in which goroutines run any programs with results in `R`. -/
abbrev AnyCfg (K V R : Type) [DecidableEq K] := Config (mach K V) (P K V R) R

/-- What happened in it. -/
abbrev AnyLab (K V R : Type) [DecidableEq K] := Label (mach K V) (P K V R) R

/-- The programs are the operations. -/
def self (p : P K V R) : Prog (mach K V).A (mach K V).Ans R := p

/-- The invariant. -/
def Inv (n : Nat) (q : Nat → Tab K V → Prop) (held : Tid → Holds) (s : AnyCfg K V R) : Prop :=
  AllAgree s.sh.lock held ∧ (∀ i, q i (s.sh.items i)) ∧ ∀ t, match s.th t with
    | .idle => held t = nothing
    | .run _ p => AscTo n q (fun _ h' => h' = nothing) (held t) p

theorem inv_exec {n : Nat} {q : Nat → Tab K V → Prop} (hq : ∀ i, q i []) {tr : List (AnyLab K V R)} {s : AnyCfg K V R}
    (he : Exec (M := mach K V) self (Config.init fresh) tr s) (hc : Calls (fun _ p => Back n q nothing p) tr) :
    ∃ held, Inv n q held s := by
  refine Exec.invariant (M := mach K V) (P := fun _ p => Back n q nothing p) (fun s => ∃ held, Inv n q held s)
    ?_ ?_ ?_ ?_ he hc
  · exact ⟨fun _ => nothing, fun i => Agree.start, hq, fun t => rfl⟩
  · rintro s t p ⟨held, A, T, H⟩ hp hi
    refine ⟨held, A, T, fun u => ?_⟩
    by_cases hu : u = t
    · subst hu
      have := H u
      rw [hi] at this
      simp only [upd_same]
      rw [this]
      exact hp
    · simp only [upd_other _ _ hu]; exact H u
  · rintro s t p a k ans sh' ⟨held, A, T, H⟩ hr hs
    have ht := H t
    rw [hr] at ht
    obtain ⟨h', e1, e2⟩ := ht
    obtain ⟨m, T'⟩ := step_tables T hs e1
    refine ⟨upd held t h', step_agree A hs e1, T', fun u => ?_⟩
    by_cases hu : u = t
    · subst hu
      simp only [upd_same]
      exact e2 ans m
    · simp only [upd_other _ _ hu]; exact H u
  · rintro s t p r ⟨held, A, T, H⟩ hr
    refine ⟨held, A, T, fun u => ?_⟩
    by_cases hu : u = t
    · subst hu
      have := H u
      rw [hr] at this
      simp only [upd_same]
      exact this
    · simp only [upd_other _ _ hu]; exact H u

/-- Some goroutine in a call can go on. -/
def Unstuck (s : AnyCfg K V R) : Prop := ∃ s', InnerStep (M := mach K V) self s s'

theorem unstuck_of_step {s : AnyCfg K V R} {t : Tid} {p : P K V R} {a : Act K V} {k : Ans a → P K V R}
    (hn : s.th t = .run p (.act a k)) (h : ∃ ans σ', AStep t a s.sh ans σ') : Unstuck s := by
  obtain ⟨ans, σ', h⟩ := h
  exact ⟨_, _, .act t p a k ans σ' hn h, fun _ _ e => by cases e⟩

/-- Who cannot step waits for a lock. -/
theorem can_step {n : Nat} {q : Nat → Tab K V → Prop} {σ : Sh K V} {held : Tid → Holds} (A : AllAgree σ.lock held)
    {t : Tid} {a : Act K V} {h' : Holds} (ha : After n q (held t) h' a) :
    (∃ ans σ', AStep t a σ ans σ') ∨
    (∃ i, Below (held t) i ∧ i < n ∧ ∃ u, (held u i = .P ∨ held u i = .W)) ∨
    (∃ i, i < n ∧ held t i = .P ∧ (∀ j, held t j ≠ .no → j ≤ i) ∧ ∃ u, held u i = .R) := by
  cases a with
  | lockBegin i =>
    cases hw : (σ.lock i).wr with
    | none => exact Or.inl ⟨_, _, .lockBegin _ i hw⟩
    | some u => exact Or.inr (Or.inl ⟨i, ha.2.2.1, ha.2.1, u, ((A i).wr u).1 hw⟩)
  | lockWait i =>
    obtain ⟨h1, h0, h2, -⟩ := ha
    by_cases hr : (σ.lock i).rd = []
    · exact Or.inl ⟨_, _, .lockWait _ i (((A i).wr t).2 (Or.inl h0)) ((A i).actP t h0) hr⟩
    · obtain ⟨v, hv⟩ := List.exists_mem_of_ne_nil _ hr
      have e1 := (A i).rd v
      have e2 := List.count_pos_iff.2 hv
      refine Or.inr (Or.inr ⟨i, h1, h0, h2, v, ?_⟩)
      by_cases e : held v i = .R
      · exact e
      · rw [if_neg e] at e1; omega
  | unlock i => exact Or.inl ⟨_, _, .unlock _ i (((A i).wr t).2 (Or.inr ha.2.1)) ((A i).actW t ha.2.1).1⟩
  | rlock i =>
    cases hw : (σ.lock i).wr with
    | none => exact Or.inl ⟨_, _, .rlock _ i hw⟩
    | some u => exact Or.inr (Or.inl ⟨i, ha.2.2.1, ha.2.1, u, ((A i).wr u).1 hw⟩)
  | runlock i =>
    refine Or.inl ⟨_, _, .runlock _ i ?_⟩
    have := (A i).rd t
    simp only [ha.2.1, if_pos] at this
    exact List.count_pos_iff.1 (by omega)
  | read i => exact Or.inl ⟨_, _, .read _ i⟩
  | write i f => exact Or.inl ⟨_, _, .write _ i f⟩
  | factory k => exact Or.inl ⟨_, _, .factory _ k none⟩
  | callback => exact Or.inl ⟨_, _, .callback _ true⟩
  | edit => exact Or.inl ⟨_, _, .edit _ none⟩
  | order => exact Or.inl ⟨_, _, .order _ Order.id⟩

theorem next_of_held {n : Nat} {q : Nat → Tab K V → Prop} {held : Tid → Holds} {s : AnyCfg K V R} (I : Inv n q held s)
    {t : Tid} {i : Nat} (h : held t i ≠ .no) :
    ∃ p a k h', s.th t = .run p (.act a k) ∧ After n q (held t) h' a := by
  have ht := I.2.2 t
  cases hs : s.th t with
  | idle => rw [hs] at ht; simp only [] at ht; rw [ht] at h; exact absurd rfl h
  | run p r =>
    rw [hs] at ht
    cases r with
    | ret r => have ht : held t = nothing := ht; rw [ht] at h; exact absurd rfl h
    | act a k =>
      obtain ⟨h', e, -⟩ := ht
      exact ⟨p, a, k, h', rfl, e⟩

theorem holder_unstuck {n : Nat} {q : Nat → Tab K V → Prop} {held : Tid → Holds} {s : AnyCfg K V R} (I : Inv n q held s) :
    ∀ (d i : Nat), n - i ≤ d → ∀ t, held t i ≠ .no → Unstuck s := by
  intro d
  induction d with
  | zero =>
    intro i hd t ht
    obtain ⟨p, a, k, h', hn, ha⟩ := next_of_held I ht
    rcases can_step I.1 ha with hs | ⟨j, hb, hj, -⟩ | ⟨j, hj, -, hb, -⟩
    · exact unstuck_of_step hn hs
    · have := hb i ht; omega
    · have := hb i ht; omega
  | succ d ih =>
    -- first if it is held for reading or for writing
    have first : ∀ i, n - i ≤ d + 1 → ∀ t, held t i = .R ∨ held t i = .W → Unstuck s := by
      intro i hd t ht
      have h0 : held t i ≠ .no := by rcases ht with e | e <;> rw [e] <;> intro c <;> cases c
      obtain ⟨p, a, k, h', hn, ha⟩ := next_of_held I h0
      rcases can_step I.1 ha with hs | ⟨j, hb, hj, u, hu⟩ | ⟨j, hj, hp, hb, u, hu⟩
      · exact unstuck_of_step hn hs
      · have := hb i h0
        exact ih j (by omega) u (by rcases hu with e | e <;> rw [e] <;> intro c <;> cases c)
      · have h1 := hb i h0
        have h2 : i ≠ j := by
          rintro rfl
          rw [hp] at ht
          rcases ht with e | e <;> cases e
        exact ih j (by omega) t (by rw [hp]; intro c; cases c)
    intro i hd t ht
    cases e : held t i with
    | no => exact absurd e ht
    | R => exact first i hd t (Or.inl e)
    | W => exact first i hd t (Or.inr e)
    | P =>
      obtain ⟨p, a, k, h', hn, ha⟩ := next_of_held I ht
      rcases can_step I.1 ha with hs | ⟨j, hb, hj, u, hu⟩ | ⟨j, hj, hp, hb, u, hu⟩
      · exact unstuck_of_step hn hs
      · have := hb i ht
        exact ih j (by omega) u (by rcases hu with e | e <;> rw [e] <;> intro c <;> cases c)
      · have h1 := hb i ht
        by_cases h2 : i = j
        · subst h2; exact first i hd u (Or.inl hu)
        · exact ih j (by omega) t (by rw [hp]; intro c; cases c)

theorem unstuck_of_inv {n : Nat} {q : Nat → Tab K V → Prop} {held : Tid → Holds} {s : AnyCfg K V R} (I : Inv n q held s)
    {t : Tid} (ht : s.th t ≠ .idle) : Unstuck s := by
  have h1 := I.2.2 t
  cases hs : s.th t with
  | idle => exact absurd hs ht
  | run p r =>
    rw [hs] at h1
    cases r with
    | ret r => exact ⟨_, _, .ret t p r hs, fun _ _ e => by cases e⟩
    | act a k =>
      obtain ⟨h', ha, -⟩ := h1
      rcases can_step I.1 ha with hst | ⟨j, -, -, u, hu⟩ | ⟨j, -, hp, -, -⟩
      · exact unstuck_of_step hs hst
      · exact holder_unstuck I (n - j) j (Nat.le_refl _) u (by rcases hu with e | e <;> rw [e] <;> intro c <;> cases c)
      · exact holder_unstuck I (n - j) j (Nat.le_refl _) t (by rw [hp]; intro c; cases c)

/-! ## Methods with given user code -/

/-- The loop of `IterateShards` (ds/xmap/sharded.go:172-181) with a given `fn`, which is told the table and returns what it has made
of it, and whether it returned (`false`: it panicked). -/
def iterateShardsLoopWith (fn : Tab K V → P K V (Tab K V × Bool)) : (i rem : Nat) → P K V (Res K V)
  | _, 0 => return .unit
  | i, rem + 1 => do
    lock i
    let items ← read i
    let (m, ok) ← fn items
    step_ (.write i (fun _ => m))
    step_ (.unlock i)
    if ok then iterateShardsLoopWith fn (i + 1) rem else return .panic

/-- The loop of `IterateShardsReadOnly` (ds/xmap/sharded.go:183-192) with a given `fn` (`false`: it panics). -/
def readOnlyLoopWith (fn : Tab K V → P K V Bool) : (i rem : Nat) → P K V (Res K V)
  | _, 0 => return .unit
  | i, rem + 1 => do
    step_ (.rlock i)
    let items ← read i
    let b ← fn items
    step_ (.runlock i)
    if b then readOnlyLoopWith fn (i + 1) rem else return .panic

/-- `MarshalJSON` (ds/xmap/sharded.go:237-239): `ToMap`, and then `json.Marshal` of the map, which is `enc`; it may run any
program, since it calls the `MarshalJSON` methods of the values. -/
def marshalJSON (c : Conf K) (enc : Tab K V → P K V R) : P K V R := do
  let m ← collectLoop (fun (acc : Tab K V) es => es.foldl (fun acc e => acc.put e.1 e.2) acc) 0 c.n []
  enc m

/-! ## They are in order -/

section
variable {n : Nat} {q : Nat → Tab K V → Prop} {post : R → Holds → Prop} {h : Holds} {i : Nat}

theorem set1_set1 (h : Holds) (i : Nat) (x y : Hold) : set1 (set1 h i x) i y = set1 h i y := by
  funext j
  unfold set1
  split <;> rfl

theorem set1_back (h : Holds) (i : Nat) (hn : h i = .no) : set1 h i .no = h := by
  funext j
  unfold set1
  split
  · rename_i e; rw [e, hn]
  · rfl

theorem settled_set (hs : Settled h) (i : Nat) {x : Hold} (hx : x ≠ .P) : Settled (set1 h i x) := by
  intro j
  unfold set1
  split
  · exact hx
  · exact hs j

theorem settledW (hs : Settled h) (i : Nat) : Settled (set1 h i .W) := settled_set hs i (by intro c; cases c)
theorem settledR (hs : Settled h) (i : Nat) : Settled (set1 h i .R) := settled_set hs i (by intro c; cases c)

theorem asc_lock {f : Unit → P K V R} (hs : Settled h) (hi : i < n) (hb : Below h i)
    (hf : AscTo n q post (set1 h i .W) (f ())) : AscTo n q post h (lock i >>= f) := by
  refine ⟨set1 h i .P, ⟨hs, hi, hb, rfl⟩, fun _ _ => ⟨set1 h i .W, ⟨hi, set1_same _ _ _, ?_, (set1_set1 _ _ _ _).symm⟩,
    fun _ _ => hf⟩⟩
  intro j hj
  by_cases e : j = i
  · omega
  · rw [set1_other _ _ e] at hj; exact Nat.le_of_lt (hb j hj)

theorem asc_unlock {f : Unit → P K V R} (hs : Settled h) (hb : Below h i) (hf : AscTo n q post h (f ())) :
    AscTo n q post (set1 h i .W) (step_ (.unlock i) >>= f) :=
  ⟨h, ⟨settledW hs i, set1_same _ _ _, by rw [set1_set1, set1_back _ _ (below_no hb)]⟩, fun _ _ => hf⟩

theorem asc_rlock {f : Unit → P K V R} (hs : Settled h) (hi : i < n) (hb : Below h i)
    (hf : AscTo n q post (set1 h i .R) (f ())) : AscTo n q post h (step_ (.rlock i) >>= f) :=
  ⟨_, ⟨hs, hi, hb, rfl⟩, fun _ _ => hf⟩

theorem asc_runlock {f : Unit → P K V R} (hs : Settled h) (hb : Below h i) (hf : AscTo n q post h (f ())) :
    AscTo n q post (set1 h i .R) (step_ (.runlock i) >>= f) :=
  ⟨h, ⟨settledR hs i, set1_same _ _ _, by rw [set1_set1, set1_back _ _ (below_no hb)]⟩, fun _ _ => hf⟩

theorem asc_read {f : Tab K V → P K V R} (hs : Settled h) (hf : ∀ m, q i m → AscTo n q post h (f m)) :
    AscTo n q post h (read i >>= f) := ⟨h, ⟨hs, rfl⟩, hf⟩

theorem asc_write {f : Unit → P K V R} {g : Tab K V → Tab K V} (hs : Settled h) (hg : ∀ m, q i m → q i (g m))
    (hf : AscTo n q post h (f ())) : AscTo n q post h (step_ (.write i g) >>= f) := ⟨h, ⟨hs, rfl, hg⟩, fun _ _ => hf⟩

theorem asc_order {f : Order K V → P K V R} (hs : Settled h) (hf : ∀ o, AscTo n q post h (f o)) :
    AscTo n q post h (rangeOrder >>= f) := ⟨h, ⟨hs, rfl⟩, fun o _ => hf o⟩

end

/-- The shards that a method locks. -/
def Touches (c : Conf K) : Op K V → Nat → Prop
  | .set k _, i | .trySet k _, i | .get k, i | .tryGet k, i | .getOrSetFactory k, i | .getOrSetDefault k _, i
  | .has k, i | .delete k, i => i = shardOf c k
  | _, i => i < c.n

/-- The changes that a method makes keep `q`. -/
def Keeps (c : Conf K) (q : Nat → Tab K V → Prop) (op : Op K V) : Prop :=
  ∀ i f, WriteOf c op i f → ∀ m, q i m → q i (f m)

section
variable {c : Conf K} {q : Nat → Tab K V → Prop} {h : Holds}

theorem back_tryGet (hs : Settled h) {k : K} (hb : Below h (shardOf c k)) : Back c.n q h (tryGetCore (V := V) c k) :=
  asc_rlock hs (shardOf_lt c k) hb (asc_read (settledR hs _) fun _ _ => asc_runlock hs hb rfl)

theorem back_visit {n : Nat} {fn : K × V → P K V Bool} : ∀ (es done : List (K × V)),
    (∀ e ∈ es, Back n q h (fn e)) → Back n q h (visitAllWith fn es done) := by
  intro es
  induction es with
  | nil => intro done _; exact rfl
  | cons e es ih =>
    intro done hf
    refine AscTo.bind (post := fun _ h' => h' = h) (fun b h' eh => ?_) (hf e (by simp))
    subst eh
    cases b with
    | true => exact ih _ fun x hx => hf x (by simp [hx])
    | false => exact rfl

theorem back_iterateLoop {n : Nat} (hs : Settled h) (hb : ∀ i < n, Below h i) {fn : K × V → P K V Bool}
    (hf : ∀ i < n, ∀ m, q i m → ∀ e ∈ m, Back n q (set1 h i .R) (fn e)) : ∀ (rem i : Nat) (acc : List (K × V)),
    i + rem = n → Back n q h (iterateLoopWith fn i rem acc) := by
  intro rem
  induction rem with
  | zero => intro i acc _; exact rfl
  | succ rem ih =>
    intro i acc hi
    refine asc_rlock hs (by omega) (hb i (by omega)) (asc_read (settledR hs i) fun m hm => asc_order (settledR hs i) fun o =>
      AscTo.bind (post := fun _ h' => h' = set1 h i .R) (fun x h' eh => ?_)
        (back_visit _ _ fun e he => hf i (by omega) m hm e ((o.perm m).mem_iff.1 he)))
    subst eh
    obtain ⟨acc', ok⟩ := x
    refine asc_runlock hs (hb i (by omega)) ?_
    cases ok with
    | true => exact ih _ _ (by omega)
    | false => exact rfl

theorem back_shardsLoop {n : Nat} (hs : Settled h) (hb : ∀ i < n, Below h i) {fn : Tab K V → P K V (Tab K V × Bool)}
    (hf : ∀ i < n, ∀ m, q i m → AscTo n q (fun r h' => h' = set1 h i .W ∧ q i r.1) (set1 h i .W) (fn m)) :
    ∀ (rem i : Nat), i + rem = n → Back n q h (iterateShardsLoopWith fn i rem) := by
  intro rem
  induction rem with
  | zero => intro i _; exact rfl
  | succ rem ih =>
    intro i hi
    refine asc_lock hs (by omega) (hb i (by omega)) (asc_read (settledW hs i) fun m hm =>
      AscTo.bind (fun x h' eh => ?_) (hf i (by omega) m hm))
    obtain ⟨rfl, hq⟩ := eh
    obtain ⟨m', ok⟩ := x
    refine asc_write (settledW hs i) (fun _ _ => hq) (asc_unlock hs (hb i (by omega)) ?_)
    cases ok with
    | true => exact ih _ (by omega)
    | false => exact rfl

theorem back_readOnlyLoop {n : Nat} (hs : Settled h) (hb : ∀ i < n, Below h i) {fn : Tab K V → P K V Bool}
    (hf : ∀ i < n, ∀ m, q i m → Back n q (set1 h i .R) (fn m)) :
    ∀ (rem i : Nat), i + rem = n → Back n q h (readOnlyLoopWith fn i rem) := by
  intro rem
  induction rem with
  | zero => intro i _; exact rfl
  | succ rem ih =>
    intro i hi
    refine asc_rlock hs (by omega) (hb i (by omega)) (asc_read (settledR hs i) fun m hm =>
      AscTo.bind (post := fun _ h' => h' = set1 h i .R) (fun b h' eh => ?_) (hf i (by omega) m hm))
    subst eh
    refine asc_runlock hs (hb i (by omega)) ?_
    cases b with
    | true => exact ih _ (by omega)
    | false => exact rfl

theorem back_collectLoop {n : Nat} {α : Type} (add : α → List (K × V) → α) (hs : Settled h) (hb : ∀ i < n, Below h i) :
    ∀ (rem i : Nat) (x : α), i + rem = n → Back n q h (collectLoop add i rem x) := by
  intro rem
  induction rem with
  | zero => intro i x _; exact rfl
  | succ rem ih =>
    intro i x hi
    exact asc_rlock hs (by omega) (hb i (by omega)) (asc_read (settledR hs i) fun m _ => asc_order (settledR hs i) fun o =>
      asc_runlock hs (hb i (by omega)) (ih _ _ (by omega)))

theorem back_lenLoop {n : Nat} (hs : Settled h) (hb : ∀ i < n, Below h i) :
    ∀ (rem i x : Nat), i + rem = n → Back n q h (lenLoop i rem x) := by
  intro rem
  induction rem with
  | zero => intro i x _; exact rfl
  | succ rem ih =>
    intro i x hi
    exact asc_rlock hs (by omega) (hb i (by omega)) (asc_read (settledR hs i) fun m _ =>
      asc_runlock hs (hb i (by omega)) (ih _ _ (by omega)))

theorem back_emptyLoop {n : Nat} (hs : Settled h) (hb : ∀ i < n, Below h i) :
    ∀ (rem i : Nat), i + rem = n → Back n q h (emptyLoop i rem) := by
  intro rem
  induction rem with
  | zero => intro i _; exact rfl
  | succ rem ih =>
    intro i hi
    refine asc_rlock hs (by omega) (hb i (by omega)) (asc_read (settledR hs i) fun m _ =>
      asc_runlock hs (hb i (by omega)) ?_)
    split
    · exact rfl
    · exact ih _ (by omega)

theorem back_clearLoop {n : Nat} (hs : Settled h) (hb : ∀ i < n, Below h i) (hq : ∀ i m, q i m → q i []) :
    ∀ (rem i : Nat), i + rem = n → Back n q h (clearLoop i rem) := by
  intro rem
  induction rem with
  | zero => intro i _; exact rfl
  | succ rem ih =>
    intro i hi
    exact asc_rlock hs (by omega) (hb i (by omega)) (asc_write (settledR hs i) (fun m hm => hq i m hm)
      (asc_runlock hs (hb i (by omega)) (ih _ (by omega))))

theorem back_editLoop {n : Nat} (hs : Settled h) (hb : ∀ i < n, Below h i)
    (hq : ∀ i (f : Tab K V → Tab K V), (∀ m, m.WF → (f m).WF) → ∀ m, q i m → q i (f m)) :
    ∀ (rem i : Nat), i + rem = n → Back n q h (iterateShardsLoop i rem) := by
  intro rem
  induction rem with
  | zero => intro i _; exact rfl
  | succ rem ih =>
    intro i hi
    refine asc_lock hs (by omega) (hb i (by omega)) ⟨_, ⟨settledW hs i, rfl⟩, fun f _ => ?_⟩
    cases f with
    | none => exact asc_unlock hs (hb i (by omega)) rfl
    | some f => exact asc_write (settledW hs i) (hq i f.1 f.2) (asc_unlock hs (hb i (by omega)) (ih _ (by omega)))

theorem back_fnLoop {n : Nat} (hs : Settled h) (hb : ∀ i < n, Below h i) :
    ∀ (rem i : Nat), i + rem = n → Back n q h (iterateShardsReadOnlyLoop (K := K) (V := V) i rem) := by
  intro rem
  induction rem with
  | zero => intro i _; exact rfl
  | succ rem ih =>
    intro i hi
    refine asc_rlock hs (by omega) (hb i (by omega)) (asc_read (settledR hs i) fun m _ => ⟨_, ⟨settledR hs i, rfl⟩, fun b _ =>
      asc_runlock hs (hb i (by omega)) ?_⟩)
    cases b with
    | true => exact ih _ (by omega)
    | false => exact rfl

theorem back_factory (hs : Settled h) {k : K} (hb : Below h (shardOf c k)) (hq : ∀ v m, q (shardOf c k) m → q (shardOf c k) (m.put k v))
    {fac : P K V (Option V)} (hf : Back c.n q (set1 h (shardOf c k) .W) fac) : Back c.n q h (getOrSetFactoryWith c k fac) := by
  refine AscTo.bind (post := fun _ h' => h' = h) (fun r h' eh => ?_) (back_tryGet hs hb)
  subst eh
  cases r with
  | some v => exact rfl
  | none =>
    refine asc_lock hs (shardOf_lt c k) hb (asc_read (settledW hs _) fun m _ => ?_)
    cases m.get? k with
    | some w => exact asc_unlock hs hb rfl
    | none =>
      refine AscTo.bind (post := fun _ h'' => h'' = set1 h' (shardOf c k) .W) (fun w h'' eh => ?_) hf
      subst eh
      cases w with
      | none => exact asc_unlock hs hb rfl
      | some v => exact asc_write (settledW hs _) (hq v) (asc_unlock hs hb rfl)

end

/-! ## C142 -/

/-- **C142.** Let goroutines run any programs that ask for the lock of a shard only while all locks they hold are of lower shards, and
that give back what they take. In every reachable state in which some call is unfinished some unfinished call can go on;
there is no infinite sequence of steps without new calls; so when nothing can go on all calls are finished. -/
theorem C142_no_deadlock (n : Nat) (q : Nat → Tab K V → Prop) (hq : ∀ i, q i []) (tr : List (AnyLab K V R)) (s : AnyCfg K V R)
    (he : Exec (M := mach K V) self (Config.init fresh) tr s) (hc : Calls (fun _ p => Back n q nothing p) tr) :
    ((∃ t, s.th t ≠ .idle) → ∃ s', InnerStep (M := mach K V) self s s') ∧
    (∀ f : Nat → AnyCfg K V R, f 0 = s → ¬ ∀ k, InnerStep (M := mach K V) self (f k) (f (k + 1))) ∧
    ((∀ s', ¬ InnerStep (M := mach K V) self s s') → ∀ t, s.th t = .idle) := by
  obtain ⟨held, I⟩ := inv_exec hq he hc
  have h1 : (∃ t, s.th t ≠ .idle) → ∃ s', InnerStep (M := mach K V) self s s' := fun ⟨t, ht⟩ => unstuck_of_inv I ht
  refine ⟨h1, fun f h0 => he.no_infinite f h0, fun hn t => ?_⟩
  cases hs : s.th t with
  | idle => rfl
  | run p r =>
    obtain ⟨s', hs'⟩ := h1 ⟨t, by rw [hs]; intro c; cases c⟩
    exact absurd hs' (hn s')

/-- **C142.** Every method may be called while locks are held, if all of them are of lower shards than those the method locks: the
shard of the key, or all shards. -/
theorem C142_methods (c : Conf K) (q : Nat → Tab K V → Prop) (h : Holds) (hs : Settled h) (op : Op K V)
    (hb : ∀ i, Touches c op i → Below h i) (hk : Keeps c q op) : Back c.n q h (body c op) := by
  cases op with
  | set k v =>
    have hb := hb _ rfl
    exact asc_lock hs (shardOf_lt c k) hb (asc_write (settledW hs _) (hk _ _ ⟨rfl, rfl⟩) (asc_unlock hs hb rfl))
  | trySet k v =>
    have hb := hb _ rfl
    refine asc_lock hs (shardOf_lt c k) hb (asc_read (settledW hs _) fun m _ => ?_)
    cases m.get? k with
    | none => exact asc_write (settledW hs _) (hk _ _ ⟨rfl, rfl⟩) (asc_unlock hs hb rfl)
    | some w => exact asc_unlock hs hb rfl
  | get k =>
    refine AscTo.bind (post := fun _ h' => h' = h) (fun r h' eh => ?_) (back_tryGet hs (hb _ rfl))
    cases r <;> exact eh
  | tryGet k =>
    refine AscTo.bind (post := fun _ h' => h' = h) (fun r h' eh => ?_) (back_tryGet hs (hb _ rfl))
    cases r <;> exact eh
  | getOrSetFactory k =>
    exact back_factory hs (hb _ rfl) (fun v => hk _ _ ⟨rfl, v, rfl⟩) ⟨_, ⟨settledW hs _, rfl⟩, fun _ _ => rfl⟩
  | getOrSetDefault k d =>
    have hb := hb _ rfl
    refine AscTo.bind (post := fun _ h' => h' = h) (fun r h' eh => ?_) (back_tryGet hs hb)
    subst eh
    cases r with
    | some v => exact rfl
    | none =>
      refine asc_lock hs (shardOf_lt c k) hb (asc_read (settledW hs _) fun m _ => ?_)
      cases m.get? k with
      | some w => exact asc_unlock hs hb rfl
      | none => exact asc_write (settledW hs _) (hk _ _ ⟨rfl, rfl⟩) (asc_unlock hs hb rfl)
  | len => exact back_lenLoop hs hb _ _ _ (by simp)
  | empty => exact back_emptyLoop hs hb _ _ (by simp)
  | has k =>
    have hb := hb _ rfl
    exact asc_rlock hs (shardOf_lt c k) hb (asc_read (settledR hs _) fun _ _ => asc_runlock hs hb rfl)
  | delete k =>
    have hb := hb _ rfl
    exact asc_lock hs (shardOf_lt c k) hb (asc_write (settledW hs _) (hk _ _ ⟨rfl, rfl⟩) (asc_unlock hs hb rfl))
  | iterate =>
    show Back c.n q h (iterateLoop 0 c.n [])
    rw [← iterateLoopWith_eq]
    exact back_iterateLoop (fn := fun _ => callFn) hs hb (fun i _ m _ e _ => ⟨_, ⟨settledR hs i, rfl⟩, fun _ _ => rfl⟩) _ _ _ (by simp)
  | iterateShards => exact back_editLoop hs hb (fun i f hf => hk i f hf) _ _ (by simp)
  | iterateShardsReadOnly => exact back_fnLoop hs hb _ _ (by simp)
  | keys => exact AscTo.bind (fun _ _ e => e) (back_collectLoop _ hs hb _ _ _ (by simp))
  | values => exact AscTo.bind (fun _ _ e => e) (back_collectLoop _ hs hb _ _ _ (by simp))
  | entries => exact AscTo.bind (fun _ _ e => e) (back_collectLoop _ hs hb _ _ _ (by simp))
  | toMap => exact AscTo.bind (fun _ _ e => e) (back_collectLoop _ hs hb _ _ _ (by simp))
  | clear => exact back_clearLoop hs hb (fun i m hm => hk i _ rfl m hm) _ _ (by simp)

/-- **C142.** The methods with given user code: it is enough if a factory, called on key `k`, goes to higher shards than that of `k`
only, and `fn`, called for shard `i`, to higher shards than `i`. The code that encodes the values for `MarshalJSON` runs when no lock
is held. -/
theorem C142_user (c : Conf K) (q : Nat → Tab K V → Prop) (h : Holds) (hs : Settled h) :
    (∀ k fac, Below h (shardOf c k) → (∀ v m, q (shardOf c k) m → q (shardOf c k) (m.put k v)) →
      Back c.n q (set1 h (shardOf c k) .W) fac → Back c.n q h (getOrSetFactoryWith c k fac)) ∧
    ((∀ i < c.n, Below h i) →
      (∀ fn, (∀ i < c.n, ∀ m, q i m → ∀ e ∈ m, Back c.n q (set1 h i .R) (fn e)) →
        Back c.n q h (iterateLoopWith fn 0 c.n [])) ∧
      (∀ fn, (∀ i < c.n, ∀ m, q i m → AscTo c.n q (fun r h' => h' = set1 h i .W ∧ q i r.1) (set1 h i .W) (fn m)) →
        Back c.n q h (iterateShardsLoopWith fn 0 c.n)) ∧
      (∀ fn, (∀ i < c.n, ∀ m, q i m → Back c.n q (set1 h i .R) (fn m)) → Back c.n q h (readOnlyLoopWith fn 0 c.n)) ∧
      ∀ enc : Tab K V → P K V R, (∀ m, Back c.n q h (enc m)) → Back c.n q h (marshalJSON c enc)) := by
  refine ⟨fun k fac hb hq hf => back_factory hs hb hq hf, fun hb => ⟨fun fn hf => back_iterateLoop hs hb hf _ _ _ (by simp),
    fun fn hf => back_shardsLoop hs hb hf _ _ (by simp), fun fn hf => back_readOnlyLoop hs hb hf _ _ (by simp),
    fun enc hf => AscTo.bind (post := fun _ h' => h' = h) (fun m h' eh => ?_) (back_collectLoop _ hs hb _ _ _ (by simp))⟩⟩
  subst eh
  exact hf m

/-! ## What `MarshalJSON` encodes -/

/-- A run of the program that reads the listed tables, in this order, and ends with the result. -/
def Sees : P K V R → List (Nat × Tab K V) → R → Prop
  | .ret r, xs, r' => xs = [] ∧ r = r'
  | .act (.read i) k, xs, r' => ∃ m ys, xs = (i, m) :: ys ∧ Sees (k m) ys r'
  | .act _ k, xs, r' => ∃ ans, Sees (k ans) xs r'

/-- What a call has read were tables of the shards at moments of the call. -/
theorem sees_moments {t : Tid} {p0 : P K V R} {s1 s2 : AnyCfg K V R} {tr : List (AnyLab K V R)}
    (he : Exec (M := mach K V) self s1 tr s2) (hn : ∀ p r, .ret t p r ∉ tr) (h1 : s1.th t = .run p0 p0) :
    ∃ xs p, s2.th t = .run p0 p ∧ (∀ ys r, Sees p ys r → Sees p0 (xs ++ ys) r) ∧
      ∀ i m, (i, m) ∈ xs → ∃ s, During (M := mach K V) self s1 tr s2 s ∧ s.sh.items i = m := by
  induction he with
  | nil => exact ⟨[], p0, h1, fun ys r h => h, fun i m h => by cases h⟩
  | @snoc tr s s' l he hs ih =>
    obtain ⟨xs, p, e1, e2, e3⟩ := ih (fun p r h => hn p r (by simp [h]))
    have keep : ∀ i m, (i, m) ∈ xs → ∃ z, During (M := mach K V) self s1 (tr ++ [l]) s' z ∧ z.sh.items i = m := by
      intro i m hx
      obtain ⟨z, hz, e⟩ := e3 i m hx
      exact ⟨z, hz.snoc hs, e⟩
    have last : During (M := mach K V) self s1 (tr ++ [l]) s' s := (During.last he).snoc hs
    cases hs with
    | call u op hi =>
      have : t ≠ u := by rintro rfl; rw [hi] at e1; cases e1
      exact ⟨xs, p, by simp only [upd_other _ _ this]; exact e1, e2, keep⟩
    | ret u op r hr =>
      have : t ≠ u := by rintro rfl; exact hn op r (by simp)
      exact ⟨xs, p, by simp only [upd_other _ _ this]; exact e1, e2, keep⟩
    | act u op a k ans sh' hr hst =>
      by_cases e : t = u
      · subst e
        rw [hr] at e1
        injection e1 with h1 h2
        subst h1 h2
        have other : (∀ ys r, Sees (k ans) ys r → Sees (.act a k) ys r) →
            ∃ xs p, (Config.mk sh' (upd s.th t (.run op (k ans)))).th t = .run op p ∧
            (∀ ys r, Sees p ys r → Sees op (xs ++ ys) r) ∧ ∀ i m, (i, m) ∈ xs →
              ∃ z, During (M := mach K V) self s1 (tr ++ [.act t a ans]) ⟨sh', upd s.th t (.run op (k ans))⟩ z ∧
                z.sh.items i = m :=
          fun h => ⟨xs, k ans, by simp only [upd_same], fun ys r hy => e2 ys r (h ys r hy), keep⟩
        cases a with
        | read i =>
          cases hst with
          | read _ _ =>
            refine ⟨xs ++ [(i, s.sh.items i)], k (s.sh.items i), by simp only [upd_same], fun ys r hy => ?_, fun j m hj => ?_⟩
            · rw [List.append_assoc]
              exact e2 _ r ⟨_, ys, rfl, hy⟩
            · rcases List.mem_append.1 hj with hj | hj
              · exact keep j m hj
              · simp only [List.mem_singleton, Prod.mk.injEq] at hj
                exact ⟨s, last, by rw [hj.1, hj.2]⟩
        | lockBegin i => exact other fun ys r h => ⟨ans, h⟩
        | lockWait i => exact other fun ys r h => ⟨ans, h⟩
        | unlock i => exact other fun ys r h => ⟨ans, h⟩
        | rlock i => exact other fun ys r h => ⟨ans, h⟩
        | runlock i => exact other fun ys r h => ⟨ans, h⟩
        | write i f => exact other fun ys r h => ⟨ans, h⟩
        | factory x => exact other fun ys r h => ⟨ans, h⟩
        | callback => exact other fun ys r h => ⟨ans, h⟩
        | edit => exact other fun ys r h => ⟨ans, h⟩
        | order => exact other fun ys r h => ⟨ans, h⟩
      · exact ⟨xs, p, by simp only [upd_other _ _ e]; exact e1, e2, keep⟩

/-- The map holds, for each shard below `i`, the entries of one of the tables `M` of that shard, and nothing else. -/
structure Gathered (c : Conf K) (M : Nat → Tab K V → Prop) (i : Nat) (m : Tab K V) : Prop where
  wf : m.WF
  low : ∀ e ∈ m, shardOf c e.1 < i
  from_ : ∀ j < i, ∃ x, M j x ∧ ∀ k v, shardOf c k = j → ((k, v) ∈ m ↔ (k, v) ∈ x)

theorem wf_nodup {m : Tab K V} (h : m.WF) : (m.map Prod.fst).Nodup := by
  rw [List.nodup_iff_pairwise_ne, List.pairwise_map]
  exact h.imp fun hab => by simpa using hab

theorem gathered_collect {c : Conf K} {M : Nat → Tab K V → Prop} (hM : ∀ i x, M i x → ShardOk c i x) (enc : Tab K V → P K V R) :
    ∀ (rem i : Nat) (acc : Tab K V) (xs : List (Nat × Tab K V)) (r : R), Gathered c M i acc → (∀ j x, (j, x) ∈ xs → M j x) →
    Sees (collectLoop (fun (acc : Tab K V) es => es.foldl (fun acc e => acc.put e.1 e.2) acc) i rem acc >>= enc) xs r →
    ∃ m ys, Gathered c M (i + rem) m ∧ (∀ y ∈ ys, y ∈ xs) ∧ Sees (enc m) ys r := by
  intro rem
  induction rem with
  | zero => intro i acc xs r hg _ hs; exact ⟨acc, xs, hg, fun y h => h, hs⟩
  | succ rem ih =>
    intro i acc xs r hg hx hs
    obtain ⟨_, m, ys, rfl, o, _, hs⟩ := hs
    have hm := hM i m (hx i m (by simp))
    have hnd : ((o.visit m).map Prod.fst).Nodup := ((o.perm m).map Prod.fst).nodup_iff.2 (wf_nodup hm.1)
    obtain ⟨g1, g2⟩ := foldl_put (o.visit m) hnd acc hg.wf (by
      intro e he a ha c'
      have h1 := hg.low a ha
      have h2 := hm.2 e.1 e.2 ((o.perm m).mem_iff.1 he)
      rw [c'] at h1
      omega)
    have hG : Gathered c M (i + 1) ((o.visit m).foldl (fun acc e => acc.put e.1 e.2) acc) := by
      refine ⟨g1, fun e he => ?_, fun j hj => ?_⟩
      · rcases (g2 e).1 he with he | he
        · exact Nat.lt_succ_of_lt (hg.low e he)
        · have := hm.2 e.1 e.2 ((o.perm m).mem_iff.1 he)
          omega
      · by_cases hji : j = i
        · subst hji
          refine ⟨m, hx j m (by simp), fun k v hk => ?_⟩
          rw [g2]
          constructor
          · rintro (h | h)
            · have : shardOf c k < j := hg.low _ h
              omega
            · exact (o.perm m).mem_iff.1 h
          · intro h; exact Or.inr ((o.perm m).mem_iff.2 h)
        · obtain ⟨x, h1, h2⟩ := hg.from_ j (by omega)
          refine ⟨x, h1, fun k v hk => ?_⟩
          rw [g2, ← h2 k v hk]
          constructor
          · rintro (h | h)
            · exact h
            · have := hm.2 k v ((o.perm m).mem_iff.1 h)
              omega
          · exact Or.inl
    obtain ⟨m', zs, h1, h2, h3⟩ := ih (i + 1) _ ys r hG (fun j x h => hx j x (by simp [h])) hs
    exact ⟨m', zs, by rw [show i + (rem + 1) = i + 1 + rem by omega]; exact h1, fun y hy => by simp [h2 y hy], h3⟩

/-- **C142.** What a call of `MarshalJSON` returns is an encoding of a map that agrees on each shard with the map at some moment of the
call, whatever else runs at the same time, as long as it asks for locks in ascending order and puts no key into a wrong
shard. -/
theorem C142_marshal (c : Conf K) (q : Nat → Tab K V → Prop) (hq : ∀ i, q i []) (hok : ∀ i m, q i m → ShardOk c i m)
    (enc : Tab K V → P K V R) (t : Tid) (r : R) (tr0 tr : List (AnyLab K V R)) (s0 s1 s2 : AnyCfg K V R)
    (h : FullCall (M := mach K V) self (Config.init fresh) t (marshalJSON c enc) r tr0 tr s0 s1 s2)
    (hc0 : Calls (fun _ p => Back c.n q nothing p) tr0) (henc : ∀ m, Back c.n q nothing (enc m))
    (hc : Calls (fun _ p => Back c.n q nothing p) tr) :
    ∃ m ys, m.WF ∧ Sees (enc m) ys r ∧
      ∀ i < c.n, ∃ s, During (M := mach K V) self s1 tr s2 s ∧ ∀ k, shardOf c k = i → m.get? k = absMap c s.sh.items k := by
  have hstart : s1.th t = .run (marshalJSON c enc) (marshalJSON c enc) := by
    cases h.call with
    | call _ _ _ => simp only [upd_same]; rfl
  have hmar : Back c.n q nothing (marshalJSON c enc) :=
    ((C142_user c q nothing (fun j c => by cases c)).2 (fun i _ j hj => absurd rfl hj)).2.2.2 enc henc
  obtain ⟨xs, p, e1, e2, e3⟩ := sees_moments h.inside h.none hstart
  rw [h.ret] at e1
  injection e1 with _ e1
  subst e1
  have hs := e2 [] r ⟨rfl, rfl⟩
  rw [List.append_nil] at hs
  -- at all moments every table is as `q` says
  have hall : ∀ s, During (M := mach K V) self s1 tr s2 s → ∀ i, ShardOk c i (s.sh.items i) := by
    rintro s ⟨a, b, e, ha, -⟩ i
    have he := (Exec.snoc h.before h.call).trans ha
    obtain ⟨held, I⟩ := inv_exec hq he (fun u p hu => by
      rcases List.mem_append.1 hu with hu | hu
      · rcases List.mem_append.1 hu with hu | hu
        · exact hc0 u p hu
        · simp only [List.mem_singleton] at hu
          injection hu with _ hu; rw [hu]; exact hmar
      · exact hc u p (by rw [e]; simp [hu]))
    exact hok i _ (I.2.1 i)
  obtain ⟨m, ys, hg, -, hs⟩ := gathered_collect (c := c)
    (M := fun i x => ∃ s, During (M := mach K V) self s1 tr s2 s ∧ s.sh.items i = x)
    (by rintro i x ⟨s, hd, rfl⟩; exact hall s hd i) enc c.n 0 [] xs r
    ⟨List.Pairwise.nil, (fun e he => by cases he), fun j hj => by omega⟩ (fun j x hx => e3 j x hx) hs
  refine ⟨m, ys, hg.wf, hs, fun i hi => ?_⟩
  obtain ⟨x, ⟨s, hd, rfl⟩, hx⟩ := hg.from_ i (by omega)
  refine ⟨s, hd, fun k hk => ?_⟩
  apply Option.ext
  intro v
  rw [get?_eq_some hg.wf, hx k v hk, absMap, hk, get?_eq_some (hall s hd i).1]

/-! ## Examples -/

/-- A factory that sets a key of a higher shard. -/
def upward (c : Conf K) (k l : K) (v w : V) : P K V (Res K V) :=
  getOrSetFactoryWith c k (body c (.set l w) >>= fun _ => pure (some v))

theorem back_upward (c : Conf K) (k l : K) (v w : V) (hlt : shardOf c k < shardOf c l) :
    Back c.n (fun _ _ => True) nothing (upward c k l v w) := by
  have hs : Settled nothing := fun j c => by cases c
  refine (C142_user (R := Unit) c _ nothing hs).1 k _ (fun j hj => absurd rfl hj) (fun _ _ _ => trivial)
    (AscTo.bind (fun _ _ e => e) (C142_methods c _ _ (settledW hs _) (.set l w) (fun i hi j hj => ?_) fun _ _ _ _ _ => trivial))
  have hi : i = shardOf c l := hi
  by_cases e : j = shardOf c k
  · omega
  · rw [set1_other _ _ e] at hj; exact absurd rfl hj

/-- Two shards; even keys are in the first, odd ones in the second. -/
def two : Conf Nat := ⟨2, by decide, by decide, fun k _ => UInt64.ofNat k, 0⟩

/-- Two goroutines whose factories go from the first shard to the second: hypotheses of `C142_no_deadlock` with both in a call. -/
example : ∃ (tr : List (AnyLab Nat Nat (Res Nat Nat))) (s : AnyCfg Nat Nat (Res Nat Nat)),
    Exec (M := mach Nat Nat) self (Config.init fresh) tr s ∧ Calls (fun _ p => Back two.n (fun _ _ => True) nothing p) tr ∧
    s.th 0 ≠ .idle ∧ s.th 1 ≠ .idle := by
  refine ⟨_, _, .snoc (.snoc .nil (.call 0 (upward two 0 1 5 6) rfl)) (.call 1 (upward two 2 3 7 8) rfl), fun t p hp => ?_,
    by simp [upd], by simp [upd]⟩
  simp only [List.nil_append, List.cons_append, List.mem_cons, Label.call.injEq, List.not_mem_nil, or_false] at hp
  rcases hp with ⟨-, rfl⟩ | ⟨-, rfl⟩
  · exact back_upward two 0 1 5 6 (by decide)
  · exact back_upward two 2 3 7 8 (by decide)

/-- `Iterate` with a `fn` that, on entries of shards below that of `l`, sets `l`. -/
example (c : Conf K) (l : K) (w : V) : Back c.n (fun i m => ShardOk c i m) nothing
    (iterateLoopWith (fun e : K × V => if shardOf c e.1 < shardOf c l then body c (.set l w) >>= fun _ => pure true
      else pure true) 0 c.n []) := by
  have hs : Settled nothing := fun j c => by cases c
  refine ((C142_user (R := Unit) c _ nothing hs).2 (fun i _ j hj => absurd rfl hj)).1 _ (fun i _ m hm e he => ?_)
  have hp : shardOf c e.1 = i := hm.2 e.1 e.2 he
  split
  · rename_i hlt
    refine AscTo.bind (fun _ _ e => e) (C142_methods c _ _ (settledR hs _) (.set l w) (fun i' hi j hj => ?_) ?_)
    · have hi : i' = shardOf c l := hi
      by_cases e' : j = i
      · omega
      · rw [set1_other _ _ e'] at hj; exact absurd rfl hj
    · rintro i' f ⟨rfl, rfl⟩ m' hm'
      refine ⟨WF.put hm'.1 _ _, fun k v hk => ?_⟩
      rcases (mem_put l w (k, v)).1 hk with e' | ⟨e', -⟩
      · injection e' with e1 _; rw [e1]
      · exact hm'.2 k v e'
  · exact rfl

end Verif.Sharded.Ascending
