import Verif.Conc.Prog

/-!
# The order of an execution that synchronisation imposes

"Happens before" of the Go memory model: what one goroutine does, in its order, and what the synchronisation
operations of the machine order (`sync`), closed under transitivity.
-/

namespace Verif.Conc

variable {M : Machine} {Op R : Type}

/-- The goroutine that takes the step. -/
def Label.tid : Label M Op R → Tid
  | .call t _ => t
  | .act t _ _ => t
  | .ret t _ _ => t

/-- Step `n` of the execution is action `a` of goroutine `t`. -/
def Does (tr : List (Label M Op R)) (n : Nat) (t : Tid) (a : M.A) : Prop := ∃ ans, tr[n]? = some (.act t a ans)

/-- Step `n` is action `a` of goroutine `t`, and is answered `ans`. -/
def Answers (tr : List (Label M Op R)) (n : Nat) (t : Tid) (a : M.A) (ans : M.Ans a) : Prop :=
  tr[n]? = some (.act t a ans)

/-- Happens before. -/
inductive Before (sync : Nat → Nat → Prop) (tr : List (Label M Op R)) : Nat → Nat → Prop where
  | program {m n : Nat} {l l' : Label M Op R} : m < n → tr[m]? = some l → tr[n]? = some l' → l.tid = l'.tid →
      Before sync tr m n
  | sync {m n : Nat} : sync m n → Before sync tr m n
  | trans {l m n : Nat} : Before sync tr l m → Before sync tr m n → Before sync tr l n

/-- It agrees with the order of the steps. -/
theorem Before.lt {sync : Nat → Nat → Prop} {tr : List (Label M Op R)} (hs : ∀ m n, sync m n → m < n) {m n : Nat}
    (h : Before sync tr m n) : m < n := by
  induction h with
  | program h => exact h
  | sync h => exact hs _ _ h
  | trans _ _ h1 h2 => omega

/-- What happened before stays before. -/
theorem Before.mono {sync sync' : Nat → Nat → Prop} {tr : List (Label M Op R)} (l : List (Label M Op R))
    (hs : ∀ m n, sync m n → sync' m n) {m n : Nat} (h : Before sync tr m n) : Before sync' (tr ++ l) m n := by
  induction h with
  | program h h1 h2 h3 =>
    refine .program h ?_ ?_ h3
    · rw [List.getElem?_append_left (List.getElem?_eq_some_iff.1 h1).1]; exact h1
    · rw [List.getElem?_append_left (List.getElem?_eq_some_iff.1 h2).1]; exact h2
  | sync h => exact .sync (hs _ _ h)
  | trans _ _ h1 h2 => exact h1.trans h2

theorem Does.program {sync : Nat → Nat → Prop} {tr : List (Label M Op R)} {m n : Nat} {t : Tid} {a b : M.A}
    (h : m < n) (hm : Does tr m t a) (hn : Does tr n t b) : Before sync tr m n := by
  obtain ⟨_, hm⟩ := hm
  obtain ⟨_, hn⟩ := hn
  exact .program h hm hn rfl

theorem Does.bound {tr : List (Label M Op R)} {n : Nat} {t : Tid} {a : M.A} (h : Does tr n t a) : n < tr.length := by
  obtain ⟨_, h⟩ := h
  exact (List.getElem?_eq_some_iff.1 h).1

theorem Does.snoc {tr : List (Label M Op R)} {n : Nat} {t : Tid} {a : M.A} (h : Does tr n t a) (l : Label M Op R) :
    Does (tr ++ [l]) n t a := by
  have := h.bound
  obtain ⟨ans, h⟩ := h
  exact ⟨ans, by rw [List.getElem?_append_left this]; exact h⟩

theorem Does.last (tr : List (Label M Op R)) (t : Tid) (a : M.A) (ans : M.Ans a) :
    Does (tr ++ [.act t a ans]) tr.length t a := ⟨ans, by simp⟩

/-- Either an earlier step or the last. -/
theorem Does.of_snoc {tr : List (Label M Op R)} {n : Nat} {t : Tid} {a : M.A} {l : Label M Op R}
    (h : Does (tr ++ [l]) n t a) : Does tr n t a ∨ n = tr.length ∧ ∃ ans, l = .act t a ans := by
  obtain ⟨ans, h⟩ := h
  by_cases c : n < tr.length
  · rw [List.getElem?_append_left c] at h; exact .inl ⟨ans, h⟩
  · have hb := (List.getElem?_eq_some_iff.1 h).1
    simp at hb
    obtain rfl : n = tr.length := by omega
    simp at h
    exact .inr ⟨rfl, ans, h⟩

/-- A step that is no action changes nothing. -/
theorem Does.of_quiet {tr : List (Label M Op R)} {n : Nat} {t : Tid} {a : M.A} {l : Label M Op R}
    (hl : ∀ t a ans, l ≠ .act t a ans) (h : Does (tr ++ [l]) n t a) : Does tr n t a := by
  rcases h.of_snoc with h | ⟨-, ans, e⟩
  · exact h
  · exact absurd e (hl _ _ _)

/-- The method goroutine `t` has called last. -/
def lastCall (tr : List (Label M Op R)) (t : Tid) : Option Op :=
  tr.foldl (fun acc l => match l with | .call u op => if u = t then some op else acc | _ => acc) none

theorem lastCall_call (tr : List (Label M Op R)) (t u : Tid) (op : Op) :
    lastCall (tr ++ [.call u op]) t = if u = t then some op else lastCall tr t := by
  simp [lastCall, List.foldl_append]

theorem lastCall_act (tr : List (Label M Op R)) (t u : Tid) (a : M.A) (ans : M.Ans a) :
    lastCall (tr ++ [.act u a ans]) t = lastCall tr t := by
  simp [lastCall, List.foldl_append]

theorem lastCall_ret (tr : List (Label M Op R)) (t u : Tid) (op : Op) (r : R) :
    lastCall (tr ++ [.ret u op r]) t = lastCall tr t := by
  simp [lastCall, List.foldl_append]

/-! ## Locks -/

/-- A kind of action, which may depend on what happened before, on who does it and on its answer. -/
abbrev Kind (M : Machine) (Op R : Type) := List (Label M Op R) → Tid → (a : M.A) → M.Ans a → Prop

/-- Step `n` is an action of goroutine `t` of kind `P`. -/
def Doing (tr : List (Label M Op R)) (P : Kind M Op R) (n : Nat) (t : Tid) : Prop :=
  ∃ a ans, P (tr.take n) t a ans ∧ Answers tr n t a ans

theorem Answers.bound {tr : List (Label M Op R)} {n : Nat} {t : Tid} {a : M.A} {ans : M.Ans a}
    (h : Answers tr n t a ans) : n < tr.length := (List.getElem?_eq_some_iff.1 h).1

theorem Answers.snoc {tr : List (Label M Op R)} {n : Nat} {t : Tid} {a : M.A} {ans : M.Ans a} (h : Answers tr n t a ans)
    (l : Label M Op R) : Answers (tr ++ [l]) n t a ans := (List.getElem?_append_left h.bound).trans h

theorem Answers.last (tr : List (Label M Op R)) (t : Tid) (a : M.A) (ans : M.Ans a) :
    Answers (tr ++ [.act t a ans]) tr.length t a ans := by simp [Answers]

theorem Answers.of_snoc {tr : List (Label M Op R)} {n : Nat} {t : Tid} {a : M.A} {ans : M.Ans a} {l : Label M Op R}
    (h : Answers (tr ++ [l]) n t a ans) : Answers tr n t a ans ∨ n = tr.length ∧ l = .act t a ans := by
  have hb := h.bound
  unfold Answers at h
  by_cases c : n < tr.length
  · rw [List.getElem?_append_left c] at h; exact .inl h
  · simp at hb
    obtain rfl : n = tr.length := by omega
    simp at h
    exact .inr ⟨rfl, h⟩

theorem Answers.does {tr : List (Label M Op R)} {n : Nat} {t : Tid} {a : M.A} {ans : M.Ans a}
    (h : Answers tr n t a ans) : Does tr n t a := ⟨ans, h⟩

theorem Doing.bound {tr : List (Label M Op R)} {P : Kind M Op R} {n : Nat} {t : Tid} (h : Doing tr P n t) :
    n < tr.length := by
  obtain ⟨a, ans, h1, h2⟩ := h
  exact h2.bound

theorem take_snoc {α : Type} {tr : List α} {n : Nat} (h : n ≤ tr.length) (l : α) : (tr ++ [l]).take n = tr.take n := by
  rw [List.take_append_of_le_length h]

theorem Doing.snoc {tr : List (Label M Op R)} {P : Kind M Op R} {n : Nat} {t : Tid} (h : Doing tr P n t)
    (l : Label M Op R) : Doing (tr ++ [l]) P n t := by
  have hb := h.bound
  obtain ⟨a, ans, h1, h2⟩ := h
  exact ⟨a, ans, by rw [take_snoc (Nat.le_of_lt hb)]; exact h1, h2.snoc l⟩

theorem Doing.of_quiet {tr : List (Label M Op R)} {P : Kind M Op R} {n : Nat} {t : Tid} {l : Label M Op R}
    (hl : ∀ t a ans, l ≠ .act t a ans) (h : Doing (tr ++ [l]) P n t) : Doing tr P n t := by
  obtain ⟨a, ans, h1, h2⟩ := h
  rcases h2.of_snoc with h2 | ⟨-, h2⟩
  · exact ⟨a, ans, by rw [take_snoc (Nat.le_of_lt h2.bound)] at h1; exact h1, h2⟩
  · exact absurd h2 (hl _ _ _)

theorem Doing.of_snoc {tr : List (Label M Op R)} {P : Kind M Op R} {n : Nat} {t u : Tid} {a : M.A} {ans : M.Ans a}
    (h : Doing (tr ++ [.act t a ans]) P n u) : Doing tr P n u ∨ n = tr.length ∧ u = t ∧ P tr t a ans := by
  obtain ⟨b, ans', h1, h2⟩ := h
  rcases h2.of_snoc with h | ⟨rfl, e⟩
  · exact .inl ⟨b, ans', by rw [take_snoc (Nat.le_of_lt h.bound)] at h1; exact h1, h⟩
  · injection e with e1 e2 e3
    subst e1 e2
    have e3 := eq_of_heq e3
    subst e3
    rw [take_snoc (Nat.le_refl _), List.take_length] at h1
    exact .inr ⟨rfl, rfl, h1⟩

theorem Doing.last (tr : List (Label M Op R)) {P : Kind M Op R} (t : Tid) (a : M.A) (ans : M.Ans a) (h : P tr t a ans) :
    Doing (tr ++ [.act t a ans]) P tr.length t :=
  ⟨a, ans, by rw [take_snoc (Nat.le_refl _), List.take_length]; exact h, Answers.last _ _ _ _⟩

theorem Doing.program {sync : Nat → Nat → Prop} {tr : List (Label M Op R)} {P Q : Kind M Op R} {m n : Nat} {t : Tid}
    (h : m < n) (hm : Doing tr P m t) (hn : Doing tr Q n t) : Before sync tr m n := by
  obtain ⟨_, _, -, hm⟩ := hm
  obtain ⟨_, _, -, hn⟩ := hn
  exact Does.program h hm.does hn.does

/-- A lock, for one writer or many readers, and what it guards. -/
structure Guard (M : Machine) (Op R : Type) where
  enterW : Kind M Op R
  enterR : Kind M Op R
  leaveW : Kind M Op R
  leaveR : Kind M Op R
  reads : Kind M Op R
  writes : Kind M Op R

/-- It takes the lock. -/
def Guard.enter (G : Guard M Op R) : Kind M Op R := fun tr t a ans => G.enterW tr t a ans ∨ G.enterR tr t a ans
/-- It gives the lock back. -/
def Guard.leave (G : Guard M Op R) : Kind M Op R := fun tr t a ans => G.leaveW tr t a ans ∨ G.leaveR tr t a ans
/-- It touches what the lock guards. -/
def Guard.touches (G : Guard M Op R) : Kind M Op R := fun tr t a ans => G.reads tr t a ans ∨ G.writes tr t a ans

/-- What the steps so far tell; `W` and `S` hold the lock, alone and shared. -/
structure Trail (G : Guard M Op R) (tr : List (Label M Op R)) (W S : Tid → Prop) : Prop where
  /-- who holds it alone came in after everybody else had left -/
  inW : ∀ u, W u → ∃ a, Doing tr G.enterW a u ∧ ∀ r t, Doing tr G.leave r t → r < a
  /-- who shares it came in after all writers had left -/
  inS : ∀ u, S u → ∃ a, Doing tr G.enterR a u ∧ ∀ r t, Doing tr G.leaveW r t → r < a
  /-- who has written is still inside, or has left since -/
  wrote : ∀ p t, Doing tr G.writes p t → W t ∨ ∃ r, p < r ∧ Doing tr G.leaveW r t
  /-- who has read is still inside, or has left since -/
  read : ∀ p t, Doing tr G.reads p t → W t ∨ S t ∨ ∃ r, p < r ∧ Doing tr G.leave r t
  /-- after a write -/
  after : ∀ p q t u, p < q → t ≠ u → Doing tr G.writes p t → Doing tr G.touches q u →
    ∃ r a, p < r ∧ r < a ∧ a < q ∧ Doing tr G.leaveW r t ∧ Doing tr G.enter a u
  /-- before a write -/
  before : ∀ p q t u, p < q → t ≠ u → Doing tr G.touches p t → Doing tr G.writes q u →
    ∃ r a, p < r ∧ r < a ∧ a < q ∧ Doing tr G.leave r t ∧ Doing tr G.enterW a u

/-- The lock does its work, and goroutine `t` keeps to the rules, when it does `a`. -/
structure Keeps (G : Guard M Op R) (tr : List (Label M Op R)) (W S W' S' : Tid → Prop) (t : Tid) (a : M.A)
    (ans : M.Ans a) : Prop where
  alone : ∀ u v, W u → W v → u = v
  apart : ∀ u v, W u → S v → False
  othersW : ∀ u, u ≠ t → (W' u ↔ W u)
  othersS : ∀ u, u ≠ t → (S' u ↔ S u)
  gotW : W' t → ¬ G.leave tr t a ans ∧ (W t ∨ G.enterW tr t a ans)
  gotS : S' t → ¬ G.leaveW tr t a ans ∧ (S t ∨ G.enterR tr t a ans)
  keepW : W t → W' t ∨ G.leaveW tr t a ans
  keepS : S t → S' t ∨ G.leaveR tr t a ans
  leaveW : G.leaveW tr t a ans → W t
  leaveR : G.leaveR tr t a ans → S t
  reads : G.reads tr t a ans → W t ∧ W' t ∨ S t ∧ S' t
  writes : G.writes tr t a ans → W' t ∧ (W t ∨ ∀ p u, ¬ Doing tr G.touches p u)

section
variable {G : Guard M Op R} {tr : List (Label M Op R)} {W S W' S' : Tid → Prop}

theorem Doing.mono {P Q : Kind M Op R} (h : ∀ l t a ans, P l t a ans → Q l t a ans) {n : Nat} {t : Tid} (hd : Doing tr P n t) : Doing tr Q n t := by
  obtain ⟨a, ans, h1, h2⟩ := hd
  exact ⟨a, ans, h _ _ a ans h1, h2⟩

theorem Doing.either {P Q : Kind M Op R} {n : Nat} {t : Tid} (hd : Doing tr (fun l t a ans => P l t a ans ∨ Q l t a ans) n t) :
    Doing tr P n t ∨ Doing tr Q n t := by
  obtain ⟨a, ans, h1 | h1, h2⟩ := hd
  · exact .inl ⟨a, ans, h1, h2⟩
  · exact .inr ⟨a, ans, h1, h2⟩

theorem Trail.nil : Trail (R := R) G ([] : List (Label M Op R)) (fun _ => False) (fun _ => False) where
  inW u h := h.elim
  inS u h := h.elim
  wrote p t h := by have := h.bound; simp at this
  read p t h := by have := h.bound; simp at this
  after p q t u _ _ h := by have := h.bound; simp at this
  before p q t u _ _ h := by have := h.bound; simp at this

/-- A step that is no action. -/
theorem Trail.quiet (T : Trail G tr W S) {l : Label M Op R} (hl : ∀ t a ans, l ≠ .act t a ans) :
    Trail G (tr ++ [l]) W S where
  inW u h := by
    obtain ⟨a, h1, h2⟩ := T.inW u h
    exact ⟨a, h1.snoc l, fun r t hr => h2 r t (hr.of_quiet hl)⟩
  inS u h := by
    obtain ⟨a, h1, h2⟩ := T.inS u h
    exact ⟨a, h1.snoc l, fun r t hr => h2 r t (hr.of_quiet hl)⟩
  wrote p t h := (T.wrote p t (h.of_quiet hl)).imp_right fun ⟨r, h1, h2⟩ => ⟨r, h1, h2.snoc l⟩
  read p t h :=
    (T.read p t (h.of_quiet hl)).imp_right fun h => h.imp_right fun ⟨r, h1, h2⟩ => ⟨r, h1, h2.snoc l⟩
  after p q t u hpq htu h h' := by
    obtain ⟨r, a, h1, h2, h3, h4, h5⟩ := T.after p q t u hpq htu (h.of_quiet hl) (h'.of_quiet hl)
    exact ⟨r, a, h1, h2, h3, h4.snoc l, h5.snoc l⟩
  before p q t u hpq htu h h' := by
    obtain ⟨r, a, h1, h2, h3, h4, h5⟩ := T.before p q t u hpq htu (h.of_quiet hl) (h'.of_quiet hl)
    exact ⟨r, a, h1, h2, h3, h4.snoc l, h5.snoc l⟩

/-- An action that keeps to the rules. -/
theorem Trail.step (T : Trail G tr W S) {t : Tid} {a : M.A} {ans : M.Ans a} (H : Keeps G tr W S W' S' t a ans) :
    Trail G (tr ++ [.act t a ans]) W' S' := by
  have lt_of : ∀ {p q : Nat} {P : Kind M Op R} {u : Tid}, p < q → Doing (tr ++ [.act t a ans]) P q u → p ≠ tr.length := by
    intro p q P u hpq hq
    have := hq.bound
    simp at this; omega
  have old : ∀ {n : Nat} {u : Tid} {P : Kind M Op R}, n ≠ tr.length → Doing (tr ++ [.act t a ans]) P n u →
      Doing tr P n u := by
    intro n u P hn h
    rcases h.of_snoc with h | ⟨rfl, -⟩
    · exact h
    · exact absurd rfl hn
  refine ⟨?_, ?_, ?_, ?_, ?_, ?_⟩
  · intro u hu
    have key : (∀ r v, r = tr.length ∧ v = t ∧ G.leave tr t a ans → False) → W u →
        ∃ x, Doing (tr ++ [.act t a ans]) G.enterW x u ∧ ∀ r v, Doing (tr ++ [.act t a ans]) G.leave r v → r < x := by
      intro hno hw
      obtain ⟨x, h1, h2⟩ := T.inW u hw
      refine ⟨x, h1.snoc _, fun r v hr => ?_⟩
      rcases hr.of_snoc with hr | hr
      · exact h2 r v hr
      · exact (hno r v hr).elim
    by_cases hut : u = t
    · subst hut
      obtain ⟨hl, hw | he⟩ := H.gotW hu
      · exact key (fun _ _ h => hl h.2.2) hw
      · refine ⟨tr.length, Doing.last _ _ _ _ he, fun r v hr => ?_⟩
        rcases hr.of_snoc with hr | ⟨-, -, hr⟩
        · exact hr.bound
        · exact absurd hr hl
    · have hw := (H.othersW u hut).1 hu
      refine key (fun r v h => ?_) hw
      rcases h.2.2 with e | e
      · exact hut (H.alone _ _ hw (H.leaveW e))
      · exact H.apart _ _ hw (H.leaveR e)
  · intro u hu
    have key : (∀ r v, r = tr.length ∧ v = t ∧ G.leaveW tr t a ans → False) → S u →
        ∃ x, Doing (tr ++ [.act t a ans]) G.enterR x u ∧ ∀ r v, Doing (tr ++ [.act t a ans]) G.leaveW r v → r < x := by
      intro hno hw
      obtain ⟨x, h1, h2⟩ := T.inS u hw
      refine ⟨x, h1.snoc _, fun r v hr => ?_⟩
      rcases hr.of_snoc with hr | hr
      · exact h2 r v hr
      · exact (hno r v hr).elim
    by_cases hut : u = t
    · subst hut
      obtain ⟨hl, hw | he⟩ := H.gotS hu
      · exact key (fun _ _ h => hl h.2.2) hw
      · refine ⟨tr.length, Doing.last _ _ _ _ he, fun r v hr => ?_⟩
        rcases hr.of_snoc with hr | ⟨-, -, hr⟩
        · exact hr.bound
        · exact absurd hr hl
    · have hw := (H.othersS u hut).1 hu
      exact key (fun r v h => H.apart _ _ (H.leaveW h.2.2) hw) hw
  · intro p u hp
    rcases hp.of_snoc with h | ⟨-, rfl, e⟩
    · rcases T.wrote p u h with hw | ⟨r, h1, h2⟩
      · by_cases hut : u = t
        · subst hut
          exact (H.keepW hw).imp_right fun e => ⟨tr.length, h.bound, Doing.last _ _ _ _ e⟩
        · exact .inl ((H.othersW u hut).2 hw)
      · exact .inr ⟨r, h1, h2.snoc _⟩
    · exact .inl (H.writes e).1
  · intro p u hp
    rcases hp.of_snoc with h | ⟨-, rfl, e⟩
    · rcases T.read p u h with hw | hw | ⟨r, h1, h2⟩
      · by_cases hut : u = t
        · subst hut
          exact (H.keepW hw).imp_right fun e => .inr ⟨tr.length, h.bound, Doing.last _ _ _ _ (.inl e)⟩
        · exact .inl ((H.othersW u hut).2 hw)
      · by_cases hut : u = t
        · subst hut
          exact .inr ((H.keepS hw).imp_right fun e => ⟨tr.length, h.bound, Doing.last _ _ _ _ (.inr e)⟩)
        · exact .inr (.inl ((H.othersS u hut).2 hw))
      · exact .inr (.inr ⟨r, h1, h2.snoc _⟩)
    · rcases H.reads e with e | e
      · exact .inl e.2
      · exact .inr (.inl e.2)
  · intro p q u v hpq huv hp hq
    replace hp := old (lt_of hpq hq) hp
    by_cases hql : q = tr.length
    · rcases hq.of_snoc with h | ⟨-, rfl, e⟩
      · have := h.bound; omega
      · have hv : W v ∨ S v := by
          rcases e with e | e
          · exact (H.reads e).imp (·.1) (·.1)
          · exact .inl ((H.writes e).2.resolve_right fun h => h p u (hp.mono fun _ _ _ _ => .inr))
        rcases T.wrote p u hp with hw | ⟨r, h1, h2⟩
        · rcases hv with hv | hv
          · exact absurd (H.alone _ _ hw hv) huv
          · exact (H.apart _ _ hw hv).elim
        · rcases hv with hv | hv
          · obtain ⟨x, h3, h4⟩ := T.inW v hv
            exact ⟨r, x, h1, h4 r u (h2.mono fun _ _ _ _ => .inl), hql ▸ h3.bound, h2.snoc _,
              (h3.mono fun _ _ _ _ => .inl).snoc _⟩
          · obtain ⟨x, h3, h4⟩ := T.inS v hv
            exact ⟨r, x, h1, h4 r u h2, hql ▸ h3.bound, h2.snoc _, (h3.mono fun _ _ _ _ => .inr).snoc _⟩
    · obtain ⟨r, x, h1, h2, h3, h4, h5⟩ := T.after p q u v hpq huv hp (old hql hq)
      exact ⟨r, x, h1, h2, h3, h4.snoc _, h5.snoc _⟩
  · intro p q u v hpq huv hp hq
    replace hp := old (lt_of hpq hq) hp
    by_cases hql : q = tr.length
    · rcases hq.of_snoc with h | ⟨-, rfl, e⟩
      · have := h.bound; omega
      · have hv : W v := (H.writes e).2.resolve_right fun h => h p u hp
        obtain ⟨x, h3, h4⟩ := T.inW v hv
        have hr : W u ∨ S u ∨ ∃ r, p < r ∧ Doing tr G.leave r u := by
          rcases hp.either with hp | hp
          · exact T.read p u hp
          · exact (T.wrote p u hp).imp_right fun ⟨r, h1, h2⟩ => .inr ⟨r, h1, h2.mono fun _ _ _ _ => .inl⟩
        rcases hr with hr | hr | ⟨r, h1, h2⟩
        · exact absurd (H.alone _ _ hr hv) huv
        · exact (H.apart _ _ hv hr).elim
        · exact ⟨r, x, h1, h4 r u h2, hql ▸ h3.bound, h2.snoc _, h3.snoc _⟩
    · obtain ⟨r, x, h1, h2, h3, h4, h5⟩ := T.before p q u v hpq huv hp (old hql hq)
      exact ⟨r, x, h1, h2, h3, h4.snoc _, h5.snoc _⟩

/-- Conflicting accesses are ordered. -/
theorem Trail.ordered (T : Trail G tr W S) {sync : Nat → Nat → Prop}
    (h1 : ∀ m n t u, m < n → Doing tr G.leaveW m t → Doing tr G.enter n u → sync m n)
    (h2 : ∀ m n t u, m < n → Doing tr G.leaveR m t → Doing tr G.enterW n u → sync m n)
    {p q : Nat} {t u : Tid} (hpq : p < q) (hp : Doing tr G.touches p t) (hq : Doing tr G.touches q u)
    (hw : Doing tr G.writes p t ∨ Doing tr G.writes q u) : Before sync tr p q := by
  by_cases htu : t = u
  · subst htu
    exact Doing.program hpq hp hq
  · rcases hw with hw | hw
    · obtain ⟨r, x, k1, k2, k3, k4, k5⟩ := T.after p q t u hpq htu hw hq
      exact (Doing.program k1 hp k4).trans ((Before.sync (h1 _ _ _ _ k2 k4 k5)).trans (Doing.program k3 k5 hq))
    · obtain ⟨r, x, k1, k2, k3, k4, k5⟩ := T.before p q t u hpq htu hp hw
      refine (Doing.program k1 hp k4).trans (Before.trans (Before.sync ?_) (Doing.program k3 k5 hq))
      rcases k4.either with k4 | k4
      · exact h1 _ _ _ _ k2 k4 (k5.mono fun _ _ _ _ => .inl)
      · exact h2 _ _ _ _ k2 k4 k5

end

end Verif.Conc
