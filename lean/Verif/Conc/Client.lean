import Verif.Conc.Lin

/-!
# Programs of goroutines over a linearizable object

A goroutine runs a program (`Client`): it calls methods, one after the other, and which one it calls next
depends on the results it got. If the histories of the object are linearizable, then whatever goroutines
find out by running such programs, they could find out if every call took effect at once (`Client.atomic`).
Thus programs over the object may be reasoned about as if the methods were atomic.
-/

namespace Verif.Conc

variable {Op R Q : Type}

/-- A program: in state `q` it calls `ask q` (none: it is finished), and goes on in `go q r` when that has
returned `r`. -/
structure Client (Op R Q : Type) where
  /-- the next call -/
  ask : Q → Option Op
  /-- the state after its return -/
  go : Q → R → Q

/-- The states of the goroutines after a history, if they have started in `q`. -/
def Client.after (P : Client Op R Q) (q : Tid → Q) : List (Event Op R) → Tid → Q
  | [] => q
  | .inv _ _ :: H => P.after q H
  | .ret t r :: H => P.after (upd q t (P.go (q t) r)) H

/-- All calls in the history are those the programs ask for. -/
def Client.Follows (P : Client Op R Q) (q : Tid → Q) (H : List (Event Op R)) : Prop :=
  ∀ i t op, H[i]? = some (.inv t op) → P.ask (P.after q (H.take i) t) = some op

/-- The programs run on the sequential object: calls take effect one at a time. -/
inductive Client.Atomic (P : Client Op R Q) (S : SeqSpec Op R) (q0 : Tid → Q) :
    List (Tid × Op × R) → S.St → (Tid → Q) → Prop where
  | nil : Atomic P S q0 [] S.init q0
  | snoc {l : List (Tid × Op × R)} {s s' : S.St} {q : Tid → Q} {t : Tid} {op : Op} {r : R} :
      Atomic P S q0 l s q → P.ask (q t) = some op → S.legal s op r s' →
      Atomic P S q0 (l ++ [(t, op, r)]) s' (upd q t (P.go (q t) r))

/-! ## Histories of goroutines -/

/-- A history in which every goroutine calls and returns in turns, with the call it is in; results belong to calls as
`W` says. -/
inductive Turns (W : Op → R → Prop) : List (Event Op R) → (Tid → Option Op) → Prop where
  | nil : Turns W [] (fun _ => none)
  | inv {H : List (Event Op R)} {p : Tid → Option Op} {t : Tid} {op : Op} : Turns W H p → p t = none →
      Turns W (H ++ [.inv t op]) (upd p t (some op))
  | ret {H : List (Event Op R)} {p : Tid → Option Op} {t : Tid} {op : Op} {r : R} : Turns W H p → p t = some op →
      W op r → Turns W (H ++ [.ret t r]) (upd p t none)

/-- The call a goroutine is in. -/
def Thread.op {M : Machine} : Thread M Op R → Option Op
  | .idle => none
  | .run op _ => some op

theorem upd_map {α β : Type} (g : α → β) (f : Tid → α) (t : Tid) (x : α) :
    (fun u => g (upd f t x u)) = upd (fun u => g (f u)) t (g x) := by
  funext u
  by_cases c : u = t
  · subst c; rw [upd_same, upd_same]
  · rw [upd_other _ _ c, upd_other _ _ c]

theorem upd_self {α : Type} (f : Tid → α) (t : Tid) (x : α) (h : f t = x) : upd f t x = f := by
  funext u
  by_cases c : u = t
  · subst c; rw [upd_same, h]
  · rw [upd_other _ _ c]

/-- Histories of executions are such. -/
theorem Exec.turns_of {M : Machine} {body : Op → Prog M.A M.Ans R} {sh : M.Sh} {W : Op → R → Prop}
    {tr : List (Label M Op R)} {c : Config M Op R} (he : Exec body (Config.init sh) tr c)
    (hW : ∀ t op r, .ret t op r ∈ tr → W op r) : Turns W (history tr) (fun t => (c.th t).op) := by
  induction he with
  | nil => exact .nil
  | snoc _ hs ih =>
    replace ih := ih fun t op r h => hW t op r (by simp [h])
    rw [history_append]
    cases hs with
    | call t op h =>
      have := ih.inv (t := t) (op := op) (by show (Thread.op _) = none; rw [h]; rfl)
      rw [upd_map Thread.op]; exact this
    | act t op a k ans sh' h hst =>
      have : upd (fun u => (Thread.op (Config.th _ u))) t (some op) = _ :=
        upd_self _ t (some op) (by show Thread.op _ = _; rw [h]; rfl)
      rw [upd_map Thread.op]
      show Turns W (history _ ++ []) (upd _ t (some op))
      rw [this, List.append_nil]; exact ih
    | ret t op r h =>
      have := ih.ret (t := t) (op := op) (r := r) (by show (Thread.op _) = some op; rw [h]; rfl)
        (hW t op r (by simp))
      rw [upd_map Thread.op]; exact this

theorem Exec.turns {M : Machine} {body : Op → Prog M.A M.Ans R} {sh : M.Sh} {tr : List (Label M Op R)}
    {c : Config M Op R} (he : Exec body (Config.init sh) tr c) :
    Turns (fun _ _ => True) (history tr) (fun t => (c.th t).op) := he.turns_of fun _ _ _ _ => trivial

/-- The goroutine `t` calls at position `i` and returns at position `j`. -/
def ReturnsTo (H : List (Event Op R)) (t : Tid) (i j : Nat) (op : Op) (r : R) : Prop :=
  H[i]? = some (.inv t op) ∧ H[j]? = some (.ret t r) ∧ i < j ∧
    ∀ k e, i < k → k < j → H[k]? = some e → e.tid ≠ t

theorem ReturnsTo.snoc {H : List (Event Op R)} {t : Tid} {i j : Nat} {op : Op} {r : R} (h : ReturnsTo H t i j op r)
    (e : Event Op R) : ReturnsTo (H ++ [e]) t i j op r := by
  obtain ⟨h1, h2, h3, h4⟩ := h
  have b : j < H.length := (List.getElem?_eq_some_iff.1 h2).1
  refine ⟨?_, ?_, h3, fun k e' k1 k2 k3 => h4 k e' k1 k2 ?_⟩
  · rw [List.getElem?_append_left (by omega)]; exact h1
  · rw [List.getElem?_append_left (by omega)]; exact h2
  · rw [List.getElem?_append_left (by omega)] at k3; exact k3

theorem getElem?_snoc_cases {α : Type} {l : List α} {x y : α} {i : Nat} (h : (l ++ [x])[i]? = some y) :
    l[i]? = some y ∨ (i = l.length ∧ x = y) := by
  rcases Nat.lt_trichotomy i l.length with c | c | c
  · rw [List.getElem?_append_left c] at h; exact Or.inl h
  · subst c; rw [List.getElem?_concat_length] at h; injection h with h; exact Or.inr ⟨rfl, h⟩
  · rw [List.getElem?_eq_none (by simp; omega)] at h; cases h

/-- What is known of such histories: every response belongs to a call, every call has returned before its
goroutine calls again; the call a goroutine is in is its last event. -/
structure Orderly (H : List (Event Op R)) (p : Tid → Option Op) : Prop where
  called : ∀ j t r, H[j]? = some (.ret t r) → ∃ i op, ReturnsTo H t i j op r
  returned : ∀ i i' t op op', H[i]? = some (.inv t op) → H[i']? = some (.inv t op') → i < i' →
    ∃ j r, j < i' ∧ ReturnsTo H t i j op r
  idle : ∀ t, p t = none → ∀ i op, H[i]? = some (.inv t op) → ∃ j r, ReturnsTo H t i j op r
  busy : ∀ t op, p t = some op → ∃ i, H[i]? = some (.inv t op) ∧
    (∀ k e, i < k → H[k]? = some e → e.tid ≠ t) ∧
    ∀ i' op', H[i']? = some (.inv t op') → i' ≠ i → ∃ j r, ReturnsTo H t i' j op' r

theorem Turns.orderly {W : Op → R → Prop} {H : List (Event Op R)} {p : Tid → Option Op} (h : Turns W H p) :
    Orderly H p := by
  induction h with
  | nil => exact ⟨fun j t r h => by simp at h, fun i i' t op op' h => by simp at h, fun t _ i op h => by simp at h,
      fun t op h => by simp at h⟩
  | @inv H p t op _ hp ih =>
    have lift : ∀ {u i j op r}, ReturnsTo H u i j op r → ReturnsTo (H ++ [.inv t op]) u i j op r :=
      fun h => h.snoc _
    refine ⟨fun j u r h => ?_, fun i i' u o o' h h' hl => ?_, fun u hu i o h => ?_, fun u o hu => ?_⟩
    · rcases getElem?_snoc_cases h with h | ⟨-, h⟩
      · obtain ⟨i, o, h⟩ := ih.called j u r h
        exact ⟨i, o, h.snoc _⟩
      · cases h
    · rcases getElem?_snoc_cases h' with h' | ⟨e, h'⟩
      · rcases getElem?_snoc_cases h with h | ⟨e, h⟩
        · obtain ⟨j, r, h1, h2⟩ := ih.returned i i' u o o' h h' hl
          exact ⟨j, r, h1, h2.snoc _⟩
        · have := (List.getElem?_eq_some_iff.1 h').1
          omega
      · injection h' with e1 e2
        subst e1 e2
        rcases getElem?_snoc_cases h with h | ⟨e', h⟩
        · obtain ⟨j, r, h⟩ := ih.idle t hp i o h
          refine ⟨j, r, ?_, h.snoc _⟩
          have := (List.getElem?_eq_some_iff.1 h.2.1).1
          omega
        · omega
    · by_cases c : u = t
      · subst c; rw [upd_same] at hu; cases hu
      · rw [upd_other _ _ c] at hu
        rcases getElem?_snoc_cases h with h | ⟨e, h⟩
        · obtain ⟨j, r, h⟩ := ih.idle u hu i o h
          exact ⟨j, r, h.snoc _⟩
        · injection h with h; exact absurd h.symm c
    · by_cases c : u = t
      · subst c
        rw [upd_same] at hu; injection hu with hu; subst hu
        refine ⟨H.length, List.getElem?_concat_length, fun k e hk h => ?_, fun i' o' h hne => ?_⟩
        · rw [List.getElem?_eq_none (by simp; omega)] at h; cases h
        · rcases getElem?_snoc_cases h with h | ⟨e, h⟩
          · obtain ⟨j, r, h⟩ := ih.idle u hp i' o' h
            exact ⟨j, r, h.snoc _⟩
          · exact absurd e hne
      · rw [upd_other _ _ c] at hu
        obtain ⟨i, h1, h2, h3⟩ := ih.busy u o hu
        have b := (List.getElem?_eq_some_iff.1 h1).1
        refine ⟨i, by rw [List.getElem?_append_left b]; exact h1, fun k e hk h => ?_, fun i' o' h hne => ?_⟩
        · rcases getElem?_snoc_cases h with h | ⟨-, h⟩
          · exact h2 k e hk h
          · subst h; exact Ne.symm c
        · rcases getElem?_snoc_cases h with h | ⟨-, h⟩
          · obtain ⟨j, r, h⟩ := h3 i' o' h hne
            exact ⟨j, r, h.snoc _⟩
          · injection h with h; exact absurd h.symm c
  | @ret H p t op r _ hp _ ih =>
    obtain ⟨i0, g1, g2, g3⟩ := ih.busy t op hp
    have b0 := (List.getElem?_eq_some_iff.1 g1).1
    have new : ReturnsTo (H ++ [.ret t r]) t i0 H.length op r := by
      refine ⟨by rw [List.getElem?_append_left b0]; exact g1, List.getElem?_concat_length, b0, fun k e k1 k2 h => ?_⟩
      rw [List.getElem?_append_left k2] at h
      exact g2 k e k1 h
    refine ⟨fun j u r' h => ?_, fun i i' u o o' h h' hl => ?_, fun u hu i o h => ?_, fun u o hu => ?_⟩
    · rcases getElem?_snoc_cases h with h | ⟨e, h⟩
      · obtain ⟨i, o, h⟩ := ih.called j u r' h
        exact ⟨i, o, h.snoc _⟩
      · injection h with e1 e2
        subst e1 e2 e
        exact ⟨i0, op, new⟩
    · rcases getElem?_snoc_cases h' with h' | ⟨e, h'⟩
      · rcases getElem?_snoc_cases h with h | ⟨e, h⟩
        · obtain ⟨j, r, h1, h2⟩ := ih.returned i i' u o o' h h' hl
          exact ⟨j, r, h1, h2.snoc _⟩
        · cases h
      · cases h'
    · rcases getElem?_snoc_cases h with h1 | ⟨e, h1⟩
      · by_cases c : u = t
        · subst c
          by_cases ci : i = i0
          · subst ci
            have h2 := g1.symm.trans h1
            injection h2 with h2; injection h2 with _ h2; subst h2
            exact ⟨_, _, new⟩
          · obtain ⟨j, r', h⟩ := g3 i o h1 ci
            exact ⟨j, r', h.snoc _⟩
        · rw [upd_other _ _ c] at hu
          obtain ⟨j, r', h⟩ := ih.idle u hu i o h1
          exact ⟨j, r', h.snoc _⟩
      · cases h1
    · by_cases c : u = t
      · subst c; rw [upd_same] at hu; cases hu
      · rw [upd_other _ _ c] at hu
        obtain ⟨i, h1, h2, h3⟩ := ih.busy u o hu
        have b := (List.getElem?_eq_some_iff.1 h1).1
        refine ⟨i, by rw [List.getElem?_append_left b]; exact h1, fun k e hk h => ?_, fun i' o' h hne => ?_⟩
        · rcases getElem?_snoc_cases h with h | ⟨-, h⟩
          · exact h2 k e hk h
          · subst h; exact Ne.symm c
        · rcases getElem?_snoc_cases h with h | ⟨-, h⟩
          · obtain ⟨j, r, h⟩ := h3 i' o' h hne
            exact ⟨j, r, h.snoc _⟩
          · cases h

/-- Results belong to calls. -/
theorem Turns.matched {W : Op → R → Prop} {H : List (Event Op R)} {p : Tid → Option Op} (h : Turns W H p) {t : Tid}
    {i j : Nat} {op : Op} {r : R} (hr : ReturnsTo H t i j op r) : W op r := by
  induction h with
  | nil => have := hr.1; simp at this
  | @inv H p u op' _ _ ih =>
    obtain ⟨h1, h2, h3, h4⟩ := hr
    rcases getElem?_snoc_cases h2 with h2 | ⟨-, h2⟩
    · have b := (List.getElem?_eq_some_iff.1 h2).1
      rcases getElem?_snoc_cases h1 with h1 | ⟨e, -⟩
      · exact ih ⟨h1, h2, h3, fun k e k1 k2 hk => h4 k e k1 k2 (by rw [List.getElem?_append_left (by omega)]; exact hk)⟩
      · omega
    · cases h2
  | @ret H p u op' r' h0 hp hW ih =>
    obtain ⟨h1, h2, h3, h4⟩ := hr
    have h1' : H[i]? = some (.inv t op) := by
      rcases getElem?_snoc_cases h1 with h1 | ⟨-, h1⟩
      · exact h1
      · cases h1
    rcases getElem?_snoc_cases h2 with h2 | ⟨e, h2⟩
    · have b := (List.getElem?_eq_some_iff.1 h2).1
      exact ih ⟨h1', h2, h3, fun k e k1 k2 hk => h4 k e k1 k2 (by rw [List.getElem?_append_left (by omega)]; exact hk)⟩
    · injection h2 with e1 e2
      subst e1 e2 e
      obtain ⟨i0, g1, g2, -⟩ := h0.orderly.busy u op' hp
      have b := (List.getElem?_eq_some_iff.1 g1).1
      have : i = i0 := by
        rcases Nat.lt_trichotomy i i0 with c | c | c
        · exact absurd rfl (h4 i0 _ c b (by rw [List.getElem?_append_left b]; exact g1))
        · exact c
        · exact absurd rfl (g2 i _ c h1')
      subst this
      rw [g1] at h1'
      injection h1' with h1'
      injection h1' with _ h1'
      subst h1'
      exact hW

/-! ## Sequences sorted by position -/

/-- A sorted list ends with its greatest member. -/
theorem last_of_sorted {α : Type} (f : α → Nat) : ∀ (l : List α) (m : α), l.Pairwise (fun a b => f a < f b) → m ∈ l →
    (∀ x ∈ l, f x ≤ f m) → ∃ l', l = l' ++ [m] ∧ ∀ x ∈ l', f x < f m
  | [], m, _, hm, _ => by cases hm
  | x :: l, m, hp, hm, hx => by
    rw [List.pairwise_cons] at hp
    by_cases c : l = []
    · subst c
      have : m = x := by simpa using hm
      subst this
      exact ⟨[], rfl, fun x h => by cases h⟩
    · have hml : m ∈ l := by
        rcases List.mem_cons.1 hm with e | h
        · subst e
          obtain ⟨y, hy⟩ := List.exists_mem_of_ne_nil l c
          have := hp.1 y hy
          have := hx y (by simp [hy])
          omega
        · exact h
      obtain ⟨l', e, h⟩ := last_of_sorted f l m hp.2 hml (fun x h => hx x (by simp [h]))
      refine ⟨x :: l', by rw [e]; rfl, fun y hy => ?_⟩
      rcases List.mem_cons.1 hy with e' | hy
      · subst e'; exact hp.1 m hml
      · exact h y hy

/-! ## The theorem -/

section
variable (P : Client Op R Q)

/-- The state of a program after results. -/
def Client.feed (q : Q) (rs : List R) : Q := rs.foldl P.go q

/-- The results returned to a goroutine. -/
def given (H : List (Event Op R)) (t : Tid) : List R := H.filterMap fun e => match e with
  | .ret u r => if u = t then some r else none
  | .inv _ _ => none

theorem given_snoc (H : List (Event Op R)) (t : Tid) (e : Event Op R) : given (H ++ [e]) t = given H t ++ given [e] t := by
  simp [given, List.filterMap_append]

theorem Client.after_feed (H : List (Event Op R)) : ∀ (q : Tid → Q) (t : Tid), P.after q H t = P.feed (q t) (given H t) := by
  induction H with
  | nil => intro q t; rfl
  | cons e H ih =>
    intro q t
    cases e with
    | inv u op => rw [Client.after, ih]; rfl
    | ret u r =>
      rw [Client.after, ih]
      by_cases c : t = u
      · subst c; rw [upd_same]; simp [given, Client.feed]
      · rw [upd_other _ _ c]; simp [given, Ne.symm c]

/-- Entries of a sequence, sorted by position, that are the calls of `t` that have returned before `n` give
the results returned to `t` before `n`. -/
theorem given_take {H : List (Event Op R)} {p : Tid → Option Op} (ho : Orderly H p) (t : Tid) : ∀ (n : Nat)
    (l : List (Nat × Op × R)), n ≤ H.length → l.Pairwise (fun a b => a.1 < b.1) →
    (∀ x : Nat × Op × R, x ∈ l ↔ ∃ j, j < n ∧ ReturnsTo H t x.1 j x.2.1 x.2.2) →
    l.map (fun x => x.2.2) = given (H.take n) t
  | 0, l, _, _, hm => by
    have : l = [] := by
      rcases l with _ | ⟨x, l⟩
      · rfl
      · obtain ⟨j, hj, -⟩ := (hm x).1 (by simp)
        omega
    subst this; simp [given]
  | n + 1, l, hn, hs, hm => by
    have hg : H[n]? = some H[n] := List.getElem?_eq_getElem (by omega)
    rw [List.take_add_one, hg]
    show _ = given (H.take n ++ [H[n]]) t
    rw [given_snoc]
    by_cases c : ∃ r, H[n] = .ret t r
    · obtain ⟨r, c⟩ := c
      rw [c] at hg ⊢
      obtain ⟨i, op, hr⟩ := ho.called n t r hg
      have hmem : (i, op, r) ∈ l := (hm (i, op, r)).2 ⟨n, by omega, hr⟩
      have small : ∀ x ∈ l, x.1 ≤ i := by
        intro x hx
        obtain ⟨j, hj, h⟩ := (hm x).1 hx
        rcases Nat.lt_or_ge i x.1 with c | c
        · exact absurd rfl (hr.2.2.2 x.1 _ c (by have := h.2.2.1; omega) h.1)
        · exact c
      obtain ⟨l', e, hlt⟩ := last_of_sorted (fun x => x.1) l (i, op, r) hs hmem small
      subst e
      have ih := given_take ho t n l' (by omega) (List.pairwise_append.1 hs).1 (fun x => by
        constructor
        · intro hx
          obtain ⟨j, hj, h⟩ := (hm x).1 (by simp [hx])
          refine ⟨j, ?_, h⟩
          rcases Nat.lt_or_ge j n with c | c
          · exact c
          · have : j = n := by omega
            subst this
            exact absurd rfl (h.2.2.2 i _ (hlt x hx) hr.2.2.1 hr.1)
        · rintro ⟨j, hj, h⟩
          have := (hm x).2 ⟨j, by omega, h⟩
          rcases List.mem_append.1 this with hx | hx
          · exact hx
          · have : x = (i, op, r) := by simpa using hx
            subst this
            exact absurd rfl (hr.2.2.2 j _ h.2.2.1 hj h.2.1))
      rw [List.map_append, ih]
      simp [given]
    · have e : given [H[n]] t = [] := by
        cases hc : H[n] with
        | inv u op => rfl
        | ret u r =>
          have : u ≠ t := fun e => c ⟨r, by rw [hc, e]⟩
          simp [given, this]
      rw [e, List.append_nil]
      refine given_take ho t n l (by omega) hs (fun x => ?_)
      rw [hm x]
      constructor
      · rintro ⟨j, hj, h⟩
        refine ⟨j, ?_, h⟩
        rcases Nat.lt_or_ge j n with c' | c'
        · exact c'
        · have : j = n := by omega
          subst this
          have := h.2.1
          rw [hg] at this; injection this with this
          exact absurd ⟨_, this⟩ c
      · rintro ⟨j, hj, h⟩
        exact ⟨j, by omega, h⟩

/-- Who made the call at a position. -/
def by_ (H : List (Event Op R)) (t : Tid) (x : Nat × Op × R) : Bool := match H[x.1]? with
  | some e => decide (e.tid = t)
  | none => false

theorem by_iff {H : List (Event Op R)} {t u : Tid} {x : Nat × Op × R} {op : Op} (h : H[x.1]? = some (.inv u op)) :
    by_ H t x = true ↔ u = t := by
  simp only [by_, h, Event.tid]
  exact decide_eq_true_iff

/-- A goroutine in a call is in the state that asked for it. -/
theorem Client.Follows.pending {P : Client Op R Q} {H : List (Event Op R)} {p : Tid → Option Op} {q0 : Tid → Q}
    (ho : Orderly H p) (hf : P.Follows q0 H) {t : Tid} {op : Op} (h : p t = some op) :
    P.ask (P.after q0 H t) = some op := by
  obtain ⟨i, h1, h2, -⟩ := ho.busy t op h
  have e : given H t = given (H.take i) t := by
    have : given (H.drop i) t = [] := by
      refine List.filterMap_eq_nil_iff.2 fun e he => ?_
      obtain ⟨k, hk⟩ := List.getElem?_of_mem he
      rw [List.getElem?_drop] at hk
      cases e with
      | inv u o => rfl
      | ret u r =>
        refine if_neg fun c => ?_
        subst c
        rcases Nat.eq_zero_or_pos k with e | hpos
        · subst e; rw [Nat.add_zero, h1] at hk; cases hk
        · exact h2 (i + k) _ (by omega) hk rfl
    conv => lhs; rw [← List.take_append_drop i H]
    rw [given, List.filterMap_append]
    exact (congrArg (given (H.take i) t ++ ·) this).trans (List.append_nil _)
  have := hf i t op h1
  rwa [P.after_feed, ← e, ← P.after_feed] at this

/-- **Linearizable means atomic, for programs.** Goroutines that run programs on a linearizable object are, at
every moment, where they can be if every call takes effect at once: each is in the same state of its program,
or, if it is in a call, perhaps in the state after that call. -/
theorem Client.atomic {S : SeqSpec Op R} {H : List (Event Op R)} {p : Tid → Option Op} {q0 : Tid → Q}
    (ho : Orderly H p) (hf : P.Follows q0 H) (hl : Linearizable S H) :
    ∃ l s q, P.Atomic S q0 l s q ∧ ∀ t, q t = P.after q0 H t ∨
      ∃ op r, p t = some op ∧ q t = P.go (P.after q0 H t) r := by
  obtain ⟨L, s, hrun, hnd, hinv, hall, hord⟩ := hl
  -- calls of one goroutine are in order
  have sorted : ∀ t (L1 L2 : List (Nat × Op × R)), L = L1 ++ L2 →
      (L1.filter (by_ H t)).Pairwise (fun a b => a.1 < b.1) := by
    intro t L1 L2 e
    have h1 : (L.filter (by_ H t)).Pairwise (fun a b => a.1 < b.1) := by
      have hne : L.Pairwise (fun a b => a.1 ≠ b.1) := by
        rw [List.Nodup, List.pairwise_map] at hnd; exact hnd
      have h2 := (hord.and hne).filter (by_ H t)
      refine h2.imp_of_mem ?_
      intro a b ha hb h
      obtain ⟨ha, ha'⟩ := List.mem_filter.1 ha
      obtain ⟨hb, hb'⟩ := List.mem_filter.1 hb
      obtain ⟨u, hu⟩ := hinv a.1 a.2.1 a.2.2 ha
      obtain ⟨w, hw⟩ := hinv b.1 b.2.1 b.2.2 hb
      have eu := (by_iff hu).1 ha'
      have ew := (by_iff hw).1 hb'
      subst eu ew
      rcases Nat.lt_trichotomy a.1 b.1 with c | c | c
      · exact c
      · exact absurd c h.2
      · obtain ⟨j, r, hj, hr⟩ := ho.returned _ _ _ _ _ hw hu c
        have := h.1 j _ r ⟨_, hr⟩
        omega
    rw [e, List.filter_append] at h1
    exact (List.pairwise_append.1 h1).1
  have each : ∀ x ∈ L, ∃ t, H[x.1]? = some (.inv t x.2.1) := fun x hx => hinv x.1 x.2.1 x.2.2 hx
  have same : ∀ x ∈ L, ∀ y ∈ L, x.1 = y.1 → x = y := by
    intro x hx y hy e
    have hne : L.Pairwise (fun a b => a.1 ≠ b.1) := by
      rw [List.Nodup, List.pairwise_map] at hnd; exact hnd
    rcases List.getElem_of_mem hx with ⟨i, hi, ei⟩
    rcases List.getElem_of_mem hy with ⟨j, hj, ej⟩
    rw [List.pairwise_iff_getElem] at hne
    rcases Nat.lt_trichotomy i j with c | c | c
    · exact absurd (by rw [ei, ej]; exact e) (hne i j hi hj c)
    · subst c; rw [← ei, ← ej]
    · exact absurd (by rw [ei, ej]; exact e.symm) (hne j i hj hi c)
  have retm : ∀ {t i j op r}, ReturnsTo H t i j op r → (i, op, r) ∈ L := fun h => hall _ _ _ _ ⟨_, h⟩
  -- the programs on the sequential object
  have run : ∀ (L1 L2 : List (Nat × Op × R)) (s1 : S.St), L = L1 ++ L2 → S.Run S.init (L1.map Prod.snd) s1 →
      ∃ l, P.Atomic S q0 l s1 (fun t => P.feed (q0 t) ((L1.filter (by_ H t)).map (fun x => x.2.2))) := by
    intro L1
    induction hn : L1.length generalizing L1 with
    | zero =>
      intro L2 s1 e hr
      have : L1 = [] := List.length_eq_zero_iff.1 hn
      subst this
      generalize hm : ([] : List (Nat × Op × R)).map Prod.snd = lm at hr
      cases hr with
      | nil => exact ⟨[], .nil⟩
      | snoc h1 h2 => simp at hm
    | succ n ih =>
      intro L2 s1 e hr
      obtain ⟨L0, x, rfl⟩ : ∃ L0 x, L1 = L0 ++ [x] := by
        rcases List.eq_nil_or_concat L1 with h | ⟨l, x, h⟩
        · subst h; cases hn
        · exact ⟨l, x, by simpa using h⟩
      have hx : x ∈ L := by rw [e]; simp
      obtain ⟨t, ht⟩ := each x hx
      have hn0 : L0.length = n := by simpa using hn
      generalize hm : (L0 ++ [x]).map Prod.snd = lm at hr
      cases hr with
      | nil => simp at hm
      | @snoc s0 _ l op r h1 h2 =>
        rw [List.map_append] at hm
        obtain ⟨e1, e2⟩ := List.append_inj' hm rfl
        simp only [List.map_cons, List.map_nil, List.cons.injEq, and_true] at e2
        subst e1
        obtain ⟨l, hl⟩ := ih L0 hn0 ([x] ++ L2) s0 (by rw [e]; simp) h1
        have hop : x.2.1 = op := by rw [e2]
        have hres : x.2.2 = r := by rw [e2]
        -- what the goroutine has been given before the call
        have hgiven : (L0.filter (by_ H t)).map (fun y => y.2.2) = given (H.take x.1) t := by
          have bx := (List.getElem?_eq_some_iff.1 ht).1
          refine given_take ho t x.1 _ (by omega) (sorted t L0 ([x] ++ L2) (by rw [e]; simp)) (fun y => ?_)
          have hord' := hord
          rw [e, List.pairwise_append] at hord'
          obtain ⟨o1, -, o2⟩ := hord'
          rw [List.pairwise_append] at o1
          obtain ⟨-, -, o1⟩ := o1
          have hnd' := hnd
          constructor
          · intro hy
            obtain ⟨hy0, hy'⟩ := List.mem_filter.1 hy
            have hyL : y ∈ L := by rw [e]; simp [hy0]
            obtain ⟨u, hu⟩ := each y hyL
            have := (by_iff hu).1 hy'
            subst this
            have hyx : y.1 ≠ x.1 := by
              intro c
              have := same y hyL x hx c
              subst this
              rw [e, List.map_append, List.map_append, List.nodup_append, List.nodup_append] at hnd'
              exact hnd'.1.2.2 y.1 (List.mem_map.2 ⟨y, hy0, rfl⟩) y.1 (by simp) rfl
            have hlt : y.1 < x.1 := by
              rcases Nat.lt_trichotomy y.1 x.1 with c | c | c
              · exact c
              · exact absurd c hyx
              · obtain ⟨j, r', hj, hr'⟩ := ho.returned _ _ _ _ _ ht hu c
                have := o1 y hy0 x (by simp) j _ r' ⟨_, hr'⟩
                omega
            obtain ⟨j, r', hj, hr'⟩ := ho.returned _ _ _ _ _ hu ht hlt
            have := same y hyL _ (retm hr') rfl
            refine ⟨j, hj, ?_⟩
            rw [this]; exact hr'
          · rintro ⟨j, hj, hr'⟩
            have hyL : y ∈ L := retm hr'
            rw [List.mem_filter]
            refine ⟨?_, (by_iff hr'.1).2 rfl⟩
            rw [e, List.mem_append, List.mem_append] at hyL
            rcases hyL with (h | h) | h
            · exact h
            · have : y = x := by simpa using h
              subst this
              have := hr'.2.2.1
              omega
            · have := o2 x (by simp) y h j _ _ ⟨_, hr'⟩
              omega
        have hask : P.ask (P.feed (q0 t) ((L0.filter (by_ H t)).map (fun y => y.2.2))) = some op := by
          rw [hgiven, ← P.after_feed, hf x.1 t _ ht, hop]
        refine ⟨l ++ [(t, op, r)], ?_⟩
        have hnew := Client.Atomic.snoc (t := t) hl hask h2
        refine Eq.mp (congrArg _ ?_) hnew
        symm
        funext u
        by_cases c : u = t
        · subst c
          rw [upd_same, List.filter_append, List.map_append]
          have : [x].filter (by_ H u) = [x] := by simp [(by_iff ht).2 rfl]
          rw [this]
          simp [Client.feed, hres]
        · rw [upd_other _ _ c, List.filter_append]
          have : [x].filter (by_ H u) = [] := by
            have : ¬ by_ H u x = true := fun h => c ((by_iff ht).1 h).symm
            simp [this]
          rw [this, List.append_nil]
  obtain ⟨l, hl⟩ := run L [] s (by simp) hrun
  refine ⟨l, s, _, hl, fun t => ?_⟩
  -- at the end
  have full : ∀ (F : List (Nat × Op × R)), F.Pairwise (fun a b => a.1 < b.1) →
      (∀ x : Nat × Op × R, x ∈ F ↔ ∃ j, ReturnsTo H t x.1 j x.2.1 x.2.2) →
      P.feed (q0 t) (F.map (fun x => x.2.2)) = P.after q0 H t := by
    intro F h1 h2
    have := given_take ho t H.length F (Nat.le_refl _) h1 (fun x => by
      rw [h2]
      exact ⟨fun ⟨j, h⟩ => ⟨j, (List.getElem?_eq_some_iff.1 h.2.1).1, h⟩, fun ⟨j, _, h⟩ => ⟨j, h⟩⟩)
    rw [this, List.take_length, P.after_feed]
  have srt := sorted t L [] (by simp)
  by_cases cb : ∃ x ∈ L, by_ H t x = true ∧ ∀ j r, ¬ ReturnsTo H t x.1 j x.2.1 r
  · obtain ⟨x, hx, hbx, hno⟩ := cb
    obtain ⟨u, hu⟩ := each x hx
    have := (by_iff hu).1 hbx
    subst this
    cases hp : p u with
    | none => obtain ⟨j, r, h⟩ := ho.idle u hp _ _ hu; exact absurd h (hno j r)
    | some op =>
      obtain ⟨i, h1, h2, h3⟩ := ho.busy u op hp
      have ei : x.1 = i := by
        by_cases c : x.1 = i
        · exact c
        · obtain ⟨j, r, h⟩ := h3 _ _ hu c; exact absurd h (hno j r)
      subst ei
      have hm : ∀ y ∈ L.filter (by_ H u), y.1 ≤ x.1 := by
        intro y hy
        obtain ⟨hy, hy'⟩ := List.mem_filter.1 hy
        obtain ⟨w, hw⟩ := each y hy
        have := (by_iff hw).1 hy'
        subst this
        rcases Nat.lt_or_ge x.1 y.1 with c | c
        · exact absurd rfl (h2 y.1 _ c hw)
        · exact c
      obtain ⟨F, e, hF⟩ := last_of_sorted (fun x => x.1) _ x srt (List.mem_filter.2 ⟨hx, hbx⟩) hm
      refine Or.inr ⟨op, x.2.2, rfl, ?_⟩
      show P.feed (q0 u) ((L.filter (by_ H u)).map _) = _
      rw [e, List.map_append]
      have := full F (by rw [e] at srt; exact (List.pairwise_append.1 srt).1) (fun y => by
        constructor
        · intro hy
          have hy2 : y ∈ L.filter (by_ H u) := by rw [e]; simp [hy]
          obtain ⟨hyL, hy'⟩ := List.mem_filter.1 hy2
          obtain ⟨w, hw⟩ := each y hyL
          have := (by_iff hw).1 hy'
          subst this
          have hlt := hF y hy
          obtain ⟨j, r, h⟩ := h3 _ _ hw (by omega)
          have := same y hyL _ (retm h) rfl
          exact ⟨j, by rw [this]; exact h⟩
        · rintro ⟨j, h⟩
          have : y ∈ L.filter (by_ H u) := List.mem_filter.2 ⟨retm h, (by_iff h.1).2 rfl⟩
          rw [e, List.mem_append] at this
          rcases this with h' | h'
          · exact h'
          · have : y = x := by simpa using h'
            subst this
            exact absurd h (hno j _))
      rw [← this]
      simp [Client.feed]
  · refine Or.inl (full _ srt (fun y => ?_))
    constructor
    · intro hy
      obtain ⟨hyL, hy'⟩ := List.mem_filter.1 hy
      by_cases c : ∃ j r, ReturnsTo H t y.1 j y.2.1 r
      · obtain ⟨j, r, h⟩ := c
        have := same y hyL _ (retm h) rfl
        exact ⟨j, by rw [this]; exact h⟩
      · exact absurd ⟨y, hyL, hy', fun j r h => c ⟨j, r, h⟩⟩ cb
    · rintro ⟨j, h⟩
      exact List.mem_filter.2 ⟨retm h, (by_iff h.1).2 rfl⟩

/-- The same for executions: goroutines that are not in a call are where they can be if every call takes effect at
once, those in a call before it or after it. -/
theorem Client.atomic_exec {M : Machine} {body : Op → Prog M.A M.Ans R} {sh : M.Sh} {tr : List (Label M Op R)}
    {c : Config M Op R} {S : SeqSpec Op R} {q0 : Tid → Q} (he : Exec body (Config.init sh) tr c)
    (hf : P.Follows q0 (history tr)) (hl : Linearizable S (history tr)) :
    ∃ l s q, P.Atomic S q0 l s q ∧ ∀ t, q t = P.after q0 (history tr) t ∨
      ∃ op r, (c.th t).op = some op ∧ q t = P.go (P.after q0 (history tr) t) r :=
  P.atomic he.turns.orderly hf hl

theorem inv_mem {M : Machine} {t : Tid} {op : Op} : ∀ {tr : List (Label M Op R)}, .call t op ∈ tr →
    .inv t op ∈ history tr
  | l :: tr, hm => by
    cases List.mem_cons.1 hm with
    | inl e => subst e; simp [history]
    | inr h =>
      have := inv_mem h
      cases l <;> simp [history, this]

/-- The calls made are among those the program ever asks for. -/
theorem Client.Follows.calls {M : Machine} {P : Client Op R Q} {tr : List (Label M Op R)} {q0 : Tid → Q}
    {A : Tid → Op → Prop} (hf : P.Follows q0 (history tr)) (h : ∀ t q op, P.ask q = some op → A t op) : Calls A tr := by
  intro t op hm
  obtain ⟨i, hi⟩ := List.getElem?_of_mem (inv_mem hm)
  exact h t _ op (hf i t op hi)

end

/-- A check that a history follows programs. -/
def Client.followsB [DecidableEq Op] (P : Client Op R Q) : (Tid → Q) → List (Event Op R) → Bool
  | _, [] => true
  | q, .inv t op :: H => decide (P.ask (q t) = some op) && Client.followsB P q H
  | q, .ret t r :: H => Client.followsB P (upd q t (P.go (q t) r)) H

theorem Client.followsB_sound [DecidableEq Op] (P : Client Op R Q) : ∀ (H : List (Event Op R)) (q : Tid → Q),
    Client.followsB P q H = true → P.Follows q H
  | [], q, _ => fun i t op h => by simp at h
  | .inv t op :: H, q, h => by
    simp only [Client.followsB, Bool.and_eq_true, decide_eq_true_iff] at h
    intro i u o hi
    cases i with
    | zero => cases hi; exact h.1
    | succ i => exact Client.followsB_sound P H q h.2 i u o hi
  | .ret t r :: H, q, h => by
    intro i u o hi
    cases i with
    | zero => cases hi
    | succ i => exact Client.followsB_sound P H _ h i u o hi

end Verif.Conc
