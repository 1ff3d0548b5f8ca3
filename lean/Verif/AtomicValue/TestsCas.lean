import Verif.AtomicValue.Tests

/-!
# C146: the test of `CompareAndSwap` with many goroutines

TestValueCompareAndSwap_Concurrent (atomic/value_test.go:166-189): `m` goroutines take turns, by calling
`CompareAndSwap(j, j+1)` until it is their turn. It cannot give a wrong number, and it ends under a fair scheduler.
-/

set_option linter.unusedSectionVars false

namespace Verif.AtomicValue.Tests

open Verif.Conc Verif.AtomicValue

/-! ## Executions with `Load` and `CompareAndSwap` only -/

section
variable {T : Type} [Inhabited T]

/-- Nobody is in a call of `Store` or `Swap`. -/
def Mild (c : Cfg T) : Prop := ∀ t op p, c.th t = .run op p → op = .load ∨ ∃ o n, op = .cas o n

theorem strictly (E : GoEq T) {c c' : Cfg T} {tr : List (Lab T)} (he : Exec (body E) c tr c') {a : Canon (var E true)}
    (hr : Rel E true c a) (hm : Mild c) (hc : Calls (fun _ op => op = .load ∨ ∃ o n, op = .cas o n) tr) :
    ExecIf (fun c l => true = true → Changing E c l) (body E) c tr c' ∧ Mild c' := by
  have key : ExecIf (fun c l => true = true → Changing E c l) (body E) c tr c' ∧ Mild c' ∧ ∃ a, Rel E true c' a := by
    induction he with
    | nil => exact ⟨.nil, hm, a, hr⟩
    | @snoc tr c1 c2 l _ hs ih =>
      obtain ⟨l1, l2⟩ := hc.of_snoc
      obtain ⟨g1, g2, b, g3⟩ := ih l1
      have hch : Changing E c1 l := by
        cases hs with
        | call t op ht => trivial
        | ret t op r ht => trivial
        | act t op x k ans sh' ht hst =>
          obtain ⟨stg, N, k1, -, -, -⟩ := g3
          have hth := k1 t
          rw [ht] at hth
          have e' := g2 t op _ ht
          cases hst' : stg t <;> rw [hst'] at hth <;> (try (cases hth; done)) <;>
            (injection hth with q1 q2; subst q1; first
              | (injection q2 with q2 q3; subst q2; trivial)
              | (rcases e' with e' | ⟨o, n, e'⟩ <;> cases e')
              | cases q2)
      have hmild : Mild c2 := by
        cases hs with
        | call t op ht =>
          intro u o p hu
          by_cases c : u = t
          · subst c
            have : Thread.run op (body E op) = Thread.run (M := mach T) o p := (upd_same _ _ _).symm.trans hu
            injection this with h1 _
            subst h1
            exact l2 u op rfl
          · exact g2 u o p ((upd_other _ _ c).symm.trans hu)
        | act t op x k ans sh' ht hst =>
          intro u o p hu
          by_cases c : u = t
          · subst c
            have : Thread.run op (k ans) = Thread.run (M := mach T) o p := (upd_same _ _ _).symm.trans hu
            injection this with h1 _
            subst h1
            exact g2 u op _ ht
          · exact g2 u o p ((upd_other _ _ c).symm.trans hu)
        | ret t op r ht =>
          intro u o p hu
          by_cases c : u = t
          · subst c
            have : Thread.idle = Thread.run (M := mach T) o p := (upd_same _ _ _).symm.trans hu
            cases this
          · exact g2 u o p ((upd_other _ _ c).symm.trans hu)
      have hx := ExecIf.snoc g1 (fun _ => hch) hs
      refine ⟨hx, hmild, ?_⟩
      obtain ⟨b', hb', -⟩ := (sim E true).along g3 (fun _ _ => True) trivial (fun _ _ _ _ _ _ => trivial)
        (fun _ _ _ _ _ _ _ _ _ => trivial) (fun _ _ _ _ _ _ => trivial) (fun _ _ _ _ _ _ _ => trivial)
        (.snoc .nil (fun _ => hch) hs)
      exact ⟨b', hb'⟩
  exact ⟨key.1, key.2.1⟩

end

/-! ## The test -/

/-- `int` -/
abbrev I64 := BitVec 64

/-- A number as an `int`. -/
abbrev int (j : Nat) : I64 := BitVec.ofNat 64 j

/-- `for j := i; j < m*n; runtime.Gosched() { if v.CompareAndSwap(j, j+1) { j += m } }` (atomic/value_test.go:179-183);
the state is `j`. -/
def turner (m N : Nat) : Client (Op I64) (Res I64) Nat where
  ask j := if j < N then some (.cas (int j) (int (j + 1))) else none
  go j r := match r with
    | .bool true => j + m
    | _ => j

/-- Goroutine `t`, of `m`, begins with `j = t` (atomic/value_test.go:175-179); there are no others. -/
def turners (m N : Nat) (t : Tid) : Nat := if t < m then t else N

/-- `j`, a call that has taken effect included. -/
def jay (m j : Nat) : CStatus (Op I64) (Res I64) → Nat
  | .done _ (.bool true) => j + m
  | _ => j

/-- The value held is `x`, and the goroutines are about to go from `x` to `x+1`, …, from `x+m-1` to `x+m`, in turn. -/
structure Turning {E : GoEq I64} (m N x : Nat) (q : Tid → Nat) (a : Canon (var E true)) : Prop where
  held : held a = int x
  le : x ≤ N
  turn : ∀ t, t < m → x ≤ jay m (q t) (a.th t) ∧ jay m (q t) (a.th t) < x + m ∧ jay m (q t) (a.th t) % m = t
  none : ∀ t, m ≤ t → N ≤ q t

theorem turner_ask {m N j : Nat} {op : Op I64} (h : (turner m N).ask j = some op) :
    j < N ∧ op = .cas (int j) (int (j + 1)) := by
  simp only [turner] at h
  split at h
  · rename_i c; injection h with h; exact ⟨c, h.symm⟩
  · cases h

theorem int_inj {N i j : Nat} (hN : N < 2 ^ 63) (hi : i ≤ N) (hj : j ≤ N) (h : int i = int j) : i = j := by
  have := congrArg BitVec.toNat h
  rw [BitVec.toNat_ofNat, BitVec.toNat_ofNat, Nat.mod_eq_of_lt (by omega), Nat.mod_eq_of_lt (by omega)] at this
  exact this

/-- Two numbers less than `m` apart with the same remainder are equal. -/
theorem near_eq {m x y : Nat} (h1 : x ≤ y) (h2 : y < x + m) (h3 : y % m = x % m) : y = x := by
  obtain ⟨d, rfl⟩ := Nat.exists_eq_add_of_le h1
  have hd : d < m := by omega
  rcases Nat.eq_zero_or_pos d with h | h
  · omega
  · have e1 := Nat.mod_add_div x m
    have e2 := Nat.mod_add_div (x + d) m
    rw [h3] at e2
    have e3 : m * ((x + d) / m) = m * (x / m) + d := by omega
    have : m ∣ d := by
      have h4 : m ∣ m * (x / m) + d := ⟨_, e3.symm⟩
      exact (Nat.dvd_add_right ⟨_, rfl⟩).1 h4
    exact absurd (Nat.le_of_dvd h this) (by omega)

section
variable (E : GoEq I64) (hE : ∀ a b, E.eq a b = true ↔ a = b)
include hE

/-- What a call that takes effect does. -/
theorem turn_lin {m N x : Nat} (hN : N < 2 ^ 63) {q : Tid → Nat} {a : Canon (var E true)} (h : Turning m N x q a) {t : Tid}
    {op : Op I64} {r : Res I64} {s' : (var E true).St} (ht : a.th t = .pending op)
    (hask : (turner m N).ask (q t) = some op) (hleg : (var E true).legal a.st op r s') :
    (q t = x ∧ x < N ∧ r = .bool true ∧ Turning (E := E) m N (x + 1) q ⟨s', upd a.th t (.done op r)⟩) ∨
    (q t ≠ x ∧ r = .bool false ∧ Turning (E := E) m N x q ⟨s', upd a.th t (.done op r)⟩) := by
  obtain ⟨hlt, rfl⟩ := turner_ask hask
  have htm : t < m := by
    rcases Nat.lt_or_ge t m with c | c
    · exact c
    · have := h.none t c; omega
  have hst : (a.st : I64) = int x := h.held
  obtain ⟨l1, l2, l3⟩ := h.turn t htm
  rw [ht] at l1 l2 l3
  simp only [jay] at l1 l2 l3
  rcases hleg with ⟨rfl, he, hs⟩ | ⟨rfl, hs, he⟩
  · left
    have hq : q t = x := by
      exact (int_inj hN h.le (Nat.le_of_lt hlt) (hst.symm.trans ((hE _ _).1 he))).symm
    have hs' : (s' : I64) = int (x + 1) := by
      rcases hs with hs | ⟨he', -⟩
      · rw [← hq]; exact hs
      · rw [hE] at he'
        exact absurd (int_inj hN hlt (Nat.le_of_lt hlt) he') (by omega)
    refine ⟨hq, by omega, rfl, hs', by omega, fun u hu => ?_, h.none⟩
    by_cases c : u = t
    · subst c
      simp only [upd_same, jay]
      refine ⟨by omega, by omega, ?_⟩
      rw [Nat.add_mod_right]; exact l3
    · simp only [upd_other _ _ c]
      obtain ⟨k1, k2, k3⟩ := h.turn u hu
      refine ⟨?_, by omega, k3⟩
      rcases Nat.eq_or_lt_of_le k1 with e | e
      · exfalso
        rw [← e, ← hq, l3] at k3
        exact c k3.symm
      · omega
  · right
    have hne : q t ≠ x := by
      intro e
      have := he rfl
      have h2 : E.eq (a.st : I64) (int (q t)) = true := (hE _ _).2 (by rw [e]; exact hst)
      rw [h2] at this
      cases this
    have hs' : (s' : I64) = int x := Eq.trans hs hst
    refine ⟨hne, rfl, hs', h.le, fun u hu => ?_, h.none⟩
    by_cases c : u = t
    · subst c
      simp only [upd_same, jay]
      exact ⟨l1, l2, l3⟩
    · simp only [upd_other _ _ c]; exact h.turn u hu

omit hE in
theorem turn_call {m N x : Nat} {q : Tid → Nat} {a : Canon (var E true)} (h : Turning m N x q a) {t : Tid} {op : Op I64}
    (ht : a.th t = .idle) : Turning (E := E) m N x q ⟨a.st, upd a.th t (.pending op)⟩ := by
  refine ⟨h.held, h.le, fun u hu => ?_, h.none⟩
  by_cases c : u = t
  · subst c
    have := h.turn u hu
    rw [ht] at this
    simp only [upd_same, jay] at this ⊢
    exact this
  · simp only [upd_other _ _ c]; exact h.turn u hu

omit hE in
theorem turn_ret {m N x : Nat} {q : Tid → Nat} {a : Canon (var E true)} (h : Turning m N x q a) {t : Tid} {op : Op I64}
    {r : Res I64} (ht : a.th t = .done op r) (hask : (turner m N).ask (q t) = some op) :
    Turning (E := E) m N x (upd q t ((turner m N).go (q t) r)) ⟨a.st, upd a.th t .idle⟩ := by
  have hlt := (turner_ask hask).1
  have e : jay m (q t) (.done op r) = (turner m N).go (q t) r := by
    simp only [turner, jay]
    split <;> split <;> simp_all
  refine ⟨h.held, h.le, fun u hu => ?_, fun u hu => ?_⟩
  · by_cases c : u = t
    · subst c
      have := h.turn u hu
      rw [ht, e] at this
      simp only [upd_same, jay]
      exact this
    · simp only [upd_other _ _ c]; exact h.turn u hu
  · by_cases c : u = t
    · subst c; have := h.none u hu; omega
    · simp only [upd_other _ _ c]; exact h.none u hu

/-- The value only grows. -/
theorem turning {m N x : Nat} (hN : N < 2 ^ 63) {c c' : Cfg I64} {tr : List (Lab I64)} {q : Tid → Nat}
    {a : Canon (var E true)} (hr : Rel E true c a) (hm : Mild c) (h : Turning m N x q a)
    (hi : ∀ t op, (a.th t).op = some op → (turner m N).ask (q t) = some op) (he : Exec (body E) c tr c')
    (hf : (turner m N).Follows q (history tr)) :
    ∃ a', Rel E true c' a' ∧ Mild c' ∧
      (∃ x', x ≤ x' ∧ Turning m N x' ((turner m N).after q (history tr)) a') ∧
      ∀ t op, (a'.th t).op = some op → (turner m N).ask ((turner m N).after q (history tr) t) = some op := by
  obtain ⟨k1, k2⟩ := strictly E he hr hm (hf.calls fun _ j op hj => Or.inr ⟨_, _, (turner_ask hj).2⟩)
  obtain ⟨a', g1, g2, g3⟩ := (sim E true).client hr (turner m N) q (fun q a => ∃ x', x ≤ x' ∧ Turning m N x' q a) hi
    ⟨x, Nat.le_refl x, h⟩ (fun q a t op ⟨x', h1, h2⟩ ht _ => ⟨x', h1, turn_call E h2 ht⟩)
    (fun q a t op r s' ⟨x', h1, h2⟩ ht hask hleg => by
      rcases turn_lin E hE hN h2 ht hask hleg with ⟨-, -, -, g⟩ | ⟨-, -, g⟩
      · exact ⟨x' + 1, by omega, g⟩
      · exact ⟨x', h1, g⟩)
    (fun q a t op r ⟨x', h1, h2⟩ ht hask => ⟨x', h1, turn_ret E h2 ht hask⟩) k1 hf
  exact ⟨a', g1, k2, g2, g3⟩

/-- Whose turn it is, when they call, they succeed. -/
theorem my_turn {m N x : Nat} (hN : N < 2 ^ 63) {c c' : Cfg I64} {tr : List (Lab I64)} {q : Tid → Nat}
    {a : Canon (var E true)} (hr : Rel E true c a) (hm : Mild c) (h : Turning m N x q a)
    (hi : ∀ t op, (a.th t).op = some op → (turner m N).ask (q t) = some op) (he : Exec (body E) c tr c')
    (hf : (turner m N).Follows q (history tr)) {t : Tid} (hx : q t = x) (ht : ∃ op, a.th t = .pending op) :
    ∃ a' x', Rel E true c' a' ∧ x ≤ x' ∧ Turning m N x' ((turner m N).after q (history tr)) a' ∧
      (x' = x → ∃ op, a'.th t = .pending op) := by
  obtain ⟨k1, -⟩ := strictly E he hr hm (hf.calls fun _ j op hj => Or.inr ⟨_, _, (turner_ask hj).2⟩)
  obtain ⟨a', g1, ⟨x', g2, g3, g4⟩, -⟩ := (sim E true).client hr (turner m N) q
    (fun q a => ∃ x', x ≤ x' ∧ Turning m N x' q a ∧ (x' = x → q t = x ∧ ∃ op, a.th t = .pending op)) hi
    ⟨x, Nat.le_refl x, h, fun _ => ⟨hx, ht⟩⟩
    (fun q a u op ⟨x', h1, h2, h3⟩ hu _ => ⟨x', h1, turn_call E h2 hu, fun e => by
      obtain ⟨g1, o, g2⟩ := h3 e
      refine ⟨g1, o, ?_⟩
      have c : t ≠ u := fun c => by subst c; rw [hu] at g2; cases g2
      simp only [upd_other _ _ c]; exact g2⟩)
    (fun q a u op r s' ⟨x', h1, h2, h3⟩ hu hask hleg => by
      rcases turn_lin E hE hN h2 hu hask hleg with ⟨-, -, -, g⟩ | ⟨hne, -, g⟩
      · exact ⟨x' + 1, by omega, g, fun e => by omega⟩
      · refine ⟨x', h1, g, fun e => ?_⟩
        obtain ⟨g1, o, g2⟩ := h3 e
        refine ⟨g1, o, ?_⟩
        have c : t ≠ u := fun c => by subst c; omega
        simp only [upd_other _ _ c]; exact g2)
    (fun q a u op r ⟨x', h1, h2, h3⟩ hu hask => ⟨x', h1, turn_ret E h2 hu hask, fun e => by
      obtain ⟨g1, o, g2⟩ := h3 e
      have c : t ≠ u := fun c => by subst c; rw [hu] at g2; cases g2
      exact ⟨by rw [upd_other _ _ c]; exact g1, o, by simp only [upd_other _ _ c]; exact g2⟩⟩) k1 hf
  exact ⟨a', x', g1, g2, g3, fun e => (g4 e).2⟩

end

/-! ## It cannot give a wrong number -/

/-- `v.Store(0)` (atomic/value_test.go:169). -/
theorem stored (E : GoEq I64) {tr : List (Lab I64)} {c : Cfg I64} (he : Exec (body E) (start I64) tr c)
    (hs : Calls (fun _ op => op = .store 0) tr) : value c.sh = (0 : I64) := by
  obtain ⟨a, ha, h⟩ := (sim E false).along (sim E false).start (fun tr a => Calls (fun _ op => op = .store (0 : I64)) tr →
    held a = 0 ∧ ∀ t op, a.th t = .pending op → op = .store 0) (fun _ => ⟨rfl, nofun⟩)
    (fun tr a t op ih ht hc => by
      obtain ⟨l1, l2⟩ := hc.of_snoc
      refine ⟨(ih l1).1, fun u o hu => ?_⟩
      by_cases c : u = t
      · subst c
        simp only [upd_same] at hu
        injection hu with hu; subst hu
        exact l2 u op rfl
      · simp only [upd_other _ _ c] at hu; exact (ih l1).2 u o hu)
    (fun tr a t op r s' ih ht hleg hc => by
      obtain ⟨g1, g2⟩ := ih hc
      have := g2 t op ht
      subst this
      refine ⟨hleg.2, fun u o hu => ?_⟩
      by_cases c : u = t
      · subst c; simp only [upd_same] at hu; cases hu
      · simp only [upd_other _ _ c] at hu; exact g2 u o hu)
    (fun tr a t x ans ih hc => ih hc.of_snoc.1)
    (fun tr a t op r ih ht hc => by
      obtain ⟨g1, g2⟩ := ih hc.of_snoc.1
      refine ⟨g1, fun u o hu => ?_⟩
      by_cases c : u = t
      · subst c; simp only [upd_same] at hu; cases hu
      · simp only [upd_other _ _ c] at hu; exact g2 u o hu)
    (any E he)
  exact (rel_st ha).symm.trans (h hs).1

theorem turning_start (E : GoEq I64) (m n : Nat) {tr0 : List (Lab I64)} {c0 : Cfg I64}
    (h0 : Exec (body E) (start I64) tr0 c0) (hs : Calls (fun _ op => op = .store 0) tr0) (hq : Quiet c0) :
    Rel E true c0 (still E true (value c0.sh)) ∧ Mild c0 ∧
    Turning m (m * n) 0 (turners m (m * n)) (still E true (value c0.sh)) :=
  by
  refine ⟨quiet_rel E true h0 hq, fun t op p h => ?_, stored E h0 hs, Nat.zero_le _, fun t ht => ?_, fun t ht => ?_⟩
  · rw [hq t] at h; cases h
  · simp only [turners, if_pos ht, still, jay]
    exact ⟨Nat.zero_le _, by omega, Nat.mod_eq_of_lt ht⟩
  · simp [turners, Nat.not_lt.2 ht]

/-- **C146, TestValueCompareAndSwap_Concurrent** (atomic/value_test.go:166-189). `m` goroutines take turns to count from 0
to `m*n` with `CompareAndSwap`. If all come to their end, `v.Load()` then gives `m*n`. -/
theorem C146_cas_test (E : GoEq I64) (hE : ∀ a b, E.eq a b = true ↔ a = b) (m n : Nat) (hmn : m * n + m < 2 ^ 63)
    (tr0 tr1 tr2 : List (Lab I64)) (c0 c1 c2 : Cfg I64) (h0 : Exec (body E) (start I64) tr0 c0)
    (hs : Calls (fun _ op => op = .store 0) tr0) (hq0 : Quiet c0) (h1 : Exec (body E) c0 tr1 c1)
    (hf : (turner m (m * n)).Follows (turners m (m * n)) (history tr1)) (hq : Quiet c1)
    (hd : ∀ t, t < m → (turner m (m * n)).ask ((turner m (m * n)).after (turners m (m * n)) (history tr1) t) = none)
    (h2 : Exec (body E) c1 tr2 c2) (hl : OnlyLoads tr2) (t : Tid) (op : Op I64) (r : Res I64) (hr : .ret t op r ∈ tr2) :
    r = .val (int (m * n)) := by
  obtain ⟨k1, k2, k3⟩ := turning_start E m n h0 hs hq0
  obtain ⟨a, g1, -, ⟨x, -, g2⟩, -⟩ := turning E hE (by omega) k1 k2 k3 (fun _ _ h => by cases h) h1 hf
  rw [loads E (h0.trans h1) hq h2 hl hr]
  have e := quiet_idle g1 hq
  subst e
  have hx : x = m * n := by
    rcases Nat.eq_zero_or_pos m with hm | hm
    · subst hm; have := g2.le; omega
    · have htm : x % m < m := Nat.mod_lt _ hm
      obtain ⟨l1, l2, l3⟩ := g2.turn (x % m) htm
      have e := near_eq l1 l2 l3
      have hd := hd (x % m) htm
      simp only [turner] at hd
      split at hd
      · cases hd
      · rename_i c
        simp only [still, jay] at e
        have := g2.le
        simp only [turner] at e
        omega
  have := g2.held
  rw [← hx]
  exact congrArg _ this

/-! ## It ends -/

section
variable {M : Machine} {Op R Q : Type} {prog : Op → Prog M.A M.Ans R} {c0 : Config M Op R}

/-- The execution from moment `n` on. -/
def drop (ρ : Run prog c0) (n : Nat) : Run prog (ρ.st n) where
  st k := ρ.st (n + k)
  lab k := ρ.lab (n + k)
  start := rfl
  next k := ρ.next (n + k)

theorem drop_trace (ρ : Run prog c0) (n : Nat) : ∀ k, ρ.trace (n + k) = ρ.trace n ++ (drop ρ n).trace k
  | 0 => by simp [Run.trace]
  | k + 1 => by
    rw [← Nat.add_assoc, Run.trace, Run.trace, drop_trace ρ n k, List.append_assoc]
    rfl

theorem after_append (P : Client Op R Q) : ∀ (H H' : List (Event Op R)) (q : Tid → Q),
    P.after q (H ++ H') = P.after (P.after q H) H'
  | [], _, _ => rfl
  | .inv _ _ :: H, H', q => after_append P H H' q
  | .ret _ _ :: H, H', _ => after_append P H H' _

theorem follows_append {P : Client Op R Q} {H H' : List (Event Op R)} {q : Tid → Q} (h : P.Follows q (H ++ H')) :
    P.Follows (P.after q H) H' := by
  intro i t op hi
  have := h (H.length + i) t op (by rw [List.getElem?_append_right (by omega)]; simpa using hi)
  rwa [List.take_length_add_append, after_append] at this

end

/-- The state of the test at moment `n`. -/
abbrev now (m N : Nat) {E : GoEq I64} {c0 : Cfg I64} (ρ : Run (M := mach I64) (body E) c0) (n : Nat) : Tid → Nat :=
  (turner m N).after (turners m N) (history (ρ.trace n))

/-- What is known of an execution of the test. -/
structure Testing {E : GoEq I64} (m N : Nat) {c0 : Cfg I64} (ρ : Run (M := mach I64) (body E) c0) : Prop where
  /-- the goroutines run the program -/
  follows : ∀ n, (turner m N).Follows (turners m N) (history (ρ.trace n))
  /-- who is in a call goes on -/
  weak : ∀ t, t < m → ρ.Weak t
  /-- who is not in a call and has not come to the end calls -/
  calls : ∀ t n, t < m → (ρ.st n).th t = .idle → now m N ρ n t < N → ∃ k op, n ≤ k ∧ ρ.lab k = some (.call t op)

section
variable {E : GoEq I64} (hE : ∀ a b, E.eq a b = true ↔ a = b) {m N : Nat} (hN : N < 2 ^ 63) {c0 : Cfg I64}
  {ρ : Run (M := mach I64) (body E) c0}

/-- The state of the atomic object at moment `n`. -/
structure AtMoment (m N : Nat) (ρ : Run (M := mach I64) (body E) c0) (n x : Nat) (a : Canon (var E true)) : Prop where
  rel : Rel E true (ρ.st n) a
  mild : Mild (ρ.st n)
  turn : Turning m N x (now m N ρ n) a
  ask : ∀ t op, (a.th t).op = some op → (turner m N).ask (now m N ρ n t) = some op

theorem now_add (m N : Nat) (ρ : Run (M := mach I64) (body E) c0) (n k : Nat) :
    now m N ρ (n + k) = (turner m N).after (now m N ρ n) (history ((drop ρ n).trace k)) := by
  unfold now
  rw [drop_trace, history_append, after_append]

include hE hN in
theorem later (hT : Testing m N ρ) {n x : Nat} {a : Canon (var E true)} (h : AtMoment m N ρ n x a) {n' : Nat} (hn : n ≤ n') :
    ∃ x' a', x ≤ x' ∧ AtMoment m N ρ n' x' a' := by
  obtain ⟨k, rfl⟩ := Nat.exists_eq_add_of_le hn
  have hf := hT.follows (n + k)
  rw [drop_trace, history_append] at hf
  obtain ⟨a', g1, g2, ⟨x', g3, g4⟩, g5⟩ := turning E hE hN h.rel h.mild h.turn h.ask ((drop ρ n).exec_trace k)
    (follows_append hf)
  refine ⟨x', a', g3, g1, g2, ?_, ?_⟩
  · rw [now_add]; exact g4
  · rw [now_add]; exact g5

theorem rel_idle {c : Cfg I64} {a : Canon (var E true)} (h : Rel E true c a) {t : Tid} (ht : c.th t = .idle) :
    a.th t = .idle := by
  obtain ⟨stg, N, h1, -, -, rfl⟩ := h
  have : stg t = .idle := thread_idle (by rw [← h1]; exact ht)
  show (stg t).status E c.sh = .idle
  rw [this]; rfl

theorem idle_rel {c : Cfg I64} {a : Canon (var E true)} (h : Rel E true c a) {t : Tid} (ht : a.th t = .idle) :
    c.th t = .idle := by
  obtain ⟨stg, N, h1, -, -, rfl⟩ := h
  have e : (stg t).status E c.sh = .idle := ht
  rw [h1 t]
  cases hs : stg t <;> rw [hs] at e <;> first
    | rfl
    | cases e
    | (simp only [Stage.status, casStatus] at e; split at e <;> (try split at e) <;> (try split at e) <;> cases e)

theorem rel_ret {c : Cfg I64} {a : Canon (var E true)} (h : Rel E true c a) {t : Tid} {op : Op I64} {r : Res I64}
    (ht : c.th t = .run op (.ret r)) : a.th t = .done op r := by
  obtain ⟨stg, N, h1, -, -, rfl⟩ := h
  have : stg t = .fin op r := thread_ret (by rw [← h1]; exact ht)
  show (stg t).status E c.sh = _
  rw [this]; rfl

/-- The state when a call returns. -/
theorem returning {n : Nat} {t : Tid} {op : Op I64} {r : Res I64} (h : ρ.lab n = some (.ret t op r)) :
    (ρ.st n).th t = .run op (.ret r) ∧ (ρ.st (n + 1)).th t = .idle := by
  have hn := ρ.next n
  rw [h] at hn
  simp only at hn
  revert hn
  generalize ρ.st (n + 1) = s'
  intro hn
  cases hn with
  | ret _ _ _ ht => exact ⟨ht, upd_same _ _ _⟩

variable {tr0 : List (Lab I64)} (h0 : Exec (body E) (start I64) tr0 c0)

include h0 in
/-- Calls return. -/
theorem calls_return {t : Tid} (hw : ρ.Weak t) {n : Nat} {op : Op I64} {p : P I64} (h : (ρ.st n).th t = .run op p) :
    ∃ k r, n ≤ k ∧ ρ.lab k = some (.ret t op r) := by
  refine ρ.returns_weak t hw (fun n op p h => ?_) n op p h
  obtain ⟨tr, he⟩ := ρ.exec n
  obtain ⟨l, s', hs, hi⟩ := (C68_wait_free E).1 _ _ (h0.trans he) t (by rw [h]; exact fun e => by cases e)
  refine ⟨l, s', hs, ?_⟩
  cases l with
  | call u o => exact hi.elim
  | act u a ans => exact ⟨hi, rfl⟩
  | ret u o r => exact ⟨hi, rfl⟩

include h0 in
/-- A goroutine is not in a call again and again. -/
theorem comes_back {t : Tid} (hw : ρ.Weak t) (n : Nat) : ∃ k, n ≤ k ∧ (ρ.st k).th t = .idle := by
  cases h : (ρ.st n).th t with
  | idle => exact ⟨n, Nat.le_refl n, h⟩
  | run op p =>
    obtain ⟨k, r, hk, e⟩ := calls_return h0 hw h
    exact ⟨k + 1, by omega, (returning e).2⟩

include hE hN h0 in
/-- The count goes on. -/
theorem goes_on (hT : Testing m N ρ) {n x : Nat} {a : Canon (var E true)} (h : AtMoment m N ρ n x a) (hx : x < N)
    (hm : 0 < m) : ∃ n' x' a', x < x' ∧ AtMoment m N ρ n' x' a' := by
  apply Classical.byContradiction
  intro hno
  have stuck : ∀ n', n ≤ n' → ∃ a', AtMoment m N ρ n' x a' := by
    intro n' hn
    obtain ⟨x', a', h1, h2⟩ := later hE hN hT h hn
    have : x' = x := by
      rcases Nat.eq_or_lt_of_le h1 with e | e
      · exact e.symm
      · exact absurd ⟨n', x', a', e, h2⟩ hno
    subst this
    exact ⟨a', h2⟩
  have htm : x % m < m := Nat.mod_lt _ hm
  -- whose turn it is: not in a call at some moment
  obtain ⟨n1, hn1, hid⟩ := comes_back h0 (hT.weak _ htm) n
  have mine : ∀ n', n ≤ n' → (ρ.st n').th (x % m) = .idle → now m N ρ n' (x % m) = x := by
    intro n' hn' hi
    obtain ⟨a1, ha1⟩ := stuck n' hn'
    obtain ⟨l1, l2, l3⟩ := ha1.turn.turn (x % m) htm
    rw [rel_idle ha1.rel hi] at l1 l2 l3
    exact near_eq l1 l2 l3
  -- calls
  obtain ⟨n2, op, hn2, hc⟩ := hT.calls _ n1 htm hid (by rw [mine n1 hn1 hid]; exact hx)
  have hid2 : (ρ.st n2).th (x % m) = .idle ∧
      (ρ.st (n2 + 1)).th (x % m) = .run op (body E op) := by
    refine ⟨?_, ρ.begins hc⟩
    have hn := ρ.next n2
    rw [hc] at hn
    simp only at hn
    revert hn
    generalize ρ.st (n2 + 1) = s'
    intro hn
    cases hn with
    | call _ _ hi => exact hi
  have hq2 : now m N ρ (n2 + 1) (x % m) = x := by
    have e : now m N ρ (n2 + 1) = now m N ρ n2 := by
      unfold now
      rw [Run.trace, hc, history_append]
      exact (turner m N).after_snoc _ _ (.inv (x % m) op)
    rw [e, mine n2 (by omega) hid2.1]
  obtain ⟨a2, ha2⟩ := stuck (n2 + 1) (by omega)
  have hpend : ∃ op, a2.th (x % m) = .pending op := by
    obtain ⟨stg, K, h1, -, -, rfl⟩ := ha2.rel
    have h1 := h1 (x % m)
    rw [hid2.2] at h1
    refine ⟨op, show (stg (x % m)).status E (ρ.st (n2 + 1)).sh = .pending op from ?_⟩
    have hcas : ∃ o v, op = .cas o v := by
      have := ha2.mild (x % m) op _ hid2.2
      have hf := hT.follows (n2 + 1)
      rw [Run.trace, hc, history_append] at hf
      have := (Client.Follows.of_snoc (e := .inv (x % m) op) hf).2 _ _ rfl
      exact ⟨_, _, (turner_ask this).2⟩
    obtain ⟨o, v, rfl⟩ := hcas
    cases hs : stg (x % m) <;> rw [hs] at h1 <;> first
      | cases h1; done
      | (injection h1 with h1 h2; injection h1 with h1 h3; subst h1 h3; first | rfl | cases h2)
  -- and returns
  obtain ⟨n3, r, hn3, hret⟩ := calls_return h0 (hT.weak _ htm) hid2.2
  obtain ⟨k, rfl⟩ := Nat.exists_eq_add_of_le hn3
  have hf := hT.follows (n2 + 1 + k)
  rw [drop_trace, history_append] at hf
  obtain ⟨a', x', g1, g2, g3, g4⟩ := my_turn E hE hN ha2.rel ha2.mild ha2.turn ha2.ask
    ((drop ρ (n2 + 1)).exec_trace k) (follows_append hf) hq2 hpend
  have hd := rel_ret g1 (returning hret).1
  obtain ⟨a3, ha3⟩ := stuck (n2 + 1 + k) (by omega)
  have hxx : x' = x := by
    have e1 := g3.held
    have e2 := ha3.turn.held
    have e3 : held a' = held a3 := (rel_st g1).trans (rel_st ha3.rel).symm
    exact int_inj hN g3.le ha3.turn.le (by rw [← e1, ← e2, e3])
  obtain ⟨o, ho⟩ := g4 hxx
  rw [hd] at ho
  cases ho

include hE hN h0 in
theorem counts (hT : Testing m N ρ) (hm : 0 < m) : ∀ (d n x : Nat) (a : Canon (var E true)), N - x = d →
    AtMoment m N ρ n x a → ∃ n' a', AtMoment m N ρ n' N a' := by
  intro d
  induction d using Nat.strongRecOn with
  | ind d ih =>
    intro n x a hd h
    rcases Nat.eq_or_lt_of_le h.turn.le with e | e
    · subst e; exact ⟨n, a, h⟩
    · obtain ⟨n', x', a', h1, h2⟩ := goes_on hE hN h0 hT h e hm
      have := h2.turn.le
      exact ih (N - x') (by omega) n' x' a' rfl h2

/-- Who has come to the end stays there. -/
theorem stays_there (hT : Testing m N ρ) {t : Tid} {n : Nat} (hi : (ρ.st n).th t = .idle) (hq : N ≤ now m N ρ n t) :
    ∀ k, (ρ.st (n + k)).th t = .idle ∧ N ≤ now m N ρ (n + k) t
  | 0 => ⟨hi, hq⟩
  | k + 1 => by
    obtain ⟨h1, h2⟩ := stays_there hT hi hq k
    have hn := ρ.next (n + k)
    cases hl : ρ.lab (n + k) with
    | none =>
      rw [hl] at hn
      simp only at hn
      have e : now m N ρ (n + k + 1) = now m N ρ (n + k) := by
        unfold now; rw [Run.trace, hl]; simp
      exact ⟨(congrArg (fun s : Cfg I64 => s.th t) hn).trans h1, by show N ≤ now m N ρ (n + k + 1) t; rw [e]; exact h2⟩
    | some l =>
      rw [hl] at hn
      simp only at hn
      have hf := hT.follows (n + k + 1)
      have e : now m N ρ (n + k + 1) = (turner m N).after (turners m N) (history (ρ.trace (n + k)) ++ history [l]) := by
        unfold now; rw [Run.trace, hl, history_append]; rfl
      rw [Run.trace, hl, history_append] at hf
      show (ρ.st (n + k + 1)).th t = .idle ∧ N ≤ now m N ρ (n + k + 1) t
      rw [e]
      revert hn
      generalize ρ.st (n + k + 1) = s'
      intro hn
      cases hn with
      | call u op hu =>
        have hc : t ≠ u := by
          intro c
          subst c
          have := (turner_ask ((Client.Follows.of_snoc (e := .inv t op) hf).2 t op rfl)).1
          exact absurd this (Nat.not_lt.2 h2)
        refine ⟨(upd_other _ _ hc).trans h1, ?_⟩
        rw [show history [(.call u op : Lab I64)] = [.inv u op] from rfl, (turner m N).after_snoc]
        exact h2
      | act u op x kk ans sh' hu hst =>
        have hc : t ≠ u := by intro c; subst c; rw [h1] at hu; cases hu
        refine ⟨(upd_other _ _ hc).trans h1, ?_⟩
        rw [show history [(.act u x ans : Lab I64)] = [] from rfl, List.append_nil]
        exact h2
      | ret u op r hu =>
        have hc : t ≠ u := by intro c; subst c; rw [h1] at hu; cases hu
        refine ⟨(upd_other _ _ hc).trans h1, ?_⟩
        rw [show history [(.ret u op r : Lab I64)] = [.ret u r] from rfl, (turner m N).after_snoc]
        simp only [upd_other _ _ hc]
        exact h2

end

/-- **C146, TestValueCompareAndSwap_Concurrent ends** (atomic/value_test.go:166-189), although the goroutines wait for
each other in loops. If every goroutine that is in a call goes on, and every goroutine that has not come to its end calls
again, then at some moment all have come to their end, and are out of their calls, and remain so. -/
theorem C146_cas_ends (E : GoEq I64) (hE : ∀ a b, E.eq a b = true ↔ a = b) (m n : Nat) (hmn : m * n + m < 2 ^ 63)
    (tr0 : List (Lab I64)) (c0 : Cfg I64) (h0 : Exec (body E) (start I64) tr0 c0)
    (hs : Calls (fun _ op => op = .store 0) tr0) (hq0 : Quiet c0) (ρ : Run (M := mach I64) (body E) c0)
    (hT : Testing m (m * n) ρ) :
    ∃ k, ∀ k', k ≤ k' → Quiet (ρ.st k') ∧
      ∀ t, t < m → (turner m (m * n)).ask ((turner m (m * n)).after (turners m (m * n)) (history (ρ.trace k')) t) = none := by
  have hN : m * n < 2 ^ 63 := by omega
  obtain ⟨k1, k2, k3⟩ := turning_start E m n h0 hs hq0
  have hstart : AtMoment m (m * n) ρ 0 0 (still E true (value c0.sh)) :=
    ⟨by rw [ρ.start]; exact k1, by rw [ρ.start]; exact k2, k3, nofun⟩
  have others : ∀ t, m ≤ t → ∀ k, (ρ.st k).th t = .idle := by
    intro t ht k
    have := (stays_there hT (t := t) (n := 0) (by rw [ρ.start]; exact hq0 t)
      (by simp [now, Run.trace, history, Client.after, turners, Nat.not_lt.2 ht]) k).1
    rwa [Nat.zero_add] at this
  have each : ∀ u, u ≤ m → ∃ k, ∀ t, t < u → ∀ k', k ≤ k' → (ρ.st k').th t = .idle ∧ m * n ≤ now m (m * n) ρ k' t := by
    intro u
    induction u with
    | zero => exact fun _ => ⟨0, fun t ht => by omega⟩
    | succ u ih =>
      intro hu
      obtain ⟨k, hk⟩ := ih (by omega)
      obtain ⟨k1, a1, h1⟩ := counts hE hN h0 hT (by omega) _ 0 0 _ rfl hstart
      obtain ⟨k2, hk2, hid⟩ := comes_back h0 (hT.weak u hu) k1
      obtain ⟨x, a2, hx, h2⟩ := later hE hN hT h1 hk2
      have hend : m * n ≤ now m (m * n) ρ k2 u := by
        obtain ⟨l1, -, -⟩ := h2.turn.turn u hu
        rw [rel_idle h2.rel hid] at l1
        simp only [jay] at l1
        omega
      have hst := stays_there hT hid hend
      refine ⟨k + k2, fun t ht k' hk' => ?_⟩
      by_cases c : t = u
      · subst c
        have := hst (k' - k2)
        rwa [show k2 + (k' - k2) = k' by omega] at this
      · exact hk t (by omega) k' (by omega)
  obtain ⟨k, hk⟩ := each m (Nat.le_refl m)
  refine ⟨k, fun k' hk' => ⟨fun t => ?_, fun t ht => ?_⟩⟩
  · rcases Nat.lt_or_ge t m with c | c
    · exact (hk t c k' hk').1
    · exact others t c k'
  · have := (hk t ht k' hk').2
    exact if_neg (Nat.not_lt.2 this)

/-! ## Executions of the test -/

section
variable {M : Machine} {Op R Q : Type} {prog : Op → Prog M.A M.Ans R}

/-- An execution, after which nothing happens. -/
theorem halting {c c' : Config M Op R} {tr : List (Label M Op R)} (h : Exec prog c tr c') :
    ∃ ρ : Run prog c, (∀ k, ρ.lab k = tr[k]?) ∧ ∀ k, tr.length ≤ k → ρ.st k = c' := by
  induction h with
  | nil => exact ⟨⟨fun _ => c, fun _ => none, rfl, fun _ => rfl⟩, fun k => rfl, fun _ _ => rfl⟩
  | @snoc tr c1 c2 l _ hs ih =>
    obtain ⟨ρ, h1, h2⟩ := ih
    refine ⟨⟨fun k => if k ≤ tr.length then ρ.st k else c2, fun k => (tr ++ [l])[k]?, ?_, fun k => ?_⟩, fun _ => rfl, fun k hk => ?_⟩
    · rw [if_pos (Nat.zero_le _)]; exact ρ.start
    · rcases Nat.lt_trichotomy k tr.length with c | c | c
      · rw [List.getElem?_append_left c, if_pos (by omega), if_pos (by omega), ← h1]
        exact ρ.next k
      · subst c
        rw [List.getElem?_concat_length, if_pos (Nat.le_refl _), if_neg (by omega), h2 _ (Nat.le_refl _)]
        exact hs
      · rw [List.getElem?_eq_none (by simp; omega), if_neg (by omega), if_neg (by omega)]
    · rw [List.length_append] at hk
      exact if_neg (by simp at hk; omega)

theorem halting_trace {c : Config M Op R} {tr : List (Label M Op R)} {ρ : Run prog c} (h : ∀ k, ρ.lab k = tr[k]?) :
    ∀ n, ρ.trace n = tr.take n
  | 0 => by simp [Run.trace]
  | n + 1 => by rw [Run.trace, halting_trace h n, h, List.take_add_one]

theorem follows_take {P : Client Op R Q} {q : Tid → Q} {H H' : List (Event Op R)} (h : P.Follows q (H ++ H')) : P.Follows q H := by
  intro i t op hi
  have hlt := (List.getElem?_eq_some_iff.1 hi).1
  have := h i t op (by rw [List.getElem?_append_left hlt]; exact hi)
  rwa [List.take_append_of_le_length (by omega)] at this

end

/-- An execution of the test that comes to its end, after which nothing happens, is as `C146_cas_ends` supposes. -/
theorem testing_of_end {E : GoEq I64} {m N : Nat} {c0 c1 : Cfg I64} {tr : List (Lab I64)} (he : Exec (body E) c0 tr c1)
    (hf : (turner m N).Follows (turners m N) (history tr)) (hq : Quiet c1)
    (hd : ∀ t, t < m → N ≤ (turner m N).after (turners m N) (history tr) t) :
    ∃ ρ : Run (M := mach I64) (body E) c0, Testing m N ρ ∧ ρ.trace tr.length = tr := by
  obtain ⟨ρ, h1, h2⟩ := halting he
  have htr := halting_trace h1
  refine ⟨ρ, ⟨fun n => ?_, fun t _ n hn => ?_, fun t n ht hi hlt => ?_⟩, by rw [htr]; exact List.take_length⟩
  · rw [htr]
    rw [← List.take_append_drop n tr, history_append] at hf
    exact follows_take hf
  · have := hn (n + tr.length) (by omega)
    rw [h2 _ (by omega)] at this
    exact absurd this (not_canGo_idle (hq t))
  · apply Classical.byContradiction
    intro hno
    -- nothing changes for `t`
    have key : ∀ k, (ρ.st (n + k)).th t = .idle ∧ now m N ρ (n + k) t = now m N ρ n t := by
      intro k
      induction k with
      | zero => exact ⟨hi, rfl⟩
      | succ k ih =>
        obtain ⟨g1, g2⟩ := ih
        have hn := ρ.next (n + k)
        cases hl : ρ.lab (n + k) with
        | none =>
          rw [hl] at hn
          simp only at hn
          refine ⟨(congrArg (fun s : Cfg I64 => s.th t) hn).trans g1, ?_⟩
          rw [← g2, ← Nat.add_assoc]
          unfold now; rw [Run.trace, hl]; simp
        | some l =>
          rw [hl] at hn
          simp only at hn
          have hlt' : l.who ≠ t := by
            intro e
            subst e
            generalize ρ.st (n + k + 1) = cc at hn
            cases l with
            | call u op => exact hno ⟨n + k, op, by omega, hl⟩
            | act u x ans => cases hn with | act _ _ _ _ _ _ hu _ => rw [show Label.who (.act u x ans : Lab I64) = u from rfl, hu] at g1; cases g1
            | ret u op r => cases hn with | ret _ _ _ hu => rw [show Label.who (.ret u op r : Lab I64) = u from rfl, hu] at g1; cases g1
          refine ⟨?_, ?_⟩
          · have := untouched (t := t) (Exec.snoc .nil hn) (by simpa using hlt')
            exact this.trans g1
          · rw [← g2, ← Nat.add_assoc]
            unfold now
            rw [Run.trace, hl, history_append]
            cases l with
            | call u op => exact congrFun ((turner m N).after_snoc _ _ (.inv u op)) t
            | act u x ans => rw [show history (some (.act u x ans : Lab I64)).toList = [] from rfl, List.append_nil]
            | ret u op r =>
              exact (congrFun ((turner m N).after_snoc _ _ (.ret u r)) t).trans (upd_other _ _ (fun e => hlt' e.symm))
    have hend := (key tr.length).2
    have : now m N ρ (n + tr.length) = (turner m N).after (turners m N) (history tr) := by
      unfold now; rw [htr, List.take_of_length_le (by omega)]
    rw [this] at hend
    have := hd t ht
    omega

/-- Two goroutines; 1 loads too early and fails, and then it is its turn. -/
def casSched : List (Conc.Go (Op I64)) :=
  [.call 1 (.cas 1 2), .act 1, .call 0 (.cas 0 1), .act 0, .act 0, .act 0, .act 1, .act 1, .ret 1, .act 0, .ret 0] ++
    whole 1 (.cas 1 2) 4

/-- TestValueCompareAndSwap_Concurrent with `m = 2` and `n = 1`: an execution as in `C146_cas_test`. -/
theorem cas_example : ∃ tr0 tr1 c0 c1, Exec (body (exactEq I64)) (start I64) tr0 c0 ∧
    Calls (fun _ op => op = .store 0) tr0 ∧ Quiet c0 ∧ Exec (body (exactEq I64)) c0 tr1 c1 ∧
    (turner 2 (2 * 1)).Follows (turners 2 (2 * 1)) (history tr1) ∧ Quiet c1 ∧
    (∀ t, t < 2 → 2 * 1 ≤ (turner 2 (2 * 1)).after (turners 2 (2 * 1)) (history tr1) t) ∧
    (∀ t, t < 2 → (turner 2 (2 * 1)).ask ((turner 2 (2 * 1)).after (turners 2 (2 * 1)) (history tr1) t) = none) ∧
    .ret 1 (.cas 1 2) (.bool false) ∈ tr1 := by
  have hq0 : Quiet (played (exactEq I64) (whole 2 (.store 0) 2) (start I64)).2 :=
    quietB_sound (fun _ => rfl) (by decide +kernel)
  have e0 : (played (exactEq I64) (whole 2 (.store 0) 2) (start I64)).1 =
    [.call 2 (.store 0), .act 2 (.alloc 0) 0, .act 2 (.store 0) (), .ret 2 (.store 0) .unit] := rfl
  have e1 : (played (exactEq I64) casSched (played (exactEq I64) (whole 2 (.store 0) 2) (start I64)).2).1 =
    [.call 1 (.cas 1 2), .act 1 (.alloc 2) 1, .call 0 (.cas 0 1), .act 0 (.alloc 1) 2, .act 0 .load (some 0),
     .act 0 (.deref 0) 0, .act 1 .load (some 0), .act 1 (.deref 0) 0, .ret 1 (.cas 1 2) (.bool false),
     .act 0 (.cas (some 0) 2) true, .ret 0 (.cas 0 1) (.bool true), .call 1 (.cas 1 2), .act 1 (.alloc 2) 3,
     .act 1 .load (some 2), .act 1 (.deref 2) 1, .act 1 (.cas (some 2) 3) true, .ret 1 (.cas 1 2) (.bool true)] := rfl
  refine ⟨_, _, _, _, played_exec (exactEq I64) (whole 2 (.store 0) 2) (start I64), ?_, hq0,
    played_exec (exactEq I64) casSched _, Client.followsB_sound _ _ _ (by decide +kernel), quietB_sound hq0 (by decide +kernel),
    fun t ht => ?_, fun t ht => ?_, ?_⟩
  · intro t op hm
    rw [e0] at hm
    simp only [List.mem_cons, Label.call.injEq, List.not_mem_nil, or_false, reduceCtorEq] at hm
    exact hm.2
  · match t, ht with
    | 0, _ => decide +kernel
    | 1, _ => decide +kernel
  · match t, ht with
    | 0, _ => decide +kernel
    | 1, _ => decide +kernel
  · rw [e1]
    simp

/-- And an endless one as in `C146_cas_ends`. -/
example : ∃ (tr0 : List (Lab I64)) (c0 : Cfg I64) (ρ : Run (M := mach I64) (body (exactEq I64)) c0),
    Exec (body (exactEq I64)) (start I64) tr0 c0 ∧ Calls (fun _ op => op = .store 0) tr0 ∧ Quiet c0 ∧ Testing 2 (2 * 1) ρ := by
  obtain ⟨tr0, tr1, c0, c1, h1, h2, h3, h4, h5, h6, h7, -⟩ := cas_example
  obtain ⟨ρ, h, -⟩ := testing_of_end h4 h5 h6 h7
  exact ⟨tr0, c0, ρ, h1, h2, h3, h⟩

end Verif.AtomicValue.Tests
