import Verif.AtomicValue.Props
import Verif.Conc.Along
import Verif.Together.Fair

/-!
# C146: the repository's concurrent tests of `atomic.Value` cannot fail

atomic/value_test.go has three tests in which goroutines use one `Value` at the same time. A test samples a few of the
interleavings; here it is proved that in no interleaving, and for no number of goroutines and rounds, they fail, and that
the one that waits in a loop ends if the goroutines are scheduled fairly.
-/

set_option linter.unusedSectionVars false

namespace Verif.AtomicValue.Tests

open Verif.Conc Verif.AtomicValue

variable {T : Type} [Inhabited T]

/-! ## Between phases of a test -/

/-- `w.Wait()` has returned: nobody is in a call. -/
def Quiet (c : Cfg T) : Prop := ∀ t, c.th t = .idle

/-- Only `Load` is called. -/
def OnlyLoads (tr : List (Lab T)) : Prop := Calls (fun _ op => op = .load) tr

theorem reach (E : GoEq T) {tr : List (Lab T)} {c : Cfg T} (he : Exec (body E) (start T) tr c) :
    ∃ a, Rel E false c a := by
  obtain ⟨a, h, -⟩ := (sim E false).along (sim E false).start (fun _ _ => True) trivial (fun _ _ _ _ _ _ => trivial)
    (fun _ _ _ _ _ _ _ _ _ => trivial) (fun _ _ _ _ _ _ => trivial) (fun _ _ _ _ _ _ _ => trivial)
    (ExecIf.of_exec (fun _ _ h => by cases h) he)
  exact ⟨a, h⟩

/-- The state of the atomic object when nobody is in a call. -/
def still (E : GoEq T) (strict : Bool) (x : T) : Canon (var E strict) := ⟨x, fun _ => .idle⟩

/-- The value the variable holds. -/
def held {E : GoEq T} {strict : Bool} (a : Canon (var E strict)) : T := a.st

theorem quiet_rel (E : GoEq T) (strict : Bool) {tr : List (Lab T)} {c : Cfg T} (he : Exec (body E) (start T) tr c)
    (hq : Quiet c) : Rel E strict c (still E strict (value c.sh)) := by
  obtain ⟨a, stg, N, h1, -, h3, -⟩ := reach E he
  have : stg = fun _ => .idle := funext fun t => thread_idle (by rw [← h1]; exact hq t)
  subst this
  exact ⟨fun _ => .idle, 0, h1, fun _ _ => rfl, h3, rfl⟩

theorem quiet_idle {E : GoEq T} {strict : Bool} {c : Cfg T} {a : Canon (var E strict)} (h : Rel E strict c a)
    (hq : Quiet c) : a = still E strict (value c.sh) := by
  obtain ⟨stg, N, h1, -, -, rfl⟩ := h
  have : stg = fun _ => .idle := funext fun t => thread_idle (by rw [← h1]; exact hq t)
  subst this
  rfl

theorem rel_st {E : GoEq T} {strict : Bool} {c : Cfg T} {a : Canon (var E strict)} (h : Rel E strict c a) :
    a.st = value c.sh := by
  obtain ⟨stg, N, -, -, -, rfl⟩ := h
  rfl

theorem any (E : GoEq T) {c c' : Cfg T} {tr : List (Lab T)} (h : Exec (body E) c tr c') :
    ExecIf (fun c l => false = true → Changing E c l) (body E) c tr c' :=
  ExecIf.of_exec (fun _ _ h => by cases h) h

/-- From a quiet moment on, if only `Load` is called, all get the value held. -/
theorem loads (E : GoEq T) {tr1 tr2 : List (Lab T)} {c1 c2 : Cfg T} (h1 : Exec (body E) (start T) tr1 c1)
    (hq : Quiet c1) (h2 : Exec (body E) c1 tr2 c2) (hl : OnlyLoads tr2) {t : Tid} {op : Op T} {r : Res T}
    (hr : .ret t op r ∈ tr2) : r = .val (value c1.sh) := by
  obtain ⟨a, -, h⟩ := (sim E false).along (quiet_rel E false h1 hq) (fun tr a => OnlyLoads tr → a.st = value c1.sh ∧
    (∀ t, a.th t = .idle ∨ a.th t = .pending .load ∨ a.th t = .done .load (.val (value c1.sh))) ∧
    ∀ t op r, .ret t op r ∈ tr → r = .val (value c1.sh)) (fun _ => ⟨rfl, fun _ => Or.inl rfl, nofun⟩)
    (fun tr a t op ih ht hl => by
      obtain ⟨l1, l2⟩ := hl.of_snoc
      obtain ⟨g1, g2, g3⟩ := ih l1
      refine ⟨g1, fun u => ?_, fun u o r hm => ?_⟩
      · by_cases c : u = t
        · subst c; have := l2 u op rfl; subst this; exact Or.inr (Or.inl (upd_same ..))
        · simp only [upd_other _ _ c]; exact g2 u
      · rcases List.mem_append.1 hm with hm | hm
        · exact g3 u o r hm
        · simp at hm)
    (fun tr a t op r s' ih ht hleg hl => by
      obtain ⟨g1, g2, g3⟩ := ih hl
      have e : op = .load := by rcases g2 t with h | h | h <;> rw [ht] at h <;> injection h
      subst e
      obtain ⟨e1, e2⟩ := hleg
      subst e1 e2
      refine ⟨g1, fun u => ?_, g3⟩
      by_cases c : u = t
      · subst c; simp only [upd_same]; rw [g1]; exact Or.inr (Or.inr rfl)
      · simp only [upd_other _ _ c]; exact g2 u)
    (fun tr a t x ans ih hl => by
      obtain ⟨g1, g2, g3⟩ := ih hl.of_snoc.1
      refine ⟨g1, g2, fun u o r hm => ?_⟩
      rcases List.mem_append.1 hm with hm | hm
      · exact g3 u o r hm
      · simp at hm)
    (fun tr a t op r ih ht hl => by
      obtain ⟨g1, g2, g3⟩ := ih hl.of_snoc.1
      refine ⟨g1, fun u => ?_, fun u o r' hm => ?_⟩
      · by_cases c : u = t
        · subst c; simp only [upd_same]; exact Or.inl trivial
        · simp only [upd_other _ _ c]; exact g2 u
      · rcases List.mem_append.1 hm with hm | hm
        · exact g3 u o r' hm
        · simp only [List.mem_singleton, Label.ret.injEq] at hm
          obtain ⟨rfl, rfl, rfl⟩ := hm
          rcases g2 u with h | h | h
          · rw [ht] at h; cases h
          · rw [ht] at h; cases h
          · rw [ht] at h; injection h)
    (any E h2)
  exact (h hl).2.2 t op r hr

/-! ## `Swap` (TestValueSwap_Concurrent) -/

/-- The calls of `Swap` that returned, with what they stored and what they got. -/
def swaps (tr : List (Lab T)) : List (T × T) := tr.filterMap fun l => match l with
  | .ret _ (.swap v) (.val w) => some (v, w)
  | _ => none

theorem swaps_snoc (tr : List (Lab T)) (l : Lab T) : swaps (tr ++ [l]) = swaps tr ++ swaps [l] := by
  simp [swaps]

/-- **C146.** Goroutines call `Swap`, and perhaps `Load`, any number of times. When they are done, any `Load` gets the
one value that no `Swap` got: what the calls of `Swap` got and what is left are what they stored and the zero value. -/
theorem C146_swap (E : GoEq T) (tr1 tr2 : List (Lab T)) (c1 c2 : Cfg T) (h1 : Exec (body E) (start T) tr1 c1)
    (hc : Calls (fun _ op => op = .load ∨ ∃ v, op = .swap v) tr1) (hq : Quiet c1) (h2 : Exec (body E) c1 tr2 c2)
    (hl : OnlyLoads tr2) (t : Tid) (op : Op T) (r : Res T) (hr : .ret t op r ∈ tr2) :
    ∃ w, r = .val w ∧ ((swaps tr1).map Prod.snd ++ [w]).Perm (default :: (swaps tr1).map Prod.fst) := by
  refine ⟨value c1.sh, loads E h1 hq h2 hl hr, ?_⟩
  -- `D` are the calls that have taken effect and not yet returned
  obtain ⟨a, ha, h⟩ := (sim E false).along (sim E false).start
    (fun tr a => Calls (fun _ op => op = .load ∨ ∃ v, op = .swap v) tr → 
      (∀ t op, (a.th t).op = some op → op = .load ∨ ∃ v, op = .swap v) ∧ 
      ∃ D : List (Tid × T × T), (D.map Prod.fst).Nodup ∧ (∀ t v w, a.th t = .done (.swap v) (.val w) ↔ (t, v, w) ∈ D) ∧
        (((swaps tr ++ D.map Prod.snd).map Prod.snd) ++ [held a]).Perm (default :: (swaps tr ++ D.map Prod.snd).map Prod.fst))
    (fun _ => ⟨nofun, [], List.nodup_nil, fun t v w => ⟨nofun, nofun⟩, .refl _⟩)
    (fun tr a t op ih ht hc => by
      obtain ⟨l1, l2⟩ := hc.of_snoc
      obtain ⟨g0, D, g1, g2, g3⟩ := ih l1
      refine ⟨fun u o hu => ?_, D, g1, fun u v w => ?_, ?_⟩
      · by_cases c : u = t
        · subst c; simp only [upd_same, CStatus.op, Option.some.injEq] at hu; subst hu; exact l2 u op rfl
        · simp only [upd_other _ _ c] at hu; exact g0 u o hu
      · by_cases c : u = t
        · subst c
          simp only [upd_same]
          refine ⟨nofun, fun h => ?_⟩
          rw [← g2, ht] at h; cases h
        · simp only [upd_other _ _ c]; exact g2 u v w
      · rw [swaps_snoc, show swaps [(.call t op : Lab T)] = [] from rfl, List.append_nil]; exact g3)
    (fun tr a t op r s' ih ht hleg hc => by
      obtain ⟨g0, D, g1, g2, g3⟩ := ih hc
      have hop := g0 t op (by rw [ht]; rfl)
      refine ⟨fun u o hu => ?_, ?_⟩
      · by_cases c : u = t
        · subst c; simp only [upd_same, CStatus.op, Option.some.injEq] at hu; subst hu; exact hop
        · simp only [upd_other _ _ c] at hu; exact g0 u o hu
      have hnot : ∀ x ∈ D, x.1 ≠ t := by
        rintro ⟨u, v, w⟩ hm e
        simp only at e
        subst e
        rw [← g2, ht] at hm; cases hm
      rcases hop with rfl | ⟨v, rfl⟩
      · obtain ⟨rfl, rfl⟩ := hleg
        refine ⟨D, g1, fun u v w => ?_, g3⟩
        by_cases c : u = t
        · subst c
          simp only [upd_same]
          exact ⟨nofun, fun h => absurd rfl (hnot _ h)⟩
        · simp only [upd_other _ _ c]; exact g2 u v w
      · obtain ⟨rfl, hs'⟩ := hleg
        refine ⟨D ++ [(t, v, held a)], ?_, fun u v' w => ?_, ?_⟩
        · rw [List.map_append, List.nodup_append]
          refine ⟨g1, by simp, fun x hx y hy e => ?_⟩
          obtain ⟨z, hz, rfl⟩ := List.mem_map.1 hx
          simp at hy
          subst hy
          exact hnot z hz e
        · by_cases c : u = t
          · subst c
            simp only [upd_same, List.mem_append, List.mem_singleton]
            constructor
            · intro h
              injection h with h1 h2
              injection h1 with h1
              injection h2 with h2
              exact Or.inr (by rw [← h1, ← h2]; rfl)
            · rintro (h | h)
              · exact absurd rfl (hnot _ h)
              · injection h with _ h; injection h with h1 h2; rw [h1, h2]; rfl
          · simp only [upd_other _ _ c]
            rw [g2 u v' w]
            constructor
            · exact fun h => List.mem_append.2 (Or.inl h)
            · intro h
              rcases List.mem_append.1 h with h | h
              · exact h
              · rw [List.mem_singleton] at h; injection h with h; exact absurd h c
        · have := g3.append (List.Perm.refl [v])
          have e : held (E := E) (strict := false) ⟨s', upd a.th t (.done (.swap v) (.val a.st))⟩ = v := hs'
          rw [e]
          simpa [List.append_assoc] using this)
    (fun tr a t x ans ih hc => by
      obtain ⟨g0, D, g1, g2, g3⟩ := ih hc.of_snoc.1
      exact ⟨g0, D, g1, g2, by rw [swaps_snoc, show swaps [(.act t x ans : Lab T)] = [] from rfl, List.append_nil]; exact g3⟩)
    (fun tr a t op r ih ht hc => by
      obtain ⟨g0, D, g1, g2, g3⟩ := ih hc.of_snoc.1
      have hop := g0 t op (by rw [ht]; rfl)
      refine ⟨fun u o hu => ?_, ?_⟩
      · by_cases c : u = t
        · subst c; simp only [upd_same] at hu; cases hu
        · simp only [upd_other _ _ c] at hu; exact g0 u o hu
      by_cases hs : ∃ v w, op = .swap v ∧ r = .val w
      · obtain ⟨v, w, rfl, rfl⟩ := hs
        have hm := (g2 t v w).1 ht
        obtain ⟨D1, D2, rfl⟩ := List.append_of_mem hm
        have hn : ∀ x ∈ D1 ++ D2, x.1 ≠ t := by
          rw [List.map_append, List.map_cons, List.nodup_append, List.nodup_cons] at g1
          intro x hx e
          rcases List.mem_append.1 hx with hx | hx
          · exact g1.2.2 _ (List.mem_map_of_mem hx) t (List.mem_cons_self ..) e
          · have := List.mem_map_of_mem (f := Prod.fst) hx
            rw [e] at this
            exact g1.2.1.1 this
        refine ⟨D1 ++ D2, ?_, fun u v' w' => ?_, ?_⟩
        · refine g1.sublist ?_
          rw [List.map_append, List.map_append, List.map_cons]
          exact List.Sublist.append_left (List.sublist_cons_self ..) _
        · by_cases c : u = t
          · subst c
            simp only [upd_same]
            exact ⟨nofun, fun h => absurd rfl (hn _ h)⟩
          · simp only [upd_other _ _ c]
            rw [g2 u v' w', List.mem_append, List.mem_append, List.mem_cons]
            constructor
            · rintro (h | h | h)
              · exact Or.inl h
              · injection h with h; exact absurd h c
              · exact Or.inr h
            · rintro (h | h)
              · exact Or.inl h
              · exact Or.inr (Or.inr h)
        · rw [swaps_snoc]
          have e : (swaps tr ++ (D1 ++ (t, v, w) :: D2).map Prod.snd).Perm
              (swaps tr ++ swaps [(.ret t (.swap v) (.val w) : Lab T)] ++ (D1 ++ D2).map Prod.snd) := by
            simp only [swaps, List.filterMap_cons, List.filterMap_nil, List.append_assoc, List.map_append, List.map_cons]
            refine List.Perm.append_left _ ?_
            exact List.perm_middle
          refine (((e.map Prod.snd).symm.append_right _).trans g3).trans ?_
          exact List.Perm.cons _ (e.map Prod.fst)
      · refine ⟨D, g1, fun u v w => ?_, ?_⟩
        · by_cases c : u = t
          · subst c
            simp only [upd_same]
            refine ⟨nofun, fun h => ?_⟩
            rw [← g2, ht] at h
            injection h with e1 e2
            exact absurd ⟨v, w, e1, e2⟩ hs
          · simp only [upd_other _ _ c]; exact g2 u v w
        · rw [swaps_snoc]
          have : swaps [(.ret t op r : Lab T)] = [] := by
            simp only [swaps, List.filterMap_cons, List.filterMap_nil]
            split <;> rename_i heq
            · rfl
            · split at heq
              · rename_i e
                injection e with e1 e2 e3
                exact absurd ⟨_, _, e2, e3⟩ hs
              · cases heq
          rw [this, List.append_nil]; exact g3)
    (any E h1)
  obtain ⟨-, D, -, g2, g3⟩ := h hc
  have e := quiet_idle ha hq
  subst e
  have : D = [] := by
    cases D with
    | nil => rfl
    | cons x D => have := (g2 x.1 x.2.1 x.2.2).2 (List.mem_cons_self ..); cases this
  subst this
  simpa [held, still] using g3

/-- `uint64` -/
abbrev U64 := BitVec 64

/-- A goroutine of the test (atomic/value_test.go:127-134): the values it still has to store are those from `next` to
`lim`; `c` is the sum of what it got. -/
structure Adder where
  /-- `newV` -/
  next : Nat
  /-- `i+n` -/
  lim : Nat
  /-- `c` -/
  c : U64

/-- `for newV := i; newV < i+n; newV++ { c += v.Swap(newV) }` (atomic/value_test.go:129-131). -/
def adder : Client (Op U64) (Res U64) Adder where
  ask s := if s.next < s.lim then some (.swap (BitVec.ofNat 64 s.next)) else none
  go s r := match r with
    | .val w => ⟨s.next + 1, s.lim, s.c + w⟩
    | _ => s

/-- Goroutine `t`, of `m`, begins with `i = t*n` (atomic/value_test.go:124-128); there are no others. -/
def adders (m n : Nat) (t : Tid) : Adder := if t < m then ⟨t * n, t * n + n, 0⟩ else ⟨0, 0, 0⟩

/-- The sum of `f 0`, …, `f (m-1)`. -/
def total (f : Nat → U64) : Nat → U64
  | 0 => 0
  | m + 1 => total f m + f m

theorem total_congr {f g : Nat → U64} : ∀ {m : Nat}, (∀ t, t < m → f t = g t) → total f m = total g m
  | 0, _ => rfl
  | m + 1, h => by rw [total, total, total_congr fun t ht => h t (by omega), h m (by omega)]

theorem total_change {f g : Nat → U64} {t : Nat} {d : U64} (ht : g t = f t + d) (ho : ∀ u, u ≠ t → g u = f u) :
    ∀ {m : Nat}, t < m → total g m = total f m + d
  | 0, h => by omega
  | m + 1, h => by
    rw [total, total]
    by_cases c : t = m
    · subst c
      rw [ht, total_congr fun u hu => ho u (by omega)]
      ac_rfl
    · rw [total_change ht ho (show t < m by omega), ho m (fun e => c e.symm)]
      ac_rfl

theorem total_zero : ∀ m, total (fun _ => 0) m = 0
  | 0 => rfl
  | m + 1 => by rw [total, total_zero m]; rfl

theorem total_add (f : Nat → U64) (a : Nat) : ∀ b, total f (a + b) = total f a + total (fun i => f (a + i)) b
  | 0 => by rw [total]; exact (BitVec.add_zero _).symm
  | b + 1 => by rw [← Nat.add_assoc, total, total, total_add f a b, BitVec.add_assoc]

theorem total_blocks (f : Nat → U64) (n : Nat) : ∀ m, total (fun t => total (fun i => f (t * n + i)) n) m = total f (m * n)
  | 0 => by rw [Nat.zero_mul]; rfl
  | m + 1 => by rw [total, total_blocks f n m, Nat.succ_mul, total_add]

theorem total_gauss : ∀ N : Nat, total (BitVec.ofNat 64) N = BitVec.ofNat 64 ((N - 1) * N / 2)
  | 0 => rfl
  | N + 1 => by
    rw [total, total_gauss N, ← BitVec.ofNat_add]
    congr 1
    have e : (N + 1 - 1) * (N + 1) = (N - 1) * N + N * 2 := by
      cases N with
      | zero => rfl
      | succ k => simp only [Nat.add_sub_cancel]; rw [Nat.mul_comm k, ← Nat.mul_add]
    rw [e, Nat.add_mul_div_right _ _ (by omega)]

/-- What the goroutine has summed up, a call that has taken effect included. -/
def Adder.sum (s : Adder) : CStatus (Op U64) (Res U64) → U64
  | .done _ (.val w) => s.c + w
  | _ => s.c

theorem add_both {a b c d : U64} (h1 : a = b) (h2 : c = d) : a + c = b + d := by rw [h1, h2]

/-- How many values it has stored, from `b` on. -/
def Adder.stored (s : Adder) (b : Nat) : CStatus (Op U64) (Res U64) → Nat
  | .done _ (.val _) => s.next + 1 - b
  | _ => s.next - b

/-- The sum of the first `k` values of goroutine `t`. -/
def part (n t k : Nat) : U64 := total (fun i => BitVec.ofNat 64 (t * n + i)) k

theorem part_succ (n t k : Nat) : part n t (k + 1) = part n t k + BitVec.ofNat 64 (t * n + k) := rfl

/-- What is summed up and what is held is what has been stored. -/
structure Adding {E : GoEq U64} (m n : Nat) (q : Tid → Adder) (a : Canon (var E false)) : Prop where
  sum : total (fun t => (q t).sum (a.th t)) m + held a = total (fun t => part n t ((q t).stored (t * n) (a.th t))) m
  lo : ∀ t, t < m → t * n ≤ (q t).next ∧ (q t).next ≤ (q t).lim ∧ (q t).lim = t * n + n
  none : ∀ t, m ≤ t → (q t).next = (q t).lim
  val : ∀ t op r, a.th t = .done op r → ∃ w, r = .val w

theorem adder_ask {s : Adder} {op : Op U64} (h : adder.ask s = some op) :
    s.next < s.lim ∧ op = .swap (BitVec.ofNat 64 s.next) := by
  simp only [adder] at h
  split at h
  · rename_i c; injection h with h; exact ⟨c, h.symm⟩
  · cases h

theorem adding (E : GoEq U64) (m n : Nat) {tr : List (Lab U64)} {c : Cfg U64} (he : Exec (body E) (start U64) tr c)
    (hf : adder.Follows (adders m n) (history tr)) :
    ∃ a, Rel E false c a ∧ Adding m n (adder.after (adders m n) (history tr)) a := by
  have fresh : ∀ (q : Tid → Adder) (a : Canon (var E false)) (t : Tid) (x : CStatus (Op U64) (Res U64)), Adding m n q a →
      (q t).sum x = (q t).sum (a.th t) → (∀ b, (q t).stored b x = (q t).stored b (a.th t)) →
      (∀ op r, x = .done op r → ∃ w, r = .val w) → Adding (E := E) m n q ⟨a.st, upd a.th t x⟩ := by
    intro q a t x h e1 e2 e3
    refine ⟨?_, h.lo, h.none, fun u op r hu => ?_⟩
    · refine Eq.trans (add_both (total_congr fun u _ => ?_) rfl) (h.sum.trans (total_congr fun u _ => ?_))
      · by_cases c : u = t
        · subst c; simp only [upd_same]; exact e1
        · simp only [upd_other _ _ c]
      · by_cases c : u = t
        · subst c; simp only [upd_same]; rw [e2]
        · simp only [upd_other _ _ c]
    · by_cases c : u = t
      · subst c; simp only [upd_same] at hu; exact e3 op r hu
      · simp only [upd_other _ _ c] at hu; exact h.val u op r hu
  obtain ⟨a, h1, h2, -⟩ := (sim E false).client (sim E false).start adder (adders m n) (Adding m n) (fun _ _ h => by cases h)
    ⟨by
      have e1 : total (fun t => (adders m n t).sum .idle) m = total (fun _ => 0) m := total_congr fun t ht => by
        simp [adders, ht, Adder.sum]
      have e2 : total (fun t => part n t ((adders m n t).stored (t * n) .idle)) m = total (fun _ => 0) m :=
        total_congr fun t ht => by simp [adders, ht, Adder.stored, part, total]
      show total (fun t => (adders m n t).sum .idle) m + 0 = total (fun t => part n t ((adders m n t).stored (t * n) .idle)) m
      rw [e1, e2]; exact BitVec.add_zero _,
      fun t ht => by simp [adders, ht], fun t ht => by simp [adders, Nat.not_lt.2 ht], fun _ _ _ h => by cases h⟩
    (fun q a t op h ht _ => fresh q a t _ h (by rw [ht]; rfl) (fun b => by rw [ht]; rfl) (fun _ _ h => by cases h))
    (fun q a t op r s' h ht hask hleg => by
      obtain ⟨hlt, rfl⟩ := adder_ask hask
      obtain ⟨rfl, hs'⟩ := hleg
      have htm : t < m := by
        rcases Nat.lt_or_ge t m with c | c
        · exact c
        · have := h.none t c; omega
      obtain ⟨l1, l2, l3⟩ := h.lo t htm
      refine ⟨?_, h.lo, h.none, fun u op r hu => ?_⟩
      · have e1 := total_change (f := fun u => (q u).sum (a.th u))
          (g := fun u => (q u).sum (upd a.th t (.done (.swap (BitVec.ofNat 64 (q t).next)) (.val (held a))) u)) (t := t)
          (d := held a) (by simp only [upd_same, ht, Adder.sum]) (fun u hu => by simp only [upd_other _ _ hu]) htm
        have e2 := total_change (f := fun u => part n u ((q u).stored (u * n) (a.th u)))
          (g := fun u => part n u ((q u).stored (u * n) (upd a.th t (.done (.swap (BitVec.ofNat 64 (q t).next)) (.val (held a))) u)))
          (t := t) (d := BitVec.ofNat 64 (q t).next) (by
            simp only [upd_same, ht, Adder.stored]
            rw [show (q t).next + 1 - t * n = (q t).next - t * n + 1 by omega, part_succ]
            congr 3; omega) (fun u hu => by simp only [upd_other _ _ hu]) htm
        show total (fun u => (q u).sum (upd a.th t (.done (.swap (BitVec.ofNat 64 (q t).next)) (.val (held a))) u)) m +
          held (E := E) (strict := false) ⟨s', a.th⟩ =
          total (fun u => part n u ((q u).stored (u * n) (upd a.th t (.done (.swap (BitVec.ofNat 64 (q t).next)) (.val (held a))) u))) m
        rw [e1, e2, ← h.sum]
        exact congrArg _ hs'
      · by_cases c : u = t
        · subst c
          simp only [upd_same] at hu
          injection hu with _ hu
          exact ⟨_, hu.symm⟩
        · simp only [upd_other _ _ c] at hu; exact h.val u op r hu)
    (fun q a t op r h ht hask => by
      obtain ⟨hlt, rfl⟩ := adder_ask hask
      obtain ⟨w, rfl⟩ := h.val t _ r ht
      refine ⟨?_, fun u hu => ?_, fun u hu => ?_, fun u op r hu => ?_⟩
      · refine Eq.trans (add_both (total_congr fun u _ => ?_) rfl) (h.sum.trans (total_congr fun u _ => ?_))
        · by_cases c : u = t
          · subst c; simp only [upd_same, ht]; rfl
          · simp only [upd_other _ _ c]
        · by_cases c : u = t
          · subst c; simp only [upd_same, ht]; rfl
          · simp only [upd_other _ _ c]
      · by_cases c : u = t
        · subst c
          have := h.lo u hu
          simp only [upd_same, adder]
          omega
        · simp only [upd_other _ _ c]; exact h.lo u hu
      · by_cases c : u = t
        · subst c; have := h.none u hu; omega
        · simp only [upd_other _ _ c]; exact h.none u hu
      · by_cases c : u = t
        · subst c; simp only [upd_same] at hu; cases hu
        · simp only [upd_other _ _ c] at hu; exact h.val u op r hu)
    (any E he) hf
  exact ⟨a, h1, h2⟩

/-- **C146, TestValueSwap_Concurrent** (atomic/value_test.go:115-138). `m` goroutines store the numbers below `m*n`,
each `n` of them, with `Swap`, and sum up what they get; `count` is the sum of these sums, in whatever order they are
added. When all are done, `count+v.Load()` is `(m*n-1)*(m*n)/2`, in the arithmetic of `uint64`. -/
theorem C146_swap_test (E : GoEq U64) (m n : Nat) (hmn : m * n * (m * n) < 2 ^ 64) (tr1 tr2 : List (Lab U64)) (c1 c2 : Cfg U64)
    (h1 : Exec (body E) (start U64) tr1 c1) (hf : adder.Follows (adders m n) (history tr1)) (hq : Quiet c1)
    (hd : ∀ t, adder.ask (adder.after (adders m n) (history tr1) t) = none) (h2 : Exec (body E) c1 tr2 c2)
    (hl : OnlyLoads tr2) (t : Tid) (op : Op U64) (r : Res U64) (hr : .ret t op r ∈ tr2) :
    ∃ w, r = .val w ∧ total (fun t => (adder.after (adders m n) (history tr1) t).c) m + w =
      (BitVec.ofNat 64 (m * n) - 1) * BitVec.ofNat 64 (m * n) / 2 := by
  refine ⟨value c1.sh, loads E h1 hq h2 hl hr, ?_⟩
  obtain ⟨a, ha, hA⟩ := adding E m n h1 hf
  have e := quiet_idle ha hq
  subst e
  have hs := hA.sum
  have e2 : total (fun t => part n t ((adder.after (adders m n) (history tr1) t).stored (t * n) .idle)) m =
      total (fun t => total (fun i => BitVec.ofNat 64 (t * n + i)) n) m := total_congr fun t ht => by
    obtain ⟨l1, l2, l3⟩ := hA.lo t ht
    have : ¬ (adder.after (adders m n) (history tr1) t).next < (adder.after (adders m n) (history tr1) t).lim := by
      have := hd t
      simp only [adder] at this
      split at this
      · cases this
      · assumption
    simp only [Adder.stored, part]
    congr 1
    omega
  refine Eq.trans hs (Eq.trans e2 ?_)
  rw [total_blocks, total_gauss]
  generalize m * n = N at hmn
  apply BitVec.eq_of_toNat_eq
  have hN : N < 2 ^ 64 := by
    rcases Nat.eq_zero_or_pos N with h | h
    · omega
    · exact Nat.lt_of_le_of_lt (Nat.le_mul_of_pos_left N h) hmn
  rcases Nat.eq_zero_or_pos N with h | h
  · subst h; rfl
  have e3 : (BitVec.ofNat 64 N - 1 : U64) = BitVec.ofNat 64 (N - 1) := by
    apply BitVec.eq_of_toNat_eq
    have : (1 : U64).toNat = 1 := rfl
    simp only [BitVec.toNat_sub, BitVec.toNat_ofNat, this]
    omega
  have hlt : (N - 1) * N < 2 ^ 64 := Nat.lt_of_le_of_lt (Nat.mul_le_mul_right N (Nat.sub_le N 1)) hmn
  rw [e3, BitVec.toNat_udiv, BitVec.toNat_mul, BitVec.toNat_ofNat, BitVec.toNat_ofNat, BitVec.toNat_ofNat,
    Nat.mod_eq_of_lt hN, Nat.mod_eq_of_lt (show N - 1 < 2 ^ 64 by omega), Nat.mod_eq_of_lt hlt]
  have : (2 : U64).toNat = 2 := rfl
  rw [this, Nat.mod_eq_of_lt (Nat.lt_of_le_of_lt (Nat.div_le_self _ _) hlt)]

/-! ## `Store` and `Load` (TestValue_Concurrent) -/

/-- A goroutine of the test (atomic/value_test.go:54-72): the values it will draw, whether it has stored the first of them
and not yet loaded, and `expected`. -/
structure Storer (T : Type) where
  /-- the values still to be drawn -/
  vals : List T
  /-- between `Store` and `Load` -/
  loading : Bool
  /-- `expected` -/
  expected : Bool

/-- `v.Store(x); x = v.Load()`, and the comparison of `x` with the values in `test`; if it is none of them the loop is
left (atomic/value_test.go:58-70). -/
def storer (E : GoEq T) (test : List T) : Client (Op T) (Res T) (Storer T) where
  ask s := match s.vals, s.loading with
    | [], _ => none
    | v :: _, false => some (.store v)
    | _ :: _, true => some .load
  go s r := match s.vals, s.loading, r with
    | _ :: _, false, _ => { s with loading := true }
    | _ :: l, true, .val w => if test.any (fun x1 => E.eq w x1) then ⟨l, false, s.expected⟩ else ⟨[], false, false⟩
    | _, _, _ => s

/-- At any moment: once somebody has stored, the value held is one of the values. -/
structure Storing {E : GoEq T} (test : List T) (q : Tid → Storer T) (a : Canon (var E false)) : Prop where
  held : held a ∈ test ∨ ∀ t, (q t).loading = false ∧ ∀ v r, a.th t ≠ .done (.store v) r
  ok : ∀ t, (q t).expected = true
  vals : ∀ t v, v ∈ (q t).vals → v ∈ test
  got : ∀ t r, a.th t = .done .load r → ∃ w, w ∈ test ∧ r = .val w

/-- **C146, TestValue_Concurrent** (atomic/value_test.go:44-86). Goroutines store values from `test`, drawn in whatever
way, and load after each `Store`. No `Load` gives anything but one of these values: `expected` remains true. -/
theorem C146_load_test (E : GoEq T) (test : List T) (hE : ∀ x, x ∈ test → E.eq x x = true) (q0 : Tid → Storer T)
    (h0 : ∀ t, (q0 t).loading = false ∧ (q0 t).expected = true ∧ ∀ v ∈ (q0 t).vals, v ∈ test) (tr : List (Lab T)) (c : Cfg T)
    (he : Exec (body E) (start T) tr c) (hf : (storer E test).Follows q0 (history tr)) (t : Tid) :
    ((storer E test).after q0 (history tr) t).expected = true := by
  have ask : ∀ (s : Storer T) op, (storer E test).ask s = some op → (∃ v l, s.vals = v :: l ∧ s.loading = false ∧ op = .store v) ∨
      (∃ v l, s.vals = v :: l ∧ s.loading = true ∧ op = .load) := by
    rintro ⟨vals, loading, expected⟩ op h
    cases vals with
    | nil => cases h
    | cons v l => cases loading with
      | false => injection h with h; exact Or.inl ⟨v, l, rfl, rfl, h.symm⟩
      | true => injection h with h; exact Or.inr ⟨v, l, rfl, rfl, h.symm⟩
  obtain ⟨a, -, h, -⟩ := (sim E false).client (sim E false).start (storer E test) q0 (Storing test) (fun _ _ h => by cases h)
    ⟨Or.inr fun t => ⟨(h0 t).1, nofun⟩, fun t => (h0 t).2.1, fun t v hv => (h0 t).2.2 v hv, nofun⟩
    (fun q a t op h ht hask => by
      refine ⟨h.held.imp id fun hh u => ⟨(hh u).1, fun v r => ?_⟩, h.ok, h.vals, fun u r hu => ?_⟩ <;> by_cases c : u = t
      · subst c; simp only [upd_same]; nofun
      · simp only [upd_other _ _ c]; exact (hh u).2 v r
      · subst c; simp only [upd_same] at hu; cases hu
      · simp only [upd_other _ _ c] at hu; exact h.got u r hu)
    (fun q a t op r s' h ht hask hleg => by
      rcases ask _ _ hask with ⟨v, l, e1, e2, rfl⟩ | ⟨v, l, e1, e2, rfl⟩
      · obtain ⟨rfl, hs'⟩ := hleg
        refine ⟨Or.inl ?_, h.ok, h.vals, fun u r hu => ?_⟩
        · have : held (E := E) (strict := false) ⟨s', upd a.th t (.done (.store v) .unit)⟩ = v := hs'
          rw [this]
          exact h.vals t v (by rw [e1]; exact List.mem_cons_self ..)
        · by_cases c : u = t
          · subst c; simp only [upd_same] at hu; cases hu
          · simp only [upd_other _ _ c] at hu; exact h.got u r hu
      · obtain ⟨rfl, rfl⟩ := hleg
        have hin : held a ∈ test := by
          rcases h.held with hh | hh
          · exact hh
          · rw [(hh t).1] at e2; cases e2
        refine ⟨Or.inl hin, h.ok, h.vals, fun u r hu => ?_⟩
        by_cases c : u = t
        · subst c
          simp only [upd_same] at hu
          injection hu with _ hu
          exact ⟨held a, hin, hu.symm⟩
        · simp only [upd_other _ _ c] at hu; exact h.got u r hu)
    (fun q a t op r h ht hask => by
      have hgot : ∀ u r', upd a.th t .idle u = .done .load r' → ∃ w, w ∈ test ∧ r' = .val w := by
        intro u r' hu
        by_cases c : u = t
        · subst c; rw [upd_same] at hu; cases hu
        · rw [upd_other _ _ c] at hu; exact h.got u r' hu
      rcases ask _ _ hask with ⟨v, l, e1, e2, rfl⟩ | ⟨v, l, e1, e2, rfl⟩
      · have e3 : (storer E test).go (q t) r = { q t with loading := true } := by
          simp only [storer, e1, e2]
        have hin : held a ∈ test := by
          rcases h.held with hh | hh
          · exact hh
          · exact absurd ht ((hh t).2 v r)
        refine ⟨Or.inl hin, fun u => ?_, fun u v' hv => ?_, hgot⟩ <;> by_cases c : u = t
        · subst c; rw [upd_same, e3]; exact h.ok u
        · rw [upd_other _ _ c]; exact h.ok u
        · subst c; rw [upd_same, e3] at hv; exact h.vals u v' hv
        · rw [upd_other _ _ c] at hv; exact h.vals u v' hv
      · obtain ⟨w, hw, rfl⟩ := h.got t r ht
        have hany : test.any (fun x1 => E.eq w x1) = true := List.any_eq_true.2 ⟨w, hw, hE w hw⟩
        have e3 : (storer E test).go (q t) (.val w) = ⟨l, false, (q t).expected⟩ := by
          simp only [storer, e1, e2, hany, if_true]
        have hin : held a ∈ test := by
          rcases h.held with hh | hh
          · exact hh
          · rw [(hh t).1] at e2; cases e2
        refine ⟨Or.inl hin, fun u => ?_, fun u v' hv => ?_, hgot⟩ <;> by_cases c : u = t
        · subst c; rw [upd_same, e3]; exact h.ok u
        · rw [upd_other _ _ c]; exact h.ok u
        · subst c
          rw [upd_same, e3] at hv
          exact h.vals u v' (by rw [e1]; exact List.mem_cons_of_mem _ hv)
        · rw [upd_other _ _ c] at hv; exact h.vals u v' hv)
    (any E he) hf
  exact h.ok t

/-! ## Executions of the tests -/

/-- Not in a call. -/
def isIdle {M : Machine} {Op R : Type} : Thread M Op R → Bool
  | .idle => true
  | .run _ _ => false

theorem untouched {M : Machine} {Op R : Type} {prog : Op → Prog M.A M.Ans R} {c c' : Config M Op R}
    {tr : List (Label M Op R)} (h : Exec prog c tr c') {t : Tid} (ht : ∀ l ∈ tr, l.who ≠ t) : c'.th t = c.th t := by
  induction h with
  | nil => rfl
  | @snoc tr c1 c2 l _ hs ih =>
    have h1 := ih fun l hl => ht l (List.mem_append_left _ hl)
    have h2 := ht l (List.mem_append_right _ (List.mem_singleton.2 rfl))
    rw [← h1]
    cases hs with
    | call u op hu => exact upd_other _ _ (fun e => h2 e.symm)
    | act u op a k ans sh' hu hst => exact upd_other _ _ (fun e => h2 e.symm)
    | ret u op r hu => exact upd_other _ _ (fun e => h2 e.symm)

/-- What happens in a schedule, and where it ends (nowhere if it is not possible). -/
def played [DecidableEq T] (E : GoEq T) (gs : List (Conc.Go (Op T))) (c : Cfg T) : List (Lab T) × Cfg T :=
  match play E gs c with
  | some (tr, _, c') => (tr, c')
  | none => ([], c)

theorem played_exec [DecidableEq T] (E : GoEq T) (gs : List (Conc.Go (Op T))) (c : Cfg T) :
    Exec (body E) c (played E gs c).1 (played E gs c).2 := by
  unfold played
  split
  · rename_i h; exact play_exec h
  · exact .nil

/-- Nobody is in a call at the end, if those who took part, of the first three goroutines, are not. -/
def quietB [DecidableEq T] (E : GoEq T) (gs : List (Conc.Go (Op T))) (c : Cfg T) : Bool :=
  (played E gs c).1.all (fun l => decide (l.who < 3)) && isIdle ((played E gs c).2.th 0) &&
    isIdle ((played E gs c).2.th 1) && isIdle ((played E gs c).2.th 2)

theorem quietB_sound [DecidableEq T] {E : GoEq T} {gs : List (Conc.Go (Op T))} {c : Cfg T} (hc : Quiet c)
    (h : quietB E gs c = true) : Quiet (played E gs c).2 := by
  simp only [quietB, Bool.and_eq_true, List.all_eq_true, decide_eq_true_iff] at h
  obtain ⟨⟨⟨h1, h2⟩, h3⟩, h4⟩ := h
  have key : ∀ x : Thread (mach T) (Op T) (Res T), isIdle x = true → x = .idle := by
    intro x hx; cases x with
    | idle => rfl
    | run => cases hx
  intro t
  match t with
  | 0 => exact key _ h2
  | 1 => exact key _ h3
  | 2 => exact key _ h4
  | t + 3 =>
    rw [untouched (played_exec E gs c) (t := t + 3) fun l hl e => by
      have h5 : (l.who : Nat) < 3 := h1 l hl
      rw [e] at h5
      exact absurd h5 (Nat.not_lt.2 (Nat.le_add_left 3 t))]
    exact hc _

/-- Two goroutines swap at the same time: both allocate, then 1 swaps, then 0. -/
def swapSched : List (Conc.Go (Op U64)) :=
  [.call 0 (.swap 0), .call 1 (.swap 1), .act 0, .act 1, .act 1, .act 0, .ret 1, .act 0, .ret 0]

/-- TestValueSwap_Concurrent with `m = 2` and `n = 1`: an execution as in `C146_swap` and `C146_swap_test`, in which 1
gets the zero value, 0 gets 1, and 0 is left. -/
example : ∃ tr1 tr2 c1 c2, Exec (body (exactEq U64)) (start U64) tr1 c1 ∧
    Calls (fun _ op => op = .load ∨ ∃ v, op = .swap v) tr1 ∧ adder.Follows (adders 2 1) (history tr1) ∧ Quiet c1 ∧
    (∀ t, adder.ask (adder.after (adders 2 1) (history tr1) t) = none) ∧ Exec (body (exactEq U64)) c1 tr2 c2 ∧
    OnlyLoads tr2 ∧ .ret 2 .load (.val 0) ∈ tr2 ∧ swaps tr1 = [(1, 0), (0, 1)] := by
  have hf : adder.Follows (adders 2 1) (history (played (exactEq U64) swapSched (start U64)).1) :=
    Client.followsB_sound _ _ _ (by decide +kernel)
  refine ⟨_, _, _, _, played_exec (exactEq U64) swapSched (start U64), ?_, hf, quietB_sound (fun _ => rfl) (by decide +kernel),
    fun t => ?_, played_exec _ (whole 2 .load 2) _, ?_, ?_, by decide +kernel⟩
  · exact hf.calls fun _ s op h => Or.inr ⟨_, (adder_ask h).2⟩
  · match t with
    | 0 => decide +kernel
    | 1 => decide +kernel
    | t + 2 => rfl
  · intro t op hm
    have : (played (exactEq U64) (whole 2 .load 2) (played (exactEq U64) swapSched (start U64)).2).1 =
      [.call 2 .load, .act 2 .load (some 0), .act 2 (.deref 0) 0, .ret 2 .load (.val 0)] := rfl
    rw [this] at hm
    simp only [List.mem_cons, Label.call.injEq, List.not_mem_nil, or_false, reduceCtorEq] at hm
    exact hm.2
  · have : (played (exactEq U64) (whole 2 .load 2) (played (exactEq U64) swapSched (start U64)).2).1 =
      [.call 2 .load, .act 2 .load (some 0), .act 2 (.deref 0) 0, .ret 2 .load (.val 0)] := rfl
    rw [this]
    simp

/-- TestValue_Concurrent with two goroutines, which store 5 and 7: 0 loads what 1 has stored. -/
example : ∃ tr c, Exec (body (exactEq U64)) (start U64) tr c ∧
    (storer (exactEq U64) [5, 7]).Follows (fun t => ⟨if t = 0 then [5] else if t = 1 then [7] else [], false, true⟩) (history tr) ∧
    .ret 0 .load (.val 7) ∈ tr := by
  refine ⟨_, _, played_exec (exactEq U64) (whole 0 (.store 5) 2 ++ whole 1 (.store 7) 2 ++ whole 0 .load 2) (start U64),
    Client.followsB_sound _ _ _ (by decide +kernel), ?_⟩
  have : (played (exactEq U64) (whole 0 (.store 5) 2 ++ whole 1 (.store 7) 2 ++ whole 0 .load 2) (start U64)).1 =
    [.call 0 (.store 5), .act 0 (.alloc 5) 0, .act 0 (.store 0) (), .ret 0 (.store 5) .unit,
     .call 1 (.store 7), .act 1 (.alloc 7) 1, .act 1 (.store 1) (), .ret 1 (.store 7) .unit,
     .call 0 .load, .act 0 .load (some 1), .act 0 (.deref 1) 7, .ret 0 .load (.val 7)] := rfl
  rw [this]
  simp

end Verif.AtomicValue.Tests
