import Verif.Slice.Props
import Verif.Algo.Model

/-!
# C135: several insert iterators on one slice

`iter.Insert(pos, &s)` is a pointer to a structure that holds a position; a write through it inserts at that position and
moves the position behind what was inserted. Here any number of such structures live in memory, all for one slice
variable, and are written through in any order.
-/

namespace Verif.Slice.Inserters

open Verif.Slice Verif.Iter Verif.Algo

variable {T : Type} [Inhabited T]
set_option linter.unusedSectionVars false

/-- The slice variable and the positions held by the insert iterators (field `p`, ds/iter/inserter.go:72-75). -/
structure Held (T : Type) where
  mem : Mem T
  its : Nat → SIter T

/-- An `*InsertIterator`: the address of one; `w` is the slice variable it inserts into. -/
structure InsIter (T : Type) where
  w : Var T
  k : Nat

/-- ds/iter/inserter.go:97-99 `Set`: the position is assigned only after `Insert` and `Next` have returned. -/
def write (w : Var T) (k : Nat) (v : T) : St (Held T) Unit := fun m =>
  match insertIterSet w (⟨m.its k⟩ : VIter T) v m.mem with
  | (.ok p, mem) => (.ok (), ⟨mem, fun j => if j = k then p.it else m.its j⟩)
  | (.error e, mem) => (.error e, ⟨mem, m.its⟩)

/-- ds/iter/inserter.go:85-99: the methods of `InsertIterator`. `Equal` compares the containers only. -/
instance : Iter (Held T) T (InsIter T) where
  next it := .ok it
  get _ := pure default
  set it v := write it.w it.k v
  equal x y := IfaceEq.same x.w y.w

/-- Writes through the iterators, one after the other, until one panics. -/
def writes (w : Var T) : List (Nat × T) → St (Held T) Unit
  | [] => pure ()
  | (k, v) :: ws => do
    write w k v
    writes w ws

/-- What the writes make of a list if iterator `k` is at index `pos k`: each inserts at its own index and moves that
index behind what it inserted, and no other index moves. -/
def laid : List T → (Nat → Nat) → List (Nat × T) → List T
  | l, _, [] => l
  | l, pos, (k, v) :: ws => laid (l.insertIdx (pos k) v) (fun j => if j = k then pos k + 1 else pos j) ws

/-- Iterator `k` is at index `n` of the storage of the variable. -/
def Good (m : Held T) (k n : Nat) : Prop :=
  (m.its k).s.ptr = m.mem.var.ptr ∧ (m.its k).pos = n ∧ n ≤ m.mem.var.len

/-- One write through an iterator of the variable's storage. -/
theorem write_good (w : Var T) (m : Held T) (hv : Valid m.mem.heap m.mem.var) (k n : Nat) (v : T) (hg : Good m k n)
    (hb : ((m.mem.var.len + 1 + w.grow (m.mem.var.len + 1) : Nat) : Int) < 9223372036854775808) :
    ∃ mem', write w k v m = (.ok (), ⟨mem', fun j => if j = k then ⟨((n + 1 : Nat) : Int), mem'.var⟩ else m.its j⟩) ∧
      Valid mem'.heap mem'.var ∧ mem'.var.len = m.mem.var.len + 1 ∧
      contents mem'.heap mem'.var = (contents m.mem.heap m.mem.var).insertIdx n v ∧
      m.mem.heap.length ≤ mem'.heap.length ∧
      (m.mem.var.len < m.mem.var.cap → mem'.var.ptr = m.mem.var.ptr ∧ mem'.var.cap = m.mem.var.cap) ∧
      (m.mem.var.len = m.mem.var.cap → mem'.var.ptr = .arr m.mem.heap.length 0) := by
  obtain ⟨h1, h2, h3⟩ := hg
  obtain ⟨s', h', e, hv', hl, hc, hin, hout⟩ := insert_spec (w.grow (m.mem.var.len + 1)) hv v h3 hb
  have e1 : varInsert w (m.its k) v m.mem = (.ok ⟨(n : Int), s'⟩, ⟨h', s'⟩) := by
    unfold varInsert
    rw [if_neg (by simp [referenceEqual, h1])]
    unfold varInsertAt onVar
    simp only [h2, e]
  have e2 : insertIterSet w (⟨m.its k⟩ : VIter T) v m.mem = (.ok ⟨⟨((n + 1 : Nat) : Int), s'⟩⟩, ⟨h', s'⟩) := by
    unfold insertIterSet
    have q1 : (Inserter.insert w (⟨m.its k⟩ : VIter T) v : St (Mem T) (VIter T)) m.mem =
        (.ok ⟨⟨(n : Int), s'⟩⟩, ⟨h', s'⟩) := by
      show (match varInsert w (m.its k) v m.mem with
        | (.ok i, m') => ((.ok ⟨i⟩ : Go (VIter T)), m') | (.error e, m') => (.error e, m')) = _
      rw [e1]
    rw [St.bind_ok q1]
    refine St.lift_ok ?_ _
    show (match SIter.inc (⟨(n : Int), s'⟩ : SIter T) with
      | .ok i => (.ok ⟨i⟩ : Go (VIter T)) | .error e => .error e) = _
    unfold SIter.inc
    rw [if_neg (by dsimp only; omega)]
    simp
  refine ⟨⟨h', s'⟩, ?_, hv', hl, hc, ?_, fun hlt => ?_, fun heq => ?_⟩
  · unfold write
    rw [e2]
  · by_cases hlt : m.mem.var.len + 1 ≤ m.mem.var.cap
    · exact (hin hlt).2.2.length_le
    · exact (hout (by omega)).2.length_le
  · exact ⟨(hin (by omega)).1, (hin (by omega)).2.1⟩
  · exact (hout (by omega)).1

/-- One write through an iterator of other storage: it panics and changes nothing. -/
theorem write_stale (w : Var T) (m : Held T) (k : Nat) (v : T) (hs : (m.its k).s.ptr ≠ m.mem.var.ptr) :
    ∃ msg, write w k v m = (.error msg, m) := by
  obtain ⟨msg, e⟩ := C19_foreign w m.mem (m.its k) v hs
  refine ⟨msg, ?_⟩
  have q1 : (Inserter.insert w (⟨m.its k⟩ : VIter T) v : St (Mem T) (VIter T)) m.mem = (.error msg, m.mem) := by
    show (match varInsert w (m.its k) v m.mem with
      | (.ok i, m') => ((.ok ⟨i⟩ : Go (VIter T)), m') | (.error e, m') => (.error e, m')) = _
    rw [e]
  have q : insertIterSet w (⟨m.its k⟩ : VIter T) v m.mem = (.error msg, m.mem) := by
    unfold insertIterSet
    exact St.bind_error q1 _
  unfold write
  rw [q]

/-- The storage is not one made after the first `n` arrays. -/
def Old (n : Nat) (p : Ptr) : Prop := ∀ a off, p = .arr a off → a < n

/-- After a reallocation by iterator `k` the others are of no use. -/
theorem writes_alone (w : Var T) (k : Nat) (ws : List (Nat × T)) : ∀ (m : Held T) (n0 : Nat) (pos : Nat → Nat),
    Valid m.mem.heap m.mem.var → Good m k (pos k) → (∀ j, j ≠ k → Old n0 (m.its j).s.ptr) →
    ¬ Old n0 m.mem.var.ptr → n0 ≤ m.mem.heap.length →
    (∀ n, n ≤ m.mem.var.len + ws.length → ((n + w.grow n : Nat) : Int) < 9223372036854775808) →
    ((writes w ws m).1 = .ok () ↔ ∀ x ∈ ws, x.1 = k) ∧
    Valid (writes w ws m).2.mem.heap (writes w ws m).2.mem.var ∧
    ∃ c, c ≤ ws.length ∧ ((writes w ws m).1 = .ok () → c = ws.length) ∧
      contents (writes w ws m).2.mem.heap (writes w ws m).2.mem.var =
        laid (contents m.mem.heap m.mem.var) pos (ws.take c) := by
  induction ws with
  | nil =>
    intro m n0 pos hv _ _ _ _ _
    exact ⟨by simp [writes], hv, 0, Nat.le_refl _, fun _ => rfl, rfl⟩
  | cons x ws ih =>
    obtain ⟨j, v⟩ := x
    intro m n0 pos hv hg ho hn hh hb
    by_cases hj : j = k
    · subst hj
      have hb1 := hb (m.mem.var.len + 1) (by simp)
      obtain ⟨mem', e, hv', hl, hc, hhl, hin, hout⟩ := write_good w m hv j (pos j) v hg hb1
      have hcap : m.mem.var.len ≤ m.mem.var.cap := hv.1
      obtain ⟨i1, i2, c, c1, c2, c3⟩ := ih ⟨mem', fun i => if i = j then ⟨((pos j + 1 : Nat) : Int), mem'.var⟩ else m.its i⟩ n0
        (fun i => if i = j then pos j + 1 else pos i) hv'
        (by
          refine ⟨by simp, by simp, ?_⟩
          have := hg.2.2
          simp only [if_true]
          omega)
        (by
          intro i hi
          simp only [if_neg hi]
          exact ho i hi)
        (by
          by_cases hc : m.mem.var.len < m.mem.var.cap
          · show ¬ Old n0 mem'.var.ptr
            rw [(hin hc).1]; exact hn
          · show ¬ Old n0 mem'.var.ptr
            rw [hout (by omega)]
            intro h
            have := h _ _ rfl
            omega)
        (by show n0 ≤ mem'.heap.length; omega)
        (by
          intro n hn
          have hn : n ≤ mem'.var.len + ws.length := hn
          exact hb n (by simp only [List.length_cons]; omega))
      have ew : writes w ((j, v) :: ws) m =
          writes w ws ⟨mem', fun i => if i = j then ⟨((pos j + 1 : Nat) : Int), mem'.var⟩ else m.its i⟩ := by
        rw [writes, St.bind_ok e]
      rw [ew]
      refine ⟨i1.trans ?_, i2, c + 1, by simp; omega, fun h => by simp [c2 h], ?_⟩
      · simp
      · rw [c3, List.take_succ_cons, laid]
        simp only [hc]
    · have : (m.its j).s.ptr ≠ m.mem.var.ptr := fun h => hn (h ▸ ho j hj)
      obtain ⟨msg, e⟩ := write_stale w m j v this
      have ew : writes w ((j, v) :: ws) m = (.error msg, m) := by
        rw [writes]
        exact St.bind_error e _
      rw [ew]
      refine ⟨?_, hv, 0, by simp, fun h => (by cases h), rfl⟩
      constructor
      · intro h; cases h
      · intro h; exact absurd (h (j, v) (by simp)) hj

/-- **C135.** Writes through insert iterators at the indices `pos k` of one valid slice. They all return exactly if those
that no longer fit the capacity the slice had at first all go through the same iterator. Then the slice holds what `laid`
says; if one panics, it holds what the writes before it made. -/
theorem C135_writes (w : Var T) (ws : List (Nat × T)) : ∀ (m : Held T) (pos : Nat → Nat),
    Valid m.mem.heap m.mem.var → (∀ k, Good m k (pos k)) →
    (∀ n, n ≤ m.mem.var.len + ws.length → ((n + w.grow n : Nat) : Int) < 9223372036854775808) →
    ((writes w ws m).1 = .ok () ↔
      ∀ x ∈ ws.drop (m.mem.var.cap - m.mem.var.len), ∀ y ∈ ws.drop (m.mem.var.cap - m.mem.var.len), x.1 = y.1) ∧
    Valid (writes w ws m).2.mem.heap (writes w ws m).2.mem.var ∧
    ∃ c, c ≤ ws.length ∧ ((writes w ws m).1 = .ok () → c = ws.length) ∧
      contents (writes w ws m).2.mem.heap (writes w ws m).2.mem.var =
        laid (contents m.mem.heap m.mem.var) pos (ws.take c) := by
  induction ws with
  | nil =>
    intro m pos hv _ _
    exact ⟨by simp [writes], hv, 0, Nat.le_refl _, fun _ => rfl, rfl⟩
  | cons x ws ih =>
    obtain ⟨k, v⟩ := x
    intro m pos hv hg hb
    have hb1 := hb (m.mem.var.len + 1) (by simp)
    obtain ⟨mem', e, hv', hl, hc, hhl, hin, hout⟩ := write_good w m hv k (pos k) v (hg k) hb1
    have hcap : m.mem.var.len ≤ m.mem.var.cap := hv.1
    have ew : writes w ((k, v) :: ws) m =
        writes w ws ⟨mem', fun i => if i = k then ⟨((pos k + 1 : Nat) : Int), mem'.var⟩ else m.its i⟩ := by
      rw [writes, St.bind_ok e]
    have hbs : ∀ n, n ≤ mem'.var.len + ws.length → ((n + w.grow n : Nat) : Int) < 9223372036854775808 := by
      intro n hn
      exact hb n (by simp only [List.length_cons]; omega)
    have hk' : pos k + 1 ≤ mem'.var.len := by have := (hg k).2.2; omega
    by_cases hlt : m.mem.var.len < m.mem.var.cap
    · obtain ⟨i1, i2, c, c1, c2, c3⟩ := ih ⟨mem', fun i => if i = k then ⟨((pos k + 1 : Nat) : Int), mem'.var⟩ else m.its i⟩
        (fun i => if i = k then pos k + 1 else pos i) hv'
        (by
          intro i
          by_cases hi : i = k
          · subst hi
            exact ⟨by simp, by simp, by simpa using hk'⟩
          · refine ⟨?_, ?_, ?_⟩
            · simp only [if_neg hi]
              rw [(hin hlt).1]
              exact (hg i).1
            · simp only [if_neg hi]
              exact (hg i).2.1
            · simp only [if_neg hi]
              have := (hg i).2.2
              omega)
        hbs
      rw [ew]
      refine ⟨?_, i2, c + 1, by simp; omega, fun h => by simp [c2 h], ?_⟩
      · rw [i1]
        simp only [(hin hlt).2, hl]
        rw [show m.mem.var.cap - m.mem.var.len = (m.mem.var.cap - (m.mem.var.len + 1)) + 1 by omega,
          List.drop_succ_cons]
      · rw [c3, List.take_succ_cons, laid]
        simp only [hc]
    · have hold : Old m.mem.heap.length m.mem.var.ptr := by
        intro a off hp
        have h3 := hv.2.2
        rw [hp] at h3
        obtain ⟨A, hA, -⟩ := h3
        exact (List.getElem?_eq_some_iff.1 hA).1
      obtain ⟨i1, i2, c, c1, c2, c3⟩ := writes_alone w k ws
        ⟨mem', fun i => if i = k then ⟨((pos k + 1 : Nat) : Int), mem'.var⟩ else m.its i⟩ m.mem.heap.length
        (fun i => if i = k then pos k + 1 else pos i) hv'
        ⟨by simp, by simp, by simpa using hk'⟩
        (by
          intro i hi
          simp only [if_neg hi]
          rw [(hg i).1]
          exact hold)
        (by
          show ¬ Old m.mem.heap.length mem'.var.ptr
          rw [hout (by omega)]
          intro h
          exact absurd (h _ _ rfl) (Nat.lt_irrefl _))
        hhl hbs
      rw [ew]
      refine ⟨?_, i2, c + 1, by simp; omega, fun h => by simp [c2 h], ?_⟩
      · rw [i1, show m.mem.var.cap - m.mem.var.len = 0 by omega, List.drop_zero]
        constructor
        · intro h x hx y hy
          have : ∀ z ∈ (k, v) :: ws, z.1 = k := by
            intro z hz
            rcases List.mem_cons.1 hz with rfl | hz
            · rfl
            · exact h z hz
          rw [this x hx, this y hy]
        · intro h x hx
          exact h x (by simp [hx]) (k, v) (by simp)
      · rw [c3, List.take_succ_cons, laid]
        simp only [hc]

/-! ## What `laid` means -/

theorem insertIdx_eq (v : T) : ∀ (l : List T) (i : Nat), i ≤ l.length → l.insertIdx i v = l.take i ++ v :: l.drop i
  | l, 0, _ => by simp
  | [], i + 1, h => by simp at h
  | x :: l, i + 1, h => by
    rw [List.insertIdx_succ_cons, insertIdx_eq v l i (by simpa using h)]
    rfl

/-- Writes through one iterator: the values in order at its index. -/
theorem laid_one (k : Nat) (vs : List T) : ∀ (l : List T) (pos : Nat → Nat), pos k ≤ l.length →
    laid l pos (vs.map fun v => (k, v)) = l.take (pos k) ++ vs ++ l.drop (pos k) := by
  induction vs with
  | nil => intro l pos _; simp [laid]
  | cons v vs ih =>
    intro l pos h
    have ht : (l.take (pos k)).length = pos k := by rw [List.length_take]; omega
    rw [List.map_cons, laid, ih _ _ (by simp [List.length_insertIdx, h])]
    simp only [if_true]
    have t1 : (l.take (pos k)).take (pos k + 1) = l.take (pos k) := List.take_of_length_le (by omega)
    have t2 : (l.take (pos k)).drop (pos k + 1) = [] := List.drop_of_length_le (by omega)
    rw [insertIdx_eq v l _ h, List.take_append, List.drop_append, t1, t2, ht, show pos k + 1 - pos k = 1 by omega]
    simp

theorem laid_append (a b : List (Nat × T)) : ∀ (l : List T) (pos : Nat → Nat),
    laid l pos (a ++ b) = laid (laid l pos a) (fun j => pos j + (a.filter fun x => x.1 == j).length) b := by
  induction a with
  | nil => intro l pos; simp [laid]
  | cons x a ih =>
    obtain ⟨k, v⟩ := x
    intro l pos
    rw [List.cons_append, laid, laid, ih]
    congr 1
    funext j
    by_cases hj : j = k
    · subst hj; simp; omega
    · have : ¬ k = j := fun h => hj h.symm
      simp [hj, this]

/-- Two iterators at the indices `i` and `j`, first only the one, then only the other is written through. -/
theorem laid_two {a b : Nat} (hab : a ≠ b) (us vs l : List T) (pos : Nat → Nat) (ha : pos a ≤ l.length)
    (hb : pos b ≤ l.length) :
    laid l pos ((us.map fun u => (a, u)) ++ vs.map fun v => (b, v)) =
      (l.take (pos a) ++ us ++ l.drop (pos a)).take (pos b) ++ vs ++
        (l.take (pos a) ++ us ++ l.drop (pos a)).drop (pos b) := by
  have e : ((us.map fun u => (a, u)).filter fun x => x.1 == b) = [] := by
    rw [List.filter_eq_nil_iff]
    intro x hx
    obtain ⟨u, -, rfl⟩ := List.mem_map.1 hx
    simp [hab]
  rw [laid_append, laid_one a us l pos ha, laid_one b vs]
  · simp only [e, List.length_nil, Nat.add_zero]
  · simp only [e, List.length_nil, Nat.add_zero]
    simp only [List.length_append, List.length_take, List.length_drop]
    omega

/-- **C135, order of writing.** Two iterators at the indices `i ≤ j` of a slice with room. Written through from the back
to the front, each puts its values where it was made to; from the front to the back, the second puts its values
`us.length` elements too far to the front. -/
theorem C135_two (w : Var T) (m : Held T) (pos : Nat → Nat) {a b : Nat} (hab : a ≠ b) (us vs : List T)
    (hv : Valid m.mem.heap m.mem.var) (hg : ∀ k, Good m k (pos k)) (hij : pos a ≤ pos b)
    (hroom : m.mem.var.len + us.length + vs.length ≤ m.mem.var.cap)
    (hb : ∀ n, n ≤ m.mem.var.len + us.length + vs.length → ((n + w.grow n : Nat) : Int) < 9223372036854775808) :
    (∃ m', writes w ((vs.map fun v => (b, v)) ++ us.map fun u => (a, u)) m = (.ok (), m') ∧
      contents m'.mem.heap m'.mem.var = (contents m.mem.heap m.mem.var).take (pos a) ++ us ++
        ((contents m.mem.heap m.mem.var).take (pos b)).drop (pos a) ++ vs ++
        (contents m.mem.heap m.mem.var).drop (pos b)) ∧
    (∃ m', writes w ((us.map fun u => (a, u)) ++ vs.map fun v => (b, v)) m = (.ok (), m') ∧
      ∀ L, L = (contents m.mem.heap m.mem.var).take (pos a) ++ us ++ (contents m.mem.heap m.mem.var).drop (pos a) →
        contents m'.mem.heap m'.mem.var = L.take (pos b) ++ vs ++ L.drop (pos b)) := by
  have hL := length_contents hv
  have la : pos a ≤ (contents m.mem.heap m.mem.var).length := by rw [hL]; exact (hg a).2.2
  have lb : pos b ≤ (contents m.mem.heap m.mem.var).length := by rw [hL]; exact (hg b).2.2
  have run : ∀ ws : List (Nat × T), ws.length = us.length + vs.length →
      ∃ m', writes w ws m = (.ok (), m') ∧
        contents m'.mem.heap m'.mem.var = laid (contents m.mem.heap m.mem.var) pos ws := by
    intro ws hl
    obtain ⟨h1, -, c, -, h3, h4⟩ := C135_writes w ws m pos hv hg fun n hn => hb n (by omega)
    have ok := h1.2 (by
      intro x hx
      rw [List.drop_of_length_le (by omega)] at hx
      simp at hx)
    refine ⟨(writes w ws m).2, Prod.ext ok rfl, ?_⟩
    rw [h4, h3 ok, List.take_length]
  constructor
  · obtain ⟨m', e, h⟩ := run ((vs.map fun v => (b, v)) ++ us.map fun u => (a, u)) (by simp; omega)
    refine ⟨m', e, ?_⟩
    rw [h, laid_two (fun h => hab h.symm) vs us _ _ lb la]
    generalize contents m.mem.heap m.mem.var = l at *
    have ht : (l.take (pos b)).length = pos b := by rw [List.length_take]; omega
    rw [List.append_assoc (l.take (pos b)), List.take_append_of_le_length (by omega), List.take_take,
      Nat.min_eq_left hij, List.drop_append_of_le_length (by omega)]
    simp
  · obtain ⟨m', e, h⟩ := run ((us.map fun u => (a, u)) ++ vs.map fun v => (b, v)) (by simp)
    refine ⟨m', e, ?_⟩
    rintro L rfl
    rw [h, laid_two hab us vs _ _ la lb]

/-- **C135, a slice without room.** After a write through one iterator, a write through any other panics and
changes nothing. -/
theorem C135_full (w : Var T) (m : Held T) (pos : Nat → Nat) {a b : Nat} (hab : a ≠ b) (u v : T)
    (hv : Valid m.mem.heap m.mem.var) (hg : ∀ k, Good m k (pos k)) (hfull : m.mem.var.len = m.mem.var.cap)
    (hb : ∀ n, n ≤ m.mem.var.len + 2 → ((n + w.grow n : Nat) : Int) < 9223372036854775808) :
    ∃ m' msg, write w a u m = (.ok (), m') ∧ write w b v m' = (.error msg, m') := by
  obtain ⟨mem', e, -, -, -, -, -, hout⟩ := write_good w m hv a (pos a) u (hg a) (hb _ (by omega))
  have hba : ¬ b = a := fun h => hab h.symm
  obtain ⟨msg, e'⟩ := write_stale w ⟨mem', fun j => if j = a then ⟨((pos a + 1 : Nat) : Int), mem'.var⟩ else m.its j⟩ b v
    (by
      show (if b = a then (⟨((pos a + 1 : Nat) : Int), mem'.var⟩ : SIter T) else m.its b).s.ptr ≠ mem'.var.ptr
      rw [if_neg hba, (hg b).1, hout hfull]
      intro hp
      have h3 := hv.2.2
      rw [hp] at h3
      obtain ⟨A, hA, -⟩ := h3
      exact absurd (List.getElem?_eq_some_iff.1 hA).1 (Nat.lt_irrefl _))
  exact ⟨_, msg, e, e'⟩

theorem fillLoop_eq (w : Var T) (k : Nat) (x : T) : ∀ (c : Nat) (m : Held T),
    fillLoop x c (⟨w, k⟩ : InsIter T) m =
      match writes w ((List.replicate c x).map fun v => (k, v)) m with
      | (.ok (), m') => (.ok ⟨w, k⟩, m')
      | (.error e, m') => (.error e, m')
  | 0, m => rfl
  | c + 1, m => by
    rw [List.replicate_succ, List.map_cons, writes]
    unfold fillLoop
    have hset : (set (⟨w, k⟩ : InsIter T) x : St (Held T) Unit) = write w k x := rfl
    rw [hset]
    rcases hw : write w k x m with ⟨_ | u, m1⟩
    · rw [St.bind_error hw, St.bind_error hw]
    · rw [St.bind_ok hw, St.bind_ok hw, St.bind_lift (g := next (⟨w, k⟩ : InsIter T)) rfl]
      exact fillLoop_eq w k x c m1

/-- **C135, `FillN`** through an insert iterator: `count` copies at its position, whatever reallocations happen; it
returns the iterator it was given. `Next` and `Get` have no effect; `Equal` takes iterators at different positions for
equal. -/
theorem C135_fill (w : Var T) (m : Held T) (pos : Nat → Nat) (k : Nat) (count : Int) (x : T)
    (hv : Valid m.mem.heap m.mem.var) (hg : ∀ k, Good m k (pos k))
    (hb : ∀ n, n ≤ m.mem.var.len + count.toNat → ((n + w.grow n : Nat) : Int) < 9223372036854775808) :
    (∃ m', fillN (⟨w, k⟩ : InsIter T) count x m = (.ok ⟨w, k⟩, m') ∧
      contents m'.mem.heap m'.mem.var = (contents m.mem.heap m.mem.var).take (pos k) ++
        List.replicate count.toNat x ++ (contents m.mem.heap m.mem.var).drop (pos k)) ∧
    next (⟨w, k⟩ : InsIter T) = .ok ⟨w, k⟩ ∧ get (⟨w, k⟩ : InsIter T) m = (.ok default, m) ∧
    ∀ j, equal (⟨w, k⟩ : InsIter T) ⟨w, j⟩ = .ok true := by
  refine ⟨?_, rfl, rfl, fun _ => rfl⟩
  obtain ⟨h1, -, c, -, h3, h4⟩ := C135_writes w ((List.replicate count.toNat x).map fun v => (k, v)) m pos hv hg
    fun n hn => hb n (by simpa using hn)
  have ok := h1.2 (by
    intro y hy z hz
    obtain ⟨_, -, rfl⟩ := List.mem_map.1 (List.mem_of_mem_drop hy)
    obtain ⟨_, -, rfl⟩ := List.mem_map.1 (List.mem_of_mem_drop hz)
    rfl)
  refine ⟨(writes w ((List.replicate count.toNat x).map fun v => (k, v)) m).2, ?_, ?_⟩
  · unfold fillN
    rw [fillLoop_eq]
    rcases hw : writes w ((List.replicate count.toNat x).map fun v => (k, v)) m with ⟨_ | u, m1⟩
    · rw [hw] at ok; cases ok
    · rfl
  · rw [h4, h3 ok, List.take_length, laid_one k _ _ _ (by rw [length_contents hv]; exact (hg k).2.2)]

/-- The methods of an iterator beside a variable are those of the iterator (C14, C15), and leave the variable alone. -/
theorem C135_beside (a b : SIter T) (v : T) (m : Mem T) :
    equal (⟨a⟩ : VIter T) ⟨b⟩ = equal a b ∧
    next (⟨a⟩ : VIter T) = (next a).map VIter.mk ∧
    (get (⟨a⟩ : VIter T) m = ((get a m.heap).1, ⟨(get a m.heap).2, m.var⟩)) ∧
    (set (⟨a⟩ : VIter T) v m = ((set a v m.heap).1, ⟨(set a v m.heap).2, m.var⟩)) := by
  refine ⟨rfl, ?_, rfl, rfl⟩
  show (match SIter.inc a with | .ok i => _ | .error e => _) = Except.map _ (SIter.inc a)
  cases SIter.inc a <;> rfl

/-! ## Non-vacuity -/

/-- A slice with room for two more, and insert iterators at 1 and 3. -/
def exHeld : Held Nat := ⟨⟨exHeap, exSlice⟩, fun k => ⟨if k = 0 then 1 else 3, exSlice⟩⟩
theorem exHeld_good : ∀ k, Good exHeld k (if k = 0 then 1 else 3) := by
  intro k
  by_cases h : k = 0
  · subst h; exact ⟨rfl, rfl, by decide⟩
  · refine ⟨rfl, ?_, ?_⟩ <;> simp [exHeld, h, exSlice]

example : (match writes exVar [(1, 71), (0, 72)] exHeld with | (_, m) => contents m.mem.heap m.mem.var) =
    [11, 72, 12, 13, 71] := by decide +kernel
example : (match writes exVar [(0, 72), (1, 71)] exHeld with | (_, m) => contents m.mem.heap m.mem.var) =
    [11, 72, 12, 71, 13] := by decide +kernel
/-- The third write no longer fits, the fourth goes through another iterator. -/
example : (writes exVar [(1, 71), (0, 72), (0, 73), (1, 74)] exHeld).1 ≠ .ok () := by decide +kernel
example : (writes exVar [(1, 71), (0, 72), (0, 73), (0, 74)] exHeld).1 = .ok () := by decide +kernel
example : (writes exVar [(1, 71), (0, 72), (0, 73), (0, 74)] exHeld).1 = .ok () ↔
    ∀ x ∈ [(0, 73), (0, 74)], ∀ y ∈ [(0, 73), (0, (74 : Nat))], x.1 = y.1 :=
  (C135_writes exVar [(1, 71), (0, 72), (0, 73), (0, 74)] exHeld (fun k => if k = 0 then 1 else 3) exSlice_valid
    exHeld_good (by intro n hn; simp [exVar, exHeld, exSlice] at *; omega)).1

end Verif.Slice.Inserters
