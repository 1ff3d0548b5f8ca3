import Verif.Stream.Reenter
import Verif.Stream.Spec

/-!
# C124: streams used by their own callbacks

* Every call returns or panics (`C124_returns`).
* The calls should not panic. They do when the end has been found by a read nested in a callback and the element at hand
  then meets a counter or is refused: `C124_lookahead_panics`, `C124_filter_panics`. A panic happens only after the end
  has been found (`C124_panic_ended`), and not at all with only `Map` and `Peek` (`C124_no_panic_partial`).
* As long as `s.ops` stays in the array it is in, exactly the first `n` arrivals at a `Skip(n)` or `Limit(n)` are
  counted, whichever read they belong to (`C124_counts_partial`); this is so if the callbacks only read
  (`C124_counts_reads`).
  It is not so when a callback adds an operation for which there is no room (`C124_limit_exceeded`).
-/

namespace Verif.Stream.Reenter

variable {σ T α β : Type}

/-! ## What every run keeps -/

/-- The length of `s.ops`. -/
def Mem.cur (m : Mem σ T) : Nat := ((m.ops).map m.size).getD 0

/-- `s.ops` points into an array, and is not nil before the end. -/
structure Safe (m : Mem σ T) : Prop where
  array : ∀ a, m.ops = some a → a < m.arrays.length
  live : m.src ≠ none → m.ops ≠ none

/-- What can have happened between two moments. -/
structure Le (m m' : Mem σ T) : Prop where
  size : ∀ a, m.size a ≤ m'.size a
  cur : m'.src ≠ none → m.src ≠ none ∧ m.cur ≤ m'.cur
  left : m'.left ≤ m.left

theorem Le.refl (m : Mem σ T) : Le m m := ⟨fun _ => Nat.le_refl _, fun h => ⟨h, Nat.le_refl _⟩, Nat.le_refl _⟩

theorem Le.trans {a b c : Mem σ T} (h : Le a b) (h' : Le b c) : Le a c :=
  ⟨fun x => Nat.le_trans (h.size x) (h'.size x),
   fun hc => ⟨(h.cur (h'.cur hc).1).1, Nat.le_trans (h.cur (h'.cur hc).1).2 (h'.cur hc).2⟩,
   Nat.le_trans h'.left h.left⟩

/-- What holds when a call has returned, and when it has panicked; it must have done one of them. -/
def Res.Post (r : Res σ T α) (Q P : Mem σ T → Prop) : Prop :=
  match r with
  | .ok _ m => Q m
  | .panic _ m => P m
  | .out => False

theorem Res.Post.bind {r : Res σ T α} {f : α → Mem σ T → Res σ T β} {Q Q' P : Mem σ T → Prop} (h : r.Post Q P)
    (h' : ∀ x m, Q m → (f x m).Post Q' P) : (r.bind f).Post Q' P := by
  cases r with
  | ok x m => exact h' x m h
  | panic e m => exact h
  | out => exact h

theorem Res.Post.mono {r : Res σ T α} {Q Q' P : Mem σ T → Prop} (h : r.Post Q P) (h' : ∀ m, Q m → Q' m) :
    r.Post Q' P := by
  cases r with
  | ok x m => exact h' m h
  | panic e m => exact h
  | out => exact h

/-- A counter. -/
def Op.Counter (op : Op σ T) (n : Nat) : Prop := op = .skip n ∨ op = .limit n

theorem Op.Counter.inj {op : Op σ T} {a b : Nat} (h : op.Counter a) (h' : op.Counter b) : a = b := by
  rcases h with rfl | rfl
  · rcases h' with e | e
    · injection e
    · cases e
  · rcases h' with e | e
    · cases e
    · injection e

/-- A class `G` of operations in cells, `A` of those that may be added, `H` of callbacks, `N` of skips, a property `I` of the memory that they keep, and a property `P` that then holds
when there is a panic. -/
structure Keeps (grow : Nat → Nat) (G A : Op σ T → Prop) (H : (k : Kind) → Act σ T k → Prop) (N : Nat → Prop)
    (I P : Mem σ T → Prop) : Prop where
  -- the class
  hget : ∀ k f s, H k (.get f) → H k (f s)
  hput : ∀ k s a, H k (.put s a) → H k a
  hnext : ∀ k f r, H k (.next f) → H k (f r)
  hadd : ∀ k op a, H k (.add op a) → A op ∧ H k a
  hskip : ∀ k n a, H k (.skip n a) → N n ∧ H k a
  gpred : ∀ f v, G (.pred f) → H .pred (f v)
  gmap : ∀ f v, G (.map f) → H .map (f v)
  gpeek : ∀ f v, G (.peek f) → H .peek (f v)
  cells : ∀ m a i op, I m → m.cell a i = some op → G op
  -- the memory
  put : ∀ m s, I m → I { m with vars := s }
  clear : ∀ m, I m → I m.clear
  add : ∀ m op, I m → A op → I (m.add grow op)
  skip : ∀ m n, I m → N n → (m.skip grow n).Post I P
  src : ∀ m v l, I m → m.src = some (v :: l) → I { m with src := some l }
  spent : ∀ m a i op, I m → m.cell a i = some op → op.Counter 0 → I (m.arrive i false)
  skipped : ∀ m a i n, I m → m.cell a i = some (.skip (n + 1)) →
    ((m.arrive i true).write i (.skip n)).Post I fun m => m.src = none → P m
  limited : ∀ m a i n, I m → m.cell a i = some (.limit (n + 1)) →
    ((m.arrive i true).write i (.limit n)).Post I fun m => m.src = none → P m
  -- the next element is asked for although the end has been found
  again : ∀ m op, I m → G op → ((∃ f, op = .pred f) ∨ ∃ n, op = .skip (n + 1)) → m.src = none → P m

theorem size_modify (m : Mem σ T) (a : Nat) (f : Arr σ T → Arr σ T) (b : Nat)
    (hf : ∀ x, (f x).cells.length = x.cells.length) :
    ({ m with arrays := m.arrays.modify a f } : Mem σ T).size b = m.size b := by
  unfold Mem.size
  simp only [List.getElem?_modify]
  by_cases c : a = b
  · subst c
    cases m.arrays[a]? <;> simp [hf]
  · cases m.arrays[b]? <;> simp [c]

theorem le_write {m m' : Mem σ T} {i : Nat} {op : Op σ T} (hs : Safe m) (h : m.write i op = .ok () m') :
    Le m m' ∧ Safe m' := by
  unfold Mem.write at h
  split at h
  · cases h
  rename_i a ha
  split at h
  · cases h
    have hz : ∀ b, ({ m with arrays := m.arrays.modify a fun x => { x with cells := x.cells.set i op } } : Mem σ T).size b =
        m.size b := fun b => size_modify m a _ b fun x => by simp
    refine ⟨⟨fun b => Nat.le_of_eq (hz b).symm, fun h => ⟨h, ?_⟩, Nat.le_refl _⟩, ⟨fun b hb => ?_, hs.live⟩⟩
    · unfold Mem.cur
      simp only [ha, Option.map_some, Option.getD_some]
      exact Nat.le_of_eq (hz a).symm
    · simpa using hs.array b hb
  · cases h

theorem write_panics {m m' : Mem σ T} {i : Nat} {op : Op σ T} {e : String} (hi : m.src ≠ none → i < m.cur)
    (hs : Safe m) (h : m.write i op = .panic e m') : m' = m ∧ m.src = none := by
  by_cases c : m.src = none
  · unfold Mem.write at h
    split at h
    · cases h; exact ⟨rfl, c⟩
    · split at h
      · cases h
      · cases h; exact ⟨rfl, c⟩
  · exfalso
    have h1 := hi c
    have h2 := hs.live c
    unfold Mem.write at h
    unfold Mem.cur at h1
    split at h
    · rename_i e'; exact h2 e'
    · rename_i a ha
      rw [ha] at h1
      simp only [Option.map_some, Option.getD_some] at h1
      rw [if_pos h1] at h
      cases h

theorem size_append (m : Mem σ T) (x : Arr σ T) (b : Nat) :
    m.size b ≤ ({ m with arrays := m.arrays ++ [x] } : Mem σ T).size b := by
  unfold Mem.size
  simp only
  by_cases c : b < m.arrays.length
  · rw [List.getElem?_append_left c]; exact Nat.le_refl _
  · rw [List.getElem?_eq_none (by omega)]; simp

theorem le_append (grow : Nat → Nat) {m : Mem σ T} (hs : Safe m) (op : Op σ T) :
    Le m (m.append grow op) ∧ Safe (m.append grow op) := by
  unfold Mem.append
  split
  · rename_i ho
    have hn : m.src = none := by
      cases e : m.src with
      | none => rfl
      | some l => exact absurd ho (hs.live (by rw [e]; nofun))
    refine ⟨⟨fun b => size_append m _ b, fun h => absurd hn h, Nat.le_refl _⟩, ⟨fun a ha => ?_, fun h => absurd hn h⟩⟩
    simp only [Option.some.injEq] at ha
    subst ha
    simp
  · rename_i a ha
    split
    · exact ⟨Le.refl m, hs⟩
    rename_i x hx
    split
    · have hz : ∀ b, m.size b ≤
          ({ m with arrays := m.arrays.modify a fun x => { x with cells := x.cells ++ [op] } } : Mem σ T).size b := by
        intro b
        unfold Mem.size
        simp only [List.getElem?_modify]
        by_cases c : a = b
        · subst c; simp [hx]
        · cases m.arrays[b]? <;> simp [c]
      refine ⟨⟨hz, fun h => ⟨h, ?_⟩, Nat.le_refl _⟩, ⟨fun b hb => by simpa using hs.array b hb, hs.live⟩⟩
      unfold Mem.cur
      simp only [ha, Option.map_some, Option.getD_some]
      exact hz a
    · refine ⟨⟨fun b => size_append m _ b, fun h => ⟨h, ?_⟩, Nat.le_refl _⟩, ⟨fun b hb => ?_, fun _ => nofun⟩⟩
      · unfold Mem.cur Mem.size
        simp [ha, hx]
      · simp only [Option.some.injEq] at hb
        subst hb
        simp

theorem le_flag {m : Mem σ T} (hs : Safe m) (b : Bool) :
    Le m { m with hasPred := b } ∧ Safe ({ m with hasPred := b } : Mem σ T) :=
  ⟨⟨fun _ => Nat.le_refl _, fun h => ⟨h, Nat.le_refl _⟩, Nat.le_refl _⟩, ⟨hs.array, hs.live⟩⟩

theorem le_add (grow : Nat → Nat) {m : Mem σ T} (hs : Safe m) (op : Op σ T) :
    Le m (m.add grow op) ∧ Safe (m.add grow op) := by
  obtain ⟨h1, h2⟩ := le_flag hs (m.hasPred || op.isPred)
  obtain ⟨h3, h4⟩ := le_append grow h2 op
  exact ⟨h1.trans h3, h4⟩

theorem le_clear (m : Mem σ T) : Le m m.clear ∧ Safe m.clear :=
  ⟨⟨fun _ => Nat.le_refl _, fun h => absurd rfl h, by simp [Mem.left, Mem.clear]⟩,
   ⟨fun a h => by simp [Mem.clear] at h, fun h => absurd rfl h⟩⟩

theorem le_arrive {m : Mem σ T} (hs : Safe m) (i : Nat) (b : Bool) : Le m (m.arrive i b) ∧ Safe (m.arrive i b) :=
  ⟨⟨fun _ => Nat.le_refl _, fun h => ⟨h, Nat.le_refl _⟩, Nat.le_refl _⟩, ⟨hs.array, hs.live⟩⟩

theorem le_put {m : Mem σ T} (hs : Safe m) (s : σ) :
    Le m { m with vars := s } ∧ Safe ({ m with vars := s } : Mem σ T) :=
  ⟨⟨fun _ => Nat.le_refl _, fun h => ⟨h, Nat.le_refl _⟩, Nat.le_refl _⟩, ⟨hs.array, hs.live⟩⟩

theorem le_src {m : Mem σ T} (hs : Safe m) {l l' : List T} (h : m.src = some l) (hl : l'.length ≤ l.length) :
    Le m { m with src := some l' } ∧ Safe ({ m with src := some l' } : Mem σ T) :=
  ⟨⟨fun _ => Nat.le_refl _, fun _ => ⟨by rw [h]; nofun, Nat.le_refl _⟩, by simpa [Mem.left, h] using hl⟩,
   ⟨hs.array, fun _ => hs.live (by rw [h]; nofun)⟩⟩

theorem le_skip (grow : Nat → Nat) {m m' : Mem σ T} (hs : Safe m) {n : Nat} (h : m.skip grow n = .ok () m') :
    Le m m' ∧ Safe m' := by
  unfold Mem.skip at h
  split at h
  · cases h; exact ⟨Le.refl m, hs⟩
  split at h
  · split at h
    · cases h
    · rename_i l hl
      cases h
      exact le_src hs hl (by simp)
  · cases h
    exact le_append grow hs _

/-! ## The general theorem -/

section
variable {grow : Nat → Nat} {G A : Op σ T → Prop} {H : (k : Kind) → Act σ T k → Prop} {N : Nat → Prop}
  {I P : Mem σ T → Prop}

/-- What a call from `m` may leave behind. -/
structure After (I : Mem σ T → Prop) (m m' : Mem σ T) : Prop where
  inv : I m'
  safe : Safe m'
  le : Le m m'

theorem After.from {m m' m'' : Mem σ T} (h : Le m m') (h' : After I m' m'') : After I m m'' :=
  ⟨h'.inv, h'.safe, h.trans h'.le⟩

theorem run_post (hk : Keeps grow G A H N I P) (B : Nat) {nx : Mem σ T → Res σ T (Option T)}
    (hnx : ∀ m, I m → Safe m → m.left ≤ B → (nx m).Post (After I m) P) :
    ∀ {k : Kind} (a : Act σ T k), H k a → ∀ m, I m → Safe m → m.left ≤ B → (run grow nx a m).Post (After I m) P
  | _, .ret r, _, m, hi, hs, _ => ⟨hi, hs, Le.refl m⟩
  | _, .get f, ha, m, hi, hs, hl => run_post hk B hnx (f m.vars) (hk.hget _ _ _ ha) m hi hs hl
  | _, .put s a, ha, m, hi, hs, hl => by
    obtain ⟨h1, h2⟩ := le_put hs s
    exact (run_post hk B hnx a (hk.hput _ _ _ ha) _ (hk.put m s hi) h2 (Nat.le_trans h1.left hl)).mono
      fun _ h => h.from h1
  | _, .next f, ha, m, hi, hs, hl => by
    have h := hnx m hi hs hl
    simp only [run]
    cases e : nx m with
    | ok r m' =>
      rw [e] at h
      exact (run_post hk B hnx (f r) (hk.hnext _ _ _ ha) m' h.inv h.safe (Nat.le_trans h.le.left hl)).mono
        fun _ h' => h'.from h.le
    | panic e' m' => rw [e] at h; exact h
    | out => rw [e] at h; exact h
  | _, .add op a, ha, m, hi, hs, hl => by
    obtain ⟨h1, h2⟩ := le_add grow hs op
    obtain ⟨h3, h4⟩ := hk.hadd _ _ _ ha
    exact (run_post hk B hnx a h4 _ (hk.add m op hi h3) h2 (Nat.le_trans h1.left hl)).mono fun _ h => h.from h1
  | _, .skip n a, ha, m, hi, hs, hl => by
    obtain ⟨h3, h4⟩ := hk.hskip _ _ _ ha
    have h := hk.skip m n hi h3
    simp only [run]
    cases e : m.skip grow n with
    | ok r m' =>
      rw [e] at h
      obtain ⟨h1, h2⟩ := le_skip grow hs e
      exact (run_post hk B hnx a h4 m' h h2 (Nat.le_trans h1.left hl)).mono fun _ h' => h'.from h1
    | panic e' m' => rw [e] at h; exact h
    | out => rw [e] at h; exact h

theorem nextOf_post (hk : Keeps grow G A H N I P) (B : Nat) {lp : Mem σ T → Res σ T (Option T)}
    (hlp : ∀ m, I m → Safe m → m.left ≤ B → (m.src = none → P m) → (lp m).Post (After I m) P) (m : Mem σ T) (hi : I m) (hs : Safe m)
    (hl : m.left ≤ B) : (nextOf lp m).Post (After I m) P := by
  unfold nextOf
  split
  · obtain ⟨h1, h2⟩ := le_clear m
    exact ⟨hk.clear m hi, h2, h1⟩
  · rename_i e; exact hlp m hi hs hl (by rw [e]; nofun)

/-- A write into a counter. -/
theorem write_post {m : Mem σ T} {i : Nat} {op : Op σ T} (hs : Safe m) (hi : m.src ≠ none → i < m.cur)
    (h : ((m.arrive i true).write i op).Post I fun m => m.src = none → P m) :
    ((m.arrive i true).write i op).Post (After I m) P := by
  obtain ⟨h1, h2⟩ := le_arrive hs i true
  cases e : (m.arrive i true).write i op with
  | ok u m' =>
    rw [e] at h
    obtain ⟨h3, h4⟩ := le_write h2 e
    exact ⟨h, h4, h1.trans h3⟩
  | panic e' m' =>
    rw [e] at h
    obtain ⟨h3, h4⟩ := write_panics (m := m.arrive i true) hi h2 e
    subst h3
    exact h h4
  | out => rw [e] at h; exact h

theorem walk_post (hk : Keeps grow G A H N I P) (B : Nat) {lp : Mem σ T → Res σ T (Option T)}
    (hlp : ∀ m, I m → Safe m → m.left ≤ B → (m.src = none → P m) → (lp m).Post (After I m) P) (a : Nat) :
    ∀ (k i : Nat) (v : T) (m : Mem σ T), I m → Safe m → m.left ≤ B → i + k ≤ m.size a →
      (m.src ≠ none → i + k ≤ m.cur) → (walk grow lp a k i v m).Post (After I m) P := by
  have hnx := fun m hi hs hl => nextOf_post hk B hlp m hi hs hl
  intro k
  induction k with
  | zero => intro i v m hi hs _ _ _; exact ⟨hi, hs, Le.refl m⟩
  | succ k ih =>
    intro i v m hi hs hl hsz hcur
    have onward : ∀ (w : T) (m' : Mem σ T), After I m m' → (walk grow lp a k (i + 1) w m').Post (After I m) P := by
      intro w m' h
      refine (ih (i + 1) w m' h.inv h.safe (Nat.le_trans h.le.left hl) ?_ ?_).mono fun _ h' => h'.from h.le
      · have := h.le.size a; omega
      · intro c
        obtain ⟨c1, c2⟩ := h.le.cur c
        have := hcur c1
        omega
    have again : ∀ (m' : Mem σ T), After I m m' → (m'.src = none → P m') → (lp m').Post (After I m) P := fun m' h hp =>
      (hlp m' h.inv h.safe (Nat.le_trans h.le.left hl) hp).mono fun _ h' => h'.from h.le
    simp only [walk]
    cases ec : m.cell a i with
    | none =>
      exfalso
      unfold Mem.cell at ec
      unfold Mem.size at hsz
      cases ea : m.arrays[a]? with
      | none => rw [ea] at hsz; simp at hsz
      | some x =>
        rw [ea] at hsz ec
        simp at hsz ec
        omega
    | some op =>
      have hg := hk.cells m a i op hi ec
      cases op with
      | pred f =>
        simp only
        refine Res.Post.bind (run_post hk B hnx (f v) (hk.gpred f v hg) m hi hs hl) ?_
        intro b m' h
        split
        · exact again m' h (hk.again m' _ h.inv hg (.inl ⟨f, rfl⟩))
        · exact onward v m' h
      | map f =>
        simp only
        refine Res.Post.bind (run_post hk B hnx (f v) (hk.gmap f v hg) m hi hs hl) ?_
        intro b m' h
        exact onward b m' h
      | peek f =>
        simp only
        refine Res.Post.bind (run_post hk B hnx (f v) (hk.gpeek f v hg) m hi hs hl) ?_
        intro b m' h
        exact onward v m' h
      | skip n =>
        simp only
        cases n with
        | zero =>
          rw [if_neg (by omega)]
          obtain ⟨h1, h2⟩ := le_arrive hs i false
          exact onward v _ ⟨hk.spent m a i _ hi ec (.inl rfl), h2, h1⟩
        | succ n =>
          rw [if_pos (by omega)]
          refine Res.Post.bind (write_post hs (fun c => ?_) (hk.skipped m a i n hi ec)) ?_
          · have := hcur c; omega
          · intro _ m' h; exact again m' h (hk.again m' _ h.inv hg (.inr ⟨n, rfl⟩))
      | limit n =>
        simp only
        cases n with
        | zero =>
          rw [if_neg (by omega)]
          obtain ⟨h1, h2⟩ := le_arrive hs i false
          obtain ⟨h3, h4⟩ := le_clear (m.arrive i false)
          exact ⟨hk.clear _ (hk.spent m a i _ hi ec (.inr rfl)), h4, h1.trans h3⟩
        | succ n =>
          rw [if_pos (by omega)]
          refine Res.Post.bind (write_post hs (fun c => ?_) (hk.limited m a i n hi ec)) ?_
          · have := hcur c; omega
          · intro _ m' h; exact onward v m' h

theorem loop_post (hk : Keeps grow G A H N I P) : ∀ (fuel : Nat) (m : Mem σ T), I m → Safe m → m.left < fuel →
    (m.src = none → P m) → (loop grow fuel m).Post (After I m) P := by
  intro fuel
  induction fuel with
  | zero => intro m _ _ h _; omega
  | succ fuel ih =>
    intro m hi hs hl hp
    simp only [loop]
    split
    · rename_i hn; exact hp hn
    · obtain ⟨h1, h2⟩ := le_clear m
      exact ⟨hk.clear m hi, h2, h1⟩
    · rename_i v rest hv
      obtain ⟨h1, h2⟩ := le_src (l' := rest) hs hv (by simp)
      split
      · rename_i ho; exact absurd ho (hs.live (by rw [hv]; nofun))
      · rename_i a ha
        have hl' : ({ m with src := some rest } : Mem σ T).left < fuel := by
          simp only [Mem.left, hv, Option.map_some, Option.getD_some, List.length_cons] at hl ⊢
          omega
        refine (walk_post hk ({ m with src := some rest } : Mem σ T).left
          (fun m' hi' hs' hl'' hp' => ih m' hi' hs' (by omega) hp') a _ 0 v _ (hk.src m v rest hi hv) h2 (Nat.le_refl _) ?_ ?_).mono
          fun _ h => h.from h1
        · show 0 + m.size a ≤ m.size a
          omega
        · intro _
          show 0 + m.size a ≤ Mem.cur _
          simp [Mem.cur, ha, Mem.size]

theorem next_post (hk : Keeps grow G A H N I P) (m : Mem σ T) (hi : I m) (hs : Safe m) :
    (next grow m).Post (After I m) P :=
  nextOf_post hk m.left (fun m' hi' hs' hl' hp' => loop_post hk _ m' hi' hs' (by omega) hp') m hi hs (Nat.le_refl _)

theorem prog_post (hk : Keeps grow G A H N I P) (p : Act σ T .peek) (hp : H _ p) (m : Mem σ T) (hi : I m) (hs : Safe m) :
    (prog grow p m).Post (After I m) P :=
  run_post hk m.left (fun m' hi' hs' _ => next_post hk m' hi' hs') p hp m hi hs (Nat.le_refl _)
end

theorem safe_start (l : List T) (ops : List (Op σ T)) (cap : Nat) (s : σ) : Safe (start l ops cap s) :=
  ⟨fun a h => by simp [start] at h ⊢; omega, fun _ => nofun⟩

/-! ## Calls return, and panic only after the end -/

/-- Nothing is asked of the operations and callbacks. -/
theorem keeps_ended (grow : Nat → Nat) : Keeps (σ := σ) (T := T) grow (fun _ => True) (fun _ => True) (fun _ _ => True)
    (fun _ => True) (fun _ => True) (fun m => m.src = none) where
  hget _ _ _ _ := trivial
  hput _ _ _ _ := trivial
  hnext _ _ _ _ := trivial
  hadd _ _ _ _ := ⟨trivial, trivial⟩
  hskip _ _ _ _ := ⟨trivial, trivial⟩
  gpred _ _ _ := trivial
  gmap _ _ _ := trivial
  gpeek _ _ _ := trivial
  cells _ _ _ _ _ _ := trivial
  put _ _ _ := trivial
  clear _ _ := trivial
  add _ _ _ _ := trivial
  skip m n _ _ := by
    unfold Mem.skip
    split
    · trivial
    split
    · split
      · rename_i h; exact h
      · trivial
    · trivial
  src _ _ _ _ _ := trivial
  spent _ _ _ _ _ _ _ := trivial
  skipped m a i n _ _ := by
    unfold Mem.write
    split
    · exact id
    · split
      · trivial
      · exact id
  limited m a i n _ _ := by
    unfold Mem.write
    split
    · exact id
    · split
      · trivial
      · exact id
  again _ _ _ _ _ h := h

/-- **C124**: whatever the callbacks of a stream do with it, a program that uses the stream comes to an end. -/
theorem C124_returns (grow : Nat → Nat) (l : List T) (ops : List (Op σ T)) (cap : Nat) (s : σ) (p : Act σ T .peek) :
    prog grow p (start l ops cap s) ≠ .out := by
  have h := prog_post (keeps_ended grow) p trivial (start l ops cap s) trivial (safe_start ..)
  intro e
  rw [e] at h
  exact h

/-- **C124**: if it ends with a panic, then the stream has ended. -/
theorem C124_panic_ended (grow : Nat → Nat) (l : List T) (ops : List (Op σ T)) (cap : Nat) (s : σ) (p : Act σ T .peek)
    (e : String) (m : Mem σ T) (h : prog grow p (start l ops cap s) = .panic e m) : m.src = none := by
  have h' := prog_post (keeps_ended grow) p trivial (start l ops cap s) trivial (safe_start ..)
  rw [h] at h'
  exact h'

/-! ## Counters -/

/-- The arrivals at the counter in cell `i`, in the order of time: was it positive? -/
def arrivals (m : Mem σ T) (i : Nat) : List Bool := (m.taken.filter fun x => x.1 = i).map (·.2)

/-- Exactly the first `c` are counted. -/
def FirstOnly (c : Nat) (l : List Bool) : Prop := ∀ (j : Nat) (b : Bool), l[j]? = some b → (b = true ↔ j < c)

theorem firstOnly_snoc {c : Nat} {l : List Bool} (h : FirstOnly c l) {b : Bool} (hb : b = true ↔ l.length < c) :
    FirstOnly c (l ++ [b]) := by
  intro j b' hj
  by_cases hl : j < l.length
  · rw [List.getElem?_append_left hl] at hj; exact h j b' hj
  · rw [List.getElem?_append_right (by omega)] at hj
    have : j - l.length = 0 := by
      cases e : j - l.length with
      | zero => rfl
      | succ n => rw [e] at hj; cases hj
    rw [this] at hj
    simp at hj
    subst hj
    rw [hb]
    omega

theorem arrivals_arrive (m : Mem σ T) (i j : Nat) (b : Bool) :
    arrivals (m.arrive j b) i = if j = i then arrivals m i ++ [b] else arrivals m i := by
  unfold arrivals Mem.arrive
  split <;> simp [*]

/-- The counter in cell `i` of the only array, that has started with `c`. -/
structure Counted (i c : Nat) (m : Mem σ T) : Prop where
  cell : ∃ op, m.cell 0 i = some op ∧ op.Counter (c - (arrivals m i).length)
  first : FirstOnly c (arrivals m i)

/-- The invariant: as long as there is one array. -/
structure CountInv (i c : Nat) (m : Mem σ T) : Prop where
  array : ∀ a, m.ops = some a → a < m.arrays.length
  one : 1 ≤ m.arrays.length
  counted : m.arrays.length = 1 → Counted i c m

theorem CountInv.of_eq {i c : Nat} {m m' : Mem σ T} (h : CountInv i c m) (ha : m'.arrays = m.arrays)
    (ho : ∀ a, m'.ops = some a → m.ops = some a) (ht : m'.taken = m.taken) : CountInv i c m' where
  array a e := by rw [ha]; exact h.array a (ho a e)
  one := by rw [ha]; exact h.one
  counted e := by
    rw [ha] at e
    obtain ⟨⟨op, h1, h2⟩, h3⟩ := h.counted e
    have : arrivals m' i = arrivals m i := by unfold arrivals; rw [ht]
    exact ⟨⟨op, by unfold Mem.cell at *; rw [ha]; exact h1, by rw [this]; exact h2⟩, by rw [this]; exact h3⟩

theorem CountInv.append (grow : Nat → Nat) {i c : Nat} {m : Mem σ T} (h : CountInv i c m) (op : Op σ T) :
    CountInv i c (m.append grow op) := by
  unfold Mem.append
  split
  · refine ⟨fun a e => ?_, by simp, fun e => ?_⟩
    · simp only [Option.some.injEq] at e
      subst e
      simp
    · have := h.one
      simp at e
      simp [e] at this
  · rename_i a ha
    split
    · exact h
    rename_i x hx
    split
    · refine ⟨fun b e => by simpa using h.array b e, by simpa using h.one, fun e => ?_⟩
      simp only [List.length_modify] at e
      obtain ⟨⟨op', h1, h2⟩, h3⟩ := h.counted e
      refine ⟨⟨op', ?_, h2⟩, h3⟩
      have ha0 : a = 0 := by have := h.array a ha; omega
      subst ha0
      unfold Mem.cell at *
      rw [hx] at h1
      simp only [List.getElem?_modify, hx]
      simp only [Option.bind_some] at h1
      simp only [if_true, Option.map_eq_map, Option.map_some, Option.bind_some]
      rw [List.getElem?_append_left (List.getElem?_eq_some_iff.1 h1).1]
      exact h1
    · refine ⟨fun b e => ?_, by simp, fun e => ?_⟩
      · simp only [Option.some.injEq] at e
        subst e
        simp
      · have := h.one
        simp at e
        simp [e] at this

theorem CountInv.write {i c : Nat} {m : Mem σ T} (h : CountInv i c m) {a j n : Nat} {op op' : Op σ T}
    (hc : m.cell a j = some op) (ho : op.Counter (n + 1)) (ho' : op'.Counter n) :
    ((m.arrive j true).write j op').Post (CountInv i c)
      fun m' => m'.src = none → m'.arrays.length = 1 → FirstOnly c (arrivals m' i) := by
  have first : m.arrays.length = 1 → FirstOnly c (arrivals (m.arrive j true) i) ∧
      (j = i → (arrivals m i).length < c ∧ n = c - ((arrivals m i).length + 1)) := by
    intro e
    obtain ⟨⟨op1, h1, h2⟩, h3⟩ := h.counted e
    have ha0 : a = 0 := by
      unfold Mem.cell at hc
      cases ea : m.arrays[a]? with
      | none => rw [ea] at hc; cases hc
      | some x => have := (List.getElem?_eq_some_iff.1 ea).1; omega
    subst ha0
    rw [arrivals_arrive]
    by_cases ej : j = i
    · subst ej
      rw [h1] at hc
      injection hc with hc
      subst hc
      have : n + 1 = c - (arrivals m j).length := by
        exact ho.inj h2
      refine ⟨?_, fun _ => by omega⟩
      rw [if_pos rfl]
      exact firstOnly_snoc h3 (by simp; omega)
    · rw [if_neg ej]
      exact ⟨h3, fun h => absurd h ej⟩
  unfold Mem.write
  split
  · exact fun _ e => (first e).1
  · rename_i b hb
    split
    · refine ⟨fun a e => by rw [List.length_modify]; exact h.array a e, by rw [List.length_modify]; exact h.one, fun e => ?_⟩
      simp only [List.length_modify] at e
      obtain ⟨f1, f2⟩ := first e
      refine ⟨?_, f1⟩
      obtain ⟨⟨op1, h1, h2⟩, -⟩ := h.counted e
      have hb0 : b = 0 := by have := h.array b hb; change _ = 1 at e; simp only [Mem.arrive] at e; omega
      subst hb0
      obtain ⟨x, hx⟩ : ∃ x, m.arrays[0]? = some x := ⟨m.arrays[0]'(by have := h.one; omega), List.getElem?_eq_getElem _⟩
      unfold Mem.cell at h1
      rw [hx] at h1
      simp only [Option.bind_some] at h1
      have hcell : ({ m.arrive j true with arrays := (m.arrive j true).arrays.modify 0 fun x =>
          { x with cells := x.cells.set j op' } } : Mem σ T).cell 0 i = (x.cells.set j op')[i]? := by
        unfold Mem.cell
        simp [Mem.arrive, hx]
      have harr : arrivals ({ m.arrive j true with arrays := (m.arrive j true).arrays.modify 0 fun x =>
          { x with cells := x.cells.set j op' } } : Mem σ T) i = arrivals (m.arrive j true) i := rfl
      rw [hcell, harr, arrivals_arrive]
      by_cases ej : j = i
      · subst ej
        obtain ⟨g1, g2⟩ := f2 rfl
        refine ⟨op', ?_, ?_⟩
        · rw [List.getElem?_set, if_pos rfl, if_pos (List.getElem?_eq_some_iff.1 h1).1]
        · rw [if_pos rfl, List.length_append, List.length_singleton, ← g2]
          exact ho'
      · refine ⟨op1, ?_, ?_⟩
        · rw [List.getElem?_set, if_neg ej]; exact h1
        · rw [if_neg ej]; exact h2
    · exact fun _ e => (first e).1

theorem keeps_count (grow : Nat → Nat) (i c : Nat) : Keeps (σ := σ) (T := T) grow (fun _ => True) (fun _ => True)
    (fun _ _ => True) (fun _ => True) (CountInv i c) (fun m => m.arrays.length = 1 → FirstOnly c (arrivals m i)) where
  hget _ _ _ _ := trivial
  hput _ _ _ _ := trivial
  hnext _ _ _ _ := trivial
  hadd _ _ _ _ := ⟨trivial, trivial⟩
  hskip _ _ _ _ := ⟨trivial, trivial⟩
  gpred _ _ _ := trivial
  gmap _ _ _ := trivial
  gpeek _ _ _ := trivial
  cells _ _ _ _ _ _ := trivial
  put m s h := h.of_eq rfl (fun _ => id) rfl
  clear m h := h.of_eq rfl (fun _ e => by cases e) rfl
  add m op h _ := (h.of_eq (m' := { m with hasPred := m.hasPred || op.isPred }) rfl (fun _ => id) rfl).append grow op
  skip m n h _ := by
    unfold Mem.skip
    split
    · exact h
    split
    · split
      · exact fun e => (h.counted e).first
      · exact h.of_eq rfl (fun _ => id) rfl
    · exact h.append grow _
  src m v l h _ := h.of_eq rfl (fun _ => id) rfl
  spent m a j op h hc ho := by
    refine ⟨h.array, h.one, fun e => ?_⟩
    obtain ⟨⟨op1, h1, h2⟩, h3⟩ := h.counted e
    by_cases ej : j = i
    · subst ej
      have ha0 : a = 0 := by
        unfold Mem.cell at hc
        cases ea : m.arrays[a]? with
        | none => rw [ea] at hc; cases hc
        | some x =>
          have := (List.getElem?_eq_some_iff.1 ea).1
          have e' : m.arrays.length = 1 := e
          omega
      subst ha0
      rw [h1] at hc
      injection hc with hc
      subst hc
      have : 0 = c - (arrivals m j).length := by
        exact ho.inj h2
      refine ⟨⟨op1, h1, ?_⟩, ?_⟩
      · rw [arrivals_arrive, if_pos rfl, List.length_append, List.length_singleton,
          show c - ((arrivals m j).length + 1) = 0 by omega]
        exact ho
      · rw [arrivals_arrive, if_pos rfl]
        exact firstOnly_snoc h3 (by simp; omega)
    · have : arrivals (m.arrive j false) i = arrivals m i := by rw [arrivals_arrive, if_neg ej]
      exact ⟨⟨op1, h1, by rw [this]; exact h2⟩, by rw [this]; exact h3⟩
  skipped m a j n h hc := h.write hc (.inl rfl) (.inl rfl)
  limited m a j n h hc := h.write hc (.inr rfl) (.inr rfl)
  again m op h _ _ _ e := (h.counted e).first

/-- The memory in which a program has ended. -/
def Res.mem : Res σ T α → Option (Mem σ T)
  | .ok _ m => some m
  | .panic _ m => some m
  | .out => none

/-- **C124**: as long as `s.ops` has not been moved to another array, exactly the first `c` arrivals at a `Skip(c)` or
`Limit(c)` are counted, no matter whether they come from the program or from callbacks of the stream. -/
theorem C124_counts_partial (grow : Nat → Nat) (l : List T) (ops : List (Op σ T)) (cap : Nat) (s : σ) (p : Act σ T .peek)
    (m : Mem σ T) (h : (prog grow p (start l ops cap s)).mem = some m) (hone : m.arrays.length = 1)
    (i c : Nat) (hi : ops[i]? = some (.skip c) ∨ ops[i]? = some (.limit c)) : FirstOnly c (arrivals m i) := by
  have hinv : CountInv i c (start l ops cap s) := by
    refine ⟨fun a e => by simp [start] at e ⊢; omega, by simp [start], fun _ => ⟨?_, ?_⟩⟩
    · have harr : arrivals (start l ops cap s) i = [] := rfl
      rw [harr]
      unfold Mem.cell
      simp only [start, List.getElem?_cons_zero, Option.bind_some, List.length_nil, Nat.sub_zero]
      rcases hi with e | e
      · exact ⟨_, e, .inl rfl⟩
      · exact ⟨_, e, .inr rfl⟩
    · intro j b hj
      cases hj
  have hp := prog_post (keeps_count grow i c) p trivial (start l ops cap s) hinv (safe_start ..)
  cases e : prog grow p (start l ops cap s) with
  | ok u m' =>
    rw [e] at h hp
    cases h
    exact (hp.inv.counted hone).first
  | panic e' m' =>
    rw [e] at h hp
    cases h
    exact hp hone
  | out => rw [e] at hp; exact hp.elim

/-! ## Callbacks that only read -/

/-- It adds no operations and skips nothing. -/
def Reads : {k : Kind} → Act σ T k → Prop
  | _, .ret _ => True
  | _, .get f => ∀ s, Reads (f s)
  | _, .put _ a => Reads a
  | _, .next f => ∀ r, Reads (f r)
  | _, .add _ _ => False
  | _, .skip _ _ => False

/-- An operation whose callback only reads. -/
def Op.Reads : Op σ T → Prop
  | .pred f => ∀ v, Reenter.Reads (f v)
  | .map f => ∀ v, Reenter.Reads (f v)
  | .peek f => ∀ v, Reenter.Reads (f v)
  | .skip _ => True
  | .limit _ => True

/-- There is one array and its operations are in `G`. -/
structure OneArray (G : Op σ T → Prop) (m : Mem σ T) : Prop where
  one : m.arrays.length = 1
  good : ∀ a i op, m.cell a i = some op → G op

theorem OneArray.of_eq {G : Op σ T → Prop} {m m' : Mem σ T} (h : OneArray G m) (ha : m'.arrays = m.arrays) :
    OneArray G m' :=
  ⟨by rw [ha]; exact h.one, fun a i op e => h.good a i op (by unfold Mem.cell at *; rw [← ha]; exact e)⟩

theorem OneArray.write {G : Op σ T → Prop} {m : Mem σ T} (h : OneArray G m) (j : Nat) {op' : Op σ T} (hg : G op')
    {P : Mem σ T → Prop} (hP : ∀ m, OneArray G m → P m) : (m.write j op').Post (OneArray G) P := by
  unfold Mem.write
  split
  · exact hP m h
  · split
    · refine ⟨by simpa using h.one, fun a i op e => ?_⟩
      rename_i b _ _
      unfold Mem.cell at e
      simp only [List.getElem?_modify] at e
      cases ea : m.arrays[a]? with
      | none => rw [ea] at e; split at e <;> cases e
      | some x =>
        rw [ea] at e
        have hx : ∀ op, x.cells[i]? = some op → G op := fun op e' => h.good a i op (by unfold Mem.cell; rw [ea]; exact e')
        split at e
        · simp only [Option.map_eq_map, Option.map_some, Option.bind_some, List.getElem?_set] at e
          split at e
          · split at e
            · cases e; exact hg
            · cases e
          · exact hx op e
        · simp only [Option.map_eq_map, Option.map_some, Option.bind_some] at e
          exact hx op e
    · exact hP m h

/-- Callbacks that only read keep to one array. -/
theorem keeps_reads (grow : Nat → Nat) (G : Op σ T → Prop) (hG : ∀ op, G op → op.Reads)
    (hc : ∀ n, (G (.skip (n + 1)) → G (.skip n)) ∧ (G (.limit (n + 1)) → G (.limit n)))
    (P : Mem σ T → Prop) (hP : ∀ n, (G (.skip (n + 1)) ∨ G (.limit (n + 1)) ∨ ∃ f, G (.pred f)) →
      ∀ m, OneArray G m → P m) :
    Keeps grow G (fun _ => False) (fun _ a => Reads a) (fun _ => False) (OneArray G) P where
  hget _ _ _ h := h _
  hput _ _ _ h := h
  hnext _ _ _ h := h _
  hadd _ _ _ h := h.elim
  hskip _ _ _ h := h.elim
  gpred f v h := hG _ h v
  gmap f v h := hG _ h v
  gpeek f v h := hG _ h v
  cells m a i op h e := h.good a i op e
  put m s h := h.of_eq rfl
  clear m h := h.of_eq rfl
  add m op h hg := hg.elim
  skip m n h hn := hn.elim
  src m v l h _ := h.of_eq rfl
  spent m a i op h _ _ := h.of_eq rfl
  skipped m a i n h e := by
    have hg := h.good a i _ e
    exact OneArray.write (h.of_eq (m' := m.arrive i true) rfl) i ((hc n).1 hg) fun m' h' _ => hP n (.inl hg) m' h'
  limited m a i n h e := by
    have hg := h.good a i _ e
    exact OneArray.write (h.of_eq (m' := m.arrive i true) rfl) i ((hc n).2 hg) fun m' h' _ => hP n (.inr (.inl hg)) m' h'
  again m op h hg ho _ := by
    rcases ho with ⟨f, rfl⟩ | ⟨n, rfl⟩
    · exact hP 0 (.inr (.inr ⟨f, hg⟩)) m h
    · exact hP n (.inl hg) m h

theorem oneArray_start {G : Op σ T → Prop} (l : List T) (ops : List (Op σ T)) (cap : Nat) (s : σ)
    (h : ∀ op ∈ ops, G op) : OneArray G (start l ops cap s) := by
  refine ⟨rfl, fun a i op e => ?_⟩
  unfold Mem.cell start at e
  cases a with
  | zero => exact h op (List.mem_of_getElem? e)
  | succ a => cases e

/-- **C124**: if the callbacks and the program only read, then exactly the first `c` arrivals at a `Skip(c)` or `Limit(c)`
are counted. -/
theorem C124_counts_reads (grow : Nat → Nat) (l : List T) (ops : List (Op σ T)) (cap : Nat) (s : σ) (p : Act σ T .peek)
    (hops : ∀ op ∈ ops, op.Reads) (hp : Reads p) (m : Mem σ T)
    (h : (prog grow p (start l ops cap s)).mem = some m)
    (i c : Nat) (hi : ops[i]? = some (.skip c) ∨ ops[i]? = some (.limit c)) : FirstOnly c (arrivals m i) := by
  refine C124_counts_partial grow l ops cap s p m h ?_ i c hi
  have hk := keeps_reads (σ := σ) (T := T) grow Op.Reads (fun _ => id) (fun n => ⟨fun _ => trivial, fun _ => trivial⟩)
    (OneArray Op.Reads) (fun _ _ _ => id)
  have h' := prog_post hk p hp (start l ops cap s) (oneArray_start l ops cap s hops) (safe_start ..)
  cases e : prog grow p (start l ops cap s) with
  | ok u m' => rw [e] at h h'; cases h; exact h'.inv.one
  | panic e' m' => rw [e] at h h'; cases h; exact h'.one
  | out => rw [e] at h'; exact h'.elim

/-- A `Map` or `Peek` whose callback only reads. -/
def Op.Plain : Op σ T → Prop
  | .map f => ∀ v, Reenter.Reads (f v)
  | .peek f => ∀ v, Reenter.Reads (f v)
  | _ => False

/-- **C124**: a stream with only `Map` and `Peek` may be read by its own callbacks. -/
theorem C124_no_panic_partial (grow : Nat → Nat) (l : List T) (ops : List (Op σ T)) (cap : Nat) (s : σ) (p : Act σ T .peek)
    (hops : ∀ op ∈ ops, op.Plain) (hp : Reads p) : ∃ m, prog grow p (start l ops cap s) = .ok () m := by
  have hk := keeps_reads (σ := σ) (T := T) grow Op.Plain (fun op h => by cases op <;> first | exact h | exact h.elim)
    (fun n => ⟨fun h => h.elim, fun h => h.elim⟩) (fun _ => False)
    (fun n h => by rcases h with h | h | ⟨f, h⟩ <;> exact h.elim)
  have h' := prog_post hk p hp (start l ops cap s) (oneArray_start l ops cap s hops) (safe_start ..)
  cases e : prog grow p (start l ops cap s) with
  | ok u m' => exact ⟨m', rfl⟩
  | panic e' m' => rw [e] at h'; exact h'.elim
  | out => rw [e] at h'; exact h'.elim

/-! ## Where it goes wrong -/

/-- A consumer that looks at the next element of its stream. -/
def lookahead : Op σ T := .peek fun _ => .next fun _ => .ret ()

/-- A predicate that looks at the next element of its stream, and refuses. -/
def refuseAhead : Op σ T := .pred fun _ => .next fun _ => .ret false

theorem lookahead_loop (grow : Nat → Nat) (n : Nat) : ∀ (l : List T) (fuel : Nat) (hp : Bool) (x : Arr σ T)
    (xs : List (Arr σ T)) (s : σ) (t : List (Nat × Bool)), l ≠ [] → l.length < fuel →
    x.cells = [lookahead, .limit (n + 1)] →
    ∃ m', loop grow fuel ⟨some l, some 0, hp, x :: xs, s, t⟩ = .panic "index out of range" m'
  | [], _, _, _, _, _, _, h, _, _ => absurd rfl h
  | v :: rest, 0, _, _, _, _, _, _, h, _ => absurd h (Nat.not_lt_zero _)
  | v :: rest, fuel + 1, hp, x, xs, s, t, _, hf, hx => by
    have hsz : (⟨some (v :: rest), some 0, hp, x :: xs, s, t⟩ : Mem σ T).size 0 = 2 := by simp [Mem.size, hx]
    have hc0 : (⟨some rest, some 0, hp, x :: xs, s, t⟩ : Mem σ T).cell 0 0 = some lookahead := by simp [Mem.cell, hx]
    simp only [loop, hsz]
    simp only [walk, hc0, lookahead, run, nextOf]
    cases rest with
    | nil =>
      cases fuel with
      | zero => simp at hf
      | succ f =>
        have hc1 : (⟨some [], some 0, hp, x :: xs, s, t⟩ : Mem σ T).clear.cell 0 1 = some (.limit (n + 1)) := by
          simp [Mem.cell, Mem.clear, hx]
        simp only [loop, Res.bind, hc1]
        rw [if_pos (by omega)]
        exact ⟨_, rfl⟩
    | cons w rest' =>
      obtain ⟨m', h⟩ := lookahead_loop grow n (w :: rest') fuel hp x xs s t (by nofun) (by simpa using hf) hx
      rw [h]
      exact ⟨m', rfl⟩

/-- **C124**: a consumer that looks at the next element makes a stream with a `Limit` behind it panic, on every source
that has elements. -/
theorem C124_lookahead_panics (grow : Nat → Nat) (l : List T) (hl : l ≠ []) (n cap : Nat) (s : σ) :
    ∃ m, next grow (start l [lookahead, .limit (n + 1)] cap s) = .panic "index out of range" m :=
  lookahead_loop grow n l _ _ _ _ _ _ hl (by simp [Mem.left, start]) rfl

theorem refuse_loop (grow : Nat → Nat) : ∀ (l : List T) (fuel : Nat) (hp : Bool) (x : Arr σ T)
    (xs : List (Arr σ T)) (s : σ) (t : List (Nat × Bool)), l ≠ [] → l.length < fuel → x.cells = [refuseAhead] →
    ∃ m', loop grow fuel ⟨some l, some 0, hp, x :: xs, s, t⟩ = .panic "nil pointer dereference" m'
  | [], _, _, _, _, _, _, h, _, _ => absurd rfl h
  | v :: rest, 0, _, _, _, _, _, _, h, _ => absurd h (Nat.not_lt_zero _)
  | v :: rest, fuel + 1, hp, x, xs, s, t, _, hf, hx => by
    have hsz : (⟨some (v :: rest), some 0, hp, x :: xs, s, t⟩ : Mem σ T).size 0 = 1 := by simp [Mem.size, hx]
    have hc0 : (⟨some rest, some 0, hp, x :: xs, s, t⟩ : Mem σ T).cell 0 0 = some refuseAhead := by
      simp [Mem.cell, hx]
    simp only [loop, hsz]
    simp only [walk, hc0, refuseAhead, run, nextOf]
    cases rest with
    | nil =>
      cases fuel with
      | zero => simp at hf
      | succ f =>
        simp only [loop, Res.bind]
        exact ⟨_, rfl⟩
    | cons w rest' =>
      obtain ⟨m', h⟩ := refuse_loop grow (w :: rest') fuel hp x xs s t (by nofun) (by simpa using hf) hx
      rw [h]
      exact ⟨m', rfl⟩

/-- **C124**: a predicate that looks at the next element and refuses the one at hand panics, on every source that has
elements. -/
theorem C124_filter_panics (grow : Nat → Nat) (l : List T) (hl : l ≠ []) (cap : Nat) (s : σ) :
    ∃ m, next grow (start l [refuseAhead] cap s) = .panic "nil pointer dereference" m :=
  refuse_loop grow l _ _ _ _ _ _ hl (by simp [Mem.left, start]) rfl

/-- `s.Map(func(v T) T { return v })` -/
def same : Op σ T := .map fun v => .ret (k := .map) v

/-- Adds an operation the first time, then reads, and notes what it gets. -/
def addThenRead : Op (Bool × List Nat) Nat :=
  .peek fun _ => .get fun s =>
    if s.1 then .ret ()
    else .put (true, s.2) (.add same (.next fun r => .get fun s => .put (s.1, s.2 ++ r.toList) (.ret ())))

/-- **C124**, where it fails: a stream with eight operations, one of them `Limit(1)`; a callback adds a ninth and reads.
Two elements get past the limit. -/
theorem C124_limit_exceeded (grow : Nat → Nat) : ∃ m, prog grow
    (.next fun r => .get fun s => .put (s.1, s.2 ++ r.toList) (.ret ()))
    (start [1, 2, 3] [addThenRead, .limit 1, same, same, same, same, same, same] 8 (false, []))
      = .ok () m ∧ m.vars.2 = [2, 1] ∧ ¬ FirstOnly 1 (arrivals m 1) := by
  refine ⟨_, rfl, rfl, fun h => ?_⟩
  have := (h 1 true rfl).1 rfl
  omega

/-- With room for the ninth operation the limit holds. -/
theorem C124_limit_kept (grow : Nat → Nat) : ∃ m, prog grow
    (.next fun r => .get fun s => .put (s.1, s.2 ++ r.toList) (.ret ()))
    (start [1, 2, 3] [addThenRead, .limit 1, same, same, same, same, same, same] 9 (false, []))
      = .ok () m ∧ m.vars.2 = [2] ∧ FirstOnly 1 (arrivals m 1) := by
  refine ⟨_, rfl, rfl, fun j b h => ?_⟩
  match j, h with
  | 0, h => cases h; simp
  | 1, h => cases h; simp
  | j + 2, h => cases h

/-! ## The number of nested reads does not matter -/

section
variable {grow : Nat → Nat}

/-- What is left behind by a call that returns. -/
def Res.Ok (r : Res σ T α) (Q : Mem σ T → Prop) : Prop := ∀ x m, r = .ok x m → Q m

theorem run_congr (B : Nat) {nx nx' : Mem σ T → Res σ T (Option T)}
    (hnx : ∀ m, Safe m → m.left ≤ B → nx m = nx' m)
    (hok : ∀ m, Safe m → m.left ≤ B → (nx m).Ok fun m' => Safe m' ∧ m'.left ≤ B) :
    ∀ {k : Kind} (a : Act σ T k) (m : Mem σ T), Safe m → m.left ≤ B → run grow nx a m = run grow nx' a m
  | _, .ret r, m, _, _ => rfl
  | _, .get f, m, hs, hl => run_congr B hnx hok (f m.vars) m hs hl
  | _, .put s a, m, hs, hl => by
    obtain ⟨h1, h2⟩ := le_put hs s
    exact run_congr B hnx hok a _ h2 (Nat.le_trans h1.left hl)
  | _, .next f, m, hs, hl => by
    have h := hok m hs hl
    simp only [run]
    rw [← hnx m hs hl]
    cases e : nx m with
    | ok r m' =>
      obtain ⟨h1, h2⟩ := h r m' e
      exact run_congr B hnx hok (f r) m' h1 h2
    | panic e' m' => rfl
    | out => rfl
  | _, .add op a, m, hs, hl => by
    obtain ⟨h1, h2⟩ := le_add grow hs op
    exact run_congr B hnx hok a _ h2 (Nat.le_trans h1.left hl)
  | _, .skip n a, m, hs, hl => by
    simp only [run]
    cases e : m.skip grow n with
    | ok r m' =>
      obtain ⟨h1, h2⟩ := le_skip grow hs e
      exact run_congr B hnx hok a m' h2 (Nat.le_trans h1.left hl)
    | panic e' m' => rfl
    | out => rfl

theorem Res.Post.ok {r : Res σ T α} {Q P : Mem σ T → Prop} (h : r.Post Q P) : r.Ok Q := by
  intro x m e
  rw [e] at h
  exact h

theorem bind_congr {r : Res σ T α} {f f' : α → Mem σ T → Res σ T β} {Q : Mem σ T → Prop} (h : r.Ok Q)
    (hf : ∀ x m, Q m → f x m = f' x m) : r.bind f = r.bind f' := by
  cases r with
  | ok x m => exact hf x m (h x m rfl)
  | panic e m => rfl
  | out => rfl

theorem nextOf_congr (B : Nat) {lp lp' : Mem σ T → Res σ T (Option T)}
    (heq : ∀ m, Safe m → m.left ≤ B → lp m = lp' m) (m : Mem σ T) (hs : Safe m) (hl : m.left ≤ B) :
    nextOf lp m = nextOf lp' m := by
  unfold nextOf
  split
  · rfl
  · exact heq m hs hl

theorem walk_congr (B : Nat) {lp lp' : Mem σ T → Res σ T (Option T)}
    (heq : ∀ m, Safe m → m.left ≤ B → lp m = lp' m)
    (hlp : ∀ m, True → Safe m → m.left ≤ B → (m.src = none → m.src = none) →
      (lp m).Post (After (fun _ => True) m) fun m => m.src = none) (a : Nat) :
    ∀ (k i : Nat) (v : T) (m : Mem σ T), Safe m → m.left ≤ B → walk grow lp a k i v m = walk grow lp' a k i v m := by
  have hpost := fun m hs hl => nextOf_post (keeps_ended (σ := σ) (T := T) grow) B hlp m trivial hs hl
  have hrun : ∀ {k : Kind} (b : Act σ T k) (m : Mem σ T), Safe m → m.left ≤ B →
      run grow (nextOf lp) b m = run grow (nextOf lp') b m ∧
      (run grow (nextOf lp) b m).Ok fun m' => Safe m' ∧ m'.left ≤ B := by
    intro k b m hs hl
    refine ⟨run_congr B (nextOf_congr B heq) ?_ b m hs hl, ?_⟩
    · intro m hs hl x m' e
      have h := (hpost m hs hl).ok x m' e
      exact ⟨h.safe, Nat.le_trans h.le.left hl⟩
    · intro x m' e
      have h := (run_post (keeps_ended grow) B (fun m _ hs hl => hpost m hs hl) b trivial m trivial hs hl).ok x m' e
      exact ⟨h.safe, Nat.le_trans h.le.left hl⟩
  have hwrite : ∀ (m : Mem σ T) (i : Nat) (op : Op σ T), Safe m → m.left ≤ B →
      ((m.arrive i true).write i op).Ok fun m' => Safe m' ∧ m'.left ≤ B := by
    intro m i op hs hl x m' e
    obtain ⟨h1, h2⟩ := le_arrive hs i true
    obtain ⟨h3, h4⟩ := le_write h2 e
    exact ⟨h4, Nat.le_trans h3.left (Nat.le_trans h1.left hl)⟩
  intro k
  induction k with
  | zero => intros; rfl
  | succ k ih =>
    intro i v m hs hl
    simp only [walk]
    cases ec : m.cell a i with
    | none => rfl
    | some op =>
      cases op with
      | pred f =>
        simp only
        rw [← (hrun (f v) m hs hl).1]
        refine bind_congr (hrun (f v) m hs hl).2 fun b m' h => ?_
        split
        · exact heq m' h.1 h.2
        · exact ih _ _ m' h.1 h.2
      | map f =>
        simp only
        rw [← (hrun (f v) m hs hl).1]
        exact bind_congr (hrun (f v) m hs hl).2 fun b m' h => ih _ _ m' h.1 h.2
      | peek f =>
        simp only
        rw [← (hrun (f v) m hs hl).1]
        exact bind_congr (hrun (f v) m hs hl).2 fun b m' h => ih _ _ m' h.1 h.2
      | skip n =>
        simp only
        split
        · exact bind_congr (hwrite m i _ hs hl) fun _ m' h => heq m' h.1 h.2
        · exact ih _ _ _ (le_arrive hs i false).2 hl
      | limit n =>
        simp only
        split
        · exact bind_congr (hwrite m i _ hs hl) fun _ m' h => ih _ _ m' h.1 h.2
        · rfl

theorem loop_congr : ∀ (f g : Nat) (m : Mem σ T), Safe m → m.left < f → m.left < g → loop grow f m = loop grow g m := by
  intro f
  induction f with
  | zero => intro g m _ h _; omega
  | succ f ih =>
    intro g m hs hf hg
    cases g with
    | zero => omega
    | succ g =>
      simp only [loop]
      split
      · rfl
      · rfl
      · rename_i v rest hv
        obtain ⟨h1, h2⟩ := le_src (l' := rest) hs hv (by simp)
        split
        · rfl
        · rename_i a ha
          have hl : ({ m with src := some rest } : Mem σ T).left + 1 = m.left := by
            simp only [Mem.left, hv, Option.map_some, Option.getD_some, List.length_cons]
          exact walk_congr ({ m with src := some rest } : Mem σ T).left (fun m' hs' hl' => ih g m' hs' (by omega) (by omega))
            (fun m' _ hs' hl' _ => loop_post (keeps_ended grow) f m' trivial hs' (by omega) id) a _ _ v _ h2
            (Nat.le_refl _)

/-- The loop over the source, with as many reads as there can be. -/
def again (grow : Nat → Nat) (m : Mem σ T) : Res σ T (Option T) := loop grow (m.left + 1) m

/-- **C124**: what `Next` does, in terms of itself: it takes an element and sends it through the operations it finds in
`s.ops` now; `s.Next()` in a callback and `continue loop_src` start over. (The bound on nested reads in the definition of
`loop` has no effect.) -/
theorem C124_next_eq (m : Mem σ T) (hs : Safe m) (v : T) (rest : List T) (a : Nat) (hv : m.src = some (v :: rest))
    (ha : m.ops = some a) :
    next grow m = walk grow (again grow) a (m.size a) 0 v { m with src := some rest } := by
  obtain ⟨h1, h2⟩ := le_src (l' := rest) hs hv (by simp)
  have hl : ({ m with src := some rest } : Mem σ T).left + 1 = m.left := by
    simp only [Mem.left, hv, Option.map_some, Option.getD_some, List.length_cons]
  unfold next nextOf
  simp only [hv, loop, ha]
  have := walk_congr (grow := grow) ({ m with src := some rest } : Mem σ T).left (lp := loop grow m.left) (lp' := again grow)
    (fun m' hs' hl' => loop_congr m.left (m'.left + 1) m' hs' (by omega) (by omega))
    (fun m' _ hs' hl' _ => loop_post (keeps_ended grow) m.left m' trivial hs' (by omega) id) a (m.size a) 0 v _ h2
    (Nat.le_refl _)
  simpa only [ha] using this

end

/-! ## Callbacks that leave the stream alone -/

/-- A callback of `Stream/Model.lean`: the events it produces are its variables. -/
def trans {E : Type} : Stream.Op T E → Op (List E) T
  | .map f => .map fun v => .ret (k := .map) (f v)
  | .filter p => .pred fun v => .ret (k := .pred) (p v)
  | .skip n => .skip n
  | .limit n => .limit n
  | .peek c => .peek fun v => .get fun s => .put (s ++ c v) (.ret ())

/-- A source that hands out a list. -/
def listSource (T E : Type) : Source T E where
  σ := List T
  next
    | [] => some (.ok ⟨none, [], []⟩)
    | v :: l => some (.ok ⟨some v, l, []⟩)
  skip n l := .ok (min n l.length, l.drop n.toNat)

/-- The memory of a stream that has not ended. -/
structure Same {E : Type} (a : Nat) (l : List T) (ops : List (Stream.Op T E)) (s : List E) (m : Mem (List E) T) : Prop where
  src : m.src = some l
  ptr : m.ops = some a
  arr : (m.arrays[a]?).map Arr.cells = some (ops.map trans)
  vars : m.vars = s

theorem same_cell {E : Type} {a : Nat} {l : List T} {done rest : List (Stream.Op T E)} {op : Stream.Op T E} {s : List E}
    {m : Mem (List E) T} (h : Same a l (done ++ op :: rest) s m) : m.cell a done.length = some (trans op) := by
  have := h.arr
  unfold Mem.cell
  cases e : m.arrays[a]? with
  | none => rw [e] at this; cases this
  | some x =>
    rw [e] at this
    simp only [Option.map_some, Option.some.injEq] at this
    simp [this]

theorem same_write {E : Type} {a : Nat} {l : List T} {done rest : List (Stream.Op T E)} {op op' : Stream.Op T E} {s : List E}
    {m : Mem (List E) T} (h : Same a l (done ++ op :: rest) s m) :
    ∃ m', (m.arrive done.length true).write done.length (trans op') = .ok () m' ∧ Same a l (done ++ op' :: rest) s m' := by
  have harr := h.arr
  cases e : m.arrays[a]? with
  | none => rw [e] at harr; cases harr
  | some x =>
    rw [e] at harr
    simp only [Option.map_some, Option.some.injEq] at harr
    have hsz : (m.arrive done.length true).size a = done.length + (rest.length + 1) := by
      simp [Mem.size, Mem.arrive, e, harr]
    have hops : (m.arrive done.length true).ops = some a := h.ptr
    refine ⟨{ m.arrive done.length true with arrays := (m.arrive done.length true).arrays.modify a fun x =>
      { x with cells := x.cells.set done.length (trans op') } }, ?_, ?_⟩
    · unfold Mem.write
      rw [hops]
      simp only
      rw [if_pos (by omega), hops]
    · refine ⟨h.src, hops, ?_, h.vars⟩
      simp [Mem.arrive, e, harr]

/-- What `walk` does, in terms of `runOps`. -/
theorem walk_same {E : Type} (grow : Nat → Nat) (lp : Mem (List E) T → Res (List E) T (Option T)) (a : Nat) (l : List T) :
    ∀ (rest done : List (Stream.Op T E)) (v : T) (s : List E) (m : Mem (List E) T), Same a l (done ++ rest) s m →
      match runOps rest v with
      | .pass w rest' log => ∃ m', walk grow lp a rest.length done.length v m = .ok (some w) m' ∧
          Same a l (done ++ rest') (s ++ log) m'
      | .drop rest' log => ∃ m', walk grow lp a rest.length done.length v m = lp m' ∧
          Same a l (done ++ rest') (s ++ log) m'
      | .stop log => ∃ m', walk grow lp a rest.length done.length v m = .ok none m' ∧
          m'.src = none ∧ m'.ops = none ∧ m'.vars = s ++ log := by
  intro rest
  induction rest with
  | nil =>
    intro done v s m h
    exact ⟨m, rfl, by simpa using h⟩
  | cons op rest ih =>
    intro done v s m h
    have hcell := same_cell h
    -- going on with the remaining operations
    have onward : ∀ (op' : Stream.Op T E) (w : T) (ev : List E) (m' : Mem (List E) T),
        Same a l (done ++ op' :: rest) (s ++ ev) m' →
        (match (runOps rest w).cons op' ev with
        | .pass w' rest' log => ∃ m'', walk grow lp a rest.length (done.length + 1) w m' = .ok (some w') m'' ∧
            Same a l (done ++ rest') (s ++ log) m''
        | .drop rest' log => ∃ m'', walk grow lp a rest.length (done.length + 1) w m' = lp m'' ∧
            Same a l (done ++ rest') (s ++ log) m''
        | .stop log => ∃ m'', walk grow lp a rest.length (done.length + 1) w m' = .ok none m'' ∧
            m''.src = none ∧ m''.ops = none ∧ m''.vars = s ++ log) := by
      intro op' w ev m' h'
      have := ih (done ++ [op']) w (s ++ ev) m' (by simpa using h')
      rw [List.length_append, List.length_singleton] at this
      cases e : runOps rest w with
      | pass w' rest' log => rw [e] at this; simpa [Out.cons] using this
      | drop rest' log => rw [e] at this; simpa [Out.cons] using this
      | stop log => rw [e] at this; simpa [Out.cons] using this
    cases op with
    | map f =>
      simp only [runOps, List.length_cons, walk, hcell, trans, run, Res.bind]
      exact onward (.map f) (f v) [] m (by simpa using h)
    | filter p =>
      simp only [runOps, List.length_cons, walk, hcell, trans, run, Res.bind]
      cases p v with
      | false => exact ⟨m, rfl, by simpa using h⟩
      | true => exact onward (.filter p) v [] m (by simpa using h)
    | peek c =>
      simp only [runOps, List.length_cons, walk, hcell, trans, run, Res.bind]
      refine onward (.peek c) v (c v) _ ⟨h.src, h.ptr, h.arr, ?_⟩
      rw [h.vars]
    | skip n =>
      simp only [runOps, List.length_cons, walk, hcell, trans]
      cases n with
      | zero =>
        rw [if_neg (by omega), if_neg (by omega)]
        exact onward (.skip 0) v [] _ ⟨h.src, h.ptr, h.arr, by simpa [Mem.arrive] using h.vars⟩
      | succ n =>
        obtain ⟨m', h1, h2⟩ := same_write (op' := .skip n) h
        rw [if_pos (by omega), if_pos (by omega)]
        exact ⟨m', by rw [show Op.skip (n + 1 - 1) = (trans (.skip n) : Op (List E) T) from rfl, h1]; rfl, by simpa using h2⟩
    | limit n =>
      simp only [runOps, List.length_cons, walk, hcell, trans]
      cases n with
      | zero =>
        rw [if_neg (by omega), if_neg (by omega)]
        exact ⟨_, rfl, rfl, rfl, by simpa [Mem.arrive, Mem.clear] using h.vars⟩
      | succ n =>
        obtain ⟨m', h1, h2⟩ := same_write (op' := .limit n) h
        rw [if_pos (by omega), if_pos (by omega)]
        rw [show Op.limit (n + 1 - 1) = (trans (.limit n) : Op (List E) T) from rfl, h1]
        exact onward (.limit n) v [] m' (by simpa using h2)

theorem loop_same {E : Type} (grow : Nat → Nat) (a : Nat) : ∀ (l : List T) (fuel : Nat) (ops : List (Stream.Op T E)) (s : List E)
    (m : Mem (List E) T), Same a l ops s m → l.length < fuel → ∃ r st log m',
      Stream.loop (listSource T E) ops l = some (.ok (r, st, log)) ∧ loop grow fuel m = .ok r m' ∧
      match st with
      | none => m'.src = none ∧ m'.ops = none ∧ m'.vars = s ++ log
      | some (l', ops') => Same a l' ops' (s ++ log) m' := by
  intro l
  induction l with
  | nil =>
    intro fuel ops s m h hf
    cases fuel with
    | zero => simp at hf
    | succ fuel =>
      refine ⟨none, none, [], m.clear, ?_, ?_, rfl, rfl, ?_⟩
      · exact (Stream.loop.eq_1 (listSource T E) ops []).trans rfl
      · simp only [loop, h.src]
      · simpa [Mem.clear] using h.vars
  | cons v l ih =>
    intro fuel ops s m h hf
    cases fuel with
    | zero => simp at hf
    | succ fuel =>
      have hsz : m.size a = ops.length := by
        have := h.arr
        unfold Mem.size
        cases e : m.arrays[a]? with
        | none => rw [e] at this; cases this
        | some x =>
          rw [e] at this
          simp only [Option.map_some, Option.some.injEq] at this
          simp [this]
      have hw := walk_same grow (loop grow fuel) a l ops [] v s { m with src := some l }
        ⟨rfl, h.ptr, h.arr, h.vars⟩
      have hl : loop grow (fuel + 1) m = walk grow (loop grow fuel) a ops.length 0 v { m with src := some l } := by
        simp only [loop, h.src, h.ptr, hsz]
      have hm : Stream.loop (listSource T E) ops (v :: l) = (match runOps ops v with
          | .pass w ops' log => some (.ok (some w, some (l, ops'), log))
          | .stop log => some (.ok (none, none, log))
          | .drop ops' log => do
            match ← Stream.loop (listSource T E) ops' l with
            | .error e => some (.error e)
            | .ok (r, st, log') => some (.ok (r, st, log ++ log'))) := by
        refine (Stream.loop.eq_1 (listSource T E) ops (v :: l)).trans ?_
        simp only [listSource, bind, Option.bind]
        cases runOps ops v with
        | pass => rfl
        | stop => rfl
        | drop ops' log =>
          simp only
          generalize Stream.loop _ _ _ = z
          cases z with
          | none => rfl
          | some y =>
            cases y with
            | error e => rfl
            | ok y => rfl
      rw [hl, hm]
      cases e : runOps ops v with
      | pass w ops' log =>
        rw [e] at hw
        obtain ⟨m', h1, h2⟩ := hw
        exact ⟨_, _, _, m', rfl, h1, h2⟩
      | stop log =>
        rw [e] at hw
        obtain ⟨m', h1, h2⟩ := hw
        exact ⟨_, _, _, m', rfl, h1, h2⟩
      | drop ops' log =>
        rw [e] at hw
        obtain ⟨m', h1, h2⟩ := hw
        obtain ⟨r, st, log', m'', h3, h4, h5⟩ := ih fuel ops' _ m' h2 (by simpa using hf)
        refine ⟨r, st, log ++ log', m'', ?_, h1.trans h4, ?_⟩
        · simp only [bind, Option.bind, h3]
        · cases st with
          | none => simpa [List.append_assoc] using h5
          | some x => obtain ⟨a, b⟩ := x; simpa [List.append_assoc] using h5

/-- **C124**: if the callbacks leave the stream alone, this is the model of `Stream/Model.lean`. -/
theorem C124_agrees {E : Type} (grow : Nat → Nat) (a : Nat) (l : List T) (ops : List (Stream.Op T E)) (hp : Bool) (s : List E)
    (m : Mem (List E) T) (h : Same a l ops s m) : ∃ r st log m',
      Stream.Stream.next (S := listSource T E) ⟨some l, ops, hp⟩ = some (.ok ⟨r, st, log⟩) ∧ next grow m = .ok r m' ∧
      match st.src with
      | none => m'.src = none ∧ m'.ops = none ∧ m'.vars = s ++ log
      | some l' => Same a l' st.ops (s ++ log) m' := by
  obtain ⟨r, st, log, m', h1, h2, h3⟩ := loop_same grow a l (m.left + 1) ops s m h (by simp [Mem.left, h.src])
  have hn : next grow m = .ok r m' := by
    unfold next nextOf
    simp only [h.src]
    exact h2
  cases st with
  | none => exact ⟨r, ⟨none, [], hp⟩, log, m', by unfold Stream.Stream.next; simp only [h1, bind, Option.bind]; rfl, hn, h3⟩
  | some x =>
    exact ⟨r, ⟨some x.1, x.2, hp⟩, log, m', by unfold Stream.Stream.next; simp only [h1, bind, Option.bind], hn, h3⟩

/-- The calls of a chain, as a program. -/
def build {E : Type} : List (Call T E) → Act (List E) T .peek
  | [] => .ret ()
  | .map f :: cs => .add (trans (.map f)) (build cs)
  | .filter p :: cs => .add (trans (.filter p)) (build cs)
  | .peek c :: cs => .add (trans (.peek c)) (build cs)
  | .limit n :: cs => .add (trans (.limit n.toNat)) (build cs)
  | .skip n :: cs => .skip n.toNat (build cs)

theorem same_append {E : Type} (grow : Nat → Nat) {a : Nat} {l : List T} {ops : List (Stream.Op T E)} {s : List E}
    {m : Mem (List E) T} (h : Same a l ops s m) (op : Stream.Op T E) :
    (∃ a', Same a' l (ops ++ [op]) s (m.append grow (trans op))) ∧ (m.append grow (trans op)).hasPred = m.hasPred := by
  have harr := h.arr
  cases e : m.arrays[a]? with
  | none => rw [e] at harr; cases harr
  | some x =>
    rw [e] at harr
    simp only [Option.map_some, Option.some.injEq] at harr
    unfold Mem.append
    simp only [h.ptr, e]
    split
    · refine ⟨⟨a, h.src, rfl, ?_, h.vars⟩, rfl⟩
      simp [e, harr]
    · refine ⟨⟨m.arrays.length, h.src, rfl, ?_, h.vars⟩, rfl⟩
      simp [harr]

/-- **C124**: also building a stream is as in `Stream/Model.lean`, wherever `append` moves the operations. -/
theorem C124_build {E : Type} (grow : Nat → Nat) (cs : List (Call T E)) (hl : ∀ c ∈ cs, c.legal) :
    ∀ (a : Nat) (l : List T) (ops : List (Stream.Op T E)) (s : List E) (m : Mem (List E) T), Same a l ops s m →
      ∃ a' l' ops' hp' m',
        Stream.Stream.chain (S := listSource T E) ⟨some l, ops, m.hasPred⟩ cs = .ok ⟨some l', ops', hp'⟩ ∧
        prog grow (build cs) m = .ok () m' ∧ Same a' l' ops' s m' ∧ m'.hasPred = hp' := by
  induction cs with
  | nil => intro a l ops s m h; exact ⟨a, l, ops, m.hasPred, m, rfl, rfl, h, rfl⟩
  | cons c cs ih =>
    intro a l ops s m h
    have ih := ih (fun c hc => hl c (by simp [hc]))
    have hc := hl c (by simp)
    -- an operation that is stored
    have store : ∀ (op : Stream.Op T E) (b : Bool), ∃ a' l' ops' hp' m',
        Stream.Stream.chain (S := listSource T E) ⟨some l, ops ++ [op], b⟩ cs = .ok ⟨some l', ops', hp'⟩ ∧
        prog grow (build cs) ({ m with hasPred := b }.append grow (trans op)) = .ok () m' ∧ Same a' l' ops' s m' ∧
        m'.hasPred = hp' := by
      intro op b
      obtain ⟨⟨a', h1⟩, h2⟩ := same_append grow (m := { m with hasPred := b }) ⟨h.src, h.ptr, h.arr, h.vars⟩ op
      have := ih a' l (ops ++ [op]) s _ h1
      rw [h2] at this
      exact this
    cases c with
    | map f =>
      have := store (.map f) m.hasPred
      simpa [Stream.Stream.chain, Stream.Stream.call, Stream.Stream.map, build, prog, run, Mem.add, trans, Op.isPred] using this
    | peek f =>
      have := store (.peek f) m.hasPred
      simpa [Stream.Stream.chain, Stream.Stream.call, Stream.Stream.peek, build, prog, run, Mem.add, trans, Op.isPred] using this
    | filter f =>
      have := store (.filter f) true
      simpa [Stream.Stream.chain, Stream.Stream.call, Stream.Stream.filter, build, prog, run, Mem.add, trans, Op.isPred] using this
    | limit n =>
      have hc : 0 ≤ n := hc
      have hn : ¬ n < 0 := by omega
      have := store (.limit n.toNat) true
      simpa [Stream.Stream.chain, Stream.Stream.call, Stream.Stream.limit, build, prog, run, Mem.add, trans, Op.isPred, hn] using this
    | skip n =>
      have hc : 0 ≤ n := hc
      have hn : ¬ n < 0 := by omega
      by_cases h0 : n = 0
      · subst h0
        have := ih a l ops s m h
        simpa [Stream.Stream.chain, Stream.Stream.call, Stream.Stream.skip, build, prog, run, Mem.skip] using this
      · have h0' : ¬ n.toNat = 0 := by omega
        cases hp : m.hasPred with
        | true =>
          have := store (.skip n.toNat) true
          have e : ({ m with hasPred := true } : Mem (List E) T) = m := by rw [← hp]
          rw [e] at this
          simpa [Stream.Stream.chain, Stream.Stream.call, Stream.Stream.skip, build, prog, run, Mem.skip, trans, hn, h0, h0', hp] using this
        | false =>
          have := ih a (l.drop n.toNat) ops s { m with src := some (l.drop n.toNat) } ⟨rfl, h.ptr, h.arr, h.vars⟩
          simpa [Stream.Stream.chain, Stream.Stream.call, Stream.Stream.skip, build, prog, run, Mem.skip, listSource, h.src, hn, h0, h0', hp] using this

example : ∃ a' l' ops' hp' m', Stream.Stream.chain (S := listSource Nat Nat) ⟨some [5, 6, 7], [], false⟩
      [.skip 1, .filter (· > 6), .skip 1] = .ok ⟨some l', ops', hp'⟩ ∧
    prog (fun n => 2 * n) (build [.skip 1, .filter (· > 6), .skip 1]) (start [5, 6, 7] [] 8 []) = .ok () m' ∧
    Same a' l' ops' [] m' ∧ m'.hasPred = hp' :=
  C124_build (E := Nat) (fun n => 2 * n) [.skip 1, .filter (· > 6), .skip 1] (by
    intro c hc
    simp only [List.mem_cons, List.not_mem_nil, or_false] at hc
    rcases hc with rfl | rfl | rfl <;> simp [Call.legal]) 0 [5, 6, 7] [] [] (start [5, 6, 7] [] 8 [])
    ⟨rfl, rfl, rfl, rfl⟩

/-! ## Examples -/

/-- Puts elements together in pairs: the consumer of each element with an even number reads the next one. -/
def pairs : List (Op (Bool × List Nat) Nat) :=
  [.peek fun v => .get fun s =>
    if s.1 then .put (false, s.2) (.ret ())
    else .put (true, s.2) (.next fun r => .get fun s => .put (false, s.2 ++ [v] ++ r.toList) (.ret ()))]

/-- Reads twice. -/
def readTwice : Act (Bool × List Nat) Nat .peek := .next fun _ => .next fun _ => .ret ()

/-- With `Map` and `Peek` only, this works also when the last element has no partner. -/
example (grow : Nat → Nat) : ∃ m, prog grow readTwice (start [1, 2, 3] pairs 8 (false, [])) = .ok () m ∧
    m.vars.2 = [1, 2, 3] := ⟨_, rfl, rfl⟩
/-- With a `Limit` behind it, it does not. -/
example (grow : Nat → Nat) : ∃ m, prog grow readTwice (start [1, 2, 3] (pairs ++ [.limit 10]) 8 (false, [])) =
    .panic "index out of range" m := ⟨_, rfl⟩
/-- All elements have a partner: the nested reads count. -/
example (grow : Nat → Nat) : ∃ m, prog grow readTwice (start [1, 2, 3, 4, 5] (pairs ++ [.limit 3]) 8 (false, [])) =
    .ok () m ∧ arrivals m 1 = [true, true, true, false] := ⟨_, rfl, rfl⟩
example : ∀ op ∈ pairs, op.Plain := by
  intro op h
  simp only [pairs, List.mem_singleton] at h
  subst h
  intro v s
  dsimp only
  split
  · exact trivial
  · intro r s; exact trivial

end Verif.Stream.Reenter
