import Verif.Sharded.Seq

/-!
# Who holds which lock
-/

set_option linter.unusedSectionVars false

namespace Verif.Sharded

open Verif.Conc Verif.GoMap

variable {K V : Type} [DecidableEq K]

/-- What a goroutine holds: nothing, a shard for reading, a shard announced for writing, a shard for
writing. -/
inductive Held where
  | no
  | R (i : Nat)
  | P (i : Nat)
  | W (i : Nat)
  deriving DecidableEq

/-- What it holds after an action; `none` if the action is out of order. Only a goroutine that holds
nothing may ask for a lock. -/
def heldAfter : Held → Act K V → Option Held
  | .no, .lockBegin i => some (.P i)
  | .P j, .lockWait i => if j = i then some (.W i) else none
  | .W j, .unlock i => if j = i then some .no else none
  | .no, .rlock i => some (.R i)
  | .R j, .runlock i => if j = i then some .no else none
  | _, .lockBegin _ => none
  | _, .lockWait _ => none
  | _, .unlock _ => none
  | _, .rlock _ => none
  | _, .runlock _ => none
  | h, .read _ => some h
  | h, .write _ _ => some h
  | h, .factory _ => some h
  | h, .callback => some h
  | h, .edit => some h
  | h, .order => some h

/-- The locks are as the goroutines think. -/
structure LockInv (lock : Nat → RW) (held : Tid → Held) : Prop where
  wr : ∀ i t, (lock i).wr = some t ↔ held t = .P i ∨ held t = .W i
  actW : ∀ i t, held t = .W i → (lock i).active = true ∧ (lock i).rd = []
  actP : ∀ i t, held t = .P i → (lock i).active = false
  rd : ∀ i t, (lock i).rd.count t = if held t = .R i then 1 else 0

theorem LockInv.start : LockInv free (fun _ => .no) where
  wr i t := by simp [free]
  actW i t h := by cases h
  actP i t h := by cases h
  rd i t := by simp [free]

theorem heldAfter_lockBegin {h h' : Held} {i : Nat} (e : heldAfter (K := K) (V := V) h (.lockBegin i) = some h') :
    h = .no ∧ h' = .P i := by
  cases h <;> simp [heldAfter] at e
  exact ⟨rfl, e.symm⟩

theorem heldAfter_lockWait {h h' : Held} {i : Nat} (e : heldAfter (K := K) (V := V) h (.lockWait i) = some h') :
    h = .P i ∧ h' = .W i := by
  cases h <;> simp [heldAfter] at e
  obtain ⟨rfl, e⟩ := e
  exact ⟨rfl, e.symm⟩

theorem heldAfter_unlock {h h' : Held} {i : Nat} (e : heldAfter (K := K) (V := V) h (.unlock i) = some h') :
    h = .W i ∧ h' = .no := by
  cases h <;> simp [heldAfter] at e
  obtain ⟨rfl, e⟩ := e
  exact ⟨rfl, e.symm⟩

theorem heldAfter_rlock {h h' : Held} {i : Nat} (e : heldAfter (K := K) (V := V) h (.rlock i) = some h') :
    h = .no ∧ h' = .R i := by
  cases h <;> simp [heldAfter] at e
  exact ⟨rfl, e.symm⟩

theorem heldAfter_runlock {h h' : Held} {i : Nat} (e : heldAfter (K := K) (V := V) h (.runlock i) = some h') :
    h = .R i ∧ h' = .no := by
  cases h <;> simp [heldAfter] at e
  obtain ⟨rfl, e⟩ := e
  exact ⟨rfl, e.symm⟩

theorem upd_self (held : Tid → Held) (t : Tid) : upd held t (held t) = held := by
  funext u
  unfold upd
  split
  · rename_i h; rw [h]
  · rfl

/-- At most one goroutine has announced or holds a shard for writing, and then no other reads it. -/
theorem LockInv.unique {lock : Nat → RW} {held : Tid → Held} (L : LockInv lock held) {i : Nat} {t u : Tid}
    (h : held t = .P i ∨ held t = .W i) (h' : held u = .P i ∨ held u = .W i) : t = u := by
  have h1 := (L.wr i t).2 h
  rw [(L.wr i u).2 h'] at h1
  injection h1 with h1
  exact h1.symm

theorem LockInv.no_reader {lock : Nat → RW} {held : Tid → Held} (L : LockInv lock held) {i : Nat} {t u : Tid}
    (h : held t = .W i) (h' : held u = .R i) : False := by
  have h1 := (L.actW i t h).2
  have h2 := L.rd i u
  rw [h1, h'] at h2
  simp at h2

/-- Actions taken in order keep it so. -/
theorem LockInv.step {σ σ' : Sh K V} {held : Tid → Held} (L : LockInv σ.lock held) {t : Tid} {a : Act K V}
    {ans : Ans a} {h' : Held} (hs : AStep t a σ ans σ') (hh : heldAfter (held t) a = some h') :
    LockInv σ'.lock (upd held t h') := by
  have keep : heldAfter (held t) a = some (held t) → σ'.lock = σ.lock → LockInv σ'.lock (upd held t h') := by
    intro e1 e2
    rw [e1] at hh
    injection hh with hh
    rw [e2, ← hh, upd_self]
    exact L
  cases hs with
  | lockBegin _ i hn =>
    obtain ⟨h0, rfl⟩ := heldAfter_lockBegin hh
    have nobody : ∀ u, ¬ (held u = .P i ∨ held u = .W i) := by
      intro u hu
      have := (L.wr i u).2 hu
      rw [hn] at this; cases this
    show LockInv (set1 σ.lock i { σ.lock i with wr := some t, active := false }) (upd held t (.P i))
    clear keep hh
    constructor
    · intro j u
      by_cases hj : j = i
      · subst hj
        rw [set1_same]
        by_cases hu : u = t
        · subst hu; simp [upd_same]
        · rw [upd_other _ _ hu]
          have := nobody u
          constructor
          · intro e; simp at e; exact absurd e.symm hu
          · intro e; exact absurd e this
      · rw [set1_other _ _ hj, L.wr]
        by_cases hu : u = t
        · subst hu
          rw [upd_same, h0]
          constructor
          · rintro (e | e) <;> cases e
          · rintro (e | e)
            · injection e with e; exact absurd e.symm hj
            · cases e
        · rw [upd_other _ _ hu]
    · intro j u hu
      by_cases hut : u = t
      · subst hut; rw [upd_same] at hu; cases hu
      · rw [upd_other _ _ hut] at hu
        by_cases hj : j = i
        · subst hj; exact absurd (Or.inr hu) (nobody u)
        · rw [set1_other _ _ hj]; exact L.actW j u hu
    · intro j u hu
      by_cases hj : j = i
      · subst hj; rw [set1_same]
      · rw [set1_other _ _ hj]
        by_cases hut : u = t
        · subst hut; rw [upd_same] at hu; injection hu with hu; exact absurd hu.symm hj
        · rw [upd_other _ _ hut] at hu; exact L.actP j u hu
    · intro j u
      have hrd : (set1 σ.lock i { σ.lock i with wr := some t, active := false } j).rd = (σ.lock j).rd := by
        by_cases hj : j = i
        · subst hj; rw [set1_same]
        · rw [set1_other _ _ hj]
      rw [hrd, L.rd]
      by_cases hut : u = t
      · subst hut; rw [upd_same, h0, if_neg, if_neg] <;> intro e <;> cases e
      · rw [upd_other _ _ hut]
  | lockWait _ i hw ha hr =>
    obtain ⟨h0, rfl⟩ := heldAfter_lockWait hh
    show LockInv (set1 σ.lock i { σ.lock i with active := true }) (upd held t (.W i))
    clear keep hh
    constructor
    · intro j u
      have hwr : (set1 σ.lock i { σ.lock i with active := true } j).wr = (σ.lock j).wr := by
        by_cases hj : j = i
        · subst hj; rw [set1_same]
        · rw [set1_other _ _ hj]
      rw [hwr, L.wr]
      by_cases hut : u = t
      · subst hut
        rw [upd_same, h0]
        constructor
        · rintro (e | e)
          · injection e with e; exact Or.inr (by rw [e])
          · cases e
        · rintro (e | e)
          · cases e
          · injection e with e; exact Or.inl (by rw [e])
      · rw [upd_other _ _ hut]
    · intro j u hu
      by_cases hj : j = i
      · subst hj; rw [set1_same]; exact ⟨rfl, hr⟩
      · rw [set1_other _ _ hj]
        by_cases hut : u = t
        · subst hut; rw [upd_same] at hu; injection hu with hu; exact absurd hu.symm hj
        · rw [upd_other _ _ hut] at hu; exact L.actW j u hu
    · intro j u hu
      by_cases hut : u = t
      · subst hut; rw [upd_same] at hu; cases hu
      · rw [upd_other _ _ hut] at hu
        by_cases hj : j = i
        · subst hj; exact absurd (L.unique (Or.inl hu) (Or.inl h0)) hut
        · rw [set1_other _ _ hj]; exact L.actP j u hu
    · intro j u
      have hrd : (set1 σ.lock i { σ.lock i with active := true } j).rd = (σ.lock j).rd := by
        by_cases hj : j = i
        · subst hj; rw [set1_same]
        · rw [set1_other _ _ hj]
      rw [hrd, L.rd]
      by_cases hut : u = t
      · subst hut; rw [upd_same, h0, if_neg, if_neg] <;> intro e <;> cases e
      · rw [upd_other _ _ hut]
  | unlock _ i hw ha =>
    obtain ⟨h0, rfl⟩ := heldAfter_unlock hh
    show LockInv (set1 σ.lock i { σ.lock i with wr := none, active := false }) (upd held t .no)
    clear keep hh
    constructor
    · intro j u
      by_cases hut : u = t
      · subst hut
        rw [upd_same]
        by_cases hj : j = i
        · subst hj; rw [set1_same]; simp
        · rw [set1_other _ _ hj, L.wr, h0]
          constructor
          · rintro (e | e)
            · cases e
            · injection e with e; exact absurd e.symm hj
          · rintro (e | e) <;> cases e
      · rw [upd_other _ _ hut]
        by_cases hj : j = i
        · subst hj; rw [set1_same]
          constructor
          · intro e; cases e
          · intro e; exact absurd (L.unique e (Or.inr h0)) hut
        · rw [set1_other _ _ hj, L.wr]
    · intro j u hu
      by_cases hut : u = t
      · subst hut; rw [upd_same] at hu; cases hu
      · rw [upd_other _ _ hut] at hu
        by_cases hj : j = i
        · subst hj; exact absurd (L.unique (Or.inr hu) (Or.inr h0)) hut
        · rw [set1_other _ _ hj]; exact L.actW j u hu
    · intro j u hu
      by_cases hut : u = t
      · subst hut; rw [upd_same] at hu; cases hu
      · rw [upd_other _ _ hut] at hu
        by_cases hj : j = i
        · subst hj; rw [set1_same]
        · rw [set1_other _ _ hj]; exact L.actP j u hu
    · intro j u
      have hrd : (set1 σ.lock i { σ.lock i with wr := none, active := false } j).rd = (σ.lock j).rd := by
        by_cases hj : j = i
        · subst hj; rw [set1_same]
        · rw [set1_other _ _ hj]
      rw [hrd, L.rd]
      by_cases hut : u = t
      · subst hut; rw [upd_same, h0, if_neg, if_neg] <;> intro e <;> cases e
      · rw [upd_other _ _ hut]
  | rlock _ i hn =>
    obtain ⟨h0, rfl⟩ := heldAfter_rlock hh
    have nobody : ∀ u, ¬ (held u = .P i ∨ held u = .W i) := by
      intro u hu
      have := (L.wr i u).2 hu
      rw [hn] at this; cases this
    show LockInv (set1 σ.lock i { σ.lock i with rd := t :: (σ.lock i).rd }) (upd held t (.R i))
    clear keep hh
    constructor
    · intro j u
      have hwr : (set1 σ.lock i { σ.lock i with rd := t :: (σ.lock i).rd } j).wr = (σ.lock j).wr := by
        by_cases hj : j = i
        · subst hj; rw [set1_same]
        · rw [set1_other _ _ hj]
      rw [hwr, L.wr]
      by_cases hut : u = t
      · subst hut
        rw [upd_same, h0]
        constructor <;> rintro (e | e) <;> cases e
      · rw [upd_other _ _ hut]
    · intro j u hu
      by_cases hut : u = t
      · subst hut; rw [upd_same] at hu; cases hu
      · rw [upd_other _ _ hut] at hu
        by_cases hj : j = i
        · subst hj; exact absurd (Or.inr hu) (nobody u)
        · rw [set1_other _ _ hj]; exact L.actW j u hu
    · intro j u hu
      by_cases hut : u = t
      · subst hut; rw [upd_same] at hu; cases hu
      · rw [upd_other _ _ hut] at hu
        by_cases hj : j = i
        · subst hj; exact absurd (Or.inl hu) (nobody u)
        · rw [set1_other _ _ hj]; exact L.actP j u hu
    · intro j u
      have hold := L.rd j u
      by_cases hut : u = t
      · subst hut
        rw [h0, if_neg (by intro e; cases e)] at hold
        rw [upd_same]
        by_cases hj : j = i
        · subst hj; rw [set1_same, if_pos rfl, List.count_cons_self, hold]
        · rw [set1_other _ _ hj, hold, if_neg]
          intro e; injection e with e; exact hj e.symm
      · rw [upd_other _ _ hut, ← hold]
        by_cases hj : j = i
        · subst hj; rw [set1_same, List.count_cons_of_ne (Ne.symm hut)]
        · rw [set1_other _ _ hj]
  | runlock _ i hm =>
    obtain ⟨h0, rfl⟩ := heldAfter_runlock hh
    show LockInv (set1 σ.lock i { σ.lock i with rd := (σ.lock i).rd.erase t }) (upd held t .no)
    clear keep hh
    constructor
    · intro j u
      have hwr : (set1 σ.lock i { σ.lock i with rd := (σ.lock i).rd.erase t } j).wr = (σ.lock j).wr := by
        by_cases hj : j = i
        · subst hj; rw [set1_same]
        · rw [set1_other _ _ hj]
      rw [hwr, L.wr]
      by_cases hut : u = t
      · subst hut
        rw [upd_same, h0]
        constructor <;> rintro (e | e) <;> cases e
      · rw [upd_other _ _ hut]
    · intro j u hu
      by_cases hut : u = t
      · subst hut; rw [upd_same] at hu; cases hu
      · rw [upd_other _ _ hut] at hu
        by_cases hj : j = i
        · subst hj; exact absurd h0 (fun c => L.no_reader hu c)
        · rw [set1_other _ _ hj]; exact L.actW j u hu
    · intro j u hu
      by_cases hut : u = t
      · subst hut; rw [upd_same] at hu; cases hu
      · rw [upd_other _ _ hut] at hu
        by_cases hj : j = i
        · subst hj; rw [set1_same]; exact L.actP j u hu
        · rw [set1_other _ _ hj]; exact L.actP j u hu
    · intro j u
      have hold := L.rd j u
      by_cases hut : u = t
      · subst hut
        rw [upd_same, if_neg (by intro e; cases e)]
        by_cases hj : j = i
        · subst hj
          rw [h0, if_pos rfl] at hold
          rw [set1_same, List.count_erase_self, hold]
        · rw [set1_other _ _ hj, hold, h0, if_neg]
          intro e; injection e with e; exact hj e.symm
      · rw [upd_other _ _ hut, ← hold]
        by_cases hj : j = i
        · subst hj; rw [set1_same, List.count_erase_of_ne hut]
        · rw [set1_other _ _ hj]
  | read _ i => exact keep (by cases held t <;> rfl) rfl
  | write _ i f => exact keep (by cases held t <;> rfl) rfl
  | factory _ k v => exact keep (by cases held t <;> rfl) rfl
  | callback _ b => exact keep (by cases held t <;> rfl) rfl
  | edit _ f => exact keep (by cases held t <;> rfl) rfl
  | order _ o => exact keep (by cases held t <;> rfl) rfl

/-! ## Methods take and release locks in order -/

/-- How much to ask of table accesses. -/
inductive Mode where
  /-- nothing -/
  | any
  /-- that they are covered by the lock held -/
  | cov
  /-- that they are, and moreover are all reads -/
  | ro
  deriving DecidableEq

/-- The demand on an action. -/
def Covered : Mode → Held → Act K V → Prop
  | .any, _, _ => True
  | _, h, .read i => h = .R i ∨ h = .W i
  | .cov, h, .write i _ => h = .W i
  | .ro, _, .write _ _ => False
  | .ro, _, .factory _ => False
  | _, _, _ => True

/-- The program takes and releases locks in order, never asks for a second lock, ends with none, and its
table accesses are as demanded. -/
def Disc (acc : Mode) {R : Type} : Held → P K V R → Prop
  | h, .ret _ => h = .no
  | h, .act a k => ∃ h', heldAfter h a = some h' ∧ Covered acc h a ∧ ∀ ans, Disc acc h' (k ans)

/-- Like `Disc` for a part of a program that ends holding `h'`. -/
def DiscTo (acc : Mode) {R : Type} (h' : Held) : Held → P K V R → Prop
  | h, .ret _ => h = h'
  | h, .act a k => ∃ g, heldAfter h a = some g ∧ Covered acc h a ∧ ∀ ans, DiscTo acc h' g (k ans)

theorem Disc.bind {acc : Mode} {R R' : Type} {h' : Held} {f : R → P K V R'} (hf : ∀ r, Disc acc h' (f r)) :
    ∀ {h : Held} {p : P K V R}, DiscTo acc h' h p → Disc acc h (p >>= f)
  | _, .ret r, e => by
    have : _ = h' := e
    subst this
    exact hf r
  | _, .act a k, e => by
    obtain ⟨g, e1, e2, e3⟩ := e
    exact ⟨g, e1, e2, fun ans => Disc.bind hf (e3 ans)⟩

theorem discTo_self {acc : Mode} {R : Type} : ∀ {h : Held} {p : P K V R}, DiscTo acc .no h p ↔ Disc acc h p
  | _, .ret r => Iff.rfl
  | _, .act a k => by
    constructor
    · rintro ⟨g, e1, e2, e3⟩
      exact ⟨g, e1, e2, fun ans => discTo_self.1 (e3 ans)⟩
    · rintro ⟨g, e1, e2, e3⟩
      exact ⟨g, e1, e2, fun ans => discTo_self.2 (e3 ans)⟩

theorem disc_lock {acc : Mode} {R : Type} {i : Nat} {f : Unit → P K V R} (hf : Disc acc (.W i) (f ())) :
    Disc acc .no (lock i >>= f) :=
  ⟨.P i, rfl, by cases acc <;> trivial, fun _ => ⟨.W i, by simp [heldAfter], by cases acc <;> trivial, fun _ => hf⟩⟩

theorem disc_unlock {acc : Mode} {R : Type} {i : Nat} {f : Unit → P K V R} (hf : Disc acc .no (f ())) :
    Disc acc (.W i) (step_ (.unlock i) >>= f) := ⟨.no, by simp [heldAfter], by cases acc <;> trivial, fun _ => hf⟩

theorem disc_rlock {acc : Mode} {R : Type} {i : Nat} {f : Unit → P K V R} (hf : Disc acc (.R i) (f ())) :
    Disc acc .no (step_ (.rlock i) >>= f) := ⟨.R i, by simp [heldAfter], by cases acc <;> trivial, fun _ => hf⟩

theorem disc_runlock {acc : Mode} {R : Type} {i : Nat} {f : Unit → P K V R} (hf : Disc acc .no (f ())) :
    Disc acc (.R i) (step_ (.runlock i) >>= f) := ⟨.no, by simp [heldAfter], by cases acc <;> trivial, fun _ => hf⟩

theorem disc_readR {acc : Mode} {R : Type} {i : Nat} {f : Tab K V → P K V R} (hf : ∀ m, Disc acc (.R i) (f m)) :
    Disc acc (.R i) (read i >>= f) := ⟨.R i, rfl, by cases acc <;> first | trivial | exact Or.inl rfl, hf⟩

theorem disc_readW {acc : Mode} {R : Type} {i : Nat} {f : Tab K V → P K V R} (hf : ∀ m, Disc acc (.W i) (f m)) :
    Disc acc (.W i) (read i >>= f) := ⟨.W i, rfl, by cases acc <;> first | trivial | exact Or.inr rfl, hf⟩

theorem disc_write {acc : Mode} {R : Type} {i : Nat} {g : Tab K V → Tab K V} {f : Unit → P K V R}
    (hm : acc ≠ .ro) (hf : Disc acc (.W i) (f ())) : Disc acc (.W i) (step_ (.write i g) >>= f) :=
  ⟨.W i, rfl, by cases acc <;> first | trivial | exact rfl | exact absurd rfl hm, fun _ => hf⟩

theorem disc_fn {acc : Mode} {R : Type} {h : Held} {f : Bool → P K V R} (hf : ∀ b, Disc acc h (f b)) :
    Disc acc h (callFn >>= f) := ⟨h, by cases h <;> rfl, by cases acc <;> trivial, hf⟩

theorem disc_factory {acc : Mode} {R : Type} {h : Held} {k : K} {f : Option V → P K V R} (hm : acc ≠ .ro)
    (hf : ∀ b, Disc acc h (f b)) : Disc acc h (callFactory k >>= f) :=
  ⟨h, by cases h <;> rfl, by cases acc <;> first | trivial | exact absurd rfl hm, hf⟩

theorem disc_edit {acc : Mode} {R : Type} {h : Held} {f : Option {f : Tab K V → Tab K V // ∀ m, m.WF → (f m).WF} → P K V R}
    (hf : ∀ b, Disc acc h (f b)) : Disc acc h (callEdit >>= f) := ⟨h, by cases h <;> rfl, by cases acc <;> trivial, hf⟩

theorem disc_order {acc : Mode} {R : Type} {h : Held} {f : Order K V → P K V R} (hf : ∀ o, Disc acc h (f o)) :
    Disc acc h (rangeOrder >>= f) := ⟨h, by cases h <;> rfl, by cases acc <;> trivial, hf⟩

theorem disc_ret {acc : Mode} {R : Type} {r : R} : Disc (K := K) (V := V) acc .no (pure r) := rfl

variable [Inhabited V]

theorem discTo_visitAll {acc : Mode} (h : Held) : ∀ (es done : List (K × V)), DiscTo acc h h (visitAll es done) := by
  intro es
  induction es with
  | nil => intro done; rfl
  | cons e es ih =>
    intro done
    refine ⟨h, by cases h <;> rfl, by cases acc <;> trivial, ?_⟩
    have key : ∀ b : Bool, DiscTo acc h h
        (if b then visitAll es (done ++ [e]) else (pure (done ++ [e], false) : P K V _)) := by
      intro b
      cases b with
      | true => exact ih _
      | false => rfl
    exact key

theorem disc_lenLoop {acc : Mode} : ∀ (rem i count : Nat), Disc acc .no (lenLoop (K := K) (V := V) i rem count) := by
  intro rem
  induction rem with
  | zero => intro i count; exact disc_ret
  | succ rem ih => intro i count; exact disc_rlock (disc_readR fun m => disc_runlock (ih _ _))

theorem disc_emptyLoop {acc : Mode} : ∀ (rem i : Nat), Disc acc .no (emptyLoop (K := K) (V := V) i rem) := by
  intro rem
  induction rem with
  | zero => intro i; exact disc_ret
  | succ rem ih =>
    intro i
    refine disc_rlock (disc_readR fun m => disc_runlock ?_)
    split
    · exact disc_ret
    · exact ih _

theorem disc_iterateLoop {acc : Mode} : ∀ (rem i : Nat) (l : List (K × V)), Disc acc .no (iterateLoop i rem l) := by
  intro rem
  induction rem with
  | zero => intro i l; exact disc_ret
  | succ rem ih =>
    intro i l
    refine disc_rlock (disc_readR fun m => disc_order fun o => Disc.bind ?_ (discTo_visitAll (.R i) _ _))
    rintro ⟨l', b⟩
    refine disc_runlock ?_
    cases b with
    | true => exact ih _ _
    | false => exact disc_ret

theorem disc_iterateShardsLoop {acc : Mode} (hm : acc ≠ .ro) : ∀ (rem i : Nat), Disc acc .no (iterateShardsLoop (K := K) (V := V) i rem) := by
  intro rem
  induction rem with
  | zero => intro i; exact disc_ret
  | succ rem ih =>
    intro i
    refine disc_lock (disc_edit fun f => ?_)
    cases f with
    | none => exact disc_unlock disc_ret
    | some f => exact disc_write hm (disc_unlock (ih _))

theorem disc_readOnlyLoop {acc : Mode} : ∀ (rem i : Nat),
    Disc acc .no (iterateShardsReadOnlyLoop (K := K) (V := V) i rem) := by
  intro rem
  induction rem with
  | zero => intro i; exact disc_ret
  | succ rem ih =>
    intro i
    refine disc_rlock (disc_readR fun m => disc_fn fun b => disc_runlock ?_)
    cases b with
    | true => exact ih _
    | false => exact disc_ret

theorem disc_collectLoop {acc : Mode} {α : Type} (add : α → List (K × V) → α) : ∀ (rem i : Nat) (x : α),
    Disc acc .no (collectLoop (K := K) (V := V) add i rem x) := by
  intro rem
  induction rem with
  | zero => intro i x; exact disc_ret
  | succ rem ih =>
    intro i x
    exact disc_rlock (disc_readR fun m => disc_order fun o => disc_runlock (ih _ _))

theorem disc_clearLoop : ∀ (rem i : Nat), Disc .any .no (clearLoop (K := K) (V := V) i rem) := by
  intro rem
  induction rem with
  | zero => intro i; exact disc_ret
  | succ rem ih =>
    intro i
    refine disc_rlock ⟨.R i, rfl, trivial, fun _ => disc_runlock (ih _)⟩

theorem disc_tryGetCore {acc : Mode} (c : Conf K) (k : K) : Disc acc .no (tryGetCore (V := V) c k) :=
  disc_rlock (disc_readR fun _ => disc_runlock disc_ret)

/-- Every method keeps the discipline; `Clear` only as far as taking and releasing goes. -/
theorem disc_body (acc : Mode) (c : Conf K) (op : Op K V) (hm : acc ≠ .ro) (h : acc = .cov → op ≠ .clear) :
    Disc acc .no (body c op) := by
  cases op with
  | set k v => exact disc_lock (disc_write hm (disc_unlock disc_ret))
  | trySet k v =>
    refine disc_lock (disc_readW fun m => ?_)
    cases m.get? k with
    | none => exact disc_write hm (disc_unlock disc_ret)
    | some w => exact disc_unlock disc_ret
  | get k =>
    refine Disc.bind (fun r => ?_) (discTo_self.2 (disc_tryGetCore c k))
    cases r with
    | none => exact disc_ret
    | some v => exact disc_ret
  | tryGet k =>
    refine Disc.bind (fun r => ?_) (discTo_self.2 (disc_tryGetCore c k))
    cases r with
    | none => exact disc_ret
    | some v => exact disc_ret
  | getOrSetFactory k =>
    refine Disc.bind (fun r => ?_) (discTo_self.2 (disc_tryGetCore c k))
    cases r with
    | some v => exact disc_ret
    | none =>
      refine disc_lock (disc_readW fun m => ?_)
      cases m.get? k with
      | some w => exact disc_unlock disc_ret
      | none =>
        refine disc_factory hm fun w => ?_
        cases w with
        | none => exact disc_unlock disc_ret
        | some v => exact disc_write hm (disc_unlock disc_ret)
  | getOrSetDefault k d =>
    refine Disc.bind (fun r => ?_) (discTo_self.2 (disc_tryGetCore c k))
    cases r with
    | some v => exact disc_ret
    | none =>
      refine disc_lock (disc_readW fun m => ?_)
      cases m.get? k with
      | some w => exact disc_unlock disc_ret
      | none => exact disc_write hm (disc_unlock disc_ret)
  | len => exact disc_lenLoop _ _ _
  | empty => exact disc_emptyLoop _ _
  | has k => exact disc_rlock (disc_readR fun _ => disc_runlock disc_ret)
  | delete k => exact disc_lock (disc_write hm (disc_unlock disc_ret))
  | iterate => exact disc_iterateLoop _ _ _
  | iterateShards => exact disc_iterateShardsLoop hm _ _
  | iterateShardsReadOnly => exact disc_readOnlyLoop _ _
  | keys => exact Disc.bind (fun _ => disc_ret) (discTo_self.2 (disc_collectLoop _ _ _ _))
  | values => exact Disc.bind (fun _ => disc_ret) (discTo_self.2 (disc_collectLoop _ _ _ _))
  | entries => exact Disc.bind (fun _ => disc_ret) (discTo_self.2 (disc_collectLoop _ _ _ _))
  | toMap => exact Disc.bind (fun _ => disc_ret) (discTo_self.2 (disc_collectLoop _ _ _ _))
  | clear =>
    cases acc with
    | cov => exact absurd rfl (h rfl)
    | ro => exact absurd rfl hm
    | any => exact disc_clearLoop _ _

/-! ## In every execution -/

/-- States of the whole system. -/
abbrev Cfg (K V : Type) [DecidableEq K] := Config (mach K V) (Op K V) (Res K V)

/-- The invariant. -/
def DiscInv (acc : Mode) (s : Cfg K V) : Prop :=
  ∃ held, LockInv s.sh.lock held ∧ ∀ t, match s.th t with
    | .idle => held t = .no
    | .run _ p => Disc acc (held t) p

theorem discInv {acc : Mode} (hm : acc ≠ .ro) {c : Conf K} {tr : List (Label (mach K V) (Op K V) (Res K V))} {s : Cfg K V}
    (he : Exec (body c) (Config.init fresh) tr s) (hP : Calls (fun _ op => acc = .cov → op ≠ .clear) tr) :
    DiscInv acc s := by
  refine Exec.invariant (DiscInv acc) ?_ ?_ ?_ ?_ he hP
  · exact ⟨fun _ => .no, LockInv.start, fun t => rfl⟩
  · rintro s t op ⟨held, L, H⟩ hop hi
    refine ⟨held, L, fun u => ?_⟩
    by_cases hu : u = t
    · subst hu
      have := H u
      rw [hi] at this
      simp only [upd_same]
      rw [this]
      exact disc_body acc c op hm hop
    · simp only [upd_other _ _ hu]; exact H u
  · rintro s t op a k ans sh' ⟨held, L, H⟩ hr hs
    have ht := H t
    rw [hr] at ht
    obtain ⟨h', e1, e2, e3⟩ := ht
    refine ⟨upd held t h', L.step hs e1, fun u => ?_⟩
    by_cases hu : u = t
    · subst hu
      simp only [upd_same]
      exact e3 ans
    · simp only [upd_other _ _ hu]; exact H u
  · rintro s t op r ⟨held, L, H⟩ hr
    refine ⟨held, L, fun u => ?_⟩
    by_cases hu : u = t
    · subst hu
      have := H u
      rw [hr] at this
      simp only [upd_same]
      exact this
    · simp only [upd_other _ _ hu]; exact H u

/-! ## No deadlock -/

/-- A goroutine that is not waiting for a lock can take a step. -/
theorem can_step {s : Cfg K V} {held : Tid → Held} (L : LockInv s.sh.lock held) {t : Tid} {a : Act K V} {h' : Held}
    (hh : heldAfter (held t) a = some h')
    (hb : ∀ i, a = .lockBegin i → (s.sh.lock i).wr = none) (hw : ∀ i, a = .lockWait i → (s.sh.lock i).rd = [])
    (hr : ∀ i, a = .rlock i → (s.sh.lock i).wr = none) : ∃ ans σ', AStep t a s.sh ans σ' := by
  cases a with
  | lockBegin i => exact ⟨_, _, .lockBegin _ i (hb i rfl)⟩
  | lockWait i =>
    obtain ⟨h0, -⟩ := heldAfter_lockWait hh
    exact ⟨_, _, .lockWait _ i ((L.wr i t).2 (Or.inl h0)) (L.actP i t h0) (hw i rfl)⟩
  | unlock i =>
    obtain ⟨h0, -⟩ := heldAfter_unlock hh
    exact ⟨_, _, .unlock _ i ((L.wr i t).2 (Or.inr h0)) (L.actW i t h0).1⟩
  | rlock i => exact ⟨_, _, .rlock _ i (hr i rfl)⟩
  | runlock i =>
    obtain ⟨h0, -⟩ := heldAfter_runlock hh
    refine ⟨_, _, .runlock _ i ?_⟩
    have := L.rd i t
    rw [h0, if_pos rfl] at this
    exact List.count_pos_iff.1 (by omega)
  | read i => exact ⟨_, _, .read _ i⟩
  | write i f => exact ⟨_, _, .write _ i f⟩
  | factory k => exact ⟨_, _, .factory _ k none⟩
  | callback => exact ⟨_, _, .callback _ true⟩
  | edit => exact ⟨_, _, .edit _ none⟩
  | order => exact ⟨_, _, .order _ Order.id⟩

end Verif.Sharded
