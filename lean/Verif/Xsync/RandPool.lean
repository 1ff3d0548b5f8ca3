import Verif.Conc.Lin
import Verif.Conc.Moment

/-!
# The generator pools of `xrand` and `secrand` (xrand/pool.go, secrand/pool.go)

`sync.Pool` is a bag that may lose anything at any time (at a garbage collection, or when the pool is asked to keep
something) and may say it is empty although it is not; then `New` is called. Both packages make a new generator from a
seed drawn from a master generator under a lock (xrand/pool.go:15-19, secrand/rng.go:64-71).

A package-level function (xrand/xrand.go, secrand/secrand.go, the same text) is `rng := Get(); defer Put(rng);
return rng.X()`. What `X` does is arbitrary: it uses the generator any number of times depending on what it drew, it may
panic, and (as `Shuffle` with its callback) it may call package-level functions in between. `X` is represented by a
tree, so an `X` that draws for ever is represented by the trees it starts with.
-/

namespace Verif.Xsync.Rand

open Verif.Conc

/-- A method of a generator, with callbacks. -/
inductive Use where
  /-- return -/
  | done
  /-- panic -/
  | panic
  /-- draw a number -/
  | draw (k : Nat → Use)
  /-- a callback calls a package-level function, which does `f` with a generator; a panic in it goes on -/
  | call (f : Use) (k : Use)

/-- Shared state. -/
structure Sh where
  /-- generators in the pool -/
  bag : List Nat
  /-- the seeds (numbers of draws from the master) of the generators made, the first made first -/
  seeds : List Nat
  /-- how many seeds were drawn -/
  drawn : Nat
  /-- who holds the lock of the master -/
  lock : Option Tid

/-- Steps. -/
inductive Act where
  /-- `sync.Pool` looks for something kept -/
  | take
  /-- `Lock` the master -/
  | lock
  /-- `_masterRng.Int63()`, `_masterRNG.Read(seed[:])`: the answer is the number of the draw -/
  | seed
  /-- make a generator from that seed -/
  | make (seed : Nat)
  /-- `Unlock` the master -/
  | unlock
  /-- use a generator -/
  | use (g : Nat)
  /-- `Put` -/
  | put (g : Nat)
  /-- the garbage collector drops something from the pool -/
  | evict

/-- Answers. -/
abbrev Ans : Act → Type
  | .take => Option Nat
  | .seed => Nat
  | .make _ => Nat
  | .use _ => Nat
  | _ => Unit

/-- What the steps do. -/
inductive AStep (t : Tid) : (a : Act) → Sh → Ans a → Sh → Prop where
  | hit (σ : Sh) (g : Nat) : g ∈ σ.bag → AStep t .take σ (some g) { σ with bag := σ.bag.erase g }
  | miss (σ : Sh) : AStep t .take σ none σ
  | lock (σ : Sh) : σ.lock = none → AStep t .lock σ () { σ with lock := some t }
  | seed (σ : Sh) : AStep t .seed σ σ.drawn { σ with drawn := σ.drawn + 1 }
  | make (σ : Sh) (s : Nat) : AStep t (.make s) σ σ.seeds.length { σ with seeds := σ.seeds ++ [s] }
  | unlock (σ : Sh) : σ.lock = some t → AStep t .unlock σ () { σ with lock := none }
  | use (σ : Sh) (g v : Nat) : AStep t (.use g) σ v σ
  | put (σ : Sh) (g : Nat) : AStep t (.put g) σ () { σ with bag := g :: σ.bag }
  | drop (σ : Sh) (g : Nat) : AStep t (.put g) σ () σ
  | evict (σ : Sh) (g : Nat) : AStep t .evict σ () { σ with bag := σ.bag.erase g }

/-- The machine. -/
abbrev mach : Machine := ⟨Act, Ans, Sh, AStep⟩

/-- A program. -/
abbrev P := Prog Act Ans Bool

/-- `Get()`: from the pool, else made by `newRng` (xrand/pool.go:15-23, secrand/pool.go:8-16, secrand/rng.go:64-71). -/
def get (k : Nat → P) : P :=
  .act .take fun
    | some g => k g
    | none => .act .lock fun _ => .act .seed fun s => .act (.make s) fun g => .act .unlock fun _ => k g

/-- Use generator `g` and go on with `k`, told whether there was a panic. Deferred `Put`s run in either case
(xrand/xrand.go, secrand/secrand.go: every function). -/
def Use.prog : Use → Nat → (Bool → P) → P
  | .done, _, k => k false
  | .panic, _, k => k true
  | .draw f, g, k => .act (.use g) fun v => (f v).prog g k
  | .call f u, g, k => get fun g' => f.prog g' fun p => .act (.put g') fun _ => if p then k true else u.prog g k

/-- Calls: a package-level function, or a garbage collection that drops something. -/
inductive Op where
  | fn (u : Use)
  | gc

/-- The calls as programs; the result says whether the call panicked. -/
def body : Op → P
  | .fn u => get fun g => u.prog g fun p => .act (.put g) fun _ => .ret p
  | .gc => .act .evict fun _ => .ret false

/-- At the start: nothing made. -/
def fresh : Sh := ⟨[], [], 0, none⟩

/-! ## What a goroutine holds -/

/-- What a goroutine has. -/
structure Has where
  /-- generators, the last first -/
  gens : List Nat
  /-- the lock of the master -/
  lock : Bool
  /-- a seed not yet used -/
  seed : Option Nat

/-- The program keeps the rules, if its goroutine has `h`: it uses only generators it has, puts only those, draws only
under the lock, makes generators only from the seed it drew, and in the end has nothing. -/
def Keeps : P → Has → Prop
  | .ret _, h => h = ⟨[], false, none⟩
  | .act .take k, h => (∀ g, Keeps (k (some g)) ⟨g :: h.gens, h.lock, h.seed⟩) ∧ Keeps (k none) h
  | .act .lock k, h => h.lock = false ∧ h.seed = none ∧ Keeps (k ()) ⟨h.gens, true, h.seed⟩
  | .act .seed k, h => h.lock = true ∧ h.seed = none ∧ ∀ s, Keeps (k s) ⟨h.gens, true, some s⟩
  | .act (.make s) k, h => h.lock = true ∧ h.seed = some s ∧ ∀ g, Keeps (k g) ⟨g :: h.gens, true, none⟩
  | .act .unlock k, h => h.lock = true ∧ h.seed = none ∧ Keeps (k ()) ⟨h.gens, false, h.seed⟩
  | .act (.use g) k, h => g ∈ h.gens ∧ ∀ v, Keeps (k v) h
  | .act (.put g) k, h => g ∈ h.gens ∧ Keeps (k ()) ⟨h.gens.erase g, h.lock, h.seed⟩
  | .act .evict k, h => Keeps (k ()) h

theorem get_keeps {k : Nat → P} {hs : List Nat} (h : ∀ g, Keeps (k g) ⟨g :: hs, false, none⟩) :
    Keeps (get k) ⟨hs, false, none⟩ := by
  refine ⟨fun g => h g, rfl, rfl, rfl, rfl, fun s => ⟨rfl, rfl, fun g => ⟨rfl, rfl, h g⟩⟩⟩

theorem use_keeps {u : Use} : ∀ {g : Nat} {k : Bool → P} {hs : List Nat}, g ∈ hs →
    (∀ p, Keeps (k p) ⟨hs, false, none⟩) → Keeps (u.prog g k) ⟨hs, false, none⟩ := by
  induction u with
  | done => intro g k hs _ h; exact h false
  | panic => intro g k hs _ h; exact h true
  | draw f ih => intro g k hs hg h; exact ⟨hg, fun v => ih v hg h⟩
  | call f u ih1 ih2 =>
    intro g k hs hg h
    refine get_keeps fun g' => ih1 (by simp) fun p => ⟨by simp, ?_⟩
    show Keeps _ ⟨(g' :: hs).erase g', _, _⟩
    rw [List.erase_cons_head]
    cases p with
    | true => exact h true
    | false => exact ih2 hg h

theorem body_keeps (op : Op) : Keeps (body op) ⟨[], false, none⟩ := by
  cases op with
  | fn u =>
    refine get_keeps fun g => use_keeps (by simp) fun p => ⟨by simp, ?_⟩
    show Keeps _ ⟨[g].erase g, _, _⟩
    rw [List.erase_cons_head]
    rfl
  | gc => exact rfl

/-! ## The invariant -/

/-- A goroutine that has `h`. -/
def Fits : Thread mach Op Bool → Has → Prop
  | .idle, h => h = ⟨[], false, none⟩
  | .run _ p, h => Keeps p h

/-- Every generator is in at most one place; seeds are used once. -/
structure Inv (σ : Sh) (has : Tid → Has) : Prop where
  bag : σ.bag.Nodup
  bagLt : ∀ g ∈ σ.bag, g < σ.seeds.length
  gens : ∀ t, (has t).gens.Nodup
  gensLt : ∀ t, ∀ g ∈ (has t).gens, g < σ.seeds.length
  apart : ∀ t u g, g ∈ (has t).gens → g ∈ (has u).gens → t = u
  inside : ∀ t g, g ∈ (has t).gens → g ∉ σ.bag
  lock : ∀ t, σ.lock = some t ↔ (has t).lock = true
  seeds : ∀ n, n < σ.drawn ↔ n ∈ σ.seeds ∨ ∃ t, (has t).seed = some n
  seedsNodup : σ.seeds.Nodup
  seedLock : ∀ t, (has t).seed ≠ none → (has t).lock = true
  seedNew : ∀ t n, (has t).seed = some n → n ∉ σ.seeds

/-- A step that does not touch the seeds and the lock. -/
theorem Inv.gensStep {σ : Sh} {has : Tid → Has} (h : Inv σ has) (t : Tid) (gs bag : List Nat)
    (hb : bag.Nodup) (hbs : ∀ g ∈ bag, g ∈ σ.bag ∨ g ∈ (has t).gens) (hg : gs.Nodup)
    (hgs : ∀ g ∈ gs, g ∈ σ.bag ∨ g ∈ (has t).gens) (hd : ∀ g ∈ gs, g ∉ bag) :
    Inv { σ with bag := bag } (upd has t ⟨gs, (has t).lock, (has t).seed⟩) := by
  have hlt : ∀ g, g ∈ σ.bag ∨ g ∈ (has t).gens → g < σ.seeds.length := by
    rintro g (hg | hg)
    · exact h.bagLt g hg
    · exact h.gensLt t g hg
  have e1 : ∀ u, (upd has t ⟨gs, (has t).lock, (has t).seed⟩ u).lock = (has u).lock := by
    intro u
    by_cases c : u = t
    · subst c; rw [upd_same]
    · rw [upd_other _ _ c]
  have e2 : ∀ u, (upd has t ⟨gs, (has t).lock, (has t).seed⟩ u).seed = (has u).seed := by
    intro u
    by_cases c : u = t
    · subst c; rw [upd_same]
    · rw [upd_other _ _ c]
  have far : ∀ u g, u ≠ t → g ∈ (has u).gens → ¬ (g ∈ σ.bag ∨ g ∈ (has t).gens) := by
    rintro u g hu hg (h1 | h1)
    · exact h.inside u g hg h1
    · exact hu (h.apart u t g hg h1)
  constructor
  · exact hb
  · exact fun g hg => hlt g (hbs g hg)
  · intro u
    by_cases c : u = t
    · subst c; rw [upd_same]; exact hg
    · rw [upd_other _ _ c]; exact h.gens u
  · intro u g hu
    by_cases c : u = t
    · subst c; rw [upd_same] at hu; exact hlt g (hgs g hu)
    · rw [upd_other _ _ c] at hu; exact h.gensLt u g hu
  · intro u v g hu hv
    by_cases c : u = t
    · subst c
      rw [upd_same] at hu
      by_cases c' : v = u
      · exact c'.symm
      · rw [upd_other _ _ c'] at hv
        exact absurd (hgs g hu) (far v g c' hv)
    · rw [upd_other _ _ c] at hu
      by_cases c' : v = t
      · subst c'
        rw [upd_same] at hv
        exact absurd (hgs g hv) (far u g c hu)
      · rw [upd_other _ _ c'] at hv
        exact h.apart u v g hu hv
  · intro u g hu hgb
    by_cases c : u = t
    · subst c; rw [upd_same] at hu; exact hd g hu hgb
    · rw [upd_other _ _ c] at hu
      exact far u g c hu (hbs g hgb)
  · intro u; rw [e1]; exact h.lock u
  · intro n; simp only [e2]; exact h.seeds n
  · exact h.seedsNodup
  · intro u; rw [e1, e2]; exact h.seedLock u
  · intro u n; rw [e2]; exact h.seedNew u n

/-- Only the lock holder has a seed. -/
theorem Inv.onlySeed {σ : Sh} {has : Tid → Has} (h : Inv σ has) {t u : Tid} (ht : (has t).lock = true) (hu : u ≠ t) :
    (has u).lock = false ∧ (has u).seed = none := by
  have h1 : (has u).lock = false := by
    cases hl : (has u).lock with
    | false => rfl
    | true =>
      have h1 := (h.lock u).2 hl
      rw [(h.lock t).2 ht] at h1
      exact absurd (Option.some.inj h1).symm hu
  refine ⟨h1, ?_⟩
  cases hs : (has u).seed with
  | none => rfl
  | some n => have := h.seedLock u (by rw [hs]; simp); rw [h1] at this; cases this

/-- A step that does not touch generators. -/
theorem Inv.lockStep {σ : Sh} {has : Tid → Has} (h : Inv σ has) (t : Tid) (l : Bool) (s : Option Nat) (σl : Option Tid)
    (d : Nat) (hl : ∀ u, σl = some u ↔ (if u = t then l else (has u).lock) = true)
    (hs : ∀ n, n < d ↔ n ∈ σ.seeds ∨ s = some n ∨ ∃ u, u ≠ t ∧ (has u).seed = some n)
    (h1 : s ≠ none → l = true) (h2 : ∀ n, s = some n → n ∉ σ.seeds) :
    Inv { σ with lock := σl, drawn := d } (upd has t ⟨(has t).gens, l, s⟩) := by
  have e : ∀ u, (upd has t ⟨(has t).gens, l, s⟩ u).gens = (has u).gens := by
    intro u
    by_cases c : u = t
    · subst c; rw [upd_same]
    · rw [upd_other _ _ c]
  constructor
  · exact h.bag
  · exact h.bagLt
  · intro u; rw [e]; exact h.gens u
  · intro u; rw [e]; exact h.gensLt u
  · intro u v g; rw [e, e]; exact h.apart u v g
  · intro u g; rw [e]; exact h.inside u g
  · intro u
    refine (hl u).trans ?_
    by_cases c : u = t
    · subst c; rw [upd_same, if_pos rfl]
    · rw [upd_other _ _ c, if_neg c]
  · intro n
    refine (hs n).trans ?_
    constructor
    · rintro (g | g | ⟨u, hu, g⟩)
      · exact Or.inl g
      · exact Or.inr ⟨t, by rw [upd_same]; exact g⟩
      · exact Or.inr ⟨u, by rw [upd_other _ _ hu]; exact g⟩
    · rintro (g | ⟨u, g⟩)
      · exact Or.inl g
      · by_cases c : u = t
        · subst c; rw [upd_same] at g; exact Or.inr (Or.inl g)
        · rw [upd_other _ _ c] at g; exact Or.inr (Or.inr ⟨u, c, g⟩)
  · exact h.seedsNodup
  · intro u
    by_cases c : u = t
    · subst c; rw [upd_same]; exact h1
    · rw [upd_other _ _ c]; exact h.seedLock u
  · intro u n
    by_cases c : u = t
    · subst c; rw [upd_same]; exact h2 n
    · rw [upd_other _ _ c]; exact h.seedNew u n

/-- Making a generator. -/
theorem Inv.makeStep {σ : Sh} {has : Tid → Has} (h : Inv σ has) (t : Tid) (s : Nat) (hl : (has t).lock = true)
    (hs : (has t).seed = some s) :
    Inv { σ with seeds := σ.seeds ++ [s] } (upd has t ⟨σ.seeds.length :: (has t).gens, true, none⟩) := by
  have far : ∀ u, σ.seeds.length ∉ (has u).gens := fun u hg => absurd (h.gensLt u _ hg) (Nat.lt_irrefl _)
  constructor
  · exact h.bag
  · intro g hg
    have := h.bagLt g hg
    simp only [List.length_append, List.length_singleton]
    omega
  · intro u
    by_cases c : u = t
    · subst c; rw [upd_same]; exact List.nodup_cons.2 ⟨far u, h.gens u⟩
    · rw [upd_other _ _ c]; exact h.gens u
  · intro u g hg
    simp only [List.length_append, List.length_singleton]
    by_cases c : u = t
    · subst c
      rw [upd_same] at hg
      rcases List.mem_cons.1 hg with rfl | hg
      · omega
      · have := h.gensLt u g hg; omega
    · rw [upd_other _ _ c] at hg
      have := h.gensLt u g hg; omega
  · intro u v g hu hv
    by_cases c : u = t
    · subst c
      rw [upd_same] at hu
      by_cases c' : v = u
      · exact c'.symm
      · rw [upd_other _ _ c'] at hv
        rcases List.mem_cons.1 hu with rfl | hu
        · exact absurd hv (far v)
        · exact h.apart u v g hu hv
    · rw [upd_other _ _ c] at hu
      by_cases c' : v = t
      · subst c'
        rw [upd_same] at hv
        rcases List.mem_cons.1 hv with rfl | hv
        · exact absurd hu (far u)
        · exact h.apart u v g hu hv
      · rw [upd_other _ _ c'] at hv
        exact h.apart u v g hu hv
  · intro u g hu hgb
    by_cases c : u = t
    · subst c
      rw [upd_same] at hu
      rcases List.mem_cons.1 hu with rfl | hu
      · exact absurd (h.bagLt _ hgb) (Nat.lt_irrefl _)
      · exact h.inside u g hu hgb
    · rw [upd_other _ _ c] at hu
      exact h.inside u g hu hgb
  · intro u
    refine (h.lock u).trans ?_
    by_cases c : u = t
    · subst c; rw [upd_same, hl]
    · rw [upd_other _ _ c]
  · intro n
    refine (h.seeds n).trans ?_
    constructor
    · rintro (g | ⟨u, g⟩)
      · exact Or.inl (List.mem_append.2 (Or.inl g))
      · by_cases c : u = t
        · subst c
          rw [hs] at g
          injection g with g
          exact Or.inl (List.mem_append.2 (Or.inr (by simp [g])))
        · exact Or.inr ⟨u, by rw [upd_other _ _ c]; exact g⟩
    · rintro (g | ⟨u, g⟩)
      · rcases List.mem_append.1 g with g | g
        · exact Or.inl g
        · simp only [List.mem_singleton] at g
          exact Or.inr ⟨t, by rw [hs, g]⟩
      · by_cases c : u = t
        · subst c; rw [upd_same] at g; cases g
        · rw [upd_other _ _ c] at g; exact Or.inr ⟨u, g⟩
  · rw [List.nodup_append]
    refine ⟨h.seedsNodup, by simp, ?_⟩
    intro a ha b hb e
    simp only [List.mem_singleton] at hb
    subst hb e
    exact h.seedNew t a hs ha
  · intro u hu
    by_cases c : u = t
    · subst c; rw [upd_same]
    · rw [upd_other _ _ c] at hu ⊢; exact h.seedLock u hu
  · intro u n hn
    by_cases c : u = t
    · subst c; rw [upd_same] at hn; cases hn
    · rw [upd_other _ _ c, (h.onlySeed hl c).2] at hn; cases hn

/-- What a goroutine gets or loses in a step. -/
def change : (a : Act) → Ans a → List Nat → List Nat
  | .take, some g, hs => g :: hs
  | .make _, g, hs => g :: hs
  | .put g, _, hs => hs.erase g
  | _, _, hs => hs

/-- Every step keeps the invariant. -/
theorem inv_step {σ σ' : Sh} {has : Tid → Has} {t : Tid} {a : Act} {k : Ans a → P} {ans : Ans a} (h : Inv σ has)
    (hk : Keeps (.act a k) (has t)) (hs : AStep t a σ ans σ') :
    ∃ h', Keeps (k ans) h' ∧ Inv σ' (upd has t h') ∧ h'.gens = change a ans (has t).gens := by
  have same : upd has t (has t) = has := by
    funext u
    by_cases c : u = t
    · subst c; rw [upd_same]
    · rw [upd_other _ _ c]
  cases hs with
  | hit _ g hg =>
    refine ⟨_, hk.1 g, h.gensStep t (g :: (has t).gens) (σ.bag.erase g) (h.bag.erase g) ?_ ?_ ?_ ?_, rfl⟩
    · intro x hx; exact Or.inl (List.mem_of_mem_erase hx)
    · exact List.nodup_cons.2 ⟨fun hm => h.inside t g hm hg, h.gens t⟩
    · intro x hx
      rcases List.mem_cons.1 hx with rfl | hx
      · exact Or.inl hg
      · exact Or.inr hx
    · intro x hx hx'
      rcases List.mem_cons.1 hx with rfl | hx
      · exact absurd hx' (h.bag.not_mem_erase)
      · exact h.inside t x hx (List.mem_of_mem_erase hx')
  | miss => exact ⟨has t, hk.2, by rw [same]; exact h, rfl⟩
  | lock _ hl =>
    obtain ⟨k1, k2, k3⟩ := hk
    refine ⟨_, k3, h.lockStep t true _ (some t) σ.drawn ?_ ?_ (fun _ => rfl) ?_, rfl⟩
    · intro u
      by_cases c : u = t
      · subst c; simp
      · rw [if_neg c, ← h.lock u, hl]
        constructor
        · intro e; exact absurd (Option.some.inj e).symm c
        · intro e; cases e
    · intro n
      refine (h.seeds n).trans ?_
      constructor
      · rintro (g | ⟨u, g⟩)
        · exact Or.inl g
        · by_cases c : u = t
          · subst c; exact Or.inr (Or.inl g)
          · exact Or.inr (Or.inr ⟨u, c, g⟩)
      · rintro (g | g | ⟨u, -, g⟩)
        · exact Or.inl g
        · exact Or.inr ⟨t, g⟩
        · exact Or.inr ⟨u, g⟩
    · intro n hn; exact h.seedNew t n hn
  | seed =>
    obtain ⟨k1, k2, k3⟩ := hk
    have none : ∀ u n, (has u).seed ≠ some n := by
      intro u n
      by_cases c : u = t
      · subst c; rw [k2]; simp
      · rw [(h.onlySeed k1 c).2]; simp
    refine ⟨_, k3 σ.drawn, h.lockStep t true _ σ.lock (σ.drawn + 1) ?_ ?_ (fun _ => rfl) ?_, rfl⟩
    · intro u
      rw [h.lock u]
      by_cases c : u = t
      · subst c; simp [k1]
      · rw [if_neg c]
    · intro n
      have := h.seeds n
      constructor
      · intro hn
        by_cases c : n = σ.drawn
        · exact Or.inr (Or.inl (by rw [c]))
        · rcases this.1 (by omega) with g | ⟨u, g⟩
          · exact Or.inl g
          · exact absurd g (none u n)
      · rintro (g | g | ⟨u, -, g⟩)
        · have := this.2 (Or.inl g); omega
        · injection g with g; omega
        · exact absurd g (none u n)
    · intro n hn hm
      injection hn with hn
      subst hn
      exact absurd ((h.seeds σ.drawn).2 (Or.inl hm)) (Nat.lt_irrefl _)
  | make _ s =>
    obtain ⟨k1, k2, k3⟩ := hk
    exact ⟨_, k3 σ.seeds.length, h.makeStep t s k1 k2, rfl⟩
  | unlock _ hl =>
    obtain ⟨k1, k2, k3⟩ := hk
    refine ⟨_, k3, h.lockStep t false _ .none σ.drawn ?_ ?_ (fun e => absurd k2 e) ?_, rfl⟩
    · intro u
      by_cases c : u = t
      · subst c; simp
      · rw [if_neg c, (h.onlySeed k1 c).1]; simp
    · intro n
      refine (h.seeds n).trans ?_
      constructor
      · rintro (g | ⟨u, g⟩)
        · exact Or.inl g
        · by_cases c : u = t
          · subst c; exact Or.inr (Or.inl g)
          · exact Or.inr (Or.inr ⟨u, c, g⟩)
      · rintro (g | g | ⟨u, -, g⟩)
        · exact Or.inl g
        · exact Or.inr ⟨t, g⟩
        · exact Or.inr ⟨u, g⟩
    · intro n hn; exact h.seedNew t n hn
  | use _ g v => exact ⟨has t, hk.2 v, by rw [same]; exact h, rfl⟩
  | put _ g =>
    refine ⟨_, hk.2, h.gensStep t _ (g :: σ.bag) ?_ ?_ ((h.gens t).erase g) ?_ ?_, rfl⟩
    · exact List.nodup_cons.2 ⟨h.inside t g hk.1, h.bag⟩
    · intro x hx
      rcases List.mem_cons.1 hx with rfl | hx
      · exact Or.inr hk.1
      · exact Or.inl hx
    · intro x hx; exact Or.inr (List.mem_of_mem_erase hx)
    · intro x hx hx'
      rcases List.mem_cons.1 hx' with rfl | hx'
      · exact absurd hx ((h.gens t).not_mem_erase)
      · exact h.inside t x (List.mem_of_mem_erase hx) hx'
  | drop _ g =>
    refine ⟨_, hk.2, h.gensStep t _ σ.bag h.bag (fun x hx => Or.inl hx) ((h.gens t).erase g) ?_ ?_, rfl⟩
    · intro x hx; exact Or.inr (List.mem_of_mem_erase hx)
    · intro x hx; exact h.inside t x (List.mem_of_mem_erase hx)
  | evict _ g =>
    have e := h.gensStep t (has t).gens (σ.bag.erase g) (h.bag.erase g) (fun x hx => Or.inl (List.mem_of_mem_erase hx))
      (h.gens t) (fun x hx => Or.inr hx) (fun x hx hx' => h.inside t x hx (List.mem_of_mem_erase hx'))
    exact ⟨has t, hk, e, rfl⟩

end Verif.Xsync.Rand
