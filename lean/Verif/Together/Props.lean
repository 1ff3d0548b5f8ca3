import Verif.Conc.Local
import Verif.AtomicValue.Client
import Verif.AtomicPtr.Client
import Verif.Sharded.Client
import Verif.Xsync.Client

/-!
# C127: several concurrent objects used together

Any number of `Ptr`s, `Value`s, `Sharded` maps and synchronised values. Linearizability is local (Conc/Local.lean), so
programs that use several of them may take each call as one step.
-/

namespace Verif.Together

open Verif.Conc

/-- A concurrent object, with what it starts with. -/
inductive Kind : Type 1 where
  /-- a `Value` (atomic/value.go) of a type with equality `==` -/
  | value (T : Type) [Inhabited T] (E : AtomicValue.GoEq T) (hE : ∀ a b, E.eq a b = true ↔ a = b)
  /-- a `Ptr` (atomic/ptr.go) -/
  | ptr (p : AtomicPtr.Addr)
  /-- a `Sharded` map (ds/xmap/sharded.go) -/
  | map (K V : Type) [DecidableEq K] [Inhabited V] (c : Sharded.Conf K)
  /-- a synchronised value (xsync/synchronized.go) whose sections give `R` -/
  | sync (T R : Type) (x : T)

/-- Its machine. -/
abbrev Kind.M : Kind → Machine
  | @Kind.value T _i _ _ => AtomicValue.mach T
  | .ptr _ => AtomicPtr.mach
  | @Kind.map K V _i _j _ => Sharded.mach K V
  | .sync T _ _ => Xsync.mach T

/-- Its methods. -/
abbrev Kind.Op : Kind → Type
  | @Kind.value T _i _ _ => AtomicValue.Op T
  | .ptr _ => AtomicPtr.Op
  | @Kind.map K V _i _j _ => Sharded.Op K V
  | .sync T R _ => Xsync.Op T R

/-- Their results. -/
abbrev Kind.R : Kind → Type
  | @Kind.value T _i _ _ => AtomicValue.Res T
  | .ptr _ => AtomicPtr.Res
  | @Kind.map K V _i _j _ => Sharded.Res K V
  | .sync _ R _ => R

/-- Their bodies. -/
abbrev Kind.body : (k : Kind) → k.Op → Prog k.M.A k.M.Ans k.R
  | @Kind.value _ _i E _ => AtomicValue.body E
  | .ptr _ => AtomicPtr.body
  | @Kind.map _ _ _i _j c => Sharded.body c
  | .sync _ _ _ => Xsync.body

/-- Its memory at first. -/
abbrev Kind.sh : (k : Kind) → k.M.Sh
  | @Kind.value _ _i _ _ => AtomicValue.zero
  | .ptr p => AtomicPtr.newPtr p
  | @Kind.map _ _ _i _j _ => Sharded.fresh
  | .sync _ _ x => Xsync.fresh x

/-- The plain object: a variable (`CompareAndSwap` may fail without cause), a pointer variable, a map, a value. -/
abbrev Kind.spec : (k : Kind) → SeqSpec k.Op k.R
  | @Kind.value T _i _ _ => AtomicValue.exactVar T false
  | .ptr p => AtomicPtr.var p
  | @Kind.map K V _i _j _ => Sharded.mapSpec K V
  | .sync _ _ x => Xsync.atomicUse x

/-- Calls considered: not `Clear` and `IterateShards` of maps, and sections that under a read lock do not write. -/
abbrev Kind.Ok : (k : Kind) → k.Op → Prop
  | @Kind.value _ _i _ _, _ => True
  | .ptr _, _ => True
  | @Kind.map _ _ _i _j _, op => Sharded.SingleKey op ∨ Sharded.ReadsAll op
  | .sync _ _ _, op => Xsync.Allowed op

/-- The objects side by side. -/
abbrev objects {I : Type} (kind : I → Kind) : Family I where
  M i := (kind i).M
  Op i := (kind i).Op
  R i := (kind i).R
  body i := (kind i).body
  sh i := (kind i).sh

theorem each (k : Kind) (tr : List (Label k.M k.Op k.R)) (c : Config k.M k.Op k.R)
    (he : Exec k.body (Config.init k.sh) tr c) (hA : Calls (fun _ => k.Ok) tr) : Linearizable k.spec (history tr) := by
  cases k with
  | value T E hE => exact AtomicValue.C39_exact_partial E hE tr c he
  | ptr p => exact AtomicPtr.C81_linearizable p tr c he
  | map K V c' => exact Sharded.Props.C34_sharded_linearizable c' tr c he hA
  | sync T R x => exact Xsync.sections_linearizable he hA

variable {I : Type} [DecidableEq I]

/-- **Histories of several objects are linearizable**: as if all calls, on whichever object, had been made one at a
time. -/
theorem C127_linearizable (kind : I → Kind) (tr : List (Label (objects kind).mach _ _)) (c : Config (objects kind).mach _ _)
    (he : Exec (objects kind).bodies (Config.init (M := (objects kind).mach) (objects kind).sh) tr c)
    (hA : Calls (fun _ op => (kind op.1).Ok op.2) tr) :
    Linearizable (SeqSpec.all fun i => (kind i).spec) (history tr) :=
  Family.linearizable (F := objects kind) (A := fun i => (kind i).Ok) (fun i => each (kind i)) he hA

/-- **Programs over several objects** may take each call as one step. -/
theorem C127_atomic {Q : Type} (kind : I → Kind) (P : Client (Sigma (objects kind).Op) (Sigma (objects kind).R) Q)
    (q0 : Tid → Q) (hop : ∀ q op, P.ask q = some op → (kind op.1).Ok op.2)
    (tr : List (Label (objects kind).mach _ _)) (c : Config (objects kind).mach _ _)
    (he : Exec (objects kind).bodies (Config.init (M := (objects kind).mach) (objects kind).sh) tr c)
    (hf : P.Follows q0 (history tr)) :
    ∃ l s q, P.Atomic (SeqSpec.all fun i => (kind i).spec) q0 l s q ∧ ∀ t, q t = P.after q0 (history tr) t ∨
      ∃ op r, (c.th t).op = some op ∧ q t = P.go (P.after q0 (history tr) t) r :=
  Family.atomic (F := objects kind) (A := fun i => (kind i).Ok) (fun i => each (kind i)) P q0 hop he hf

/-! ## Publishing a value -/

section
variable {T K V : Type} [Inhabited T] [DecidableEq K] [Inhabited V]

/-- A `Value` (`false`) and a `Sharded` map (`true`). -/
abbrev both (V : Type) [Inhabited V] (E : AtomicValue.GoEq T) (hE : ∀ a b, E.eq a b = true ↔ a = b) (c : Sharded.Conf K) : Bool → Kind
  | false => .value T E hE
  | true => .map K V c

/-- A goroutine that stores `x` in the `Value` and then sets a key in the map, or one that looks whether the key is
there, and if so loads the `Value`. -/
inductive Pub (T : Type) where
  | write | announce | written | ask | load | got (x : T) | none
  deriving DecidableEq

/-- The programs. -/
def publish (E : AtomicValue.GoEq T) (hE : ∀ a b, E.eq a b = true ↔ a = b) (c : Sharded.Conf K) (x : T) (k : K) (v : V) :
    Client (Sigma (objects (both V E hE c)).Op) (Sigma (objects (both V E hE c)).R) (Pub T) where
  ask
    | .write => some ⟨false, AtomicValue.Op.store x⟩
    | .announce => some ⟨true, Sharded.Op.set k v⟩
    | .ask => some ⟨true, Sharded.Op.has k⟩
    | .load => some ⟨false, AtomicValue.Op.load⟩
    | .written | .got _ | .none => Option.none
  go q r := match q, r with
    | .write, _ => .announce
    | .announce, _ => .written
    | .ask, ⟨true, (r : Sharded.Res K V)⟩ => match r with
      | .bool true => .load
      | _ => .none
    | .load, ⟨false, (r : AtomicValue.Res T)⟩ => match r with
      | .val y => .got y
      | _ => .none
    | q, _ => q

/-- **Who sees the key sees the value.** -/
theorem C127_publish (E : AtomicValue.GoEq T) (hE : ∀ a b, E.eq a b = true ↔ a = b) (c : Sharded.Conf K) (x : T) (k : K)
    (v : V) (tr : List (Label (objects (both V E hE c)).mach _ _)) (s : Config (objects (both V E hE c)).mach _ _)
    (he : Exec (objects (both V E hE c)).bodies (Config.init (M := (objects (both V E hE c)).mach) (objects (both V E hE c)).sh) tr s)
    (hf : (publish E hE c x k v).Follows (fun t => if t = 0 then .write else .ask) (history tr)) (t : Tid) (y : T)
    (hy : (publish E hE c x k v).after (fun t => if t = 0 then .write else .ask) (history tr) t = .got y) : y = x := by
  obtain ⟨l, σ, q, ha, hq⟩ := C127_atomic (both V E hE c) (publish E hE c x k v) _ (fun q op h => by
    cases q <;> first
      | (injection h with h; subst h; exact trivial)
      | (injection h with h; subst h; exact Or.inl trivial)
      | cases h) tr s he hf
  -- what can be, when each call is one step
  let Early (q : Tid → Pub T) (σ : (SeqSpec.all fun i => (both V E hE c i).spec).St) : Prop :=
    σ true k = none ∧ ∀ t, t ≠ 0 → q t = .ask ∨ q t = .none
  have key : (q 0 = .write ∧ Early q σ) ∨ (q 0 = .announce ∧ σ false = x ∧ Early q σ) ∨
      (q 0 = .written ∧ σ false = x ∧ ∀ t, t ≠ 0 → q t = .ask ∨ q t = .none ∨ q t = .load ∨ q t = .got x) := by
    clear hq
    induction ha with
    | nil => exact Or.inl ⟨rfl, rfl, fun t ht => Or.inl (if_neg ht)⟩
    | @snoc l σ σ' q t op r _ hask hl ih =>
      by_cases h0 : t = 0
      · -- the writer
        subst h0
        have others : ∀ z, ∀ u, u ≠ 0 → upd q 0 z u = q u := fun z u hu => upd_other _ _ hu
        rcases ih with ⟨e, e1, e2⟩ | ⟨e, e0, e1, e2⟩ | ⟨e, -⟩ <;> rw [e] at hask
        · injection hask with hask
          subst hask
          obtain ⟨hr, hl, hrest⟩ := hl
          obtain ⟨-, hl⟩ := hl
          refine Or.inr (Or.inl ⟨by rw [upd_same, e]; rfl, hl, ?_, fun u hu => by rw [others _ u hu]; exact e2 u hu⟩)
          rw [hrest true (fun h => Bool.noConfusion h)]; exact e1
        · injection hask with hask
          subst hask
          obtain ⟨hr, hl, hrest⟩ := hl
          refine Or.inr (Or.inr ⟨by rw [upd_same, e]; rfl, ?_, fun u hu => ?_⟩)
          · rw [hrest false (fun h => Bool.noConfusion h)]; exact e0
          · rw [others _ u hu]
            rcases e2 u hu with h | h
            · exact Or.inl h
            · exact Or.inr (Or.inl h)
        · cases hask
      · -- a reader
        have h0' : ∀ z, upd q t z 0 = q 0 := fun z => upd_other _ _ (Ne.symm h0)
        -- asking
        have asking : q t = .ask → (σ' = σ) ∧ ((publish E hE c x k v).go (q t) r = .none ∨
            ((publish E hE c x k v).go (q t) r = .load ∧ (σ true k).isSome = true)) := by
          intro e
          rw [e] at hask
          injection hask with hask
          subst hask
          obtain ⟨hr, hl, hrest⟩ := hl
          obtain ⟨⟨hl1, hl2⟩, -⟩ : ((σ' true) = (σ true) ∧ _) ∧ True := ⟨hl.1 trivial, trivial⟩
          refine ⟨?_, ?_⟩
          · funext b
            cases b
            · exact hrest false (fun h => Bool.noConfusion h)
            · exact hl1
          · obtain ⟨b, r⟩ := r
            simp only at hr
            subst hr
            replace hl2 : r = .bool ((σ true : GoMap.PMap K V) k).isSome := hl2
            subst hl2
            rw [e]
            cases hb : ((σ true : GoMap.PMap K V) k).isSome with
            | true => right; exact ⟨rfl, rfl⟩
            | false => left; rfl
        have step : ∀ z, (z = .none ∨ z = .ask) → (∀ u, u ≠ 0 → q u = .ask ∨ q u = .none) →
            ∀ u, u ≠ 0 → upd q t z u = .ask ∨ upd q t z u = .none := by
          intro z hz h u hu
          by_cases cu : u = t
          · subst cu; rw [upd_same]; exact hz.symm
          · rw [upd_other _ _ cu]; exact h u hu
        have early : Early q σ → σ' = σ ∧ Early (upd q t ((publish E hE c x k v).go (q t) r)) σ' := by
          rintro ⟨e1, e2⟩
          rcases e2 t h0 with e | e
          · obtain ⟨a1, a2⟩ := asking e
            refine ⟨a1, by rw [a1]; exact e1, step _ ?_ e2⟩
            rcases a2 with a2 | ⟨-, a2⟩
            · exact Or.inl a2
            · rw [e1] at a2; cases a2
          · rw [e] at hask; cases hask
        rcases ih with ⟨e, e1⟩ | ⟨e, e0, e1⟩ | ⟨e, e0, e2⟩
        · exact Or.inl ⟨by rw [h0']; exact e, (early e1).2⟩
        · refine Or.inr (Or.inl ⟨by rw [h0']; exact e, ?_, (early e1).2⟩)
          rw [(early e1).1]; exact e0
        · refine Or.inr (Or.inr ⟨by rw [h0']; exact e, ?_⟩)
          rcases e2 t h0 with d | d | d | d
          · obtain ⟨a1, a2⟩ := asking d
            refine ⟨by rw [a1]; exact e0, fun u hu => ?_⟩
            by_cases cu : u = t
            · subst cu
              rw [upd_same]
              rcases a2 with a2 | ⟨a2, -⟩
              · exact Or.inr (Or.inl a2)
              · exact Or.inr (Or.inr (Or.inl a2))
            · rw [upd_other _ _ cu]; exact e2 u hu
          · rw [d] at hask; cases hask
          · rw [d] at hask
            injection hask with hask
            subst hask
            obtain ⟨hr, hl, hrest⟩ := hl
            obtain ⟨hl1, hl2⟩ := hl
            refine ⟨hl2.trans e0, fun u hu => ?_⟩
            by_cases cu : u = t
            · subst cu
              rw [upd_same, d]
              obtain ⟨b, r⟩ := r
              simp only at hr
              subst hr
              replace hl1 : r = .val (σ false) := hl1
              subst hl1
              refine Or.inr (Or.inr (Or.inr ?_))
              exact congrArg Pub.got e0
            · rw [upd_other _ _ cu]; exact e2 u hu
          · rw [d] at hask; cases hask
  have hqt : q t = .got y := by
    rcases hq t with e | ⟨op, r, e1, e2⟩
    · exact e.trans hy
    · have := hf.pending he.turns.orderly e1
      rw [hy] at this; cases this
  rcases key with ⟨e, -, h⟩ | ⟨e, -, -, h⟩ | ⟨e, -, h⟩ <;> by_cases h0 : t = 0
  · subst h0; rw [hqt] at e; cases e
  · rcases h t h0 with d | d <;> rw [hqt] at d <;> cases d
  · subst h0; rw [hqt] at e; cases e
  · rcases h t h0 with d | d <;> rw [hqt] at d <;> cases d
  · subst h0; rw [hqt] at e; cases e
  · rcases h t h0 with d | d | d | d <;> rw [hqt] at d <;> cases d
    rfl

end

/-! ## An execution -/

/-- The two objects for numbers. -/
abbrev demo : Bool → Kind := both Nat (AtomicValue.exactEq Nat) (fun a b => by simp [AtomicValue.exactEq]) Sharded.Props.two

/-- Some outcome of an action. -/
def outcome (t : Tid) : (a : (objects demo).mach.A) → (objects demo).mach.Sh → Option ((objects demo).mach.Ans a × (objects demo).mach.Sh)
  | ⟨false, (a : AtomicValue.Act Nat)⟩, σ => (AtomicValue.outcome t a (σ false)).map fun x =>
      (x.1, fun | false => x.2 | true => σ true)
  | ⟨true, (a : Sharded.Act Nat Nat)⟩, σ => (Sharded.Props.outcome t a (σ true)).map fun x =>
      (x.1, fun | false => σ false | true => x.2)

theorem outcome_step (t : Tid) (a : (objects demo).mach.A) (σ : (objects demo).mach.Sh) (ans : (objects demo).mach.Ans a)
    (σ' : (objects demo).mach.Sh) (h : outcome t a σ = some (ans, σ')) : (objects demo).mach.step t a σ ans σ' := by
  obtain ⟨b, a⟩ := a
  cases b with
  | false =>
    simp only [outcome, Option.map_eq_some_iff] at h
    obtain ⟨⟨y, z⟩, h1, h2⟩ := h
    injection h2 with h2 h3
    subst h2 h3
    refine ⟨AtomicValue.outcome_step t a _ _ _ h1, fun j hj => ?_⟩
    cases j with
    | false => exact absurd rfl hj
    | true => rfl
  | true =>
    simp only [outcome, Option.map_eq_some_iff] at h
    obtain ⟨⟨y, z⟩, h1, h2⟩ := h
    injection h2 with h2 h3
    subst h2 h3
    refine ⟨Sharded.Props.outcome_step t a _ _ _ h1, fun j hj => ?_⟩
    cases j with
    | false => rfl
    | true => exact absurd rfl hj

/-- One writes and announces; one looks too early; one looks while the other is still returning, and loads. -/
def schedule : List (Conc.Go (Sigma (objects demo).Op)) :=
  [.call 0 ⟨false, AtomicValue.Op.store 5⟩, .act 0, .call 2 ⟨true, Sharded.Op.has 4⟩, .act 2, .act 2, .act 2, .ret 2, .act 0,
    .ret 0, .call 0 ⟨true, Sharded.Op.set 4 9⟩, .act 0, .act 0, .act 0, .act 0, .call 1 ⟨true, Sharded.Op.has 4⟩,
    .act 1, .act 1, .act 1, .ret 1, .call 1 ⟨false, AtomicValue.Op.load⟩, .act 1, .act 1, .ret 0, .ret 1]

/-- The calls can be compared. -/
def sameOp : (a b : Sigma (objects demo).Op) → Decidable (a = b)
  | ⟨false, (a : AtomicValue.Op Nat)⟩, ⟨false, (b : AtomicValue.Op Nat)⟩ => decidable_of_iff (a = b) (by simp)
  | ⟨true, (a : Sharded.Op Nat Nat)⟩, ⟨true, (b : Sharded.Op Nat Nat)⟩ => decidable_of_iff (a = b) (by simp)
  | ⟨false, _⟩, ⟨true, _⟩ => .isFalse (by simp)
  | ⟨true, _⟩, ⟨false, _⟩ => .isFalse (by simp)

instance : DecidableEq (Sigma (objects demo).Op) := sameOp

/-- The program for this example. -/
abbrev prog := publish (V := Nat) (AtomicValue.exactEq Nat) (fun a b => by simp [AtomicValue.exactEq]) Sharded.Props.two 5 4 9

/-- The schedule, run. -/
abbrev ran := followAll (M := (objects demo).mach) (R := Sigma (objects demo).R) (objects demo).bodies outcome schedule
    (Config.init (M := (objects demo).mach) (objects demo).sh)

example : ∃ tr s, Exec (objects demo).bodies (Config.init (M := (objects demo).mach) (objects demo).sh) tr s ∧
    prog.Follows (fun t => if t = 0 then .write else .ask) (history tr) ∧
    prog.after (fun t => if t = 0 then .write else .ask) (history tr) 0 = .written ∧
    prog.after (fun t => if t = 0 then .write else .ask) (history tr) 1 = .got 5 ∧
    prog.after (fun t => if t = 0 then .write else .ask) (history tr) 2 = .none := by
  have hsome : ran.isSome = true := by decide +kernel
  obtain ⟨⟨tr, cs, s⟩, hr⟩ := Option.isSome_iff_exists.1 hsome
  have key : ran.map (fun x => (prog.followsB (fun t => if t = 0 then .write else .ask) (history x.1),
      prog.after (fun t => if t = 0 then .write else .ask) (history x.1) 0,
      prog.after (fun t => if t = 0 then .write else .ask) (history x.1) 1,
      prog.after (fun t => if t = 0 then .write else .ask) (history x.1) 2)) = some (true, .written, .got 5, .none) := by
    decide +kernel
  rw [hr] at key
  simp only [Option.map_some, Option.some.injEq, Prod.mk.injEq] at key
  exact ⟨tr, s, followAll_exec outcome_step hr, Client.followsB_sound _ _ _ key.1, key.2⟩

end Verif.Together
