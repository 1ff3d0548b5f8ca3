import Verif.CustomMap.Model
import Verif.GoMap.Lemmas

/-!
# Properties C29 and C30: `Custom`

The overflow table is made in a copy of the receiver and lost, so a key whose hash is taken by another key
is dropped. The theorems: the map is exact on the histories without such collisions (which in particular
are all histories if inequivalent keys have different hashes), and on all histories what it finds is right.
-/

set_option linter.unusedSectionVars false

namespace Verif.CustomMap

open Verif.GoMap

/-- Operations. -/
inductive Op (K V : Type) where
  | set (k : K) (v : V) | get (k : K) | delete (k : K)

/-- Results: the flag of `Set` and `Delete`, and what `Get` returns. -/
inductive Res (V : Type) where
  | flag (b : Bool) | got (v : V) (ok : Bool)
  deriving DecidableEq

section
variable {K V : Type} [Inhabited V] (hash : K → UInt64) (equal : K → K → Bool)

/-- One operation of the model. -/
def run (m : Custom K V) : Op K V → Res V × Custom K V
  | .set k v => (.flag (set hash equal m k v).1, (set hash equal m k v).2)
  | .get k => (.got (get hash equal m k).1 (get hash equal m k).2, m)
  | .delete k => (.flag (delete hash equal m k).1, (delete hash equal m k).2)

/-- A sequence of operations. -/
def runAll (m : Custom K V) : List (Op K V) → List (Res V)
  | [] => []
  | op :: ops => (run hash equal m op).1 :: runAll (run hash equal m op).2 ops

/-- The same on a mathematical map keyed up to the equivalence. -/
def spec (m : PMap K V) : Op K V → Res V × PMap K V
  | .set k v => (.flag (m k).isNone, fun x => if equal k x then some v else m x)
  | .get k => (match m k with | some v => .got v true | none => .got default false, m)
  | .delete k => (.flag (m k).isSome, fun x => if equal k x then none else m x)

/-- A sequence of operations on a mathematical map. -/
def specAll (m : PMap K V) : List (Op K V) → List (Res V)
  | [] => []
  | op :: ops => (spec equal m op).1 :: specAll (spec equal m op).2 ops

/-- An equivalence, and a hash that agrees on equivalent keys. -/
structure Good : Prop where
  refl : ∀ a, equal a a = true
  symm : ∀ a b, equal a b = true → equal b a = true
  trans : ∀ a b c, equal a b = true → equal b c = true → equal a c = true
  hash : ∀ a b, equal a b = true → hash a = hash b

/-- What `Get` found, `none` if nothing; `none` for the other operations. -/
def Res.found {V : Type} : Res V → Option V
  | .got v true => some v
  | _ => none

/-- The full C29: what every `Get` finds is what a mathematical map gives. False (`C29_full_false`). -/
def C29_full (K V : Type) [Inhabited V] : Prop :=
  ∀ (hash : K → UInt64) (equal : K → K → Bool), Good hash equal → ∀ ops : List (Op K V),
    (runAll hash equal new ops).map Res.found = (specAll equal PMap.empty ops).map Res.found

/-- The full C30: moreover all flags, and zero values, agree. False (`C30_full_false`). -/
def C30_full (K V : Type) [Inhabited V] : Prop :=
  ∀ (hash : K → UInt64) (equal : K → K → Bool), Good hash equal → ∀ ops : List (Op K V),
    runAll hash equal new ops = specAll equal PMap.empty ops

/-- The key of an operation. -/
def Op.key {K V : Type} : Op K V → K
  | .set k _ => k
  | .get k => k
  | .delete k => k

/-- No operation's key has the hash of a live key that is not equivalent to it. -/
def NoClash (m : PMap K V) : List (Op K V) → Prop
  | [] => True
  | op :: ops => (∀ x, m x ≠ none → hash x = hash op.key → equal x op.key = true) ∧
      NoClash (spec equal m op).2 ops

/-! ## Invariants -/

/-- Whatever is in the table is in the mathematical map, under its hash; the overflow table is nil. -/
structure Sound (c : Custom K V) (m : PMap K V) : Prop where
  wf : c.main.WF
  ovf : c.ovf = none
  hash : ∀ h k v, c.main.get? h = some (k, v) → hash k = h ∧ m k = some v
  resp : ∀ x y, equal x y = true → m x = m y

/-- Whatever is in the mathematical map is in the table. -/
def Complete (c : Custom K V) (m : PMap K V) : Prop :=
  ∀ x v, m x = some v → ∃ k, c.main.get? (hash x) = some (k, v) ∧ equal k x = true

theorem sound_new : Sound hash equal (new : Custom K V) PMap.empty where
  wf := List.Pairwise.nil
  ovf := rfl
  hash h k v e := by cases e
  resp _ _ _ := rfl

variable {hash equal}

theorem get_eq {c : Custom K V} (ho : c.ovf = none) (k : K) : get hash equal c k =
    match c.main.get? (hash k) with
    | none => (default, false)
    | some e => (e.2, equal e.1 k) := by
  unfold get
  dsimp only
  cases c.main.get? (hash k) with
  | none => rfl
  | some e => cases he : equal e.1 k <;> simp [he, ho, MapVar.get?, Tab.get?]

theorem set_eq {c : Custom K V} (ho : c.ovf = none) (k : K) (v : V) : set hash equal c k v =
    match c.main.get? (hash k) with
    | none => (true, ⟨c.main.put (hash k) (k, v), none⟩)
    | some e => if equal e.1 k then (false, ⟨c.main.put (hash k) (k, v), none⟩) else (true, c) := by
  obtain ⟨main, ovf⟩ := c
  simp only at ho
  subst ho
  unfold set setBody writeBack
  dsimp only
  cases main.get? (hash k) with
  | none => rfl
  | some e => cases he : equal e.1 k <;> simp [he, MapVar.get?, Tab.get?]

theorem delete_eq {c : Custom K V} (ho : c.ovf = none) (k : K) : delete hash equal c k =
    match c.main.get? (hash k) with
    | none => (false, c)
    | some e => if equal e.1 k then (true, ⟨c.main.del (hash k), none⟩) else (false, c) := by
  obtain ⟨main, ovf⟩ := c
  simp only at ho
  subst ho
  unfold delete deleteBody writeBack
  dsimp only
  cases main.get? (hash k) with
  | none => rfl
  | some e => cases he : equal e.1 k <;> simp [he, MapVar.get?, Tab.get?]

theorem spec_resp (g : Good hash equal) {m : PMap K V} (hm : ∀ x y, equal x y = true → m x = m y) (op : Op K V) :
    ∀ x y, equal x y = true → (spec equal m op).2 x = (spec equal m op).2 y := by
  have heq : ∀ k x y, equal x y = true → equal k x = equal k y := by
    intro k x y h
    cases h1 : equal k x <;> cases h2 : equal k y
    · rfl
    · rw [g.trans _ _ _ h2 (g.symm _ _ h)] at h1; cases h1
    · rw [g.trans _ _ _ h1 h] at h2; cases h2
    · rfl
  intro x y h
  cases op with
  | set k v => simp only [spec]; rw [heq k x y h, hm x y h]
  | get k => exact hm x y h
  | delete k => simp only [spec]; rw [heq k x y h, hm x y h]

/-- The soundness invariant is kept by every operation. -/
theorem sound_run (g : Good hash equal) {c : Custom K V} {m : PMap K V} (h : Sound hash equal c m) (op : Op K V) :
    Sound hash equal (run hash equal c op).2 (spec equal m op).2 := by
  have hresp := spec_resp g h.resp op
  have put : ∀ k v, Sound hash equal ⟨c.main.put (hash k) (k, v), none⟩ (spec equal m (.set k v)).2 := by
    intro k v
    refine ⟨WF.put h.wf _ _, rfl, ?_, spec_resp g h.resp _⟩
    intro x k' v' e
    rw [get?_put h.wf] at e
    split at e
    · rename_i hx
      injection e with e
      injection e with e1 e2
      subst e1 e2
      exact ⟨hx.symm, by simp [spec, g.refl]⟩
    · rename_i hx
      obtain ⟨h1, h2⟩ := h.hash x k' v' e
      refine ⟨h1, ?_⟩
      simp only [spec]
      rw [if_neg, h2]
      intro c; exact hx (by rw [← h1, g.hash _ _ c])
  cases op with
  | set k v =>
    simp only [run, set_eq h.ovf]
    cases hm : c.main.get? (hash k) with
    | none => exact put k v
    | some e =>
      cases he : equal e.1 k with
      | true => simp only [he, if_true]; exact put k v
      | false =>
        simp only [he, Bool.false_eq_true, if_false]
        refine ⟨h.wf, h.ovf, ?_, hresp⟩
        intro x k' v' e'
        obtain ⟨h1, h2⟩ := h.hash x k' v' e'
        refine ⟨h1, ?_⟩
        simp only [spec]
        rw [if_neg, h2]
        intro c'
        rw [← h1, ← g.hash _ _ c', hm] at e'
        injection e' with e'
        rw [e'] at he
        rw [g.symm _ _ c'] at he; cases he
  | get k => exact h
  | delete k =>
    simp only [run, delete_eq h.ovf]
    cases hm : c.main.get? (hash k) with
    | none =>
      refine ⟨h.wf, h.ovf, ?_, hresp⟩
      intro x k' v' e'
      obtain ⟨h1, h2⟩ := h.hash x k' v' e'
      refine ⟨h1, ?_⟩
      simp only [spec]
      rw [if_neg, h2]
      intro c'
      rw [← h1, ← g.hash _ _ c', hm] at e'
      cases e'
    | some e =>
      cases he : equal e.1 k with
      | true =>
        simp only [he, if_true]
        refine ⟨WF.del h.wf _, rfl, ?_, hresp⟩
        intro x k' v' e'
        rw [get?_del h.wf] at e'
        split at e'
        · cases e'
        · rename_i hx
          obtain ⟨h1, h2⟩ := h.hash x k' v' e'
          refine ⟨h1, ?_⟩
          simp only [spec]
          rw [if_neg, h2]
          intro c; exact hx (by rw [← h1, g.hash _ _ c])
      | false =>
        simp only [he, Bool.false_eq_true, if_false]
        refine ⟨h.wf, h.ovf, ?_, hresp⟩
        intro x k' v' e'
        obtain ⟨h1, h2⟩ := h.hash x k' v' e'
        refine ⟨h1, ?_⟩
        simp only [spec]
        rw [if_neg, h2]
        intro c'
        rw [← h1, ← g.hash _ _ c', hm] at e'
        injection e' with e'
        rw [e'] at he
        rw [g.symm _ _ c'] at he; cases he

/-- What a sound table says of one operation. -/
theorem sound_res {c : Custom K V} {m : PMap K V} (h : Sound hash equal c m) :
    (∀ k v, get hash equal c k = (v, true) → m k = some v) ∧
    (∀ k, (delete hash equal c k).1 = true → (m k).isSome) ∧
    (∀ k v, (set hash equal c k v).1 = false → (m k).isSome) := by
  refine ⟨?_, ?_, ?_⟩
  · intro k v e
    rw [get_eq h.ovf] at e
    cases hm : c.main.get? (hash k) with
    | none => rw [hm] at e; cases e
    | some p =>
      rw [hm] at e
      injection e with e1 e2
      rw [← h.resp _ _ e2, (h.hash _ _ _ hm).2, ← e1]
  · intro k e
    rw [delete_eq h.ovf] at e
    cases hm : c.main.get? (hash k) with
    | none => rw [hm] at e; cases e
    | some p =>
      rw [hm] at e
      cases he : equal p.1 k with
      | false => simp [he] at e
      | true => rw [← h.resp _ _ he, (h.hash _ _ _ hm).2]; rfl
  · intro k v e
    rw [set_eq h.ovf] at e
    cases hm : c.main.get? (hash k) with
    | none => rw [hm] at e; cases e
    | some p =>
      rw [hm] at e
      cases he : equal p.1 k with
      | false => simp [he] at e
      | true => rw [← h.resp _ _ he, (h.hash _ _ _ hm).2]; rfl

/-- A result never claims what the mathematical map does not have: what `Get` finds is the right value, a
`Set` that says "not added" and a `Delete` that says "deleted" were of present keys. -/
def Sure {V : Type} : Op K V → Res V → Res V → Prop
  | .get _, r, r' => ∀ v, r = .got v true → r' = .got v true
  | .set _ _, r, r' => r = .flag false → r' = .flag false
  | .delete _, r, r' => r = .flag true → r' = .flag true

/-- Holds of each operation of a sequence. -/
def SureAll {V : Type} : List (Op K V) → List (Res V) → List (Res V) → Prop
  | [], [], [] => True
  | op :: ops, r :: rs, r' :: rs' => Sure op r r' ∧ SureAll ops rs rs'
  | _, _, _ => False

/-- **C29/C30** on every history, collisions or not: hits are right. Missing: misses may be wrong. -/
theorem C29_hits_partial (g : Good hash equal) (ops : List (Op K V)) :
    SureAll ops (runAll hash equal new ops) (specAll equal PMap.empty ops) := by
  have key : ∀ (ops : List (Op K V)) (c : Custom K V) (m : PMap K V), Sound hash equal c m →
      SureAll ops (runAll hash equal c ops) (specAll equal m ops) := by
    intro ops
    induction ops with
    | nil => intro c m _; trivial
    | cons op ops ih =>
      intro c m h
      refine ⟨?_, ih _ _ (sound_run g h op)⟩
      obtain ⟨h1, h2, h3⟩ := sound_res h
      cases op with
      | set k v =>
        intro e
        simp only [run] at e
        injection e with e
        simp only [spec]
        have := h3 k v e
        cases hm : m k with
        | none => rw [hm] at this; cases this
        | some _ => rfl
      | get k =>
        intro v e
        simp only [run] at e
        injection e with e e'
        simp only [spec]
        rw [h1 k v (Prod.ext e e')]
      | delete k =>
        intro e
        simp only [run] at e
        injection e with e
        simp only [spec]
        rw [h2 k e]
  exact key ops new PMap.empty (sound_new hash equal)

/-- Without a clash the operation is exact, and completeness is kept. -/
theorem exact_run (g : Good hash equal) {c : Custom K V} {m : PMap K V} (h : Sound hash equal c m)
    (hc : Complete hash equal c m) (op : Op K V)
    (hno : ∀ x, m x ≠ none → hash x = hash op.key → equal x op.key = true) :
    (run hash equal c op).1 = (spec equal m op).1 ∧
      Complete hash equal (run hash equal c op).2 (spec equal m op).2 := by
  -- the slot of the key's hash is free, or holds an equivalent key
  have slot : (c.main.get? (hash op.key) = none ∧ m op.key = none) ∨
      ∃ e, c.main.get? (hash op.key) = some e ∧ equal e.1 op.key = true ∧ m op.key = some e.2 := by
    cases hm : c.main.get? (hash op.key) with
    | none =>
      refine Or.inl ⟨rfl, ?_⟩
      cases hk : m op.key with
      | none => rfl
      | some v => obtain ⟨k, e, -⟩ := hc _ _ hk; rw [hm] at e; cases e
    | some e =>
      obtain ⟨h1, h2⟩ := h.hash _ e.1 e.2 hm
      have he := hno e.1 (by rw [h2]; exact fun c => by cases c) h1
      exact Or.inr ⟨e, rfl, he, by rw [← h.resp _ _ he, h2]⟩
  -- a live key with that hash is the key itself
  have same : ∀ x v, m x = some v → hash x = hash op.key → equal op.key x = true := by
    intro x v hx hh
    exact g.symm _ _ (hno x (by rw [hx]; exact fun c => by cases c) hh)
  have cput : ∀ k v, op = .set k v → Complete hash equal ⟨c.main.put (hash k) (k, v), none⟩ (spec equal m op).2 := by
    rintro k v rfl x w hx
    simp only [spec] at hx
    simp only
    rw [get?_put h.wf]
    split at hx
    · rename_i hk
      injection hx with hx
      subst hx
      exact ⟨k, by rw [if_pos (g.hash _ _ hk).symm], hk⟩
    · rename_i hk
      rw [if_neg]
      · exact hc x w hx
      · intro hh; exact hk (same x w hx hh)
  cases op with
  | set k v =>
    simp only [run, set_eq h.ovf, Op.key] at *
    rcases slot with ⟨e1, e2⟩ | ⟨e, e1, e2, e3⟩
    · rw [e1]; exact ⟨by simp [spec, e2], cput k v rfl⟩
    · rw [e1]
      simp only [e2, if_true]
      exact ⟨by simp [spec, e3], cput k v rfl⟩
  | get k =>
    simp only [run, get_eq h.ovf, Op.key] at *
    rcases slot with ⟨e1, e2⟩ | ⟨e, e1, e2, e3⟩
    · rw [e1]; exact ⟨by simp [spec, e2], hc⟩
    · rw [e1]; exact ⟨by simp [spec, e3, e2], hc⟩
  | delete k =>
    simp only [run, delete_eq h.ovf, Op.key] at *
    rcases slot with ⟨e1, e2⟩ | ⟨e, e1, e2, e3⟩
    · rw [e1]
      refine ⟨by simp [spec, e2], ?_⟩
      intro x w hx
      simp only [spec] at hx
      split at hx
      · cases hx
      · exact hc x w hx
    · rw [e1]
      simp only [e2, if_true]
      refine ⟨by simp [spec, e3], ?_⟩
      intro x w hx
      simp only [spec] at hx
      split at hx
      · cases hx
      · rename_i hk
        simp only
        rw [get?_del h.wf, if_neg]
        · exact hc x w hx
        · intro hh; exact hk (same x w hx hh)

/-- **C29 and C30** on histories in which no operation's key has the hash of a live key that is not
equivalent to it: all results, flags and zero values included, are those of a mathematical map. Missing:
histories with such collisions, for which both are false. -/
theorem C29_C30_partial (g : Good hash equal) (ops : List (Op K V))
    (hno : NoClash hash equal (PMap.empty : PMap K V) ops) :
    runAll hash equal new ops = specAll equal PMap.empty ops := by
  have key : ∀ (ops : List (Op K V)) (c : Custom K V) (m : PMap K V), Sound hash equal c m →
      Complete hash equal c m → NoClash hash equal m ops → runAll hash equal c ops = specAll equal m ops := by
    intro ops
    induction ops with
    | nil => intro c m _ _ _; rfl
    | cons op ops ih =>
      intro c m h hc hn
      obtain ⟨h1, h2⟩ := exact_run g h hc op hn.1
      simp only [runAll, specAll, h1]
      rw [ih _ _ (sound_run g h op) h2 hn.2]
  exact key ops new PMap.empty (sound_new hash equal) (fun x v h => by cases h) hno

/-- The mathematical map after a history. -/
def specEnd (equal : K → K → Bool) (m : PMap K V) : List (Op K V) → PMap K V
  | [] => m
  | op :: ops => specEnd equal (spec equal m op).2 ops

/-- These histories are as many as can be: at the first operation whose key `k` has the hash of a live key `x` not
equivalent to it, `Get` returns the value of `x` and not the zero value, and if `k` is `Set`, the map says that `k` was
added and does not have it. -/
theorem C29_clash_loses (g : Good hash equal) (ops : List (Op K V)) (hno : NoClash hash equal (PMap.empty : PMap K V) ops)
    (k x : K) (v w : V) (hx : specEnd equal PMap.empty ops x = some w) (hh : hash x = hash k) (he : equal x k = false) :
    runAll hash equal new (ops ++ [.get k, .set k v, .get k, .delete k]) =
      specAll equal PMap.empty ops ++ [.got w false, .flag true, .got w false, .flag false] := by
  have key : ∀ (ops : List (Op K V)) (c : Custom K V) (m : PMap K V), Sound hash equal c m →
      Complete hash equal c m → NoClash hash equal m ops → specEnd equal m ops x = some w →
      runAll hash equal c (ops ++ [.get k, .set k v, .get k, .delete k]) =
        specAll equal m ops ++ [.got w false, .flag true, .got w false, .flag false] := by
    intro ops
    induction ops with
    | nil =>
      intro c m h hc _ hx
      obtain ⟨k', e1, e2⟩ := hc x w hx
      rw [hh] at e1
      have e3 : equal k' k = false := by
        cases e : equal k' k with
        | false => rfl
        | true => rw [g.trans _ _ _ (g.symm _ _ e2) e] at he; cases he
      have hs : set hash equal c k v = (true, c) := by
        rw [set_eq h.ovf]; simp [e1, e3]
      simp [runAll, run, specAll, hs, get_eq h.ovf, delete_eq h.ovf, e1, e3]
    | cons op ops ih =>
      intro c m h hc hn hx
      obtain ⟨h1, h2⟩ := exact_run g h hc op hn.1
      simp only [List.cons_append, runAll, specAll, h1]
      rw [ih _ _ (sound_run g h op) h2 hn.2 hx]
  exact key ops new PMap.empty (sound_new hash equal) (fun x v h => by cases h) hno hx

/-- In particular, if the hash tells inequivalent keys apart, every history is right. -/
theorem C29_C30_injective_partial (g : Good hash equal) (hinj : ∀ a b, hash a = hash b → equal a b = true)
    (ops : List (Op K V)) : runAll hash equal new ops = specAll equal PMap.empty ops := by
  apply C29_C30_partial g
  have : ∀ (ops : List (Op K V)) (m : PMap K V), NoClash hash equal m ops := by
    intro ops
    induction ops with
    | nil => intro m; trivial
    | cons op ops ih => intro m; exact ⟨fun x _ hx => hinj _ _ hx, ih _⟩
  exact this ops PMap.empty

end

/-! ## Counterexamples -/

/-- Two keys with the same hash: the second is lost, though `Set` said it was added. -/
theorem C29_full_false : ¬ C29_full Nat Nat := by
  intro h
  have := h (fun _ => 7) (fun a b => a == b)
    ⟨by simp, by simp, by simp, fun _ _ _ => rfl⟩
    [.set 1 10, .set 2 20, .get 2]
  revert this
  decide +kernel

/-- `Get` of an absent key returns the value of another key instead of zero (with `ok == false`). -/
theorem C30_zero_false : runAll (fun _ => 7) (fun a b : Nat => a == b) new [.set 1 10, .get 2] =
    [.flag true, .got 10 false] := by decide +kernel

/-- `Set` twice reports "added" twice. -/
theorem C30_full_false : ¬ C30_full Nat Nat := by
  intro h
  have := h (fun _ => 7) (fun a b => a == b)
    ⟨by simp, by simp, by simp, fun _ _ _ => rfl⟩
    [.set 1 10, .set 2 20, .set 2 21]
  revert this
  decide +kernel

/-- Case-insensitive-like keys: numbers up to parity of the last bit, hashed accordingly. -/
example : Good (fun k : Nat => UInt64.ofNat (k / 2)) (fun a b => a / 2 == b / 2) where
  refl := by simp
  symm := by simp; exact fun a b h => h.symm
  trans := by simp; exact fun a b c h h' => h.trans h'
  hash := by simp; intro a b h; rw [h]
/-- A history with keys of equal hashes (1 and 5), of which never two are live at a time. -/
example : NoClash (fun k : Fin 6 => UInt64.ofNat (k.val % 4)) (fun a b => a == b) (PMap.empty : PMap (Fin 6) Nat)
    [.set 1 10, .set 2 20, .delete 1, .set 5 50, .get 5, .get 2] := by
  simp only [NoClash, Op.key]
  refine ⟨?_, ?_, ?_, ?_, ?_, ?_, trivial⟩ <;> decide +kernel
example : runAll (fun k : Nat => UInt64.ofNat (k % 4)) (fun a b => a == b) new
    [.set 1 10, .set 2 20, .set 1 11, .get 1, .delete 1, .delete 1, .get 1, .set 5 50, .get 5, .get 2] =
    [.flag true, .flag true, .flag false, .got 11 true, .flag true, .flag false, .got 0 false, .flag true,
      .got 50 true, .got 20 true] := by decide +kernel

end Verif.CustomMap
