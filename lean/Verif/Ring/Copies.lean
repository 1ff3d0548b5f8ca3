import Verif.Ring.Heap

/-!
# C117: copies of a ring value

`Ring` is a struct, and its reading methods take it by value, so `q := r` is allowed. It copies the header
only: both then use the same buffer until one of them changes its capacity. Here: what exactly the two
see of each other, when they are independent, and one use that is safe before (adding).
-/

namespace Verif.RingMem

open Verif.Iter
open Verif.Slice (Heap Ptr Valid Upd Cells)

variable {T : Type} [Inhabited T]
set_option linter.unusedSectionVars false

/-! ## Specification -/

/-- The cell of the buffer a call writes, and what it writes there, if it does not change the capacity: the one
behind the last element, the one in front of the first, the first, the last, the `i`-th. -/
def written (cap st len : Nat) : Ring.Op T → Option (Nat × T)
  | .append v => some ((st + len) % cap, v)
  | .push v => some ((st + len) % cap, v)
  | .prepend v => some ((st + cap - 1) % cap, v)
  | .pop => if len = 0 then none else some (st, default)
  | .deleteFirst => if len = 0 then none else some (st, default)
  | .deleteLast => if len = 0 then none else some ((st + len - 1) % cap, default)
  | .set i v => if 0 ≤ i ∧ i < len then some ((st + i.toNat) % cap, v) else none
  | _ => none

/-- What a ring that starts at cell `st` of the buffer and holds `l` holds after cell `p` was written. -/
def sees (cap st : Nat) (l : List T) : Option (Nat × T) → List T
  | none => l
  | some (p, v) => l.set ((p + cap - st) % cap) v

/-- The two rings have no cell of memory in common. -/
def Apart (r₁ r₂ : HRing) : Prop := ∀ a k, Cells r₁.buf r₁.buf.len a k → ¬ Cells r₂.buf r₂.buf.len a k

/-- Any sequence of calls on two rings: the calls on each with their results, memory and the rings afterwards. -/
inductive Pair (h₀ : Heap T) (q₁ q₂ : HRing) :
    List (Ring.Op T) → List (Ring.Out T) → List (Ring.Op T) → List (Ring.Out T) → Heap T → HRing → HRing → Prop
  | start : Pair h₀ q₁ q₂ [] [] [] [] h₀ q₁ q₂
  | one {os₁ out₁ os₂ out₂ h r₁ r₂} (o : Ring.Op T) : Pair h₀ q₁ q₂ os₁ out₁ os₂ out₂ h r₁ r₂ → r₁.buf.len < 2 ^ 61 →
      Pair h₀ q₁ q₂ (os₁ ++ [o]) (out₁ ++ [(call r₁ h o).1.2]) os₂ out₂ (call r₁ h o).2 (call r₁ h o).1.1 r₂
  | two {os₁ out₁ os₂ out₂ h r₁ r₂} (o : Ring.Op T) : Pair h₀ q₁ q₂ os₁ out₁ os₂ out₂ h r₁ r₂ → r₂.buf.len < 2 ^ 61 →
      Pair h₀ q₁ q₂ os₁ out₁ (os₂ ++ [o]) (out₂ ++ [(call r₂ h o).1.2]) (call r₂ h o).2 r₁ (call r₂ h o).1.1

/-- Calls that take nothing out and overwrite nothing. -/
def Adds : Ring.Op T → Prop
  | .append _ | .push _ | .prepend _ | .at _ | .first | .last | .len | .isEmpty | .toSlice => True
  | _ => False

/-- Calls that change nothing. -/
def Reads : Ring.Op T → Prop
  | .at _ | .first | .last | .len | .isEmpty | .toSlice => True
  | _ => False

/-- What one would like: two copies of a ring are two queues. -/
def CopiesIndependent (T : Type) [Inhabited T] : Prop :=
  ∀ (h₀ h : Heap T) (r r₁ r₂ : HRing) (os₁ os₂ : List (Ring.Op T)) (out₁ out₂ : List (Ring.Out T)),
    Valid h₀ r.buf → Ring.WF (denote h₀ r) → Pair h₀ r r os₁ out₁ os₂ out₂ h r₁ r₂ →
    out₁ = (Ring.specRun (Ring.contents (denote h₀ r)) os₁).2 ∧ out₂ = (Ring.specRun (Ring.contents (denote h₀ r)) os₂).2

/-! ## One call in its buffer -/

/-- A call that does not change the capacity. -/
def inPlace (r : Ring.Ring T) (o : Ring.Op T) : Ring.Ring T :=
  let cap := r.buf.length
  let buf := match written cap r.st r.len o with | none => r.buf | some (p, v) => r.buf.set p v
  match o with
  | .append _ => ⟨buf, r.st, r.len + 1⟩
  | .push _ => ⟨buf, r.st, r.len + 1⟩
  | .prepend _ => ⟨buf, (r.st + cap - 1) % cap, r.len + 1⟩
  | .pop => if r.len = 0 then r else ⟨buf, (r.st + 1) % cap, r.len - 1⟩
  | .deleteFirst => if r.len = 0 then r else ⟨buf, (r.st + 1) % cap, r.len - 1⟩
  | .deleteLast => if r.len = 0 then r else ⟨buf, r.st, r.len - 1⟩
  | _ => ⟨buf, r.st, r.len⟩

theorem append_inPlace {r : Ring.Ring T} (hw : Ring.WF r) {v : T} {r' : Ring.Ring T} (e : Ring.append r v = .ok r')
    (hl : r'.buf.length = r.buf.length) : r' = ⟨r.buf.set ((r.st + r.len) % r.buf.length) v, r.st, r.len + 1⟩ := by
  obtain ⟨g, hg, w, c, hgl, hlt, hcap, h1, h2⟩ := Ring.checkGrowth_eq hw
  have hgt := Ring.grown_gt r.buf.length
  unfold Ring.append at e
  simp only [hg, bind, Except.bind] at e
  have w2 := w.2
  have hib : (if g.st + g.len ≥ g.buf.length then g.st + g.len - g.buf.length else g.st + g.len) < g.buf.length := by
    split <;> omega
  simp only [goSet_nat hib, pure, Except.pure, Except.ok.injEq] at e
  subst e
  simp only [List.length_set] at hl
  by_cases hf : r.len = r.buf.length
  · rw [if_pos hf] at hcap; omega
  · have := h2 hf; subst this
    congr 2
    split
    · rw [Nat.mod_eq_sub_mod (by omega), Nat.mod_eq_of_lt (by omega)]
    · rw [Nat.mod_eq_of_lt (by omega)]

theorem prepend_inPlace {r : Ring.Ring T} (hw : Ring.WF r) {v : T} {r' : Ring.Ring T} (e : Ring.prepend r v = .ok r')
    (hl : r'.buf.length = r.buf.length) :
    r' = ⟨r.buf.set ((r.st + r.buf.length - 1) % r.buf.length) v, (r.st + r.buf.length - 1) % r.buf.length, r.len + 1⟩ := by
  obtain ⟨g, hg, w, c, hgl, hlt, hcap, h1, h2⟩ := Ring.checkGrowth_eq hw
  have hgt := Ring.grown_gt r.buf.length
  unfold Ring.prepend at e
  simp only [hg, bind, Except.bind] at e
  have w2 := w.2
  generalize hi : (if (g.st : Int) - 1 < 0 then (g.st : Int) - 1 + g.buf.length else (g.st : Int) - 1) = i at e
  have hib : 0 ≤ i ∧ i.toNat < g.buf.length := by subst hi; split <;> omega
  have hin : i.toNat = (g.st + g.buf.length - 1) % g.buf.length := by
    rcases Nat.eq_zero_or_pos g.st with h0 | h0
    · rw [h0, Nat.mod_eq_of_lt (by omega)]; subst hi; split <;> omega
    · rw [show g.st + g.buf.length - 1 = (g.st - 1) + g.buf.length by omega, Nat.add_mod_right, Nat.mod_eq_of_lt (by omega)]
      subst hi; split <;> omega
  simp only [goSet_ok hib.1 hib.2, pure, Except.pure, Except.ok.injEq] at e
  subst e
  simp only [List.length_set] at hl
  by_cases hf : r.len = r.buf.length
  · rw [if_pos hf] at hcap; omega
  · have := h2 hf; subst this
    rw [hin]

theorem deleteFirst_inPlace {r : Ring.Ring T} (hw : Ring.WF r) {r' : Ring.Ring T} (e : Ring.deleteFirst r = .ok r')
    (hl : r'.buf.length = r.buf.length) :
    r.len ≠ 0 ∧ r' = ⟨r.buf.set r.st default, (r.st + 1) % r.buf.length, r.len - 1⟩ := by
  unfold Ring.deleteFirst at e
  split at e
  · cases e
  · rename_i h0
    refine ⟨h0, ?_⟩
    obtain ⟨g, hg, w, c, hgl, hcap, h1⟩ := Ring.checkShrink_eq hw
    have w1 := w.1
    have w2 := w.2
    simp only [hg, bind, Except.bind, goSet_nat (show g.st < g.buf.length by omega), pure, Except.pure, Except.ok.injEq,
      List.length_set] at e
    subst e
    simp only [List.length_set] at hl
    rcases h1 with rfl | ⟨hle, h1⟩
    · congr 1
      split
      · rename_i hh; rw [hh, Nat.mod_self]
      · rw [Nat.mod_eq_of_lt (by omega)]
    · split at hcap
      · omega
      · obtain ⟨q1, q2⟩ := hw
        have : g.buf.length = r.buf.length / 8 := by
          rw [h1]; simp only [List.length_append, Ring.contents_length ⟨q1, q2⟩, List.length_drop, List.length_replicate]
          omega
        omega

theorem deleteLast_inPlace {r : Ring.Ring T} (hw : Ring.WF r) {r' : Ring.Ring T} (e : Ring.deleteLast r = .ok r')
    (hl : r'.buf.length = r.buf.length) :
    r.len ≠ 0 ∧ r' = ⟨r.buf.set ((r.st + r.len - 1) % r.buf.length) default, r.st, r.len - 1⟩ := by
  unfold Ring.deleteLast at e
  split at e
  · cases e
  · rename_i h0
    refine ⟨h0, ?_⟩
    obtain ⟨g, hg, w, c, hgl, hcap, h1⟩ := Ring.checkShrink_eq hw
    have w1 := w.1
    have w2 := w.2
    simp only [hg, bind, Except.bind] at e
    generalize hi : (if (g.st : Int) + g.len - 1 ≥ g.buf.length then (g.st : Int) + g.len - 1 - g.buf.length
      else (g.st : Int) + g.len - 1) = i at e
    have hib : 0 ≤ i ∧ i.toNat < g.buf.length := by subst hi; split <;> omega
    simp only [goSet_ok hib.1 hib.2, pure, Except.pure, Except.ok.injEq] at e
    subst e
    simp only [List.length_set] at hl
    rcases h1 with rfl | ⟨hle, h1⟩
    · congr 2
      by_cases hh : g.st + g.len - 1 ≥ g.buf.length
      · rw [Nat.mod_eq_sub_mod hh, Nat.mod_eq_of_lt (by omega)]; subst hi; split <;> omega
      · rw [Nat.mod_eq_of_lt (by omega)]; subst hi; split <;> omega
    · split at hcap
      · omega
      · obtain ⟨q1, q2⟩ := hw
        have : g.buf.length = r.buf.length / 8 := by
          rw [h1]; simp only [List.length_append, Ring.contents_length ⟨q1, q2⟩, List.length_drop, List.length_replicate]
          omega
        omega

/-- A call that leaves the capacity alone writes one cell. -/
theorem step_inPlace {r : Ring.Ring T} (hw : Ring.WF r) (o : Ring.Op T)
    (hl : (Ring.step r o).1.buf.length = r.buf.length) : (Ring.step r o).1 = inPlace r o := by
  cases o with
  | append v =>
    obtain ⟨r', e, -⟩ := Ring.append_eq hw v
    simp only [Ring.step, e] at hl ⊢
    exact append_inPlace hw e hl
  | push v =>
    obtain ⟨r', e, -⟩ := Ring.append_eq hw v
    simp only [Ring.step, e] at hl ⊢
    exact append_inPlace hw e hl
  | prepend v =>
    obtain ⟨r', e, -⟩ := Ring.prepend_eq hw v
    simp only [Ring.step, e] at hl ⊢
    exact prepend_inPlace hw e hl
  | pop =>
    by_cases h0 : r.len = 0
    · have e2 : Ring.pop r = .error "pop from empty queu" := by
        unfold Ring.pop Ring.empty; rw [if_pos (by simpa using h0)]
      simp only [Ring.step, e2, inPlace, if_pos h0]
    · cases e : Ring.pop r with
      | error m =>
        exfalso
        cases hc : Ring.contents r with
        | nil => exact h0 ((Ring.contents_nil_iff hw).1 hc)
        | cons v t =>
          obtain ⟨g, eg, -⟩ := Ring.deleteFirst_eq hw hc
          have ef := Ring.first_eq hw hc
          unfold Ring.pop Ring.empty at e
          rw [if_neg (by simpa using h0), ef] at e
          simp only [bind, Except.bind, eg] at e
          cases e
      | ok p =>
        obtain ⟨r', v⟩ := p
        simp only [Ring.step, e] at hl ⊢
        simp only [inPlace, written, if_neg h0]
        exact (deleteFirst_inPlace hw (Ring.pop_split e) hl).2
  | deleteFirst =>
    cases e : Ring.deleteFirst r with
    | error m =>
      by_cases h0 : r.len = 0
      · simp only [Ring.step, e, inPlace, if_pos h0]
      · exfalso
        cases hc : Ring.contents r with
        | nil => exact h0 ((Ring.contents_nil_iff hw).1 hc)
        | cons v t =>
          obtain ⟨g, eg, -⟩ := Ring.deleteFirst_eq hw hc
          rw [eg] at e; cases e
    | ok r' =>
      simp only [Ring.step, e] at hl ⊢
      obtain ⟨h0, h1⟩ := deleteFirst_inPlace hw e hl
      simp only [inPlace, written, if_neg h0]
      exact h1
  | deleteLast =>
    cases e : Ring.deleteLast r with
    | error m =>
      by_cases h0 : r.len = 0
      · simp only [Ring.step, e, inPlace, if_pos h0]
      · exfalso
        obtain ⟨g, eg, -⟩ := Ring.deleteLast_eq hw (fun hc => h0 ((Ring.contents_nil_iff hw).1 hc))
        rw [eg] at e; cases e
    | ok r' =>
      simp only [Ring.step, e] at hl ⊢
      obtain ⟨h0, h1⟩ := deleteLast_inPlace hw e hl
      simp only [inPlace, written, if_neg h0]
      exact h1
  | set i v =>
    by_cases hi : 0 ≤ i ∧ i < r.len
    · obtain ⟨j, hj, hjl, hjw⟩ := Ring.atRef_eq hw hi.1 hi.2
      have e : Ring.set_ r i v = .ok ⟨r.buf.set j v, r.st, r.len⟩ := by
        unfold Ring.set_
        simp only [hj, bind, Except.bind, goSet_nat hjl, pure, Except.pure]
      simp only [Ring.step, e, inPlace, written, if_pos hi]
      congr 2
      obtain ⟨w1, w2⟩ := hw
      rw [hjw]; unfold Ring.wrapIdx
      split
      · rw [Nat.mod_eq_sub_mod (by omega), Nat.mod_eq_of_lt (by omega)]
      · rw [Nat.mod_eq_of_lt (by omega)]
    · have e : Ring.set_ r i v = .error "index out of bound" := by
        unfold Ring.set_ Ring.atRef
        rw [if_pos (by omega)]; rfl
      simp only [Ring.step, e, inPlace, written, if_neg hi]
  | «at» i => simp only [Ring.step, inPlace, written]; split <;> rfl
  | first => simp only [Ring.step, inPlace, written]; split <;> rfl
  | last => simp only [Ring.step, inPlace, written]; split <;> rfl
  | len => rfl
  | isEmpty => rfl
  | toSlice => simp only [Ring.step, inPlace, written]; split <;> rfl

theorem inPlace_buf (r : Ring.Ring T) (o : Ring.Op T) :
    (inPlace r o).buf = match written r.buf.length r.st r.len o with | none => r.buf | some (p, v) => r.buf.set p v := by
  cases o <;> simp only [inPlace] <;> split <;> simp_all [written]

theorem written_lt {cap st len : Nat} (hst : st < cap) {o : Ring.Op T} {p : Nat} {v : T}
    (e : written cap st len o = some (p, v)) : p < cap := by
  have hm : ∀ n, n % cap < cap := fun n => Nat.mod_lt _ (by omega)
  cases o <;> simp only [written] at e <;> (try split at e) <;> cases e <;> first | exact hm _ | exact hst

theorem mod_wrap {x c : Nat} (h : x < 2 * c) : x % c = if x < c then x else x - c := by
  split
  · exact Nat.mod_eq_of_lt ‹_›
  · rw [Nat.mod_eq_sub_mod (by omega), Nat.mod_eq_of_lt (by omega)]

theorem old_array {h : Heap T} {r : HRing} (hv : Valid h r.buf) {a k : Nat} (hc : Cells r.buf r.buf.len a k) :
    a < h.length := by
  obtain ⟨off, ep, -, -⟩ := hc
  obtain ⟨-, -, h3⟩ := hv
  rw [ep] at h3
  obtain ⟨A, hA, -⟩ := h3
  exact (List.getElem?_eq_some_iff.1 hA).1

/-- A ring moved to a new array has nothing in common with an older one. -/
theorem apart_new {h : Heap T} {r' r₂ : HRing} (hv₂ : Valid h r₂.buf) (hp : r'.buf.ptr = .arr h.length 0) :
    Apart r' r₂ := by
  rintro a k ⟨off, ep, -, -⟩ hc
  rw [hp] at ep; injection ep with ep _
  have := old_array hv₂ hc
  omega

theorem Apart.symm {r₁ r₂ : HRing} (h : Apart r₁ r₂) : Apart r₂ r₁ := fun a k h1 h2 => h a k h2 h1

/-! ## Rings with a common buffer -/

/-- **C117**: two rings with the same buffer. A call on one that does not change its capacity writes at most one
cell, and the other sees that write if it holds an element there, whatever the two were doing; otherwise it
notices nothing. A call that does change the capacity does not affect the other, and the two have no memory in
common from then on. -/
theorem C117_shared {h : Heap T} {r₁ r₂ : HRing} (hs : r₁.buf = r₂.buf) (hv : Valid h r₁.buf)
    (hw₁ : Ring.WF (denote h r₁)) (hw₂ : Ring.WF (denote h r₂)) (hb : r₁.buf.len < 2 ^ 61) (o : Ring.Op T) :
    let c := call r₁ h o
    let cap := r₁.buf.len
    (c.1.1.buf = r₁.buf → Ring.contents (denote c.2 r₂) =
      sees cap r₂.st (Ring.contents (denote h r₂)) (written cap r₁.st r₁.len o)) ∧
    (c.1.1.buf ≠ r₁.buf → Ring.contents (denote c.2 r₂) = Ring.contents (denote h r₂) ∧ Apart c.1.1 r₂ ∧
      c.1.1.buf.len ≠ cap) := by
  intro c cap
  obtain ⟨e, hv', hf⟩ := call_sim hv hw₁ hb o
  have hL := Slice.length_contents hv
  have hL' := Slice.length_contents hv'
  have hv₂ : Valid h r₂.buf := hs ▸ hv
  constructor
  · intro hc
    have hc' : (call r₁ h o).1.1.buf = r₁.buf := hc
    have hlen : (Ring.step (denote h r₁) o).1.buf.length = (denote h r₁).buf.length := by
      rw [e]; simp only [denote]; rw [hL', hL, hc']
    have e2 := step_inPlace hw₁ o hlen
    have e3 : Slice.contents c.2 r₂.buf = (inPlace (denote h r₁) o).buf := by
      rw [← e2, e]; simp only [denote]; rw [hc', hs]
    have hcl := Ring.contents_length hw₂
    rcases Nat.eq_zero_or_pos cap with h0 | h0
    · have hn : r₂.len = 0 := by
        have := hw₂.1; simp only [denote] at this; rw [← hs, hL] at this; omega
      have n1 : Ring.contents (denote h r₂) = [] := List.eq_nil_of_length_eq_zero (by rw [hcl]; exact hn)
      have n2 : Ring.contents (denote c.2 r₂) = [] := by
        unfold Ring.contents denote; rw [hn]; rfl
      rw [n1, n2]; unfold sees; split <;> simp
    · rw [inPlace_buf] at e3
      simp only [denote, hL] at e3
      have hst : r₁.st < cap := by
        have := hw₁.2; simp only [denote] at this; rw [hL] at this; omega
      cases hwr : written r₁.buf.len r₁.st r₁.len o with
      | none =>
        rw [hwr] at e3
        have hd : denote c.2 r₂ = denote h r₂ := by
          unfold denote; rw [e3, hs]
        rw [hd]; rfl
      | some pv =>
        obtain ⟨p, v⟩ := pv
        rw [hwr] at e3
        dsimp only at e3
        have hp := written_lt hst hwr
        have hL₂ : (denote h r₂).buf.length = cap := by
          show (Slice.contents h r₂.buf).length = _; rw [← hs, hL]
        have hd : denote c.2 r₂ = ⟨(denote h r₂).buf.set p v, r₂.st, r₂.len⟩ := by
          unfold denote; rw [e3, hs]
        have hst₂ : r₂.st < cap := by
          have := hw₂.2; rw [hL₂] at this; simp only [denote] at this; omega
        have ws := write_slot hw₂ (j := p) (by rw [hL₂]; exact hp) v
        have q1 : (denote h r₂).st = r₂.st := rfl
        have q2 : (denote h r₂).len = r₂.len := rfl
        simp only [q1, q2, hL₂] at ws
        have hpe : (p + cap - r₂.st) % cap = if r₂.st ≤ p then p - r₂.st else p + cap - r₂.st := by
          rw [mod_wrap (by omega)]; split <;> split <;> omega
        rw [hd, ws]
        simp only [sees, hpe]
        generalize (if r₂.st ≤ p then p - r₂.st else p + cap - r₂.st) = j
        by_cases hj : j < r₂.len
        · rw [if_pos hj]
        · rw [if_neg hj, List.set_eq_of_length_le (by rw [hcl, q2]; omega)]
  · intro hc
    rcases hf with ⟨he, -⟩ | ⟨hp, hl, u⟩
    · exact absurd he hc
    · refine ⟨?_, apart_new hv₂ hp, hl⟩
      have : denote c.2 r₂ = denote h r₂ := by
        unfold denote; rw [u.contents hv₂ fun _ _ _ hf => hf]
      rw [this]

/-- Right after `q := r`: what is taken out of `r` becomes zero in `q`, what is set in `r` is set in `q`, and what is
added to `r` is not seen in `q` (as long as the capacity of `r` does not change). -/
theorem C117_after_copy {h : Heap T} {r : HRing} (hv : Valid h r.buf) (hw : Ring.WF (denote h r))
    (hb : r.buf.len < 2 ^ 61) (o : Ring.Op T) (hsame : (call r h o).1.1.buf = r.buf) :
    Ring.contents (denote (call r h o).2 r) =
      match o with
      | .pop | .deleteFirst => (Ring.contents (denote h r)).set 0 default
      | .deleteLast => (Ring.contents (denote h r)).set (r.len - 1) default
      | .set i v => if 0 ≤ i then (Ring.contents (denote h r)).set i.toNat v else Ring.contents (denote h r)
      | _ => Ring.contents (denote h r) := by
  obtain ⟨hsh, -⟩ := C117_shared rfl hv hw hw hb o
  rw [hsh hsame]
  obtain ⟨e, hv', -⟩ := call_sim hv hw hb o
  have hL := Slice.length_contents hv
  have hL' := Slice.length_contents hv'
  have hcl : (Ring.contents (denote h r)).length = r.len := Ring.contents_length hw
  have hww := hw
  obtain ⟨w1, w2⟩ := hww
  simp only [denote] at w1 w2
  rw [hL] at w1 w2
  have hroom : ∀ v, (o = .append v ∨ o = .push v ∨ o = .prepend v) → r.len < r.buf.len := by
    intro v ho
    have hl : (Ring.contents (Ring.step (denote h r) o).1).length = r.len + 1 := by
      obtain ⟨-, e'⟩ := Ring.step_refines hw o
      rw [Prod.ext_iff] at e'
      obtain ⟨e', -⟩ := e'
      rcases ho with rfl | rfl | rfl <;> simp only [Ring.specStep] at e' <;> rw [← e'] <;> simp [hcl]
    obtain ⟨w', -⟩ := Ring.step_refines hw o
    rw [Ring.contents_length w'] at hl
    have w1' := w'.1
    rw [hl, e] at w1'
    simp only [denote] at w1'
    rw [hL', hsame] at w1'
    omega
  rcases Nat.eq_zero_or_pos r.len with h0 | h0
  · have n1 : Ring.contents (denote h r) = [] := List.eq_nil_of_length_eq_zero (by omega)
    rw [n1]
    have : ∀ w : Option (Nat × T), sees r.buf.len r.st [] w = [] := by
      intro w; cases w <;> simp [sees]
    rw [this]
    cases o <;> simp
  · have hidx : ∀ {x : Nat}, x < r.buf.len → ((r.st + x) % r.buf.len + r.buf.len - r.st) % r.buf.len = x := by
      intro x hx
      rw [mod_wrap (x := r.st + x) (by omega)]
      split
      · rw [mod_wrap (by omega)]; split <;> omega
      · rw [mod_wrap (by omega)]; split <;> omega
    cases o with
    | append v =>
      have := hroom v (Or.inl rfl)
      simp only [written, sees, hidx this]
      exact List.set_eq_of_length_le (by omega)
    | push v =>
      have := hroom v (Or.inr (Or.inl rfl))
      simp only [written, sees, hidx this]
      exact List.set_eq_of_length_le (by omega)
    | prepend v =>
      have := hroom v (Or.inr (Or.inr rfl))
      have e1 : r.st + r.buf.len - 1 = r.st + (r.buf.len - 1) := by omega
      simp only [written, sees, e1, hidx (show r.buf.len - 1 < r.buf.len by omega)]
      exact List.set_eq_of_length_le (by omega)
    | pop =>
      have := hidx (x := 0) (by omega)
      rw [Nat.add_zero, Nat.mod_eq_of_lt (show r.st < r.buf.len by omega)] at this
      simp only [written, sees, if_neg (show ¬ r.len = 0 by omega), this]
    | deleteFirst =>
      have := hidx (x := 0) (by omega)
      rw [Nat.add_zero, Nat.mod_eq_of_lt (show r.st < r.buf.len by omega)] at this
      simp only [written, sees, if_neg (show ¬ r.len = 0 by omega), this]
    | deleteLast =>
      have e1 : r.st + r.len - 1 = r.st + (r.len - 1) := by omega
      simp only [written, sees, if_neg (show ¬ r.len = 0 by omega), e1, hidx (show r.len - 1 < r.buf.len by omega)]
    | set i v =>
      simp only [written]
      by_cases hi : 0 ≤ i ∧ i < r.len
      · rw [if_pos hi, if_pos hi.1]
        simp only [sees, hidx (show i.toNat < r.buf.len by omega)]
      · rw [if_neg hi]
        split
        · rw [List.set_eq_of_length_le (by omega)]; rfl
        · rfl
    | «at» i => rfl
    | first => rfl
    | last => rfl
    | len => rfl
    | isEmpty => rfl
    | toSlice => rfl

/-- Two copies of `[1, 2]`, kept in a buffer of four: `Pop` on one makes the other `[0, 2]`, `Append` is not seen. -/
example :
    let r : HRing := ⟨⟨.arr 0 0, 4, 4⟩, 0, 2⟩
    let h : Heap Nat := [[1, 2, 0, 0]]
    ((call r h .pop).1.1.buf = r.buf ∧ Ring.contents (denote (call r h .pop).2 r) = [0, 2]) ∧
    ((call r h (.append 5)).1.1.buf = r.buf ∧ Ring.contents (denote (call r h (.append 5)).2 r) = [1, 2]) := by
  decide +kernel

/-! ## Independence -/

/-- **C117**: rings with no memory in common are independent queues for ever, however calls on them alternate. -/
theorem C117_apart {h₀ h : Heap T} {q₁ q₂ r₁ r₂ : HRing} {os₁ os₂ : List (Ring.Op T)} {out₁ out₂ : List (Ring.Out T)}
    (hv₁ : Valid h₀ q₁.buf) (hv₂ : Valid h₀ q₂.buf) (hw₁ : Ring.WF (denote h₀ q₁)) (hw₂ : Ring.WF (denote h₀ q₂))
    (ha : Apart q₁ q₂) (H : Pair h₀ q₁ q₂ os₁ out₁ os₂ out₂ h r₁ r₂) :
    Ring.specRun (Ring.contents (denote h₀ q₁)) os₁ = (Ring.contents (denote h r₁), out₁) ∧
    Ring.specRun (Ring.contents (denote h₀ q₂)) os₂ = (Ring.contents (denote h r₂), out₂) ∧
    Apart r₁ r₂ ∧ Valid h r₁.buf ∧ Valid h r₂.buf ∧ Ring.WF (denote h r₁) ∧ Ring.WF (denote h r₂) := by
  -- one call on one of two rings that are apart
  have key : ∀ {h : Heap T} {r₁ r₂ : HRing}, Valid h r₁.buf → Valid h r₂.buf → Ring.WF (denote h r₁) →
      Ring.WF (denote h r₂) → Apart r₁ r₂ → r₁.buf.len < 2 ^ 61 → ∀ o,
      Ring.specStep (Ring.contents (denote h r₁)) o =
        (Ring.contents (denote (call r₁ h o).2 (call r₁ h o).1.1), (call r₁ h o).1.2) ∧
      denote (call r₁ h o).2 r₂ = denote h r₂ ∧ Apart (call r₁ h o).1.1 r₂ ∧ Valid (call r₁ h o).2 (call r₁ h o).1.1.buf ∧
      Valid (call r₁ h o).2 r₂.buf ∧ Ring.WF (denote (call r₁ h o).2 (call r₁ h o).1.1) := by
    intro h r₁ r₂ hv₁ hv₂ hw₁ hw₂ ha hb o
    obtain ⟨e, hv', hf⟩ := call_sim hv₁ hw₁ hb o
    obtain ⟨w, e'⟩ := Ring.step_refines hw₁ o
    rw [e] at w e'
    rcases hf with ⟨he, u⟩ | ⟨hp, -, u⟩
    · refine ⟨e', ?_, ?_, hv', u.valid hv₂, w⟩
      · unfold denote; rw [u.contents hv₂ fun a k h2 h1 => ha a k h1 h2]
      · intro a k hc; rw [he] at hc; exact ha a k hc
    · refine ⟨e', ?_, apart_new hv₂ hp, hv', u.valid hv₂, w⟩
      unfold denote; rw [u.contents hv₂ fun _ _ _ hf => hf]
  induction H with
  | start => exact ⟨rfl, rfl, ha, hv₁, hv₂, hw₁, hw₂⟩
  | @one os₁ out₁ os₂ out₂ h r₁ r₂ o H hb ih =>
    obtain ⟨s1, s2, a, v1, v2, w1, w2⟩ := ih
    obtain ⟨k1, k2, k3, k4, k5, k6⟩ := key v1 v2 w1 w2 a hb o
    refine ⟨?_, ?_, k3, k4, k5, k6, by rw [k2]; exact w2⟩
    · rw [specRun_snoc, s1, k1]
    · rw [k2]; exact s2
  | @two os₁ out₁ os₂ out₂ h r₁ r₂ o H hb ih =>
    obtain ⟨s1, s2, a, v1, v2, w1, w2⟩ := ih
    obtain ⟨k1, k2, k3, k4, k5, k6⟩ := key v2 v1 w2 w1 a.symm hb o
    refine ⟨?_, ?_, k3.symm, k5, k4, by rw [k2]; exact w1, k6⟩
    · rw [k2]; exact s1
    · rw [specRun_snoc, s2, k1]

/-- **C117**: two copies of a ring use the same buffer, the one they started with, or have no memory in common, at any
time. -/
theorem C117_copies {h₀ h : Heap T} {r r₁ r₂ : HRing} {os₁ os₂ : List (Ring.Op T)} {out₁ out₂ : List (Ring.Out T)}
    (hv : Valid h₀ r.buf) (hw : Ring.WF (denote h₀ r)) (H : Pair h₀ r r os₁ out₁ os₂ out₂ h r₁ r₂) :
    (r₁.buf = r.buf ∧ r₂.buf = r.buf ∨ Apart r₁ r₂) ∧
    Valid h r₁.buf ∧ Valid h r₂.buf ∧ Ring.WF (denote h r₁) ∧ Ring.WF (denote h r₂) := by
  have key : ∀ {h : Heap T} {r₁ r₂ : HRing}, Valid h r₁.buf → Valid h r₂.buf → Ring.WF (denote h r₁) →
      Ring.WF (denote h r₂) → (r₁.buf = r.buf ∧ r₂.buf = r.buf ∨ Apart r₁ r₂) → r₁.buf.len < 2 ^ 61 → ∀ o,
      ((call r₁ h o).1.1.buf = r.buf ∧ r₂.buf = r.buf ∨ Apart (call r₁ h o).1.1 r₂) ∧
      Valid (call r₁ h o).2 (call r₁ h o).1.1.buf ∧
      Valid (call r₁ h o).2 r₂.buf ∧ Ring.WF (denote (call r₁ h o).2 (call r₁ h o).1.1) ∧
      Ring.WF (denote (call r₁ h o).2 r₂) := by
    intro h r₁ r₂ hv₁ hv₂ hw₁ hw₂ ha hb o
    obtain ⟨e, hv', hf⟩ := call_sim hv₁ hw₁ hb o
    obtain ⟨w, -⟩ := Ring.step_refines hw₁ o
    rw [e] at w
    have hu : ∃ W, Upd W h (call r₁ h o).2 := by
      rcases hf with ⟨-, u⟩ | ⟨-, -, u⟩ <;> exact ⟨_, u⟩
    obtain ⟨W, u'⟩ := hu
    have hv2' := u'.valid hv₂
    refine ⟨?_, hv', hv2', w, ?_⟩
    · rcases hf with ⟨he, -⟩ | ⟨hp, -, -⟩
      · rcases ha with ⟨h1, h2⟩ | ha
        · exact Or.inl ⟨by rw [he, h1], h2⟩
        · right; intro a k hc; rw [he] at hc; exact ha a k hc
      · exact Or.inr (apart_new hv₂ hp)
    · have l1 := Slice.length_contents hv₂
      have l2 := Slice.length_contents hv2'
      unfold Ring.WF denote at hw₂ ⊢
      dsimp only at hw₂ ⊢
      rw [l2, ← l1]; exact hw₂
  induction H with
  | start => exact ⟨Or.inl ⟨rfl, rfl⟩, hv, hv, hw, hw⟩
  | @one os₁ out₁ os₂ out₂ h r₁ r₂ o H hb ih =>
    obtain ⟨a, v1, v2, w1, w2⟩ := ih
    exact key v1 v2 w1 w2 a hb o
  | @two os₁ out₁ os₂ out₂ h r₁ r₂ o H hb ih =>
    obtain ⟨a, v1, v2, w1, w2⟩ := ih
    obtain ⟨k1, k2, k3, k4, k5⟩ := key v2 v1 w2 w1 (a.elim (fun h => Or.inl ⟨h.2, h.1⟩) fun h => Or.inr h.symm) hb o
    exact ⟨k1.elim (fun h => Or.inl ⟨h.2, h.1⟩) fun h => Or.inr h.symm, k3, k2, k5, k4⟩

/-! ## Adding -/

theorem reads_same {h : Heap T} {r : HRing} (hv : Valid h r.buf) (hw : Ring.WF (denote h r)) (hb : r.buf.len < 2 ^ 61)
    {o : Ring.Op T} (ho : Reads o) : (call r h o).1.1 = r ∧ Upd (fun _ _ => False) h (call r h o).2 := by
  have h1 : (call r h o).1.1 = r := by
    cases o with
    | «at» i => simp only [call, gave]; split <;> rfl
    | first => simp only [call, gave]; split <;> rfl
    | last => simp only [call, gave]; split <;> rfl
    | len => rfl
    | isEmpty => rfl
    | toSlice => simp only [call]; split <;> rfl
    | _ => exact ho.elim
  refine ⟨h1, ?_⟩
  obtain ⟨e, hv', hf⟩ := call_sim hv hw hb o
  rcases hf with ⟨-, u⟩ | ⟨-, -, u⟩
  · -- the buffer has the same contents
    have hstep : (Ring.step (denote h r) o).1 = denote h r := by
      cases o with
      | «at» i => simp only [Ring.step]; split <;> rfl
      | first => simp only [Ring.step]; split <;> rfl
      | last => simp only [Ring.step]; split <;> rfl
      | len => rfl
      | isEmpty => rfl
      | toSlice => simp only [Ring.step]; split <;> rfl
      | _ => exact ho.elim
    rw [e, h1] at hstep
    have hc : Slice.contents (call r h o).2 r.buf = Slice.contents h r.buf := congrArg Ring.Ring.buf hstep
    intro a A hA
    obtain ⟨A', e1, l1, f1⟩ := u a A hA
    refine ⟨A', e1, l1, fun k _ => ?_⟩
    by_cases hk : Cells r.buf r.buf.len a k
    · obtain ⟨off, ep, g1, g2⟩ := hk
      have : ((A'.drop off).take r.buf.len)[k - off]? = ((A.drop off).take r.buf.len)[k - off]? := by
        simpa only [Slice.contents, ep, e1, hA, Option.getD_some] using congrArg (·[k - off]?) hc
      rw [List.getElem?_take_of_lt (by omega), List.getElem?_take_of_lt (by omega), List.getElem?_drop, List.getElem?_drop,
        show off + (k - off) = k by omega] at this
      exact this
    · exact f1 k hk
  · exact u

/-- The elements the copy holds are still elements of the ring, `d` places from its first. -/
def Inside (r₁ r : HRing) : Prop := ∃ d, d + r.len ≤ r₁.len ∧ r.st = (r₁.st + d) % r₁.buf.len

theorem inside_adds {h : Heap T} {r₁ r : HRing} (hs : r₁.buf = r.buf) (hv : Valid h r₁.buf) (hw₁ : Ring.WF (denote h r₁))
    (hw : Ring.WF (denote h r)) (hb : r₁.buf.len < 2 ^ 61) {o : Ring.Op T} (ho : Adds o) (hi : Inside r₁ r)
    (hsame : (call r₁ h o).1.1.buf = r₁.buf) :
    Inside (call r₁ h o).1.1 r ∧ Ring.contents (denote (call r₁ h o).2 r) = Ring.contents (denote h r) := by
  obtain ⟨hsh, -⟩ := C117_shared hs hv hw₁ hw hb o
  rw [hsh hsame]
  obtain ⟨e, hv', -⟩ := call_sim hv hw₁ hb o
  have hL := Slice.length_contents hv
  have hL' := Slice.length_contents hv'
  have hlen : (Ring.step (denote h r₁) o).1.buf.length = (denote h r₁).buf.length := by
    rw [e]; simp only [denote]; rw [hL', hL, hsame]
  have e2 := step_inPlace hw₁ o hlen
  have wnew : Ring.WF (Ring.step (denote h r₁) o).1 := (Ring.step_refines hw₁ o).1
  rw [e2] at wnew
  have e3 : denote (call r₁ h o).2 (call r₁ h o).1.1 = inPlace (denote h r₁) o := by rw [← e2, e]
  have est : (call r₁ h o).1.1.st = (inPlace (denote h r₁) o).st := congrArg Ring.Ring.st e3
  have eln : (call r₁ h o).1.1.len = (inPlace (denote h r₁) o).len := congrArg Ring.Ring.len e3
  have hcl : (Ring.contents (denote h r)).length = r.len := Ring.contents_length hw
  obtain ⟨w1, w2⟩ := hw₁
  simp only [denote] at w1 w2
  rw [hL] at w1 w2
  obtain ⟨d, hd1, hd2⟩ := hi
  have wl := wnew.1
  unfold Inside
  rw [est, eln, hsame]
  have hq1 : (denote h r₁).st = r₁.st := rfl
  have hq2 : (denote h r₁).len = r₁.len := rfl
  have hq3 : (denote h r₁).buf.length = r₁.buf.len := hL
  have app : ∀ v, r₁.len + 1 ≤ r₁.buf.len →
      (∃ d, d + r.len ≤ r₁.len + 1 ∧ r.st = (r₁.st + d) % r₁.buf.len) ∧
      sees r₁.buf.len r.st (Ring.contents (denote h r)) (some ((r₁.st + r₁.len) % r₁.buf.len, v)) =
        Ring.contents (denote h r) := by
    intro v hl
    refine ⟨⟨d, by omega, hd2⟩, ?_⟩
    unfold sees
    apply List.set_eq_of_length_le
    rw [hcl, hd2, mod_wrap (x := r₁.st + r₁.len) (by omega), mod_wrap (x := r₁.st + d) (by omega)]
    split <;> split <;> rw [mod_wrap (by omega)] <;> split <;> omega
  cases o with
  | append v =>
    simp only [inPlace, List.length_set, written, hq1, hq2, hq3] at wl ⊢
    exact app v wl
  | push v =>
    simp only [inPlace, List.length_set, written, hq1, hq2, hq3] at wl ⊢
    exact app v wl
  | prepend v =>
    simp only [inPlace, List.length_set, written, hq1, hq2, hq3] at wl ⊢
    refine ⟨⟨d + 1, by omega, ?_⟩, ?_⟩
    · rw [hd2, mod_wrap (x := r₁.st + d) (by omega), mod_wrap (x := r₁.st + r₁.buf.len - 1) (by omega)]
      split <;> split <;> rw [mod_wrap (by omega)] <;> split <;> omega
    · unfold sees
      apply List.set_eq_of_length_le
      rw [hcl, hd2, mod_wrap (x := r₁.st + r₁.buf.len - 1) (by omega), mod_wrap (x := r₁.st + d) (by omega)]
      split <;> split <;> rw [mod_wrap (by omega)] <;> split <;> omega
  | «at» i => exact ⟨⟨d, hd1, hd2⟩, rfl⟩
  | first => exact ⟨⟨d, hd1, hd2⟩, rfl⟩
  | last => exact ⟨⟨d, hd1, hd2⟩, rfl⟩
  | len => exact ⟨⟨d, hd1, hd2⟩, rfl⟩
  | isEmpty => exact ⟨⟨d, hd1, hd2⟩, rfl⟩
  | toSlice => exact ⟨⟨d, hd1, hd2⟩, rfl⟩
  | _ => exact ho.elim

/-- **C117**: adding is safe. After `q := r`, whatever is added to `r` at either end, `q` keeps its elements: both
answer like queues of their own as long as nothing is taken out of `r` or set in it, and `q` is only read. -/
theorem C117_adding {h₀ h : Heap T} {r r₁ r₂ : HRing} {os₁ os₂ : List (Ring.Op T)} {out₁ out₂ : List (Ring.Out T)}
    (hv : Valid h₀ r.buf) (hw : Ring.WF (denote h₀ r)) (H : Pair h₀ r r os₁ out₁ os₂ out₂ h r₁ r₂)
    (h1 : ∀ o ∈ os₁, Adds o) (h2 : ∀ o ∈ os₂, Reads o) :
    Ring.specRun (Ring.contents (denote h₀ r)) os₁ = (Ring.contents (denote h r₁), out₁) ∧
    Ring.specRun (Ring.contents (denote h₀ r)) os₂ = (Ring.contents (denote h r₂), out₂) ∧
    r₂ = r ∧ Ring.contents (denote h r) = Ring.contents (denote h₀ r) := by
  suffices hh : (Ring.specRun (Ring.contents (denote h₀ r)) os₁ = (Ring.contents (denote h r₁), out₁) ∧
      Ring.specRun (Ring.contents (denote h₀ r)) os₂ = (Ring.contents (denote h r₂), out₂) ∧
      r₂ = r ∧ Ring.contents (denote h r) = Ring.contents (denote h₀ r)) ∧
      (r₁.buf = r.buf ∧ Inside r₁ r ∨ Apart r₁ r) from hh.1
  induction H with
  | start =>
    refine ⟨⟨rfl, rfl, rfl, rfl⟩, Or.inl ⟨rfl, 0, by omega, ?_⟩⟩
    have hL := Slice.length_contents hv
    have w2 := hw.2
    simp only [denote] at w2
    rw [hL] at w2
    rcases w2 with w2 | w2
    · rw [Nat.add_zero, Nat.mod_eq_of_lt w2]
    · rw [w2, Nat.zero_add, Nat.zero_mod]
  | @one os₁ out₁ os₂ out₂ h r₁ r₂ o H hb ih =>
    obtain ⟨⟨s1, s2, hr2, hc⟩, hp⟩ := ih (fun o ho => h1 o (by simp [ho])) h2
    subst hr2
    obtain ⟨-, v1, v2, w1, w2⟩ := C117_copies hv hw H
    obtain ⟨e, hv', hf⟩ := call_sim v1 w1 hb o
    obtain ⟨-, e'⟩ := Ring.step_refines w1 o
    rw [e] at e'
    have s1' : Ring.specRun (Ring.contents (denote h₀ r₂)) (os₁ ++ [o]) =
        (Ring.contents (denote (call r₁ h o).2 (call r₁ h o).1.1), out₁ ++ [(call r₁ h o).1.2]) := by
      rw [specRun_snoc, s1, e']
    have key : Ring.contents (denote (call r₁ h o).2 r₂) = Ring.contents (denote h r₂) ∧
        ((call r₁ h o).1.1.buf = r₂.buf ∧ Inside (call r₁ h o).1.1 r₂ ∨ Apart (call r₁ h o).1.1 r₂) := by
      rcases hf with ⟨he, u⟩ | ⟨hp', -, u⟩
      · rcases hp with ⟨hb1, hi⟩ | ha
        · obtain ⟨i1, i2⟩ := inside_adds hb1 v1 w1 w2 hb (h1 o (by simp)) hi he
          exact ⟨i2, Or.inl ⟨he.trans hb1, i1⟩⟩
        · refine ⟨?_, Or.inr fun a k hcc => ?_⟩
          · unfold denote; rw [u.contents v2 fun a k c2 c1 => ha a k c1 c2]
          · rw [he] at hcc; exact ha a k hcc
      · refine ⟨?_, Or.inr (apart_new v2 hp')⟩
        unfold denote; rw [u.contents v2 fun _ _ _ hf => hf]
    exact ⟨⟨s1', by rw [key.1]; exact s2, rfl, key.1.trans hc⟩, key.2⟩
  | @two os₁ out₁ os₂ out₂ h r₁ r₂ o H hb ih =>
    obtain ⟨⟨s1, s2, hr2, hc⟩, hp⟩ := ih h1 (fun o ho => h2 o (by simp [ho]))
    subst hr2
    obtain ⟨-, v1, v2, w1, w2⟩ := C117_copies hv hw H
    obtain ⟨hsame, u⟩ := reads_same v2 w2 hb (h2 o (by simp))
    obtain ⟨e, hv', -⟩ := call_sim v2 w2 hb o
    obtain ⟨-, e'⟩ := Ring.step_refines w2 o
    rw [e] at e'
    have k1 : denote (call r₂ h o).2 r₁ = denote h r₁ := by
      unfold denote; rw [u.contents v1 fun _ _ _ hf => hf]
    have k2 : denote (call r₂ h o).2 r₂ = denote h r₂ := by
      unfold denote; rw [u.contents v2 fun _ _ _ hf => hf]
    refine ⟨⟨by rw [k1]; exact s1, ?_, hsame, by rw [k2]; exact hc⟩, hp⟩
    rw [specRun_snoc, s2, e']

/-- A case with a change of capacity: a copy of `[1, 2]` still gives 1 and 2 after four elements were added. -/
example :
    let r : HRing := ⟨⟨.arr 0 0, 4, 4⟩, 1, 2⟩
    let c₁ := call r ([[0, 1, 2, 0]] : Heap Nat) (.prepend 7)
    let c₂ := call c₁.1.1 c₁.2 (.append 8)
    let c₃ := call c₂.1.1 c₂.2 (.append 9)
    (Ring.contents (denote c₂.2 r), Ring.contents (denote c₃.2 r), Ring.contents (denote c₃.2 c₃.1.1)) =
      ([1, 2], [1, 2], [7, 1, 2, 8, 9]) := by decide +kernel

/-- Before that they are not independent: `DeleteFirst` on one and `First` on the other gives zero. -/
theorem C117_independent_false : ¬ CopiesIndependent Nat := by
  intro hall
  let r : HRing := ⟨⟨.arr 0 0, 2, 2⟩, 0, 2⟩
  have h0 : Pair ([[1, 2]] : Heap Nat) r r [] [] [] [] [[1, 2]] r r := .start
  have h1 := Pair.one .deleteFirst h0 (by decide)
  have h2 := Pair.two .first h1 (by decide)
  have := (hall _ _ r _ _ _ _ _ _ ⟨by decide, by decide, [1, 2], rfl, by decide⟩ (by unfold Ring.WF; decide) h2).2
  revert this
  decide +kernel

end Verif.RingMem
