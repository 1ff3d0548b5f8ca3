import Verif.Sort.Order
import Verif.Sort.Built

/-!
# What a run does, step by step

`trace` lists the comparator calls, element exchanges, and recursive calls of a run in the order in which
they happen.  `ew step adm m Q s d` says: in every run of `m` from the slice `d` in which each answer is
admissible and which ends normally, `Q` holds of the result, the slice, and the state reached by feeding the
trace to `step`, starting from `s`.
-/

namespace Verif.Sort

variable {E α β S : Type} [Inhabited E] {adm : Kind → E → E → Bool → Prop}
set_option linter.unusedSectionVars false

/-- A step of a run. -/
inductive Act
  /-- a call of the comparator -/
  | call
  /-- an exchange of two elements, or the start or end of a recursive call -/
  | ev (e : Event)
deriving DecidableEq

/-- The steps of a run against a comparator, up to its end or its panic. -/
def Prog.trace {σ : Type} (cmp : σ → Kind → E → E → Bool × σ) : σ → Prog E α → List Act
  | _, .ret _ => []
  | _, .fail _ => []
  | s, .note e p => .ev e :: p.trace cmp s
  | s, .ask k x y _ next => .call :: (next (cmp s k x y).1).trace cmp (cmp s k x y).2

/-- See above, for decision trees. -/
def Prog.ew (step : Act → S → S) (adm : Kind → E → E → Bool → Prop) : Prog E α → (α → S → Prop) → S → Prop
  | .ret a, Q, s => Q a s
  | .fail _, _, _ => True
  | .note e p, Q, s => p.ew step adm Q (step (.ev e) s)
  | .ask k x y _ next, Q, s => ∀ b, adm k x y b → (next b).ew step adm Q (step .call s)

/-- See above. -/
def ew (step : Act → S → S) (adm : Kind → E → E → Bool → Prop) (m : M E α) (Q : α → List E → S → Prop) (s : S)
    (d : List E) : Prop := (m d).ew step adm (fun p => Q p.1 p.2) s

variable {step : Act → S → S}

theorem Prog.ew_bind (p : Prog E α) (f : α → Prog E β) (Q : β → S → Prop) (s : S) :
    (p.bind f).ew step adm Q s ↔ p.ew step adm (fun a s => (f a).ew step adm Q s) s := by
  induction p generalizing s with
  | ret a => rfl
  | fail msg => rfl
  | note e p ih => exact ih _
  | ask k x y d next ih => simp only [Prog.bind, Prog.ew, ih]

theorem Prog.ew_mono {p : Prog E α} {Q Q' : α → S → Prop} {s : S} (h : p.ew step adm Q s)
    (hq : ∀ a s, Q a s → Q' a s) : p.ew step adm Q' s := by
  induction p generalizing s with
  | ret a => exact hq _ _ h
  | fail msg => trivial
  | note e p ih => exact ih h
  | ask k x y d next ih => exact fun b hb => ih b (h b hb)

theorem Prog.ew_wp {p : Prog E α} {P : α → Prop} {Q : α → S → Prop} {s : S} (h : p.wp adm P)
    (h' : p.ew step adm Q s) : p.ew step adm (fun a s => P a ∧ Q a s) s := by
  induction p generalizing s with
  | ret a => exact ⟨h, h'⟩
  | fail msg => trivial
  | note e p ih => exact ih h h'
  | ask k x y d next ih => exact fun b hb => ih b (h b hb) (h' b hb)

theorem Prog.ew_exec {σ : Type} {cmp : σ → Kind → E → E → Bool × σ}
    (hc : ∀ s k x y, adm k x y (cmp s k x y).1) {p : Prog E α} {Q : α → S → Prop} {t : S}
    (h : p.ew step adm Q t) (s : σ) {a : α} {s' : σ} {n : Nat} (he : p.exec cmp s = .ok (a, s', n)) :
    Q a ((p.trace cmp s).foldl (fun t x => step x t) t) := by
  induction p generalizing s t n with
  | ret b =>
    simp only [Prog.exec, Except.ok.injEq, Prod.mk.injEq] at he
    obtain ⟨rfl, -, rfl⟩ := he
    exact h
  | fail msg => cases he
  | note e p ih => exact ih h s he
  | ask k x y d next ih =>
    simp only [Prog.exec] at he
    rcases hx : (next (cmp s k x y).1).exec cmp (cmp s k x y).2 with e | ⟨b, t', l⟩
    · rw [hx] at he; cases he
    · rw [hx] at he
      simp only [Except.ok.injEq, Prod.mk.injEq] at he
      obtain ⟨rfl, rfl, rfl⟩ := he
      exact ih _ (h _ (hc s k x y)) _ hx

theorem ew_pure {a : α} {Q : α → List E → S → Prop} {s : S} {d : List E} :
    ew step adm (pure a) Q s d ↔ Q a d s := Iff.rfl

theorem ew_bind {m : M E α} {f : α → M E β} {Q : β → List E → S → Prop} {s : S} {d : List E} :
    ew step adm (m >>= f) Q s d ↔ ew step adm m (fun a d s => ew step adm (f a) Q s d) s d := by
  show ((m d).bind _).ew step adm _ _ ↔ _
  rw [Prog.ew_bind]; rfl

theorem ew_mono {m : M E α} {Q Q' : α → List E → S → Prop} {s : S} {d : List E}
    (h : ew step adm m Q s d) (hq : ∀ a d s, Q a d s → Q' a d s) : ew step adm m Q' s d :=
  Prog.ew_mono h fun p => hq p.1 p.2

theorem ew_wp {m : M E α} {P : α → List E → Prop} {Q : α → List E → S → Prop} {s : S} {d : List E}
    (h : wp adm m P d) (h' : ew step adm m Q s d) : ew step adm m (fun a d s => P a d ∧ Q a d s) s d :=
  Prog.ew_wp h h'

theorem ew_recurse {m : M E Unit} {Q : Unit → List E → S → Prop} {s : S} {d : List E} :
    ew step adm (recurse m) Q s d ↔
      ew step adm m (fun a d s => Q a d (step (.ev .leave) s)) (step (.ev .enter) s) d := by
  show ((m d).bind fun p => (M.note .leave : M E Unit) p.2).ew step adm _ _ ↔ _
  rw [Prog.ew_bind]
  rfl

theorem ew_fail {msg : String} {Q : α → List E → S → Prop} {s : S} {d : List E} :
    ew step adm (M.fail msg) Q s d := trivial

theorem ew_get {i : Int} {Q : E → List E → S → Prop} {s : S} {d : List E}
    (h : Q (el d i) d s) : ew step adm (get i) Q s d := by
  unfold ew get
  split
  · exact h
  · trivial

theorem ew_swap {i j : Int} {Q : Unit → List E → S → Prop} {s : S} {d : List E}
    (h : Q () (swapL d i j) (step (.ev .swap) s)) : ew step adm (swap i j) Q s d := by
  unfold ew swap
  split
  · exact h
  · trivial

theorem ew_lessAt {i j : Int} {Q : Bool → List E → S → Prop} {s : S} {d : List E}
    (h : ∀ b, adm .lt (el d i) (el d j) b → Q b d (step .call s)) : ew step adm (lessAt i j) Q s d := by
  unfold lessAt
  rw [ew_bind]
  refine ew_get ?_
  rw [ew_bind]
  refine ew_get ?_
  exact fun b hb => h b hb

theorem ew_nlessAt {i j : Int} {Q : Bool → List E → S → Prop} {s : S} {d : List E}
    (h : ∀ b, adm .nlt (el d i) (el d j) b → Q b d (step .call s)) : ew step adm (nlessAt i j) Q s d := by
  unfold nlessAt
  rw [ew_bind]
  refine ew_get ?_
  rw [ew_bind]
  refine ew_get ?_
  exact fun b hb => h b hb

theorem ew_when {c : Prop} [Decidable c] {m : M E Unit} {Q : Unit → List E → S → Prop} {s : S}
    {d : List E} (h1 : c → ew step adm m Q s d) (h2 : ¬ c → Q () d s) : ew step adm (M.when c m) Q s d := by
  unfold M.when
  split
  · exact h1 ‹_›
  · exact h2 ‹_›

/-! ## Programs without recursive calls -/

/-- No recursive call is noted anywhere. -/
def Prog.flat : Prog E α → Prop
  | .ret _ => True
  | .fail _ => True
  | .note e p => e = .swap ∧ p.flat
  | .ask _ _ _ _ next => ∀ b, (next b).flat

/-- The same for programs on a slice. -/
structure Flat (m : M E α) : Prop where
  run : ∀ d, (m d).flat

theorem Prog.flat_bind {p : Prog E (α × List E)} {f : α → M E β} (h : p.flat) (hf : ∀ a, Flat (f a)) :
    (p.bind fun q => f q.1 q.2).flat := by
  induction p with
  | ret q => exact (hf q.1).run q.2
  | fail msg => trivial
  | note e p ih => exact ⟨h.1, ih h.2⟩
  | ask k x y d next ih => exact fun b => ih b (h b)

theorem Flat.bind {m : M E α} {f : α → M E β} (h : Flat m) (hf : ∀ a, Flat (f a)) : Flat (m >>= f) :=
  ⟨fun d => Prog.flat_bind (h.run d) hf⟩

theorem Flat.pure (a : α) : Flat (Pure.pure a : M E α) := ⟨fun _ => trivial⟩

theorem Flat.fail (msg : String) : Flat (M.fail msg : M E α) := ⟨fun _ => trivial⟩

theorem Flat.get (i : Int) : Flat (get i : M E E) := by
  refine ⟨fun d => ?_⟩
  unfold Sort.get; split <;> trivial

theorem Flat.lessAt (i j : Int) : Flat (lessAt i j : M E Bool) :=
  (Flat.get i).bind fun _ => (Flat.get j).bind fun _ => ⟨fun _ _ => trivial⟩

theorem Flat.nlessAt (i j : Int) : Flat (nlessAt i j : M E Bool) :=
  (Flat.get i).bind fun _ => (Flat.get j).bind fun _ => ⟨fun _ _ => trivial⟩

theorem Flat.swap (i j : Int) : Flat (swap i j : M E Unit) := by
  refine ⟨fun d => ?_⟩
  unfold Sort.swap; split
  · exact ⟨rfl, trivial⟩
  · trivial

theorem Built.flat {m : M E α} (h : Built false m) : Flat m := by
  induction h with
  | pure a => exact Flat.pure a
  | fail msg => exact Flat.fail msg
  | lessAt i j => exact Flat.lessAt i j
  | nlessAt i j => exact Flat.nlessAt i j
  | swap i j => exact Flat.swap i j
  | bind _ _ h1 h2 => exact Flat.bind h1 h2
  | recurse h => cases h
  | length _ h => exact ⟨fun d => (h _).run d⟩

/-- A program without recursive calls leaves a state alone that only recursive calls change. -/
theorem Prog.flat_ew {p : Prog E α} {s : S} (hs : ∀ s, step (.ev .swap) s = s)
    (ha : ∀ s, step .call s = s) (hf : p.flat) : p.ew step adm (fun _ s' => s' = s) s := by
  induction p with
  | ret a => rfl
  | fail msg => trivial
  | note e p ih =>
    obtain ⟨rfl, hf⟩ := hf
    show p.ew step adm _ (step (.ev .swap) s)
    rw [hs]; exact ih hf
  | ask k x y d next ih =>
    intro b hb
    rw [ha]; exact ih b (hf b)

theorem Flat.ew {m : M E α} {s : S} {d : List E} (hf : Flat m)
    (hs : ∀ s, step (.ev .swap) s = s) (ha : ∀ s, step .call s = s) :
    ew step adm m (fun _ _ s' => s' = s) s d := Prog.flat_ew hs ha (hf.run d)

end Verif.Sort
