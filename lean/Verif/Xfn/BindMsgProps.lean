import Verif.Xfn.BindMsg

/-!
# C109: the messages of `Bind`, proofs
-/

namespace Verif.Xfn

variable {R : Refl} (N : Names R)

/-- Ordinals as the code writes them. -/
def ordIth (n : Nat) : String := ith n

theorem ith_succ (i : Nat) : ith ((i : Int) + 1) = ordIth (i + 1) := rfl

theorem nameAt_some {ts : List R.Ty} {i : Nat} {t : R.Ty} (h : ts[i]? = some t) : nameAt N ts i = N.ty t := by
  rw [nameAt, h]; rfl

theorem toString_natCast (n : Nat) : toString (n : Int) = toString n := rfl

/-! ## The loops -/

theorem outLoop_spec (s d : Sig R) (args : List (Arg R)) (hl : s.outs.length = d.outs.length) : ∀ (n i : Nat),
    i + n = s.outs.length →
    (outLoop N s d n i = .ok () ∧ ∀ j, i ≤ j → j < s.outs.length → s.outs[j]? = d.outs[j]?) ∨
    ∃ j, i ≤ j ∧ Wrong s d args (.out j) ∧ (∀ j', i ≤ j' → j' < j → s.outs[j']? = d.outs[j']?) ∧
      outLoop N s d n i = .error (messageOf N ordIth s d args (.out j))
  | 0, i, h => Or.inl ⟨rfl, fun j h1 h2 => by omega⟩
  | n + 1, i, h => by
    have h1 : i < s.outs.length := by omega
    have h2 : i < d.outs.length := by omega
    have e1 := List.getElem?_eq_getElem h1
    have e2 := List.getElem?_eq_getElem h2
    have unf : outLoop N s d (n + 1) i = if s.outs[i] ≠ d.outs[i] then
        .error ("incompatible output: " ++ ith (i + 1) ++ " output of src [" ++ N.sig s ++ "] is [" ++ N.ty s.outs[i] ++
        "] but " ++ ith (i + 1) ++ " output of dest [" ++ N.sig d ++ "] is [" ++ N.ty d.outs[i] ++ "]")
        else outLoop N s d n (i + 1) := by
      rw [outLoop, goGet_some e1, goGet_some e2]
      by_cases c : s.outs[i] = d.outs[i]
      · simp [c, Bind.bind, Except.bind]
      · simp [c, Bind.bind, Except.bind, throw, throwThe, MonadExceptOf.throw]
    by_cases c : s.outs[i] = d.outs[i]
    · rw [unf, if_neg (by simp [c])]
      have c' : s.outs[i]? = d.outs[i]? := by rw [e1, e2, c]
      rcases outLoop_spec s d args hl n (i + 1) (by omega) with ⟨g1, g2⟩ | ⟨j, g1, g2, g3, g4⟩
      · refine Or.inl ⟨g1, fun j h1 h2 => ?_⟩
        rcases Nat.eq_or_lt_of_le h1 with rfl | h1
        · exact c'
        · exact g2 j h1 h2
      · refine Or.inr ⟨j, by omega, g2, fun j' h1 h2 => ?_, g4⟩
        rcases Nat.eq_or_lt_of_le h1 with rfl | h1
        · exact c'
        · exact g3 j' h1 h2
    · rw [unf, if_pos c]
      refine Or.inr ⟨i, Nat.le_refl _, ⟨h1, by rw [e1, e2]; simpa using c⟩, fun j' h1 h2 => by omega, ?_⟩
      refine congrArg Except.error ?_
      rw [messageOf.eq_def]
      dsimp only
      rw [nameAt_some N e1, nameAt_some N e2, ith_succ]

/-- An argument that fits is not blamed. -/
theorem fits_not_wrong {s d : Sig R} {args : List (Arg R)} {q : Problem} (hc : args.length ≤ s.ins.length)
    (hf : ∀ a t, args[q.place]? = some a → s.ins[q.place]? = some t → ArgFits d.ins t a) (hq : q.stage = 5) :
    ¬ Wrong s d args q := by
  intro hw
  have ht : ∀ {a : Arg R} {i : Nat}, args[i]? = some a → ∃ t, s.ins[i]? = some t := fun {a i} h => by
    have := (List.getElem?_eq_some_iff.1 h).1
    exact ⟨_, List.getElem?_eq_getElem (show i < s.ins.length by omega)⟩
  cases q with
  | badPlaceholder i k =>
    obtain ⟨h1, h2⟩ := hw
    obtain ⟨t, ht⟩ := ht h1
    obtain ⟨g1, g2⟩ := hf _ t h1 ht
    have := (List.getElem?_eq_some_iff.1 g2).1
    omega
  | placeholderType i k =>
    obtain ⟨h1, h2, h3, h4⟩ := hw
    obtain ⟨t, ht⟩ := ht h1
    obtain ⟨g1, g2⟩ := hf _ t h1 ht
    rw [show ((k : Int) - 1).toNat = k - 1 by omega] at g2
    exact h4 (by rw [ht, g2])
  | nilArg i =>
    obtain ⟨t, ht⟩ := ht hw
    exact hf _ t hw ht
  | argType i =>
    obtain ⟨v, t, h1, h2, h3⟩ := hw
    have := hf _ t h1 h2
    simp [ArgFits, h3] at this
  | _ => simp [Problem.stage] at hq

theorem argLoop_spec (s d : Sig R) (args : List (Arg R)) (hc : args.length ≤ s.ins.length) : ∀ (as : List (Arg R)) (i : Nat)
    (b : Bound R) (di : Nat), args.drop i = as → b.values.length = s.ins.length →
    ((∃ r, argLoopMsg N s d i as b di = .ok r ∧ argLoop s.ins d.ins i as b di = .ok r) ∧
      ∀ j, i ≤ j → ∀ a t, args[j]? = some a → s.ins[j]? = some t → ArgFits d.ins t a) ∨
    ∃ p : Problem, p.stage = 5 ∧ i ≤ p.place ∧ Wrong s d args p ∧
      (∀ j, i ≤ j → j < p.place → ∀ a t, args[j]? = some a → s.ins[j]? = some t → ArgFits d.ins t a) ∧
      argLoopMsg N s d i as b di = .error (messageOf N ordIth s d args p)
  | [], i, b, di, h, _ => by
    refine Or.inl ⟨⟨(b, di), rfl, rfl⟩, fun j hj a t ha => ?_⟩
    have := (List.getElem?_eq_some_iff.1 ha).1
    have := List.drop_eq_nil_iff.1 h
    omega
  | a :: as, i, b, di, h, hb => by
    have hi : args[i]? = some a := by
      have := congrArg (·[0]?) h
      simpa using this
    have hd : args.drop (i + 1) = as := by
      have := congrArg (List.drop 1) h
      rw [List.drop_drop] at this
      simpa using this
    have hlt := (List.getElem?_eq_some_iff.1 hi).1
    have hls : i < s.ins.length := by omega
    have es := List.getElem?_eq_getElem hls
    have step : ArgFits d.ins s.ins[i] a → ∀ {p : Nat}, (∀ j, i + 1 ≤ j → j < p → ∀ a t, args[j]? = some a →
        s.ins[j]? = some t → ArgFits d.ins t a) → ∀ j, i ≤ j → j < p → ∀ a t, args[j]? = some a →
        s.ins[j]? = some t → ArgFits d.ins t a := by
      intro hf p hp j h1 h2 a' t' h3 h4
      rcases Nat.eq_or_lt_of_le h1 with rfl | h1
      · rw [hi] at h3; rw [es] at h4
        cases h3; cases h4
        exact hf
      · exact hp j h1 h2 a' t' h3 h4
    have goon : ∀ (b' : Bound R) (di' : Nat), b'.values.length = s.ins.length → ArgFits d.ins s.ins[i] a →
        argLoopMsg N s d i (a :: as) b di = argLoopMsg N s d (i + 1) as b' di' →
        argLoop s.ins d.ins i (a :: as) b di = argLoop s.ins d.ins (i + 1) as b' di' →
        ((∃ r, argLoopMsg N s d i (a :: as) b di = .ok r ∧ argLoop s.ins d.ins i (a :: as) b di = .ok r) ∧
          ∀ j, i ≤ j → ∀ a t, args[j]? = some a → s.ins[j]? = some t → ArgFits d.ins t a) ∨
        ∃ p : Problem, p.stage = 5 ∧ i ≤ p.place ∧ Wrong s d args p ∧
          (∀ j, i ≤ j → j < p.place → ∀ a t, args[j]? = some a → s.ins[j]? = some t → ArgFits d.ins t a) ∧
          argLoopMsg N s d i (a :: as) b di = .error (messageOf N ordIth s d args p) := by
      intro b' di' hb' hf e1 e2
      rw [e1, e2]
      rcases argLoop_spec s d args hc as (i + 1) b' di' hd hb' with ⟨g1, g2⟩ | ⟨p, g1, g2, g3, g4, g5⟩
      · exact Or.inl ⟨g1, fun j hj a t ha => step hf (fun j h1 _ => g2 j h1) j hj
          (Nat.lt_succ_self j) a t ha⟩
      · exact Or.inr ⟨p, g1, by omega, g3, step hf g4, g5⟩
    have nope : ∀ p : Problem, p.stage = 5 → p.place = i → Wrong s d args p →
        argLoopMsg N s d i (a :: as) b di = .error (messageOf N ordIth s d args p) →
        ∃ p : Problem, p.stage = 5 ∧ i ≤ p.place ∧ Wrong s d args p ∧
          (∀ j, i ≤ j → j < p.place → ∀ a t, args[j]? = some a → s.ins[j]? = some t → ArgFits d.ins t a) ∧
          argLoopMsg N s d i (a :: as) b di = .error (messageOf N ordIth s d args p) :=
      fun p h1 h2 h3 h4 => ⟨p, h1, by omega, h3, fun j h1 h2 => by omega, h4⟩
    cases a with
    | nil => exact Or.inr (nope (.nilArg i) rfl rfl hi rfl)
    | val v =>
      cases hv : R.conv v s.ins[i] with
      | none =>
        refine Or.inr (nope (.argType i) rfl rfl ⟨v, _, hi, es, hv⟩ ?_)
        rw [argLoopMsg, goGet_some es]
        simp only [Bind.bind, Except.bind, hv, throw, throwThe, MonadExceptOf.throw]
        refine congrArg Except.error ?_
        rw [messageOf.eq_def]
        dsimp only
        rw [nameAt_some N es, hi, ith_succ]
      | some w =>
        refine goon { b with values := b.values.set i (some w) } di (by simpa using hb) (by simp [ArgFits, hv]) ?_ ?_
        · rw [argLoopMsg, goGet_some es]
          simp only [Bind.bind, Except.bind, hv]
          rw [goSet_nat (by omega)]
        · rw [argLoop, goGet_some es]
          simp only [Bind.bind, Except.bind, hv]
          rw [goSet_nat (by omega)]
    | ph k =>
      by_cases c : k - 1 < 0 ∨ (d.ins.length : Int) ≤ k - 1
      · refine Or.inr (nope (.badPlaceholder i k) rfl rfl ⟨hi, by omega⟩ ?_)
        rw [argLoopMsg]
        simp only [if_pos c]
        simp only [Bind.bind, Except.bind, throw, throwThe, MonadExceptOf.throw]
        refine congrArg Except.error ?_
        rw [messageOf.eq_def]
        dsimp only
        rw [ith_succ, placeholderString]
        have e1 : " inputs but provided Placeholder(" = " inputs but provided " ++ "Placeholder(" := by decide +kernel
        have e2 : ") at " = ")" ++ " at " := by decide +kernel
        rw [e1, e2]
        generalize " inputs but provided " = u1
        generalize "Placeholder(" = u2
        simp only [String.append_assoc]
      · obtain ⟨m, rfl⟩ : ∃ m : Nat, k = m := ⟨k.toNat, by omega⟩
        have hm : m - 1 < d.ins.length := by omega
        have em := List.getElem?_eq_getElem hm
        have hm1 : 1 ≤ m := by omega
        have eg : goGet d.ins ((m : Int) - 1) = .ok d.ins[m - 1] := by
          rw [show (m : Int) - 1 = ((m - 1 : Nat) : Int) by omega]; exact goGet_some em
        by_cases c' : s.ins[i] = d.ins[m - 1]
        · refine goon { b with placeholders := b.placeholders ++ [(((m : Int) - 1).toNat, i)] }
            (max di (((m : Int) - 1).toNat + 1)) hb ⟨by omega, ?_⟩ ?_ ?_
          · rw [show ((m : Int) - 1).toNat = m - 1 by omega, em, c']
          · rw [argLoopMsg]
            simp only [if_neg c]
            rw [goGet_some es, eg]
            simp [Bind.bind, Except.bind, c']
          · rw [argLoop]
            simp only [if_neg c]
            rw [goGet_some es, eg]
            simp [Bind.bind, Except.bind, c']
        · refine Or.inr (nope (.placeholderType i m) rfl rfl ⟨hi, by omega, by omega, by
            rw [es, em]; simpa using c'⟩ ?_)
          rw [argLoopMsg]
          simp only [if_neg c]
          rw [goGet_some es, eg]
          simp only [Bind.bind, Except.bind, ne_eq, c', not_false_eq_true, if_true, throw, throwThe,
            MonadExceptOf.throw]
          refine congrArg Except.error ?_
          rw [messageOf.eq_def]
          dsimp only
          rw [ith_succ, placeholderString, nameAt_some N es, nameAt_some N em, toString_natCast]
          have e1 : "] via Placeholder(" = "] via " ++ "Placeholder(" := by decide +kernel
          have e2 : ") at " = ")" ++ " at " := by decide +kernel
          rw [e1, e2]
          generalize "] via " = u1
          generalize "Placeholder(" = u2
          generalize ")" = u3
          simp only [String.append_assoc]

theorem missingLoop_spec (s : Sig R) : ∀ (n i : Nat) (sb : String), i + n = s.ins.length →
    missingLoop N s n i sb = .ok (sb ++ commas ((s.ins.drop i).map N.ty))
  | 0, i, sb, h => by
    rw [List.drop_eq_nil_of_le (by omega)]
    simp [missingLoop, commas]
  | n + 1, i, sb, h => by
    have hi : i < s.ins.length := by omega
    rw [missingLoop, goGet_some (List.getElem?_eq_getElem hi)]
    have ih := fun sb => missingLoop_spec s n (i + 1) sb (by omega)
    simp only [Bind.bind, Except.bind]
    rw [show (i : Int) + 1 = ((i + 1 : Nat) : Int) by omega, ih, List.drop_eq_getElem_cons hi]
    cases e : s.ins.drop (i + 1) with
    | nil =>
      have := List.drop_eq_nil_iff.1 e
      rw [if_neg (by omega)]
      simp [commas]
    | cons y l =>
      have : i + 1 < s.ins.length := by
        refine Decidable.byContradiction fun hc => ?_
        rw [List.drop_eq_nil_of_le (by omega)] at e
        cases e
      rw [if_pos (by omega)]
      simp [commas, String.append_assoc]

theorem restLoop_spec (s d : Sig R) (args : List (Arg R)) (hd : s.ins.length + highest args ≤ args.length + d.ins.length)
    (hc : args.length ≤ s.ins.length) : ∀ (n i di : Nat) (ps : List (Nat × Nat)), i + n = s.ins.length → args.length ≤ i →
    di = highest args + (i - args.length) →
    ((∃ r, restLoopMsg N s d n i di ps = .ok r ∧ restLoop s.ins d.ins n i di ps = .ok r) ∧
      ∀ j, i ≤ j → ¬ Wrong s d args (.restType j)) ∨
    ∃ j, i ≤ j ∧ Wrong s d args (.restType j) ∧ (∀ j', i ≤ j' → j' < j → ¬ Wrong s d args (.restType j')) ∧
      restLoopMsg N s d n i di ps = .error (messageOf N ordIth s d args (.restType j))
  | 0, i, di, ps, h, _, _ => Or.inl ⟨⟨ps, rfl, rfl⟩, fun j hj hw => by have := hw.2.1; omega⟩
  | n + 1, i, di, ps, h, ha, hdi => by
    have hi : i < s.ins.length := by omega
    have hdl : di < d.ins.length := by omega
    have es := List.getElem?_eq_getElem hi
    have ed := List.getElem?_eq_getElem hdl
    by_cases c : s.ins[i] = d.ins[di]
    · have nw : ¬ Wrong s d args (.restType i) := fun hw => hw.2.2 (by rw [← hdi, es, ed, c])
      have e1 : restLoopMsg N s d (n + 1) i di ps = restLoopMsg N s d n (i + 1) (di + 1) (ps ++ [(di, i)]) := by
        rw [restLoopMsg, goGet_some es, goGet_some ed]
        simp [Bind.bind, Except.bind, c]
      have e2 : restLoop s.ins d.ins (n + 1) i di ps = restLoop s.ins d.ins n (i + 1) (di + 1) (ps ++ [(di, i)]) := by
        rw [restLoop, goGet_some es, goGet_some ed]
        simp [Bind.bind, Except.bind, c]
      rw [e1, e2]
      rcases restLoop_spec s d args hd hc n (i + 1) (di + 1) (ps ++ [(di, i)]) (by omega) (by omega) (by omega) with
        ⟨g1, g2⟩ | ⟨j, g1, g2, g3, g4⟩
      · refine Or.inl ⟨g1, fun j hj => ?_⟩
        rcases Nat.eq_or_lt_of_le hj with rfl | hj
        · exact nw
        · exact g2 j hj
      · refine Or.inr ⟨j, by omega, g2, fun j' h1 h2 => ?_, g4⟩
        rcases Nat.eq_or_lt_of_le h1 with rfl | h1
        · exact nw
        · exact g3 j' h1 h2
    · refine Or.inr ⟨i, Nat.le_refl _, ⟨ha, hi, by rw [← hdi, es, ed]; simpa using c⟩, fun j' h1 h2 => by omega, ?_⟩
      rw [restLoopMsg, goGet_some es, goGet_some ed]
      simp only [Bind.bind, Except.bind, ne_eq, c, not_false_eq_true, if_true, throw, throwThe,
        MonadExceptOf.throw]
      refine congrArg Except.error ?_
      rw [messageOf.eq_def]
      dsimp only
      rw [← hdi, nameAt_some N es, nameAt_some N ed, ith_succ, ith_succ]

/-! ## The theorems -/

/-- The first thing wrong is just one thing. -/
theorem C109_unique (src : Src R) (dest : Dest R) (args : List (Arg R)) (p q : Problem) (hp : First src dest args p)
    (hq : First src dest args q) : p = q := by
  have h1 := hp.2 q hq.1
  have h2 := hq.2 p hp.1
  have hs : p.stage = q.stage ∧ p.place = q.place := by
    simp only [Problem.Before, not_or, not_and] at h1 h2
    have : p.stage = q.stage := by omega
    exact ⟨this, by have g1 := h1.2 this.symm; have g2 := h2.2 this; omega⟩
  have bp := hp.1
  have bq := hq.1
  clear h1 h2 hp hq
  obtain ⟨hs, hl⟩ := hs
  cases p <;> cases q <;> simp [Problem.stage] at hs <;> simp [Problem.place] at hl <;> try subst hl
  all_goals first
    | rfl
    | (simp only [Blame] at bp bq; rw [bp] at bq; cases bq)
    | skip
  all_goals
    simp only [Blame] at bp bq
    obtain ⟨s, f, d, e1, e2, wp⟩ := bp
    obtain ⟨s', f', d', e3, e4, wq⟩ := bq
    rw [e1] at e3
    rw [e2] at e4
    injection e3 with e3
    injection e4 with e4
    subst e3 e4
    simp only [Wrong] at wp wq
  all_goals first
    | (rw [wp.1] at wq; simp at wq; done)
    | (have h := wp.1; rw [wq.1] at h; simp at h; done)
    | (rw [wq] at wp; simp at wp; done)
    | skip
  all_goals first
    | (have h := wp.1
       rw [wq.1] at h
       simp only [Option.some.injEq, Arg.ph.injEq] at h
       first
         | (subst h; rfl)
         | (exfalso; omega)
         | (have h : _ = _ := Int.ofNat.inj h; subst h; rfl))
    | (obtain ⟨v, u, g1, -⟩ := wq; first | (rw [wp.1] at g1; cases g1) | (rw [wp] at g1; cases g1))
    | (obtain ⟨v, u, g1, -⟩ := wp; first | (rw [wq.1] at g1; cases g1) | (rw [wq] at g1; cases g1))
    | (have h := wq.1; rw [wp] at h; cases h)
    | (refine congrArg Problem.notEnough ?_; omega)

theorem blame_func {s d : Sig R} {f : List R.Val → Go (List R.Val)} {args : List (Arg R)} {p : Problem} :
    Blame (.func s f) (.func d) args p ↔ Wrong s d args p := by
  have key : (∃ s' f' d', Src.func s f = .func s' f' ∧ Dest.func d = .func d' ∧ Wrong s' d' args p) ↔ Wrong s d args p := by
    constructor
    · rintro ⟨s', f', d', e1, e2, h⟩
      injection e1 with e1
      injection e2 with e2
      subst e1 e2
      exact h
    · exact fun h => ⟨s, f, d, rfl, rfl, h⟩
  cases p <;> first | exact key | (simp [Blame, Wrong])

/-- C109: a call of `Bind` that does not return panics with the message of the first thing that is wrong with it; no
other panic happens on the way. If it returns nothing is wrong, and it is the function of C54. -/
theorem C109_message (src : Src R) (dest : Dest R) (args : List (Arg R)) :
    (∃ b, bindMsg N src dest args = .ok b ∧ bind src dest args = .ok b ∧ ∀ p, ¬ Blame src dest args p) ∨
    ∃ p, First src dest args p ∧ bindMsg N src dest args = .error (message N ordIth src dest args p) := by
  cases src with
  | nil => exact Or.inr ⟨.srcNil, ⟨rfl, fun q _ hq => by simp [Problem.Before, Problem.stage, Problem.place] at hq⟩, rfl⟩
  | other => exact Or.inr ⟨.srcNot, ⟨rfl, fun q _ hq => by simp [Problem.Before, Problem.stage, Problem.place] at hq⟩, rfl⟩
  | func s f =>
    cases dest with
    | other =>
      refine Or.inr ⟨.destNot, ⟨rfl, fun q hb hq => ?_⟩, rfl⟩
      cases q <;> simp [Problem.Before, Problem.stage, Problem.place] at hq <;> simp [Blame] at hb
    | func d =>
      -- it is enough that nothing before `p` is wrong
      have fin : ∀ p, Wrong s d args p → (∀ q, Wrong s d args q → q.Before p → False) →
          bindMsg N (.func s f) (.func d) args = .error (messageOf N ordIth s d args p) →
          ∃ p, First (.func s f) (.func d) args p ∧
            bindMsg N (.func s f) (.func d) args = .error (message N ordIth (.func s f) (.func d) args p) :=
        fun p h1 h2 h3 => ⟨p, ⟨blame_func.2 h1, fun q hq => h2 q (blame_func.1 hq)⟩, h3⟩
      by_cases c1 : s.outs.length = d.outs.length
      case neg =>
        refine Or.inr (fin .outCount c1 (fun q hq hb => ?_) ?_)
        · cases q <;> simp [Problem.Before, Problem.stage, Problem.place] at hb <;> simp [Wrong] at hq
        · simp only [bindMsg, ne_eq, c1, not_false_eq_true, if_true]
          rfl
      rcases outLoop_spec N s d args c1 s.outs.length 0 (by omega) with ⟨o1, o2⟩ | ⟨j, -, o2, o3, o4⟩
      case inr =>
        refine Or.inr (fin (.out j) o2 (fun q hq hb => ?_) ?_)
        · cases q <;> simp [Problem.Before, Problem.stage, Problem.place] at hb <;> simp [Wrong] at hq
          · exact hq c1
          · exact hq.2 (o3 _ (Nat.zero_le _) hb)
        · simp only [bindMsg, ne_eq, c1, not_true_eq_false, if_false]
          rw [show outLoop N s d d.outs.length 0 = _ from c1 ▸ o4]
          rfl
      have houts : s.outs = d.outs := by
        refine List.ext_getElem? fun j => ?_
        by_cases h : j < s.outs.length
        · exact o2 j (Nat.zero_le _) h
        · rw [List.getElem?_eq_none (by omega), List.getElem?_eq_none (by omega)]
      have before2 : ∀ q : Problem, q.stage < 4 → ¬ Wrong s d args q := by
        intro q hq hw
        cases q <;> simp [Problem.stage] at hq <;> simp [Wrong] at hw
        · exact hw c1
        · exact hw.2 (o2 _ (Nat.zero_le _) hw.1)
      by_cases c2 : args.length ≤ s.ins.length
      case neg =>
        refine Or.inr (fin .tooMany (by simpa [Wrong] using c2) (fun q hq hb => ?_) ?_)
        · refine before2 q ?_ hq
          simpa [Problem.Before, Problem.stage, Problem.place] using hb
        · simp only [bindMsg, ne_eq, c1, not_true_eq_false, if_false]
          rw [show outLoop N s d d.outs.length 0 = _ from c1 ▸ o1]
          simp only [Bind.bind, Except.bind]
          rw [if_pos (by omega)]
          rfl
      have unf : bindMsg N (.func s f) (.func d) args =
          (argLoopMsg N s d 0 args ⟨List.replicate s.ins.length none, []⟩ 0).bind fun r =>
            if (s.ins.length : Int) - args.length > d.ins.length - r.2 then
              (missingLoop N s ((s.ins.length : Int) - args.length - (d.ins.length - r.2)).toNat
                (s.ins.length - ((s.ins.length : Int) - args.length - (d.ins.length - r.2))) "").bind fun sb =>
              .error ("not enough inputs: dest [" ++ N.sig d ++ "] needs " ++
                toString ((s.ins.length : Int) - args.length - (d.ins.length - r.2)) ++ " more inputs [" ++ sb ++ "]")
            else (restLoopMsg N s d (s.ins.length - args.length) args.length r.2 r.1.placeholders).bind fun ps =>
              .ok { r.1 with placeholders := ps } := by
        simp only [bindMsg, ne_eq, c1, not_true_eq_false, if_false]
        rw [show outLoop N s d d.outs.length 0 = _ from c1 ▸ o1]
        simp only [Bind.bind, Except.bind]
        rw [if_neg (by omega)]
        cases argLoopMsg N s d 0 args ⟨List.replicate s.ins.length none, []⟩ 0 with
        | error e => rfl
        | ok r =>
          dsimp only
          split
          · cases missingLoop N s ((s.ins.length : Int) - args.length - (d.ins.length - r.2)).toNat
              (s.ins.length - ((s.ins.length : Int) - args.length - (d.ins.length - r.2))) "" <;> rfl
          · cases restLoopMsg N s d (s.ins.length - args.length) args.length r.2 r.1.placeholders <;> rfl
      rcases argLoop_spec N s d args c2 args 0 ⟨List.replicate s.ins.length none, []⟩ 0 rfl (by simp) with
        ⟨⟨r, a1, a2⟩, a3⟩ | ⟨p, a1, -, a2, a3, a4⟩
      case inr =>
        refine Or.inr (fin p a2 (fun q hq hb => ?_) ?_)
        · rcases hb with hb | ⟨hb, hb'⟩
          · by_cases h4 : q.stage < 4
            · exact before2 q h4 hq
            · rw [a1] at hb
              have : q.stage = 4 := by omega
              cases q <;> simp [Problem.stage] at this
              simp [Wrong] at hq
              omega
          · exact fits_not_wrong c2 (a3 _ (Nat.zero_le _) hb') (by omega) hq
        · rw [unf, a4]
          rfl
      have before5 : ∀ q : Problem, q.stage < 6 → ¬ Wrong s d args q := by
        intro q hq hw
        by_cases h4 : q.stage < 4
        · exact before2 q h4 hw
        · by_cases h5 : q.stage = 5
          · exact fits_not_wrong c2 (a3 _ (Nat.zero_le _)) h5 hw
          · have : q.stage = 4 := by omega
            cases q <;> simp [Problem.stage] at this
            simp [Wrong] at hw
            omega
      obtain ⟨vs, e1, -⟩ := argLoop_ok s.ins d.ins args 0 ⟨List.replicate s.ins.length none, []⟩ 0 (by omega) (by simp)
        (fun j a t h1 h2 => a3 j (Nat.zero_le _) a t h1 (by simpa using h2))
      rw [a2] at e1
      injection e1 with e1
      have hr2 : r.2 = highest args := by rw [e1]; simp
      have hhi : highest args ≤ d.ins.length := by
        refine highest_le fun j k hj => ?_
        have hj' := (List.getElem?_eq_some_iff.1 hj).1
        obtain ⟨h1, h2⟩ := a3 j (Nat.zero_le _) _ _ hj (List.getElem?_eq_getElem (by omega))
        have := (List.getElem?_eq_some_iff.1 h2).1
        omega
      by_cases c3 : s.ins.length + highest args ≤ args.length + d.ins.length
      case neg =>
        obtain ⟨n, hn⟩ : ∃ n, s.ins.length + highest args = args.length + d.ins.length + n :=
          ⟨s.ins.length + highest args - (args.length + d.ins.length), by omega⟩
        refine Or.inr (fin (.notEnough n) ⟨by omega, hn⟩ (fun q hq hb => ?_) ?_)
        · refine before5 q ?_ hq
          simpa [Problem.Before, Problem.stage, Problem.place] using hb
        · rw [unf, a1]
          show (if _ then _ else _) = _
          rw [hr2, if_pos (by omega),
            show ((s.ins.length : Int) - args.length - (d.ins.length - (highest args : Nat))) = (n : Nat) by omega,
            show (s.ins.length : Int) - (n : Nat) = ((s.ins.length - n : Nat) : Int) by omega, Int.toNat_natCast,
            missingLoop_spec N s n (s.ins.length - n) "" (by omega), toString_natCast]
          show Except.error _ = _
          rw [String.empty_append]
          rfl
      have before6 : ∀ q : Problem, q.stage < 7 → ¬ Wrong s d args q := by
        intro q hq hw
        by_cases h4 : q.stage < 6
        · exact before5 q h4 hw
        · have : q.stage = 6 := by omega
          cases q <;> simp [Problem.stage] at this
          simp only [Wrong] at hw
          omega
      rcases restLoop_spec N s d args c3 c2 (s.ins.length - args.length) args.length (highest args) r.1.placeholders (by omega)
        (Nat.le_refl _) (by omega) with ⟨⟨ps, g1, g2⟩, g3⟩ | ⟨j, g1, g2, g3, g4⟩
      · refine Or.inl ⟨{ r.1 with placeholders := ps }, ?_, ?_, fun q hq => ?_⟩
        · rw [unf, a1]
          show (if _ then _ else _) = _
          rw [hr2, if_neg (by omega), g1]
          rfl
        · unfold bind
          dsimp only
          rw [if_neg (by simp [c1]), if_neg (by simp [houts]), if_neg (by omega), a2]
          show (if ((s.ins.length : Int) - args.length) > (d.ins.length : Int) - r.2 then _ else _) = _
          rw [hr2, if_neg (by omega)]
          show (restLoop s.ins d.ins _ _ _ _ >>= _) = _
          rw [g2]
          rfl
        · have hq := blame_func.1 hq
          by_cases h7 : q.stage < 7
          · exact before6 q h7 hq
          · cases q <;> simp [Problem.stage] at h7
            exact g3 _ hq.1 hq
      · refine Or.inr (fin (.restType j) g2 (fun q hq hb => ?_) ?_)
        · rcases hb with hb | ⟨hb, hb'⟩
          · exact before6 q hb hq
          · cases q <;> simp [Problem.stage] at hb
            exact g3 _ hq.1 hb' hq
        · rw [unf, a1]
          show (if _ then _ else _) = _
          rw [hr2, if_neg (by omega), g4]
          rfl

/-- When the ordinals are right. -/
theorem C109_ordinal (n : Nat) : ordIth n = ordinal n ↔ ¬ (n % 100 = 11 ∨ n % 100 = 12 ∨ n % 100 = 13) := by
  have hm : ((n : Int).tmod 10) = ((n % 10 : Nat) : Int) := by
    rw [Int.tmod_eq_emod_of_nonneg (by omega)]; omega
  have h10 : n % 10 = n % 100 % 10 := by omega
  unfold ordIth ith ordinal
  rw [hm]
  simp only [toString_natCast]
  constructor
  · intro h hc
    rw [if_pos hc] at h
    have h1 : n % 10 = 1 ∨ n % 10 = 2 ∨ n % 10 = 3 := by omega
    rcases h1 with h1 | h1 | h1
    · rw [h1] at h
      exact absurd (String.append_right_inj _ |>.1 h) (by decide +kernel)
    · rw [h1] at h
      exact absurd (String.append_right_inj _ |>.1 h) (by decide +kernel)
    · rw [h1] at h
      exact absurd (String.append_right_inj _ |>.1 h) (by decide +kernel)
  · intro hc
    rw [if_neg hc]
    by_cases h1 : n % 10 = 1
    · rw [h1]; rfl
    · by_cases h2 : n % 10 = 2
      · rw [h2]; rfl
      · by_cases h3 : n % 10 = 3
        · rw [h3]; rfl
        · rw [if_neg (by omega), if_neg (by omega), if_neg (by omega)]
          split <;> first | omega | rfl

/-- C109 as stated: the message has English ordinals. -/
def SaysRight (N : Names R) : Prop := ∀ (src : Src R) (dest : Dest R) (args : List (Arg R)) (m : String),
  bindMsg N src dest args = .error m → ∃ p, First src dest args p ∧ m = message N ordinal src dest args p

/-- C109 for functions with at most ten inputs and outputs. Missing: more, where the ordinals are wrong (C109_ordinal). -/
theorem C109_message_partial (s d : Sig R) (f : List R.Val → Go (List R.Val)) (args : List (Arg R)) (m : String)
    (h1 : s.ins.length ≤ 10) (h2 : s.outs.length ≤ 10) (h3 : d.ins.length ≤ 10)
    (hm : bindMsg N (.func s f) (.func d) args = .error m) :
    ∃ p, First (.func s f) (.func d) args p ∧ m = message N ordinal (.func s f) (.func d) args p := by
  rcases C109_message N (.func s f) (.func d) args with ⟨b, e, -⟩ | ⟨p, hp, e⟩
  · rw [hm] at e; cases e
  · refine ⟨p, hp, ?_⟩
    rw [hm] at e
    refine (Except.error.inj e).trans ?_
    clear e hm
    have ho : ∀ n, n ≤ 10 → ordIth n = ordinal n := fun n hn => (C109_ordinal n).2 (by omega)
    have hw := blame_func.1 hp.1
    -- the arguments were counted before
    have hcount : ∀ p : Problem, 4 < p.stage → First (.func s f) (.func d) args p → args.length ≤ s.ins.length := by
      intro p h4 hp
      refine Decidable.byContradiction fun hc => ?_
      exact hp.2 .tooMany (blame_func.2 (by simp only [Wrong]; omega)) (Or.inl h4)
    have henough : ∀ i, First (.func s f) (.func d) args (.restType i) →
        s.ins.length + highest args ≤ args.length + d.ins.length := by
      intro i hp
      refine Decidable.byContradiction fun hc => ?_
      exact hp.2 (.notEnough (s.ins.length + highest args - (args.length + d.ins.length)))
        (blame_func.2 (by simp only [Wrong]; omega)) (Or.inl (by simp [Problem.stage]))
    show messageOf N ordIth s d args p = messageOf N ordinal s d args p
    have hlt : ∀ {i : Nat} {a : Arg R}, args[i]? = some a → i < args.length := fun h => (List.getElem?_eq_some_iff.1 h).1
    cases p with
    | out i => rw [messageOf.eq_def, messageOf.eq_def]; dsimp only; rw [ho (i + 1) (by have := hw.1; omega)]
    | badPlaceholder i k =>
      have := hcount _ (by simp [Problem.stage]) hp
      rw [messageOf.eq_def, messageOf.eq_def]; dsimp only; rw [ho (i + 1) (by have := hlt hw.1; omega)]
    | placeholderType i k =>
      have := hcount _ (by simp [Problem.stage]) hp
      rw [messageOf.eq_def, messageOf.eq_def]; dsimp only; rw [ho (i + 1) (by have := hlt hw.1; omega)]
    | argType i =>
      have := hcount _ (by simp [Problem.stage]) hp
      obtain ⟨v, t, g, -⟩ := hw
      rw [messageOf.eq_def, messageOf.eq_def]; dsimp only; rw [ho (i + 1) (by have := hlt g; omega)]
    | restType i =>
      have := henough i hp
      have := hw.1
      have := hw.2.1
      rw [messageOf.eq_def, messageOf.eq_def]; dsimp only; rw [ho (i + 1) (by omega), ho (highest args + (i - args.length) + 1) (by omega)]
    | srcNil => rw [messageOf.eq_def, messageOf.eq_def]
    | srcNot => rw [messageOf.eq_def, messageOf.eq_def]
    | destNot => rw [messageOf.eq_def, messageOf.eq_def]
    | outCount => rw [messageOf.eq_def, messageOf.eq_def]
    | tooMany => rw [messageOf.eq_def, messageOf.eq_def]
    | nilArg i => rw [messageOf.eq_def, messageOf.eq_def]
    | notEnough n => rw [messageOf.eq_def, messageOf.eq_def]

/-! ## Cases -/

/-- Names for the types of `small`. -/
def smallNames : Names small where
  ty | .int => "int" | .str => "string" | .any => "any" | .slice _ => "[]T"
  sig _ := "func"
  src := "bool"
  dest := "bool"

/-- The message of a panic. -/
def panicOf {α : Type} : Go α → Option String
  | .error m => some m
  | .ok _ => none

theorem of_panicOf {α : Type} {r : Go α} {m : String} (h : panicOf r = some m) : r = .error m := by
  cases r with
  | error e => simp only [panicOf, Option.some.injEq] at h; rw [h]
  | ok _ => cases h

/-- Argument 2 of `func(string, int)` is not the string input of `func(string)`; argument 1 is fine. -/
example : bindMsg smallNames (.func ⟨[.str, .int], [], false⟩ fun _ => .ok []) (.func ⟨[.str], [], false⟩) [.ph 1, .ph 1] =
    .error "type mismatch: src [func] 2nd input is [int] but provided [string] via Placeholder(1) at 2nd bind argument" :=
  of_panicOf (by decide +kernel)

/-- xfn/bind_test.go:78-84 with other types. -/
example : bindMsg smallNames (.func ⟨[.str, .int, .str, .any], [], false⟩ fun _ => .ok [])
    (.func ⟨[.int, .str, .int], [], false⟩) [.ph 2] =
    .error "not enough inputs: dest [func] needs 2 more inputs [string, any]" := of_panicOf (by decide +kernel)

/-- There the last inputs do not fit either, but that they are missing comes first. -/
example : First (R := small) (.func ⟨[.str, .int, .str, .any], [], false⟩ fun _ => .ok [])
    (.func ⟨[.int, .str, .int], [], false⟩) [.ph 2] (.notEnough 2) := by
  refine ⟨blame_func.2 ⟨by decide, rfl⟩, fun q hq hb => ?_⟩
  have hw := blame_func.1 hq
  cases q <;> simp [Problem.Before, Problem.stage, Problem.place] at hb <;> simp [Wrong] at hw
  case badPlaceholder i k =>
    rcases i with _ | i
    · obtain ⟨e, h⟩ := hw
      injection e with e; injection e with e; subst e
      exact absurd h (by decide)
    · simp at hw
  case placeholderType i k =>
    rcases i with _ | i
    · simp at hw
      obtain ⟨e, -, -, h⟩ := hw
      obtain rfl : k = 2 := by omega
      exact h rfl
    · simp at hw
  case nilArg i => rcases i with _ | i <;> simp at hw
  case argType i => obtain ⟨v, e, -⟩ := hw; rcases i with _ | i <;> simp at e

/-- Eleven inputs. -/
def eleven : Sig small := ⟨List.replicate 11 .int, [], false⟩

/-- The eleventh argument is wrong; it is called the 11st. -/
theorem C109_eleven : bindMsg smallNames (.func eleven fun _ => .ok []) (.func ⟨[.int, .str], [], false⟩)
      (List.replicate 10 (.ph 1) ++ [.ph 2]) =
    .error "type mismatch: src [func] 11st input is [int] but provided [string] via Placeholder(2) at 11st bind argument" :=
  of_panicOf (by decide +kernel)

theorem C109_false : ¬ SaysRight smallNames := by
  intro h
  obtain ⟨p, hp, e⟩ := h _ _ _ _ C109_eleven
  have hp' : First (R := small) (.func eleven fun _ => .ok []) (.func ⟨[.int, .str], [], false⟩)
      (List.replicate 10 (.ph 1) ++ [.ph 2]) (.placeholderType 10 2) := by
    refine ⟨blame_func.2 ⟨rfl, by decide, by decide, fun h => by cases h⟩, fun q hq hb => ?_⟩
    have hw := blame_func.1 hq
    have hph : ∀ i, i < 10 → (List.replicate 10 (Arg.ph 1) ++ [Arg.ph 2] : List (Arg small))[i]? = some (.ph 1) := by
      intro i hi
      rw [List.getElem?_append_left (by simpa using hi), List.getElem?_replicate, if_pos hi]
    have hin : ∀ i, i < 10 → (List.replicate 11 Ty.int)[i]? = some .int := by
      intro i hi
      rw [List.getElem?_replicate, if_pos (by omega)]
    cases q with
    | badPlaceholder i k =>
      simp [Problem.Before, Problem.stage, Problem.place] at hb
      simp only [Wrong, hph i hb] at hw
      obtain ⟨e, h⟩ := hw
      injection e with e; injection e with e; subst e
      exact absurd h (by decide)
    | placeholderType i k =>
      simp [Problem.Before, Problem.stage, Problem.place] at hb
      simp only [Wrong, hph i hb] at hw
      obtain ⟨e, -, -, h⟩ := hw
      simp at e
      obtain rfl : k = 1 := by omega
      exact h ((hin i hb).trans rfl)
    | nilArg i =>
      simp [Problem.Before, Problem.stage, Problem.place] at hb
      simp only [Wrong, hph i hb] at hw
      simp at hw
    | argType i =>
      simp [Problem.Before, Problem.stage, Problem.place] at hb
      simp only [Wrong, hph i hb] at hw
      simp at hw
    | srcNil => exact hw
    | srcNot => exact hw
    | destNot => exact hw
    | outCount => simp [Wrong, eleven] at hw
    | out i => simp [Wrong, eleven] at hw
    | tooMany => exact absurd hw (by show ¬ (11 < 11); decide)
    | notEnough n => simp [Problem.Before, Problem.stage] at hb
    | restType i => simp [Problem.Before, Problem.stage] at hb
  obtain rfl := C109_unique _ _ _ _ _ hp hp'
  revert e
  decide +kernel

end Verif.Xfn
