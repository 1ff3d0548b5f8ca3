import Verif.Xfn.BindProps

/-!
# C110: binding twice
-/

namespace Verif.Xfn

variable {R : Refl}

/-- What input `j` of a function bound with `args` becomes: the argument there, or else the placeholder of the next input
after the highest one named. -/
def becomes (args : List (Arg R)) (j : Nat) : Arg R :=
  (args[j]?).getD (.ph (highest args + (j - args.length) + 1 : Nat))

/-- The arguments that do at once what binding `n` inputs with `args₁` and then with `args₂` does. -/
def atOnce (n : Nat) (args₁ args₂ : List (Arg R)) : List (Arg R) :=
  (List.range n).map fun (i : Nat) => match args₁[i]? with
    | some (.ph k) => becomes args₂ (k - 1).toNat
    | some a => a
    | none => becomes args₂ (highest args₁ + (i - args₁.length))

theorem getElem?_atOnce {n i : Nat} {args₁ args₂ : List (Arg R)} (hi : i < n) :
    (atOnce n args₁ args₂)[i]? = some (match args₁[i]? with
      | some (.ph k) => becomes args₂ (k - 1).toNat
      | some a => a
      | none => becomes args₂ (highest args₁ + (i - args₁.length))) := by
  rw [atOnce, List.getElem?_map, List.getElem?_range hi]
  rfl

theorem compatible_of {s d : Sig R} {f : List R.Val → Go (List R.Val)} {args : List (Arg R)} {b : Bound R}
    (hb : bind (.func s f) (.func d) args = .ok b) : Compatible s d args := by
  obtain ⟨s', f', d', e1, e2, hc⟩ := (bind_returns_iff _ _ _).1 ⟨b, hb⟩
  injection e1 with e1
  injection e2 with e2
  subst e1 e2
  exact hc

/-- What an input becomes fits. -/
theorem becomes_fits {s d : Sig R} {args : List (Arg R)} (hc : Compatible s d args) {j : Nat} {t : R.Ty}
    (ht : s.ins[j]? = some t) : ArgFits d.ins t (becomes args j) := by
  unfold becomes
  cases ha : args[j]? with
  | some a => exact hc.fits j a t ha ht
  | none =>
    have := hc.rest j t (List.getElem?_eq_none_iff.1 ha) ht
    refine ⟨by omega, ?_⟩
    rw [show (((highest args + (j - args.length) + 1 : Nat) : Int) - 1).toNat = highest args + (j - args.length) by omega]
    exact this

theorem atOnce_compatible {s d₁ d₂ : Sig R} {args₁ args₂ : List (Arg R)} (h1 : Compatible s d₁ args₁)
    (h2 : Compatible d₁ d₂ args₂) : Compatible s d₂ (atOnce s.ins.length args₁ args₂) := by
  have hl : (atOnce s.ins.length args₁ args₂).length = s.ins.length := by simp [atOnce]
  refine ⟨h1.outs.trans h2.outs, by omega, fun i a t ha ht => ?_, fun i t hi ht => ?_⟩
  · have hi := (List.getElem?_eq_some_iff.1 ht).1
    rw [getElem?_atOnce hi] at ha
    injection ha with ha
    subst ha
    cases hx : args₁[i]? with
    | none => exact becomes_fits h2 (h1.rest i t (List.getElem?_eq_none_iff.1 hx) ht)
    | some x =>
      have hf := h1.fits i x t hx ht
      cases x with
      | ph k => exact becomes_fits h2 hf.2
      | nil => exact hf
      | val v => exact hf
  · have := (List.getElem?_eq_some_iff.1 ht).1
    omega

/-- Arguments that route alike make functions that do the same. -/
theorem call_congr {s d d' : Sig R} {f : List R.Val → Go (List R.Val)} {args args' : List (Arg R)} {b b' : Bound R}
    (hb : bind (.func s f) (.func d) args = .ok b) (hb' : bind (.func s f) (.func d') args' = .ok b') {ys ys' : List R.Val}
    (hys : ys.map R.typeOf = d.ins) (hys' : ys'.map R.typeOf = d'.ins)
    (h : ∀ i x x', i < s.ins.length → Routed s args ys i x → Routed s args' ys' i x' → x = x') :
    b.call s f ys = b'.call s f ys' := by
  obtain ⟨xs, e1, t1, r1⟩ := bound_fill hb hys
  obtain ⟨xs', e2, t2, r2⟩ := bound_fill hb' hys'
  have hx : xs = xs' := by
    have l1 : xs.length = s.ins.length := by rw [← t1]; simp
    have l2 : xs'.length = s.ins.length := by rw [← t2]; simp
    refine List.ext_getElem (by omega) fun i h1 h2 => ?_
    exact h i _ _ (by omega) (r1 i _ (List.getElem?_eq_getElem h1)) (r2 i _ (List.getElem?_eq_getElem h2))
  unfold Bound.call
  rw [e1, e2, hx]

/-- What an input becomes is what it gets. -/
theorem becomes_routed {s : Sig R} {args : List (Arg R)} {ys : List R.Val} {j : Nat} {x : R.Val}
    (h : Routed s args ys j x) :
    match becomes args j with
    | .val v => ∃ t, s.ins[j]? = some t ∧ R.conv v t = some x
    | .ph k => ys[(k - 1).toNat]? = some x
    | .nil => False := by
  unfold Routed at h
  unfold becomes
  cases ha : args[j]? with
  | none =>
    rw [ha] at h
    simp only [Option.getD_none]
    rw [show (((highest args + (j - args.length) + 1 : Nat) : Int) - 1).toNat = highest args + (j - args.length) by omega]
    exact h
  | some a =>
    rw [ha] at h
    simp only [Option.getD_some]
    cases a with
    | ph k => exact h.2
    | nil => exact h
    | val v => exact h

/-- C110: binding the result of `Bind` is binding once, with the arguments of `atOnce`; that does not panic, and a call
does the same: the same call of `src`, or the same panic before it. The first `Dest` must not be variadic. -/
theorem C110_twice {s d₁ d₂ : Sig R} {f g : List R.Val → Go (List R.Val)} {args₁ args₂ : List (Arg R)} {b₁ b₂ : Bound R}
    (hv : d₁.variadic = false) (h1 : bind (.func s f) (.func d₁) args₁ = .ok b₁)
    (h2 : bind (.func d₁ g) (.func d₂) args₂ = .ok b₂) :
    ∃ b, bind (.func s f) (.func d₂) (atOnce s.ins.length args₁ args₂) = .ok b ∧
      ∀ ys : List R.Val, ys.map R.typeOf = d₂.ins →
        ∃ zs, b₂.call d₁ g ys = ([zs], g zs) ∧ b₁.call s f zs = b.call s f ys := by
  have c1 := compatible_of h1
  have c2 := compatible_of h2
  obtain ⟨b, hb⟩ := (bind_returns_iff (.func s f) (.func d₂) _).2 ⟨s, f, d₂, rfl, rfl, atOnce_compatible c1 c2⟩
  refine ⟨b, hb, fun ys hys => ?_⟩
  obtain ⟨zs, e, ht, hr⟩ := bind_routes_partial hv h2 hys
  refine ⟨zs, e, call_congr h1 hb ht hys fun i x x' hi hx hx' => ?_⟩
  -- input `j` of the first function
  have through : ∀ (j : Nat) z, zs[j]? = some z → ∀ t, s.ins[i]? = some t → d₁.ins[j]? = some t →
      (match becomes args₂ j with
        | .val v => ∃ t, s.ins[i]? = some t ∧ R.conv v t = some x'
        | .ph k => 1 ≤ k ∧ ys[(k - 1).toNat]? = some x'
        | .nil => False) → z = x' := by
    intro j z hz t hst hdt hx'
    have := becomes_routed (hr j z hz)
    revert this hx'
    cases becomes args₂ j with
    | nil => intro h; exact h.elim
    | ph k =>
      rintro ⟨-, g2⟩ g1
      rw [g1] at g2
      exact Option.some.inj g2
    | val v =>
      rintro ⟨t1, g1, g2⟩ ⟨t2, g3, g4⟩
      rw [hst] at g1
      rw [hdt] at g3
      cases g1; cases g3
      rw [g2] at g4
      exact (Option.some.inj g4).symm
  have hst := List.getElem?_eq_getElem hi
  unfold Routed at hx hx'
  rw [getElem?_atOnce hi] at hx'
  cases ha : args₁[i]? with
  | none =>
    rw [ha] at hx hx'
    refine through _ x hx _ hst (c1.rest i _ (List.getElem?_eq_none_iff.1 ha) hst) ?_
    dsimp only at hx'
    revert hx'
    cases becomes args₂ (highest args₁ + (i - args₁.length)) <;> exact id
  | some a =>
    rw [ha] at hx hx'
    cases a with
    | nil => exact hx.elim
    | val v =>
      obtain ⟨t, g1, g2⟩ := hx
      obtain ⟨t', g3, g4⟩ := hx'
      rw [g1] at g3
      cases g3
      rw [g2] at g4
      exact Option.some.inj g4
    | ph k =>
      refine through _ x hx.2 _ hst (c1.fits i _ _ ha hst).2 ?_
      dsimp only at hx'
      revert hx'
      cases becomes args₂ (k - 1).toNat <;> exact id

/-- Only values. -/
def vals (vs : List R.Val) : List (Arg R) := vs.map .val

theorem highest_vals (vs : List R.Val) : highest (vals vs) = 0 := by
  induction vs with
  | nil => rfl
  | cons v vs ih => exact ih

theorem getElem?_vals (vs : List R.Val) (i : Nat) : (vals vs)[i]? = vs[i]?.map .val := by rw [vals, List.getElem?_map]

/-- C110: values can be bound one after the other or together. -/
theorem C110_values {s d₁ d₂ : Sig R} {f g : List R.Val → Go (List R.Val)} {vs ws : List R.Val} {b₁ b₂ : Bound R}
    (hv : d₁.variadic = false) (hn : (vs ++ ws).length ≤ s.ins.length)
    (h1 : bind (.func s f) (.func d₁) (vals vs) = .ok b₁)
    (h2 : bind (.func d₁ g) (.func d₂) (vals ws) = .ok b₂) :
    ∃ b, bind (.func s f) (.func d₂) (vals (vs ++ ws)) = .ok b ∧
      ∀ ys : List R.Val, ys.map R.typeOf = d₂.ins →
        ∃ zs, b₂.call d₁ g ys = ([zs], g zs) ∧ b₁.call s f zs = b.call s f ys := by
  have c1 := compatible_of h1
  have c2 := compatible_of h2
  have hl : ∀ us : List R.Val, (vals us).length = us.length := fun us => by simp [vals]
  have hlt : ∀ {us : List R.Val} {i : Nat} {a : Arg R}, (vals us)[i]? = some a → i < us.length := fun h => by
    have := (List.getElem?_eq_some_iff.1 h).1
    rwa [hl] at this
  have hc : Compatible s d₂ (vals (vs ++ ws)) := by
    refine ⟨c1.outs.trans c2.outs, by rw [hl]; exact hn, fun i a t ha ht => ?_, fun i t hi ht => ?_⟩
    · rw [getElem?_vals] at ha
      by_cases h : i < vs.length
      · rw [List.getElem?_append_left h, ← getElem?_vals] at ha
        have := c1.fits i a t ha ht
        cases a with
        | val v => exact this
        | nil => exact this
        | ph k => rw [getElem?_vals] at ha; cases hx : vs[i]? <;> rw [hx] at ha <;> cases ha
      · rw [List.getElem?_append_right (by omega), ← getElem?_vals] at ha
        have g := c1.rest i t (by rw [hl]; omega) ht
        rw [highest_vals, hl, Nat.zero_add] at g
        have := c2.fits _ a t ha g
        cases a with
        | val v => exact this
        | nil => exact this
        | ph k => rw [getElem?_vals] at ha; cases hx : ws[i - vs.length]? <;> rw [hx] at ha <;> cases ha
    · rw [hl, List.length_append] at hi
      have g := c1.rest i t (by rw [hl]; omega) ht
      rw [highest_vals, hl, Nat.zero_add] at g
      have g' := c2.rest _ t (by rw [hl]; omega) g
      rw [highest_vals, hl, Nat.zero_add] at g'
      rw [highest_vals, hl, Nat.zero_add, List.length_append, ← Nat.sub_sub]
      exact g'
  obtain ⟨b, hb⟩ := (bind_returns_iff (.func s f) (.func d₂) _).2 ⟨s, f, d₂, rfl, rfl, hc⟩
  obtain ⟨b', hb', hcall⟩ := C110_twice hv h1 h2
  refine ⟨b, hb, fun ys hys => ?_⟩
  obtain ⟨zs, e1, e2⟩ := hcall ys hys
  refine ⟨zs, e1, e2.trans (call_congr hb' hb hys hys fun i x x' hi hx hx' => ?_)⟩
  unfold Routed at hx hx'
  rw [getElem?_atOnce hi] at hx
  rw [getElem?_vals] at hx hx'
  by_cases h : i < vs.length
  · rw [List.getElem?_append_left h, List.getElem?_eq_getElem h] at hx'
    rw [List.getElem?_eq_getElem h] at hx
    obtain ⟨t, g1, g2⟩ := hx
    obtain ⟨t', g3, g4⟩ := hx'
    rw [g1] at g3; cases g3
    rw [g2] at g4
    exact Option.some.inj g4
  · rw [List.getElem?_append_right (by omega)] at hx'
    rw [List.getElem?_eq_none (by omega)] at hx
    simp only [Option.map_none, highest_vals, hl, Nat.zero_add, becomes, getElem?_vals] at hx
    by_cases h' : i - vs.length < ws.length
    · rw [List.getElem?_eq_getElem h'] at hx hx'
      obtain ⟨t, g1, g2⟩ := hx
      obtain ⟨t', g3, g4⟩ := hx'
      rw [g1] at g3; cases g3
      rw [g2] at g4
      exact Option.some.inj g4
    · rw [List.getElem?_eq_none (by omega)] at hx hx'
      simp only [Option.map_none, highest_vals, hl, List.length_append, Nat.zero_add, Option.getD_none] at hx hx'
      have g := hx.2
      rw [show (((i - vs.length - ws.length + 1 : Nat) : Int) - 1).toNat = i - (vs.length + ws.length) by omega, hx'] at g
      exact (Option.some.inj g).symm

/-- C110: `Bind` without arguments to the own type changes nothing. -/
theorem C110_none {s : Sig R} (f : List R.Val → Go (List R.Val)) (hv : s.variadic = false) :
    ∃ b, bind (.func s f) (.func s) [] = .ok b ∧
      ∀ ys : List R.Val, ys.map R.typeOf = s.ins → b.call s f ys = ([ys], f ys) := by
  have hc : Compatible s s [] := by
    refine ⟨rfl, Nat.zero_le _, fun i a t h => by simp at h, fun i t _ ht => ?_⟩
    rw [← ht]; simp [highest]
  obtain ⟨b, hb⟩ := (bind_returns_iff (.func s f) (.func s) _).2 ⟨s, f, s, rfl, rfl, hc⟩
  refine ⟨b, hb, fun ys hys => ?_⟩
  obtain ⟨xs, e, t, r⟩ := bind_routes_partial hv hb hys
  have : xs = ys := by
    have l1 : xs.length = s.ins.length := by rw [← t]; simp
    have l2 : ys.length = s.ins.length := by rw [← hys]; simp
    refine List.ext_getElem (by omega) fun i h1 h2 => ?_
    have := r i _ (List.getElem?_eq_getElem h1)
    simp only [Routed, List.getElem?_nil, highest, Nat.zero_add, List.length_nil, Nat.sub_zero] at this
    rw [List.getElem?_eq_getElem h2] at this
    exact (Option.some.inj this).symm
  rw [e, this]

/-! ## A case -/

/-- `func(string, int, string, int)` bound with 65 (converted to "A"), `P1`, `P2`, and that with `P2`, "s". -/
example : ∃ b₁ b₂, bind (.func sig1 fun _ => .ok [.int 7]) (.func dest1) args1 = .ok b₁ ∧
    bind (R := small) (.func dest1 fun _ => .ok [.int 7]) (.func ⟨[.int, .int, .int], [.int], false⟩) [.ph 2, .val (.str [9])] = .ok b₂ ∧
    b₁.call sig1 (fun _ => .ok [.int 7]) [.int 2, .str [9], .int 3] = ([[.str [65], .int 2, .str [9], .int 3]], .ok [.int 7]) :=
  ⟨_, _, rfl, rfl, rfl⟩
example : ∃ b, bind (.func sig1 fun _ => .ok [.int 7]) (.func ⟨[.int, .int, .int], [.int], false⟩)
      (atOnce 4 args1 [.ph 2, .val (.str [9])]) = .ok b ∧
    b.call sig1 (fun _ => .ok [.int 7]) [.int 1, .int 2, .int 3] = ([[.str [65], .int 2, .str [9], .int 3]], .ok [.int 7]) :=
  ⟨_, rfl, rfl⟩

end Verif.Xfn
