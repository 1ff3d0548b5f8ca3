import Verif.Xfn.Bind

/-!
# Properties of `Bind` (C54, C55)
-/

namespace Verif.Xfn

variable {R : Refl}

/-! ## What the documentation says -/

/-- The highest placeholder used. -/
def highest : List (Arg R) → Nat
  | [] => 0
  | .ph k :: as => max k.toNat (highest as)
  | _ :: as => highest as

/-- An argument for an input of type `t`: a placeholder for an input of that type, or something convertible to it. -/
def ArgFits (dIns : List R.Ty) (t : R.Ty) : Arg R → Prop
  | .ph k => 1 ≤ k ∧ dIns[(k - 1).toNat]? = some t
  | .nil => False
  | .val v => (R.conv v t).isSome = true

/-- The signatures and arguments are compatible. -/
structure Compatible (s d : Sig R) (args : List (Arg R)) : Prop where
  outs : s.outs = d.outs
  count : args.length ≤ s.ins.length
  fits : ∀ (i : Nat) a t, args[i]? = some a → s.ins[i]? = some t → ArgFits d.ins t a
  rest : ∀ (i : Nat) t, args.length ≤ i → s.ins[i]? = some t → d.ins[highest args + (i - args.length)]? = some t

/-- What `src` must get at position `i`: the converted bound argument, the input a placeholder names, or an input after
the highest placeholder. -/
def Routed (s : Sig R) (args : List (Arg R)) (ys : List R.Val) (i : Nat) (x : R.Val) : Prop :=
  match args[i]? with
  | some (.val v) => ∃ t, s.ins[i]? = some t ∧ R.conv v t = some x
  | some (.ph k) => 1 ≤ k ∧ ys[(k - 1).toNat]? = some x
  | some .nil => False
  | none => ys[highest args + (i - args.length)]? = some x

/-! ## The loops -/

/-- Where placeholders go, from position `i` on. -/
def phsOf : Nat → List (Arg R) → List (Nat × Nat)
  | _, [] => []
  | i, .ph k :: as => ((k - 1).toNat, i) :: phsOf (i + 1) as
  | i, _ :: as => phsOf (i + 1) as

/-- All arguments fit, from position `i` on. -/
def AllFit (sIns dIns : List R.Ty) (i : Nat) (as : List (Arg R)) : Prop :=
  ∀ (j : Nat) a t, as[j]? = some a → sIns[i + j]? = some t → ArgFits dIns t a

theorem allFit_cons {sIns dIns : List R.Ty} {i : Nat} {a : Arg R} {as : List (Arg R)} {t : R.Ty} (ht : sIns[i]? = some t) :
    AllFit sIns dIns i (a :: as) ↔ ArgFits dIns t a ∧ AllFit sIns dIns (i + 1) as := by
  constructor
  · intro h
    refine ⟨h 0 a t rfl ht, fun j a' t' h1 h2 => h (j + 1) a' t' h1 ?_⟩
    rw [← h2]; congr 1; omega
  · rintro ⟨h1, h2⟩ j a' t' g1 g2
    cases j with
    | zero =>
      simp at g1; subst g1
      rw [Nat.add_zero, ht] at g2
      injection g2 with g2
      subst g2; exact h1
    | succ j =>
      refine h2 j a' t' g1 ?_
      rw [← g2]; congr 1; omega

theorem goGet_some {α : Type} {l : List α} {i : Nat} {x : α} (h : l[i]? = some x) : goGet l (i : Int) = .ok x :=
  goGet_nat h

theorem bind_ok {α β : Type} {x : Go α} {f : α → Go β} {b : β} (h : (x >>= f) = .ok b) : ∃ a, x = .ok a ∧ f a = .ok b := by
  cases x with
  | error e => cases h
  | ok a => exact ⟨a, rfl, h⟩

/-- What the loop over the arguments does. -/
theorem argLoop_ok (sIns dIns : List R.Ty) : ∀ (as : List (Arg R)) (i : Nat) (b : Bound R) (d : Nat),
    i + as.length ≤ sIns.length → b.values.length = sIns.length → AllFit sIns dIns i as →
    ∃ vs, argLoop sIns dIns i as b d = .ok (⟨vs, b.placeholders ++ phsOf i as⟩, max d (highest as)) ∧
      vs.length = sIns.length ∧ (∀ n, n < i → vs[n]? = b.values[n]?) ∧
      (∀ (j : Nat) v, as[j]? = some (.val v) → ∃ t w, sIns[i + j]? = some t ∧ R.conv v t = some w ∧ vs[i + j]? = some (some w))
  | [], i, b, d, _, hv, _ => by
    refine ⟨b.values, ?_, hv, fun _ _ => rfl, fun j v h => by cases h⟩
    simp [argLoop, phsOf, highest]
  | a :: as, i, b, d, hl, hv, hf => by
    have hi : i < sIns.length := by simp at hl; omega
    have ht : sIns[i]? = some sIns[i] := List.getElem?_eq_getElem hi
    obtain ⟨h1, h2⟩ := (allFit_cons ht).1 hf
    have hl' : i + 1 + as.length ≤ sIns.length := by simp at hl; omega
    cases a with
    | nil => exact absurd h1 id
    | ph k =>
      obtain ⟨hk, hd⟩ := h1
      have hk' := (List.getElem?_eq_some_iff.1 hd).1
      obtain ⟨vs, e1, e2, e3, e4⟩ := argLoop_ok sIns dIns as (i + 1)
        { b with placeholders := b.placeholders ++ [((k - 1).toNat, i)] } (max d ((k - 1).toNat + 1)) hl' hv h2
      refine ⟨vs, ?_, e2, fun n hn => e3 n (by omega), ?_⟩
      · have hnot : ¬ (k - 1 < 0 ∨ (dIns.length : Int) ≤ k - 1) := by omega
        have hcast : ((k - 1).toNat : Int) = k - 1 := by omega
        have hg : goGet dIns (k - 1) = .ok sIns[i] := by rw [← hcast]; exact goGet_nat hd
        unfold argLoop
        dsimp only
        rw [if_neg hnot, goGet_nat ht, hg]
        show (if sIns[i] ≠ sIns[i] then _ else _) = _
        rw [if_neg (fun h => h rfl)]
        show argLoop sIns dIns (i + 1) as _ _ = _
        rw [e1]
        congr 1
        simp only [phsOf, highest, List.append_assoc, List.singleton_append, Prod.mk.injEq, true_and]
        omega
      · intro j v hj
        cases j with
        | zero => simp at hj
        | succ j =>
          obtain ⟨t, w, g1, g2, g3⟩ := e4 j v hj
          exact ⟨t, w, by rw [← g1]; congr 1; omega, g2, by rw [← g3]; congr 1; omega⟩
    | val v =>
      obtain ⟨w, hw⟩ := Option.isSome_iff_exists.1 h1
      obtain ⟨vs, e1, e2, e3, e4⟩ := argLoop_ok sIns dIns as (i + 1)
        { b with values := b.values.set i (some w) } d hl' (by simpa using hv) h2
      refine ⟨vs, ?_, e2, fun n hn => ?_, ?_⟩
      · unfold argLoop
        rw [goGet_nat ht]
        show (match R.conv v sIns[i] with | none => _ | some w => _) = _
        rw [hw]
        dsimp only
        rw [goSet_nat (by omega)]
        show argLoop sIns dIns (i + 1) as _ _ = _
        rw [e1]
        simp only [phsOf, highest]
      · rw [e3 n (by omega)]
        show (b.values.set i (some w))[n]? = _
        rw [List.getElem?_set_ne (by omega)]
      · intro j v' hj
        cases j with
        | zero =>
          simp at hj; subst hj
          refine ⟨sIns[i], w, ht, hw, ?_⟩
          rw [Nat.add_zero, e3 i (by omega)]
          show (b.values.set i (some w))[i]? = _
          rw [List.getElem?_set_self (by omega)]
        | succ j =>
          obtain ⟨t, w', g1, g2, g3⟩ := e4 j v' hj
          exact ⟨t, w', by rw [← g1]; congr 1; omega, g2, by rw [← g3]; congr 1; omega⟩

theorem goGet_ok_inv {α : Type} {l : List α} {i : Int} {x : α} (h : goGet l i = .ok x) : 0 ≤ i ∧ l[i.toNat]? = some x := by
  unfold goGet at h
  split at h
  · rename_i h0
    refine ⟨h0, ?_⟩
    split at h
    · rename_i y hy; injection h with h; rw [hy, h]
    · cases h
  · cases h

/-- If the loop over the arguments ends, all fit. -/
theorem argLoop_fits (sIns dIns : List R.Ty) : ∀ (as : List (Arg R)) (i : Nat) (b : Bound R) (d : Nat) (r : Bound R × Nat),
    argLoop sIns dIns i as b d = .ok r → AllFit sIns dIns i as
  | [], i, b, d, r, _ => fun j a t h => by cases h
  | .nil :: as, i, b, d, r, h => by cases h
  | .ph k :: as, i, b, d, r, h => by
    unfold argLoop at h
    dsimp only at h
    split at h
    · cases h
    obtain ⟨t, ht, h⟩ := bind_ok h
    obtain ⟨t', ht', h⟩ := bind_ok h
    split at h
    · cases h
    rename_i e
    have e : t = t' := Classical.byContradiction e
    have ih := argLoop_fits sIns dIns as (i + 1) _ _ r h
    subst e
    obtain ⟨-, hs⟩ := goGet_ok_inv ht
    obtain ⟨hk, hd⟩ := goGet_ok_inv ht'
    rw [Int.toNat_natCast] at hs
    exact (allFit_cons hs).2 ⟨⟨by omega, hd⟩, ih⟩
  | .val v :: as, i, b, d, r, h => by
    unfold argLoop at h
    obtain ⟨t, ht, h⟩ := bind_ok h
    obtain ⟨-, hs⟩ := goGet_ok_inv ht
    rw [Int.toNat_natCast] at hs
    cases hw : R.conv v t with
    | none => rw [hw] at h; cases h
    | some w =>
      rw [hw] at h
      dsimp only at h
      obtain ⟨vs, -, h⟩ := bind_ok h
      have ih := argLoop_fits sIns dIns as (i + 1) _ _ r h
      exact (allFit_cons hs).2 ⟨by show (R.conv v t).isSome = true; rw [hw]; rfl, ih⟩

/-- The loop over the remaining inputs. -/
theorem restLoop_ok (sIns dIns : List R.Ty) : ∀ (n i d : Nat) (ps : List (Nat × Nat)), i + n ≤ sIns.length →
    (∀ (j : Nat) t, j < n → sIns[i + j]? = some t → dIns[d + j]? = some t) →
    restLoop sIns dIns n i d ps = .ok (ps ++ (List.range n).map fun j => (d + j, i + j))
  | 0, i, d, ps, _, _ => by simp [restLoop]
  | n + 1, i, d, ps, hl, h => by
    have hi : i < sIns.length := by omega
    have ht : sIns[i]? = some sIns[i] := List.getElem?_eq_getElem hi
    have hd := h 0 sIns[i] (by omega) ht
    unfold restLoop
    rw [goGet_nat ht, goGet_nat (by simpa using hd)]
    show (if sIns[i] ≠ sIns[i] then _ else _) = _
    rw [if_neg (fun h => h rfl)]
    show restLoop sIns dIns n (i + 1) (d + 1) _ = _
    rw [restLoop_ok sIns dIns n (i + 1) (d + 1) _ (by omega) (fun j t hj hs => by
      have := h (j + 1) t (by omega) (by rw [← hs]; congr 1; omega)
      rw [← this]; congr 1; omega)]
    rw [List.range_succ_eq_map, List.map_cons, List.map_map, List.append_assoc, List.singleton_append]
    congr 1
    refine congrArg (fun l => ps ++ (d, i) :: l) (List.map_congr_left fun j _ => ?_)
    simp only [Function.comp, Prod.mk.injEq]
    omega

theorem restLoop_fits (sIns dIns : List R.Ty) : ∀ (n i d : Nat) (ps r : List (Nat × Nat)),
    restLoop sIns dIns n i d ps = .ok r →
    ∀ (j : Nat) t, j < n → sIns[i + j]? = some t → dIns[d + j]? = some t
  | 0, i, d, ps, r, _ => fun j t hj => by omega
  | n + 1, i, d, ps, r, h => by
    unfold restLoop at h
    obtain ⟨t, ht, h⟩ := bind_ok h
    obtain ⟨t', ht', h⟩ := bind_ok h
    split at h
    · cases h
    rename_i e
    have e : t = t' := Classical.byContradiction e
    have ih := restLoop_fits sIns dIns n (i + 1) (d + 1) _ r h
    subst e
    obtain ⟨-, hs⟩ := goGet_ok_inv ht
    obtain ⟨-, hd⟩ := goGet_ok_inv ht'
    rw [Int.toNat_natCast] at hs hd
    intro j t' hj hj'
    cases j with
    | zero => rw [Nat.add_zero, hs] at hj'; rw [Nat.add_zero, hd, hj']
    | succ j =>
      have := ih j t' (by omega) (by rw [← hj']; congr 1; omega)
      rw [← this]; congr 1; omega

theorem mem_phsOf {p : Nat × Nat} : ∀ {as : List (Arg R)} {i : Nat},
    p ∈ phsOf i as ↔ ∃ (j : Nat) (k : Int), as[j]? = some (.ph k) ∧ p = ((k - 1).toNat, i + j)
  | [], i => by simp [phsOf]
  | a :: as, i => by
    have ih := mem_phsOf (p := p) (as := as) (i := i + 1)
    have key : (∃ (j : Nat) (k : Int), (a :: as)[j]? = some (.ph k) ∧ p = ((k - 1).toNat, i + j)) ↔
        (∃ k, a = .ph k ∧ p = ((k - 1).toNat, i)) ∨ p ∈ phsOf (i + 1) as := by
      rw [ih]
      constructor
      · rintro ⟨j, k, h1, h2⟩
        cases j with
        | zero => simp at h1; exact Or.inl ⟨k, h1, h2⟩
        | succ j => exact Or.inr ⟨j, k, h1, by rw [h2]; simp; omega⟩
      · rintro (⟨k, rfl, h⟩ | ⟨j, k, h1, h2⟩)
        · exact ⟨0, k, rfl, h⟩
        · exact ⟨j + 1, k, h1, by rw [h2]; simp; omega⟩
    rw [key]
    cases a with
    | ph k => simp [phsOf]
    | nil => simp [phsOf]
    | val v => simp [phsOf]

theorem phsOf_sorted : ∀ (as : List (Arg R)) (i : Nat), ((phsOf i as).map Prod.snd).Pairwise (· < ·)
  | [], _ => List.Pairwise.nil
  | a :: as, i => by
    have ih := phsOf_sorted as (i + 1)
    cases a with
    | nil => exact ih
    | val v => exact ih
    | ph k =>
      refine List.Pairwise.cons ?_ ih
      intro x hx
      obtain ⟨p, hp, rfl⟩ := List.mem_map.1 hx
      obtain ⟨j, k', -, rfl⟩ := mem_phsOf.1 hp
      simp; omega

/-- Filling in the inputs. -/
theorem fill_ok (ys : List R.Val) : ∀ (ps : List (Nat × Nat)) (vs : List (Option R.Val)),
    (∀ p ∈ ps, p.1 < ys.length ∧ p.2 < vs.length) → (ps.map Prod.snd).Nodup →
    ∃ cs, fill ys ps vs = .ok cs ∧ cs.length = vs.length ∧ (∀ p ∈ ps, cs[p.2]? = some ys[p.1]?) ∧
      ∀ (n : Nat), (∀ p ∈ ps, p.2 ≠ n) → cs[n]? = vs[n]?
  | [], vs, _, _ => ⟨vs, rfl, rfl, (fun p h => by cases h), fun _ _ => rfl⟩
  | (f, t) :: ps, vs, h, hn => by
    obtain ⟨h1, h2⟩ := h (f, t) (by simp)
    simp only at h1 h2
    have hn' := List.nodup_cons.1 (show (t :: ps.map Prod.snd).Nodup from hn)
    obtain ⟨cs, e1, e2, e3, e4⟩ := fill_ok ys ps (vs.set t (some ys[f]))
      (fun p hp => by simpa using h p (List.mem_cons_of_mem _ hp)) hn'.2
    refine ⟨cs, ?_, by simpa using e2, ?_, ?_⟩
    · unfold fill
      rw [goGet_nat (List.getElem?_eq_getElem h1)]
      show (goSet vs t _ >>= _) = _
      rw [goSet_nat h2]
      exact e1
    · intro p hp
      rcases List.mem_cons.1 hp with rfl | hp
      · rw [e4 t]
        · rw [List.getElem?_set_self h2, List.getElem?_eq_getElem h1]
        · intro p hp e
          exact hn'.1 (List.mem_map.2 ⟨p, hp, e⟩)
      · exact e3 p hp
    · intro n hne
      rw [e4 n (fun p hp => hne p (List.mem_cons_of_mem _ hp))]
      rw [List.getElem?_set_ne (hne (f, t) (by simp))]

theorem passAll_self : ∀ (xs : List R.Val), passAll (xs.map some) (xs.map R.typeOf) = .ok xs
  | [] => rfl
  | x :: xs => by
    simp only [List.map_cons, passAll, R.assign_self, passAll_self xs]
    rfl

theorem highest_ge : ∀ {as : List (Arg R)} {j : Nat} {k : Int}, as[j]? = some (.ph k) → k.toNat ≤ highest as
  | a :: as, 0, k, h => by simp at h; subst h; simp [highest]; omega
  | a :: as, j + 1, k, h => by
    have ih := highest_ge (as := as) (j := j) h
    cases a <;> simp [highest] <;> omega

theorem highest_le {n : Nat} : ∀ {as : List (Arg R)}, (∀ (j : Nat) k, as[j]? = some (.ph k) → k.toNat ≤ n) → highest as ≤ n
  | [], _ => by simp [highest]
  | a :: as, h => by
    have ih := highest_le (as := as) (fun j k hj => h (j + 1) k hj)
    cases a with
    | ph k => have := h 0 k rfl; simp [highest]; omega
    | nil => exact ih
    | val v => exact ih

/-- Compatible arguments: what `Bind` makes. -/
theorem bind_compatible {s d : Sig R} {f : List R.Val → Go (List R.Val)} {args : List (Arg R)} (h : Compatible s d args) :
    ∃ vs, bind (.func s f) (.func d) args = .ok ⟨vs, phsOf 0 args ++
        (List.range (s.ins.length - args.length)).map fun j => (highest args + j, args.length + j)⟩ ∧
      vs.length = s.ins.length ∧
      (∀ (j : Nat) v, args[j]? = some (.val v) → ∃ t w, s.ins[j]? = some t ∧ R.conv v t = some w ∧ vs[j]? = some (some w)) := by
  obtain ⟨vs, e1, e2, -, e4⟩ := argLoop_ok s.ins d.ins args 0 ⟨List.replicate s.ins.length none, []⟩ 0 (by have := h.count; omega)
    (by simp) (fun j a t h1 h2 => h.fits j a t h1 (by simpa using h2))
  have hmax : max 0 (highest args) = highest args := by omega
  rw [hmax] at e1
  have hhi : highest args ≤ d.ins.length := by
    refine highest_le fun j k hj => ?_
    have hj' := (List.getElem?_eq_some_iff.1 hj).1
    have := h.count
    obtain ⟨h1, h2⟩ := h.fits j _ _ hj (List.getElem?_eq_getElem (by omega))
    have := (List.getElem?_eq_some_iff.1 h2).1
    omega
  have hneed : s.ins.length - args.length ≤ d.ins.length - highest args := by
    rcases Nat.eq_zero_or_pos (s.ins.length - args.length) with c | c
    · omega
    · have := h.rest (s.ins.length - 1) _ (by omega) (List.getElem?_eq_getElem (by omega))
      have := (List.getElem?_eq_some_iff.1 this).1
      omega
  have hrest := restLoop_ok s.ins d.ins (s.ins.length - args.length) args.length (highest args) (phsOf 0 args)
    (by have := h.count; omega) (fun j t hj hs => by
      have := h.rest (args.length + j) t (by omega) hs
      rw [← this]; congr 1; omega)
  refine ⟨vs, ?_, e2, fun j v hj => ?_⟩
  · unfold bind
    dsimp only
    rw [if_neg (by simp [h.outs]), if_neg (by simp [h.outs]), if_neg (by have := h.count; omega), e1]
    show (if ((s.ins.length : Int) - args.length) > (d.ins.length : Int) - highest args then _ else _) = _
    rw [if_neg (by have := h.count; omega)]
    show (restLoop s.ins d.ins _ _ _ ([] ++ phsOf 0 args) >>= _) = _
    rw [List.nil_append, hrest]
    rfl
  · obtain ⟨t, w, g1, g2, g3⟩ := e4 j v hj
    rw [Nat.zero_add] at g1 g3
    exact ⟨t, w, g1, g2, g3⟩

/-- C55: `Bind` returns exactly if `src` and `Dest` are functions with compatible signatures and arguments; otherwise it
panics. Holds for variadic functions too. -/
theorem bind_returns_iff (src : Src R) (dest : Dest R) (args : List (Arg R)) :
    (∃ b, bind src dest args = .ok b) ↔
      ∃ s f d, src = .func s f ∧ dest = .func d ∧ Compatible s d args := by
  constructor
  · rintro ⟨b, h⟩
    cases src with
    | nil => cases h
    | other => cases h
    | func s f =>
      cases dest with
      | other => cases h
      | func d =>
        refine ⟨s, f, d, rfl, rfl, ?_⟩
        unfold bind at h
        dsimp only at h
        split at h
        · cases h
        rename_i h1
        split at h
        · cases h
        rename_i h2
        split at h
        · cases h
        rename_i h3
        obtain ⟨⟨b', di⟩, g1, h⟩ := bind_ok h
        dsimp only at h
        split at h
        · cases h
        obtain ⟨ps, g3, h⟩ := bind_ok h
        have fit := argLoop_fits _ _ _ _ _ _ _ g1
        obtain ⟨vs, e1, -⟩ := argLoop_ok s.ins d.ins args 0 ⟨List.replicate s.ins.length none, []⟩ 0 (by omega) (by simp) fit
        rw [g1] at e1
        injection e1 with e1
        injection e1 with e1 e2
        have e2 : di = highest args := by rw [e2]; omega
        subst e2
        have rest := restLoop_fits _ _ _ _ _ _ _ g3
        refine ⟨by simpa using h2, by omega, fun i a t k1 k2 => fit i a t k1 (by simpa using k2), fun i t k1 k2 => ?_⟩
        have hb := (List.getElem?_eq_some_iff.1 k2).1
        exact rest (i - args.length) t (by omega) (by rw [← k2]; congr 1; omega)
  · rintro ⟨s, f, d, rfl, rfl, h⟩
    obtain ⟨vs, e, -⟩ := bind_compatible (f := f) h
    exact ⟨_, e⟩

/-- What the bound function hands to `reflect.Value.Call`. -/
theorem bound_fill {s d : Sig R} {f : List R.Val → Go (List R.Val)} {args : List (Arg R)} {b : Bound R}
    (hb : bind (.func s f) (.func d) args = .ok b) {ys : List R.Val} (hys : ys.map R.typeOf = d.ins) :
    ∃ xs : List R.Val, fill ys b.placeholders b.values = .ok (xs.map some) ∧ xs.map R.typeOf = s.ins ∧
      ∀ (i : Nat) x, xs[i]? = some x → Routed s args ys i x := by
  have hc : Compatible s d args := by
    obtain ⟨s', f', d', e1, e2, hc⟩ := (bind_returns_iff _ _ _).1 ⟨b, hb⟩
    injection e1 with e1
    injection e2 with e2
    subst e1 e2
    exact hc
  have htype : ∀ (i : Nat) (t : R.Ty), d.ins[i]? = some t → ∃ y, ys[i]? = some y ∧ R.typeOf y = t := by
    intro i t h
    rw [← hys, List.getElem?_map, Option.map_eq_some_iff] at h
    exact h
  obtain ⟨vs, e, hlen, hvals⟩ := bind_compatible (f := f) hc
  rw [hb] at e
  injection e with e
  subst e
  dsimp only
  have hcount := hc.count
  have hsrc : ∀ {i : Nat}, i < s.ins.length → ∃ t, s.ins[i]? = some t := fun hi => ⟨_, List.getElem?_eq_getElem hi⟩
  obtain ⟨cs, c1, c2, c3, c4⟩ := fill_ok ys (phsOf 0 args ++
      (List.range (s.ins.length - args.length)).map fun j => (highest args + j, args.length + j)) vs (by
    intro p hp
    rcases List.mem_append.1 hp with hp | hp
    · obtain ⟨j, k, h1, rfl⟩ := mem_phsOf.1 hp
      have hj := (List.getElem?_eq_some_iff.1 h1).1
      obtain ⟨t, ht⟩ := hsrc (i := j) (by omega)
      obtain ⟨-, h2⟩ := hc.fits j _ t h1 ht
      obtain ⟨y, hy, -⟩ := htype _ _ h2
      exact ⟨(List.getElem?_eq_some_iff.1 hy).1, by simp only [Nat.zero_add]; omega⟩
    · obtain ⟨j, hj, rfl⟩ := List.mem_map.1 hp
      rw [List.mem_range] at hj
      obtain ⟨t, ht⟩ := hsrc (i := args.length + j) (by omega)
      have h2 := hc.rest (args.length + j) t (by omega) ht
      rw [Nat.add_sub_cancel_left] at h2
      obtain ⟨y, hy, -⟩ := htype _ _ h2
      exact ⟨(List.getElem?_eq_some_iff.1 hy).1, by simp only; omega⟩) (by
    rw [List.map_append, List.nodup_append]
    refine ⟨(phsOf_sorted args 0).imp (fun h => Nat.ne_of_lt h), ?_, ?_⟩
    · rw [List.map_map, List.Nodup, List.pairwise_map]
      exact List.nodup_range.imp (fun hne h => hne (by simp at h; omega))
    · intro x hx y hy
      obtain ⟨p, hp, rfl⟩ := List.mem_map.1 hx
      obtain ⟨q, hq, rfl⟩ := List.mem_map.1 hy
      obtain ⟨j, k, h1, rfl⟩ := mem_phsOf.1 hp
      obtain ⟨j', -, rfl⟩ := List.mem_map.1 hq
      have hj := (List.getElem?_eq_some_iff.1 h1).1
      simp only
      omega)
  -- each position
  have hslot : ∀ i t, s.ins[i]? = some t → ∃ x, cs[i]? = some (some x) ∧ R.typeOf x = t ∧ Routed s args ys i x := by
    intro i t ht
    unfold Routed
    have hi := (List.getElem?_eq_some_iff.1 ht).1
    cases ha : args[i]? with
    | none =>
      have hge : args.length ≤ i := List.getElem?_eq_none_iff.1 ha
      obtain ⟨y, hy, hty⟩ := htype _ _ (hc.rest i t hge ht)
      have hm := c3 (highest args + (i - args.length), i) (List.mem_append.2 (Or.inr (List.mem_map.2
        ⟨i - args.length, List.mem_range.2 (by omega), by simp; omega⟩)))
      simp only [hy] at hm
      exact ⟨y, hm, hty, hy⟩
    | some a =>
      have hfit := hc.fits i a t ha ht
      have hlt := (List.getElem?_eq_some_iff.1 ha).1
      cases a with
      | nil => exact absurd hfit id
      | ph k =>
        obtain ⟨y, hy, hty⟩ := htype _ _ hfit.2
        have hm := c3 ((k - 1).toNat, i) (List.mem_append.2 (Or.inl (mem_phsOf.2 ⟨i, k, ha, by simp⟩)))
        simp only [hy] at hm
        exact ⟨y, hm, hty, hfit.1, hy⟩
      | val v =>
        obtain ⟨t', w, g1, g2, g3⟩ := hvals i v ha
        rw [ht] at g1
        injection g1 with g1
        subst g1
        refine ⟨w, ?_, R.conv_type v t w g2, t, ht, g2⟩
        rw [c4 i, g3]
        intro p hp e
        rcases List.mem_append.1 hp with hp | hp
        · obtain ⟨j, k, h1, rfl⟩ := mem_phsOf.1 hp
          simp only [Nat.zero_add] at e
          subst e
          rw [ha] at h1
          cases h1
        · obtain ⟨j, -, rfl⟩ := List.mem_map.1 hp
          simp only at e
          omega
  -- so all are there
  have hall : ∃ xs : List R.Val, cs = xs.map some := by
    refine ⟨cs.filterMap id, ?_⟩
    have key : ∀ l : List (Option R.Val), (∀ o ∈ l, o.isSome = true) → l = (l.filterMap id).map some := by
      intro l
      induction l with
      | nil => intro _; rfl
      | cons o l ih =>
        intro h
        have ho := h o (by simp)
        obtain ⟨x, rfl⟩ := Option.isSome_iff_exists.1 ho
        simp only [List.filterMap_cons, id, List.map_cons]
        rw [← ih fun o ho => h o (List.mem_cons_of_mem _ ho)]
    refine key cs fun o ho => ?_
    obtain ⟨i, hi, rfl⟩ := List.mem_iff_getElem.1 ho
    obtain ⟨x, hx, -⟩ := hslot i _ (List.getElem?_eq_getElem (by omega))
    rw [List.getElem?_eq_getElem hi] at hx
    injection hx with hx
    rw [hx]; rfl
  obtain ⟨xs, rfl⟩ := hall
  have hxs : xs.length = s.ins.length := by rw [List.length_map] at c2; omega
  refine ⟨xs, c1, ?_, ?_⟩
  · refine List.ext_getElem? fun i => ?_
    by_cases hi : i < s.ins.length
    · obtain ⟨x, h1, h2, -⟩ := hslot i _ (List.getElem?_eq_getElem hi)
      rw [List.getElem?_map, Option.map_eq_some_iff] at h1
      obtain ⟨x', h1, e⟩ := h1
      injection e with e
      subst e
      rw [List.getElem?_map, h1, List.getElem?_eq_getElem hi]
      simp [h2]
    · rw [List.getElem?_eq_none (by simp; omega), List.getElem?_eq_none (by omega)]
  · intro i x hx
    have hi := (List.getElem?_eq_some_iff.1 hx).1
    obtain ⟨x', h1, -, h3⟩ := hslot i _ (List.getElem?_eq_getElem (by omega))
    rw [List.getElem?_map, hx] at h1
    simp only [Option.map_some, Option.some.injEq] at h1
    rw [h1]; exact h3

/-! ## The properties -/

/-- C54 as stated: a call of the bound function calls `src` once, with each input routed as documented, and returns what
`src` returns. -/
def BindRoutes (R : Refl) : Prop :=
  ∀ (s d : Sig R) (f : List R.Val → Go (List R.Val)) (args : List (Arg R)) (b : Bound R) (ys : List R.Val),
    bind (.func s f) (.func d) args = .ok b → ys.map R.typeOf = d.ins →
    ∃ xs, b.call s f ys = ([xs], f xs) ∧ xs.length = s.ins.length ∧
      ∀ (i : Nat) x, xs[i]? = some x → Routed s args ys i x

/-- C54 and C55 for `src` that is not variadic: the inputs are of the types of the parameters, `src` is called once with
each input routed as documented, and its results are returned. Missing: variadic `src`, see `bind_variadic`. -/
theorem bind_routes_partial {s d : Sig R} {f : List R.Val → Go (List R.Val)} {args : List (Arg R)} {b : Bound R}
    (hv : s.variadic = false) (hb : bind (.func s f) (.func d) args = .ok b) {ys : List R.Val}
    (hys : ys.map R.typeOf = d.ins) :
    ∃ xs : List R.Val, b.call s f ys = ([xs], f xs) ∧ xs.map R.typeOf = s.ins ∧
      ∀ (i : Nat) x, xs[i]? = some x → Routed s args ys i x := by
  obtain ⟨xs, h1, h2, h3⟩ := bound_fill hb hys
  refine ⟨xs, ?_, h2, h3⟩
  unfold Bound.call
  rw [h1]
  unfold call
  simp only [hv, Bool.false_eq_true, if_false]
  rw [← h2, passAll_self]

/-- What happens with a variadic `src`: its last input, a slice, is passed as one element. If the slice type is not
assignable to the type of its elements, the call panics before `src` is called; otherwise `src` gets a slice with the
slice in it. -/
theorem bind_variadic {s d : Sig R} {f : List R.Val → Go (List R.Val)} {args : List (Arg R)} {b : Bound R}
    {ts : List R.Ty} {t : R.Ty} (hv : s.variadic = true) (hs : s.ins = ts ++ [t])
    (hb : bind (.func s f) (.func d) args = .ok b) {ys : List R.Val} (hys : ys.map R.typeOf = d.ins) :
    ∃ (xs : List R.Val) (x : R.Val), xs.length = ts.length ∧ R.typeOf x = t ∧
      (∀ (i : Nat) z, (xs ++ [x])[i]? = some z → Routed s args ys i z) ∧
      match R.assign x (R.elem t) with
      | none => ∃ msg, b.call s f ys = ([], .error msg)
      | some w => b.call s f ys = ([xs ++ [R.pack (R.elem t) [w]]], f (xs ++ [R.pack (R.elem t) [w]])) := by
  obtain ⟨zs, h1, h2, h3⟩ := bound_fill hb hys
  rw [hs] at h2
  obtain ⟨xs, xs', rfl, e1, e2⟩ := List.map_eq_append_iff.1 h2
  obtain ⟨x, rfl, ht⟩ := List.map_eq_singleton_iff.1 e2
  have hlen : xs.length = ts.length := by rw [← e1]; simp
  refine ⟨xs, x, hlen, ht, h3, ?_⟩
  have hcall : b.call s f ys = call s f ((xs ++ [x]).map some) := by unfold Bound.call; rw [h1]
  have hfixed : passAll (xs.map some) ts = .ok xs := by rw [← e1]; exact passAll_self xs
  have hall : call s f ((xs ++ [x]).map some) =
      match (do
        let more ← passAll [some x] [R.elem t]
        return xs ++ [R.pack (R.elem t) more] : Go (List R.Val)) with
      | .error msg => ([], .error msg)
      | .ok xs => ([xs], f xs) := by
    unfold call
    simp only [hv, if_true, hs, List.getLast?_append, List.getLast?_singleton, Option.some_or,
      List.length_append, List.length_singleton, Nat.add_sub_cancel, List.length_map, List.map_append, List.map_cons,
      List.map_nil]
    rw [if_neg (by omega)]
    have t1 : (xs.map some ++ [some x]).take ts.length = xs.map some := by
      rw [← hlen, List.take_append_of_le_length (by simp), List.take_of_length_le (by simp)]
    have t2 : (xs.map some ++ [some x]).drop ts.length = [some x] := by
      rw [← hlen, List.drop_append_of_le_length (by simp), List.drop_of_length_le (by simp)]; rfl
    have t3 : (ts ++ [t]).take ts.length = ts := by simp
    have t4 : xs.length + 1 - ts.length = 1 := by omega
    rw [t1, t2, t3, t4, hfixed]
    rfl
  rw [hcall, hall]
  cases ha : R.assign x (R.elem t) with
  | none =>
    have : passAll [some x] [R.elem t] = .error "reflect: Call using value as type" := by simp [passAll, ha]
    rw [this]
    exact ⟨_, rfl⟩
  | some w =>
    have : passAll [some x] [R.elem t] = .ok [w] := by simp only [passAll, ha]; rfl
    rw [this]
    rfl

/-- C55, second part, as stated: if `src` returns for all inputs of its types, then so does what `Bind` returned. -/
def BindChecks (R : Refl) : Prop :=
  ∀ (s d : Sig R) (f : List R.Val → Go (List R.Val)) (args : List (Arg R)) (b : Bound R) (ys : List R.Val),
    bind (.func s f) (.func d) args = .ok b → ys.map R.typeOf = d.ins →
    (∀ xs, xs.map R.typeOf = s.ins → ∃ zs, f xs = .ok zs) → ∃ zs, (b.call s f ys).2 = .ok zs

/-- C55, second part, for `src` that is not variadic. Missing: variadic `src`. -/
theorem bind_checks_partial {s d : Sig R} {f : List R.Val → Go (List R.Val)} {args : List (Arg R)} {b : Bound R}
    (hv : s.variadic = false) (hb : bind (.func s f) (.func d) args = .ok b) {ys : List R.Val}
    (hys : ys.map R.typeOf = d.ins) (hf : ∀ xs, xs.map R.typeOf = s.ins → ∃ zs, f xs = .ok zs) :
    ∃ zs, (b.call s f ys).2 = .ok zs := by
  obtain ⟨xs, h1, h2, -⟩ := bind_routes_partial hv hb hys
  obtain ⟨zs, h⟩ := hf xs h2
  exact ⟨zs, by rw [h1]; exact h⟩

/-! ## Examples -/

/-- A few types: int, string, any, and slices. -/
inductive Ty where
  | int | str | any
  | slice (t : Ty)
  deriving DecidableEq

/-- Values with their static type. -/
inductive Val where
  | int (n : Int)
  | str (s : List Nat)
  | slice (t : Ty) (l : List Val)
  | any (v : Val)

/-- The type of a value. -/
def Val.ty : Val → Ty
  | .int _ => .int
  | .str _ => .str
  | .slice t _ => .slice t
  | .any _ => .any

/-- Elements of a slice. -/
def Ty.elem : Ty → Ty
  | .slice t => t
  | t => t

/-- Conversion: to the own type, to `any`, and from int to string. -/
def convTo (v : Val) (t : Ty) : Option Val :=
  if v.ty = t then some v
  else if t = .any then some (.any v)
  else match v, t with
    | .int n, .str => some (.str [n.toNat])
    | _, _ => none

/-- Assignment: to the own type and to `any`. -/
def assignTo (v : Val) (t : Ty) : Option Val :=
  if v.ty = t then some v else if t = .any then some (.any v) else none

theorem convTo_type (v : Val) (t : Ty) (w : Val) (h : convTo v t = some w) : w.ty = t := by
  unfold convTo at h
  split at h
  · injection h with h; subst h; assumption
  · split at h
    · rename_i e; injection h with h; subst h e; rfl
    · split at h
      · injection h with h; subst h; rfl
      · cases h

/-- A small `reflect`. -/
def small : Refl where
  Ty := Ty
  Val := Val
  typeOf := Val.ty
  conv := convTo
  conv_type := convTo_type
  elem := Ty.elem
  assign := assignTo
  assign_self v := by simp [assignTo]
  pack t l := .slice t l

/-- `func(string, int, string, int) int` and `func(int, int, string) int` -/
def sig1 : Sig small := ⟨[.str, .int, .str, .int], [.int], false⟩
/-- the destination of the example -/
def dest1 : Sig small := ⟨[.int, .str, .int], [.int], false⟩

/-- The arguments 65 (converted to "A"), `P1`, "x". -/
def args1 : List (Arg small) := [.val (.int 65), .ph 1, .ph 2]

example : Compatible sig1 dest1 args1 := by
  refine ⟨rfl, by decide, ?_, ?_⟩
  · intro i a t h1 h2
    match i with
    | 0 => injection h1 with h1; injection h2 with h2; subst h1 h2; rfl
    | 1 => injection h1 with h1; injection h2 with h2; subst h1 h2; exact ⟨by decide, rfl⟩
    | 2 => injection h1 with h1; injection h2 with h2; subst h1 h2; exact ⟨by decide, rfl⟩
    | i + 3 => cases h1
  · intro i t h1 h2
    match i, h1 with
    | 3, _ => injection h2 with h2; subst h2; rfl
    | i + 4, _ => cases h2

/-- The bound function calls `src("A", 1, "s", 3)` for inputs 1, "s", 3. -/
example : ∃ b, bind (.func sig1 fun _ => .ok [.int 7]) (.func dest1) args1 = .ok b ∧
    b.call sig1 (fun _ => .ok [.int 7]) [.int 1, .str [9], .int 3] =
      ([[.str [65], .int 1, .str [9], .int 3]], .ok [.int 7]) := ⟨_, rfl, rfl⟩

/-- `func(...int) int` -/
def sigV : Sig small := ⟨[.slice .int], [.int], true⟩
/-- `func([]int) int` -/
def destV : Sig small := ⟨[.slice .int], [.int], false⟩

/-- C54 is false: `Bind[func([]int) int](func(...int) int {…})` returns, but its result panics when called. -/
theorem not_bindRoutes : ¬ BindRoutes small := by
  intro h
  obtain ⟨xs, h1, -⟩ := h sigV destV (fun _ => .ok [.int 0]) [] ⟨[none], [(0, 0)]⟩ [.slice .int []] rfl rfl
  have e : (⟨[none], [(0, 0)]⟩ : Bound small).call sigV (fun _ => .ok [.int 0]) [.slice .int []] =
    ([], .error "reflect: Call using value as type") := rfl
  rw [e] at h1
  cases h1

/-- So is C55. -/
theorem not_bindChecks : ¬ BindChecks small := by
  intro h
  obtain ⟨zs, h1⟩ := h sigV destV (fun _ => .ok [.int 0]) [] ⟨[none], [(0, 0)]⟩ [.slice .int []] rfl rfl (fun _ _ => ⟨_, rfl⟩)
  have e : (⟨[none], [(0, 0)]⟩ : Bound small).call sigV (fun _ => .ok [.int 0]) [.slice .int []] =
    ([], .error "reflect: Call using value as type") := rfl
  rw [e] at h1
  cases h1

/-- With `...any` it does not panic, but `src` gets a slice in a slice. -/
example : ∃ b, bind (.func (⟨[.slice .any], [], true⟩ : Sig small) fun _ => .ok []) (.func ⟨[.slice .any], [], false⟩) [] = .ok b ∧
    b.call ⟨[.slice .any], [], true⟩ (fun _ => .ok []) [.slice .any [.any (.int 1)]] =
      ([[.slice .any [.any (.slice .any [.any (.int 1)])]]], .ok []) := ⟨_, rfl, rfl⟩

end Verif.Xfn
