import Verif.Stream.Lemmas
import Verif.Iter.View

/-! # Every source behaves like its sequence -/

namespace Verif.Stream

variable {T E : Type}

/-! ## Slices -/

theorem slice_behaves (E : Type) (a : List T) (i b : Nat) (hi : i ≤ a.length)
    (hb : a.length + b < 9223372036854775808) :
    Behaves (sliceSource E a) b (seqOf (a.drop i)) (i : Int) := by
  refine ⟨fun c s q => ∃ i : Nat, i ≤ a.length ∧ a.length + c < 9223372036854775808 ∧ q = (i : Int) ∧
    s = seqOf (a.drop i), ?_, i, hi, hb, rfl, rfl⟩
  refine ⟨?_, ?_, ?_⟩
  · rintro c s q x ⟨i, hi, hb, rfl, rfl⟩ hx
    have hx' : a[i]? = some x := by simpa [seqOf] using hx
    have hlt : i < a.length := (List.getElem?_eq_some_iff.1 hx').1
    refine ⟨((i + 1 : Nat) : Int), [], ?_, i + 1, hlt, hb, rfl, ?_⟩
    · simp only [sliceSource]
      rw [if_neg (by omega), goGet_nat hx', wrap64_id (by unfold isInt64; omega)]; rfl
    · rw [seqOf_drop, List.drop_drop]
  · rintro c s q ⟨i, hi, hb, rfl, rfl⟩ hx
    have hx' : a[i]? = none := by simpa [seqOf] using hx
    have hge : a.length ≤ i := List.getElem?_eq_none_iff.1 hx'
    refine ⟨fun j => ?_, (i : Int), [], ?_⟩
    · simp only [seqOf, List.getElem?_drop]; exact List.getElem?_eq_none_iff.2 (by omega)
    · simp only [sliceSource]; rw [if_pos (by omega)]
  · rintro c s q n ⟨i, hi, hb, rfl, rfl⟩ hn
    simp only [sliceSource]
    rw [if_neg (by omega), wrap64_id (x := (i : Int) + n) (by unfold isInt64; omega)]
    by_cases hge : (i : Int) + n ≥ a.length
    · rw [if_pos hge]
      refine ⟨_, _, rfl, a.length, Nat.le_refl _, by omega, rfl, ?_⟩
      rw [seqOf_drop, List.drop_drop, List.drop_length, List.drop_of_length_le (by omega)]
    · rw [if_neg hge]
      refine ⟨_, _, rfl, i + n, by omega, by omega, by omega, ?_⟩
      rw [seqOf_drop, List.drop_drop]

/-! ## Generators -/

/-- The values of a generator. -/
def genSeq {γ : Type} (g : γ → T × γ) (s : γ) : Seq T := fun i => some (g (callN g i s)).1

theorem callN_add {γ : Type} (g : γ → T × γ) (m n : Nat) (s : γ) :
    callN g n (callN g m s) = callN g (m + n) s := by
  induction m generalizing s with
  | zero => rw [Nat.zero_add]; rfl
  | succ m ih => rw [Nat.succ_add]; exact ih _

theorem generator_behaves (E : Type) {γ : Type} (g : γ → T × γ) (s : γ) (b : Nat) :
    Behaves (generator E g) b (genSeq g s) s := by
  refine ⟨fun _ a q => a = genSeq g q, ?_, rfl⟩
  refine ⟨?_, ?_, ?_⟩
  · rintro c a q x rfl hx
    cases hx
    exact ⟨_, [], rfl, rfl⟩
  · rintro c a q rfl hx; cases hx
  · rintro c a q n rfl hn
    refine ⟨_, _, rfl, ?_⟩
    funext i
    have := callN_add g n i q
    rw [Nat.add_comm] at this
    exact congrArg (fun z => some (g z).1) this.symm

/-- The state of a bounded generator after `n` calls. -/
def bstate {γ : Type} (g : γ → Option T × γ) : Nat → γ → γ
  | 0, s => s
  | k + 1, s => bstate g k (g s).2

/-- The values of a bounded generator. -/
def bseq {γ : Type} (g : γ → Option T × γ) (s : γ) : Seq T := fun i => (g (bstate g i s)).1

/-- Once the generator has returned `ok = false` it does so for ever. -/
def StaysEnded {γ : Type} (g : γ → Option T × γ) : Prop := ∀ s, (g s).1 = none → (g (g s).2).1 = none

theorem bseq_none {γ : Type} {g : γ → Option T × γ} (hg : StaysEnded g) (i : Nat) :
    ∀ {s : γ}, (g s).1 = none → bseq g s i = none := by
  induction i with
  | zero => intro s h; exact h
  | succ i ih => intro s h; exact ih (hg s h)

theorem callUntil_seq {γ : Type} {g : γ → Option T × γ} (hg : StaysEnded g) (n : Nat) : ∀ (i : Int) (s : γ),
    (bseq g s).drop n = bseq g (callUntil g n i s).2 := by
  induction n with
  | zero => intro i s; rfl
  | succ n ih =>
    intro i s
    unfold callUntil
    cases hs : g s with
    | mk v s' =>
      cases v with
      | some v =>
        dsimp only
        rw [← ih]
        funext j
        show (g (bstate g (j + n) (g s).2)).1 = (g (bstate g (j + n) s')).1
        rw [hs]
      | none =>
        dsimp only
        have h0 : (g s).1 = none := by rw [hs]
        have h1 : (g s').1 = none := by have := hg s h0; rwa [hs] at this
        funext j
        rw [bseq_none hg j h1]
        exact bseq_none hg _ h0

theorem bounded_behaves (E : Type) {γ : Type} {g : γ → Option T × γ} (hg : StaysEnded g) (s : γ) (b : Nat) :
    Behaves (boundedGenerator E g) b (bseq g s) s := by
  refine ⟨fun _ a q => a = bseq g q, ?_, rfl⟩
  refine ⟨?_, ?_, ?_⟩
  · rintro c a q x rfl hx
    have hx' : (g q).1 = some x := hx
    exact ⟨(g q).2, [], by simp [boundedGenerator, hx'], rfl⟩
  · rintro c a q rfl hx
    have hx' : (g q).1 = none := hx
    exact ⟨fun i => bseq_none hg i hx', (g q).2, [], by simp [boundedGenerator, hx']⟩
  · rintro c a q n rfl hn
    simp only [boundedGenerator]
    by_cases h0 : (n : Int) ≤ 0
    · rw [if_pos h0]
      have : n = 0 := by omega
      subst this
      exact ⟨_, _, rfl, rfl⟩
    · rw [if_neg h0]
      exact ⟨_, _, rfl, callUntil_seq hg n 0 q⟩

/-! ## Iterator ranges -/

theorem rand_behaves (E : Type) {M It : Type} [Iter.RandIter M T It] (v : Iter.View M T It) {m : M}
    (hm : v.ok m) {i e : Nat} (hie : i ≤ e) (he : e ≤ v.n) (b : Nat) :
    Behaves (randSource E m (v.pt e)) b (seqOf (((v.elems m).take e).drop i)) (v.pt i) := by
  have hlen := v.len m hm
  have hN := v.hn
  refine ⟨fun _ a q => ∃ i, i ≤ e ∧ q = v.pt i ∧ a = seqOf (((v.elems m).take e).drop i), ?_,
    i, hie, rfl, rfl⟩
  refine ⟨?_, ?_, ?_⟩
  · rintro c a q x ⟨i, hie, rfl, rfl⟩ hx
    have hx' : ((v.elems m).take e)[i]? = some x := by
      have : (((v.elems m).take e).drop i)[0]? = some x := hx
      rwa [List.getElem?_drop, Nat.add_zero] at this
    have hlt : i < e := by
      have := (List.getElem?_eq_some_iff.1 hx').1
      rw [List.length_take] at this; omega
    rw [List.getElem?_take_of_lt hlt] at hx'
    refine ⟨v.pt (i + 1), [], ?_, i + 1, hlt, rfl, ?_⟩
    · simp only [randSource]
      rw [v.equal_pt i e (by omega) he, decide_eq_false (by omega), v.get_pt m i x hm hx',
        v.next_pt i (by omega)]
    · rw [seqOf_drop, List.drop_drop]
  · rintro c a q ⟨i, hie, rfl, rfl⟩ hx
    have hx' : ((v.elems m).take e)[i]? = none := by
      have : (((v.elems m).take e).drop i)[0]? = none := hx
      rwa [List.getElem?_drop, Nat.add_zero] at this
    have hge := List.getElem?_eq_none_iff.1 hx'
    rw [List.length_take] at hge
    have hi : i = e := by omega
    subst hi
    refine ⟨fun j => ?_, v.pt i, [], ?_⟩
    · simp only [seqOf, List.getElem?_drop]
      exact List.getElem?_eq_none_iff.2 (by rw [List.length_take]; omega)
    · simp only [randSource]
      rw [v.equal_pt i i he he, decide_eq_true rfl]
  · rintro c a q n ⟨i, hie, rfl, rfl⟩ hn
    simp only [randSource]
    rw [v.pos_pt i e (by omega) he, wrap64_id (by unfold isInt64; omega)]
    by_cases hne : i + n ≤ e
    · rw [show min (n : Int) ((e : Int) - i) = ((i + n : Nat) : Int) - i by omega,
        v.add_pt i (i + n) (by omega) (by omega)]
      refine ⟨_, _, rfl, i + n, hne, rfl, ?_⟩
      rw [seqOf_drop, List.drop_drop]
    · rw [show min (n : Int) ((e : Int) - i) = ((e : Nat) : Int) - i by omega,
        v.add_pt i e (by omega) (by omega)]
      refine ⟨_, _, rfl, e, Nat.le_refl _, rfl, ?_⟩
      rw [seqOf_drop, List.drop_drop, List.drop_of_length_le (by rw [List.length_take]; omega),
        List.drop_of_length_le (by rw [List.length_take]; omega)]

/-- Iterators that are only known to move forward: the positions of a list `xs`. -/
structure Forward {M It : Type} [Iter.Iter M T It] (m : M) (xs : List T) (pt : Nat → It) : Prop where
  next : ∀ i, i < xs.length → Iter.next (pt i) = .ok (pt (i + 1))
  get : ∀ i x, xs[i]? = some x → ∃ m', Iter.get (pt i) m = (.ok x, m')
  equal : ∀ i j, i ≤ xs.length → j ≤ xs.length → Iter.equal (pt i) (pt j) = .ok (decide (i = j))

section
variable {M It : Type} [Iter.Iter M T It] {m : M} {xs : List T} {pt : Nat → It}

theorem fwdNext_some (hf : Forward m xs pt) {i : Nat} {x : T} (hx : xs[i]? = some x) :
    fwdNext m (pt xs.length) (pt i) = .ok (some (x, pt (i + 1))) := by
  have hlt : i < xs.length := (List.getElem?_eq_some_iff.1 hx).1
  obtain ⟨m', hg⟩ := hf.get i x hx
  unfold fwdNext
  rw [hf.equal i _ (by omega) (Nat.le_refl _), decide_eq_false (by omega), hg, hf.next i hlt]

theorem fwdNext_none (hf : Forward m xs pt) :
    fwdNext m (pt xs.length) (pt xs.length) = (.ok none : Go (Option (T × It))) := by
  unfold fwdNext
  rw [hf.equal _ _ (Nat.le_refl _) (Nat.le_refl _), decide_eq_true rfl]

theorem fwdSkip_pt (hf : Forward m xs pt) (n : Nat) : ∀ (c : Int) (i : Nat), i ≤ xs.length →
    ∃ r, fwdSkip m (pt xs.length) n c (pt i) = .ok (r, pt (min (i + n) xs.length)) := by
  induction n with
  | zero => intro c i hi; exact ⟨c, by rw [Nat.add_zero, Nat.min_eq_left hi]; rfl⟩
  | succ n ih =>
    intro c i hi
    unfold fwdSkip
    rcases Nat.lt_or_ge i xs.length with h | h
    · rw [fwdNext_some hf (List.getElem?_eq_getElem h)]
      have := ih (c + 1) (i + 1) h
      rwa [show i + 1 + n = i + (n + 1) by omega] at this
    · have : i = xs.length := by omega
      subst this
      rw [fwdNext_none hf]
      exact ⟨c, by rw [Nat.min_eq_right (by omega)]⟩

theorem fwd_behaves (E : Type) (hf : Forward m xs pt) {i : Nat} (hi : i ≤ xs.length) (b : Nat) :
    Behaves (fwdSource E m (pt xs.length)) b (seqOf (xs.drop i)) (pt i) := by
  refine ⟨fun _ a q => ∃ i, i ≤ xs.length ∧ q = pt i ∧ a = seqOf (xs.drop i), ?_, i, hi, rfl, rfl⟩
  refine ⟨?_, ?_, ?_⟩
  · rintro c a q x ⟨i, hi, rfl, rfl⟩ hx
    have hx' : xs[i]? = some x := by simpa [seqOf] using hx
    have hlt : i < xs.length := (List.getElem?_eq_some_iff.1 hx').1
    refine ⟨pt (i + 1), [], ?_, i + 1, hlt, rfl, ?_⟩
    · simp only [fwdSource]; rw [fwdNext_some hf hx']
    · rw [seqOf_drop, List.drop_drop]
  · rintro c a q ⟨i, hi, rfl, rfl⟩ hx
    have hx' : xs[i]? = none := by simpa [seqOf] using hx
    have hge := List.getElem?_eq_none_iff.1 hx'
    have : i = xs.length := by omega
    subst this
    refine ⟨fun j => ?_, pt xs.length, [], ?_⟩
    · simp [seqOf]
    · simp only [fwdSource]; rw [fwdNext_none hf]
  · rintro c a q n ⟨i, hi, rfl, rfl⟩ hn
    obtain ⟨r, hr⟩ := fwdSkip_pt hf n 0 i hi
    refine ⟨r, _, hr, min (i + n) xs.length, Nat.min_le_right _ _, rfl, ?_⟩
    rw [seqOf_drop, List.drop_drop]
    rcases Nat.le_total (i + n) xs.length with h | h
    · rw [Nat.min_eq_left h]
    · rw [Nat.min_eq_right h, List.drop_of_length_le h, List.drop_length]
end

end Verif.Stream
