import Mathlib.Data.List.Permutation
import Mathlib.Data.Nat.Factorial.Basic
import Verif.Sort.Writing
import Verif.Sort.Unique

/-!
# Property C125: sorting takes the comparisons it has to

Lower bounds for the numbers of calls that C72 and C73 bound from above.
-/

namespace Verif.Sort

variable {E : Type} [Inhabited E] {α : Type}
set_option linter.unusedSectionVars false

/-! ## Few calls sort few arrangements -/

theorem swapL_inj {d d' : List E} {i j : Int} (hl : d.length = d'.length) (hi : inRange d i) (hj : inRange d j)
    (h : swapL d i j = swapL d' i j) : d = d' := by
  have back : ∀ e : List E, inRange e i → inRange e j → swapL (swapL e i j) i j = e := by
    intro e hi hj
    refine List.ext_getElem (by simp) fun k h1 h2 => ?_
    have r : ∀ (l : List E) (h : k < l.length), l[k] = el l (k : Int) := by
      intro l h; simp [el, List.getD_eq_getElem?_getD, h]
    rw [r _ h1, r _ h2, el_swapL ((inRange_swapL ..).2 hi) ((inRange_swapL ..).2 hj), el_swapL hi hj, el_swapL hi hj,
      el_swapL hi hj]
    split
    · rename_i hk; subst hk; split
      · rename_i h; rw [h]
      · simp
    · split
      · rename_i hk; subst hk; simp
      · rfl
  rw [← back d hi hj, h, back d' ((range_length hl.symm i).2 hi) ((range_length hl.symm j).2 hj)]

/-- The calls made in a run, when it ends with the slice `out`. -/
def Calls (cmp : Kind → E → E → Bool) (p : Prog E (α × List E)) (out : List E) (n : Nat) : Prop :=
  ∃ a, p.exec (σ := Unit) (fun _ k x y => (cmp k x y, ())) () = .ok ((a, out), (), n)

theorem Ix.few (cmp : Kind → E → E → Bool) (out : List E) (q : Ix α) : ∀ (k : Nat) (ds : List (List E)), ds.Nodup →
    (∀ d ∈ ds, d.length = out.length ∧ ∃ n ≤ k, Calls cmp (q.on E d) out n) → ds.length ≤ 2 ^ k := by
  induction q with
  | ret a =>
    intro k ds hn h
    have : ∀ d ∈ ds, d = out := by
      intro d hd
      obtain ⟨-, n, -, b, hb⟩ := h d hd
      injection hb with hb
      injection hb with hb
      injection hb
    have hp := Nat.one_le_two_pow (n := k)
    match ds, hn, this with
    | [], _, _ => simp
    | [_], _, _ => simpa using hp
    | x :: y :: l, hn, this =>
      have hx := this x (by simp)
      have hy := this y (by simp)
      rw [hx, hy] at hn
      simp at hn
  | fail msg =>
    intro k ds hn h
    cases ds with
    | nil => simp
    | cons d ds => obtain ⟨-, n, -, b, hb⟩ := h d (by simp); cases hb
  | note e p ih => exact fun k ds hn h => ih k ds hn h
  | swap i j p ih =>
    intro k ds hn h
    have hr : ∀ d ∈ ds, inRange d i ∧ inRange d j := by
      intro d hd
      obtain ⟨-, n, -, b, hb⟩ := h d hd
      rw [Ix.on_swap] at hb
      split at hb
      · assumption
      · cases hb
    have := ih k (ds.map fun d => swapL d i j) ?_ ?_
    · simpa using this
    · refine List.Nodup.map_on (fun d hd d' hd' he => ?_) hn
      exact swapL_inj ((h d hd).1.trans (h d' hd').1.symm) (hr d hd).1 (hr d hd).2 he
    · intro d' hd'
      obtain ⟨d, hd, rfl⟩ := List.mem_map.1 hd'
      obtain ⟨hl, n, hk, b, hb⟩ := h d hd
      rw [Ix.on_swap, if_pos (hr d hd)] at hb
      exact ⟨by rw [length_swapL, hl], n, hk, b, hb⟩
  | ask kd i j next ih =>
    intro k ds hn h
    have hr : ∀ d ∈ ds, ∃ k', k = k' + 1 ∧ ∃ n ≤ k', Calls cmp ((next (cmp kd (el d i) (el d j))).on E d) out n := by
      intro d hd
      obtain ⟨-, n, hk, b, hb⟩ := h d hd
      rw [Ix.on_ask] at hb
      split at hb
      · simp only [Prog.exec] at hb
        split at hb
        · rename_i r s m he
          injection hb with hb
          simp only [Prod.mk.injEq] at hb
          obtain ⟨rfl, -, rfl⟩ := hb
          exact ⟨k - 1, by omega, m, by omega, b, he⟩
        · cases hb
      · cases hb
    cases ds with
    | nil => simp
    | cons d₀ ds' =>
      obtain ⟨k', rfl, -⟩ := hr d₀ (by simp)
      generalize hds : d₀ :: ds' = ds at *
      have part : ∀ b, (ds.filter fun d => cmp kd (el d i) (el d j) == b).length ≤ 2 ^ k' := by
        intro b
        refine ih b k' _ (hn.filter _) fun d hd => ?_
        obtain ⟨hd, hb⟩ := List.mem_filter.1 hd
        obtain ⟨k'', hk, n, hn, hc⟩ := hr d hd
        rw [eq_of_beq hb] at hc
        exact ⟨(h d hd).1, n, by omega, hc⟩
      have hsum : ds.length = (ds.filter fun d => cmp kd (el d i) (el d j) == true).length +
          (ds.filter fun d => cmp kd (el d i) (el d j) == false).length := by
        clear part hr h hn hds
        induction ds with
        | nil => rfl
        | cons d ds ih =>
          simp only [List.length_cons, List.filter_cons]
          cases cmp kd (el d i) (el d j) <;> simp at * <;> omega
      have h1 := part true
      have h2 := part false
      rw [hsum, Nat.pow_succ]
      omega

theorem calls_of_run {less : E → E → Bool} {p : M E Unit} {d out : List E} {n : Nat}
    (h : runProg p (ofLess less) () d = .ok (out, n)) : Calls (fun k x y => (ofLess less () k x y).1) (p d) out n := by
  have he : (fun (_ : Unit) k x y => ((ofLess less () k x y).1, ())) = ofLess less := by
    funext _ k x y; cases k <;> rfl
  unfold Calls
  rw [he]
  unfold runProg at h
  split at h
  · rename_i d' s m hx
    injection h with h
    injection h with h1 h2
    subst h1 h2
    exact ⟨(), hx⟩
  · cases h

theorem pow_half_le_factorial (m : Nat) : ∀ n, 2 * m ≤ n → m ^ (n - m) ≤ n.factorial := by
  intro n hn
  have : ∀ k, m ^ k ≤ (m + k).factorial := by
    intro k
    induction k with
    | zero => exact Nat.factorial_pos _
    | succ k ih =>
      rw [Nat.pow_succ, ← Nat.add_assoc, Nat.factorial_succ, Nat.mul_comm]
      exact Nat.mul_le_mul (by omega) ih
  have h := this (n - m)
  rwa [show m + (n - m) = n by omega] at h

/-! ## Every element has to be compared -/

/-- The pairs of elements compared in a run. -/
def Prog.asked (cmp : Kind → E → E → Bool) : Prog E α → List (E × E)
  | .ret _ => []
  | .fail _ => []
  | .note _ p => p.asked cmp
  | .ask k x y _ next => (x, y) :: (next (cmp k x y)).asked cmp

theorem exec_asked (cmp cmp' : Kind → E → E → Bool) (p : Prog E α) :
    (∀ z ∈ p.asked cmp, ∀ k, cmp' k z.1 z.2 = cmp k z.1 z.2) → ∀ a n,
    p.exec (σ := Unit) (fun _ k x y => (cmp k x y, ())) () = .ok (a, (), n) →
    (p.asked cmp).length = n ∧ p.exec (σ := Unit) (fun _ k x y => (cmp' k x y, ())) () = .ok (a, (), n) := by
  induction p with
  | ret a => intro _ b n h; cases h; exact ⟨rfl, rfl⟩
  | fail msg => intro _ b n h; cases h
  | note e p ih => exact ih
  | ask k x y d next ih =>
    intro hc b n h
    simp only [Prog.asked, List.mem_cons, forall_eq_or_imp] at hc
    simp only [Prog.exec] at h ⊢
    split at h
    · rename_i r s m he
      injection h with h
      simp only [Prod.mk.injEq] at h
      obtain ⟨rfl, -, rfl⟩ := h
      obtain ⟨h1, h2⟩ := ih _ hc.2 _ _ he
      rw [hc.1 k, h2]
      exact ⟨by simp [Prog.asked, h1], rfl⟩
    · cases h

/-- Colours for the numbers below `n`, the same for the numbers of each pair: at least `n` minus the number of pairs. -/
theorem colours (n : Nat) (l : List (Nat × Nat)) : ∃ (f : Nat → Nat) (vs : List Nat), (∀ z ∈ l, f z.1 = f z.2) ∧
    (∀ v ∈ vs, v < n) ∧ (vs.map f).Nodup ∧ n ≤ vs.length + l.length := by
  induction l with
  | nil => exact ⟨id, List.range n, by simp, by simp, by simpa using List.nodup_range, by simp⟩
  | cons z l ih =>
    obtain ⟨f, vs, h1, h2, h3, h4⟩ := ih
    -- the colour of the first becomes that of the second; drop a number that had it
    refine ⟨fun x => if f x = f z.1 then f z.2 else f x, vs.filter fun v => !(f v == f z.1), ?_, ?_, ?_, ?_⟩
    · intro y hy
      rcases List.mem_cons.1 hy with rfl | hy
      · simp
      · simp [h1 y hy]
    · exact fun v hv => h2 v (List.mem_filter.1 hv).1
    · rw [List.map_congr_left (g := f) fun v hv => by
        have := (List.mem_filter.1 hv).2
        simp at this; simp [this]]
      exact (List.filter_sublist.map f).nodup h3
    · have : ∀ (vs : List Nat) (c : Nat), (vs.map f).Nodup → vs.length ≤ (vs.filter fun v => !(f v == c)).length + 1 := by
        intro vs c hv
        induction vs with
        | nil => simp
        | cons v vs ih =>
          simp only [List.map_cons, List.nodup_cons] at hv
          by_cases hc : f v = c
          · have : vs.filter (fun v => !(f v == c)) = vs := by
              refine List.filter_eq_self.2 fun w hw => ?_
              have : f w ≠ c := fun e => hv.1 (List.mem_map.2 ⟨w, hw, e.trans hc.symm⟩)
              simpa using this
            simp [hc, this]
          · simpa [List.filter_cons, hc] using ih hv.2
      have := this vs (f z.1) h3
      simp only [List.length_cons]
      omega

/-- The numbers of one colour all before, or all after, the others. -/
def moved (less : Nat → Nat → Bool) (f : Nat → Nat) (c : Nat) (first : Bool) (x y : Nat) : Bool :=
  if f x = c ∧ f y ≠ c then first else if f x ≠ c ∧ f y = c then !first else less x y

theorem moved_strictWeak {less : Nat → Nat → Bool} (hw : StrictWeak less) (f : Nat → Nat) (c : Nat) (first : Bool) :
    StrictWeak (moved less f c first) := by
  refine ⟨fun x => ?_, fun x y z => ?_, fun x y z => ?_⟩
  · have := hw.irrefl x
    unfold moved; split
    · rename_i h; exact (h.2 h.1).elim
    · split
      · rename_i h; exact (h.1 h.2).elim
      · exact this
  · have := hw.trans x y z
    unfold moved
    by_cases hx : f x = c <;> by_cases hy : f y = c <;> by_cases hz : f z = c <;> cases first <;> simp_all
  · have := hw.incomp x y z
    unfold moved
    by_cases hx : f x = c <;> by_cases hy : f y = c <;> by_cases hz : f z = c <;> cases first <;> simp_all

theorem exec_run {less : E → E → Bool} {p : M E Unit} {d out : List E} {n : Nat}
    (h : (p d).exec (σ := Unit) (fun _ k x y => ((ofLess less () k x y).1, ())) () = .ok (((), out), (), n)) :
    runProg p (ofLess less) () d = .ok (out, n) := by
  have he : (fun (_ : Unit) k x y => ((ofLess less () k x y).1, ())) = ofLess less := by
    funext _ k x y; cases k <;> rfl
  rw [he] at h
  simp only [runProg, h]

theorem must_compare (p : M Nat Unit) (n : Nat)
    (hp : ∀ less, StrictWeak less → ∃ out k, runProg p (ofLess less) () (List.range n) = .ok (out, k) ∧
      Ascending less out ∧ out.Perm (List.range n))
    {less : Nat → Nat → Bool} {out : List Nat} {k : Nat} (hw : StrictWeak less)
    (h : runProg p (ofLess less) () (List.range n) = .ok (out, k)) : n ≤ k + 1 := by
  obtain ⟨⟨⟩, hx⟩ := calls_of_run h
  have hlen := (exec_asked _ _ _ (fun _ _ _ => rfl) _ _ hx).1
  obtain ⟨f, vs, h1, h2, h3, h4⟩ := colours n ((p (List.range n)).asked fun k x y => (ofLess less () k x y).1)
  rw [hlen] at h4
  match vs, h2, h3, h4 with
  | [], _, _, h4 => simp at h4; omega
  | [_], _, _, h4 => simp at h4; omega
  | u :: v :: l, h2, h3, _ =>
    have hne : f u ≠ f v := by simp at h3; tauto
    have hu := h2 u (by simp)
    have hv := h2 v (by simp)
    -- whether the numbers of the colour of `u` come first or last makes no difference to the run
    have key : ∀ first, Ascending (moved less f (f u) first) out ∧ out.Perm (List.range n) := by
      intro first
      have := (exec_asked _ (fun k x y => (ofLess (moved less f (f u) first) () k x y).1) _ (fun z hz k => by
        have e : moved less f (f u) first z.1 z.2 = less z.1 z.2 := by
          have := h1 z hz
          unfold moved
          rw [if_neg (by rw [this]; tauto), if_neg (by rw [this]; tauto)]
        cases k <;> simp [ofLess, e]) _ _ hx).2
      obtain ⟨o, m, ho, ha, hperm⟩ := hp _ (moved_strictWeak hw f (f u) first)
      rw [exec_run this] at ho
      injection ho with ho
      injection ho with ho
      subst ho
      exact ⟨ha, hperm⟩
    have hperm := (key true).2
    have hu' : u ∈ out := hperm.mem_iff.2 (by simpa using hu)
    have hv' : v ∈ out := hperm.mem_iff.2 (by simpa using hv)
    obtain ⟨i, hi, rfl⟩ := List.getElem_of_mem hu'
    obtain ⟨j, hj, rfl⟩ := List.getElem_of_mem hv'
    rcases Nat.lt_trichotomy i j with hij | rfl | hij
    · have := List.pairwise_iff_getElem.1 (key false).1 i j hi hj hij
      simp [moved, Ne.symm hne] at this
    · exact (hne rfl).elim
    · have := List.pairwise_iff_getElem.1 (key true).1 j i hj hi hij
      simp [moved, Ne.symm hne] at this

/-! ## C125 -/

theorem ofLess_stateful (less : E → E → Bool) :
    ofStateful (fun (_ : Unit) x y => (less x y, ())) = ofLess less := by
  funext _ k x y; cases k <;> rfl

theorem run_sort {less : E → E → Bool} (hw : StrictWeak less) (d : List E) :
    ∀ p ∈ [(sortProg : M E Unit), stableProg], ∃ out k, runProg p (ofLess less) () d = .ok (out, k) ∧
      Ascending less out ∧ out.Perm d := by
  intro p hp
  have ok : ∀ {r : Go (List E × Nat)} {o : List E}, contentsOf r = .ok o → ∃ k, r = .ok (o, k) := by
    intro r o h
    rcases r with e | ⟨d, k⟩
    · cases h
    · cases h; exact ⟨k, rfl⟩
  rcases List.mem_cons.1 hp with rfl | hp
  · obtain ⟨o, h, ha⟩ := C01_sort_ascending less hw d
    obtain ⟨o', h', hperm⟩ := (C02_sort_rearranges d).1 less
    rw [h] at h'; cases h'
    obtain ⟨k, hk⟩ := ok h
    exact ⟨o, k, hk, ha, hperm⟩
  · obtain rfl := List.mem_singleton.1 hp
    obtain ⟨o, h, ha, hperm⟩ := C04_stable_sorts less hw d
    obtain ⟨k, hk⟩ := ok h
    exact ⟨o, k, hk, ha, hperm⟩

/-- **C125.** `Sort` and `Stable` call the comparator at least `n - 1` times on every slice of `n` elements. -/
theorem C125_at_least (less : E → E → Bool) (hw : StrictWeak less) (data : List E) :
    ∀ p ∈ [(sortProg : M E Unit), stableProg], ∃ out k, runProg p (ofLess less) () data = .ok (out, k) ∧
      data.length - 1 ≤ k := by
  -- the same run on the places
  have hpl : Places (fun (i : Nat) x => data[i]? = some x) (List.range data.length) data := by
    refine ⟨by simp, fun i h h' => ?_⟩
    simp
  have hpar := C115_parametric (R := fun (i : Nat) x => data[i]? = some x) (fun (_ : Unit) (_ : Unit) => True)
    (fun _ i j => (less (data.getD i default) (data.getD j default), ())) (fun _ x y => (less x y, ()))
    (fun _ _ i j x y _ hi hj => by simp [List.getD_eq_getElem?_getD, hi, hj]) _ _ hpl () () trivial
  rw [ofLess_stateful, ofLess_stateful] at hpar
  have hw' : StrictWeak fun i j => less (data.getD i default) (data.getD j default) :=
    ⟨fun _ => hw.irrefl _, fun _ _ _ => hw.trans _ _ _, fun _ _ _ => hw.incomp _ _ _⟩
  have key : ∀ pp ∈ [((sortProg : M Nat Unit), (sortProg : M E Unit)), (stableProg, stableProg)],
      pp.1 ∈ [(sortProg : M Nat Unit), stableProg] → ∃ out k, runProg pp.2 (ofLess less) () data = .ok (out, k) ∧
      data.length - 1 ≤ k := by
    intro pp hpp hm
    obtain ⟨o, o', k, h1, h2, -⟩ := hpar pp hpp
    have := must_compare pp.1 data.length (fun less hw => run_sort hw _ _ hm) hw' h1
    exact ⟨o', k, h2, by omega⟩
  intro p hp
  rcases List.mem_cons.1 hp with rfl | hp
  · exact key (sortProg, sortProg) (by simp) (by simp)
  · obtain rfl := List.mem_singleton.1 hp
    exact key (stableProg, stableProg) (by simp) (by simp)

/-- **C125.** Among the arrangements of given elements (no two different ones equivalent), no more than `2 ^ k` are
sorted with at most `k` calls of the comparator. -/
theorem C125_few (less : E → E → Bool) (hw : StrictWeak less) (data : List E)
    (hd : ∀ x ∈ data, ∀ y ∈ data, equiv less x y = true → x = y) (k : Nat) (ds : List (List E)) (hn : ds.Nodup)
    (hp : ∀ d ∈ ds, d.Perm data) :
    ∀ p ∈ [(sortProg : M E Unit), stableProg],
      (∀ d ∈ ds, ∃ out n, runProg p (ofLess less) () d = .ok (out, n) ∧ n ≤ k) → ds.length ≤ 2 ^ k := by
  intro p hmem h
  obtain ⟨sorted, k₀, hs, hsa, hsp⟩ := run_sort hw data p hmem
  have hout : ∀ d ∈ ds, ∃ n ≤ k, runProg p (ofLess less) () d = .ok (sorted, n) := by
    intro d hdm
    obtain ⟨out, n, hr, hk⟩ := h d hdm
    obtain ⟨out', n', hr', ha, hperm⟩ := run_sort hw d p hmem
    rw [hr] at hr'
    injection hr' with hr'
    injection hr' with h1 h2
    subst h1 h2
    have hu := ascending_unique hw ((hperm.trans (hp d hdm)).trans hsp.symm) ha hsa
    have : out = sorted := by
      refine List.ext_getElem hu.1 fun i h1 h2 => ?_
      exact hd _ ((hperm.trans (hp d hdm)).mem_iff.1 (List.getElem_mem h1)) _ (hsp.mem_iff.1 (List.getElem_mem h2))
        (hu.2 i h1 h2)
    exact ⟨n, hk, this ▸ hr⟩
  obtain ⟨⟨q, hq⟩, q', hq'⟩ := C123_by_place
  have key : ∀ q : Nat → Ix Unit, (∀ d : List E, p d = (q d.length).on E d) → ds.length ≤ 2 ^ k := by
    intro q hq
    refine Ix.few (fun k x y => (ofLess less () k x y).1) sorted (q sorted.length) k ds hn fun d hdm => ?_
    have hl : d.length = sorted.length := ((hp d hdm).trans hsp.symm).length_eq
    obtain ⟨n, hk, hr⟩ := hout d hdm
    refine ⟨hl, n, hk, ?_⟩
    rw [← hl, ← hq]
    exact calls_of_run hr
  rcases List.mem_cons.1 hmem with rfl | hmem
  · exact key q fun d => hq E d
  · obtain rfl := List.mem_singleton.1 hmem
    exact key q' fun d => hq' E d

/-- **C125.** So for every slice there is an arrangement of its elements that takes at least as many calls as the
logarithm of the number of arrangements; for `n` different elements this is `n!`, which gives `n/2 * log2 (n/2)` calls. -/
theorem C125_worst (less : E → E → Bool) (hw : StrictWeak less) (data : List E)
    (hd : ∀ x ∈ data, ∀ y ∈ data, equiv less x y = true → x = y) (hn : data.Nodup) :
    ∀ p ∈ [(sortProg : M E Unit), stableProg], ∃ d out n, d.Perm data ∧
      runProg p (ofLess less) () d = .ok (out, n) ∧ data.length.factorial ≤ 2 ^ n ∧
      data.length / 2 * Nat.log2 (data.length / 2) ≤ n := by
  intro p hp
  have hex : ∃ d out n, d.Perm data ∧ runProg p (ofLess less) () d = .ok (out, n) ∧ data.length.factorial ≤ 2 ^ n := by
    by_contra hno
    push Not at hno
    -- all arrangements would take few calls
    have hpos := Nat.factorial_pos data.length
    have hall : ∀ d ∈ data.permutations, ∃ out n, runProg p (ofLess less) () d = .ok (out, n) ∧
        n ≤ Nat.log2 (data.length.factorial - 1) ∧ 2 ^ n < data.length.factorial := by
      intro d hdm
      obtain ⟨out, n, h, -⟩ := run_sort hw d p hp
      have hlt := hno d out n (List.mem_permutations.1 hdm) h
      refine ⟨out, n, h, (Nat.le_log2 ?_).2 (by omega), hlt⟩
      have := Nat.one_le_two_pow (n := n)
      omega
    have hlen := C125_few less hw data hd _ data.permutations (List.nodup_permutations _ hn)
      (fun d hdm => List.mem_permutations.1 hdm) p hp fun d hdm => by
        obtain ⟨out, n, h1, h2, -⟩ := hall d hdm
        exact ⟨out, n, h1, h2⟩
    rw [List.length_permutations] at hlen
    obtain ⟨out, n, -, -, hlt⟩ := hall data (List.mem_permutations.2 (List.Perm.refl _))
    have h2 := Nat.one_le_two_pow (n := n)
    have := Nat.log2_self_le (n := data.length.factorial - 1) (by omega)
    omega
  obtain ⟨d, out, n, h1, h2, h3⟩ := hex
  refine ⟨d, out, n, h1, h2, h3, ?_⟩
  by_cases hz : data.length / 2 = 0
  · simp [hz]
  · have hf := pow_half_le_factorial (data.length / 2) data.length (by omega)
    have hb : 2 ^ (data.length / 2 * Nat.log2 (data.length / 2)) ≤ 2 ^ n := by
      calc 2 ^ (data.length / 2 * Nat.log2 (data.length / 2))
          = (2 ^ Nat.log2 (data.length / 2)) ^ (data.length / 2) := by rw [← Nat.pow_mul, Nat.mul_comm]
        _ ≤ (data.length / 2) ^ (data.length / 2) := Nat.pow_le_pow_left (Nat.log2_self_le hz) _
        _ ≤ (data.length / 2) ^ (data.length - data.length / 2) := Nat.pow_le_pow_right (by omega) (by omega)
        _ ≤ data.length.factorial := hf
        _ ≤ 2 ^ n := h3
    exact (Nat.pow_le_pow_iff_right (by omega)).1 hb

/-! ## Concrete cases -/

/-- Three elements: two calls at least. -/
example : ∃ out k, runProg (sortProg : M Int Unit) (ofLess fun a b => decide (a < b)) () [3, 1, 2] = .ok (out, k) ∧ 2 ≤ k :=
  C125_at_least _ intLt_strictWeak [3, 1, 2] sortProg (by simp)

/-- On an ascending slice it is not more. -/
example : runProg (sortProg : M Int Unit) (ofLess fun a b => decide (a < b)) () [1, 2, 3] = .ok ([1, 2, 3], 2) := by
  decide +kernel

/-- Of the six arrangements of three elements at most four are sorted with two calls. -/
example : ∃ d out n, d.Perm [1, 2, (3 : Int)] ∧
    runProg (sortProg : M Int Unit) (ofLess fun a b => decide (a < b)) () d = .ok (out, n) ∧ 6 ≤ 2 ^ n := by
  obtain ⟨d, out, n, h1, h2, h3, -⟩ := C125_worst (fun a b : Int => decide (a < b)) intLt_strictWeak [1, 2, 3]
    (by intro x _ y _ h; simp [equiv] at h; omega) (by decide) sortProg (by simp)
  exact ⟨d, out, n, h1, h2, h3⟩

end Verif.Sort
