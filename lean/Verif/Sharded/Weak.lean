import Verif.Sharded.Moments

/-!
# `Iterate`, `Keys`, `Values`, `Entries` and `ToMap` while others change the map
-/

set_option linter.unusedSectionVars false

namespace Verif.Sharded

open Verif.Conc Verif.GoMap

variable {K V : Type} [DecidableEq K] [Inhabited V]
variable {c : Conf K} {t : Tid} {op : Op K V} {r : Res K V} {tr0 tr : List (Lab K V)} {s0 s1 s2 : Cfg K V}

/-- `fn` is called on the entries one after the other, until it panics. -/
theorem scan_visitAll {Q : List (Tab K V) → Res K V → Prop} {xs : List (Tab K V)}
    {f : List (K × V) × Bool → P K V (Res K V)} : ∀ (es done : List (K × V)),
    (∀ l b, l <+: done ++ es → (b = true → l = done ++ es) → Scan Q xs (f (l, b))) →
    Scan Q xs (visitAll es done >>= f) := by
  intro es
  induction es with
  | nil => intro done h; exact h done true (by simp) (by simp)
  | cons e es ih =>
    intro done h b
    have e' : done ++ [e] ++ es = done ++ e :: es := by simp
    cases b with
    | true =>
      refine ih (done ++ [e]) fun l b h1 h2 => ?_
      rw [e'] at h1 h2
      exact h l b h1 h2
    | false =>
      exact h (done ++ [e]) false ⟨es, e'⟩ (fun h => by cases h)

theorem scan_iterateLoop (n : Nat) : ∀ (rem : Nat) (xs vs : List (Tab K V)), xs.length + rem = n → Through xs vs →
    Scan (fun ys r => ∃ ws l b, Through ys ws ∧ r = .visited l b ∧ l <+: ws.flatten ∧
      (b = true → l = ws.flatten ∧ ys.length = n)) xs (iterateLoop xs.length rem vs.flatten) := by
  intro rem
  induction rem with
  | zero => intro xs vs h hv; exact ⟨vs, _, true, hv, rfl, List.prefix_rfl, fun _ => ⟨rfl, h⟩⟩
  | succ rem ih =>
    intro xs vs h hv _
    refine ⟨rfl, fun m o => ?_⟩
    have hv' : Through (xs ++ [m]) (vs ++ [o.visit m]) := by
      refine ⟨by simp [hv.1], fun i x v hx hv' => ?_⟩
      rcases getElem?_snoc hx with h1 | ⟨rfl, rfl⟩
      · rcases getElem?_snoc hv' with h2 | ⟨e, _⟩
        · exact hv.2 i x v h1 h2
        · have := (List.getElem?_eq_some_iff.1 h1).1
          rw [hv.1] at e; omega
      · rcases getElem?_snoc hv' with h2 | ⟨e, rfl⟩
        · have := (List.getElem?_eq_some_iff.1 h2).1
          rw [hv.1] at this; omega
        · exact o.perm _
    have hf : (vs ++ [o.visit m]).flatten = vs.flatten ++ o.visit m := by simp
    refine scan_visitAll _ _ fun l b h1 h2 _ => ?_
    cases b with
    | true =>
      have := ih (xs ++ [m]) (vs ++ [o.visit m]) (by simp; omega) hv'
      rw [hf, ← h2 rfl] at this
      simp only [List.length_append, List.length_cons, List.length_nil, Nat.zero_add] at this
      exact this
    | false => exact ⟨_, l, false, hv', rfl, by rw [hf]; exact h1, fun h => by cases h⟩

/-- The list `l` of entries is made of tables seen during the call. -/
theorem moments_of_through (h : GoodCall c t op r tr0 tr s0 s1 s2) {xs ws : List (Tab K V)} (hw : Through xs ws)
    (hx : Seen c s1 tr s2 xs) :
    (ws.flatten.map Prod.fst).Nodup ∧
    (∀ k v, (k, v) ∈ ws.flatten → ∃ m, During (body c) s1 tr s2 m ∧ absMap c m.sh.items k = some v) ∧
    (xs.length = c.n → ∀ i, i < c.n → ∃ m, During (body c) s1 tr s2 m ∧
      ∀ k v, shardOf c k = i → ((k, v) ∈ ws.flatten ↔ absMap c m.sh.items k = some v)) := by
  have at_ : ∀ (i : Nat) (w : Tab K V), ws[i]? = some w → ∃ m, During (body c) s1 tr s2 m ∧ w.Perm (m.sh.items i) := by
    intro i w hi
    have hlt := (List.getElem?_eq_some_iff.1 hi).1
    rw [hw.1] at hlt
    obtain ⟨x, hx'⟩ := getElem?_some_of_lt hlt
    obtain ⟨m, hm, e⟩ := hx i x hx'
    exact ⟨m, hm, by rw [e]; exact hw.2 i x w hx' hi⟩
  refine ⟨?_, ?_, ?_⟩
  · rw [List.map_flatten]
    unfold List.Nodup
    rw [List.pairwise_flatten]
    constructor
    · intro l hl
      obtain ⟨w, hw', rfl⟩ := List.mem_map.1 hl
      obtain ⟨i, hi⟩ := List.getElem?_of_mem hw'
      obtain ⟨m, hm, hp⟩ := at_ i w hi
      exact (Lists.perm_of (lists ((h.placed hm).wf i)) hp).nodup
    · rw [List.pairwise_map, List.pairwise_iff_getElem]
      intro i j hi hj hij a ha b hb
      obtain ⟨⟨ka, va⟩, ha', rfl⟩ := List.mem_map.1 ha
      obtain ⟨⟨kb, vb⟩, hb', rfl⟩ := List.mem_map.1 hb
      obtain ⟨m, hm, hp⟩ := at_ i _ (List.getElem?_eq_getElem hi)
      obtain ⟨m', hm', hp'⟩ := at_ j _ (List.getElem?_eq_getElem hj)
      have h1 := (h.placed hm).place i ka va (hp.mem_iff.1 ha')
      have h2 := (h.placed hm').place j kb vb (hp'.mem_iff.1 hb')
      simp only
      rintro rfl
      omega
  · intro k v hkv
    obtain ⟨w, hw', hk⟩ := List.mem_flatten.1 hkv
    obtain ⟨i, hi⟩ := List.getElem?_of_mem hw'
    obtain ⟨m, hm, hp⟩ := at_ i w hi
    refine ⟨m, hm, ?_⟩
    have hk' := hp.mem_iff.1 hk
    unfold absMap
    rw [(h.placed hm).place i k v hk', get?_eq_some ((h.placed hm).wf i)]
    exact hk'
  · intro hn i hlt
    rw [← hn, ← hw.1] at hlt
    obtain ⟨w, hi⟩ := getElem?_some_of_lt hlt
    obtain ⟨m, hm, hp⟩ := at_ _ w hi
    refine ⟨m, hm, fun k v hk => ?_⟩
    subst hk
    unfold absMap
    rw [get?_eq_some ((h.placed hm).wf _), ← hp.mem_iff]
    constructor
    · intro hkv
      obtain ⟨w', hw', hk⟩ := List.mem_flatten.1 hkv
      obtain ⟨j, hj⟩ := List.getElem?_of_mem hw'
      obtain ⟨m', hm', hp'⟩ := at_ j w' hj
      have := (h.placed hm').place j k v (hp'.mem_iff.1 hk)
      subst this
      rw [hi] at hj
      injection hj with hj
      rw [hj]; exact hk
    · intro hk
      exact List.mem_flatten.2 ⟨w, List.mem_of_getElem? hi, hk⟩

end Verif.Sharded
