import Verif.Sharded.Scan

/-!
# `Len`, `Empty`, `Entries` while others change the map
-/

set_option linter.unusedSectionVars false

namespace Verif.Sharded

open Verif.Conc Verif.GoMap

variable {K V : Type} [DecidableEq K] [Inhabited V]

/-- A complete call in an execution from the new map in which only operations on single keys and operations
that only read are called. -/
structure GoodCall (c : Conf K) (t : Tid) (op : Op K V) (r : Res K V) (tr0 tr : List (Lab K V)) (s0 s1 s2 : Cfg K V) :
    Prop extends FullCall (body c) (Config.init fresh) t op r tr0 tr s0 s1 s2 where
  calls0 : Calls (fun _ op => Allowed op) tr0
  allowed : Allowed op
  calls : Calls (fun _ op => Allowed op) tr

variable {c : Conf K} {t : Tid} {op : Op K V} {r : Res K V} {tr0 tr : List (Lab K V)} {s0 s1 s2 : Cfg K V}

theorem GoodCall.reach (h : GoodCall c t op r tr0 tr s0 s1 s2) {m : Cfg K V} (hm : During (body c) s1 tr s2 m) :
    ∃ tr', Exec (body c) (Config.init fresh) tr' m ∧ Calls (fun _ op => Allowed op) tr' := by
  obtain ⟨a, b, e, h1, -⟩ := hm
  refine ⟨tr0 ++ [.call t op] ++ a, (Exec.snoc h.before h.call).trans h1, ?_⟩
  intro u op' hu
  rcases List.mem_append.1 hu with hu | hu
  · rcases List.mem_append.1 hu with hu | hu
    · exact h.calls0 u op' hu
    · simp only [List.mem_singleton] at hu
      injection hu with _ hu; rw [hu]; exact h.allowed
  · exact h.calls u op' (by rw [e]; simp [hu])

theorem GoodCall.placed (h : GoodCall c t op r tr0 tr s0 s1 s2) {m : Cfg K V} (hm : During (body c) s1 tr s2 m) :
    Placed c m.sh.items := by
  obtain ⟨tr', he, hP⟩ := h.reach hm
  obtain ⟨a, held, know, hrel⟩ := rel_of_exec he hP
  exact hrel.pl

theorem GoodCall.start (h : GoodCall c t op r tr0 tr s0 s1 s2) : s1.th t = .run op (body c op) := by
  cases h.call with
  | call _ _ _ => simp only [upd_same]

/-- The result of a scanning call, and the tables it has seen. -/
theorem GoodCall.scan (h : GoodCall c t op r tr0 tr s0 s1 s2) {Q : List (Tab K V) → Res K V → Prop}
    (hQ : Scan Q [] (body c op)) : ∃ xs, Q xs r ∧ Seen c s1 tr s2 xs := by
  obtain ⟨xs, p, e1, e2, e3⟩ := scan_seen h.inside h.none ⟨_, h.start, hQ⟩
  rw [h.ret] at e1
  injection e1 with _ e1
  subst e1
  exact ⟨xs, e2, e3⟩

theorem getElem?_some_of_lt {α : Type} {l : List α} {i : Nat} (h : i < l.length) : ∃ x, l[i]? = some x :=
  ⟨_, List.getElem?_eq_getElem h⟩

theorem sum_map_length (xs : List (Tab K V)) (d : Tab K V) :
    (xs.map List.length).sum = ((List.range xs.length).map fun i => ((xs[i]?).getD d).length).sum := by
  congr 1
  apply List.ext_getElem
  · simp
  · intro i h1 h2
    simp only [List.length_map] at h1
    simp [h1]

/-- `Len` while nobody deletes: the size at some moment of the call. -/
theorem len_growing (h : GoodCall c t .len r tr0 tr s0 s1 s2) (hd : ∀ m, During (body c) s1 tr s2 m → NoDelete m) :
    ∃ n m, r = .nat n ∧ During (body c) s1 tr s2 m ∧ (absMap c m.sh.items).Size n := by
  obtain ⟨xs, ⟨hx1, hx2⟩, hx3⟩ := h.scan (scan_lenLoop c.n c.n [] (by simp))
  have step : ∀ m l m', During (body c) s1 tr s2 m → During (body c) s1 tr s2 m' → Step (body c) m l m' →
      (∀ i, (m.sh.items i).length ≤ (m'.sh.items i).length) ∧
      total c.n m.sh.items ≤ total c.n m'.sh.items ∧ total c.n m'.sh.items ≤ total c.n m.sh.items + 1 := by
    intro m l m' hm _ hs
    obtain ⟨tr', he, hP⟩ := h.reach hm
    exact step_grows he hP hs (hd m hm)
  have shard : ∀ i m, During (body c) s1 tr s2 m →
      (s1.sh.items i).length ≤ (m.sh.items i).length ∧ (m.sh.items i).length ≤ (s2.sh.items i).length :=
    fun i => During.grows (f := fun m => (m.sh.items i).length) (fun m l m' h1 h2 hs => (step m l m' h1 h2 hs).1 i)
  have each : ∀ i ∈ List.range c.n, (s1.sh.items i).length ≤ ((xs[i]?).getD []).length ∧
      ((xs[i]?).getD []).length ≤ (s2.sh.items i).length := by
    intro i hi
    rw [List.mem_range, ← hx1] at hi
    obtain ⟨x, hx⟩ := getElem?_some_of_lt hi
    obtain ⟨m, hm, e⟩ := hx3 i x hx
    rw [hx]
    have := shard i m hm
    rw [e] at this
    exact this
  have hsum : (xs.map List.length).sum = ((List.range c.n).map fun i => ((xs[i]?).getD []).length).sum := by
    rw [sum_map_length xs [], hx1]
  obtain ⟨m, hm, e⟩ := Exec.between h.inside (f := fun m => total c.n m.sh.items)
    (n := (xs.map List.length).sum) (fun m l m' h1 h2 hs => (step m l m' h1 h2 hs).2.2)
    (by rw [hsum]; exact sum_le fun i hi => (each i hi).1) (by rw [hsum]; exact sum_le fun i hi => (each i hi).2)
  refine ⟨_, m, hx2, hm, ?_⟩
  rw [← e]
  exact size_total (h.placed hm)

/-- `Len` while nobody adds: the size at some moment of the call. -/
theorem len_shrinking (h : GoodCall c t .len r tr0 tr s0 s1 s2) (hd : ∀ m, During (body c) s1 tr s2 m → NoAdd m) :
    ∃ n m, r = .nat n ∧ During (body c) s1 tr s2 m ∧ (absMap c m.sh.items).Size n := by
  obtain ⟨xs, ⟨hx1, hx2⟩, hx3⟩ := h.scan (scan_lenLoop c.n c.n [] (by simp))
  have step : ∀ m l m', During (body c) s1 tr s2 m → During (body c) s1 tr s2 m' → Step (body c) m l m' →
      (∀ i, (m'.sh.items i).length ≤ (m.sh.items i).length) ∧
      total c.n m'.sh.items ≤ total c.n m.sh.items ∧ total c.n m.sh.items ≤ total c.n m'.sh.items + 1 := by
    intro m l m' hm _ hs
    obtain ⟨tr', he, hP⟩ := h.reach hm
    exact step_shrinks he hP hs (hd m hm)
  have top : ∀ i m, During (body c) s1 tr s2 m →
      (s2.sh.items i).length ≤ (m.sh.items i).length ∧ (m.sh.items i).length ≤ (s1.sh.items i).length := by
    intro i m hm
    -- shrinking is growing of what is missing
    have mono : ∀ a b m m', tr = a ++ b → Exec (body c) s1 a m → Exec (body c) m b m' → m' = s2 →
        (m'.sh.items i).length ≤ (m.sh.items i).length := by
      intro a b m m' e ha hb hm'
      have : ∀ {b : List (Lab K V)} {m m' : Cfg K V}, Exec (body c) m b m' → ∀ {a d}, tr = a ++ b ++ d →
          Exec (body c) s1 a m → Exec (body c) m' d s2 → (m'.sh.items i).length ≤ (m.sh.items i).length := by
        intro b m m' hb
        induction hb with
        | nil => intros; exact Nat.le_refl _
        | @snoc tr' q q' l hb hs ih =>
          intro a d e ha hd'
          have hq : Exec (body c) q (l :: d) s2 := Exec.trans (.snoc .nil hs) hd'
          refine Nat.le_trans ((step q l q' ?_ ?_ hs).1 i) (ih (a := a) (d := l :: d) (by rw [e]; simp) ha hq)
          · exact ⟨a ++ tr', l :: d, by rw [e]; simp, ha.trans hb, hq⟩
          · exact ⟨a ++ (tr' ++ [l]), d, e, ha.trans (.snoc hb hs), hd'⟩
      exact this hb (d := []) (by rw [e]; simp) ha (hm' ▸ .nil)
    obtain ⟨a, b, e, h1, h2⟩ := hm
    refine ⟨mono a b m s2 e h1 h2 rfl, ?_⟩
    have : ∀ {b : List (Lab K V)} {m' : Cfg K V}, Exec (body c) s1 b m' → ∀ {d}, tr = b ++ d →
        Exec (body c) m' d s2 → (m'.sh.items i).length ≤ (s1.sh.items i).length := by
      intro b m' hb
      induction hb with
      | nil => intros; exact Nat.le_refl _
      | @snoc tr' q q' l hb hs ih =>
        intro d e hd'
        have hq : Exec (body c) q (l :: d) s2 := Exec.trans (.snoc .nil hs) hd'
        refine Nat.le_trans ((step q l q' ?_ ?_ hs).1 i) (ih (d := l :: d) (by rw [e]; simp) hq)
        · exact ⟨tr', l :: d, by rw [e]; simp, hb, hq⟩
        · exact ⟨tr' ++ [l], d, e, .snoc hb hs, hd'⟩
    exact this h1 e h2
  have each : ∀ i ∈ List.range c.n, (s2.sh.items i).length ≤ ((xs[i]?).getD []).length ∧
      ((xs[i]?).getD []).length ≤ (s1.sh.items i).length := by
    intro i hi
    rw [List.mem_range, ← hx1] at hi
    obtain ⟨x, hx⟩ := getElem?_some_of_lt hi
    obtain ⟨m, hm, e⟩ := hx3 i x hx
    rw [hx]
    have := top i m hm
    rw [e] at this
    exact this
  have hsum : (xs.map List.length).sum = ((List.range c.n).map fun i => ((xs[i]?).getD []).length).sum := by
    rw [sum_map_length xs [], hx1]
  obtain ⟨m, hm, e⟩ := Exec.between' h.inside (f := fun m => total c.n m.sh.items)
    (n := (xs.map List.length).sum) (fun m l m' h1 h2 hs => (step m l m' h1 h2 hs).2.2)
    (by rw [hsum]; exact sum_le fun i hi => (each i hi).2) (by rw [hsum]; exact sum_le fun i hi => (each i hi).1)
  refine ⟨_, m, hx2, hm, ?_⟩
  rw [← e]
  exact size_total (h.placed hm)

/-- With one shard `Len` is a snapshot. -/
theorem len_one (h : GoodCall c t .len r tr0 tr s0 s1 s2) (hc : c.n = 1) :
    ∃ n m, r = .nat n ∧ During (body c) s1 tr s2 m ∧ (absMap c m.sh.items).Size n := by
  obtain ⟨xs, ⟨hx1, hx2⟩, hx3⟩ := h.scan (scan_lenLoop c.n c.n [] (by simp))
  rw [hc] at hx1
  match xs, hx1 with
  | [x], _ =>
    obtain ⟨m, hm, e⟩ := hx3 0 x rfl
    refine ⟨_, m, hx2, hm, ?_⟩
    have := size_total (h.placed hm)
    unfold total at this
    rw [hc] at this
    simpa [e] using this

/-- In general `Len` is the sum of the sizes of the shards, each at some moment of the call. -/
theorem len_shards (h : GoodCall c t .len r tr0 tr s0 s1 s2) :
    ∃ ns : List Nat, ns.length = c.n ∧ r = .nat ns.sum ∧ ∀ (i : Nat) (n : Nat), ns[i]? = some n →
      ∃ m, During (body c) s1 tr s2 m ∧ PMap.Size (fun k => if shardOf c k = i then absMap c m.sh.items k else none) n := by
  obtain ⟨xs, ⟨hx1, hx2⟩, hx3⟩ := h.scan (scan_lenLoop c.n c.n [] (by simp))
  refine ⟨xs.map List.length, by simp [hx1], hx2, fun i n hn => ?_⟩
  rw [List.getElem?_map] at hn
  cases hx : xs[i]? with
  | none => rw [hx] at hn; cases hn
  | some x =>
    rw [hx] at hn
    simp only [Option.map_some, Option.some.injEq] at hn
    subst hn
    obtain ⟨m, hm, e⟩ := hx3 i x hx
    have hp := h.placed hm
    refine ⟨m, hm, m.sh.items i, ⟨(lists (hp.wf i)).nodup, fun k v => ?_⟩, by rw [e]⟩
    constructor
    · intro hk
      rw [if_pos (hp.place i k v hk)]
      unfold absMap
      rw [hp.place i k v hk, get?_eq_some (hp.wf i)]
      exact hk
    · intro hk
      by_cases e : shardOf c k = i
      · rw [if_pos e] at hk
        unfold absMap at hk
        rw [e, get?_eq_some (hp.wf i)] at hk
        exact hk
      · rw [if_neg e] at hk; cases hk

theorem empty_of_shards {items : Nat → Tab K V} (h : ∀ i, i < c.n → items i = []) : absMap c items = PMap.empty := by
  funext k
  unfold absMap
  rw [h _ (shardOf_lt c k)]
  rfl

/-- `Empty` says no: it was not empty at some moment of the call. -/
theorem empty_false (h : GoodCall c t .empty r tr0 tr s0 s1 s2) :
    r = .bool true ∨ r = .bool false ∧ ∃ m, During (body c) s1 tr s2 m ∧ absMap c m.sh.items ≠ PMap.empty := by
  obtain ⟨xs, hx1, hx3⟩ := h.scan (scan_emptyLoop c.n c.n [] (by simp) (fun x hx => by cases hx))
  rcases hx1 with ⟨hr, -, -⟩ | ⟨hr, x, hx, hne⟩
  · exact Or.inl hr
  · right
    obtain ⟨i, hi⟩ := List.getElem?_of_mem hx
    obtain ⟨m, hm, e⟩ := hx3 i x hi
    refine ⟨hr, m, hm, fun he => ?_⟩
    have hp := h.placed hm
    obtain ⟨⟨k, v⟩, hk⟩ := List.exists_mem_of_ne_nil _ hne
    rw [← e] at hk
    have : absMap c m.sh.items k = some v := by
      unfold absMap
      rw [hp.place i k v hk, get?_eq_some (hp.wf i)]
      exact hk
    rw [he] at this
    cases this

/-- `Empty` says yes while nobody deletes: it was empty when the call started. -/
theorem empty_growing (h : GoodCall c t .empty (.bool true) tr0 tr s0 s1 s2)
    (hd : ∀ m, During (body c) s1 tr s2 m → NoDelete m) : absMap c s1.sh.items = PMap.empty := by
  obtain ⟨xs, hx1, hx3⟩ := h.scan (scan_emptyLoop c.n c.n [] (by simp) (fun x hx => by cases hx))
  rcases hx1 with ⟨-, hn, hx⟩ | ⟨hr, -⟩
  · apply empty_of_shards
    intro i hi
    rw [← hn] at hi
    obtain ⟨x, hxi⟩ := getElem?_some_of_lt hi
    obtain ⟨m, hm, e⟩ := hx3 i x hxi
    have hx0 := hx x (List.mem_of_getElem? hxi)
    have := (During.grows (f := fun m => (m.sh.items i).length) (fun m l m' h1 h2 hs => by
      obtain ⟨tr', he, hP⟩ := h.reach h1
      exact (step_grows he hP hs (hd m h1)).1 i) m hm).1
    rw [e, hx0] at this
    exact List.length_eq_zero_iff.1 (Nat.le_zero.1 this)
  · cases hr

/-- With one shard `Empty` says yes only if it was empty at a moment of the call. -/
theorem empty_one (h : GoodCall c t .empty (.bool true) tr0 tr s0 s1 s2) (hc : c.n = 1) :
    ∃ m, During (body c) s1 tr s2 m ∧ absMap c m.sh.items = PMap.empty := by
  obtain ⟨xs, hx1, hx3⟩ := h.scan (scan_emptyLoop c.n c.n [] (by simp) (fun x hx => by cases hx))
  rcases hx1 with ⟨-, hn, hx⟩ | ⟨hr, -⟩
  · rw [hc] at hn
    match xs, hn with
    | [x], _ =>
      obtain ⟨m, hm, e⟩ := hx3 0 x rfl
      refine ⟨m, hm, empty_of_shards fun i hi => ?_⟩
      have : i = 0 := by omega
      subst this
      rw [e]
      exact hx x (by simp)
  · cases hr

/-- In general: each shard was empty at a moment of the call. -/
theorem empty_shards (h : GoodCall c t .empty (.bool true) tr0 tr s0 s1 s2) (k : K) :
    ∃ m, During (body c) s1 tr s2 m ∧ ∀ k', shardOf c k' = shardOf c k → absMap c m.sh.items k' = none := by
  obtain ⟨xs, hx1, hx3⟩ := h.scan (scan_emptyLoop c.n c.n [] (by simp) (fun x hx => by cases hx))
  rcases hx1 with ⟨-, hn, hx⟩ | ⟨hr, -⟩
  · have hi := shardOf_lt c k
    rw [← hn] at hi
    obtain ⟨x, hxi⟩ := getElem?_some_of_lt hi
    obtain ⟨m, hm, e⟩ := hx3 _ x hxi
    refine ⟨m, hm, fun k' hk' => ?_⟩
    unfold absMap
    rw [hk', e, hx x (List.mem_of_getElem? hxi)]
    rfl
  · cases hr

/-! ## `Entries` -/

/-- `Entries` lists each key at most once, only entries that were there at some moment of the call, and all
entries that were there all the time. -/
theorem entries_moments (h : GoodCall c t .entries r tr0 tr s0 s1 s2) :
    ∃ l, r = .entries l ∧ (l.map Prod.fst).Nodup ∧
      (∀ k v, (k, v) ∈ l → ∃ m, During (body c) s1 tr s2 m ∧ absMap c m.sh.items k = some v) ∧
      ∀ k v, (∀ m, During (body c) s1 tr s2 m → absMap c m.sh.items k = some v) → (k, v) ∈ l := by
  obtain ⟨xs, ⟨hn, ws, hw, hr⟩, hx3⟩ := h.scan (scan_collectLoop c.n
    (fun acc es => es.foldl (fun acc e => acc ++ [(e.1, e.2)]) acc) [] Res.entries c.n [] [] (by simp)
    ⟨rfl, fun i x v hx => by cases hx⟩)
  rw [foldl_flatMap_snoc (fun e : K × V => (e.1, e.2)), List.nil_append] at hr
  have hid : (ws.flatten.map fun e : K × V => (e.1, e.2)) = ws.flatten := by simp
  rw [hid] at hr
  have at_ : ∀ (i : Nat) (w : Tab K V), ws[i]? = some w → ∃ m, During (body c) s1 tr s2 m ∧ w.Perm (m.sh.items i) := by
    intro i w hi
    have hlt := (List.getElem?_eq_some_iff.1 hi).1
    rw [hw.1] at hlt
    obtain ⟨x, hx⟩ := getElem?_some_of_lt hlt
    obtain ⟨m, hm, e⟩ := hx3 i x hx
    exact ⟨m, hm, by rw [e]; exact hw.2 i x w hx hi⟩
  refine ⟨ws.flatten, hr, ?_, ?_, ?_⟩
  · rw [List.map_flatten]
    unfold List.Nodup
    rw [List.pairwise_flatten]
    constructor
    · intro l hl
      obtain ⟨w, hw', rfl⟩ := List.mem_map.1 hl
      obtain ⟨i, hi⟩ := List.getElem?_of_mem hw'
      obtain ⟨m, hm, hp⟩ := at_ i w hi
      exact (Lists.perm_of (lists ((h.placed hm).wf i)) hp).nodup
    · rw [List.pairwise_map, List.pairwise_iff_getElem]
      intro i j hi hj hij a ha b hb
      obtain ⟨⟨ka, va⟩, ha', rfl⟩ := List.mem_map.1 ha
      obtain ⟨⟨kb, vb⟩, hb', rfl⟩ := List.mem_map.1 hb
      obtain ⟨m, hm, hp⟩ := at_ i _ (List.getElem?_eq_getElem hi)
      obtain ⟨m', hm', hp'⟩ := at_ j _ (List.getElem?_eq_getElem hj)
      have h1 := (h.placed hm).place i ka va (hp.mem_iff.1 ha')
      have h2 := (h.placed hm').place j kb vb (hp'.mem_iff.1 hb')
      simp only
      rintro rfl
      omega
  · intro k v hkv
    obtain ⟨w, hw', hk⟩ := List.mem_flatten.1 hkv
    obtain ⟨i, hi⟩ := List.getElem?_of_mem hw'
    obtain ⟨m, hm, hp⟩ := at_ i w hi
    refine ⟨m, hm, ?_⟩
    have hk' := hp.mem_iff.1 hk
    unfold absMap
    rw [(h.placed hm).place i k v hk', get?_eq_some ((h.placed hm).wf i)]
    exact hk'
  · intro k v hall
    have hlt := shardOf_lt c k
    rw [← hn, ← hw.1] at hlt
    obtain ⟨w, hi⟩ := getElem?_some_of_lt hlt
    obtain ⟨m, hm, hp⟩ := at_ _ w hi
    have := hall m hm
    unfold absMap at this
    rw [get?_eq_some ((h.placed hm).wf _)] at this
    exact List.mem_flatten.2 ⟨w, List.mem_of_getElem? hi, hp.mem_iff.2 this⟩

end Verif.Sharded
