import Verif.Sharded.Props
import Verif.Sharded.Weak

/-!
# C85: what the methods that go through the shards see while others change the map
-/

namespace Verif.Sharded.Props

open Verif.Conc Verif.GoMap

variable {K V : Type} [DecidableEq K] [Inhabited V]

/-- The list holds each key at most once; and for each shard there is a moment of the call at which the entries
of the map in that shard were just those in the list. -/
def Snapshots (c : Conf K) (s1 : Cfg K V) (tr : List (Lab K V)) (s2 : Cfg K V) (l : List (K × V)) : Prop :=
  (l.map Prod.fst).Nodup ∧ ∀ i, i < c.n → ∃ m, During (body c) s1 tr s2 m ∧
    ∀ k v, shardOf c k = i → ((k, v) ∈ l ↔ absMap c m.sh.items k = some v)

/-- `Entries` lists one snapshot per shard. -/
theorem C85_entries (c : Conf K) (t : Tid) (r : Res K V) (tr0 tr : List (Lab K V)) (s0 s1 s2 : Cfg K V)
    (h : GoodCall c t .entries r tr0 tr s0 s1 s2) : ∃ l, r = .entries l ∧ Snapshots c s1 tr s2 l := by
  obtain ⟨xs, ⟨hn, ws, hw, hr⟩, hx⟩ := h.scan (scan_collectLoop c.n
    (fun acc es => es.foldl (fun acc e => acc ++ [(e.1, e.2)]) acc) [] Res.entries c.n [] [] (by simp)
    ⟨rfl, fun i x v hx => by cases hx⟩)
  rw [foldl_flatMap_snoc (fun e : K × V => (e.1, e.2)), List.nil_append] at hr
  have hid : (ws.flatten.map fun e : K × V => (e.1, e.2)) = ws.flatten := by simp
  rw [hid] at hr
  obtain ⟨h1, -, h3⟩ := moments_of_through h hw hx
  exact ⟨ws.flatten, hr, h1, h3 hn⟩

/-- `Keys` lists the keys of one snapshot per shard. -/
theorem C85_keys (c : Conf K) (t : Tid) (r : Res K V) (tr0 tr : List (Lab K V)) (s0 s1 s2 : Cfg K V)
    (h : GoodCall c t .keys r tr0 tr s0 s1 s2) : ∃ l, r = .keys (l.map Prod.fst) ∧ Snapshots c s1 tr s2 l := by
  obtain ⟨xs, ⟨hn, ws, hw, hr⟩, hx⟩ := h.scan (scan_collectLoop c.n
    (fun acc es => es.foldl (fun acc e => acc ++ [e.1]) acc) [] Res.keys c.n [] [] (by simp)
    ⟨rfl, fun i x v hx => by cases hx⟩)
  rw [foldl_flatMap_snoc (fun e : K × V => e.1), List.nil_append] at hr
  obtain ⟨h1, -, h3⟩ := moments_of_through h hw hx
  exact ⟨ws.flatten, hr, h1, h3 hn⟩

/-- `Values` lists the values of one snapshot per shard. -/
theorem C85_values (c : Conf K) (t : Tid) (r : Res K V) (tr0 tr : List (Lab K V)) (s0 s1 s2 : Cfg K V)
    (h : GoodCall c t .values r tr0 tr s0 s1 s2) : ∃ l, r = .values (l.map Prod.snd) ∧ Snapshots c s1 tr s2 l := by
  obtain ⟨xs, ⟨hn, ws, hw, hr⟩, hx⟩ := h.scan (scan_collectLoop c.n
    (fun acc es => es.foldl (fun acc e => acc ++ [e.2]) acc) [] Res.values c.n [] [] (by simp)
    ⟨rfl, fun i x v hx => by cases hx⟩)
  rw [foldl_flatMap_snoc (fun e : K × V => e.2), List.nil_append] at hr
  obtain ⟨h1, -, h3⟩ := moments_of_through h hw hx
  exact ⟨ws.flatten, hr, h1, h3 hn⟩

/-- `ToMap` makes a map that agrees on each shard with the map at some moment of the call. -/
theorem C85_toMap (c : Conf K) (t : Tid) (r : Res K V) (tr0 tr : List (Lab K V)) (s0 s1 s2 : Cfg K V)
    (h : GoodCall c t .toMap r tr0 tr s0 s1 s2) : ∃ m : Tab K V, r = .tab m ∧ m.WF ∧
      ∀ i, i < c.n → ∃ s, During (body c) s1 tr s2 s ∧ ∀ k, shardOf c k = i → m.get? k = absMap c s.sh.items k := by
  obtain ⟨xs, ⟨hn, ws, hw, hr⟩, hx⟩ := h.scan (scan_collectLoop c.n
    (fun (acc : Tab K V) es => es.foldl (fun acc e => acc.put e.1 e.2) acc) [] Res.tab c.n [] [] (by simp)
    ⟨rfl, fun i x v hx => by cases hx⟩)
  obtain ⟨h1, -, h3⟩ := moments_of_through h hw hx
  rw [← List.foldl_flatten] at hr
  obtain ⟨g1, g2⟩ := foldl_put _ h1 [] List.Pairwise.nil (fun _ _ _ ha => by simp at ha)
  refine ⟨_, hr, g1, fun i hi => ?_⟩
  obtain ⟨m, hm, hk⟩ := h3 hn i hi
  refine ⟨m, hm, fun k e => opt_ext fun v => ?_⟩
  rw [get?_eq_some g1, g2, ← hk k v e]
  simp

/-- `Iterate` calls `fn` on each key at most once, with entries that were there at a moment of the call; if `fn`
never panics, on the entries of one snapshot per shard. -/
theorem C85_iterate (c : Conf K) (t : Tid) (r : Res K V) (tr0 tr : List (Lab K V)) (s0 s1 s2 : Cfg K V)
    (h : GoodCall c t .iterate r tr0 tr s0 s1 s2) : ∃ l b, r = .visited l b ∧ (l.map Prod.fst).Nodup ∧
      (∀ k v, (k, v) ∈ l → ∃ m, During (body c) s1 tr s2 m ∧ absMap c m.sh.items k = some v) ∧
      (b = true → Snapshots c s1 tr s2 l) := by
  obtain ⟨xs, ⟨ws, l, b, hw, hr, hl, hb⟩, hx⟩ := h.scan (scan_iterateLoop c.n c.n [] [] (by simp)
    ⟨rfl, fun i x v hx => by cases hx⟩)
  obtain ⟨h1, h2, h3⟩ := moments_of_through h hw hx
  have hs := hl.sublist
  refine ⟨l, b, hr, h1.sublist (hs.map _), fun k v hk => h2 k v (hs.subset hk), fun e => ?_⟩
  obtain ⟨rfl, hn⟩ := hb e
  exact ⟨h1, h3 hn⟩

/-- Snapshots list all keys that were there throughout, whether or not their values changed. -/
theorem C85_throughout {c : Conf K} {s1 s2 : Cfg K V} {tr : List (Lab K V)} {l : List (K × V)}
    (h : Snapshots c s1 tr s2 l) (k : K) (hk : ∀ m, During (body c) s1 tr s2 m → absMap c m.sh.items k ≠ none) :
    k ∈ l.map Prod.fst := by
  obtain ⟨m, hm, e⟩ := h.2 _ (shardOf_lt c k)
  cases hv : absMap c m.sh.items k with
  | none => exact absurd hv (hk m hm)
  | some v => exact List.mem_map.2 ⟨(k, v), (e k v rfl).2 hv, rfl⟩

/-- `Keys` sees key 1, which is there throughout, and key 3, which is set meanwhile; not key 0. -/
example : ∃ (tr0 tr : List (Lab Nat Nat)) (s0 s1 s2 : Cfg Nat Nat),
    GoodCall two 1 .keys (.keys [1, 3]) tr0 tr s0 s1 s2 := by
  obtain ⟨tr0, tr, s0, s1, s2, hc, -⟩ := bad_call
    (List.replicate 4 (.act 1) ++ whole 0 (.set 0 5) 4 ++ whole 0 (.set 3 6) 4 ++ List.replicate 4 (.act 1))
    .keys (.keys [1, 3]) (Or.inr trivial) (by rfl)
  exact ⟨tr0, tr, s0, s1, s2, hc⟩

/-- The same for `ToMap`. -/
example : ∃ (tr0 tr : List (Lab Nat Nat)) (s0 s1 s2 : Cfg Nat Nat),
    GoodCall two 1 .toMap (.tab [(1, 10), (3, 6)]) tr0 tr s0 s1 s2 := by
  obtain ⟨tr0, tr, s0, s1, s2, hc, -⟩ := bad_call
    (List.replicate 4 (.act 1) ++ whole 0 (.set 0 5) 4 ++ whole 0 (.set 3 6) 4 ++ List.replicate 4 (.act 1))
    .toMap (.tab [(1, 10), (3, 6)]) (Or.inr trivial) (by rfl)
  exact ⟨tr0, tr, s0, s1, s2, hc⟩

/-- And for `Iterate`, where `fn` is called twice. -/
example : ∃ (tr0 tr : List (Lab Nat Nat)) (s0 s1 s2 : Cfg Nat Nat),
    GoodCall two 1 .iterate (.visited [(1, 10), (3, 6)] true) tr0 tr s0 s1 s2 := by
  obtain ⟨tr0, tr, s0, s1, s2, hc, -⟩ := bad_call
    (List.replicate 4 (.act 1) ++ whole 0 (.set 0 5) 4 ++ whole 0 (.set 3 6) 4 ++ List.replicate 6 (.act 1))
    .iterate (.visited [(1, 10), (3, 6)] true) (Or.inr trivial) (by rfl)
  exact ⟨tr0, tr, s0, s1, s2, hc⟩

end Verif.Sharded.Props
