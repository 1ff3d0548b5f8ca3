import Verif.GoMap.Props
import Verif.Stream.Fails

/-!
# C95: `Map.Stream`
-/

namespace Verif.GoMap

open Verif.Stream

section
variable {K V E : Type} [BEq K]

/-- `Map.Stream` (ds/xmap/map.go:46-48): a stream over a copy of the entries. -/
def MapVar.stream (E : Type) (o : Order K V) (m : MapVar K V) : Stream (sliceSource E (entries o m)) :=
  ofSlice E (entries o m)

theorem entries_perm (o : Order K V) (m : MapVar K V) : (entries o m).Perm (m.getD []) := by
  rw [entries_eq]; exact o.perm _

theorem stream_built (o : Order K V) (m : MapVar K V) (cs : List (Call (K × V) E)) (hl : ∀ c ∈ cs, c.legal)
    (hc : m.len + skips cs < 9223372036854775808) :
    ∃ s', (m.stream E o).chain cs = .ok s' ∧ Lists s' (listChain cs (entries o m)) := by
  have hlen : (entries o m).length = m.len := (entries_perm o m).length_eq
  obtain ⟨s', h1, h2, -⟩ := pipeline_partial
    (.new (slice_behaves E (entries o m) 0 (skips cs) (Nat.zero_le _) (by omega))) cs hl (Nat.le_refl _)
  exact ⟨s', h1, h2.yields.lists⟩

/-- **C95.** `m.Stream()`, for a nil map too, followed by any chain of operations lists what the list operations
make of the entries of the map, each once, in the order of some `range` over it. The arguments of `Skip` are
limited as in C42. -/
theorem C95_stream (o : Order K V) (m : MapVar K V) (cs : List (Call (K × V) E)) (hl : ∀ c ∈ cs, c.legal)
    (hc : m.len + skips cs < 9223372036854775808) :
    ∃ es : List (K × V), es.Perm (m.getD []) ∧ ∃ s' s'' l, (m.stream E o).chain cs = .ok s' ∧
      s'.slice = some (.ok ⟨listChain cs es, s'', l⟩) := by
  obtain ⟨s', h1, h2⟩ := stream_built o m cs hl hc
  obtain ⟨s'', l, h3⟩ := slice_lists h2
  exact ⟨entries o m, entries_perm o m, s', s'', l, h1, h3⟩

omit [BEq K] in
theorem listChain_perm (cs : List (Call (K × V) E)) (hs : ∀ c ∈ cs, c.simple) :
    ∀ {a b : List (K × V)}, a.Perm b → (listChain cs a).Perm (listChain cs b) := by
  induction cs with
  | nil => exact fun h => h
  | cons c cs ih =>
    intro a b h
    refine ih (fun c hc => hs c (by simp [hc])) ?_
    cases c with
    | map f => exact h.map f
    | filter p => exact h.filter p
    | peek c => exact h
    | skip n => exact (hs (.skip n) (by simp)).elim
    | limit n => exact (hs (.limit n) (by simp)).elim

omit [BEq K] in
theorem simple_legal (cs : List (Call (K × V) E)) (hs : ∀ c ∈ cs, c.simple) :
    (∀ c ∈ cs, c.legal) ∧ skips cs = 0 := by
  induction cs with
  | nil => simp [skips]
  | cons c cs ih =>
    have ⟨h1, h2⟩ := ih (fun c hc => hs c (by simp [hc]))
    have hc := hs c (by simp)
    refine ⟨fun c' h => ?_, ?_⟩
    · rcases List.mem_cons.1 h with rfl | h
      · cases c' <;> simp_all [Call.simple, Call.legal]
      · exact h1 c' h
    · have hk : skips (c :: cs) = c.cost + skips cs := by simp [skips]
      rw [hk, h2]
      cases c <;> simp_all [Call.simple, Call.cost]

/-- **C95**, whatever the order of iteration: through any chain of `Map`, `Filter` and `Peek`, `Count`, `All`,
`Any`, `None`, and `Reduce` by an accumulator that does not care for the order, return what they return on the
entries taken in any order at all. -/
theorem C95_order_free (o : Order K V) (m : MapVar K V) (cs : List (Call (K × V) E)) (hs : ∀ c ∈ cs, c.simple)
    (hc : m.len < 9223372036854775808) (es : List (K × V)) (hes : es.Perm (m.getD [])) :
    ∃ s', (m.stream E o).chain cs = .ok s' ∧
      (∃ s'' l, s'.count = some (.ok ⟨((listChain cs es).length : Int), s'', l⟩)) ∧
      (∀ p, ∃ s'' l, s'.all p = some (.ok ⟨(listChain cs es).all p, s'', l⟩)) ∧
      (∀ p, ∃ s'' l, s'.any p = some (.ok ⟨(listChain cs es).any p, s'', l⟩)) ∧
      (∀ p, ∃ s'' l, s'.noneOf p = some (.ok ⟨!(listChain cs es).any p, s'', l⟩)) ∧
      ∀ (A : Type) (acc : A → K × V → A), (∀ a x y, acc (acc a x) y = acc (acc a y) x) → ∀ r,
        ∃ s'' l, s'.reduce acc r = some (.ok ⟨(listChain cs es).foldl acc r, s'', l⟩) := by
  obtain ⟨h0, hk⟩ := simple_legal cs hs
  obtain ⟨s', h1, h2⟩ := stream_built o m cs h0 (by omega)
  have hp : (listChain cs (entries o m)).Perm (listChain cs es) :=
    listChain_perm cs hs ((entries_perm o m).trans hes.symm)
  have hlen : (listChain cs (entries o m)).length ≤ m.len := by
    rw [← show (entries o m).length = m.len from (entries_perm o m).length_eq]
    generalize entries o m = xs
    clear h1 h2 hp s' h0 hk
    induction cs generalizing xs with
    | nil => exact Nat.le_refl _
    | cons c cs ih =>
      refine Nat.le_trans (ih (fun c hc => hs c (by simp [hc])) (c.onList xs)) ?_
      cases c <;> simp [Call.onList, List.length_filter_le, Nat.min_le_right]
  refine ⟨s', h1, ?_, fun p => ?_, fun p => ?_, fun p => ?_, fun A acc hcomm r => ?_⟩
  · rw [← hp.length_eq]
    exact count_lists h2 (by omega)
  · obtain ⟨s'', l, h, -⟩ := all_lists p h2
    exact ⟨s'', l, by rw [h, hp.all_eq]⟩
  · obtain ⟨s'', l, h, -⟩ := any_lists p h2
    exact ⟨s'', l, by rw [h, hp.any_eq]⟩
  · obtain ⟨s'', l, h, -⟩ := noneOf_lists p h2
    exact ⟨s'', l, by rw [h, hp.all_eq, ← List.not_any_eq_all_not]⟩
  · obtain ⟨s'', l, h⟩ := reduce_foldl h2 acc r
    exact ⟨s'', l, by rw [h, hp.foldl_eq' (fun x _ y _ a => hcomm a x y)]⟩
end

/-- Three entries: `Filter(value > 1).Count()` is 2 in every order. -/
example (o : Order Nat Nat) : ∃ s' s'' l,
    (MapVar.stream Unit o (some [(1, 1), (2, 2), (3, 3)])).chain [.filter (fun e => e.2 > 1)] = .ok s' ∧
    s'.count = some (.ok ⟨2, s'', l⟩) := by
  obtain ⟨s', h1, ⟨s'', l, h2⟩, -⟩ := C95_order_free (E := Unit) o (some [(1, 1), (2, 2), (3, 3)])
    [.filter (fun e => e.2 > 1)] (by simp [Call.simple]) (by decide) _ (List.Perm.refl _)
  exact ⟨s', s'', l, h1, h2⟩

/-- With `Limit` the order shows: the entry returned by `Limit(1).Slice()` depends on it. -/
example : ∃ s₁ s₂ t₁ t₂ l₁ l₂,
    (MapVar.stream Unit .id (some [(1, 1), (2, 2)])).chain [.limit 1] = .ok s₁ ∧
    s₁.slice = some (.ok ⟨[(1, 1)], t₁, l₁⟩) ∧
    (MapVar.stream Unit .backwards (some [(1, 1), (2, 2)])).chain [.limit 1] = .ok s₂ ∧
    s₂.slice = some (.ok ⟨[(2, 2)], t₂, l₂⟩) := by
  obtain ⟨s₁, h1, h2⟩ := stream_built (K := Nat) (V := Nat) (E := Unit) .id (some [(1, 1), (2, 2)]) [.limit 1]
    (by simp [Call.legal]) (by decide)
  obtain ⟨s₂, h3, h4⟩ := stream_built (K := Nat) (V := Nat) (E := Unit) .backwards (some [(1, 1), (2, 2)]) [.limit 1]
    (by simp [Call.legal]) (by decide)
  obtain ⟨t₁, l₁, h5⟩ := slice_lists h2
  obtain ⟨t₂, l₂, h6⟩ := slice_lists h4
  exact ⟨s₁, s₂, t₁, t₂, l₁, l₂, h1, h5, h3, h6⟩

end Verif.GoMap
