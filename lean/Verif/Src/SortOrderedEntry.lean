import Verif.Src.SortOrderedPdq
import Verif.Src.SortOrderedStable

/-!
# xsort/sort.go: the entry points that use sort_ordered.go
-/

namespace Verif.Src.Sort.Ordered

variable {E : Type} [Inhabited E] {lt ge : E → E → Bool} (less : E → E → Bool) {m : Mem E} {v : Val E}

theorem sort_src {d d' : List E} (t : Nat) (ht : d.length + 8 ≤ t) (h : Slice m v d) (hk : d.length < 2 ^ 60)
    (hr : Ran lt ge Verif.Sort.sortProg d () d') :
    d'.length = d.length ∧ ∃ m', Ext m m' ∧ calls (ctx lt ge less) t "SortOrdered" [v] m = pure ([], wr m' v d') := by
  obtain ⟨t, rfl⟩ : ∃ t', t = t' + 2 := ⟨t - 2, by omega⟩
  have ho := On.of h
  have hl := bitsLen_le hk
  obtain ⟨g1, m', x, g2⟩ := pdqsort_src less (d.length + 1) t (by omega) ho hk (.inr rfl) (a := 0) (b := d.length)
    (limit := Verif.Sort.bitsLen d.length) (by omega) (by omega) (by omega) (by omega) (by omega) (by omega) rfl hr
  refine ⟨g1, m', x, ?_⟩
  rw [wr_self h] at g2
  rw [calls]
  go_run [SortOrdered_fn, ho.coerce, ho.fetch, ho.len, wrap_uint, Int.toNat_natCast, g2]

theorem stableSort_src {d d' : List E} (t : Nat) (ht : d.length + 8 ≤ t) (h : Slice m v d) (hk : d.length < 2 ^ 60)
    (hr : Ran lt ge Verif.Sort.stableProg d () d') :
    d'.length = d.length ∧ calls (ctx lt ge less) t "StableOrdered" [v] m = pure ([], wr m v d') := by
  obtain ⟨t, rfl⟩ : ∃ t', t = t' + 2 := ⟨t - 2, by omega⟩
  have ho := On.of h
  obtain ⟨g1, g2⟩ := stable_src less (t + 1) ho hk (by omega) rfl hr
  refine ⟨g1, ?_⟩
  rw [wr_self h] at g2
  rw [calls]
  go_run [StableOrdered_fn, ho.coerce, ho.fetch, ho.len, g2]

end Verif.Src.Sort.Ordered
