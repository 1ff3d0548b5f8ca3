import Verif.Iter.Model

/-!
# What a well-behaved random-access iterator is

A `View` says: these iterators are the positions `0 … n` of a sequence stored in memory, and writing
through them changes that sequence and nothing else (`put` is a lens on memory). The algorithms are
proved for every view; slices give views, and reversing a view gives a view.
-/

namespace Verif.Iter

structure View (S T It : Type) [RandIter S T It] where
  /-- length of the sequence -/
  n : Nat
  /-- the iterator at a position -/
  pt : Nat → It
  /-- the memories in which the sequence exists -/
  ok : S → Prop
  /-- the sequence stored in a memory -/
  elems : S → List T
  /-- the memory with the sequence replaced -/
  put : S → List T → S
  hn : (n : Int) < 9223372036854775808
  len : ∀ s, ok s → (elems s).length = n
  elems_put : ∀ s l, ok s → l.length = n → elems (put s l) = l
  ok_put : ∀ s l, ok s → l.length = n → ok (put s l)
  put_put : ∀ s l l', ok s → l.length = n → l'.length = n → put (put s l) l' = put s l'
  put_elems : ∀ s, ok s → put s (elems s) = s
  next_pt : ∀ i, i < n → next (pt i) = .ok (pt (i + 1))
  prev_pt : ∀ i, i < n → prev (pt (i + 1)) = .ok (pt i)
  get_pt : ∀ s i x, ok s → (elems s)[i]? = some x → get (pt i) s = (.ok x, s)
  set_pt : ∀ s i v, ok s → i < n → set (pt i) v s = (.ok (), put s ((elems s).set i v))
  equal_pt : ∀ i j, i ≤ n → j ≤ n → equal (pt i) (pt j) = .ok (decide (i = j))
  add_pt : ∀ i j : Nat, i ≤ n → j ≤ n → add (pt i) ((j : Int) - i) = .ok (pt j)
  pos_pt : ∀ i j, i ≤ n → j ≤ n → pos (pt j) - pos (pt i) = (j : Int) - i
  pos_int : ∀ i, i ≤ n → isInt64 (pos (pt i)) ∧ -9223372036854775808 < pos (pt i)

variable {S T It : Type} [RandIter S T It]

theorem View.distance_pt (v : View S T It) {i j : Nat} (hi : i ≤ v.n) (hj : j ≤ v.n) :
    distance (v.pt i) (v.pt j) = .ok ((j : Int) - i) := by
  unfold distance
  rw [v.equal_pt i j hi hj]
  have := v.hn
  show Except.ok (wrap64 (pos (v.pt j) - pos (v.pt i))) = _
  rw [v.pos_pt i j hi hj, wrap64_id]
  unfold isInt64; omega

/-- Walking a sequence backwards is again a sequence. -/
def View.rev (v : View S T It) : View S T (Rev It) where
  n := v.n
  pt i := ⟨v.pt (v.n - i)⟩
  ok := v.ok
  elems s := (v.elems s).reverse
  put s l := v.put s l.reverse
  hn := v.hn
  len s h := by rw [List.length_reverse]; exact v.len s h
  elems_put s l h hl := by rw [v.elems_put s _ h (by simpa using hl), List.reverse_reverse]
  ok_put s l h hl := v.ok_put s _ h (by simpa using hl)
  put_put s l l' h hl hl' := v.put_put s _ _ h (by simpa using hl) (by simpa using hl')
  put_elems s h := by rw [List.reverse_reverse]; exact v.put_elems s h
  next_pt i hi := by
    have := v.prev_pt (v.n - (i + 1)) (by omega)
    rw [show v.n - (i + 1) + 1 = v.n - i by omega] at this
    show (match prev (v.pt (v.n - i)) with | .ok i => Except.ok (Rev.mk i) | .error e => .error e) = _
    rw [this]
  prev_pt i hi := by
    have := v.next_pt (v.n - (i + 1)) (by omega)
    rw [show v.n - (i + 1) + 1 = v.n - i by omega] at this
    show (match next (v.pt (v.n - (i + 1))) with | .ok i => Except.ok (Rev.mk i) | .error e => .error e) = _
    rw [this]
  get_pt s i x h hx := by
    have hl := v.len s h
    have hi : i < v.n := by
      have := (List.getElem?_eq_some_iff.1 hx).1
      simpa [hl] using this
    have hp := v.prev_pt (v.n - (i + 1)) (by omega)
    rw [show v.n - (i + 1) + 1 = v.n - i by omega] at hp
    show (St.lift (prev (v.pt (v.n - i))) >>= fun i => get i) s = _
    rw [St.bind_lift hp]
    apply v.get_pt s _ _ h
    rw [List.getElem?_reverse (by omega)] at hx
    rw [← hx]; congr 1; omega
  set_pt s i x h hi := by
    have hl := v.len s h
    have hp := v.prev_pt (v.n - (i + 1)) (by omega)
    rw [show v.n - (i + 1) + 1 = v.n - i by omega] at hp
    show (St.lift (prev (v.pt (v.n - i))) >>= fun i => set i x) s = _
    rw [St.bind_lift hp, v.set_pt s _ _ h (by omega)]
    congr 2
    apply List.ext_getElem (by simp)
    intro k h1 h2
    simp only [List.getElem_set, List.getElem_reverse, List.length_set, List.length_reverse]
    simp only [List.length_set, List.length_reverse] at h1 h2
    by_cases hk : k = v.n - (i + 1)
    · subst hk; rw [if_pos rfl, if_pos (by omega)]
    · rw [if_neg (fun h => hk h.symm), if_neg (by omega)]
      congr 1; omega
  equal_pt i j hi hj := by
    show equal (v.pt (v.n - i)) (v.pt (v.n - j)) = _
    rw [v.equal_pt _ _ (by omega) (by omega)]
    congr 1
    exact decide_eq_decide.2 (by omega)
  add_pt i j hi hj := by
    have hn := v.hn
    show (match add (v.pt (v.n - i)) (wrap64 (-((j : Int) - i))) with
      | .ok i => Except.ok (Rev.mk i) | .error e => .error e) = _
    rw [wrap64_id (by unfold isInt64; omega)]
    have := v.add_pt (v.n - i) (v.n - j) (by omega) (by omega)
    rw [show (((v.n - j : Nat) : Int) - (v.n - i : Nat)) = -((j : Int) - i) by omega] at this
    rw [this]
  pos_pt i j hi hj := by
    show wrap64 (- pos (v.pt (v.n - j))) - wrap64 (- pos (v.pt (v.n - i))) = _
    have h1 := v.pos_int (v.n - i) (by omega)
    have h2 := v.pos_int (v.n - j) (by omega)
    unfold isInt64 at h1 h2
    rw [wrap64_id (by unfold isInt64; omega), wrap64_id (by unfold isInt64; omega)]
    have := v.pos_pt (v.n - i) (v.n - j) (by omega) (by omega)
    omega
  pos_int i hi := by
    show isInt64 (wrap64 (- pos (v.pt (v.n - i)))) ∧ _ < wrap64 (- pos (v.pt (v.n - i)))
    have h1 := v.pos_int (v.n - i) (by omega)
    unfold isInt64 at *
    rw [wrap64_id (by unfold isInt64; omega)]
    omega

end Verif.Iter
