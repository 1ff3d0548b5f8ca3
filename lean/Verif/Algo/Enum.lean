import Verif.Algo.Perm
import Mathlib.Data.List.Permutation

/-! # Enumerating all arrangements -/

namespace Verif.Algo

open Verif.Iter Verif.Sort

variable {T : Type} {lt : T → T → Bool}

/-- The client loop of C12: `do { visit } while (NextPermutation(first, last))`. -/
def permLoop {S It : Type} [RandIter S T It] (fuel : Nat) (comp : T → T → Bool) (first last : It) :
    Nat → St S (List (List T))
  | 0 => St.panic "fuel"
  | k + 1 => do
    let cur ← collect last fuel first
    let more ← nextPermutation fuel comp first last
    if more then
      let rest ← permLoop fuel comp first last k
      pure (cur :: rest)
    else pure [cur]

/-- `lt` is a strict linear order: a strict weak order in which equivalent elements are equal. -/
structure StrictLinear (lt : T → T → Bool) : Prop extends StrictWeak lt where
  eq_of_equiv : ∀ x y, lt x y = false → lt y x = false → x = y

theorem lexLt_trans (h : StrictWeak lt) : ∀ (a b c : List T), lexLt lt a b → lexLt lt b c → lexLt lt a c
  | _, [], _, h1, _ => by simp [lexLt] at h1
  | _, _ :: _, [], _, h2 => by simp [lexLt] at h2
  | [], _ :: _, _ :: _, _, _ => by simp [lexLt]
  | x :: a, y :: b, z :: c, h1, h2 => by
    rcases h1 with h1 | ⟨e1, h1⟩
    · rcases h2 with h2 | ⟨e2, h2⟩
      · exact Or.inl (h.trans x y z h1 h2)
      · rw [equiv_iff] at e2
        exact Or.inl (lt_of_lt_of_not h h1 e2.2)
    · rcases h2 with h2 | ⟨e2, h2⟩
      · rw [equiv_iff] at e1
        exact Or.inl (lt_of_not_of_lt h e1.2 h2)
      · exact Or.inr ⟨equiv_trans h e1 e2, lexLt_trans h a b c h1 h2⟩

theorem lexLt_irrefl (h : StrictWeak lt) : ∀ a : List T, ¬ lexLt lt a a
  | [] => by simp [lexLt]
  | x :: a => by
    rintro (h1 | ⟨_, h1⟩)
    · rw [h.irrefl] at h1; cases h1
    · exact lexLt_irrefl h a h1

theorem lexLt_total (h : StrictLinear lt) : ∀ a b : List T, lexLt lt a b ∨ a = b ∨ lexLt lt b a
  | [], [] => Or.inr (Or.inl rfl)
  | [], _ :: _ => Or.inl (by simp [lexLt])
  | _ :: _, [] => Or.inr (Or.inr (by simp [lexLt]))
  | x :: a, y :: b => by
    cases hxy : lt x y with
    | true => exact Or.inl (Or.inl hxy)
    | false =>
      cases hyx : lt y x with
      | true => exact Or.inr (Or.inr (Or.inl hyx))
      | false =>
        have e := h.eq_of_equiv x y hxy hyx
        subst e
        have er := equiv_refl h.toStrictWeak x
        rcases lexLt_total h a b with h1 | rfl | h1
        · exact Or.inl (Or.inr ⟨er, h1⟩)
        · exact Or.inr (Or.inl rfl)
        · exact Or.inr (Or.inr (Or.inr ⟨er, h1⟩))

theorem countP_lt {α : Type} {p q : α → Bool} {l : List α} (hpq : ∀ x ∈ l, p x = true → q x = true) {y : α}
    (hy : y ∈ l) (hq : q y = true) (hp : p y = false) : l.countP p < l.countP q := by
  induction l with
  | nil => simp at hy
  | cons x l ih =>
    rw [List.countP_cons, List.countP_cons]
    have hle : l.countP p ≤ l.countP q := List.countP_mono_left fun z hz => hpq z (by simp [hz])
    rcases List.mem_cons.1 hy with rfl | hy'
    · simp [hq, hp]; omega
    · have := ih (fun z hz => hpq z (by simp [hz])) hy'
      have := hpq x (by simp)
      by_cases hpx : p x = true
      · simp [hpx, this hpx]; omega
      · simp [hpx]; omega

/-- How many arrangements of `B0` come after `B`. -/
def above (lt : T → T → Bool) (B0 B : List T) : Nat := B0.permutations.countP fun l => decide (lexLt lt B l)

variable {S It : Type} [RandIter S T It]

theorem permLoop_spec (h : StrictLinear lt) (v : View S T It) {A C B0 : List T} (fuel : Nat)
    (hf : B0.length < fuel) : ∀ (m k : Nat) (s : S) (B : List T), v.ok s → v.elems s = A ++ B ++ C →
    B.Perm B0 → above lt B0 B ≤ m → m < k →
    ∃ visited B', permLoop fuel lt (v.pt A.length) (v.pt (A.length + B.length)) k s =
        (.ok visited, v.put s (A ++ B' ++ C)) ∧ Ascending lt B' ∧ B'.Perm B0 ∧
      visited.Nodup ∧ ∀ l, l ∈ visited ↔ (l.Perm B0 ∧ (l = B ∨ lexLt lt B l)) := by
  intro m
  have hw := h.toStrictWeak
  induction m with
  | zero =>
    intro k s B hs hd hB hm hk
    obtain ⟨k, rfl⟩ : ∃ k', k = k' + 1 := ⟨k - 1, by omega⟩
    have hL := v.len s hs
    rw [hd] at hL
    simp only [List.length_append] at hL
    have hBl := hB.length_eq
    obtain ⟨ret, B', e, hc⟩ := nextPermutation_list hw v hs hd fuel (by omega)
    have ecol := collect_spec v hs (j := A.length + B.length) (by omega) fuel A.length (by omega) (by omega)
    rw [hd, List.append_assoc, List.drop_left, Nat.add_sub_cancel_left, List.take_left] at ecol
    unfold permLoop
    rw [St.bind_ok ecol, St.bind_ok e]
    rcases hc with ⟨rfl, hnext⟩ | ⟨rfl, hlast, hasc, hperm, -⟩
    · exfalso
      have : 0 < above lt B0 B := by
        unfold above
        rw [List.countP_pos_iff]
        exact ⟨B', List.mem_permutations.2 (hnext.perm.trans hB), by simpa using hnext.greater⟩
      omega
    · rw [if_neg (by simp)]
      refine ⟨[B], B', rfl, hasc, hperm.trans hB, by simp, ?_⟩
      intro l
      rw [List.mem_singleton]
      constructor
      · rintro rfl; exact ⟨hB, Or.inl rfl⟩
      · rintro ⟨hl, h1 | h1⟩
        · exact h1
        · exact absurd h1 (hlast l (hl.trans hB.symm))
  | succ m ih =>
    intro k s B hs hd hB hm hk
    obtain ⟨k, rfl⟩ : ∃ k', k = k' + 1 := ⟨k - 1, by omega⟩
    have hL := v.len s hs
    rw [hd] at hL
    simp only [List.length_append] at hL
    have hBl := hB.length_eq
    obtain ⟨ret, B', e, hc⟩ := nextPermutation_list hw v hs hd fuel (by omega)
    have ecol := collect_spec v hs (j := A.length + B.length) (by omega) fuel A.length (by omega) (by omega)
    rw [hd, List.append_assoc, List.drop_left, Nat.add_sub_cancel_left, List.take_left] at ecol
    unfold permLoop
    rw [St.bind_ok ecol, St.bind_ok e]
    rcases hc with ⟨rfl, hnext⟩ | ⟨rfl, hlast, hasc, hperm, -⟩
    · rw [if_pos rfl]
      have hB' : B'.Perm B0 := hnext.perm.trans hB
      have hB'l : B'.length = B.length := hnext.perm.length_eq
      have hlen : (A ++ B' ++ C).length = v.n := by simp; omega
      have hab : above lt B0 B' < above lt B0 B := by
        unfold above
        refine countP_lt (y := B') ?_ (List.mem_permutations.2 hB') (by simpa using hnext.greater)
          (by simpa using lexLt_irrefl hw B')
        intro l _ hl
        simp only [decide_eq_true_eq] at *
        exact lexLt_trans hw _ _ _ hnext.greater hl
      obtain ⟨visited, B'', e2, hasc, hp2, hnd, hmem⟩ := ih k (v.put s (A ++ B' ++ C)) B' (v.ok_put s _ hs hlen)
        (v.elems_put s _ hs hlen) hB' (by omega) (by omega)
      rw [hB'l] at e2
      rw [St.bind_ok e2]
      refine ⟨B :: visited, B'', ?_, hasc, hp2, ?_, ?_⟩
      · rw [v.put_put s _ _ hs hlen (by have := hp2.length_eq; simp; omega)]; rfl
      · refine List.nodup_cons.2 ⟨?_, hnd⟩
        intro hin
        rcases ((hmem B).1 hin).2 with h1 | h1
        · exact lexLt_irrefl hw B (by have := hnext.greater; rwa [← h1] at this)
        · exact lexLt_irrefl hw B (lexLt_trans hw _ _ _ hnext.greater h1)
      · intro l
        rw [List.mem_cons, hmem]
        constructor
        · rintro (rfl | ⟨hl, rfl | h1⟩)
          · exact ⟨hB, Or.inl rfl⟩
          · exact ⟨hl, Or.inr hnext.greater⟩
          · exact ⟨hl, Or.inr (lexLt_trans hw _ _ _ hnext.greater h1)⟩
        · rintro ⟨hl, rfl | h1⟩
          · exact Or.inl rfl
          · right
            refine ⟨hl, ?_⟩
            have hge := hnext.least l (hl.trans hB.symm) h1
            rcases lexLt_total h B' l with h2 | h2 | h2
            · exact Or.inr h2
            · exact Or.inl h2.symm
            · exact absurd h2 hge
    · rw [if_neg (by simp)]
      refine ⟨[B], B', rfl, hasc, hperm.trans hB, by simp, ?_⟩
      intro l
      rw [List.mem_singleton]
      constructor
      · rintro rfl; exact ⟨hB, Or.inl rfl⟩
      · rintro ⟨hl, h1 | h1⟩
        · exact h1
        · exact absurd h1 (hlast l (hl.trans hB.symm))

end Verif.Algo
