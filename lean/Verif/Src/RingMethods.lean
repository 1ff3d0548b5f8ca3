import Verif.Src.RingSrc

/-!
# ds/xring/ring.go: the methods that change the ring
-/

namespace Verif.Src.Ring

open Verif.Ring (Ring WF contents)

variable {T : Type} [Inhabited T] (g : Nat → Nat → Nat)

section
omit [Inhabited T]

theorem Rep.write {m : Mem T} {p i : Nat} {b : Val T} {r : Ring T} (h : Rep m p i b r) {j : Nat} (hj : j < r.buf.length)
    (v : T) : Rep (setAt m b j (.elem v)) p i b ⟨r.buf.set j v, r.st, r.len⟩ :=
  ⟨by rw [cell_of_arrs (Slice.setAt_arrs h.apart)]; exact h.cell, h.buf.set hj v, h.apart⟩

theorem Rep.upd {m : Mem T} {p i : Nat} {b : Val T} {r : Ring T} (h : Rep m p i b r) (st len : Nat) :
    Rep (m.put p i (ringVal b st len)) p i b ⟨r.buf, st, len⟩ :=
  ⟨cell_put_same h.cell _, h.buf.put h.apart, h.apart⟩

theorem setAt_length (m : Mem T) (b : Val T) (j : Nat) (w : Val T) : (setAt m b j w).arrs.length = m.arrs.length := by
  unfold setAt; split <;> simp

theorem setAt_maps (m : Mem T) (b : Val T) (j : Nat) (w : Val T) : (setAt m b j w).maps = m.maps := by
  unfold setAt; split <;> rfl

theorem put_put (m : Mem T) (p i : Nat) (v w : Val T) : (m.put p i v).put p i w = m.put p i w := by
  unfold Mem.put
  simp only [List.modify_modify_eq]
  congr 2
  funext l
  simp [Function.comp]

/-- A write to the buffer that `checkGrowth` or `checkShrink` left, and then to the ring. -/
theorem Frame.after {m m1 m2 : Mem T} {p i : Nat} {b b1 : Val T} {r1 : Ring T} (h1 : Rep m1 p i b1 r1)
    (f1 : m.arrs.length ≤ m1.arrs.length) (f2 : m1.maps = m.maps)
    (f3 : ∀ q j, q < m.arrs.length → ¬ (q = p ∧ j = i) → m1.cell q j = m.cell q j)
    (f4 : b1 = b ∨ Apart p b1 ∧ ∀ q j, q < m.arrs.length → ¬ In b1 q j)
    {k : Nat} (hk : k < r1.buf.length) {v w : Val T} (e : m2 = (setAt m1 b1 k v).put p i w) : Frame m m2 p i b b1 := by
  subst e
  refine ⟨by simp [setAt_length]; exact f1, by rw [← f2, ← setAt_maps m1 b1 k v]; rfl, fun q j hq hne hin => ?_,
    f4.imp id (fun h => h.2)⟩
  rw [cell_put_other hne, ← f3 q j hq hne]
  apply Slice.setAt_cell _ h1.buf hk
  rcases f4 with f4 | f4
  · rw [f4]; exact hin
  · exact f4.2 q j hq

end

theorem append_src (n : Nat) {m : Mem T} {p i : Nat} {b : Val T} {r : Ring T} (h : Rep m p i b r) (w : WF r) (s : Small r)
    (v : T) :
    Does m p i b ((fun r' => (r', [])) <$> Verif.Ring.append r v) (calls (ctx g) (n + 3) "Ring.Append" [.ptr p i [], .elem v] m) := by
  obtain ⟨r1, m1, b1, e1, e2, h1, w1, l1, l2, f1, f2, f3, f4⟩ := checkGrowth_src g n h w s
  have hcell := h.cell
  have hcell1 := h1.cell
  have hlen1 := h1.buf.len
  have s' := s
  unfold Small at s'
  rw [calls]
  unfold Verif.Ring.append
  rw [e1]
  by_cases hw : r1.buf.length ≤ r1.st + r1.len
  · obtain ⟨w2, w3⟩ := w1
    have hj : r1.st + r1.len - r1.buf.length < r1.buf.length := by omega
    have hr := h1.write hj v
    have hcell2 := hr.cell
    have ej : (↑r1.st + ↑r1.len - (↑r1.buf.length : Int)).toNat = r1.st + r1.len - r1.buf.length := by omega
    simp only [bind, Except.bind, hw, ↓reduceIte, goSet_nat hj, pure, Except.pure]
    refine ⟨_, b1, ?_, hr.upd r1.st (r1.len + 1), Frame.after h1 f1 f2 f3 f4 hj rfl⟩
    unfold ringVal at *
    go_run [Ring_Append_fn, Ring_checkGrowth_fn, hcell, e2, hcell1, hcell2, hlen1, h1.buf.store, ej, Int.natCast_add]
  · obtain ⟨w2, w3⟩ := w1
    have hj : r1.st + r1.len < r1.buf.length := by omega
    have hr := h1.write hj v
    have hcell2 := hr.cell
    have ej : (↑r1.st + ↑r1.len : Int).toNat = r1.st + r1.len := by omega
    simp only [bind, Except.bind, hw, ↓reduceIte, goSet_nat hj, pure, Except.pure]
    refine ⟨_, b1, ?_, hr.upd r1.st (r1.len + 1), Frame.after h1 f1 f2 f3 f4 hj rfl⟩
    unfold ringVal at *
    go_run [Ring_Append_fn, Ring_checkGrowth_fn, hcell, e2, hcell1, hcell2, hlen1, h1.buf.store, ej, Int.natCast_add]

theorem push_src (n : Nat) {m : Mem T} {p i : Nat} {b : Val T} {r : Ring T} (h : Rep m p i b r) (w : WF r) (s : Small r)
    (v : T) :
    Does m p i b ((fun r' => (r', [])) <$> Verif.Ring.append r v) (calls (ctx g) (n + 4) "Ring.Push" [.ptr p i [], .elem v] m) := by
  have ha := append_src g n h w s v
  obtain ⟨r', e, -⟩ := Verif.Ring.append_eq w v
  rw [e] at ha ⊢
  obtain ⟨m', b', e1, e2, e3⟩ := ha
  refine ⟨m', b', ?_, e2, e3⟩
  have hcell := h.cell
  unfold ringVal at hcell
  rw [calls]
  go_run [Ring_Push_fn, Ring_Append_fn, hcell, e1]

theorem prepend_src (n : Nat) {m : Mem T} {p i : Nat} {b : Val T} {r : Ring T} (h : Rep m p i b r) (w : WF r) (s : Small r)
    (v : T) :
    Does m p i b ((fun r' => (r', [])) <$> Verif.Ring.prepend r v)
      (calls (ctx g) (n + 3) "Ring.Prepend" [.ptr p i [], .elem v] m) := by
  obtain ⟨r1, m1, b1, e1, e2, h1, w1, l1, l2, f1, f2, f3, f4⟩ := checkGrowth_src g n h w s
  have hcell := h.cell
  have hcell1 := h1.cell
  have hlen1 := h1.buf.len
  have s' := s
  unfold Small at s'
  rw [calls]
  unfold Verif.Ring.prepend
  rw [e1]
  obtain ⟨w2, w3⟩ := w1
  by_cases hw : r1.st = 0
  · have hj : r1.buf.length - 1 < r1.buf.length := by omega
    have hr := h1.write hj v
    have hcell2 := hr.cell
    have hcell3 := cell_put_same hcell2 (ringVal b1 (r1.buf.length - 1) r1.len)
    have ej : ((r1.st : Int) - 1 + (↑r1.buf.length : Int)) = ((r1.buf.length - 1 : Nat) : Int) := by omega
    have hw' : (r1.st : Int) - 1 < 0 := by omega
    simp only [bind, Except.bind, hw', ↓reduceIte, ej, goSet_nat hj, pure, Except.pure, Int.toNat_natCast]
    refine ⟨_, b1, ?_, (hr.upd (r1.buf.length - 1) r1.len).upd (r1.buf.length - 1) (r1.len + 1), Frame.after h1 f1 f2 f3 f4 hj (put_put _ _ _ _ _)⟩
    unfold ringVal at *
    go_run [Ring_Prepend_fn, Ring_checkGrowth_fn, hcell, e2, hcell1, hcell2, hcell3, hlen1, h1.buf.store, ej, Int.natCast_add, Int.toNat_natCast]
  · have hj : r1.st - 1 < r1.buf.length := by omega
    have hr := h1.write hj v
    have hcell2 := hr.cell
    have hcell3 := cell_put_same hcell2 (ringVal b1 (r1.st - 1) r1.len)
    have ej : ((r1.st : Int) - 1) = ((r1.st - 1 : Nat) : Int) := by omega
    have hw' : ¬ (((r1.st - 1 : Nat) : Int) < 0) := by omega
    simp only [bind, Except.bind, ej, hw', ↓reduceIte, goSet_nat hj, pure, Except.pure, Int.toNat_natCast]
    refine ⟨_, b1, ?_, (hr.upd (r1.st - 1) r1.len).upd (r1.st - 1) (r1.len + 1), Frame.after h1 f1 f2 f3 f4 hj (put_put _ _ _ _ _)⟩
    unfold ringVal at *
    go_run [Ring_Prepend_fn, Ring_checkGrowth_fn, hcell, e2, hcell1, hcell2, hcell3, hlen1, h1.buf.store, ej, Int.natCast_add, Int.toNat_natCast]

theorem deleteLast_src (n : Nat) {m : Mem T} {p i : Nat} {b : Val T} {r : Ring T} (h : Rep m p i b r) (w : WF r) (s : Small r) :
    Does m p i b ((fun r' => (r', [])) <$> Verif.Ring.deleteLast r)
      (calls (ctx g) (n + 3) "Ring.DeleteLast" [.ptr p i []] m) := by
  obtain ⟨r1, m1, b1, e1, e2, h1, w1, l1, l2, f1, f2, f3, f4⟩ := checkShrink_src g n h w s
  have hcell := h.cell
  have hcell1 := h1.cell
  have hlen1 := h1.buf.len
  have s' := s
  unfold Small at s'
  rw [calls]
  unfold Verif.Ring.deleteLast
  by_cases h0 : r.len = 0
  · rw [if_pos h0]
    simp only [Functor.map, Except.map, Does]
    unfold ringVal at *
    go_run [Ring_DeleteLast_fn, hcell]
  · rw [if_neg h0, e1]
    obtain ⟨w2, w3⟩ := w1
    by_cases hw : r1.buf.length ≤ r1.st + r1.len - 1
    · have hj : r1.st + r1.len - 1 - r1.buf.length < r1.buf.length := by omega
      have hr := h1.write hj default
      have hcell2 := hr.cell
      have ej : (↑r1.st + ↑r1.len - 1 - (↑r1.buf.length : Int)) = ((r1.st + r1.len - 1 - r1.buf.length : Nat) : Int) := by omega
      have hw' : (r1.buf.length : Int) ≤ ↑r1.st + ↑r1.len - 1 := by omega
      have ek : ((r1.len : Int) - 1) = ((r1.len - 1 : Nat) : Int) := by omega
      simp only [bind, Except.bind, ge_iff_le, hw', ↓reduceIte, ej, goSet_nat hj, pure, Except.pure]
      refine ⟨_, b1, ?_, hr.upd r1.st (r1.len - 1), Frame.after h1 f1 f2 f3 f4 hj rfl⟩
      unfold ringVal at *
      go_run [Ring_DeleteLast_fn, Ring_checkShrink_fn, hcell, e2, hcell1, hcell2, hlen1, h1.buf.store, ej, ek, Int.toNat_natCast]
    · have hj : r1.st + r1.len - 1 < r1.buf.length := by omega
      have hr := h1.write hj default
      have hcell2 := hr.cell
      have ej : (↑r1.st + ↑r1.len - 1 : Int) = ((r1.st + r1.len - 1 : Nat) : Int) := by omega
      have hw' : ¬ (r1.buf.length : Int) ≤ ((r1.st + r1.len - 1 : Nat) : Int) := by omega
      have ek : ((r1.len : Int) - 1) = ((r1.len - 1 : Nat) : Int) := by omega
      simp only [bind, Except.bind, ge_iff_le, ej, hw', ↓reduceIte, goSet_nat hj, pure, Except.pure]
      refine ⟨_, b1, ?_, hr.upd r1.st (r1.len - 1), Frame.after h1 f1 f2 f3 f4 hj rfl⟩
      unfold ringVal at *
      go_run [Ring_DeleteLast_fn, Ring_checkShrink_fn, hcell, e2, hcell1, hcell2, hlen1, h1.buf.store, ej, ek, Int.toNat_natCast]

theorem deleteFirst_src (n : Nat) {m : Mem T} {p i : Nat} {b : Val T} {r : Ring T} (h : Rep m p i b r) (w : WF r) (s : Small r) :
    Does m p i b ((fun r' => (r', [])) <$> Verif.Ring.deleteFirst r)
      (calls (ctx g) (n + 3) "Ring.DeleteFirst" [.ptr p i []] m) := by
  obtain ⟨r1, m1, b1, e1, e2, h1, w1, l1, l2, f1, f2, f3, f4⟩ := checkShrink_src g n h w s
  have hcell := h.cell
  have hcell1 := h1.cell
  have s' := s
  unfold Small at s'
  rw [calls]
  unfold Verif.Ring.deleteFirst
  by_cases h0 : r.len = 0
  · rw [if_pos h0]
    simp only [Functor.map, Except.map, Does]
    unfold ringVal at *
    go_run [Ring_DeleteFirst_fn, hcell]
  · rw [if_neg h0, e1]
    obtain ⟨w2, w3⟩ := w1
    have hj : r1.st < r1.buf.length := by omega
    have hr := h1.write hj default
    have hcell2 := hr.cell
    have hcell3 := cell_put_same hcell2 (ringVal b1 (r1.st + 1) r1.len)
    have hcell4 := cell_put_same hcell3 (ringVal b1 (r1.st + 1) (r1.len - 1))
    have hr4 := ((hr.upd (r1.st + 1) r1.len).upd (r1.st + 1) (r1.len - 1))
    have hlen4 := hr4.buf.len
    have ei : ((r1.st : Int) + 1) = ((r1.st + 1 : Nat) : Int) := by omega
    have ek : ((r1.len : Int) - 1) = ((r1.len - 1 : Nat) : Int) := by omega
    simp only [bind, Except.bind, goSet_nat hj, pure, Except.pure, List.length_set]
    by_cases hw : r1.st + 1 = r1.buf.length
    · simp only [hw, ↓reduceIte]
      refine ⟨_, b1, ?_, hr4.upd 0 (r1.len - 1),
        Frame.after h1 f1 f2 f3 f4 hj ((congrArg (fun x => Mem.put x _ _ _) (put_put _ _ _ _ _)).trans (put_put _ _ _ _ _))⟩
      unfold ringVal at *
      go_run [Ring_DeleteFirst_fn, Ring_checkShrink_fn, hcell, e2, hcell1, hcell2, hcell3, hcell4, hlen4, h1.buf.store, ek,
        Int.toNat_natCast, List.length_set, ei]
    · simp only [hw, ↓reduceIte]
      refine ⟨_, b1, ?_, hr4, Frame.after h1 f1 f2 f3 f4 hj (put_put _ _ _ _ _)⟩
      unfold ringVal at *
      go_run [Ring_DeleteFirst_fn, Ring_checkShrink_fn, hcell, e2, hcell1, hcell2, hcell3, hcell4, hlen4, h1.buf.store, ek,
        Int.toNat_natCast, List.length_set, ei]

theorem pop_src (n : Nat) {m : Mem T} {p i : Nat} {b : Val T} {r : Ring T} (h : Rep m p i b r) (w : WF r) (s : Small r) :
    Does m p i b ((fun x => (x.1, [.elem x.2])) <$> Verif.Ring.pop r)
      (calls (ctx g) (n + 4) "Ring.Pop" [.ptr p i []] m) := by
  have hcell := h.cell
  have he := empty_src g (n + 2) m b r.st r.len
  have hf := first_src g (n + 2) h.buf w
  have hd := deleteFirst_src g n h w s
  rw [calls]
  unfold Verif.Ring.pop Verif.Ring.empty
  by_cases h0 : r.len = 0
  · simp only [h0, beq_self_eq_true, ↓reduceIte, Functor.map, Except.map, Does]
    rw [decide_eq_true h0] at he
    unfold ringVal at *
    go_run [Ring_Pop_fn, Ring_Empty_fn, hcell, he]
  · have h0' : (r.len == 0) = false := by simpa using h0
    simp only [h0', Bool.false_eq_true, ↓reduceIte, Functor.map, Except.map]
    obtain ⟨v, t, hv⟩ : ∃ v t, contents r = v :: t := by
      have := Verif.Ring.contents_length w
      cases hc : contents r with
      | nil => rw [hc] at this; simp at this; omega
      | cons v t => exact ⟨v, t, rfl⟩
    obtain ⟨r', e, -⟩ := Verif.Ring.deleteFirst_eq w hv
    rw [Verif.Ring.first_eq w hv] at hf ⊢
    rw [e] at hd ⊢
    simp only [meaning] at hf
    obtain ⟨m', b', d1, d2, d3⟩ := hd
    simp only [h0, decide_false] at he
    refine ⟨m', b', ?_, d2, d3⟩
    unfold ringVal at *
    go_run [Ring_Pop_fn, Ring_Empty_fn, Ring_First_fn, Ring_DeleteFirst_fn, hcell, he, hf, d1]

end Verif.Src.Ring
