import Verif.Src.Memory
import Verif.Src.RingText
import Verif.Ring.Lemmas

/-!
# ds/xring/ring.go: the model is the text

What the methods do according to Src/Sem.lean, compared with the model of Ring/Model.lean.
-/

namespace Verif.Src.Ring

open Verif.Ring (Ring WF contents)

variable {T : Type} [Inhabited T]

/-- ds/xring/ring.go, without the generic type parameters: the functions quoted in Src/RingText.lean and the type of lines 3-7. -/
def prog : Prog where
  fns := [("New", New_fn), ("NewLen", NewLen_fn), ("NewLenCap", NewLenCap_fn), ("Of", Of_fn), ("OfSlice", OfSlice_fn),
    ("Copy", Copy_fn), ("Ring.checkGrowth", Ring_checkGrowth_fn), ("Ring.checkShrink", Ring_checkShrink_fn),
    ("Ring.Push", Ring_Push_fn), ("Ring.Pop", Ring_Pop_fn), ("Ring.Append", Ring_Append_fn),
    ("Ring.Prepend", Ring_Prepend_fn), ("Ring.DeleteLast", Ring_DeleteLast_fn), ("Ring.DeleteFirst", Ring_DeleteFirst_fn),
    ("Ring.Len", Ring_Len_fn), ("Ring.Cap", Ring_Cap_fn), ("Ring.Empty", Ring_Empty_fn), ("Ring.ToSlice", Ring_ToSlice_fn),
    ("Ring.AtRef", Ring_AtRef_fn), ("Ring.At", Ring_At_fn), ("Ring.Set", Ring_Set_fn), ("Ring.First", Ring_First_fn),
    ("Ring.Last", Ring_Last_fn)]
  structs := [("Ring", [("buf", .slice (.name "T" [])), ("st", .name "int" []), ("len", .name "int" [])])]
  types := []
  consts := []

/-- The program over elements `T`; `g` is how `append` grows. -/
def ctx (g : Nat → Nat → Nat) : Ctx T where
  prog := prog
  boxed := []
  zeroOf s := if s = "T" then some (.elem default) else none
  pad := .elem default
  grow := g
  cmp _ _ _ := none
  ext _ _ _ := stuck

section
variable (g : Nat → Nat → Nat)
@[go_eval] theorem ctx_prog : (ctx g : Ctx T).prog = prog := rfl
@[go_eval] theorem ctx_boxed : (ctx g : Ctx T).boxed = [] := rfl
@[go_eval] theorem ctx_boxedParams : (ctx g : Ctx T).boxedParams = [] := rfl
@[go_eval] theorem ctx_sliceTy : (ctx g : Ctx T).sliceTy = none := rfl
@[go_eval] theorem ctx_zeroT : (ctx g : Ctx T).zeroOf "T" = some (.elem default) := rfl
@[go_eval] theorem ctx_grow : (ctx g : Ctx T).grow = g := rfl
@[go_eval] theorem prog_consts : prog.consts = [] := rfl
@[go_eval] theorem prog_types : prog.types = [] := rfl
@[go_eval] theorem prog_structs : prog.structs =
  [("Ring", [("buf", .slice (.name "T" [])), ("st", .name "int" []), ("len", .name "int" [])])] := rfl
@[go_eval] theorem look_New : prog.fns.lookup "New" = some New_fn := rfl
@[go_eval] theorem look_NewLen : prog.fns.lookup "NewLen" = some NewLen_fn := rfl
@[go_eval] theorem look_NewLenCap : prog.fns.lookup "NewLenCap" = some NewLenCap_fn := rfl
@[go_eval] theorem look_Of : prog.fns.lookup "Of" = some Of_fn := rfl
@[go_eval] theorem look_OfSlice : prog.fns.lookup "OfSlice" = some OfSlice_fn := rfl
@[go_eval] theorem look_Copy : prog.fns.lookup "Copy" = some Copy_fn := rfl
@[go_eval] theorem look_checkGrowth : prog.fns.lookup "Ring.checkGrowth" = some Ring_checkGrowth_fn := rfl
@[go_eval] theorem look_checkShrink : prog.fns.lookup "Ring.checkShrink" = some Ring_checkShrink_fn := rfl
@[go_eval] theorem look_Push : prog.fns.lookup "Ring.Push" = some Ring_Push_fn := rfl
@[go_eval] theorem look_Pop : prog.fns.lookup "Ring.Pop" = some Ring_Pop_fn := rfl
@[go_eval] theorem look_Append : prog.fns.lookup "Ring.Append" = some Ring_Append_fn := rfl
@[go_eval] theorem look_Prepend : prog.fns.lookup "Ring.Prepend" = some Ring_Prepend_fn := rfl
@[go_eval] theorem look_DeleteLast : prog.fns.lookup "Ring.DeleteLast" = some Ring_DeleteLast_fn := rfl
@[go_eval] theorem look_DeleteFirst : prog.fns.lookup "Ring.DeleteFirst" = some Ring_DeleteFirst_fn := rfl
@[go_eval] theorem look_Len : prog.fns.lookup "Ring.Len" = some Ring_Len_fn := rfl
@[go_eval] theorem look_Cap : prog.fns.lookup "Ring.Cap" = some Ring_Cap_fn := rfl
@[go_eval] theorem look_Empty : prog.fns.lookup "Ring.Empty" = some Ring_Empty_fn := rfl
@[go_eval] theorem look_ToSlice : prog.fns.lookup "Ring.ToSlice" = some Ring_ToSlice_fn := rfl
@[go_eval] theorem look_AtRef : prog.fns.lookup "Ring.AtRef" = some Ring_AtRef_fn := rfl
@[go_eval] theorem look_At : prog.fns.lookup "Ring.At" = some Ring_At_fn := rfl
@[go_eval] theorem look_Set : prog.fns.lookup "Ring.Set" = some Ring_Set_fn := rfl
@[go_eval] theorem look_First : prog.fns.lookup "Ring.First" = some Ring_First_fn := rfl
@[go_eval] theorem look_Last : prog.fns.lookup "Ring.Last" = some Ring_Last_fn := rfl
end

/-- The struct value of a ring with buffer `b`. -/
def ringVal (b : Val T) (st len : Nat) : Val T :=
  .struct "Ring" [("buf", b), ("st", .num .int st), ("len", .num .int len)]

variable (g : Nat → Nat → Nat)

/-! ## Methods with a value as receiver -/

theorem len_src (n : Nat) (m : Mem T) (b : Val T) (st len : Nat) :
    calls (ctx g) (n + 1) "Ring.Len" [ringVal b st len] m = pure ([.num .int len], m) := by
  rw [calls]
  go_run [Ring_Len_fn, ringVal]

theorem cap_src (n : Nat) {m : Mem T} {b : Val T} {l : List T} (st len : Nat) (h : Slice m b l) :
    calls (ctx g) (n + 1) "Ring.Cap" [ringVal b st len] m = pure ([.num .int l.length], m) := by
  rw [calls]
  go_run [Ring_Cap_fn, ringVal, h.len]

theorem empty_src (n : Nat) (m : Mem T) (b : Val T) (st len : Nat) :
    calls (ctx g) (n + 1) "Ring.Empty" [ringVal b st len] m = pure ([.bool (decide (len = 0))], m) := by
  rw [calls]
  by_cases h : len = 0
  · go_run [Ring_Empty_fn, ringVal, h]
  · go_run [Ring_Empty_fn, ringVal, h]

/-- Sizes at which no sum of the code overflows. -/
def Small (r : Ring T) : Prop := r.buf.length < 2 ^ 60

/-- What a call gives according to the model. -/
def meaning {α : Type} (x : Go α) (f : α → List (Val T) × Mem T) : R (List (Val T) × Mem T) :=
  match x with
  | .ok a => pure (f a)
  | .error e => panic e

theorem first_src (n : Nat) {m : Mem T} {b : Val T} {r : Ring T} (h : Slice m b r.buf) (w : WF r) :
    calls (ctx g) (n + 1) "Ring.First" [ringVal b r.st r.len] m = meaning (Verif.Ring.first r) (fun v => ([.elem v], m)) := by
  rw [calls]
  obtain ⟨w1, w2⟩ := w
  unfold Verif.Ring.first meaning
  by_cases h0 : r.len = 0
  · go_run [Ring_First_fn, ringVal, h0]
  · go_run [Ring_First_fn, ringVal, h.index, goGet_at]

theorem last_src (n : Nat) {m : Mem T} {b : Val T} {r : Ring T} (h : Slice m b r.buf) (w : WF r) (s : Small r) :
    calls (ctx g) (n + 1) "Ring.Last" [ringVal b r.st r.len] m = meaning (Verif.Ring.last r) (fun v => ([.elem v], m)) := by
  rw [calls]
  obtain ⟨w1, w2⟩ := w
  unfold Small at s
  unfold Verif.Ring.last meaning
  by_cases h0 : r.len = 0
  · go_run [Ring_Last_fn, ringVal, h0]
  · by_cases hi : r.buf.length ≤ r.st + r.len - 1
    · go_run [Ring_Last_fn, ringVal, h.index, h.len, goGet_at]
    · go_run [Ring_Last_fn, ringVal, h.index, h.len, goGet_at]

theorem atRef_src (n : Nat) {m : Mem T} {b : Val T} {r : Ring T} (h : Slice m b r.buf) (w : WF r) (s : Small r) (i : Int) :
    calls (ctx g) (n + 1) "Ring.AtRef" [ringVal b r.st r.len, .num .int i] m =
      meaning (Verif.Ring.atRef r i) (fun j => ([ptrAt b j.toNat], m)) := by
  rw [calls]
  obtain ⟨w1, w2⟩ := w
  unfold Small at s
  unfold Verif.Ring.atRef meaning
  by_cases h0 : i < 0
  · go_run [Ring_AtRef_fn, ringVal]
  · by_cases h1 : r.len ≤ i
    · go_run [Ring_AtRef_fn, ringVal]
    · by_cases h2 : r.buf.length ≤ i + r.st
      · go_run [Ring_AtRef_fn, ringVal, h.elemAddr, h.len]
      · go_run [Ring_AtRef_fn, ringVal, h.elemAddr, h.len]

omit [Inhabited T] in
theorem atRef_range {r : Ring T} {i j : Int} (h : Verif.Ring.atRef r i = .ok j) : 0 ≤ j ∧ j.toNat < r.buf.length := by
  unfold Verif.Ring.atRef at h
  split at h
  · cases h
  · simp only at h
    split at h <;> split at h
    all_goals first | (cases h; done) | (cases h; assumption)

theorem at_src (n : Nat) {m : Mem T} {b : Val T} {r : Ring T} (h : Slice m b r.buf) (w : WF r) (s : Small r) (i : Int) :
    calls (ctx g) (n + 2) "Ring.At" [ringVal b r.st r.len, .num .int i] m =
      meaning (Verif.Ring.at_ r i) (fun v => ([.elem v], m)) := by
  rw [calls]
  have hr := atRef_src g n h w s i
  unfold Verif.Ring.at_
  cases hx : Verif.Ring.atRef r i with
  | error e =>
    rw [hx] at hr
    unfold ringVal at hr ⊢
    go_run [Ring_At_fn, Ring_AtRef_fn, hr, meaning]
    rfl
  | ok j =>
    obtain ⟨h0, h1⟩ := atRef_range hx
    rw [hx] at hr
    unfold ringVal at hr ⊢
    go_run [Ring_At_fn, Ring_AtRef_fn, hr, meaning, h.load]
    simp [bind, Except.bind, goGet_at h0 h1]

theorem set_src (n : Nat) {m : Mem T} {b : Val T} {r : Ring T} (h : Slice m b r.buf) (w : WF r) (s : Small r) (i : Int)
    (v : T) :
    (∃ e, Verif.Ring.set_ r i v = .error e ∧
      calls (ctx g) (n + 2) "Ring.Set" [ringVal b r.st r.len, .num .int i, .elem v] m = panic e) ∨
    (∃ j, j < r.buf.length ∧ Verif.Ring.set_ r i v = .ok ⟨r.buf.set j v, r.st, r.len⟩ ∧
      calls (ctx g) (n + 2) "Ring.Set" [ringVal b r.st r.len, .num .int i, .elem v] m = pure ([], setAt m b j (.elem v))) := by
  rw [calls]
  have hr := atRef_src g n h w s i
  unfold Verif.Ring.set_
  cases hx : Verif.Ring.atRef r i with
  | error e =>
    left
    rw [hx] at hr
    unfold ringVal at hr ⊢
    refine ⟨e, rfl, ?_⟩
    go_run [Ring_Set_fn, Ring_AtRef_fn, hr, meaning]
  | ok j =>
    right
    obtain ⟨h0, h1⟩ := atRef_range hx
    rw [hx] at hr
    unfold ringVal at hr ⊢
    refine ⟨j.toNat, h1, ?_, ?_⟩
    · simp [bind, Except.bind, goSet_ok h0 h1, pure, Except.pure]
    · go_run [Ring_Set_fn, Ring_AtRef_fn, hr, meaning, h.storeAt]

/-- `ToSlice(s)` for an empty ring. -/
theorem toSlice_src_empty (n : Nat) {m : Mem T} (b : Val T) {v : Val T} {l : List T} (st : Nat) {len : Nat} (h0 : len = 0)
    (h : Slice m v l) : calls (ctx g) (n + 1) "Ring.ToSlice" [ringVal b st len, v] m = pure ([.nil], m) := by
  rw [calls]
  cases h <;> go_run [Ring_ToSlice_fn, ringVal]

/-- The end of `ToSlice`: the two-part copy. -/
def copyStmts : List Stmt := Ring_ToSlice_fn.body.drop 2

theorem copy_src (C : Calls T) {m : Mem T} {b : Val T} {r : Ring T} (h : Slice m b r.buf) (w : WF r) (s : Small r)
    {d o c : Nat} {arr : List (Val T)} (hd : m.arrs[d]? = some arr) (ha : o + c ≤ arr.length)
    (hc : r.len ≤ c) (hb : Apart d b) :
    execs (ctx g) C copyStmts [("r", ringVal b r.st r.len), ("s", .slice d o 0 c)] m =
      pure (.ret [.slice d o r.len c], [("r", ringVal b r.st r.len), ("s", .slice d o r.len c)],
        m.puts d o ((contents r).map .elem)) := by
  have hw := Verif.Ring.contents_length w
  obtain ⟨w1, w2⟩ := w
  unfold Small at s
  by_cases hs : r.st + r.len ≤ r.buf.length
  · obtain ⟨v, e1, e2, e3⟩ := h.reslice (lo := r.st) (hi := r.st + r.len) (by omega) (by omega) (by omega)
    have : List.drop (r.st : Int).toNat (List.take (r.st + r.len : Int).toNat r.buf) = contents r := by
      unfold contents
      rw [List.take_append_of_le_length (by simp; omega), List.drop_take]
      congr 1; omega
    rw [this] at e2
    have hl : (List.map Val.elem (contents r) : List (Val T)).length = r.len := by simp [hw]
    go_run [copyStmts, Ring_ToSlice_fn, ringVal, h.len, e1, e2.values, e2.fetch, hl]
  · obtain ⟨v, e1, e2, e3⟩ := h.reslice (lo := r.st) (hi := r.buf.length) (by omega) (by omega) (by omega)
    obtain ⟨v', f1, f2, f3⟩ := h.reslice (lo := 0) (hi := r.st + r.len - r.buf.length) (by omega) (by omega) (by omega)
    generalize hx : List.drop (r.st : Int).toNat (List.take (r.buf.length : Int).toNat r.buf) = xs at e2
    generalize hy : List.drop (0 : Int).toNat (List.take (r.st + r.len - r.buf.length : Int).toNat r.buf) = ys at f2
    have hxy : xs ++ ys = contents r := by
      subst hx hy
      unfold contents
      rw [List.take_append, List.take_of_length_le (l := r.buf.drop r.st)
        (by rw [List.length_drop]; omega), List.take_take, List.length_drop]
      simp only [Int.toNat_natCast, List.take_length, Int.toNat_zero, List.drop_zero]
      congr 2
      omega
    have f2' := f2.puts (p := d) (o := o) (ws := List.map Val.elem xs) (f3 d hb)
    have l1 : (List.map Val.elem xs : List (Val T)).length = r.buf.length - r.st := by
      subst hx; simp
    have l2 : (List.map Val.elem ys : List (Val T)).length = r.st + r.len - r.buf.length := by
      subst hy; simp; omega
    have h' := h.puts (p := d) (o := o) (ws := List.map Val.elem xs) hb
    go_run [copyStmts, Ring_ToSlice_fn, ringVal, h.len, h'.len, e1, e2.values, f1, f2'.values]
    rw [puts_puts _ _ _ _ _ _ hd (by omega), ← List.map_append, hxy, l1, l2]
    have : r.buf.length - r.st + (r.st + r.len - r.buf.length) = r.len := by omega
    rw [this]

/-- `ToSlice(s)` for a slice whose capacity is enough, with memory of its own. -/
theorem toSlice_src (n : Nat) {m : Mem T} {b : Val T} {r : Ring T} (h : Slice m b r.buf) (w : WF r) (s : Small r)
    (h0 : r.len ≠ 0) {d o k c : Nat} {arr : List (Val T)} (hd : m.arrs[d]? = some arr) (ha : o + c ≤ arr.length)
    (hc : r.len ≤ c) (hb : Apart d b) :
    calls (ctx g) (n + 1) "Ring.ToSlice" [ringVal b r.st r.len, .slice d o k c] m =
      pure ([.slice d o r.len c], m.puts d o ((contents r).map .elem)) := by
  rw [calls]
  have key := copy_src g (calls (ctx g) n) h w s hd ha hc hb
  simp only [copyStmts, Ring_ToSlice_fn, List.drop, ringVal] at key
  go_run [Ring_ToSlice_fn, ringVal, ↓key]

/-- `ToSlice(nil)` for a ring that is not empty: a new array. -/
theorem toSlice_src_nil (n : Nat) {m : Mem T} {b : Val T} {r : Ring T} (h : Slice m b r.buf) (w : WF r) (s : Small r)
    (h0 : r.len ≠ 0) :
    calls (ctx g) (n + 2) "Ring.ToSlice" [ringVal b r.st r.len, .nil] m =
      pure ([.slice m.arrs.length 0 r.len r.len], m.alloc ((contents r).map .elem)) := by
  have hw := Verif.Ring.contents_length w
  generalize hz : List.replicate r.len (Val.elem (default : T)) = z
  have lz : z.length = r.len := by subst hz; simp
  have hN := alloc_new m z
  have hb1 : Slice (m.alloc z) b r.buf := h.alloc
  have hap : Apart m.arrs.length b := .of_old h.old
  have hl := len_src g n m b r.st r.len
  have key := copy_src g (calls (ctx g) (n + 1)) hb1 w s hN (o := 0) (c := r.len) (by omega) (Nat.le_refl _) hap
  rw [calls]
  have e : (m.alloc z).puts m.arrs.length 0 ((contents r).map .elem) = m.alloc ((contents r).map .elem) := by
    simp only [Mem.alloc, Mem.puts, List.take_zero, List.nil_append, Nat.zero_add, List.length_map, hw]
    congr 1
    apply List.ext_getElem?
    intro i
    rw [List.getElem?_modify, List.getElem?_append, List.getElem?_append]
    by_cases hi : i < m.arrs.length
    · simp [hi, Nat.ne_of_gt hi]
    · by_cases hi' : i = m.arrs.length
      · subst hi'; simp [lz]
      · have : m.arrs.length ≠ i := fun e => hi' e.symm
        simp [hi, this]
        cases hk : i - m.arrs.length with
        | zero => omega
        | succ k => rfl
  rw [e] at key
  simp only [copyStmts, Ring_ToSlice_fn, List.drop, ringVal] at key
  unfold ringVal at *
  go_run [Ring_ToSlice_fn, Ring_Len_fn, hl, hz, Int.toNat_natCast, ↓key]

/-- `ToSlice(s)` for any slice that has no array in common with the ring: a slice with the contents; the only memory that
changes is the array of `s`. -/
theorem toSlice_src_any (n : Nat) {m : Mem T} {b v : Val T} {r : Ring T} {l : List T} (h : Slice m b r.buf) (w : WF r)
    (s : Small r) (h0 : r.len ≠ 0) (hv : Slice m v l) (hb : ∀ a o k c, v = .slice a o k c → Apart a b) :
    ∃ v' m', calls (ctx g) (n + 2) "Ring.ToSlice" [ringVal b r.st r.len, v] m = pure ([v'], m') ∧ Slice m' v' (contents r) ∧
      m.arrs.length ≤ m'.arrs.length ∧ m'.maps = m.maps ∧
      ∀ q, q < m.arrs.length → Apart q v → m'.arrs[q]? = m.arrs[q]? := by
  have hw := Verif.Ring.contents_length w
  cases hv with
  | nil =>
    refine ⟨_, _, toSlice_src_nil g n h w s h0, ?_, by simp, rfl, fun q hq _ => alloc_arrs hq _⟩
    have := @Slice.some T (m.alloc ((contents r).map .elem)) m.arrs.length 0 r.len _ (contents r) (alloc_new _ _)
      (by rw [List.drop_zero, List.take_of_length_le (by simp)])
      (by omega) (by simp [hw])
    rw [hw] at this
    exact this
  | @some d o c arr _ hd hl hc ha =>
    have hap := hb _ _ _ _ rfl
    obtain ⟨w1, w2⟩ := w
    unfold Small at s
    have z0 : Slice m (.slice d o 0 c) ([] : List T) := @Slice.some T m d o c arr [] hd (by simp) (by simp) ha
    rw [calls]
    by_cases hs : r.st + r.len ≤ r.buf.length
    · obtain ⟨v, e1, e2, e3⟩ := h.reslice (lo := r.st) (hi := r.st + r.len) (by omega) (by omega) (by omega)
      have : List.drop (r.st : Int).toNat (List.take (r.st + r.len : Int).toNat r.buf) = contents r := by
        unfold contents
        rw [List.take_append_of_le_length (by simp; omega), List.drop_take]
        congr 1; omega
      rw [this] at e2
      obtain ⟨v1, m1, a1, a2, a3, a4, a5⟩ := z0.append (ctx g) (contents r)
      refine ⟨v1, m1, ?_, a2, a3, a4, fun q hq hp => (a5 q hq fun a o l c hv => by cases hv; exact hp _ _ _ _ rfl).1⟩
      go_run [Ring_ToSlice_fn, ringVal, h.len, e1, e2.values, a1, a2.fetch, a2.fit, a2.coerce]
    · obtain ⟨v, e1, e2, e3⟩ := h.reslice (lo := r.st) (hi := r.buf.length) (by omega) (by omega) (by omega)
      obtain ⟨v', f1, f2, f3⟩ := h.reslice (lo := 0) (hi := r.st + r.len - r.buf.length) (by omega) (by omega) (by omega)
      generalize hx : List.drop (r.st : Int).toNat (List.take (r.buf.length : Int).toNat r.buf) = xs at e2
      generalize hy : List.drop (0 : Int).toNat (List.take (r.st + r.len - r.buf.length : Int).toNat r.buf) = ys at f2
      have hxy : xs ++ ys = contents r := by
        subst hx hy
        unfold contents
        rw [List.take_append, List.take_of_length_le (l := r.buf.drop r.st)
          (by rw [List.length_drop]; omega), List.take_take, List.length_drop]
        simp only [Int.toNat_natCast, List.take_length, Int.toNat_zero, List.drop_zero]
        congr 2
        omega
      obtain ⟨v1, m1, a1, a2, a3, a4, a5⟩ := z0.append (ctx g) xs
      have keep : ∀ {u : Val T} {k : List T}, Slice m u k → Apart d u → Slice m1 u k := fun hu hp =>
        hu.mono fun a o l c e => (a5 a (hu.old _ _ _ _ e) fun a' o' l' c' e' => by
          cases e'; exact fun e'' => hp _ _ _ _ e e''.symm).1
      have h' := keep h hap
      have f2' := keep f2 (f3 d hap)
      obtain ⟨v2, m2, b1, b2, b3, b4, b5⟩ := a2.append (ctx g) ys
      rw [List.nil_append, hxy] at b2
      refine ⟨v2, m2, ?_, b2, Nat.le_trans a3 b3, b4.trans a4, fun q hq hp => ?_⟩
      · rcases a2.shape with rfl | ⟨_, _, _, _, rfl⟩ <;>
          go_run [Ring_ToSlice_fn, ringVal, h.len, h'.len, e1, e2.values, f1, f2'.values, a1, a2.fit, b1, b2.fetch,
            b2.fit, b2.coerce]
      · have hz := a5 q hq fun a o l c hv => by cases hv; exact hp _ _ _ _ rfl
        exact ((b5 q (by omega) hz.2).1).trans hz.1

/-! ## Methods with a pointer as receiver -/

/-- The ring `r` with buffer `b` is in cell `i` of array `p`. -/
structure Rep (m : Mem T) (p i : Nat) (b : Val T) (r : Ring T) : Prop where
  cell : m.cell p i = some (ringVal b r.st r.len)
  buf : Slice m b r.buf
  apart : Apart p b

omit [Inhabited T] in
theorem cell_lt {m : Mem T} {p i : Nat} {v : Val T} (h : m.cell p i = some v) : p < m.arrs.length := by
  unfold Mem.cell at h
  cases hp : m.arrs[p]? with
  | none => simp [hp] at h
  | some l => exact (List.getElem?_eq_some_iff.mp hp).1

/-- The ends of `checkGrowth` and of `checkShrink`: the contents move to a new buffer. -/
def moveStmts : List Stmt :=
  [.define ["newBuf"] [.call (.name "make") [.ty (.slice (.name "T" [])), .name "newCap"] false],
    .expr (.call (.sel (.name "r") "ToSlice") [.name "newBuf"] false),
    .assign [.sel (.name "r") "buf"] [.name "newBuf"],
    .assign [.sel (.name "r") "st"] [.int 0]]

theorem move_src (n : Nat) {m : Mem T} {p i : Nat} {b : Val T} {r : Ring T} (h : Rep m p i b r) (w : WF r) (s : Small r)
    {x : Int} {c : Nat} (hx : x = c) (hc : r.len ≤ c) (k : Val T) :
    ∃ m', execs (ctx g) (calls (ctx g) (n + 1)) moveStmts [("newCap", .num .int x), ("oldCap", k), ("r", .ptr p i [])] m =
        pure (.next, [("newBuf", .slice m.arrs.length 0 c c), ("newCap", .num .int x), ("oldCap", k), ("r", .ptr p i [])],
          m') ∧
      Rep m' p i (.slice m.arrs.length 0 c c) ⟨contents r ++ (List.replicate c default).drop r.len, 0, r.len⟩ ∧
      m'.maps = m.maps ∧
      ∀ q j, q < m.arrs.length → ¬ (q = p ∧ j = i) → m'.cell q j = m.cell q j := by
  subst hx
  obtain ⟨hp, hb, ha⟩ := h
  have lp := cell_lt hp
  have hw := Verif.Ring.contents_length w
  generalize hN : m.arrs.length = N at *
  generalize hz : List.replicate c (Val.elem (default : T)) = z
  have lz : z.length = c := by subst hz; simp
  have hp1 : (m.alloc z).cell p i = some (ringVal b r.st r.len) := by
    rw [cell_of_arrs (alloc_arrs (by omega) _)]; exact hp
  have hN1 : (m.alloc z).arrs[N]? = some z := by subst hN; exact alloc_new m z
  have hb1 : Slice (m.alloc z) b r.buf := hb.alloc
  have hap : Apart N b := by subst hN; exact .of_old hb.old
  obtain ⟨v, hv⟩ : ∃ v, calls (ctx g) (n + 1) "Ring.ToSlice" [ringVal b r.st r.len, .slice N 0 c c] (m.alloc z) =
      pure ([v], (m.alloc z).puts N 0 ((contents r).map .elem)) := by
    by_cases h0 : r.len = 0
    · refine ⟨.nil, ?_⟩
      have hnil : contents r = [] := List.eq_nil_of_length_eq_zero (by omega)
      rw [hnil, List.map_nil, puts_nil]
      apply toSlice_src_empty g n b r.st h0 (l := List.replicate c (default : T))
      have := @Slice.some T (m.alloc z) N 0 c z (List.replicate c default) hN1 (by subst hz; simp) (by simp) (by omega)
      simpa using this
    · exact ⟨_, toSlice_src g n hb1 w s h0 hN1 (by omega) hc hap⟩
  generalize hm2 : (m.alloc z).puts N 0 ((contents r).map .elem) = m2 at *
  have a2 : ∀ q, q ≠ N → m2.arrs[q]? = (m.alloc z).arrs[q]? := fun q hq => by subst hm2; exact puts_arrs hq _
  have hp2 : m2.cell p i = some (ringVal b r.st r.len) := by rw [cell_of_arrs (a2 p (by omega))]; exact hp1
  have hp3 := cell_put_same hp2 (ringVal (.slice N 0 c c) r.st r.len)
  have hp4 := cell_put_same hp3 (ringVal (.slice N 0 c c) 0 r.len)
  refine ⟨_, ?_, ⟨hp4, ?_, ?_⟩, ?_, ?_⟩
  · unfold ringVal at *
    go_run [moveStmts, hp1, hp2, hp3, hN, hz, Int.toNat_natCast, Ring_ToSlice_fn, hv]
  · have hs2 : m2.arrs[N]? = some ((contents r ++ (List.replicate c default).drop r.len).map .elem) := by
      subst hm2
      rw [puts_same_arr hN1]
      simp only [List.take_zero, List.nil_append, Nat.zero_add, List.length_map, hw, List.map_append]
      subst hz
      simp
    have hl : (contents r ++ (List.replicate c (default : T)).drop r.len).length = c := by
      simp [hw]; omega
    have := @Slice.some T ((m2.put p i (ringVal (.slice N 0 c c) r.st r.len)).put p i (ringVal (.slice N 0 c c) 0 r.len)) N 0 c _
      (contents r ++ (List.replicate c default).drop r.len) (by rw [put_arrs (by omega), put_arrs (by omega)]; exact hs2)
      (by rw [List.drop_zero, List.take_of_length_le (by simp)]) (by omega) (by rw [List.length_map]; omega)
    rw [hl] at this
    exact this
  · intro a o l c' hv'
    cases hv'
    omega
  · subst hm2; rfl
  · intro q j hq hne
    rw [cell_put_other hne, cell_put_other hne, cell_of_arrs (a2 q (by omega)), cell_of_arrs (alloc_arrs (by omega) _)]

/-- Memory is as before except for the ring itself, its buffer `b`, and new arrays. The buffer is still `b`, or a new one. -/
structure Frame (m m' : Mem T) (p i : Nat) (b b' : Val T) : Prop where
  grows : m.arrs.length ≤ m'.arrs.length
  maps : m'.maps = m.maps
  cells : ∀ q j, q < m.arrs.length → ¬ (q = p ∧ j = i) → ¬ In b q j → m'.cell q j = m.cell q j
  buf : b' = b ∨ ∀ q j, q < m.arrs.length → ¬ In b' q j

/-- The call `x` on the ring in cell `i` of array `p`, in memory `m`, does what the model says: the new ring is in the cell and
the results are `vs`. -/
def Does (m : Mem T) (p i : Nat) (b : Val T) (y : Go (Ring T × List (Val T))) (x : R (List (Val T) × Mem T)) : Prop :=
  match y with
  | .error e => x = panic e
  | .ok (r', vs) => ∃ m' b', x = pure (vs, m') ∧ Rep m' p i b' r' ∧ Frame m m' p i b b'

omit [Inhabited T] in
theorem Frame.refl (m : Mem T) (p i : Nat) (b : Val T) : Frame m m p i b b :=
  ⟨Nat.le_refl _, rfl, fun _ _ _ _ _ => rfl, Or.inl rfl⟩

theorem checkGrowth_src (n : Nat) {m : Mem T} {p i : Nat} {b : Val T} {r : Ring T} (h : Rep m p i b r) (w : WF r)
    (s : Small r) :
    ∃ r' m' b', Verif.Ring.checkGrowth r = .ok r' ∧
      calls (ctx g) (n + 2) "Ring.checkGrowth" [.ptr p i []] m = pure ([], m') ∧ Rep m' p i b' r' ∧ WF r' ∧
      r'.len < r'.buf.length ∧ r'.buf.length ≤ 4 + 2 * r.buf.length ∧ m.arrs.length ≤ m'.arrs.length ∧ m'.maps = m.maps ∧
      (∀ q j, q < m.arrs.length → ¬ (q = p ∧ j = i) → m'.cell q j = m.cell q j) ∧
      (b' = b ∨ Apart p b' ∧ ∀ q j, q < m.arrs.length → ¬ In b' q j) := by
  obtain ⟨r', e1, e2, -, e4, e5, e6, e7, e8⟩ := Verif.Ring.checkGrowth_eq w
  have hcell := h.cell
  have hlen := h.buf.len
  have s' := s
  have w' := w
  obtain ⟨w1, w2⟩ := w'
  unfold Small at s'
  by_cases hl : r.len = r.buf.length
  · have hg : Verif.Ring.grown r.buf.length ≤ 4 + 2 * r.buf.length := by
      unfold Verif.Ring.grown; split
      · omega
      · split <;> omega
    have hg' := Verif.Ring.grown_gt r.buf.length
    rw [if_pos hl] at e6
    have hm : ∀ x : Int, x = (Verif.Ring.grown r.buf.length : Nat) → _ := fun x hx =>
      move_src g n h w s hx (by omega) (.num .int r.buf.length)
    refine ⟨r', ?_⟩
    suffices ∃ m', calls (ctx g) (n + 2) "Ring.checkGrowth" [.ptr p i []] m = pure ([], m') ∧
        Rep m' p i (.slice m.arrs.length 0 (Verif.Ring.grown r.buf.length) (Verif.Ring.grown r.buf.length)) r' ∧
        m'.maps = m.maps ∧ ∀ q j, q < m.arrs.length → ¬ (q = p ∧ j = i) → m'.cell q j = m.cell q j by
      obtain ⟨m', f1, f2, f3, f4⟩ := this
      refine ⟨m', _, e1, f1, f2, e2, e5, by omega, ?_, f3, f4, Or.inr ⟨f2.apart, ?_⟩⟩
      · have := f2.buf.old _ _ _ _ rfl
        omega
      · rintro q j hq ⟨o, l, c, hin, -⟩
        cases hin
        omega
    rw [e7 hl]
    unfold ringVal at hcell
    rw [calls]
    by_cases c0 : r.buf.length = 0
    · obtain ⟨m', f1, f2, f3, f4⟩ := hm 4 (by simp [Verif.Ring.grown, c0])
      unfold moveStmts at f1
      refine ⟨m', ?_, f2, f3, f4⟩
      go_run [Ring_checkGrowth_fn, hcell, hlen, ↓f1]
    · by_cases c1 : r.buf.length < 1024
      · obtain ⟨m', f1, f2, f3, f4⟩ := hm (r.buf.length * 2) (by simp [Verif.Ring.grown, c0, c1])
        unfold moveStmts at f1
        refine ⟨m', ?_, f2, f3, f4⟩
        go_run [Ring_checkGrowth_fn, hcell, hlen, ↓f1]
      · obtain ⟨m', f1, f2, f3, f4⟩ := hm (r.buf.length * 5 / 4) (by simp [Verif.Ring.grown, c0, c1])
        unfold moveStmts at f1
        refine ⟨m', ?_, f2, f3, f4⟩
        go_run [Ring_checkGrowth_fn, hcell, hlen, ↓f1]
  · refine ⟨r, m, b, ?_, ?_, h, w, by omega, by omega, Nat.le_refl _, rfl, fun _ _ _ _ => rfl, Or.inl rfl⟩
    · rw [e1, e8 hl]
    · rw [calls]
      unfold ringVal at hcell
      go_run [Ring_checkGrowth_fn, hcell, hlen]


theorem checkShrink_src (n : Nat) {m : Mem T} {p i : Nat} {b : Val T} {r : Ring T} (h : Rep m p i b r) (w : WF r)
    (s : Small r) :
    ∃ r' m' b', Verif.Ring.checkShrink r = .ok r' ∧
      calls (ctx g) (n + 2) "Ring.checkShrink" [.ptr p i []] m = pure ([], m') ∧ Rep m' p i b' r' ∧ WF r' ∧
      r'.len = r.len ∧ r'.buf.length ≤ r.buf.length ∧ m.arrs.length ≤ m'.arrs.length ∧ m'.maps = m.maps ∧
      (∀ q j, q < m.arrs.length → ¬ (q = p ∧ j = i) → m'.cell q j = m.cell q j) ∧
      (b' = b ∨ Apart p b' ∧ ∀ q j, q < m.arrs.length → ¬ In b' q j) := by
  obtain ⟨r', e1, e2, -, e4, e5, e6⟩ := Verif.Ring.checkShrink_eq w
  have hcell := h.cell
  have hlen := h.buf.len
  have s' := s
  have w' := w
  obtain ⟨w1, w2⟩ := w'
  unfold Small at s'
  by_cases hl : r.buf.length > 1024 ∧ r.buf.length / 8 > r.len
  · rw [if_pos hl] at e5
    have e6' : r' = ⟨contents r ++ (List.replicate (r.buf.length / 8) default).drop r.len, 0, r.len⟩ := by
      rcases e6 with e6 | e6
      · rw [e6] at e5; omega
      · exact e6.2
    obtain ⟨m', f1, f2, f3, f4⟩ := move_src g n h w s (x := r.buf.length / 8) (c := r.buf.length / 8) (by omega) (by omega)
      (.num .int r.buf.length)
    rw [← e6'] at f2
    refine ⟨r', m', _, e1, ?_, f2, e2, e4, by omega, ?_, f3, f4, Or.inr ⟨f2.apart, ?_⟩⟩
    · rw [calls]
      unfold ringVal at hcell
      unfold moveStmts at f1
      go_run [Ring_checkShrink_fn, hcell, hlen, ↓f1]
    · have := f2.buf.old _ _ _ _ rfl
      omega
    · rintro q j hq ⟨o, l, c, hin, -⟩
      cases hin
      omega
  · have e6' : r' = r := by
      rcases e6 with e6 | e6
      · exact e6
      · rw [if_neg hl] at e5
        simp only [Verif.Ring.checkShrink, hl, if_false, pure, Except.pure] at e1
        cases e1; rfl
    subst e6'
    refine ⟨r', m, b, e1, ?_, h, w, rfl, Nat.le_refl _, Nat.le_refl _, rfl, fun _ _ _ _ => rfl, Or.inl rfl⟩
    rw [calls]
    unfold ringVal at hcell
    by_cases h1 : r'.buf.length > 1024
    · go_run [Ring_checkShrink_fn, hcell, hlen]
    · go_run [Ring_checkShrink_fn, hcell, hlen]

end Verif.Src.Ring
