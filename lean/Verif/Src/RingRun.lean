import Verif.Src.RingMethods
import Verif.Ring.Props

/-!
# ds/xring/ring.go: constructors, and any sequence of calls

C148: what the text of ring.go does, by the semantics of Src/Sem.lean, is what the model of Ring/Model.lean does.
-/

namespace Verif.Src.Ring

open Verif.Ring (Ring WF contents Op Out)

variable {T : Type} [Inhabited T] (g : Nat → Nat → Nat)

/-! ## The text -/

/-- The functions of ring.go, each as its lines. -/
def texts : List (String × List String) :=
  [("New", New_text),
    ("NewLen", NewLen_text),
    ("NewLenCap", NewLenCap_text),
    ("Of", Of_text),
    ("OfSlice", OfSlice_text),
    ("Copy", Copy_text),
    ("Ring.checkGrowth", Ring_checkGrowth_text),
    ("Ring.checkShrink", Ring_checkShrink_text),
    ("Ring.Push", Ring_Push_text),
    ("Ring.Pop", Ring_Pop_text),
    ("Ring.Append", Ring_Append_text),
    ("Ring.Prepend", Ring_Prepend_text),
    ("Ring.DeleteLast", Ring_DeleteLast_text),
    ("Ring.DeleteFirst", Ring_DeleteFirst_text),
    ("Ring.Len", Ring_Len_text),
    ("Ring.Cap", Ring_Cap_text),
    ("Ring.Empty", Ring_Empty_text),
    ("Ring.ToSlice", Ring_ToSlice_text),
    ("Ring.AtRef", Ring_AtRef_text),
    ("Ring.At", Ring_At_text),
    ("Ring.Set", Ring_Set_text),
    ("Ring.First", Ring_First_text),
    ("Ring.Last", Ring_Last_text)]

/-- **C148.** The program whose meaning is compared with the model is what the parser makes of the text. -/
theorem C148_text : texts.map (fun x => (x.1, parseFn x.2)) = prog.fns.map (fun x => (x.1, some x.2)) := by
  simp only [texts, prog, List.map_cons, List.map_nil, New_parse, NewLen_parse, NewLenCap_parse, Of_parse, OfSlice_parse, Copy_parse, Ring_checkGrowth_parse, Ring_checkShrink_parse, Ring_Push_parse, Ring_Pop_parse, Ring_Append_parse, Ring_Prepend_parse, Ring_DeleteLast_parse, Ring_DeleteFirst_parse, Ring_Len_parse, Ring_Cap_parse, Ring_Empty_parse, Ring_ToSlice_parse, Ring_AtRef_parse, Ring_At_parse, Ring_Set_parse, Ring_First_parse, Ring_Last_parse]

/-! ## Constructors -/

theorem new_src (n : Nat) (m : Mem T) : calls (ctx g) (n + 1) "New" [] m = pure ([ringVal .nil 0 0], m) := by
  rw [calls]
  go_run [New_fn]
  rfl

theorem newLen_src (n : Nat) (m : Mem T) (k : Int) :
    if k < 0 then calls (ctx g) (n + 1) "NewLen" [.num .int k] m = panic "makeslice: len out of range"
    else ∃ b m', calls (ctx g) (n + 1) "NewLen" [.num .int k] m = pure ([ringVal b 0 k.toNat], m') ∧
      Slice m' b (Verif.Ring.newLen (T := T) k.toNat).buf ∧ ∃ l, m' = m.alloc l := by
  rw [calls]
  split
  · go_run [NewLen_fn]
  · refine ⟨.slice m.arrs.length 0 k.toNat k.toNat, m.alloc (List.replicate k.toNat (.elem default)), ?_, ?_, _, rfl⟩
    · have : ((k.toNat : Nat) : Int) = k := by omega
      go_run [NewLen_fn, ringVal, this]
    · have := @Slice.some T (m.alloc (List.replicate k.toNat (.elem default))) m.arrs.length 0 k.toNat _
        (List.replicate k.toNat default) (alloc_new _ _) (by simp) (by simp) (by simp)
      simpa [Verif.Ring.newLen] using this

theorem newLenCap_src (n : Nat) (m : Mem T) (k c : Nat) :
    match Verif.Ring.newLenCap (T := T) k c with
    | .error e => calls (ctx g) (n + 1) "NewLenCap" [.num .int k, .num .int c] m = panic e
    | .ok r => ∃ b m', calls (ctx g) (n + 1) "NewLenCap" [.num .int k, .num .int c] m = pure ([ringVal b r.st r.len], m') ∧
        Slice m' b r.buf ∧ ∃ l, m' = m.alloc l := by
  rw [calls]
  unfold Verif.Ring.newLenCap
  by_cases h : k ≤ c
  · simp only [h, if_true]
    refine ⟨.slice m.arrs.length 0 k c, m.alloc (List.replicate c (.elem default)), ?_, ?_, _, rfl⟩
    · go_run [NewLenCap_fn, ringVal, Int.toNat_natCast]
    · have := @Slice.some T (m.alloc (List.replicate c (.elem default))) m.arrs.length 0 c _
        (List.replicate k default) (alloc_new _ _) (by simp [h]) (by simpa using h) (by simp)
      simpa using this
  · simp only [h, if_false]
    go_run [NewLenCap_fn]

/-- `OfSlice`: the buffer is the argument. -/
theorem ofSlice_src (n : Nat) {m : Mem T} {b : Val T} {l : List T} (h : Slice m b l) :
    calls (ctx g) (n + 1) "OfSlice" [b] m = pure ([ringVal b (Verif.Ring.ofSlice l).st (Verif.Ring.ofSlice l).len], m) ∧
      Slice m b (Verif.Ring.ofSlice l).buf := by
  refine ⟨?_, h⟩
  rw [calls]
  go_run [OfSlice_fn, ringVal, h.len, h.fetch, h.fit, h.coerce, Verif.Ring.ofSlice]

theorem of_src (n : Nat) {m : Mem T} {b : Val T} {l : List T} (h : Slice m b l) :
    calls (ctx g) (n + 2) "Of" [b] m = pure ([ringVal b (Verif.Ring.ofSlice l).st (Verif.Ring.ofSlice l).len], m) ∧
      Slice m b (Verif.Ring.ofSlice l).buf := by
  have e := (ofSlice_src g n h).1
  refine ⟨?_, h⟩
  unfold ringVal at *
  rw [calls]
  go_run [Of_fn, OfSlice_fn, h.fetch, h.coerce, e]

/-- `Copy`: the buffer is an array of its own. -/
theorem copy_of_src (n : Nat) {m : Mem T} {b : Val T} {l : List T} (h : Slice m b l) :
    ∃ b' m', calls (ctx g) (n + 2) "Copy" [b] m =
        pure ([ringVal b' (Verif.Ring.copy l).st (Verif.Ring.copy l).len], m') ∧
      Slice m' b' (Verif.Ring.copy l).buf ∧ m.arrs.length ≤ m'.arrs.length ∧ m'.maps = m.maps ∧
      ∀ q, q < m.arrs.length → m'.arrs[q]? = m.arrs[q]? ∧ Apart q b' := by
  rw [calls]
  unfold Verif.Ring.copy
  by_cases h0 : l.length = 0
  · have e := new_src g n m
    simp only [h0, if_true]
    refine ⟨.nil, m, ?_, .nil, Nat.le_refl _, rfl, fun _ _ => ⟨rfl, fun _ _ _ _ hv => by cases hv⟩⟩
    unfold ringVal Verif.Ring.new at *
    go_run [Copy_fn, h.len, h.fetch, h.coerce, New_fn, e]
  · simp only [h0, if_false]
    obtain ⟨b', m', e1, e2, e3, e4, e5⟩ := (Slice.nil (m := m)).append (ctx g) l
    have e := (ofSlice_src g n e2).1
    refine ⟨b', m', ?_, e2, e3, e4, fun q hq => e5 q hq fun _ _ _ _ hv => by cases hv⟩
    unfold ringVal at *
    go_run [Copy_fn, h.len, h.fetch, h.coerce, h.values, e1, OfSlice_fn, e]

/-! ## Sequences of calls -/

/-- The method that a call names. -/
def name : Op T → String
  | .append _ => "Append" | .push _ => "Push" | .prepend _ => "Prepend"
  | .pop => "Pop" | .deleteFirst => "DeleteFirst" | .deleteLast => "DeleteLast"
  | .set .. => "Set" | .at _ => "At" | .first => "First" | .last => "Last" | .len => "Len" | .isEmpty => "Empty"
  | .toSlice => "ToSlice"

/-- Its arguments, as Go expressions in the variables `i` and `v`. -/
def args : Op T → List Expr
  | .append _ | .push _ | .prepend _ => [.name "v"]
  | .set .. => [.name "i", .name "v"]
  | .at _ => [.name "i"]
  | .toSlice => [.name "nil"]
  | _ => []

/-- The variables; `r` is a pointer to the ring. -/
def vars (p i : Nat) : Op T → Env T
  | .append v | .push v | .prepend v => [("r", .ptr p i []), ("v", .elem v)]
  | .set k v => [("r", .ptr p i []), ("i", .num .int k), ("v", .elem v)]
  | .at k => [("r", .ptr p i []), ("i", .num .int k)]
  | _ => [("r", .ptr p i [])]

/-- `r.Append(v)`, and so on: the meaning of the Go expression. -/
def call (p i : Nat) (o : Op T) (m : Mem T) : R (List (Val T) × Mem T) :=
  eval (ctx g) (calls (ctx g) 4) (vars p i o) (.call (.sel (.name "r") (name o)) (args o) false) m

/-- An element. -/
def elemOf : Val T → Option T
  | .elem e => some e
  | _ => none

/-- What the results of a call show. -/
def shown (m : Mem T) : List (Val T) → Option (Out T)
  | [] => some .unit
  | [.elem v] => some (.val v)
  | [.num _ n] => some (.num n.toNat)
  | [.bool b] => some (.bool b)
  | [.nil] => some (.slice none)
  | [.slice a o l _] =>
    match m.cells a o l with
    | some vs => (vs.mapM elemOf).map fun l => .slice (some l)
    | none => none
  | _ => none

/-- The results of calls one after the other, up to the first panic; `none` if one of them does not finish or is ill-typed. -/
def runSrc (p i : Nat) : List (Op T) → Mem T → Option (List (Out T))
  | [], _ => some []
  | o :: os, m =>
    match call g p i o m with
    | none => none
    | some (.error _) => some [.panic]
    | some (.ok (vs, m')) =>
      match shown m' vs, runSrc p i os m' with
      | some x, some xs => some (x :: xs)
      | _, _ => none

/-- Results up to the first panic. -/
def untilPanic : List (Out T) → List (Out T)
  | [] => []
  | .panic :: _ => [.panic]
  | x :: xs => x :: untilPanic xs

omit [Inhabited T] in
theorem mapM_elem (l : List T) : (l.map Val.elem).mapM elemOf = some l := by
  induction l with
  | nil => rfl
  | cons x l ih => simp only [List.map_cons, List.mapM_cons, ih]; rfl

/-- The call `x` panics if the model does; if not it shows what the model says and the new ring is in the same place. -/
def Agrees (m : Mem T) (p i : Nat) (b : Val T) (y : Ring T × Out T) (x : R (List (Val T) × Mem T)) : Prop :=
  (y.2 = .panic ∧ ∃ e, x = panic e) ∨
  ∃ vs m' b', x = pure (vs, m') ∧ shown m' vs = some y.2 ∧ y.2 ≠ .panic ∧ Rep m' p i b' y.1 ∧ Frame m m' p i b b'

omit [Inhabited T] in
theorem Agrees.same {m : Mem T} {p i : Nat} {b : Val T} {r : Ring T} (h : Rep m p i b r) {x : Out T} {vs : List (Val T)}
    {y : R (List (Val T) × Mem T)} (e : y = pure (vs, m)) (hx : shown m vs = some x) (hp : x ≠ .panic) :
    Agrees m p i b (r, x) y := Or.inr ⟨vs, m, b, e, hx, hp, h, Frame.refl m p i b⟩

omit [Inhabited T] in
theorem Agrees.unit {m : Mem T} {p i : Nat} {b : Val T} {r : Ring T} {y : Go (Ring T)} {x : R (List (Val T) × Mem T)}
    (h : Does m p i b ((fun r' => (r', [])) <$> y) x) :
    Agrees m p i b (match (generalizing := false) y with | .ok r' => (r', Out.unit) | .error _ => (r, .panic)) x := by
  cases y with
  | error e => exact Or.inl ⟨rfl, e, h⟩
  | ok r' =>
    obtain ⟨m', b', e1, e2, e3⟩ := h
    exact Or.inr ⟨_, m', b', e1, rfl, by simp, e2, e3⟩

/-- A call is a call of the function. -/
theorem call_eq {m : Mem T} {p i : Nat} {b : Val T} {r : Ring T} (h : Rep m p i b r) (o : Op T) :
    call g p i o m = calls (ctx g) 4 ("Ring." ++ name o)
      (match o with
      | .append v | .push v | .prepend v => [.ptr p i [], .elem v]
      | .pop | .deleteFirst | .deleteLast => [.ptr p i []]
      | .set k v => [ringVal b r.st r.len, .num .int k, .elem v]
      | .at k => [ringVal b r.st r.len, .num .int k]
      | .toSlice => [ringVal b r.st r.len, .nil]
      | _ => [ringVal b r.st r.len]) m := by
  have hcell := h.cell
  unfold ringVal call at *
  cases o <;>
    go_run [vars, name, args, hcell, Ring_Append_fn, Ring_Push_fn, Ring_Prepend_fn, Ring_Pop_fn, Ring_DeleteFirst_fn,
      Ring_DeleteLast_fn, Ring_Set_fn, Ring_At_fn, Ring_First_fn, Ring_Last_fn, Ring_Len_fn, Ring_Empty_fn, Ring_ToSlice_fn]

/-- **C148.** One call. -/
theorem C148_call {m : Mem T} {p i : Nat} {b : Val T} {r : Ring T} (h : Rep m p i b r) (w : WF r) (s : Small r) (o : Op T) :
    Agrees m p i b (Verif.Ring.step r o) (call g p i o m) := by
  rw [call_eq g h o]
  cases o <;> simp only [name, String.reduceAppend]
  case append v => exact Agrees.unit (append_src g 1 h w s v)
  case push v => exact Agrees.unit (push_src g 0 h w s v)
  case prepend v => exact Agrees.unit (prepend_src g 1 h w s v)
  case deleteFirst => exact Agrees.unit (deleteFirst_src g 1 h w s)
  case deleteLast => exact Agrees.unit (deleteLast_src g 1 h w s)
  case pop =>
    have hd := pop_src g 0 h w s
    simp only [Verif.Ring.step]
    cases hp : Verif.Ring.pop r with
    | error e => rw [hp] at hd; exact Or.inl ⟨rfl, e, hd⟩
    | ok x =>
      rw [hp] at hd
      obtain ⟨m', b', e1, e2, e3⟩ := hd
      exact Or.inr ⟨_, m', b', e1, rfl, by simp, e2, e3⟩
  case set k v =>
    simp only [Verif.Ring.step]
    rcases set_src g 2 h.buf w s k v with ⟨e, h1, h2⟩ | ⟨j, hj, h1, h2⟩
    · rw [h1]; exact Or.inl ⟨rfl, e, h2⟩
    · rw [h1]
      exact Or.inr ⟨_, _, b, h2, rfl, by simp, h.write hj v,
        by rw [setAt_length]; exact Nat.le_refl _, setAt_maps _ _ _ _, fun q k' _ _ hin => Slice.setAt_cell hin h.buf hj, Or.inl rfl⟩
  case «at» k =>
    have hd := at_src g 2 h.buf w s k
    simp only [Verif.Ring.step]
    cases hp : Verif.Ring.at_ r k with
    | error e => rw [hp] at hd; exact Or.inl ⟨rfl, e, hd⟩
    | ok x => rw [hp] at hd; exact .same h hd rfl (by simp)
  case first =>
    have hd := first_src g 3 h.buf w
    simp only [Verif.Ring.step]
    cases hp : Verif.Ring.first r with
    | error e => rw [hp] at hd; exact Or.inl ⟨rfl, e, hd⟩
    | ok x => rw [hp] at hd; exact .same h hd rfl (by simp)
  case last =>
    have hd := last_src g 3 h.buf w s
    simp only [Verif.Ring.step]
    cases hp : Verif.Ring.last r with
    | error e => rw [hp] at hd; exact Or.inl ⟨rfl, e, hd⟩
    | ok x => rw [hp] at hd; exact .same h hd rfl (by simp)
  case len => exact .same h (len_src g 3 m b r.st r.len) rfl (by simp)
  case isEmpty =>
    refine .same h (empty_src g 3 m b r.st r.len) ?_ (by simp)
    rcases r with ⟨_, _, _ | _⟩ <;> rfl
  case toSlice =>
    have hw := Verif.Ring.contents_length w
    simp only [Verif.Ring.step, Verif.Ring.toSlice_none_eq w]
    by_cases h0 : r.len = 0
    · have : contents r = [] := List.eq_nil_of_length_eq_zero (by omega)
      simp only [this, if_true]
      exact .same h (toSlice_src_empty g 3 b r.st h0 .nil) rfl (by simp)
    · have : contents r ≠ [] := fun e => h0 (by rw [← hw, e]; rfl)
      simp only [this, if_false]
      have hd := toSlice_src_nil g 2 h.buf w s h0
      have hlt := cell_lt h.cell
      refine Or.inr ⟨_, _, b, hd, ?_, by simp, ⟨?_, h.buf.alloc, h.apart⟩, ?_⟩
      · simp only [shown, Mem.cells, alloc_new, List.drop_zero]
        rw [List.take_of_length_le (by simp [hw]), mapM_elem]
        rfl
      · rw [cell_of_arrs (alloc_arrs hlt _)]; exact h.cell
      · exact ⟨by simp, rfl, fun q j hq _ _ => cell_of_arrs (alloc_arrs hq _) j, Or.inl rfl⟩

/-- Each call keeps the length and the capacity within these bounds. -/
theorem step_size {r : Ring T} (w : WF r) (o : Op T) {k : Nat} (h1 : r.len ≤ k) (h2 : r.buf.length ≤ 4 + 2 * k) :
    WF (Verif.Ring.step r o).1 ∧ (Verif.Ring.step r o).1.len ≤ k + 1 ∧
      (Verif.Ring.step r o).1.buf.length ≤ 4 + 2 * k := by
  have hr := Verif.Ring.step_cap w o
  have w' := (Verif.Ring.step_refines w o).1
  refine ⟨w', ?_⟩
  have hle := w.1
  generalize (Verif.Ring.step r o).1 = r' at *
  unfold Verif.Ring.CapRule Verif.Ring.Len Verif.Ring.Cap at hr
  rcases hr with ⟨h3, h4⟩ | ⟨h3, h4⟩ | ⟨h3, h4⟩
  · split at h4
    · unfold Verif.Ring.grown at h4
      split at h4
      · omega
      · split at h4 <;> omega
    · omega
  · split at h4 <;> omega
  · omega

/-- **C148.** Calls on the ring in cell `i` of array `p`, one after the other, up to the first panic: the text of ring.go, by
the semantics of Src/Sem.lean, gives what the model of Ring/Model.lean says. -/
theorem C148_run (ops : List (Op T)) : ∀ {m : Mem T} {p i : Nat} {b : Val T} {r : Ring T} {k : Nat}, Rep m p i b r → WF r →
    r.len ≤ k → r.buf.length ≤ 4 + 2 * k → k + ops.length < 2 ^ 58 →
    runSrc g p i ops m = some (untilPanic (Verif.Ring.run r ops).2) := by
  induction ops with
  | nil => intros; rfl
  | cons o ops ih =>
    intro m p i b r k h w h1 h2 h3
    rw [List.length_cons] at h3
    have hs : Small r := by unfold Small; omega
    obtain ⟨w', l1, l2⟩ := step_size w o h1 h2
    simp only [runSrc, Verif.Ring.run]
    rcases C148_call g h w hs o with ⟨e1, e, e2⟩ | ⟨vs, m', b', e1, e2, e3, e4, -⟩
    · rw [e2, e1]; rfl
    · have := ih e4 w' l1 (by omega) (by omega)
      rw [e1]
      simp only [pure, ExceptT.pure, ExceptT.mk, e2, this]
      generalize (Verif.Ring.step r o).2 = x at e3
      cases x <;> simp [untilPanic] at e3 ⊢

/-- **C148.** The same for the specification of Ring/Spec.lean, which knows no model: on a ring that holds the list `l`, the
text of ring.go behaves as the list does. -/
theorem C148_spec (ops : List (Op T)) {m : Mem T} {p i : Nat} {b : Val T} {r : Ring T} (h : Rep m p i b r) (w : WF r)
    (h1 : r.buf.length + ops.length < 2 ^ 58) :
    runSrc g p i ops m = some (untilPanic (Verif.Ring.specRun (contents r) ops).2) := by
  rw [C148_run g ops h w w.1 (by omega) h1, (Verif.Ring.run_refines w ops).2]

/-- Memory with one ring, made by `New`. -/
example : Rep (⟨[[ringVal .nil 0 0]], []⟩ : Mem Nat) 0 0 .nil Verif.Ring.new :=
  ⟨rfl, .nil, fun _ _ _ _ h => by cases h⟩

/-- A ring of three whose contents begin in the middle of the buffer. -/
example : Rep (⟨[[ringVal (.slice 1 0 4 4) 2 3], [.elem 30, .elem 0, .elem 10, .elem 20]], []⟩ : Mem Nat) 0 0 (.slice 1 0 4 4)
    ⟨[30, 0, 10, 20], 2, 3⟩ ∧ WF (⟨[30, 0, 10, 20], 2, 3⟩ : Ring Nat) ∧
    contents (⟨[30, 0, 10, 20], 2, 3⟩ : Ring Nat) = [10, 20, 30] :=
  ⟨⟨rfl, .some (l := [30, 0, 10, 20]) rfl rfl (by decide) (by decide), fun _ _ _ _ h => by cases h; decide⟩,
    ⟨by decide, by decide⟩, by decide⟩

/-- Calls on it, with what the text gives. -/
example : runSrc (fun _ _ => 0) 0 0 [.append 40, .pop, .prepend 5, .toSlice, .at 7, .len]
    (⟨[[ringVal (.slice 1 0 4 4) 2 3], [.elem 30, .elem 0, .elem 10, .elem 20]], []⟩ : Mem Nat) =
    some [.unit, .val 10, .unit, .slice (some [5, 20, 30, 40]), .panic] := by
  rw [C148_spec (r := ⟨[30, 0, 10, 20], 2, 3⟩) (b := .slice 1 0 4 4)]
  · decide
  · exact ⟨rfl, .some (l := [30, 0, 10, 20]) rfl rfl (by decide) (by decide), fun _ _ _ _ h => by cases h; decide⟩
  · exact ⟨by decide, by decide⟩
  · decide

end Verif.Src.Ring
