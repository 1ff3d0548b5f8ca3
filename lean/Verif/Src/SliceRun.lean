import Verif.Src.SliceOps
import Verif.Src.AlgoRun

/-!
# ds/xslice: what the text does

C151: the methods of a variable of type `Slice[T]`, from the text of slice.go and ops.go, by the semantics of Src/Sem.lean.
-/

namespace Verif.Src.Algo

open Verif.Iter
open Verif.Src.Sort (On wr Ext wr_length wr_self)

variable {E : Type}

/-! ## Variables -/

/-- The variable in cell `(b, k)` is the slice `v`, whose elements are `d`; it is not in the array of `v`. -/
structure Var (m : Mem E) (b k : Nat) (v : Val E) (d : List E) : Prop where
  cell : m.cell b k = some v
  holds : Slice m v d
  apart : Apart b v

/-- From `m` to `m'` the variable in `(b, k)` goes from `v` to `v'`, and no other cell is written but those of the windows of `v` and `v'`. -/
structure Writes (b k : Nat) (v v' : Val E) (m m' : Mem E) : Prop where
  keep : m.arrs.length ≤ m'.arrs.length
  maps : m'.maps = m.maps
  cells : ∀ q j, q < m.arrs.length → ¬ (q = b ∧ j = k) → ¬ In v q j → ¬ In v' q j → m'.cell q j = m.cell q j

theorem Writes.refl (b k : Nat) (v : Val E) (m : Mem E) : Writes b k v v m m := ⟨Nat.le_refl _, rfl, fun _ _ _ _ _ _ => rfl⟩

/-! ## Calls, and what they should do -/

/-- Calls of methods of a slice. -/
inductive Op (E : Type) where
  | append (x : E) | appendMany (xs : List E) | delete (i : Int) | deleteLast | unorderedDelete (i : Int) | insertAt (i : Int) (x : E)
  | len | empty | at_ (i : Int) | set (i : Int) (x : E) | first | last

def Op.name : Op E → String
  | .append _ => "Append" | .appendMany _ => "AppendMany" | .delete _ => "Delete" | .deleteLast => "DeleteLast"
  | .unorderedDelete _ => "UnorderedDelete" | .insertAt .. => "InsertAt" | .len => "Len" | .empty => "Empty" | .at_ _ => "At"
  | .set .. => "Set" | .first => "First" | .last => "Last"

def Op.args : Op E → List (Val E)
  | .append x => [.elem x] | .appendMany xs => xs.map .elem | .delete i => [.num .int i] | .deleteLast => []
  | .unorderedDelete i => [.num .int i] | .insertAt i x => [.num .int i, .elem x] | .len => [] | .empty => [] | .at_ i => [.num .int i]
  | .set i x => [.num .int i, .elem x] | .first => [] | .last => []

/-- How many elements a call adds at most. -/
def Op.adds : Op E → Nat
  | .append _ | .insertAt .. => 1
  | .appendMany xs => xs.length
  | _ => 0

/-- What a call should do to a list: results and new list, or a panic. -/
def Op.spec (d : List E) : Op E → Except String (List (Val E) × List E)
  | .append x => .ok ([], d ++ [x])
  | .appendMany xs => .ok ([], d ++ xs)
  | .delete i => if 0 ≤ i ∧ i < d.length then .ok ([], d.eraseIdx i.toNat) else .error "delete out of bound"
  | .deleteLast => if d = [] then .error "delete from empty slice" else .ok ([], d.dropLast)
  | .unorderedDelete i =>
    match d.getLast? with
    | some y => if 0 ≤ i ∧ i < d.length then .ok ([], (d.set i.toNat y).dropLast) else .error "delete out of bound"
    | none => .error "delete out of bound"
  | .insertAt i x => if 0 ≤ i ∧ i ≤ d.length then .ok ([], d.insertIdx i.toNat x) else .error "insert out of bound"
  | .len => .ok ([.num .int d.length], d)
  | .empty => .ok ([.bool d.isEmpty], d)
  | .at_ i =>
    match if 0 ≤ i then d[i.toNat]? else none with
    | some y => .ok ([.elem y], d)
    | none => .error "index out of range"
  | .set i x => if 0 ≤ i ∧ i < d.length then .ok ([], d.set i.toNat x) else .error "index out of range"
  | .first =>
    match d.head? with
    | some y => .ok ([.elem y], d)
    | none => .error "index out of range"
  | .last =>
    match d.getLast? with
    | some y => .ok ([.elem y], d)
    | none => .error "index out of range"

variable [Inhabited E] {p : Par E}

/-- `s.f(…)` for the variable `s` in cell `(b, k)`, with calls nested at most `t` deep. -/
def call (p : Par E) (t b k : Nat) (o : Op E) (m : Mem E) : R (List (Val E) × Mem E) :=
  callOn (ctx p) (calls (ctx p) t) o.name (.ptr b k []) none o.args false m

/-! ## Each of them -/

omit [Inhabited E] in
theorem slice_short {m : Mem E} {v : Val E} {d : List E} {y : E} (h : Slice m v (d ++ [y])) : Slice m (short v) d := by
  generalize hd : d ++ [y] = d' at h
  cases h with
  | nil => simp at hd
  | @some a o c arr _ h hl hc hb =>
    subst hd
    have e : short (.slice a o (d ++ [y]).length c : Val E) = .slice a o d.length c := by simp [short]
    rw [e]
    rw [List.length_append, List.length_singleton] at hc hl
    refine .some h ?_ (by omega) hb
    have := congrArg (List.take d.length) hl
    rw [List.take_take, Nat.min_eq_left (by omega), ← List.map_take, List.take_left'] at this
    · exact this
    · rfl

omit [Inhabited E] in
theorem apart_short {b : Nat} {v : Val E} (h : Apart b v) : Apart b (short v) := by
  intro a o l c e
  cases v <;> simp only [short] at e <;> cases e
  exact h _ _ _ _ rfl

omit [Inhabited E] in
/-- Writing the window. -/
theorem wr_cell {m : Mem E} {v : Val E} {d : List E} (h : On m v d.length) {q j : Nat} (hj : ¬ In v q j) : (wr m v d).cell q j = m.cell q j := by
  generalize hn : d.length = n at h
  cases h with
  | nil => rfl
  | @some a o _ c arr h hc hb =>
    exact cell_puts h (by simp; omega) fun hx => hj ⟨o, n, c, by rw [hx.1], by omega, by simp at hx; omega⟩

omit [Inhabited E] in
theorem In.of_apart {b : Nat} {v : Val E} (h : Apart b v) (j : Nat) : ¬ In v b j := by
  rintro ⟨o, l, c, e, -⟩
  exact h _ _ _ _ e rfl

omit [Inhabited E] in
theorem wr_maps (m : Mem E) (v : Val E) (d : List E) : (wr m v d).maps = m.maps := by
  unfold wr
  split <;> rfl

omit [Inhabited E] in
/-- The assignment `*s = v'`, when memory has become `m1`. -/
theorem store_var {m : Mem E} {b k : Nat} {v v' : Val E} (hc : m.cell b k = some v) {d d' : List E} {m' : Mem E} (h : Slice m' v d) (h' : Slice m v' d') (env : Env E) :
    Src.store env m v' (.ptr (.ptr b k [])) = pure (env, m.put b k v') := by
  simp only [Src.store, hc, setPath, h'.fit]

omit [Inhabited E] in
theorem Var.assign {m m1 : Mem E} {b k : Nat} {v v' : Val E} {d d' : List E} (h : Var m b k v d) (hm : m.arrs.length ≤ m1.arrs.length) (hp : m1.maps = m.maps)
    (hc : ∀ q j, q < m.arrs.length → ¬ In v q j → ¬ In v' q j → m1.cell q j = m.cell q j) (h' : Slice m1 v' d') (ha : Apart b v') :
    m1.cell b k = some v ∧ Var (m1.put b k v') b k v' d' ∧ Writes b k v v' m (m1.put b k v') := by
  have hb : b < m.arrs.length := by
    have := h.cell
    unfold Mem.cell at this
    split at this
    · rename_i h; exact (List.getElem?_eq_some_iff.mp h).1
    · cases this
  have hv : m1.cell b k = some v := by rw [hc b k hb (In.of_apart h.apart k) (In.of_apart ha k), h.cell]
  refine ⟨hv, ⟨cell_put_same hv v', h'.put ha, ha⟩, by simpa using hm, hp, fun q j hq hj h1 h2 => ?_⟩
  rw [cell_put_other hj, hc q j hq h1 h2]

/-- The call is as it should be. -/
def Meets (m : Mem E) (b k : Nat) (v : Val E) (x : R (List (Val E) × Mem E)) : Except String (List (Val E) × List E) → Prop
  | .ok (r, d') => ∃ v' m', x = pure (r, m') ∧ Var m' b k v' d' ∧ Writes b k v v' m m'
  | .error e => x = panic e

theorem method_slice {C : Calls E} {m : Mem E} {b k : Nat} {v : Val E} {d : List E} (h : Var m b k v d) (f : String) (vs : List (Val E)) {g : Fn}
    (hg : prog.fns.lookup ("Slice" ++ "." ++ f) = some g) {x y : String} {q : Bool} (hr : g.recv = some (x, y, q)) (r : Option (Val E)) :
    callOn (ctx p) C f (.ptr b k []) r vs false m = invoke (ctx p) C ("Slice" ++ "." ++ f) ((if q = true then .ptr b k [] else v) :: vs) false m := by
  have hf : ∀ m : Mem E, ∀ d, Slice m v d → field f v = none ∧ typeName (ctx p) v = some "Slice" := fun m d h => by cases h <;> exact ⟨rfl, rfl⟩
  obtain ⟨h1, h2⟩ := hf m d h.holds
  simp only [callOn, load, h.cell, getPath, pure_bind, method, h1, h2, ctx_prog, hg, hr]
  cases q <;> rfl

theorem method_calls {C : Calls E} {m : Mem E} {b k : Nat} {v : Val E} {d : List E} (h : Var m b k v d) (f : String) (vs : List (Val E)) {g : Fn}
    (hg : prog.fns.lookup ("Slice" ++ "." ++ f) = some g) {x y : String} {q : Bool} (hr : g.recv = some (x, y, q)) (hv : g.variadic = false) (r : Option (Val E)) :
    callOn (ctx p) C f (.ptr b k []) r vs false m = C ("Slice" ++ "." ++ f) ((if q = true then .ptr b k [] else v) :: vs) m := by
  rw [method_slice h f vs hg hr r]
  simp only [invoke, ctx_prog, hg, pack, hv, Bool.false_eq_true, false_and, if_false]

omit [Inhabited E] in
theorem Var.old {m : Mem E} {b k : Nat} {v : Val E} {d : List E} (h : Var m b k v d) : b < m.arrs.length := by
  have := h.cell
  unfold Mem.cell at this
  split at this
  · rename_i h; exact (List.getElem?_eq_some_iff.mp h).1
  · cases this

omit [Inhabited E] in
theorem Var.load {m : Mem E} {b k : Nat} {v : Val E} {d : List E} (h : Var m b k v d) : Src.load m (.ptr b k []) = pure v := by
  simp only [Src.load, h.cell, getPath]

theorem append_step {m : Mem E} {b k : Nat} {v : Val E} {d : List E} (h : Var m b k v d) (t : Nat) (x : E) :
    Meets m b k v (call p (t + 1) b k (.append x) m) ((Op.append x).spec d) := by
  obtain ⟨v1, m1, e, h1, hm, hp, ha⟩ := h.holds.append (ctx p) [x]
  obtain ⟨e1, e2, e3⟩ := h.assign hm hp (fun q j hq _ hj => append_frame h.holds e q j hq hj) h1 (ha b h.old h.apart).2
  refine ⟨v1, m1.put b k v1, ?_, e2, e3⟩
  rw [call, Op.name, Op.args, method_calls h "Append" [.elem x] (g := Slice_Append_fn) rfl rfl rfl none]
  have e' : Src.append (ctx p) m v [.elem x] = pure (v1, m1) := e
  go_run [calls, Slice_Append_fn, e', store_var e1 h.holds h1, h.load]

theorem appendMany_src {m : Mem E} {b k : Nat} {v w : Val E} {d xs : List E} (h : Var m b k v d) (hw : Slice m w xs) (t : Nat) :
    ∃ v' m', calls (ctx p) (t + 1) "Slice.AppendMany" [.ptr b k [], w] m = pure ([], m') ∧ Var m' b k v' (d ++ xs) ∧ Writes b k v v' m m' := by
  obtain ⟨v1, m1, e, h1, hm, hp, ha⟩ := h.holds.append (ctx p) xs
  obtain ⟨e1, e2, e3⟩ := h.assign hm hp (fun q j hq _ hj => append_frame h.holds e q j hq hj) h1 (ha b h.old h.apart).2
  refine ⟨v1, m1.put b k v1, ?_, e2, e3⟩
  go_run [calls, Slice_AppendMany_fn, hw.fetch, hw.coerce, hw.values, e, store_var e1 h.holds h1, h.load]

omit [Inhabited E] in
theorem Var.alloc {m : Mem E} {b k : Nat} {v : Val E} {d : List E} (h : Var m b k v d) (l : List (Val E)) : Var (m.alloc l) b k v d :=
  ⟨by rw [cell_alloc h.old, h.cell], h.holds.alloc, h.apart⟩

omit [Inhabited E] in
theorem Writes.after_alloc {m m' : Mem E} {b k : Nat} {v v' : Val E} {l : List (Val E)} (h : Writes b k v v' (m.alloc l) m') : Writes b k v v' m m' := by
  obtain ⟨h1, h2, h3⟩ := h
  rw [alloc_length] at h1 h3
  exact ⟨by omega, h2, fun q j hq h4 h5 h6 => by rw [h3 q j (by omega) h4 h5 h6, cell_alloc hq]⟩

omit [Inhabited E] in
theorem slice_new (m : Mem E) (xs : List E) (r : List (Val E)) :
    Slice (m.alloc (xs.map .elem ++ r)) (.slice m.arrs.length 0 xs.length (xs.length + r.length)) xs :=
  .some (alloc_new _ _) (by simp) (by simp) (by simp)

theorem appendMany_step {m : Mem E} {b k : Nat} {v : Val E} {d : List E} (h : Var m b k v d) (t : Nat) (xs : List E) :
    Meets m b k v (call p (t + 1) b k (.appendMany xs) m) ((Op.appendMany xs).spec d) := by
  rw [call, Op.name, Op.args, method_slice h "AppendMany" _ (g := Slice_AppendMany_fn) rfl rfl none]
  cases xs with
  | nil => exact appendMany_src h .nil t
  | cons x xs =>
    have hn := slice_new m (x :: xs) []
    rw [List.append_nil] at hn
    obtain ⟨v', m', e1, e2, e3⟩ := appendMany_src (p := p) (h.alloc _) hn t
    refine ⟨v', m', ?_, e2, e3.after_alloc⟩
    rw [← e1]
    have hp : pack Slice_AppendMany_fn false (.ptr b k [] :: (x :: xs).map .elem) m =
        ([.ptr b k [], .slice m.arrs.length 0 (x :: xs).length ((x :: xs).length + ([] : List (Val E)).length)], m.alloc ((x :: xs).map .elem)) := by
      have hv : Slice_AppendMany_fn.variadic = true ∧ Slice_AppendMany_fn.params.length = 1 ∧ Slice_AppendMany_fn.recv.isSome = true := ⟨rfl, rfl, rfl⟩
      unfold pack
      simp [hv]
    simp only [invoke, ctx_prog, show prog.fns.lookup ("Slice" ++ "." ++ "AppendMany") = some Slice_AppendMany_fn from rfl, if_true, hp]
    rfl

theorem delete_step {m : Mem E} {b k : Nat} {v : Val E} {d : List E} (h : Var m b k v d) (hl : (d.length : Int) < 9223372036854775808) (t : Nat) (i : Int) :
    Meets m b k v (call p (t + 2) b k (.delete i) m) ((Op.delete i).spec d) := by
  rw [call, Op.name, Op.args, method_calls h "Delete" _ (g := Slice_Delete_fn) rfl rfl rfl none, Op.spec, calls]
  have e := delete_src (p := p) t h.holds hl i
  by_cases hi : 0 ≤ i ∧ i < d.length
  · rw [if_pos hi] at e
    rw [if_pos hi]
    have hL : (d.eraseIdx i.toNat ++ d.drop (d.length - 1)).length = d.length := by
      rw [List.length_append, List.length_eraseIdx_of_lt (by omega), List.length_drop]
      omega
    obtain ⟨y, hy⟩ : ∃ y, d.drop (d.length - 1) = [y] := by
      rw [← List.length_eq_one_iff, List.length_drop]
      omega
    have ho : On m v d.length := .of h.holds
    have h1 := ho.slice hL
    rw [hy] at h1 e hL
    obtain ⟨e1, e2, e3⟩ := h.assign (m1 := wr m v (d.eraseIdx i.toNat ++ [y])) (Nat.le_of_eq (wr_length _ _ _).symm) (wr_maps _ _ _)
      (fun q j hq hj _ => wr_cell (by rw [hL]; exact ho) hj) (slice_short h1) (apart_short h.apart)
    refine ⟨_, _, ?_, e2, e3⟩
    go_run [Slice_Delete_fn, ↓e, store_var e1 h.holds (slice_short h1), h.load]
  · rw [if_neg hi] at e
    rw [if_neg hi]
    show _ = panic _
    go_run [Slice_Delete_fn, ↓e, h.load]

theorem deleteLast_step {m : Mem E} {b k : Nat} {v : Val E} {d : List E} (h : Var m b k v d) (hl : (d.length : Int) < 9223372036854775808) (t : Nat) :
    Meets m b k v (call p (t + 2) b k .deleteLast m) (Op.deleteLast.spec d) := by
  rw [call, Op.name, Op.args, method_calls h "DeleteLast" _ (g := Slice_DeleteLast_fn) rfl rfl rfl none, Op.spec, calls]
  have e := deleteLast_src (p := p) t h.holds hl
  by_cases hd : d = []
  · rw [if_pos hd] at e
    rw [if_pos hd]
    show _ = panic _
    go_run [Slice_DeleteLast_fn, ↓e, h.load]
  · rw [if_neg hd] at e
    rw [if_neg hd]
    have h1 := h.holds
    rw [← List.dropLast_concat_getLast hd] at h1
    obtain ⟨e1, e2, e3⟩ := h.assign (m1 := m) (Nat.le_refl _) rfl (fun q j _ _ _ => rfl) (slice_short h1) (apart_short h.apart)
    refine ⟨_, _, ?_, e2, e3⟩
    go_run [Slice_DeleteLast_fn, ↓e, store_var e1 h.holds (slice_short h1), h.load]

theorem unorderedDelete_step {m : Mem E} {b k : Nat} {v : Val E} {d : List E} (h : Var m b k v d) (hl : (d.length : Int) < 9223372036854775808) (t : Nat) (i : Int) :
    Meets m b k v (call p (t + 2) b k (.unorderedDelete i) m) ((Op.unorderedDelete i).spec d) := by
  rw [call, Op.name, Op.args, method_calls h "UnorderedDelete" _ (g := Slice_UnorderedDelete_fn) rfl rfl rfl none, Op.spec, calls]
  have e := unorderedDelete_src (p := p) t h.holds hl i
  by_cases hi : 0 ≤ i ∧ i < d.length
  · rw [if_pos hi] at e
    obtain ⟨A, y, rfl⟩ : ∃ A y, d = A ++ [y] := by
      have hd : d ≠ [] := by rintro rfl; simp at hi; omega
      exact ⟨d.dropLast, d.getLast hd, (List.dropLast_concat_getLast hd).symm⟩
    simp only [List.getLast?_concat, if_pos hi]
    have hL : ((A ++ [y]).length : Int) - 1 = A.length := by simp
    rw [hL] at e
    obtain ⟨z, hz⟩ : ∃ z, Verif.Sort.swapL (A ++ [y]) i A.length = ((A ++ [y]).set i.toNat y).dropLast ++ [z] := by
      refine ⟨Verif.Sort.el (A ++ [y]) i, ?_⟩
      have e1 : Verif.Sort.el (A ++ [y]) A.length = y := by rw [Verif.Sort.el_eq_getElem ⟨by omega, by simp; omega⟩]; simp
      rw [Verif.Sort.swapL, e1, Int.toNat_natCast]
      generalize hB : (A ++ [y]).set i.toNat y = B
      have hBl : B.length = A.length + 1 := by rw [← hB]; simp
      obtain ⟨C, w, rfl⟩ : ∃ C w, B = C ++ [w] := by
        have hb : B ≠ [] := by rintro rfl; simp at hBl
        exact ⟨B.dropLast, B.getLast hb, (List.dropLast_concat_getLast hb).symm⟩
      have : C.length = A.length := by simpa using hBl
      rw [← this, List.dropLast_concat]
      simp
    have ho : On m v (A ++ [y]).length := .of h.holds
    have hL' : (((A ++ [y]).set i.toNat y).dropLast ++ [z]).length = (A ++ [y]).length := by simp
    rw [hz] at e
    have h1 := ho.slice hL'
    obtain ⟨e1, e2, e3⟩ := h.assign (m1 := wr m v (((A ++ [y]).set i.toNat y).dropLast ++ [z])) (Nat.le_of_eq (wr_length _ _ _).symm) (wr_maps _ _ _)
      (fun q j hq hj _ => wr_cell (by rw [hL']; exact ho) hj) (slice_short h1) (apart_short h.apart)
    refine ⟨_, _, ?_, e2, e3⟩
    go_run [Slice_UnorderedDelete_fn, ↓e, store_var e1 h.holds (slice_short h1), h.load]
  · rw [if_neg hi] at e
    have : (match d.getLast? with
      | some y => if 0 ≤ i ∧ i < d.length then .ok ([], (d.set i.toNat y).dropLast) else .error "delete out of bound"
      | none => .error "delete out of bound" : Except String (List (Val E) × List E)) = .error "delete out of bound" := by
      split
      · rw [if_neg hi]
      · rfl
    rw [this]
    show _ = panic _
    go_run [Slice_UnorderedDelete_fn, ↓e, h.load]

theorem insertAt_step {m : Mem E} {b k : Nat} {v : Val E} {d : List E} (h : Var m b k v d) (hl : (d.length : Int) + 1 < 9223372036854775808) (t : Nat) (i : Int) (x : E) :
    Meets m b k v (call p (t + 2) b k (.insertAt i x) m) ((Op.insertAt i x).spec d) := by
  rw [call, Op.name, Op.args, method_calls h "InsertAt" _ (g := Slice_InsertAt_fn) rfl rfl rfl none, Op.spec, calls]
  obtain ⟨v1, m1, ea, h1, hm, hp, ha⟩ := h.holds.append (ctx p) [x]
  have e := insert_src t h.holds hl i x ea h1
  by_cases hi : 0 ≤ i ∧ i ≤ d.length
  · rw [if_pos hi] at e
    rw [if_pos hi]
    have hL : (d.insertIdx i.toNat x).length = (d ++ [x]).length := by
      rw [List.length_insertIdx_of_le_length (by omega)]
      simp
    have ho : On m1 v1 (d ++ [x]).length := .of h1
    have h2 := ho.slice hL
    obtain ⟨e1, e2, e3⟩ := h.assign (m1 := wr m1 v1 (d.insertIdx i.toNat x)) (by rw [wr_length]; exact hm) (by rw [wr_maps, hp])
      (fun q j hq _ hj => by rw [wr_cell (by rw [hL]; exact ho) hj, append_frame h.holds ea q j hq hj]) h2 (ha b h.old h.apart).2
    refine ⟨_, _, ?_, e2, e3⟩
    go_run [Slice_InsertAt_fn, ↓e, store_var e1 h.holds h2, h.load]
  · rw [if_neg hi] at e
    rw [if_neg hi]
    show _ = panic _
    go_run [Slice_InsertAt_fn, ↓e, h.load]

omit [Inhabited E] in
theorem Meets.same {m : Mem E} {b k : Nat} {v : Val E} {d : List E} (h : Var m b k v d) {x : R (List (Val E) × Mem E)} {r : List (Val E)} (e : x = pure (r, m)) :
    Meets m b k v x (.ok (r, d)) := ⟨v, m, e, h, .refl b k v m⟩

theorem look_step {m : Mem E} {b k : Nat} {v : Val E} {d : List E} (h : Var m b k v d) (hl : (d.length : Int) < 9223372036854775808) (t : Nat) :
    Meets m b k v (call p (t + 2) b k .len m) (Op.len.spec d) ∧
    Meets m b k v (call p (t + 2) b k .empty m) (Op.empty.spec d) ∧
    (∀ i, Meets m b k v (call p (t + 2) b k (.at_ i) m) ((Op.at_ i).spec d)) ∧
    Meets m b k v (call p (t + 2) b k .first m) (Op.first.spec d) ∧
    Meets m b k v (call p (t + 2) b k .last m) (Op.last.spec d) := by
  have hs := h.holds
  refine ⟨?_, ?_, fun i => ?_, ?_, ?_⟩
  · refine .same h ?_
    rw [call, Op.name, Op.args, method_calls h "Len" _ (g := Slice_Len_fn) rfl rfl rfl none, calls]
    go_run [Slice_Len_fn, hs.len, hs.fetch, hs.coerce]
  · refine .same h ?_
    rw [call, Op.name, Op.args, method_calls h "Empty" _ (g := Slice_Empty_fn) rfl rfl rfl none, calls]
    go_run [Slice_Empty_fn, hs.len, hs.fetch, hs.coerce]
    have : decide ((d.length : Int) = 0) = d.isEmpty := by
      cases d with
      | nil => rfl
      | cons a d => simp only [List.length_cons, List.isEmpty_cons]; exact decide_eq_false (by omega)
    rw [this]
  · rw [call, Op.name, Op.args, method_calls h "At" _ (g := Slice_At_fn) rfl rfl rfl none, calls, Op.spec]
    by_cases hi : 0 ≤ i ∧ i.toNat < d.length
    · rw [if_pos hi.1, List.getElem?_eq_getElem hi.2]
      refine .same h ?_
      go_run [Slice_At_fn, hs.fetch, hs.coerce, hs.index hi.1 hi.2]
    · have : (if 0 ≤ i then d[i.toNat]? else none) = none := by
        split
        · exact List.getElem?_eq_none (by omega)
        · rfl
      rw [this]
      show _ = panic _
      go_run [Slice_At_fn, hs.fetch, hs.coerce, hs.index_out hi]
  · rw [call, Op.name, Op.args, method_calls h "First" _ (g := Slice_First_fn) rfl rfl rfl none, calls, Op.spec]
    cases d with
    | nil =>
      show _ = panic _
      go_run [Slice_First_fn, hs.fetch, hs.coerce, hs.index_out (i := 0) (by simp)]
    | cons y d =>
      refine .same h ?_
      go_run [Slice_First_fn, hs.fetch, hs.coerce, hs.index (i := 0) (by omega) (by simp)]
      rfl
  · rw [call, Op.name, Op.args, method_calls h "Last" _ (g := Slice_Last_fn) rfl rfl rfl none, calls, Op.spec]
    by_cases hd : d = []
    · subst hd
      show _ = panic _
      have e := hs.index_out (i := -1) (k := .int) (by simp)
      go_run [Slice_Last_fn, hs.fetch, hs.coerce, hs.len, List.length_nil, e]
    · have := List.length_pos_iff.2 hd
      rw [List.getLast?_eq_getElem?, List.getElem?_eq_getElem (by omega)]
      refine .same h ?_
      have e := hs.index (i := (d.length : Int) - 1) (k := .int) (by omega) (by omega)
      go_run [Slice_Last_fn, hs.fetch, hs.coerce, hs.len, e]
      have : ((d.length : Int) - 1).toNat = d.length - 1 := by omega
      simp only [this]

theorem set_step {m : Mem E} {b k : Nat} {v : Val E} {d : List E} (h : Var m b k v d) (t : Nat) (i : Int) (x : E) :
    Meets m b k v (call p (t + 2) b k (.set i x) m) ((Op.set i x).spec d) := by
  have hs := h.holds
  have ho := On.of hs
  rw [call, Op.name, Op.args, method_calls h "Set" _ (g := Slice_Set_fn) rfl rfl rfl none, calls, Op.spec]
  by_cases hi : 0 ≤ i ∧ i < d.length
  · rw [if_pos hi]
    refine ⟨v, wr m v (d.set i.toNat x), ?_, ⟨?_, ho.slice (by simp), h.apart⟩, ?_, ?_, ?_⟩
    · have e := ho.store (d := d) rfl [("s", v), ("i", .num .int i), ("x", .elem x)] (q := .int) hi.1 hi.2 x
      rw [wr_self hs] at e
      go_run [Slice_Set_fn, hs.fetch, hs.coerce, e]
    · rw [wr_cell (by simpa using ho) (In.of_apart h.apart k), h.cell]
    · rw [wr_length]
    · exact wr_maps _ _ _
    · intro q j _ _ hj _
      exact wr_cell (by simpa using ho) hj
  · rw [if_neg hi]
    have e : ∀ env, Src.store env m (.elem x) (.elem v (.num .int i)) = panic "index out of range" := by
      intro env
      cases hs with
      | nil => rfl
      | some => simp only [Src.store]; rw [if_neg (by omega)]
    show _ = panic _
    go_run [Slice_Set_fn, hs.fetch, hs.coerce, e]

/-! ## Any sequence of calls -/

/-- **C151.** A call of a method of a slice variable does to its elements what it should, or panics with the message it should. It writes
the variable and cells of the windows of the old and the new slice; no other cell changes. -/
theorem C151_call {m : Mem E} {b k : Nat} {v : Val E} {d : List E} (h : Var m b k v d) (o : Op E) (hl : d.length + o.adds < 2 ^ 63) (t : Nat) (ht : 2 ≤ t) :
    Meets m b k v (call p t b k o m) (o.spec d) := by
  obtain ⟨t, rfl⟩ : ∃ t', t = t' + 2 := ⟨t - 2, by omega⟩
  have hd : (d.length : Int) < 9223372036854775808 := by omega
  obtain ⟨h1, h2, h3, h4, h5⟩ := look_step (p := p) h hd t
  cases o with
  | append x => exact append_step h (t + 1) x
  | appendMany xs => exact appendMany_step h (t + 1) xs
  | delete i => exact delete_step h hd t i
  | deleteLast => exact deleteLast_step h hd t
  | unorderedDelete i => exact unorderedDelete_step h hd t i
  | insertAt i x => exact insertAt_step h (by simp only [Op.adds] at hl; omega) t i x
  | len => exact h1
  | empty => exact h2
  | at_ i => exact h3 i
  | set i x => exact set_step h t i x
  | first => exact h4
  | last => exact h5

/-- Calls one after the other, up to the first panic: their results, then the panic if there is one. -/
def callAll (p : Par E) (t b k : Nat) : List (Op E) → Mem E → Option (List (List (Val E)) × (String ⊕ Mem E))
  | [], m => some ([], .inr m)
  | o :: os, m =>
    match call p t b k o m with
    | none => none
    | some (.error e) => some ([], .inl e)
    | some (.ok (r, m')) => (callAll p t b k os m').map fun x => (r :: x.1, x.2)

/-- What they should give. -/
def specs : List (Op E) → List E → List (List (Val E)) × (String ⊕ List E)
  | [], d => ([], .inr d)
  | o :: os, d =>
    match o.spec d with
    | .error e => ([], .inl e)
    | .ok (r, d') => (r :: (specs os d').1, (specs os d').2)

omit [Inhabited E] in
theorem spec_length (o : Op E) {d d' : List E} {r : List (Val E)} (h : o.spec d = .ok (r, d')) : d'.length ≤ d.length + o.adds := by
  cases o <;> simp only [Op.spec, Op.adds] at h ⊢ <;> (repeat' split at h) <;> cases h <;> simp [List.length_eraseIdx, List.length_insertIdx] <;> (try split) <;> omega

/-- **C151.** Any sequence of calls on a slice variable, from its text: the results are those of the list, up to the panic if there is one;
then the variable holds the list. -/
theorem C151_history {m : Mem E} {b k : Nat} {v : Val E} {d : List E} (h : Var m b k v d) (os : List (Op E))
    (hl : d.length + (os.map Op.adds).sum < 2 ^ 63) (t : Nat) (ht : 2 ≤ t) :
    match (specs os d).2 with
    | .inl e => callAll p t b k os m = some ((specs os d).1, .inl e)
    | .inr d' => ∃ v' m', callAll p t b k os m = some ((specs os d).1, .inr m') ∧ Var m' b k v' d' := by
  induction os generalizing m v d with
  | nil => exact ⟨v, m, rfl, h⟩
  | cons o os ih =>
    simp only [List.map_cons, List.sum_cons] at hl
    have hm := C151_call (p := p) h o (by omega) t ht
    cases hs : o.spec d with
    | error e =>
      rw [hs] at hm
      have hm : call p t b k o m = panic e := hm
      simp only [specs, hs, callAll, hm]
      rfl
    | ok x =>
      obtain ⟨r, d'⟩ := x
      rw [hs] at hm
      obtain ⟨v', m', e1, h', -⟩ := hm
      have := spec_length o hs
      have ih := ih h' (by omega)
      have e2 : callAll p t b k (o :: os) m = (callAll p t b k os m').map fun x => (r :: x.1, x.2) := by
        simp only [callAll, e1]
        rfl
      simp only [specs, hs]
      rw [e2]
      cases hq : (specs os d').2 with
      | inl e =>
        simp only [hq] at ih ⊢
        rw [ih]
        rfl
      | inr d2 =>
        simp only [hq] at ih ⊢
        obtain ⟨v2, m2, e3, h3⟩ := ih
        exact ⟨v2, m2, by rw [e3]; rfl, h3⟩

end Verif.Src.Algo
