import Verif.Src.Memory
import Verif.Src.SortText
import Verif.Src.SortAnyText
import Verif.Src.SortOrderedText
import Verif.Sort.Model

/-!
# xsort: the program, and runs of the model

The three files of xsort as a program of Src/Sem.lean, and what is needed to compare it with the model of Sort/Model.lean.
-/

namespace Verif.Src.Sort

open Verif.Sort (M el inRange ofOps swapL)

/-- The functions of xsort, each as its lines. -/
def texts : List (String × List String) :=
  [("xorshift.Next", xorshift_Next_text),
    ("nextPowerOfTwo", nextPowerOfTwo_text),
    ("SortOrdered", SortOrdered_text),
    ("Sort", Sort_text),
    ("StableOrdered", StableOrdered_text),
    ("Stable", Stable_text),
    ("insertionSortLessFunc", insertionSortLessFunc_text),
    ("siftDownLessFunc", siftDownLessFunc_text),
    ("heapSortLessFunc", heapSortLessFunc_text),
    ("pdqsortLessFunc", pdqsortLessFunc_text),
    ("partitionLessFunc", partitionLessFunc_text),
    ("partitionEqualLessFunc", partitionEqualLessFunc_text),
    ("partialInsertionSortLessFunc", partialInsertionSortLessFunc_text),
    ("breakPatternsLessFunc", breakPatternsLessFunc_text),
    ("choosePivotLessFunc", choosePivotLessFunc_text),
    ("order2LessFunc", order2LessFunc_text),
    ("medianLessFunc", medianLessFunc_text),
    ("medianAdjacentLessFunc", medianAdjacentLessFunc_text),
    ("reverseRangeLessFunc", reverseRangeLessFunc_text),
    ("swapRangeLessFunc", swapRangeLessFunc_text),
    ("stableLessFunc", stableLessFunc_text),
    ("symMergeLessFunc", symMergeLessFunc_text),
    ("rotateLessFunc", rotateLessFunc_text),
    ("insertionSortOrdered", insertionSortOrdered_text),
    ("siftDownOrdered", siftDownOrdered_text),
    ("heapSortOrdered", heapSortOrdered_text),
    ("pdqsortOrdered", pdqsortOrdered_text),
    ("partitionOrdered", partitionOrdered_text),
    ("partitionEqualOrdered", partitionEqualOrdered_text),
    ("partialInsertionSortOrdered", partialInsertionSortOrdered_text),
    ("breakPatternsOrdered", breakPatternsOrdered_text),
    ("choosePivotOrdered", choosePivotOrdered_text),
    ("order2Ordered", order2Ordered_text),
    ("medianOrdered", medianOrdered_text),
    ("medianAdjacentOrdered", medianAdjacentOrdered_text),
    ("reverseRangeOrdered", reverseRangeOrdered_text),
    ("swapRangeOrdered", swapRangeOrdered_text),
    ("stableOrdered", stableOrdered_text),
    ("symMergeOrdered", symMergeOrdered_text),
    ("rotateOrdered", rotateOrdered_text)]

/-- xsort/sort.go, sort_any.go and sort_ordered.go, without the generic type parameters: the functions quoted in
Src/Sort…Text.lean, the types of lines 10 and 19 of sort.go and the constants of its lines 12-16. -/
def prog : Src.Prog where
  fns := [("xorshift.Next", xorshift_Next_fn),
    ("nextPowerOfTwo", nextPowerOfTwo_fn),
    ("SortOrdered", SortOrdered_fn),
    ("Sort", Sort_fn),
    ("StableOrdered", StableOrdered_fn),
    ("Stable", Stable_fn),
    ("insertionSortLessFunc", insertionSortLessFunc_fn),
    ("siftDownLessFunc", siftDownLessFunc_fn),
    ("heapSortLessFunc", heapSortLessFunc_fn),
    ("pdqsortLessFunc", pdqsortLessFunc_fn),
    ("partitionLessFunc", partitionLessFunc_fn),
    ("partitionEqualLessFunc", partitionEqualLessFunc_fn),
    ("partialInsertionSortLessFunc", partialInsertionSortLessFunc_fn),
    ("breakPatternsLessFunc", breakPatternsLessFunc_fn),
    ("choosePivotLessFunc", choosePivotLessFunc_fn),
    ("order2LessFunc", order2LessFunc_fn),
    ("medianLessFunc", medianLessFunc_fn),
    ("medianAdjacentLessFunc", medianAdjacentLessFunc_fn),
    ("reverseRangeLessFunc", reverseRangeLessFunc_fn),
    ("swapRangeLessFunc", swapRangeLessFunc_fn),
    ("stableLessFunc", stableLessFunc_fn),
    ("symMergeLessFunc", symMergeLessFunc_fn),
    ("rotateLessFunc", rotateLessFunc_fn),
    ("insertionSortOrdered", insertionSortOrdered_fn),
    ("siftDownOrdered", siftDownOrdered_fn),
    ("heapSortOrdered", heapSortOrdered_fn),
    ("pdqsortOrdered", pdqsortOrdered_fn),
    ("partitionOrdered", partitionOrdered_fn),
    ("partitionEqualOrdered", partitionEqualOrdered_fn),
    ("partialInsertionSortOrdered", partialInsertionSortOrdered_fn),
    ("breakPatternsOrdered", breakPatternsOrdered_fn),
    ("choosePivotOrdered", choosePivotOrdered_fn),
    ("order2Ordered", order2Ordered_fn),
    ("medianOrdered", medianOrdered_fn),
    ("medianAdjacentOrdered", medianAdjacentOrdered_fn),
    ("reverseRangeOrdered", reverseRangeOrdered_fn),
    ("swapRangeOrdered", swapRangeOrdered_fn),
    ("stableOrdered", stableOrdered_fn),
    ("symMergeOrdered", symMergeOrdered_fn),
    ("rotateOrdered", rotateOrdered_fn)]
  structs := []
  types := [("sortedHint", .name "int" []), ("xorshift", .name "uint64" [])]
  consts := [("unknownHint", 0), ("increasingHint", 1), ("decreasingHint", 2)]

theorem text : texts.map (fun x => (x.1, parseFn x.2)) = prog.fns.map (fun x => (x.1, some x.2)) := by
  simp only [texts, prog, List.map_cons, List.map_nil, xorshift_Next_parse, nextPowerOfTwo_parse, SortOrdered_parse, Sort_parse, StableOrdered_parse, Stable_parse, insertionSortLessFunc_parse, siftDownLessFunc_parse, heapSortLessFunc_parse, pdqsortLessFunc_parse, partitionLessFunc_parse, partitionEqualLessFunc_parse, partialInsertionSortLessFunc_parse, breakPatternsLessFunc_parse, choosePivotLessFunc_parse, order2LessFunc_parse, medianLessFunc_parse, medianAdjacentLessFunc_parse, reverseRangeLessFunc_parse, swapRangeLessFunc_parse, stableLessFunc_parse, symMergeLessFunc_parse, rotateLessFunc_parse, insertionSortOrdered_parse, siftDownOrdered_parse, heapSortOrdered_parse, pdqsortOrdered_parse, partitionOrdered_parse, partitionEqualOrdered_parse, partialInsertionSortOrdered_parse, breakPatternsOrdered_parse, choosePivotOrdered_parse, order2Ordered_parse, medianOrdered_parse, medianAdjacentOrdered_parse, reverseRangeOrdered_parse, swapRangeOrdered_parse, stableOrdered_parse, symMergeOrdered_parse, rotateOrdered_parse]

variable {E : Type} [Inhabited E]

/-- Go `bits.Len` and the comparator that is given to `Sort` and `Stable`. -/
def ext (less : E → E → Bool) : String → List (Val E) → Mem E → R (List (Val E) × Mem E)
  | "less", [.elem x, .elem y], m => pure ([.bool (less x y)], m)
  | "bits.Len", [.num .uint n], m => pure ([.num .int (Verif.Sort.bitsLen n.toNat)], m)
  | _, _, _ => stuck

/-- The operators of elements. -/
def cmp (lt ge : E → E → Bool) : String → E → E → Option Bool
  | "<", x, y => some (lt x y)
  | ">=", x, y => some (ge x y)
  | _, _, _ => none

/-- The program over elements `E` with `<` and `>=`, and a comparator function. -/
def ctx (lt ge less : E → E → Bool) : Ctx E where
  prog := prog
  boxed := ["random", "swaps"]
  zeroOf _ := none
  pad := .elem default
  grow _ _ := 0
  cmp := cmp lt ge
  ext := ext less

section
variable (lt ge less : E → E → Bool)
@[go_eval] theorem ctx_prog : (ctx lt ge less).prog = prog := rfl
@[go_eval] theorem ctx_boxed : (ctx lt ge less).boxed = ["random", "swaps"] := rfl
@[go_eval] theorem ctx_boxedParams : (ctx lt ge less).boxedParams = [] := rfl
@[go_eval] theorem ctx_sliceTy : (ctx lt ge less).sliceTy = none := rfl
@[go_eval] theorem ctx_lt (x y : E) : (ctx lt ge less).cmp "<" x y = some (lt x y) := rfl
@[go_eval] theorem ctx_ge (x y : E) : (ctx lt ge less).cmp ">=" x y = some (ge x y) := rfl
@[go_eval] theorem ctx_less (x y : E) (m : Mem E) :
    (ctx lt ge less).ext "less" [.elem x, .elem y] m = pure ([.bool (less x y)], m) := rfl
@[go_eval] theorem ctx_len (n : Int) (m : Mem E) :
    (ctx lt ge less).ext "bits.Len" [.num .uint n] m = pure ([.num .int (Verif.Sort.bitsLen n.toNat)], m) := rfl
@[go_eval] theorem prog_structs : prog.structs = [] := rfl
@[go_eval] theorem prog_types : prog.types = [("sortedHint", .name "int" []), ("xorshift", .name "uint64" [])] := rfl
@[go_eval] theorem prog_consts : prog.consts = [("unknownHint", 0), ("increasingHint", 1), ("decreasingHint", 2)] := rfl
@[go_eval] theorem look_less : prog.fns.lookup "less" = none := rfl
@[go_eval] theorem look_len : prog.fns.lookup "bits.Len" = none := rfl
@[go_eval] theorem look_xorshift_Next : prog.fns.lookup "xorshift.Next" = some xorshift_Next_fn := rfl
@[go_eval] theorem look_nextPowerOfTwo : prog.fns.lookup "nextPowerOfTwo" = some nextPowerOfTwo_fn := rfl
@[go_eval] theorem look_SortOrdered : prog.fns.lookup "SortOrdered" = some SortOrdered_fn := rfl
@[go_eval] theorem look_Sort : prog.fns.lookup "Sort" = some Sort_fn := rfl
@[go_eval] theorem look_StableOrdered : prog.fns.lookup "StableOrdered" = some StableOrdered_fn := rfl
@[go_eval] theorem look_Stable : prog.fns.lookup "Stable" = some Stable_fn := rfl
@[go_eval] theorem look_insertionSortLessFunc : prog.fns.lookup "insertionSortLessFunc" = some insertionSortLessFunc_fn := rfl
@[go_eval] theorem look_siftDownLessFunc : prog.fns.lookup "siftDownLessFunc" = some siftDownLessFunc_fn := rfl
@[go_eval] theorem look_heapSortLessFunc : prog.fns.lookup "heapSortLessFunc" = some heapSortLessFunc_fn := rfl
@[go_eval] theorem look_pdqsortLessFunc : prog.fns.lookup "pdqsortLessFunc" = some pdqsortLessFunc_fn := rfl
@[go_eval] theorem look_partitionLessFunc : prog.fns.lookup "partitionLessFunc" = some partitionLessFunc_fn := rfl
@[go_eval] theorem look_partitionEqualLessFunc : prog.fns.lookup "partitionEqualLessFunc" = some partitionEqualLessFunc_fn := rfl
@[go_eval] theorem look_partialInsertionSortLessFunc : prog.fns.lookup "partialInsertionSortLessFunc" = some partialInsertionSortLessFunc_fn := rfl
@[go_eval] theorem look_breakPatternsLessFunc : prog.fns.lookup "breakPatternsLessFunc" = some breakPatternsLessFunc_fn := rfl
@[go_eval] theorem look_choosePivotLessFunc : prog.fns.lookup "choosePivotLessFunc" = some choosePivotLessFunc_fn := rfl
@[go_eval] theorem look_order2LessFunc : prog.fns.lookup "order2LessFunc" = some order2LessFunc_fn := rfl
@[go_eval] theorem look_medianLessFunc : prog.fns.lookup "medianLessFunc" = some medianLessFunc_fn := rfl
@[go_eval] theorem look_medianAdjacentLessFunc : prog.fns.lookup "medianAdjacentLessFunc" = some medianAdjacentLessFunc_fn := rfl
@[go_eval] theorem look_reverseRangeLessFunc : prog.fns.lookup "reverseRangeLessFunc" = some reverseRangeLessFunc_fn := rfl
@[go_eval] theorem look_swapRangeLessFunc : prog.fns.lookup "swapRangeLessFunc" = some swapRangeLessFunc_fn := rfl
@[go_eval] theorem look_stableLessFunc : prog.fns.lookup "stableLessFunc" = some stableLessFunc_fn := rfl
@[go_eval] theorem look_symMergeLessFunc : prog.fns.lookup "symMergeLessFunc" = some symMergeLessFunc_fn := rfl
@[go_eval] theorem look_rotateLessFunc : prog.fns.lookup "rotateLessFunc" = some rotateLessFunc_fn := rfl
@[go_eval] theorem look_insertionSortOrdered : prog.fns.lookup "insertionSortOrdered" = some insertionSortOrdered_fn := rfl
@[go_eval] theorem look_siftDownOrdered : prog.fns.lookup "siftDownOrdered" = some siftDownOrdered_fn := rfl
@[go_eval] theorem look_heapSortOrdered : prog.fns.lookup "heapSortOrdered" = some heapSortOrdered_fn := rfl
@[go_eval] theorem look_pdqsortOrdered : prog.fns.lookup "pdqsortOrdered" = some pdqsortOrdered_fn := rfl
@[go_eval] theorem look_partitionOrdered : prog.fns.lookup "partitionOrdered" = some partitionOrdered_fn := rfl
@[go_eval] theorem look_partitionEqualOrdered : prog.fns.lookup "partitionEqualOrdered" = some partitionEqualOrdered_fn := rfl
@[go_eval] theorem look_partialInsertionSortOrdered : prog.fns.lookup "partialInsertionSortOrdered" = some partialInsertionSortOrdered_fn := rfl
@[go_eval] theorem look_breakPatternsOrdered : prog.fns.lookup "breakPatternsOrdered" = some breakPatternsOrdered_fn := rfl
@[go_eval] theorem look_choosePivotOrdered : prog.fns.lookup "choosePivotOrdered" = some choosePivotOrdered_fn := rfl
@[go_eval] theorem look_order2Ordered : prog.fns.lookup "order2Ordered" = some order2Ordered_fn := rfl
@[go_eval] theorem look_medianOrdered : prog.fns.lookup "medianOrdered" = some medianOrdered_fn := rfl
@[go_eval] theorem look_medianAdjacentOrdered : prog.fns.lookup "medianAdjacentOrdered" = some medianAdjacentOrdered_fn := rfl
@[go_eval] theorem look_reverseRangeOrdered : prog.fns.lookup "reverseRangeOrdered" = some reverseRangeOrdered_fn := rfl
@[go_eval] theorem look_swapRangeOrdered : prog.fns.lookup "swapRangeOrdered" = some swapRangeOrdered_fn := rfl
@[go_eval] theorem look_stableOrdered : prog.fns.lookup "stableOrdered" = some stableOrdered_fn := rfl
@[go_eval] theorem look_symMergeOrdered : prog.fns.lookup "symMergeOrdered" = some symMergeOrdered_fn := rfl
@[go_eval] theorem look_rotateOrdered : prog.fns.lookup "rotateOrdered" = some rotateOrdered_fn := rfl
@[go_eval] theorem variadic_xorshift_Next : xorshift_Next_fn.variadic = false := rfl
@[go_eval] theorem variadic_nextPowerOfTwo : nextPowerOfTwo_fn.variadic = false := rfl
@[go_eval] theorem variadic_SortOrdered : SortOrdered_fn.variadic = false := rfl
@[go_eval] theorem variadic_Sort : Sort_fn.variadic = false := rfl
@[go_eval] theorem variadic_StableOrdered : StableOrdered_fn.variadic = false := rfl
@[go_eval] theorem variadic_Stable : Stable_fn.variadic = false := rfl
@[go_eval] theorem variadic_insertionSortLessFunc : insertionSortLessFunc_fn.variadic = false := rfl
@[go_eval] theorem variadic_siftDownLessFunc : siftDownLessFunc_fn.variadic = false := rfl
@[go_eval] theorem variadic_heapSortLessFunc : heapSortLessFunc_fn.variadic = false := rfl
@[go_eval] theorem variadic_pdqsortLessFunc : pdqsortLessFunc_fn.variadic = false := rfl
@[go_eval] theorem variadic_partitionLessFunc : partitionLessFunc_fn.variadic = false := rfl
@[go_eval] theorem variadic_partitionEqualLessFunc : partitionEqualLessFunc_fn.variadic = false := rfl
@[go_eval] theorem variadic_partialInsertionSortLessFunc : partialInsertionSortLessFunc_fn.variadic = false := rfl
@[go_eval] theorem variadic_breakPatternsLessFunc : breakPatternsLessFunc_fn.variadic = false := rfl
@[go_eval] theorem variadic_choosePivotLessFunc : choosePivotLessFunc_fn.variadic = false := rfl
@[go_eval] theorem variadic_order2LessFunc : order2LessFunc_fn.variadic = false := rfl
@[go_eval] theorem variadic_medianLessFunc : medianLessFunc_fn.variadic = false := rfl
@[go_eval] theorem variadic_medianAdjacentLessFunc : medianAdjacentLessFunc_fn.variadic = false := rfl
@[go_eval] theorem variadic_reverseRangeLessFunc : reverseRangeLessFunc_fn.variadic = false := rfl
@[go_eval] theorem variadic_swapRangeLessFunc : swapRangeLessFunc_fn.variadic = false := rfl
@[go_eval] theorem variadic_stableLessFunc : stableLessFunc_fn.variadic = false := rfl
@[go_eval] theorem variadic_symMergeLessFunc : symMergeLessFunc_fn.variadic = false := rfl
@[go_eval] theorem variadic_rotateLessFunc : rotateLessFunc_fn.variadic = false := rfl
@[go_eval] theorem variadic_insertionSortOrdered : insertionSortOrdered_fn.variadic = false := rfl
@[go_eval] theorem variadic_siftDownOrdered : siftDownOrdered_fn.variadic = false := rfl
@[go_eval] theorem variadic_heapSortOrdered : heapSortOrdered_fn.variadic = false := rfl
@[go_eval] theorem variadic_pdqsortOrdered : pdqsortOrdered_fn.variadic = false := rfl
@[go_eval] theorem variadic_partitionOrdered : partitionOrdered_fn.variadic = false := rfl
@[go_eval] theorem variadic_partitionEqualOrdered : partitionEqualOrdered_fn.variadic = false := rfl
@[go_eval] theorem variadic_partialInsertionSortOrdered : partialInsertionSortOrdered_fn.variadic = false := rfl
@[go_eval] theorem variadic_breakPatternsOrdered : breakPatternsOrdered_fn.variadic = false := rfl
@[go_eval] theorem variadic_choosePivotOrdered : choosePivotOrdered_fn.variadic = false := rfl
@[go_eval] theorem variadic_order2Ordered : order2Ordered_fn.variadic = false := rfl
@[go_eval] theorem variadic_medianOrdered : medianOrdered_fn.variadic = false := rfl
@[go_eval] theorem variadic_medianAdjacentOrdered : medianAdjacentOrdered_fn.variadic = false := rfl
@[go_eval] theorem variadic_reverseRangeOrdered : reverseRangeOrdered_fn.variadic = false := rfl
@[go_eval] theorem variadic_swapRangeOrdered : swapRangeOrdered_fn.variadic = false := rfl
@[go_eval] theorem variadic_stableOrdered : stableOrdered_fn.variadic = false := rfl
@[go_eval] theorem variadic_symMergeOrdered : symMergeOrdered_fn.variadic = false := rfl
@[go_eval] theorem variadic_rotateOrdered : rotateOrdered_fn.variadic = false := rfl
end

/-! ## The slice that is sorted -/

/-- `v` is a slice of `k` elements. -/
inductive On (m : Mem E) : Val E → Nat → Prop
  | nil : On m .nil 0
  | some {a o k c : Nat} {arr : List (Val E)} (h : m.arrs[a]? = some arr) (hc : k ≤ c) (hb : o + c ≤ arr.length) :
      On m (.slice a o k c) k

/-- Memory with the contents `d` of the slice `v`. -/
def wr (m : Mem E) (v : Val E) (d : List E) : Mem E :=
  match v with
  | .slice a o _ _ => m.puts a o (d.map .elem)
  | _ => m

omit [Inhabited E] in
theorem On.of {m : Mem E} {v : Val E} {d : List E} (h : Slice m v d) : On m v d.length := by
  cases h with
  | nil => exact .nil
  | some h hl hc hb => exact .some h hc hb

omit [Inhabited E] in
/-- The memory is that with the contents it has. -/
theorem wr_self {m : Mem E} {v : Val E} {d : List E} (h : Slice m v d) : wr m v d = m := by
  cases h with
  | nil => rfl
  | @some a o c arr _ h hl hc hb =>
    cases m with
    | mk arrs maps =>
      unfold wr Mem.puts
      simp only at h ⊢
      congr 1
      apply List.ext_getElem?
      intro i
      rw [List.getElem?_modify]
      by_cases hi : a = i
      · subst hi
        simp only [h, if_true, ← hl, Option.map_some, Option.map_eq_map, Option.some.injEq]
        have : o + (List.take d.length (List.drop o arr)).length = o + d.length := by
          rw [List.length_take, List.length_drop]; omega
        rw [this, ← List.drop_drop, List.append_assoc, List.take_append_drop, List.take_append_drop]
      · simp [hi]

omit [Inhabited E] in
theorem On.slice {m : Mem E} {v : Val E} {k : Nat} (h : On m v k) {d : List E} (hd : d.length = k) :
    Slice (wr m v d) v d := by
  cases h with
  | nil =>
    rw [List.eq_nil_of_length_eq_zero hd]
    exact .nil
  | @some a o _ c arr h hc hb =>
    subst hd
    refine .some (puts_same_arr h _) ?_ hc (by simp; omega)
    have ho : (List.take o arr).length = o := by rw [List.length_take]; omega
    rw [List.append_assoc, List.drop_append, ho, List.drop_eq_nil_of_le (by omega), Nat.sub_self, List.drop_zero,
      List.nil_append, List.take_append_of_le_length (by simp), List.take_of_length_le (by simp)]

omit [Inhabited E] in
theorem setAt_wr {m : Mem E} {v : Val E} {k : Nat} (h : On m v k) {d : List E} (hd : d.length = k) {i : Nat} (hi : i < k)
    (e : E) : setAt (wr m v d) v i (.elem e) = wr m v (d.set i e) := by
  cases h with
  | nil => omega
  | @some a o _ c arr h hc hb =>
    simp only [setAt, wr, Mem.put, Mem.puts, List.modify_modify_eq]
    congr 1
    apply List.ext_getElem?
    intro j
    rw [List.getElem?_modify, List.getElem?_modify]
    by_cases hj : a = j
    · subst hj
      have ho : (List.take o arr).length = o := by rw [List.length_take]; omega
      simp only [h, if_true, Option.map_some, Option.map_eq_map, Option.some.injEq, Function.comp, List.length_map,
        List.length_set]
      rw [List.map_set, List.append_assoc, List.append_assoc, List.set_append, ho, if_neg (by omega), List.set_append,
        if_pos (by simp; omega), Nat.add_sub_cancel_left]
    · simp [hj]

section
variable {m : Mem E} {v : Val E} {k : Nat}

theorem On.index (h : On m v k) {d : List E} (hd : d.length = k) {i : Int} {q : Kind} (h0 : 0 ≤ i) (h1 : i < k) :
    Src.index (wr m v d) v (.num q i) = pure (.elem (el d i)) := by
  rw [(h.slice hd).index h0 (by omega), Verif.Sort.el_eq_getElem ⟨h0, by omega⟩]

omit [Inhabited E] in
theorem On.store (h : On m v k) {d : List E} (hd : d.length = k) (env : Env E) {i : Int} {q : Kind} (h0 : 0 ≤ i) (h1 : i < k)
    (e : E) : Src.store env (wr m v d) (.elem e) (.elem v (.num q i)) = pure (env, wr m v (d.set i.toNat e)) := by
  rw [(h.slice hd).store env h0 (by omega), setAt_wr h hd (by omega)]

omit [Inhabited E] in
theorem On.fetch (h : On m v k) (m' : Mem E) : Src.fetch m' v = pure v := by
  cases h <;> rfl

omit [Inhabited E] in
theorem On.coerce (h : On m v k) (p : Src.Prog) (t : Ty) : Src.coerce p t v = v := by
  cases h <;> cases t <;> rfl

omit [Inhabited E] in
theorem On.len (h : On m v k) (m' : Mem E) : Src.len m' v = pure (.num .int k) := by
  cases h <;> rfl
end

/-! ## Runs of the model -/

/-- The program `p` of the model, begun with the slice contents `d`, returns `a` and leaves `d'`. -/
def Ran (lt ge : E → E → Bool) {α : Type} (p : M E α) (d : List E) (a : α) (d' : List E) : Prop :=
  ∃ n, (p d).exec (ofOps lt ge) () = .ok ((a, d'), (), n)

namespace Ran

variable {lt ge : E → E → Bool} {α β : Type} {d d' : List E}

omit [Inhabited E] in
theorem exec_bind {σ : Type} {c : σ → Verif.Sort.Kind → E → E → Bool × σ} (p : Verif.Sort.Prog E α) (f : α → Verif.Sort.Prog E β) (s : σ) {b : β}
    {s' : σ} {n : Nat} (h : (p.bind f).exec c s = .ok (b, s', n)) :
    ∃ a s1 n1 n2, p.exec c s = .ok (a, s1, n1) ∧ (f a).exec c s1 = .ok (b, s', n2) := by
  induction p generalizing s n with
  | ret a => exact ⟨a, s, 0, n, rfl, h⟩
  | fail msg => cases h
  | note e p ih => exact ih s h
  | ask k x y d next ih =>
    simp only [Verif.Sort.Prog.bind, Verif.Sort.Prog.exec] at h
    split at h
    · rename_i a s1 n1 hx
      cases h
      obtain ⟨a', s2, m1, m2, e1, e2⟩ := ih _ _ hx
      refine ⟨a', s2, m1 + 1, m2, ?_, e2⟩
      simp only [Verif.Sort.Prog.exec, e1]
    · cases h

omit [Inhabited E] in
theorem bind {p : M E α} {f : α → M E β} {b : β} (h : Ran lt ge (p >>= f) d b d') :
    ∃ a d1, Ran lt ge p d a d1 ∧ Ran lt ge (f a) d1 b d' := by
  obtain ⟨n, h⟩ := h
  obtain ⟨⟨a, d1⟩, ⟨⟩, n1, n2, e1, e2⟩ := exec_bind (p d) _ () h
  exact ⟨a, d1, ⟨n1, e1⟩, n2, e2⟩

omit [Inhabited E] in
theorem ret {a b : α} (h : Ran lt ge (pure a) d b d') : b = a ∧ d' = d := by
  obtain ⟨n, h⟩ := h
  cases h
  exact ⟨rfl, rfl⟩

omit [Inhabited E] in
theorem fail {msg : String} {b : α} (h : Ran lt ge (M.fail msg) d b d') : False := by
  obtain ⟨n, h⟩ := h
  cases h

theorem swap {i j : Int} {u : Unit} (h : Ran lt ge (Verif.Sort.swap i j) d u d') :
    (0 ≤ i ∧ i < d.length) ∧ (0 ≤ j ∧ j < d.length) ∧ d'.length = d.length ∧
      (d.set i.toNat (el d j)).set j.toNat (el d i) = d' := by
  obtain ⟨n, h⟩ := h
  unfold Verif.Sort.swap at h
  split at h
  · rename_i hr
    cases h
    exact ⟨hr.1, hr.2, by simp, rfl⟩
  · cases h

theorem get {i : Int} {x : E} (h : Ran lt ge (Verif.Sort.get i) d x d') : (0 ≤ i ∧ i < d.length) ∧ x = el d i ∧ d' = d := by
  obtain ⟨n, h⟩ := h
  unfold Verif.Sort.get at h
  split at h
  · rename_i hr
    cases h
    exact ⟨hr, rfl, rfl⟩
  · cases h

theorem lessAt {i j : Int} {b : Bool} (h : Ran lt ge (Verif.Sort.lessAt i j) d b d') :
    (0 ≤ i ∧ i < d.length) ∧ (0 ≤ j ∧ j < d.length) ∧ lt (el d i) (el d j) = b ∧ d' = d := by
  obtain ⟨x, d1, h1, h⟩ := h.bind
  obtain ⟨y, d2, h2, h⟩ := h.bind
  obtain ⟨r1, rfl, rfl⟩ := h1.get
  obtain ⟨r2, rfl, rfl⟩ := h2.get
  obtain ⟨n, h⟩ := h
  cases h
  exact ⟨r1, r2, rfl, rfl⟩

theorem nlessAt {i j : Int} {b : Bool} (h : Ran lt ge (Verif.Sort.nlessAt i j) d b d') :
    (0 ≤ i ∧ i < d.length) ∧ (0 ≤ j ∧ j < d.length) ∧ ge (el d i) (el d j) = b ∧ d' = d := by
  obtain ⟨x, d1, h1, h⟩ := h.bind
  obtain ⟨y, d2, h2, h⟩ := h.bind
  obtain ⟨r1, rfl, rfl⟩ := h1.get
  obtain ⟨r2, rfl, rfl⟩ := h2.get
  obtain ⟨n, h⟩ := h
  cases h
  exact ⟨r1, r2, rfl, rfl⟩

omit [Inhabited E] in
theorem recurse {p : M E Unit} {u : Unit} (h : Ran lt ge (Verif.Sort.recurse p) d u d') : Ran lt ge p d () d' := by
  obtain ⟨n, h⟩ := h
  obtain ⟨⟨a, d1⟩, ⟨⟩, n1, n2, e1, e2⟩ := exec_bind (p d) _ () h
  cases e2
  exact ⟨n1, e1⟩

end Ran

end Verif.Src.Sort
