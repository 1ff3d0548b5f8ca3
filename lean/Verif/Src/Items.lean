import Verif.Src.Memory

/-!
# Slices of values that are not elements

`Items f m v l`: the slice value `v` holds the values `f x` for `x` in `l`, in memory `m`. As `Slice` in Src/Memory.lean, where `f` is
`Val.elem`.
-/

namespace Verif.Src

variable {E A : Type}

/-- `v` is a slice that holds `l`. -/
inductive Items (f : A → Val E) (m : Mem E) : Val E → List A → Prop
  | nil : Items f m .nil []
  | some {a o c : Nat} {arr : List (Val E)} {l : List A} (h : m.arrs[a]? = some arr)
      (hl : (arr.drop o).take l.length = l.map f) (hc : l.length ≤ c) (hb : o + c ≤ arr.length) :
      Items f m (.slice a o l.length c) l

namespace Items

variable {f : A → Val E} {m : Mem E} {v : Val E} {l : List A}

theorem old (h : Items f m v l) : Old m.arrs.length v := by
  intro a o k c hv
  cases h with
  | nil => cases hv
  | some h hl hc hb =>
    cases hv
    exact (List.getElem?_eq_some_iff.mp h).1

theorem len (h : Items f m v l) : Src.len m v = pure (.num .int l.length) := by
  cases h <;> rfl

theorem fetch (h : Items f m v l) : Src.fetch m v = pure v := by
  cases h <;> rfl

theorem mapOf (h : Items f m v l) : Src.mapOf v = none := by
  cases h <;> rfl

theorem boxNo (h : Items f m v l) : Src.boxNo v = none := by
  cases h <;> rfl

theorem fit (h : Items f m v l) (w : Val E) : Src.fit w v = v := by
  cases h <;> cases w <;> rfl

theorem coerce (h : Items f m v l) (p : Prog) (t : Ty) : Src.coerce p t v = v := by
  cases h <;> cases t <;> rfl

theorem settle (h : Items f m v l) : Src.settle v = v := by
  cases h <;> rfl

theorem cell {a o : Nat} {arr : List (Val E)} {l : List A} (h : m.arrs[a]? = Option.some arr)
    (hl : (arr.drop o).take l.length = l.map f) {i : Nat} (hi : i < l.length) :
    m.cell a (o + i) = Option.some (f l[i]) := by
  have := congrArg (fun l => l[i]?) hl
  simp only [List.getElem?_take, hi, if_true, List.getElem?_drop, List.getElem?_map, List.getElem?_eq_getElem hi, Option.map_some] at this
  simp only [Mem.cell, h, this]

theorem index (h : Items f m v l) {i : Int} {k : Kind} (h0 : 0 ≤ i) (h1 : i.toNat < l.length) :
    Src.index m v (.num k i) = pure (f l[i.toNat]) := by
  cases h with
  | nil => simp at h1
  | some h hl hc hb =>
    simp only [Src.index, show 0 ≤ i ∧ i < (l.length : Int) by omega, and_self, if_true, cell h hl h1]

theorem index_bad (h : Items f m v l) {i : Int} {k : Kind} (hi : ¬ (0 ≤ i ∧ i < l.length)) :
    Src.index m v (.num k i) = panic "index out of range" := by
  cases h with
  | nil => rfl
  | some h hl hc hb =>
    simp only [Src.index]
    rw [if_neg (by omega)]

theorem store (h : Items f m v l) (hf : ∀ w x, Src.fit w (f x) = f x) (env : Env E) {i : Int} {k : Kind} (h0 : 0 ≤ i)
    (h1 : i.toNat < l.length) (x : A) :
    Src.store env m (f x) (.elem v (.num k i)) = pure (env, setAt m v i.toNat (f x)) := by
  cases h with
  | nil => simp at h1
  | some h hl hc hb =>
    simp only [Src.store, show 0 ≤ i ∧ i < (l.length : Int) by omega, and_self, if_true,
      cell h hl h1, setAt, hf]

theorem store_bad (h : Items f m v l) (env : Env E) {i : Int} {k : Kind} (hi : ¬ (0 ≤ i ∧ i < l.length)) (w : Val E) :
    Src.store env m w (.elem v (.num k i)) = panic "index out of range" := by
  cases h with
  | nil => rfl
  | some h hl hc hb =>
    simp only [Src.store]
    rw [if_neg (by omega)]

theorem set (h : Items f m v l) {i : Nat} (h1 : i < l.length) (e : A) : Items f (setAt m v i (f e)) v (l.set i e) := by
  cases h with
  | nil => simp at h1
  | @some a o c arr _ h hl hc hb =>
    have : (Val.slice a o l.length c : Val E) = Val.slice a o (l.set i e).length c := by simp
    rw [this]
    refine .some (arr := arr.set (o + i) (f e)) (by simp only [setAt]; exact put_same_arr h _) ?_ (by simpa using hc)
      (by simpa using hb)
    rw [List.length_set, List.map_set, ← hl, List.drop_set, if_neg (by omega), List.take_set]
    congr 1
    omega

/-- The array of the slice is as before. -/
theorem mono {m' : Mem E} (h : Items f m v l) (hm : ∀ a o l c, v = .slice a o l c → m'.arrs[a]? = m.arrs[a]?) :
    Items f m' v l := by
  cases h with
  | nil => exact .nil
  | some h hl hc hb => exact .some (by rw [hm _ _ _ _ rfl]; exact h) hl hc hb

theorem put {p i : Nat} {w : Val E} (h : Items f m v l) (hp : Apart p v) : Items f (m.put p i w) v l :=
  h.mono fun a o l c hv => put_arrs (hp a o l c hv) _

theorem alloc {ws : List (Val E)} (h : Items f m v l) : Items f (m.alloc ws) v l :=
  h.mono fun a o l c hv => alloc_arrs (h.old a o l c hv) _

/-- `v[:n]`. -/
theorem reslice (h : Items f m v l) {n : Int} (h1 : 0 ≤ n) (h2 : n ≤ l.length) :
    ∃ w, Src.reslice v 0 n = pure w ∧ Items f m w (l.take n.toNat) ∧ (∀ p, Apart p v → Apart p w) := by
  cases h with
  | nil =>
    have : n = 0 := by simp at h2; omega
    refine ⟨.nil, by simp [Src.reslice, this], by simpa [this] using .nil, fun _ h => h⟩
  | @some a o c arr _ h hl hc hb =>
    have hn : (l.take n.toNat).length = n.toNat := by rw [List.length_take]; omega
    refine ⟨.slice a o n.toNat c, ?_, ?_, ?_⟩
    · simp only [Src.reslice]
      rw [if_pos (by omega)]
      simp
    · have := Items.some (f := f) (m := m) (o := o) (c := c) (l := l.take n.toNat) h (by
        rw [List.map_take, ← hl, hn, List.take_take]
        congr 1
        omega) (by rw [hn]; omega) hb
      rwa [hn] at this
    · intro p hp a' o' l' c' hv
      cases hv
      exact hp _ _ _ _ rfl

theorem reslice_bad (h : Items f m v l) {n : Int} (h1 : n < 0) : Src.reslice v 0 n = panic "slice bounds out of range" := by
  cases h with
  | nil =>
    simp only [Src.reslice]
    rw [if_neg (by omega)]
  | some h hl hc hb =>
    simp only [Src.reslice]
    rw [if_neg (by omega)]

/-- `append(v, x)`: a slice with the elements; only the array of `v` and a new one can change. -/
theorem append (h : Items f m v l) (X : Ctx E) (x : A) :
    ∃ v' m', Src.append X m v [f x] = pure (v', m') ∧ Items f m' v' (l ++ [x]) ∧ m.arrs.length ≤ m'.arrs.length ∧
      m'.maps = m.maps ∧ (∀ q, q < m.arrs.length → Apart q v → m'.arrs[q]? = m.arrs[q]? ∧ Apart q v') := by
  cases h with
  | nil =>
    refine ⟨.slice m.arrs.length 0 ([x] : List A).length (1 + X.grow 0 1), m.alloc ([f x] ++ List.replicate (X.grow 0 1) X.pad), ?_, ?_, ?_, ?_, ?_⟩
    · simp [Src.append]
    · refine .some (alloc_new _ _) ?_ (by simp) (by simp; omega)
      simp
    · simp
    · rfl
    · intro q hq hp
      exact ⟨alloc_arrs hq _, fun a o l c hv => by cases hv; omega⟩
  | @some a o c arr _ h hl hc hb =>
    by_cases hx : l.length + 1 ≤ c
    · refine ⟨.slice a o (l.length + 1) c, m.puts a (o + l.length) [f x], ?_, ?_, ?_, ?_, ?_⟩
      · simp only [Src.append, List.length_cons, List.length_nil, Nat.zero_add, hx, if_true]
      · have hn : l.length + 1 = (l ++ [x]).length := by simp
        rw [hn]
        refine .some (puts_same_arr h _) ?_ (by simpa using hx) ?_
        · have e : arr.take (o + l.length) = arr.take o ++ l.map f := by
            rw [← hl, List.take_add]
          rw [e, List.drop_append_of_le_length (by simp; omega), List.drop_append_of_le_length (by simp; omega),
            List.drop_append_of_le_length (by simp; omega), List.drop_eq_nil_of_le (by simp; omega), List.nil_append,
            List.length_append, List.map_append, List.map_cons, List.map_nil, List.take_append_of_le_length (by simp),
            List.take_of_length_le (by simp)]
        · simp; omega
      · simp
      · rfl
      · intro q hq hp
        exact ⟨puts_arrs (fun e => hp a o _ c rfl e.symm) _, fun a' o' l' c' hv => by cases hv; exact hp _ _ _ _ rfl⟩
    · refine ⟨.slice m.arrs.length 0 (l.length + 1) (l.length + 1 + X.grow c (l.length + 1)),
        m.alloc (l.map f ++ [f x] ++ List.replicate (X.grow c (l.length + 1)) X.pad), ?_, ?_, ?_, ?_, ?_⟩
      · simp only [Src.append, List.length_cons, List.length_nil, Nat.zero_add, hx, if_false, Mem.cells, h, hl]
      · have hn : l.length + 1 = (l ++ [x]).length := by simp
        rw [hn]
        refine .some (alloc_new _ _) ?_ (by simp) (by simp; omega)
        rw [List.drop_zero, List.map_append, List.map_cons, List.map_nil, List.take_append_of_le_length (by simp), List.take_of_length_le (by simp)]
      · simp
      · rfl
      · intro q hq hp
        exact ⟨alloc_arrs hq _, fun a o l c hv => by cases hv; omega⟩

end Items

end Verif.Src
