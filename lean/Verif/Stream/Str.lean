import Verif.Stream.Props

/-!
# C107: `Stream.String`
-/

namespace Verif.Stream

variable {T E : Type} {S : Source T E}

/-- stream/stream.go:252-268 `String`: `Collect` with a closure over `first` and the builder. `name` is what `reflect` calls `T`
(empty for types without a name), `sprint` is `fmt.Sprint`. -/
def Stream.string (name : String) (sprint : T → String) (s : Stream S) : Option (Go (Fin String S)) := do
  match ← s.reduce (fun (st : Bool × String) v =>
      (false, (if st.1 then st.2 else st.2 ++ ", ") ++ sprint v)) (true, "Stream[" ++ name ++ "]{") with
  | .error e => some (.error e)
  | .ok ⟨r, s', l⟩ => some (.ok ⟨r.2 ++ "}", s', l⟩)

/-- The strings with `", "` in between. -/
def commaSep : List String → String
  | [] => ""
  | [x] => x
  | x :: y :: l => x ++ ", " ++ commaSep (y :: l)

/-- How a list of elements is printed. -/
def printed (name : String) (sprint : T → String) (xs : List T) : String :=
  "Stream[" ++ name ++ "]{" ++ commaSep (xs.map sprint) ++ "}"

theorem fold_later (sprint : T → String) (xs : List T) : ∀ b : String,
    (xs.foldl (fun (st : Bool × String) v => (false, (if st.1 then st.2 else st.2 ++ ", ") ++ sprint v)) (false, b)).2 =
      match xs with
      | [] => b
      | x :: xs => b ++ ", " ++ commaSep ((x :: xs).map sprint) := by
  induction xs with
  | nil => intro b; rfl
  | cons x xs ih =>
    intro b
    rw [List.foldl_cons]
    simp only [Bool.false_eq_true, if_false]
    rw [ih]
    cases xs with
    | nil => rfl
    | cons y ys => simp [commaSep, String.append_assoc]

theorem reduce_done {A : Type} (acc : A → T → A) {s : Stream S} {xs : List T} (h : Lists s xs) :
    ∀ r, ∃ s' l, s.reduce acc r = some (.ok ⟨xs.foldl acc r, s', l⟩) ∧ Lists s' [] := by
  induction h with
  | nil h => intro r; exact ⟨_, _, reduce_none h, .nil (finished_next (next_none_finished h))⟩
  | cons h _ ih =>
    intro r
    obtain ⟨s', l, h', h2⟩ := ih (acc r _)
    exact ⟨s', _, reduce_some h h', h2⟩

theorem string_lists (name : String) (sprint : T → String) {s : Stream S} {xs : List T} (h : Lists s xs) :
    ∃ s' l, s.string name sprint = some (.ok ⟨printed name sprint xs, s', l⟩) ∧ Lists s' [] := by
  obtain ⟨s', l, h1, h2⟩ := reduce_done (fun (st : Bool × String) v =>
      (false, (if st.1 then st.2 else st.2 ++ ", ") ++ sprint v)) h (true, "Stream[" ++ name ++ "]{")
  refine ⟨s', l, ?_, h2⟩
  unfold Stream.string
  rw [h1]
  simp only [Option.bind_eq_bind, Option.bind_some]
  congr 4
  cases xs with
  | nil => simp [commaSep]
  | cons x xs =>
    rw [List.foldl_cons]
    simp only [if_true]
    rw [fold_later]
    cases xs with
    | nil => rfl
    | cons y ys => simp [commaSep, String.append_assoc]

/-- **C107.** `String` prints all elements, in order, and uses the stream up: printed again, it is empty. -/
theorem C107_string (name : String) (sprint : T → String) (s : Stream S) (xs : List T) (h : Lists s xs) :
    ∃ s' l, s.string name sprint = some (.ok ⟨printed name sprint xs, s', l⟩) ∧
      ∃ s'' l', s'.string name sprint = some (.ok ⟨"Stream[" ++ name ++ "]{}", s'', l'⟩) := by
  obtain ⟨s', l, h1, h2⟩ := string_lists name sprint h
  obtain ⟨s'', l', h3, _⟩ := string_lists name sprint h2
  refine ⟨s', l, h1, s'', l', ?_⟩
  rw [h3, printed]
  simp [commaSep, String.append_assoc]

theorem commaSep_cons_toList (x : String) (l : List String) : (commaSep (x :: l)).toList =
    x.toList ++ match l with
      | [] => []
      | _ :: _ => ',' :: ' ' :: (commaSep l).toList := by
  cases l with
  | nil => simp [commaSep]
  | cons y l => simp [commaSep]

theorem append_sep {a a' b b' : List Char} (ha : ',' ∉ a) (ha' : ',' ∉ a')
    (hb : b = [] ∨ ∃ c, b = ',' :: c) (hb' : b' = [] ∨ ∃ c, b' = ',' :: c) (h : a ++ b = a' ++ b') :
    a = a' ∧ b = b' := by
  induction a generalizing a' with
  | nil =>
    cases a' with
    | nil => exact ⟨rfl, h⟩
    | cons x a' =>
      rcases hb with rfl | ⟨c, rfl⟩
      · cases h
      · simp only [List.nil_append, List.cons_append, List.cons.injEq] at h
        exact absurd (by simp [← h.1]) ha'
  | cons x a ih =>
    cases a' with
    | nil =>
      rcases hb' with rfl | ⟨c, rfl⟩
      · cases h
      · simp only [List.nil_append, List.cons_append, List.cons.injEq] at h
        exact absurd (by simp [h.1]) ha
    | cons y a' =>
      simp only [List.cons_append, List.cons.injEq] at h
      obtain ⟨h1, h2⟩ := ih (fun hm => ha (by simp [hm])) (fun hm => ha' (by simp [hm])) h.2
      exact ⟨by rw [h.1, h1], h2⟩

theorem commaSep_inj : ∀ (l l' : List String), (∀ x ∈ l ++ l', x ≠ "" ∧ ',' ∉ x.toList) →
    commaSep l = commaSep l' → l = l' := by
  intro l
  induction l with
  | nil =>
    intro l' hl h
    cases l' with
    | nil => rfl
    | cons y l' =>
      have h := congrArg String.toList h
      rw [commaSep_cons_toList] at h
      have := (hl y (by simp)).1
      exfalso
      apply this
      apply String.toList_injective
      have h : [] = _ := h
      have := List.append_eq_nil_iff.mp h.symm
      exact this.1
  | cons x l ih =>
    intro l' hl h
    cases l' with
    | nil =>
      have h := congrArg String.toList h
      rw [commaSep_cons_toList] at h
      have := (hl x (by simp)).1
      exfalso
      apply this
      apply String.toList_injective
      have := List.append_eq_nil_iff.mp h
      exact this.1
    | cons y l' =>
      have h := congrArg String.toList h
      rw [commaSep_cons_toList, commaSep_cons_toList] at h
      obtain ⟨h1, h2⟩ := append_sep (hl x (by simp)).2 (hl y (by simp)).2
        (by cases l <;> simp) (by cases l' <;> simp) h
      rw [String.toList_injective h1]
      cases l with
      | nil =>
        cases l' with
        | nil => rfl
        | cons z l' => cases h2
      | cons w l =>
        cases l' with
        | nil => cases h2
        | cons z l' =>
          simp only [List.cons.injEq, true_and] at h2
          rw [ih (z :: l') (fun v hv => hl v (by
            simp only [List.mem_append, List.mem_cons] at hv ⊢
            rcases hv with (h | h) | h | h <;> simp [h])) (String.toList_injective h2)]

/-- **C107.** If no element prints as nothing or with a comma, and different elements print differently, then the string
tells what was in the stream. -/
theorem C107_injective (name : String) (sprint : T → String) (hs : ∀ x, sprint x ≠ "" ∧ ',' ∉ (sprint x).toList)
    (hi : ∀ x y, sprint x = sprint y → x = y) (xs ys : List T)
    (h : printed name sprint xs = printed name sprint ys) : xs = ys := by
  unfold printed at h
  replace h := congrArg String.toList h
  simp only [String.toList_append, List.append_assoc, List.append_cancel_left_eq, List.append_cancel_right_eq] at h
  have := commaSep_inj (xs.map sprint) (ys.map sprint) (by
    intro v hv
    simp only [List.mem_append, List.mem_map] at hv
    rcases hv with ⟨x, _, rfl⟩ | ⟨x, _, rfl⟩ <;> exact hs x) (String.toList_injective h)
  clear h
  induction xs generalizing ys with
  | nil => cases ys with
    | nil => rfl
    | cons y ys => cases this
  | cons x xs ih => cases ys with
    | nil => cases this
    | cons y ys =>
      simp only [List.map_cons, List.cons.injEq] at this
      rw [hi _ _ this.1, ih ys this.2]

/-- **C107.** Otherwise it does not: two streams of strings with other elements that print the same. -/
theorem C107_ambiguous : ∃ xs ys : List String, xs ≠ ys ∧ xs.length ≠ ys.length ∧
    printed "string" id xs = printed "string" id ys := ⟨["a, b"], ["a", "b"], by decide, by decide, by decide⟩

/-- The repository's own test (stream/stream_test.go:124). -/
example : ∃ s' l, (ofSlice Unit [1, 2, 3]).string "int" (fun n => toString (n : Nat)) =
    some (.ok ⟨"Stream[int]{1, 2, 3}", s', l⟩) := by
  have h : Lists (ofSlice Unit [1, 2, 3]) [1, 2, 3] := by
    refine .cons (s' := ⟨some (1 : Int), [], false⟩) (l := []) ?_ <|
      .cons (s' := ⟨some (2 : Int), [], false⟩) (l := []) ?_ <|
      .cons (s' := ⟨some (3 : Int), [], false⟩) (l := []) ?_ <| .nil (s' := ⟨none, [], false⟩) (l := []) ?_ <;>
    · simp only [Stream.next, ofSlice, new]
      erw [loop.eq_1]
      rfl
  obtain ⟨s', l, h1, _⟩ := C107_string "int" (fun n => toString n) _ _ h
  exact ⟨s', l, h1⟩

end Verif.Stream
