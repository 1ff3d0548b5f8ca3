import Verif.Base

/-!
# `xsync.Pool` (xsync/pool.go) and its property (C66)

`Pool[T]` embeds `sync.Pool`, which stores values of type `any`. The history of a pool is a list of events, in the order
in which `sync.Pool` serves them; which goroutine does them does not matter here.
-/

namespace Verif.Xsync.Pool

/-- A value of type `any`: nil, a pointer `*T` (nil or an address), or something of another type. -/
inductive Dyn where
  | nil
  | ptr (p : Option Nat)
  | other
  deriving DecidableEq

/-- Events: `Put(p)`, a `Get` that returns a pointer or panics, and losses. -/
inductive Ev where
  | put (p : Option Nat)
  | got (r : Go (Option Nat))
  | lost

/-- The assertion `.(*T)` (xsync/pool.go:16). -/
def assertPtr : Dyn → Go (Option Nat)
  | .ptr p => .ok p
  | .nil => .error "interface conversion: interface is nil"
  | .other => .error "interface conversion"

/-- The field `New`: nil, or a function, given by what it may return. -/
abbrev New := Option (Dyn → Prop)

/-- Histories of a pool and what is in it. -/
inductive Hist (new : New) : List Ev → List Dyn → Prop where
  | zero : Hist new [] []
  /-- `Put(x)`: xsync/pool.go:11-13; a `*T` in an `any` is not nil, so `sync.Pool.Put` keeps it, even a nil `*T` -/
  | put {l : List Ev} {bag : List Dyn} (p : Option Nat) : Hist new l bag → Hist new (l ++ [.put p]) (.ptr p :: bag)
  /-- `Get()`: xsync/pool.go:15-17, something in the pool -/
  | hit {l : List Ev} {bag : List Dyn} (d : Dyn) : Hist new l bag → d ∈ bag →
      Hist new (l ++ [.got (assertPtr d)]) (bag.erase d)
  /-- `Get()`, made by `New` -/
  | make {l : List Ev} {bag : List Dyn} {N : Dyn → Prop} (d : Dyn) : Hist new l bag → new = some N → N d →
      Hist new (l ++ [.got (assertPtr d)]) bag
  /-- `Get()` with no `New`: `sync.Pool.Get` returns nil -/
  | none {l : List Ev} {bag : List Dyn} : Hist new l bag → new = none → Hist new (l ++ [.got (assertPtr .nil)]) bag
  /-- the pool loses something -/
  | lost {l : List Ev} {bag : List Dyn} (d : Dyn) : Hist new l bag → Hist new (l ++ [.lost]) (bag.erase d)

/-- C66 as stated: every `Get` returns a non-nil pointer that was put before or made by `New`, also if `New` is nil. -/
def GetUsable : Prop := ∀ (new : New) (l l' : List Ev) (r : Go (Option Nat)) (bag : List Dyn),
  Hist new (l ++ [.got r] ++ l') bag →
    ∃ a, r = .ok (some a) ∧ (.put (some a) ∈ l ∨ ∃ N, new = some N ∧ N (.ptr (some a)))

theorem hist_prefix {new : New} : ∀ {m : List Ev} {bag : List Dyn}, Hist new m bag → ∀ l l', m = l ++ l' →
    ∃ bag', Hist new l bag' := by
  intro m bag h
  have key : ∀ {m : List Ev} {e : Ev} {bag : List Dyn}, (∀ l l', m = l ++ l' → ∃ bag', Hist new l bag') →
      Hist new (m ++ [e]) bag → ∀ l l', m ++ [e] = l ++ l' → ∃ bag', Hist new l bag' := by
    intro m e bag ih h l l' hl
    rcases List.eq_nil_or_concat l' with rfl | ⟨l'', x, rfl⟩
    · rw [List.append_nil] at hl
      rw [← hl]
      exact ⟨bag, h⟩
    · rw [List.concat_eq_append, ← List.append_assoc] at hl
      exact ih l l'' (List.append_inj' hl rfl).1
  induction h with
  | zero =>
    intro l l' e
    have := (List.append_eq_nil_iff.1 e.symm).1
    subst this
    exact ⟨[], .zero⟩
  | put p h ih => exact key ih (.put p h)
  | hit d h hd ih => exact key ih (.hit d h hd)
  | make d h hn hd ih => exact key ih (.make d h hn hd)
  | none h hn ih => exact key ih (.none h hn)
  | lost d h ih => exact key ih (.lost d h)

/-- Everything in the pool was put. -/
theorem bag_put {new : New} {m : List Ev} {bag : List Dyn} (h : Hist new m bag) :
    ∀ d ∈ bag, ∃ p, d = .ptr p ∧ .put p ∈ m := by
  induction h with
  | zero => intro d hd; cases hd
  | put p h ih =>
    intro d hd
    rcases List.mem_cons.1 hd with rfl | hd
    · exact ⟨p, rfl, by simp⟩
    · obtain ⟨p', h1, h2⟩ := ih d hd
      exact ⟨p', h1, List.mem_append.2 (Or.inl h2)⟩
  | hit x h hx ih =>
    intro d hd
    obtain ⟨p', h1, h2⟩ := ih d (List.mem_of_mem_erase hd)
    exact ⟨p', h1, List.mem_append.2 (Or.inl h2)⟩
  | make x h hn hx ih =>
    intro d hd
    obtain ⟨p', h1, h2⟩ := ih d hd
    exact ⟨p', h1, List.mem_append.2 (Or.inl h2)⟩
  | none h hn ih =>
    intro d hd
    obtain ⟨p', h1, h2⟩ := ih d hd
    exact ⟨p', h1, List.mem_append.2 (Or.inl h2)⟩
  | lost x h ih =>
    intro d hd
    obtain ⟨p', h1, h2⟩ := ih d (List.mem_of_mem_erase hd)
    exact ⟨p', h1, List.mem_append.2 (Or.inl h2)⟩

/-- What a `Get` does, exactly: it returns a pointer put before, or what `New` made, or panics because `New` is nil or
returned something else. -/
theorem get_cases {new : New} {l l' : List Ev} {r : Go (Option Nat)} {bag : List Dyn}
    (h : Hist new (l ++ [.got r] ++ l') bag) :
    (∃ p, r = .ok p ∧ .put p ∈ l) ∨ (∃ N d, new = some N ∧ N d ∧ r = assertPtr d) ∨
      (new = none ∧ r = assertPtr .nil) := by
  obtain ⟨bag', h'⟩ := hist_prefix h _ _ rfl
  clear h
  have h := h'
  clear h'
  generalize e : l ++ [Ev.got r] = m at h
  cases h with
  | zero => simp at e
  | put p h => have := (List.append_inj' e rfl).2; simp at this
  | hit d h hd =>
    obtain ⟨e1, e2⟩ := List.append_inj' e rfl
    simp only [List.cons.injEq, Ev.got.injEq, and_true] at e2
    subst e1 e2
    obtain ⟨p, rfl, hp⟩ := bag_put h d hd
    exact Or.inl ⟨p, rfl, hp⟩
  | make d h hn hd =>
    obtain ⟨e1, e2⟩ := List.append_inj' e rfl
    simp only [List.cons.injEq, Ev.got.injEq, and_true] at e2
    exact Or.inr (Or.inl ⟨_, d, hn, hd, e2⟩)
  | none h hn =>
    obtain ⟨e1, e2⟩ := List.append_inj' e rfl
    simp only [List.cons.injEq, Ev.got.injEq, and_true] at e2
    exact Or.inr (Or.inr ⟨hn, e2⟩)
  | lost d h => have := (List.append_inj' e rfl).2; simp at this

/-- C66, where it holds: with a `New` that returns non-nil pointers `*T` and no `Put(nil)`, every `Get` returns a
non-nil pointer that was put before or made by `New`. Missing: a pool without `New`, and `Put(nil)`; see
`not_getUsable` and `put_nil`. -/
theorem get_usable_partial {N : Dyn → Prop} (hN : ∀ d, N d → ∃ a, d = .ptr (some a)) {l l' : List Ev}
    {r : Go (Option Nat)} {bag : List Dyn} (h : Hist (some N) (l ++ [.got r] ++ l') bag) (hput : .put none ∉ l) :
    ∃ a, r = .ok (some a) ∧ (.put (some a) ∈ l ∨ N (.ptr (some a))) := by
  rcases get_cases h with ⟨p, rfl, hp⟩ | ⟨N', d, e, hd, rfl⟩ | ⟨e, -⟩
  · cases p with
    | none => exact absurd hp hput
    | some a => exact ⟨a, rfl, Or.inl hp⟩
  · injection e with e
    subst e
    obtain ⟨a, rfl⟩ := hN d hd
    exact ⟨a, rfl, Or.inr hd⟩
  · cases e

/-- C66 is false: `Get` on a zero `Pool` panics. -/
theorem not_getUsable : ¬ GetUsable := by
  intro h
  obtain ⟨a, e, -⟩ := h none [] [] (assertPtr .nil) [] (.none .zero rfl)
  cases e

/-- So does every `Get` on a pool without `New` into which nothing was put. -/
theorem zero_pool_panics {l l' : List Ev} {r : Go (Option Nat)} {bag : List Dyn}
    (h : Hist none (l ++ [.got r] ++ l') bag) (hput : ∀ p, .put p ∉ l) : ∃ msg, r = .error msg := by
  rcases get_cases h with ⟨p, -, hp⟩ | ⟨N', d, e, -⟩ | ⟨-, rfl⟩
  · exact absurd hp (hput p)
  · cases e
  · exact ⟨_, rfl⟩

/-- And `Get` may return nil, even if `New` returns non-nil pointers only. -/
theorem put_nil : ∃ bag, Hist (some fun d => d = .ptr (some 1)) [.put none, .got (.ok none)] bag :=
  ⟨_, .hit (.ptr none) (.put none .zero) (by simp)⟩

/-- The pool gives nothing out more often than it was put or made: as long as `New` does not return `a`, there are at
most as many `Get`s of `a` as `Put`s. -/
theorem get_not_more_than_put {new : New} {a : Nat} (hnew : ∀ N, new = some N → ¬ N (.ptr (some a))) {m : List Ev}
    {bag : List Dyn} (h : Hist new m bag) :
    (m.countP fun | .got (.ok (some b)) => b == a | _ => false) + bag.count (.ptr (some a)) ≤
      m.countP fun | .put (some b) => b == a | _ => false := by
  induction h with
  | zero => simp
  | put p h ih =>
    simp only [List.countP_append, List.countP_singleton, List.count_cons]
    cases p with
    | none =>
      have : (Dyn.ptr none == Dyn.ptr (some a)) = false := rfl
      simp only [this]
      simpa using ih
    | some b =>
      by_cases c : b = a
      · subst c; simp; omega
      · have : (Dyn.ptr (some b) == Dyn.ptr (some a)) = false := by simp [c]
        simp only [this]
        simp [c]
        simpa using ih
  | @hit l bag d h hd ih =>
    simp only [List.countP_append, List.countP_singleton]
    by_cases c : d = .ptr (some a)
    · subst c
      have : 0 < bag.count (.ptr (some a)) := List.count_pos_iff.2 hd
      rw [List.count_erase_self]
      simp [assertPtr]
      omega
    · rw [List.count_erase_of_ne (fun e => c e.symm)]
      cases d with
      | nil => simpa [assertPtr] using ih
      | other => simpa [assertPtr] using ih
      | ptr p =>
        cases p with
        | none => simpa [assertPtr] using ih
        | some b =>
          have : b ≠ a := fun e => c (by rw [e])
          simpa [assertPtr, this] using ih
  | make d h hn hd ih =>
    simp only [List.countP_append, List.countP_singleton]
    cases d with
    | nil => simpa [assertPtr] using ih
    | other => simpa [assertPtr] using ih
    | ptr p =>
      cases p with
      | none => simpa [assertPtr] using ih
      | some b =>
        have : b ≠ a := fun e => hnew _ hn (by rw [← e]; exact hd)
        simpa [assertPtr, this] using ih
  | none h hn ih => simpa [List.countP_append, assertPtr] using ih
  | @lost l bag d h ih =>
    have : (bag.erase d).count (.ptr (some a)) ≤ bag.count (.ptr (some a)) :=
      List.Sublist.count_le _ List.erase_sublist
    simp only [List.countP_append, List.countP_singleton]
    simp
    omega

/-- The hypotheses can be met: a `Put`, a loss, and two `Get`s, one new and one put. -/
example : ∃ bag, Hist (some fun d => d = .ptr (some 1))
    ([.put (some 2), .got (.ok (some 1))] ++ [.got (.ok (some 2))] ++ []) bag :=
  ⟨_, .hit (.ptr (some 2)) (.make (N := fun d => d = .ptr (some 1)) (.ptr (some 1)) (.put (some 2) .zero) rfl rfl) (by simp)⟩

end Verif.Xsync.Pool
