import Verif.Conc.Prog

/-!
# Linearizability (Herlihy and Wing)

`Linearizable` is the definition; `Canon` is the atomic object, in which each call takes effect in one
step between its invocation and its response; `canon_linearizable` shows that its histories are
linearizable, and `Sim.linearizable` that so are those of any system simulated by it.
-/

namespace Verif.Conc

/-- Events of a history. -/
inductive Event (Op R : Type) where
  | inv (t : Tid) (op : Op)
  | ret (t : Tid) (r : R)

/-- The goroutine of an event. -/
def Event.tid {Op R : Type} : Event Op R → Tid
  | .inv t _ => t
  | .ret t _ => t

/-- A sequential object: which results and next states a call may have. -/
structure SeqSpec (Op R : Type) where
  /-- states -/
  St : Type
  /-- initial state -/
  init : St
  /-- `legal s op r s'`: in state `s` the call `op` may return `r` and leave `s'` -/
  legal : St → Op → R → St → Prop

/-- A sequence of calls with their results is possible from state `s` and ends in `s'`. -/
inductive SeqSpec.Run {Op R : Type} (S : SeqSpec Op R) : S.St → List (Op × R) → S.St → Prop where
  | nil (s : S.St) : Run S s [] s
  | snoc {s s1 s2 : S.St} {l : List (Op × R)} {op : Op} {r : R} :
      Run S s l s1 → S.legal s1 op r s2 → Run S s (l ++ [(op, r)]) s2

section
variable {Op R : Type}

/-- The call invoked at position `i` of the history returns at position `j` with result `r`. -/
def Returns (H : List (Event Op R)) (i j : Nat) (op : Op) (r : R) : Prop :=
  ∃ t, H[i]? = some (.inv t op) ∧ H[j]? = some (.ret t r) ∧ i < j ∧
    ∀ k e, i < k → k < j → H[k]? = some e → e.tid ≠ t

/-- A history is linearizable: some calls of it, among them all that returned, can be put in a sequence `L`
(of invocation position, call, result) such that results of calls that returned are as in the history, the
sequence is possible for the sequential object, and a call that returned before another was invoked comes
before it. -/
def Linearizable (S : SeqSpec Op R) (H : List (Event Op R)) : Prop :=
  ∃ (L : List (Nat × Op × R)) (s : S.St),
    S.Run S.init (L.map Prod.snd) s ∧
    (L.map Prod.fst).Nodup ∧
    (∀ i op r, (i, op, r) ∈ L → ∃ t, H[i]? = some (.inv t op)) ∧
    (∀ i j op r, Returns H i j op r → (i, op, r) ∈ L) ∧
    L.Pairwise (fun a b => ∀ j op r, Returns H b.1 j op r → a.1 < j)

/-- The history of an execution. -/
def history {M : Machine} : List (Label M Op R) → List (Event Op R)
  | [] => []
  | .call t op :: l => .inv t op :: history l
  | .act _ _ _ :: l => history l
  | .ret t _ r :: l => .ret t r :: history l

theorem history_append {M : Machine} (l l' : List (Label M Op R)) : history (l ++ l') = history l ++ history l' := by
  induction l with
  | nil => rfl
  | cons x l ih => cases x <;> simp [history, ih]

/-! ## The atomic object -/

/-- A goroutine at the atomic object. -/
inductive CStatus (Op R : Type) where
  | idle
  | pending (op : Op)
  | done (op : Op) (r : R)

/-- A state of the atomic object. -/
structure Canon (S : SeqSpec Op R) where
  /-- state of the sequential object -/
  st : S.St
  /-- the goroutines -/
  th : Tid → CStatus Op R

/-- A pending call takes effect. -/
inductive Lin (S : SeqSpec Op R) : Canon S → Canon S → Prop where
  | refl (a : Canon S) : Lin S a a
  | step {a : Canon S} {b : Canon S} (t : Tid) (op : Op) (r : R) (s' : S.St) : a.th t = .pending op →
      S.legal a.st op r s' → Lin S ⟨s', upd a.th t (.done op r)⟩ b → Lin S a b

/-! ## Bookkeeping for the proof -/

/-- A goroutine in a call: its last event is the invocation, and the call is in `L` iff it is done. -/
def BookStatus (H : List (Event Op R)) (L : List (Nat × Op × R)) (t : Tid) : CStatus Op R → Prop
  | .idle => ∀ (i : Nat) (op : Op), H[i]? = some (.inv t op) → ∃ (k : Nat) (e : Event Op R), i < k ∧ H[k]? = some e ∧ e.tid = t
  | .pending op => ∃ i : Nat, H[i]? = some (.inv t op) ∧ (∀ (k : Nat) (e : Event Op R), i < k → H[k]? = some e → e.tid ≠ t) ∧
      ∀ op r, (i, op, r) ∉ L
  | .done op r => ∃ i : Nat, H[i]? = some (.inv t op) ∧ (∀ (k : Nat) (e : Event Op R), i < k → H[k]? = some e → e.tid ≠ t) ∧
      (i, op, r) ∈ L

/-- Everything known about a history, its linearization so far, and the state of the atomic object. -/
structure Book (S : SeqSpec Op R) (H : List (Event Op R)) (L : List (Nat × Op × R)) (a : Canon S) : Prop where
  run : S.Run S.init (L.map Prod.snd) a.st
  nodup : (L.map Prod.fst).Nodup
  inv : ∀ i op r, (i, op, r) ∈ L → ∃ t, H[i]? = some (.inv t op)
  all : ∀ i j op r, Returns H i j op r → (i, op, r) ∈ L
  order : L.Pairwise (fun a b => ∀ j op r, Returns H b.1 j op r → a.1 < j)
  status : ∀ t, BookStatus H L t (a.th t)
  comp : ∀ (i : Nat) t op, H[i]? = some (.inv t op) → (∃ r, (i, op, r) ∈ L) ∨
    a.th t = .pending op ∧ ∀ (k : Nat) (e : Event Op R), i < k → H[k]? = some e → e.tid ≠ t

theorem Returns.of_append {H : List (Event Op R)} {e : Event Op R} {i j : Nat} {op : Op} {r : R}
    (h : Returns (H ++ [e]) i j op r) (hj : j < H.length) : Returns H i j op r := by
  obtain ⟨t, h1, h2, h3, h4⟩ := h
  refine ⟨t, ?_, ?_, h3, ?_⟩
  · rwa [List.getElem?_append_left (by omega)] at h1
  · rwa [List.getElem?_append_left hj] at h2
  · intro k e hk hk' he
    exact h4 k e hk hk' (by rw [List.getElem?_append_left (by omega)]; exact he)

theorem Returns.bound {H : List (Event Op R)} {i j : Nat} {op : Op} {r : R} (h : Returns H i j op r) :
    j < H.length := by
  obtain ⟨t, -, h2, -⟩ := h
  exact (List.getElem?_eq_some_iff.1 h2).1

theorem Book.bound {S : SeqSpec Op R} {H : List (Event Op R)} {L : List (Nat × Op × R)} {a : Canon S}
    (b : Book S H L a) {i : Nat} {op : Op} {r : R} (h : (i, op, r) ∈ L) : i < H.length := by
  obtain ⟨t, h⟩ := b.inv i op r h
  exact (List.getElem?_eq_some_iff.1 h).1

theorem getElem?_snoc {α : Type} {l : List α} {x y : α} {i : Nat} (h : (l ++ [x])[i]? = some y) :
    l[i]? = some y ∨ (i = l.length ∧ x = y) := by
  by_cases c : i < l.length
  · rw [List.getElem?_append_left c] at h; exact Or.inl h
  · right
    have hb := (List.getElem?_eq_some_iff.1 h).1
    simp at hb
    have : i = l.length := by omega
    subst this
    simp at h
    exact ⟨rfl, h⟩

/-- Invocation. -/
theorem Book.invoke {S : SeqSpec Op R} {H : List (Event Op R)} {L : List (Nat × Op × R)} {a : Canon S}
    (b : Book S H L a) (t : Tid) (op : Op) (ht : a.th t = .idle) :
    Book S (H ++ [.inv t op]) L ⟨a.st, upd a.th t (.pending op)⟩ := by
  have hret : ∀ i j op' r, Returns (H ++ [.inv t op]) i j op' r → Returns H i j op' r := by
    intro i j op' r h
    refine h.of_append ?_
    obtain ⟨u, -, h2, -⟩ := h
    rcases getElem?_snoc h2 with h2 | ⟨-, h2⟩
    · exact (List.getElem?_eq_some_iff.1 h2).1
    · cases h2
  refine ⟨b.run, b.nodup, ?_, fun i j op' r h => b.all i j op' r (hret i j op' r h), ?_, ?_, ?_⟩
  · intro i op' r h
    obtain ⟨u, hu⟩ := b.inv i op' r h
    exact ⟨u, by rw [List.getElem?_append_left (b.bound h)]; exact hu⟩
  · exact b.order.imp fun hab j op' r h => hab j op' r (hret _ j op' r h)
  · intro u
    by_cases c : u = t
    · subst c
      simp only [upd_same, BookStatus]
      refine ⟨H.length, by simp, ?_, ?_⟩
      · intro k e hk he
        rw [List.getElem?_eq_none (by simp; omega)] at he; cases he
      · intro op' r h
        have := b.bound h
        omega
    · simp only [upd_other _ _ c]
      have hs := b.status u
      have hother : ∀ (k : Nat) (e : Event Op R), (H ++ [.inv t op])[k]? = some e → e.tid = u → H[k]? = some e := by
        intro k e he hu
        rcases getElem?_snoc he with he | ⟨-, he⟩
        · exact he
        · subst he; exact absurd hu.symm c
      have hlift : ∀ (k : Nat) (e : Event Op R), H[k]? = some e → (H ++ [.inv t op])[k]? = some e := by
        intro k e he
        rw [List.getElem?_append_left (List.getElem?_eq_some_iff.1 he).1]; exact he
      cases hu : a.th u with
      | idle =>
        rw [hu] at hs
        simp only [BookStatus] at hs ⊢
        intro i op' h
        obtain ⟨k, e, hk, he, het⟩ := hs i op' (hother i _ h rfl)
        exact ⟨k, e, hk, hlift k e he, het⟩
      | pending op' =>
        rw [hu] at hs
        simp only [BookStatus] at hs ⊢
        obtain ⟨i, h1, h2, h3⟩ := hs
        exact ⟨i, hlift _ _ h1, fun k e hk he hue => h2 k e hk (hother k e he hue) hue, h3⟩
      | done op' r =>
        rw [hu] at hs
        simp only [BookStatus] at hs ⊢
        obtain ⟨i, h1, h2, h3⟩ := hs
        exact ⟨i, hlift _ _ h1, fun k e hk he hue => h2 k e hk (hother k e he hue) hue, h3⟩
  · intro i u op' h
    rcases getElem?_snoc h with h | ⟨rfl, h'⟩
    · rcases b.comp i u op' h with g | ⟨g1, g2⟩
      · exact Or.inl g
      · have c : u ≠ t := by rintro rfl; rw [ht] at g1; cases g1
        refine Or.inr ⟨(upd_other _ _ c).trans g1, ?_⟩
        intro k e hk he
        rcases getElem?_snoc he with he | ⟨-, he⟩
        · exact g2 k e hk he
        · subst he; exact fun e => c e.symm
    · injection h' with h1 h2
      subst h1 h2
      refine Or.inr ⟨upd_same _ _ _, ?_⟩
      intro k e hk he
      rw [List.getElem?_eq_none (by simp; omega)] at he; cases he

/-- A call takes effect. -/
theorem Book.lin1 {S : SeqSpec Op R} {H : List (Event Op R)} {L : List (Nat × Op × R)} {a : Canon S}
    (b : Book S H L a) (t : Tid) (op : Op) (r : R) (s' : S.St) (ht : a.th t = .pending op)
    (hl : S.legal a.st op r s') : ∃ L', Book S H L' ⟨s', upd a.th t (.done op r)⟩ := by
  have hs := b.status t
  rw [ht] at hs
  obtain ⟨i, h1, h2, h3⟩ := hs
  have hnr : ∀ j op' r', ¬ Returns H i j op' r' := by
    rintro j op' r' ⟨u, g1, g2, g3, -⟩
    rw [h1] at g1
    injection g1 with g1
    injection g1 with g1 g1'
    subst g1
    exact h2 j _ g3 g2 rfl
  refine ⟨L ++ [(i, op, r)], ?_, ?_, ?_, ?_, ?_, ?_, ?_⟩
  · rw [List.map_append]
    exact .snoc b.run hl
  · rw [List.map_append, List.nodup_append]
    refine ⟨b.nodup, by simp, ?_⟩
    intro x hx y hy
    simp at hy
    subst hy
    intro c
    subst c
    obtain ⟨⟨x', op', r'⟩, hm, rfl⟩ := List.mem_map.1 hx
    exact h3 op' r' hm
  · intro i' op' r' hm
    rcases List.mem_append.1 hm with hm | hm
    · exact b.inv i' op' r' hm
    · simp at hm
      obtain ⟨rfl, rfl, rfl⟩ := hm
      exact ⟨t, h1⟩
  · intro i' j op' r' h
    exact List.mem_append.2 (Or.inl (b.all i' j op' r' h))
  · rw [List.pairwise_append]
    refine ⟨b.order, List.pairwise_singleton _ _, ?_⟩
    intro x _ y hy j op' r' h
    simp at hy
    subst hy
    exact absurd h (hnr j op' r')
  · intro u
    by_cases c : u = t
    · subst c
      simp only [upd_same, BookStatus]
      exact ⟨i, h1, h2, by simp⟩
    · simp only [upd_other _ _ c]
      have hs := b.status u
      cases hu : a.th u with
      | idle => rw [hu] at hs; exact hs
      | pending op' =>
        rw [hu] at hs
        obtain ⟨i', g1, g2, g3⟩ := hs
        refine ⟨i', g1, g2, ?_⟩
        intro op'' r' hm
        rcases List.mem_append.1 hm with hm | hm
        · exact g3 op'' r' hm
        · simp at hm
          rw [hm.1, h1] at g1
          injection g1 with g1
          injection g1 with g1
          exact c g1.symm
      | done op' r' =>
        rw [hu] at hs
        obtain ⟨i', g1, g2, g3⟩ := hs
        exact ⟨i', g1, g2, List.mem_append.2 (Or.inl g3)⟩
  · intro i' u op' h
    rcases b.comp i' u op' h with ⟨r', g⟩ | ⟨g1, g2⟩
    · exact Or.inl ⟨r', List.mem_append.2 (Or.inl g)⟩
    · by_cases c : u = t
      · subst c
        rw [ht] at g1
        injection g1 with g1
        subst g1
        have hii : i' = i := by
          by_cases c1 : i' < i
          · exact absurd rfl (g2 i _ c1 h1)
          · by_cases c2 : i < i'
            · exact absurd rfl (h2 i' _ c2 h)
            · omega
        subst hii
        exact Or.inl ⟨r, by simp⟩
      · exact Or.inr ⟨(upd_other _ _ c).trans g1, g2⟩

theorem Book.lin {S : SeqSpec Op R} {H : List (Event Op R)} {a a' : Canon S} (hl : Lin S a a') :
    ∀ {L : List (Nat × Op × R)}, Book S H L a → ∃ L', Book S H L' a' := by
  induction hl with
  | refl a => intro L b; exact ⟨L, b⟩
  | step t op r s' ht hleg _ ih =>
    intro L b
    obtain ⟨L', b'⟩ := b.lin1 t op r s' ht hleg
    exact ih b'

/-- Response. -/
theorem Book.respond {S : SeqSpec Op R} {H : List (Event Op R)} {L : List (Nat × Op × R)} {a : Canon S}
    (b : Book S H L a) (t : Tid) (op : Op) (r : R) (ht : a.th t = .done op r) :
    Book S (H ++ [.ret t r]) L ⟨a.st, upd a.th t .idle⟩ := by
  have hs := b.status t
  rw [ht] at hs
  obtain ⟨i, h1, h2, h3⟩ := hs
  have hi : i < H.length := (List.getElem?_eq_some_iff.1 h1).1
  have hret : ∀ i' j op' r', Returns (H ++ [.ret t r]) i' j op' r' →
      Returns H i' j op' r' ∨ (j = H.length ∧ i' = i ∧ op' = op ∧ r' = r) := by
    intro i' j op' r' h
    by_cases c : j < H.length
    · exact Or.inl (h.of_append c)
    · right
      obtain ⟨u, g1, g2, g3, g4⟩ := h
      rcases getElem?_snoc g2 with g7 | ⟨g7, g2'⟩
      · exact absurd (List.getElem?_eq_some_iff.1 g7).1 c
      · injection g2' with g5 g6
        subst g5
        rcases getElem?_snoc g1 with g1 | ⟨-, g1⟩
        · have hii : i' = i := by
            by_cases c1 : i' < i
            · exact absurd rfl (g4 i _ c1 (by omega) (by rw [List.getElem?_append_left hi]; exact h1))
            · by_cases c2 : i < i'
              · exact absurd rfl (h2 i' _ c2 g1)
              · omega
          subst hii
          rw [h1] at g1
          injection g1 with g1
          injection g1 with g1 g1'
          exact ⟨g7, rfl, g1'.symm, g6.symm⟩
        · cases g1
  have hlift : ∀ (k : Nat) (e : Event Op R), H[k]? = some e → (H ++ [.ret t r])[k]? = some e := by
    intro k e he
    rw [List.getElem?_append_left (List.getElem?_eq_some_iff.1 he).1]; exact he
  refine ⟨b.run, b.nodup, ?_, ?_, ?_, ?_, ?_⟩
  · intro i' op' r' h
    obtain ⟨u, hu⟩ := b.inv i' op' r' h
    exact ⟨u, hlift _ _ hu⟩
  · intro i' j op' r' h
    rcases hret i' j op' r' h with h | ⟨-, rfl, rfl, rfl⟩
    · exact b.all i' j op' r' h
    · exact h3
  · refine (List.pairwise_iff_forall_sublist.2 ?_)
    intro x y hxy j op' r' h
    rcases hret _ j op' r' h with h | ⟨rfl, -⟩
    · exact List.pairwise_iff_forall_sublist.1 b.order hxy j op' r' h
    · exact b.bound (i := x.1) (op := x.2.1) (r := x.2.2) (hxy.subset (by simp))
  · intro u
    by_cases c : u = t
    · subst c
      simp only [upd_same, BookStatus]
      intro i' op' h
      rcases getElem?_snoc h with h | ⟨-, h⟩
      · exact ⟨H.length, .ret u r, (List.getElem?_eq_some_iff.1 h).1, by simp, rfl⟩
      · cases h
    · simp only [upd_other _ _ c]
      have hs := b.status u
      have hother : ∀ (k : Nat) (e : Event Op R), (H ++ [.ret t r])[k]? = some e → e.tid = u → H[k]? = some e := by
        intro k e he hu
        rcases getElem?_snoc he with he | ⟨-, he⟩
        · exact he
        · subst he; exact absurd hu.symm c
      cases hu : a.th u with
      | idle =>
        rw [hu] at hs
        simp only [BookStatus] at hs ⊢
        intro i' op' h
        obtain ⟨k, e, hk, he, het⟩ := hs i' op' (hother i' _ h rfl)
        exact ⟨k, e, hk, hlift k e he, het⟩
      | pending op' =>
        rw [hu] at hs
        simp only [BookStatus] at hs ⊢
        obtain ⟨i', g1, g2, g3⟩ := hs
        exact ⟨i', hlift _ _ g1, fun k e hk he hue => g2 k e hk (hother k e he hue) hue, g3⟩
      | done op' r' =>
        rw [hu] at hs
        simp only [BookStatus] at hs ⊢
        obtain ⟨i', g1, g2, g3⟩ := hs
        exact ⟨i', hlift _ _ g1, fun k e hk he hue => g2 k e hk (hother k e he hue) hue, g3⟩
  · intro i' u op' h
    rcases getElem?_snoc h with h | ⟨-, h⟩
    · rcases b.comp i' u op' h with g | ⟨g1, g2⟩
      · exact Or.inl g
      · have c : u ≠ t := by rintro rfl; rw [ht] at g1; cases g1
        refine Or.inr ⟨(upd_other _ _ c).trans g1, ?_⟩
        intro k e hk he
        rcases getElem?_snoc he with he | ⟨-, he⟩
        · exact g2 k e hk he
        · subst he; exact fun e => c e.symm
    · cases h

theorem Book.start (S : SeqSpec Op R) : Book S [] [] ⟨S.init, fun _ => .idle⟩ where
  run := .nil _
  nodup := List.nodup_nil
  inv i op r h := by cases h
  all i j op r h := by obtain ⟨t, h, -⟩ := h; cases h
  order := List.Pairwise.nil
  status t := by
    show ∀ (i : Nat) (op : Op), _ → _
    intro i op h; cases h
  comp i t op h := by cases h

theorem Book.linearizable {S : SeqSpec Op R} {H : List (Event Op R)} {L : List (Nat × Op × R)} {a : Canon S}
    (b : Book S H L a) : Linearizable S H := ⟨L, a.st, b.run, b.nodup, b.inv, b.all, b.order⟩

/-! ## Simulation -/

variable {M : Machine}

/-- A relation between the states of a system and of the atomic object under which every step of the
system is matched: calls by calls, responses by responses of calls that have taken effect. -/
structure Sim (S : SeqSpec Op R) (body : Op → Prog M.A M.Ans R) (c0 : Config M Op R) (P : Tid → Op → Prop)
    (rel : Config M Op R → Canon S → Prop) : Prop where
  start : rel c0 ⟨S.init, fun _ => .idle⟩
  call : ∀ c a t op, rel c a → P t op → c.th t = .idle →
    a.th t = .idle ∧ rel ⟨c.sh, upd c.th t (.run op (body op))⟩ ⟨a.st, upd a.th t (.pending op)⟩
  act : ∀ c a t op x k ans sh', rel c a → c.th t = .run op (.act x k) → M.step t x c.sh ans sh' →
    ∃ a', Lin S a a' ∧ rel ⟨sh', upd c.th t (.run op (k ans))⟩ a'
  ret : ∀ c a t op r, rel c a → c.th t = .run op (.ret r) →
    ∃ a', Lin S a a' ∧ a'.th t = .done op r ∧ rel ⟨c.sh, upd c.th t .idle⟩ ⟨a'.st, upd a'.th t .idle⟩

/-- Every execution of a simulated system is related to a state of the atomic object, with books kept. -/
theorem Sim.book {S : SeqSpec Op R} {body : Op → Prog M.A M.Ans R} {c0 : Config M Op R} {P : Tid → Op → Prop}
    {rel : Config M Op R → Canon S → Prop} (h : Sim S body c0 P rel) {tr : List (Label M Op R)} {c : Config M Op R}
    (he : Exec body c0 tr c) (hP : Calls P tr) : ∃ a L, rel c a ∧ Book S (history tr) L a := by
  induction he with
  | nil => exact ⟨_, _, h.start, Book.start S⟩
  | @snoc tr c c' l _ hs ih =>
    obtain ⟨h1, h2⟩ := hP.of_snoc
    obtain ⟨a, L, hr, hb⟩ := ih h1
    rw [history_append]
    cases hs with
    | call t op ht =>
      obtain ⟨hi, hr'⟩ := h.call c a t op hr (h2 t op rfl) ht
      exact ⟨_, L, hr', hb.invoke t op hi⟩
    | act t op x k ans sh' ht hst =>
      obtain ⟨a', hl, hr'⟩ := h.act c a t op x k ans sh' hr ht hst
      obtain ⟨L', hb'⟩ := hb.lin hl
      refine ⟨a', L', hr', ?_⟩
      simpa [history] using hb'
    | ret t op r ht =>
      obtain ⟨a', hl, hd, hr'⟩ := h.ret c a t op r hr ht
      obtain ⟨L', hb'⟩ := hb.lin hl
      exact ⟨_, L', hr', hb'.respond t op r hd⟩

/-- Hence its histories are linearizable. -/
theorem Sim.linearizable {S : SeqSpec Op R} {body : Op → Prog M.A M.Ans R} {c0 : Config M Op R} {P : Tid → Op → Prop}
    {rel : Config M Op R → Canon S → Prop} (h : Sim S body c0 P rel) {tr : List (Label M Op R)} {c : Config M Op R}
    (he : Exec body c0 tr c) (hP : Calls P tr) : Linearizable S (history tr) := by
  obtain ⟨a, L, -, hb⟩ := h.book he hP
  exact hb.linearizable

end

end Verif.Conc
