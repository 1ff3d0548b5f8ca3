import Verif.Stream.SliceExact
import Verif.Stream.SkipExact

/-!
# C49 over slices, exactly

`stream.Map(s, f)` for an `s` made from a slice by any chain, followed by any chain, also when sums of `Skip`s
overflow: a `Skip` on the result is passed on to `s` (stream/stream.go:41-43), and from there to the slice if `s` has no
`Filter` or `Limit`.
-/

namespace Verif.Stream

variable {T E R : Type}

/-- The chain has a `Filter` or a `Limit`. -/
def hasPreds (cs : List (Call T E)) : Bool := cs.any Call.isPred

/-- A chain over a source on which `SkipNext` always succeeds. -/
theorem chain_any {S : Source T E} (mv : S.σ → Int → S.σ) (I : S.σ → Prop)
    (hmv : ∀ q n, I q → 0 ≤ n → I (mv q n)) (h0 : ∀ q, I q → mv q 0 = q)
    (hsk : ∀ q n, I q → 0 < n → ∃ r, S.skip n q = .ok (r, mv q n)) (cs : List (Call T E)) (hl : ∀ c ∈ cs, c.legal) :
    ∀ (q : S.σ) (ops : List (Op T E)), I q →
      Stream.chain (S := S) ⟨some q, ops, false⟩ cs =
        .ok ⟨some ((early cs).foldl mv q), ops ++ storeOps (others cs), hasPreds cs⟩ := by
  induction cs with
  | nil => intro q ops _; simp [Stream.chain, storeOps, others, early, hasPreds]
  | cons c cs ih =>
    intro q ops hq
    have ih := ih (fun c hc => hl c (by simp [hc]))
    have hc := hl c (by simp)
    cases c with
    | map f =>
      simp [Stream.chain, Stream.call, Stream.map, storeOps, early, others, ih _ _ hq, hasPreds, Call.isPred]
    | peek f =>
      simp [Stream.chain, Stream.call, Stream.peek, storeOps, early, others, ih _ _ hq, hasPreds, Call.isPred]
    | filter p =>
      have := chain_stored (S := S) cs (fun c hc => hl c (by simp [hc])) (some q) (ops ++ [.filter p])
      simp [Stream.chain, Stream.call, Stream.filter, storeOps, early, others, this, hasPreds, Call.isPred]
    | limit n =>
      have hc : 0 ≤ n := hc
      have hn : ¬ n < 0 := by omega
      have := chain_stored (S := S) cs (fun c hc => hl c (by simp [hc])) (some q) (ops ++ [.limit n.toNat])
      simp [Stream.chain, Stream.call, Stream.limit, storeOps, early, others, this, hn, hasPreds, Call.isPred]
    | skip n =>
      have hc : 0 ≤ n := hc
      have hn : ¬ n < 0 := by omega
      have hcall : Stream.skip (S := S) ⟨some q, ops, false⟩ n = .ok ⟨some (mv q n), ops, false⟩ := by
        by_cases hz : n = 0
        · subst hz; rw [h0 q hq]; simp [Stream.skip]
        · obtain ⟨r, hr⟩ := hsk q n hq (by omega)
          simp [Stream.skip, hn, hz, hr]
      simp only [Stream.chain, Stream.call, hcall, early, others, List.foldl_cons]
      rw [ih _ _ (hmv q n hq hc)]
      simp [hasPreds, Call.isPred]

theorem plain_others (cs : List (Call T E)) (h : hasPreds cs = false) : plain (storeOps (others cs)) := by
  induction cs with
  | nil => trivial
  | cons c cs ih =>
    simp only [hasPreds, List.any_cons, Bool.or_eq_false_iff] at h
    have ih := ih h.2
    cases c with
    | map f => exact ih
    | peek f => exact ih
    | skip n => exact ih
    | filter f => cases h.1
    | limit n => cases h.1

/-- An index the slice source can have. -/
def InRange (len : Nat) (i : Int) : Prop := -9223372036854775808 ≤ i ∧ i ≤ len

theorem slice_skip (xs : List T) (i n : Int) (hn : 0 < n) :
    ∃ r, (sliceSource E xs).skip n i = .ok (r, moved xs.length i n) := by
  simp only [sliceSource, moved]
  rw [if_neg (by omega)]
  by_cases hge : wrap64 (i + n) ≥ xs.length
  · exact ⟨_, by rw [if_pos hge, if_pos hge]⟩
  · exact ⟨_, by rw [if_neg hge, if_neg hge]⟩

/-- **C49** over slices, for every chain `cs` before `stream.Map` and every chain `ds` after it, with legal arguments.
The chains do not panic. The `Skip`s before any `Filter` or `Limit`, of both chains, lead to a place in the slice; if it
is not negative, `Slice` returns what the other calls make of the elements from there on, and otherwise it panics. -/
theorem C49_slice_exact (xs : List T) (hlen : xs.length < 9223372036854775808) (cs : List (Call T E)) (f : T → R)
    (ds : List (Call R E)) (hc : ∀ c ∈ cs, c.legal) (hd : ∀ d ∈ ds, d.legal) :
    ∃ s s', (ofSlice E xs).chain cs = .ok s ∧ (mapTo s f).chain ds = .ok s' ∧
      let p := place xs.length 0 (early cs ++ if hasPreds cs then [] else early ds)
      if 0 ≤ p then
        ∃ s'' l, s'.slice = some (.ok ⟨listChain (if hasPreds cs then ds else others ds)
          ((listChain (others cs) (xs.drop p.toNat)).map f), s'', l⟩)
      else s'.slice = some (.error "index out of range") := by
  have hin : InRange xs.length (0 : Int) := ⟨by decide, by omega⟩
  -- what comes out, once the chains are done
  have fin : ∀ (p : Int) (ops : List (Op T E)) (b : Bool) (ops' : List (Op R E)) (b' : Bool), InRange xs.length p →
      (b = false → plain ops) → (b' = false → plain ops') →
      if 0 ≤ p then
        ∃ s'' l, Stream.slice (⟨some (⟨some p, ops, b⟩ : Stream (sliceSource E xs)), ops', b'⟩ :
          Stream (tts (sliceSource E xs) f)) = some (.ok ⟨sem ops' ((sem ops (xs.drop p.toNat)).map f), s'', l⟩)
      else Stream.slice (⟨some (⟨some p, ops, b⟩ : Stream (sliceSource E xs)), ops', b'⟩ :
          Stream (tts (sliceSource E xs) f)) = some (.error "index out of range") := by
    intro p ops b ops' b' ⟨_, h2⟩ hb hb'
    split
    · rename_i hp
      obtain ⟨k, rfl⟩ := Int.eq_ofNat_of_zero_le hp
      have hbh := slice_behaves E xs k 0 (by omega) (by omega)
      have hy : Yields 0 (⟨some (k : Int), ops, b⟩ : Stream (sliceSource E xs)) (sem ops (xs.drop k)) :=
        ⟨⟨(k : Int), xs.drop k, rfl, hbh, rfl⟩, hb⟩
      exact slice_lists (Yields.lists (b := 0) ⟨⟨_, _, rfl, tts_behaves f hy, rfl⟩, hb'⟩)
    · rename_i hp
      have hn : (sliceSource E xs).next p = some (.error "index out of range") := by
        simp only [sliceSource]
        rw [if_neg (by omega)]
        simp [goGet, hp]
      have h1 : (⟨some p, ops, b⟩ : Stream (sliceSource E xs)).next = some (.error "index out of range") := by
        simp [Stream.next, loop_error hn]
      have h2 : (tts (sliceSource E xs) f).next (⟨some p, ops, b⟩ : Stream (sliceSource E xs)) =
          some (.error "index out of range") := by rw [tts_next, h1]
      unfold Stream.slice
      rw [Stream.reduce]
      simp [Stream.next, loop_error h2]
  -- the first chain
  have hmr : ∀ (q : Int) (n : Int), InRange xs.length q → 0 ≤ n → InRange xs.length (moved xs.length q n) :=
    fun q n _ _ => moved_range q n
  have hm0 : ∀ q, InRange xs.length q → moved xs.length q 0 = q := fun q hq => moved_zero hq.1 hq.2 hlen
  have h1 : (ofSlice E xs).chain cs = .ok ⟨some (place xs.length 0 (early cs)), storeOps (others cs), hasPreds cs⟩ :=
    chain_any (S := sliceSource E xs) (moved xs.length) (InRange xs.length) hmr hm0
      (fun q n _ hn => slice_skip xs q n hn) cs hc (0 : Int) [] hin
  have hp1 := place_range (len := xs.length) (early cs) (i := 0) hin.1 hin.2
  have hpl : hasPreds cs = false → plain (storeOps (others cs)) := plain_others cs
  have hpl' : hasPreds ds = false → plain (storeOps (others ds)) := plain_others ds
  -- the second chain
  suffices h : ∃ (q : Int) (ops : List (Op T E)) (es : List (Call R E)),
      (mapTo (⟨some (place xs.length 0 (early cs)), storeOps (others cs), hasPreds cs⟩ : Stream (sliceSource E xs)) f).chain
        ds = .ok ⟨some ⟨some q, ops, hasPreds cs⟩, storeOps es, hasPreds ds⟩ ∧
      InRange xs.length q ∧ (hasPreds cs = false → plain ops) ∧ (hasPreds ds = false → plain (storeOps es)) ∧
      q = place xs.length 0 (early cs ++ if hasPreds cs then [] else early ds) ∧
      ∀ ys : List T, listChain es ((sem ops ys).map f) =
        listChain (if hasPreds cs then ds else others ds) ((listChain (others cs) ys).map f) by
    obtain ⟨q, ops, es, g1, g2, g3, g4, g5, g6⟩ := h
    refine ⟨_, _, h1, g1, ?_⟩
    have := fin q ops (hasPreds cs) (storeOps es) (hasPreds ds) g2 g3 g4
    rw [← g5]
    dsimp only
    rw [← g6, ← sem_storeOps es]
    exact this
  cases hb : hasPreds cs with
  | false =>
    let ops := storeOps (others cs)
    let mv : Stream (sliceSource E xs) → Int → Stream (sliceSource E xs) :=
      fun s n => { s with src := s.src.map fun i => moved xs.length i n }
    let I : Stream (sliceSource E xs) → Prop :=
      fun s => ∃ i, InRange xs.length i ∧ s = ⟨some i, ops, false⟩
    have h2 := chain_any (S := tts (sliceSource E xs) f) mv I
      (by rintro _ n ⟨i, hi, rfl⟩ hn; exact ⟨_, hmr i n hi hn, rfl⟩)
      (by
        rintro _ ⟨i, hi, rfl⟩
        show (⟨some (moved xs.length i 0), ops, false⟩ : Stream (sliceSource E xs)) = _
        rw [hm0 i hi])
      (by
        rintro _ n ⟨i, hi, rfl⟩ hn
        obtain ⟨r, hr⟩ := slice_skip (E := E) xs i n hn
        refine ⟨-1, ?_⟩
        simp [tts, Stream.skip, show ¬ n < 0 by omega, show n ≠ 0 by omega, hr]
        rfl)
      ds hd ⟨some (place xs.length 0 (early cs)), ops, false⟩ [] ⟨_, hp1, rfl⟩
    have hfold : ∀ (ns : List Int) (i : Int), ns.foldl mv ⟨some i, ops, false⟩ =
        ⟨some (place xs.length i ns), ops, false⟩ := by
      intro ns
      induction ns with
      | nil => intro i; rfl
      | cons n ns ih => intro i; exact ih (moved xs.length i n)
    have h2 := h2.trans (congrArg (fun z => Except.ok
      (⟨some z, storeOps (others ds), hasPreds ds⟩ : Stream (tts (sliceSource E xs) f))) (hfold (early ds) _))
    refine ⟨_, ops, others ds, h2, place_range _ hp1.1 hp1.2, fun _ => hpl hb, hpl', ?_, ?_⟩
    · simp [place, List.foldl_append]
    · intro ys
      simp only [ops, sem_storeOps]
      rfl
  | true =>
    let mv : Stream (sliceSource E xs) → Int → Stream (sliceSource E xs) :=
      fun s n => if n = 0 then s else { s with ops := s.ops ++ [.skip n.toNat] }
    let I : Stream (sliceSource E xs) → Prop := fun s => s.hasPred = true
    have h2 := chain_any (S := tts (sliceSource E xs) f) mv I
      (by
        intro s n hs _
        by_cases h : n = 0
        · simp only [mv, I, h]; exact hs
        · simp only [mv, I, h]; exact hs)
      (by intro s _; simp [mv])
      (by
        rintro ⟨i, ops, b⟩ n hs hn
        cases hs
        refine ⟨-1, ?_⟩
        simp [tts, Stream.skip, show ¬ n < 0 by omega, show n ≠ 0 by omega, mv])
      ds hd ⟨some (place xs.length 0 (early cs)), storeOps (others cs), true⟩ [] rfl
    have hfold : ∀ (ns : List Int) (i : Int) (ops : List (Op T E)), ∃ ops',
        ns.foldl mv ⟨some i, ops, true⟩ = ⟨some i, ops', true⟩ ∧
        ∀ ys, sem ops' ys = (sem ops ys).drop (ns.map Int.toNat).sum := by
      intro ns
      induction ns with
      | nil => intro i ops; exact ⟨ops, rfl, by simp⟩
      | cons n ns ih =>
        intro i ops
        by_cases hz : n = 0
        · obtain ⟨o, g1, g2⟩ := ih i ops
          exact ⟨o, by simp [mv, hz] at g1 ⊢; exact g1, fun ys => by simp [g2, hz]⟩
        · obtain ⟨o, g1, g2⟩ := ih i (ops ++ [.skip n.toNat])
          refine ⟨o, by simp [mv, hz] at g1 ⊢; exact g1, fun ys => ?_⟩
          rw [g2, sem_append]
          simp [sem, Op.onList, List.drop_drop]
    obtain ⟨o, g1, g2⟩ := hfold (early ds) (place xs.length 0 (early cs)) (storeOps (others cs))
    have h2 := h2.trans (congrArg (fun z => Except.ok
      (⟨some z, storeOps (others ds), hasPreds ds⟩ : Stream (tts (sliceSource E xs) f))) g1)
    refine ⟨_, o, others ds, h2, hp1, (by cases ·), hpl', by simp, ?_⟩
    intro ys
    rw [g2, sem_storeOps, List.map_drop, if_pos rfl, listChain_others ds]

/-- `Map(Of(10, 20, 30).Skip(1), f).Skip(MaxInt64).Skip(MaxInt64).Skip(2)`: the second element comes, though it
was skipped. -/
example : place 3 0 (early (E := Unit) (T := Nat) [.skip 1] ++ if hasPreds (E := Unit) (T := Nat) [.skip 1] then []
    else early (E := Unit) (T := String) [.skip 9223372036854775807, .skip 9223372036854775807, .skip 2]) = 1 := by
  decide

end Verif.Stream
