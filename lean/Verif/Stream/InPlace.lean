import Verif.Stream.Loop
import Verif.Stream.Sources
import Verif.Slice.Lemmas

/-!
# C120: streams over a slice that changes while it is streamed

The operations of the chain are functions (they do not touch memory); the terminal operation's callback reads and
changes memory.
-/

namespace Verif.Stream.Mem

open Verif.Stream.Exact
open Verif.Slice (Heap Slice load Valid contents poke splice appendMany varAppend Var onVar length_contents load_ok Upd)

variable {M T A E : Type}

/-! ## Specification -/

/-- The terminal operation on a list of elements. -/
def onList (f : A → T → St M (A × Bool)) : List T → A → St M A
  | [], a => pure a
  | v :: vs, a => do
    let r ← f a v
    if r.2 then pure r.1 else onList f vs r.1

/-- Elements are read one by one, each when its turn comes: `zs` have been read, from index `j` on, and `k` are left. An
element that is too many for some `Limit` ends it; otherwise it is given to the terminal operation if it makes a further
element come through. -/
def lazily [Inhabited T] (view : M → Heap T) (s : Slice) (cs : List (Call T E)) (f : A → T → St M (A × Bool)) (j : Nat) :
    Nat → List T → A → St M A
  | 0, _, a => pure a
  | k + 1, zs, a => do
    let x ← elem view s (j + zs.length)
    if over cs (zs ++ [x]) then pure a
    else match (listChain cs (zs ++ [x])).drop (listChain cs zs).length with
      | [] => lazily view s cs f j k (zs ++ [x]) a
      | v :: _ => do
        let r ← f a v
        if r.2 then pure r.1 else lazily view s cs f j k (zs ++ [x]) r.1

/-! ## Operations that are functions -/

/-- An operation that does not touch memory. -/
def pureOp : Verif.Stream.Op T E → Op M T
  | .map f => .map fun v => pure (f v)
  | .filter p => .filter fun v => pure (p v)
  | .skip n => .skip n
  | .limit n => .limit n
  | .peek _ => .peek fun _ => pure ()

/-- What one element does. -/
def pureOut : Verif.Stream.Out T E → Out M T
  | .pass v ops _ => .pass v (ops.map pureOp)
  | .drop ops _ => .drop (ops.map pureOp)
  | .stop _ => .stop

theorem runOps_pure (ops : List (Verif.Stream.Op T E)) : ∀ (v : T) (m : M),
    runOps (ops.map pureOp) v m = (pureOut (Verif.Stream.runOps ops v), m) := by
  induction ops with
  | nil => intro v m; rfl
  | cons op ops ih =>
    intro v m
    have hc : ∀ (o : Verif.Stream.Op T E) l (r : Verif.Stream.Out T E),
        (pureOut r : Out M T).cons (pureOp o) = pureOut (r.cons o l) := by
      intro o l r; cases r <;> rfl
    cases op with
    | map f =>
      simp only [List.map_cons, pureOp, runOps, Verif.Stream.runOps, St.pure_apply, ih]
      rw [← hc (.map f)]; rfl
    | filter p =>
      simp only [List.map_cons, pureOp, runOps, Verif.Stream.runOps, St.pure_apply, ih]
      cases p v with
      | false => rfl
      | true =>
        simp only [Bool.not_true, Bool.false_eq_true, if_false]
        rw [← hc (.filter p)]; rfl
    | skip n =>
      simp only [List.map_cons, pureOp, runOps, Verif.Stream.runOps, ih]
      split
      · rfl
      · rw [← hc (.skip n)]; rfl
    | limit n =>
      simp only [List.map_cons, pureOp, runOps, Verif.Stream.runOps, ih]
      split
      · rw [← hc (.limit (n - 1))]; rfl
      · rfl
    | peek c =>
      simp only [List.map_cons, pureOp, runOps, Verif.Stream.runOps, St.pure_apply, ih]
      rw [← hc (.peek c)]; rfl

/-! ## One step of a terminal operation -/

section
variable {S : Source M T} {f : A → T → St M (A × Bool)} {a : A} {q q' : S.σ} {m m' : M} {ops : List (Op M T)}

theorem fold_end (h : S.next q m = some (.ok none, q', m')) :
    Stream.fold f a (some (q, ops) : Stream S) m = some (.ok a, none, m') := by
  rw [Stream.fold.eq_1]; simp only [Stream.next]; rw [loop.eq_1, h]; rfl

theorem fold_error {e : String} (h : S.next q m = some (.error e, q', m')) :
    Stream.fold f a (some (q, ops) : Stream S) m = some (.error e, some (q', ops), m') := by
  rw [Stream.fold.eq_1]; simp only [Stream.next]; rw [loop.eq_1, h]; rfl

theorem fold_some {v : T} (h : S.next q m = some (.ok (some v), q', m')) :
    Stream.fold f a (some (q, ops) : Stream S) m = match runOps ops v m' with
      | (.pass w ops', m'') => (match f a w m'' with
        | (.error e, m3) => some (.error e, some (q', ops'), m3)
        | (.ok (a', true), m3) => some (.ok a', some (q', ops'), m3)
        | (.ok (a', false), m3) => Stream.fold f a' (some (q', ops') : Stream S) m3)
      | (.stop, m'') => some (.ok a, none, m'')
      | (.fail e ops', m'') => some (.error e, some (q', ops'), m'')
      | (.drop ops', m'') => Stream.fold f a (some (q', ops') : Stream S) m'' := by
  rw [Stream.fold.eq_1]
  simp only [Stream.next]
  rw [loop.eq_1, h]
  dsimp only [Option.bind_eq_bind, Option.bind_some]
  rcases runOps ops v m' with ⟨_ | _ | _ | _, m''⟩
  · rfl
  · dsimp only
    rw [Stream.fold.eq_1]
    rfl
  · rfl
  · rfl

end

section
variable [Inhabited T] {view : M → Heap T} {s : Slice} {f : A → T → St M (A × Bool)}

theorem fold_lazily (cs : List (Call T E)) (j k : Nat) : ∀ (zs : List T) (a : A) (m : M), j + zs.length + k = s.len →
    over cs zs = false →
    ∃ st, (ofSlice view s (j + zs.length) ((opsOf cs zs).map pureOp)).fold f a m =
      some ((lazily view s cs f j k zs a m).1, st, (lazily view s cs f j k zs a m).2) := by
  induction k with
  | zero =>
    intro zs a m hk ho
    have : (sliceSource view s).next (j + zs.length : Nat) m = some (.ok none, (j + zs.length : Nat), m) :=
      if_pos (by omega)
    exact ⟨_, fold_end this⟩
  | succ k ih =>
    intro zs a m hk ho
    simp only [lazily, St.bind_apply, elem]
    rcases hl : (load s ((j + zs.length : Nat) : Int) (view m)).1 with e | x
    · have : (sliceSource view s).next (j + zs.length : Nat) m = some (.error e, (j + zs.length + 1 : Nat), m) := by
        simp only [sliceSource, hl]; rw [if_neg (by omega)]
      exact ⟨_, fold_error this⟩
    · have : (sliceSource view s).next (j + zs.length : Nat) m = some (.ok (some x), (j + zs.length + 1 : Nat), m) := by
        simp only [sliceSource, hl]; rw [if_neg (by omega)]
      have hs : (ofSlice view s (j + zs.length) ((opsOf cs zs).map pureOp)).fold f a m = _ :=
        fold_some (f := f) (a := a) (ops := (opsOf cs zs).map pureOp) this
      rw [hs, runOps_pure]
      have ef := effect cs zs x ho
      have ih := fun a m h => ih (zs ++ [x]) a m (by simp; omega) h
      simp only [List.length_append, List.length_singleton, ← Nat.add_assoc] at ih
      cases hr : Verif.Stream.runOps (opsOf cs zs) x with
      | stop l =>
        rw [hr] at ef
        dsimp only [pureOut]
        rw [ef.2.2, if_pos rfl]
        exact ⟨_, rfl⟩
      | drop ops l =>
        rw [hr] at ef
        obtain ⟨rfl, -, e3, e4⟩ := ef
        dsimp only [pureOut]
        rw [e4, if_neg (by simp), e3, List.drop_length]
        exact ih a m e4
      | pass v ops l =>
        rw [hr] at ef
        obtain ⟨rfl, -, e3, e4⟩ := ef
        dsimp only [pureOut]
        rw [e4, if_neg (by simp), e3, List.drop_left' rfl]
        dsimp only
        simp only [St.bind_apply]
        rcases hf : f a v m with ⟨e | ⟨a', _ | _⟩, m'⟩
        · exact ⟨_, rfl⟩
        · simp only [Bool.false_eq_true, if_false]
          exact ih a' m' e4
        · exact ⟨_, rfl⟩

/-! ## Cells that are intact when they are read -/

/-- `J n m`: when `n` elements have been read or skipped, memory may be `m`. If the next element is then still the one of
`xs`, the terminal operation sees what the chain makes of `xs`. -/
theorem lazily_intact (cs : List (Call T E)) {xs : List T} {J : Nat → M → Prop} (hlen : xs.length = s.len)
    (hJ : ∀ n m x, J n m → xs[n]? = some x → (load s n (view m)).1 = .ok x)
    (hn : ∀ n m, J n m → n < s.len → J (n + 1) m)
    (hf : ∀ n m a v r, J n m → n < s.len → (f a v m).1 = .ok r → J (n + 1) (f a v m).2) (j k : Nat) :
    ∀ (zs ys : List T) (a : A) (m : M), j + zs.length + k = s.len → ys = xs.drop (j + zs.length) →
    over cs zs = false → J (j + zs.length) m →
    lazily view s cs f j k zs a m = onList f ((listChain cs (zs ++ ys)).drop (listChain cs zs).length) a m := by
  induction k with
  | zero =>
    intro zs ys a m hk hy _ _
    have : ys = [] := by rw [hy]; exact List.drop_of_length_le (by omega)
    subst this
    rw [List.append_nil, List.drop_length]
    rfl
  | succ k ih =>
    intro zs ys a m hk hy ho hj
    obtain ⟨x, hx⟩ : ∃ x, xs[j + zs.length]? = some x := ⟨_, List.getElem?_eq_getElem (by omega)⟩
    have hy' : ys = x :: xs.drop (j + zs.length + 1) := by
      rw [hy]
      obtain ⟨h1, h2⟩ := List.getElem?_eq_some_iff.1 hx
      rw [← h2]; exact List.drop_eq_getElem_cons h1
    have he : zs ++ ys = (zs ++ [x]) ++ xs.drop (j + zs.length + 1) := by rw [hy']; simp
    simp only [lazily, St.bind_apply, elem]
    rw [hJ _ _ _ hj hx]
    dsimp only
    have ef := effect cs zs x ho
    have ih := fun a m h h' => ih (zs ++ [x]) (xs.drop (j + zs.length + 1)) a m (by simp; omega)
      (by simp [Nat.add_assoc]) h h'
    simp only [List.length_append, List.length_singleton, ← Nat.add_assoc] at ih
    rw [he]
    cases hr : Verif.Stream.runOps (opsOf cs zs) x with
    | stop l =>
      rw [hr] at ef
      rw [ef.2.2, if_pos rfl, (over_append cs _ _ ef.2.2).2, ef.2.1, List.drop_length]
      rfl
    | drop ops l =>
      rw [hr] at ef
      obtain ⟨-, -, e3, e4⟩ := ef
      rw [e4, if_neg (by simp), ← e3, List.drop_length]
      dsimp only
      rw [ih a m e4 (hn _ _ hj (by omega))]
    | pass v ops l =>
      rw [hr] at ef
      obtain ⟨-, -, e3, e4⟩ := ef
      obtain ⟨d, hd⟩ := listChain_prefix cs (zs ++ [x]) (xs.drop (j + zs.length + 1))
      have hd1 : (listChain cs ((zs ++ [x]) ++ xs.drop (j + zs.length + 1))).drop (listChain cs zs).length = v :: d := by
        rw [hd, e3, List.append_assoc, List.drop_left' rfl]; rfl
      have hd2 : (listChain cs ((zs ++ [x]) ++ xs.drop (j + zs.length + 1))).drop (listChain cs (zs ++ [x])).length = d := by
        rw [hd, List.drop_left' rfl]
      rw [hd1, e4, if_neg (by simp), e3, List.drop_left' rfl]
      dsimp only [onList]
      simp only [St.bind_apply]
      rcases hf' : f a v m with ⟨e | ⟨a', _ | _⟩, m'⟩
      · rfl
      · simp only [Bool.false_eq_true, if_false]
        have := hf _ _ a v (a', false) hj (by omega) (by rw [hf'])
        rw [hf'] at this
        rw [ih a' m' e4 this, hd2]
      · rfl

/-! ## Building the chain -/

omit [Inhabited T] in
theorem chain_slice (cs : List (Call T E)) (hl : ∀ c ∈ cs, c.legal) (xs : List T) :
    ∀ (i : Nat) (ops : List (Verif.Stream.Op T E)), i ≤ xs.length → xs.length + pushed cs < 9223372036854775808 →
    ∃ hp, (⟨some (i : Int), ops, false⟩ : Verif.Stream.Stream (Verif.Stream.sliceSource E xs)).chain cs =
      .ok ⟨some ((min xs.length (i + pushed cs) : Nat) : Int), ops ++ opsOf (kept cs) [], hp⟩ := by
  induction cs with
  | nil =>
    intro i ops hi _
    refine ⟨false, ?_⟩
    simp only [pushed, kept, opsOf, List.append_nil, Nat.add_zero]
    rw [Nat.min_eq_right hi]; rfl
  | cons c cs ih =>
    intro i ops hi hk
    have hl' : ∀ c ∈ cs, c.legal := fun c hc => hl c (List.mem_cons_of_mem _ hc)
    have ih := ih hl'
    have hc := hl c (List.mem_cons_self ..)
    cases c with
    | map f =>
      obtain ⟨hp, h1⟩ := ih i (ops ++ [.map f]) hi hk
      refine ⟨hp, ?_⟩
      simp only [Stream.chain, Stream.call, Stream.map]; rw [h1]; simp [kept, opsOf, pushed]
    | peek f =>
      obtain ⟨hp, h1⟩ := ih i (ops ++ [.peek f]) hi hk
      refine ⟨hp, ?_⟩
      simp only [Stream.chain, Stream.call, Stream.peek]; rw [h1]; simp [kept, opsOf, pushed]
    | filter f =>
      refine ⟨true, ?_⟩
      simp only [Stream.chain, Stream.call]
      rw [chain_pred cs hl' _ rfl]; simp [opsOf, Stream.filter, kept, pushed, Nat.min_eq_right hi]
    | limit n =>
      have hn : 0 ≤ n := hc
      refine ⟨true, ?_⟩
      simp only [Stream.chain, Stream.call, Stream.limit, if_neg (show ¬ n < 0 by omega)]
      rw [chain_pred cs hl' _ rfl]; simp [opsOf, kept, pushed, Nat.min_eq_right hi]
    | skip n =>
      have hn : 0 ≤ n := hc
      simp only [pushed] at hk ⊢
      simp only [Stream.chain, Stream.call, Stream.skip, if_neg (show ¬ n < 0 by omega), kept]
      by_cases h0 : n = 0
      · subst h0
        rw [if_pos rfl]
        simpa using ih i ops hi (by simpa using hk)
      · rw [if_neg h0]
        simp only [Bool.not_false, if_true, Verif.Stream.sliceSource]
        rw [if_neg (by omega), wrap64_id (x := (i : Int) + n) (by unfold isInt64; omega)]
        by_cases hge : (i : Int) + n ≥ xs.length
        · rw [if_pos hge]
          obtain ⟨hp, h⟩ := ih xs.length ops (Nat.le_refl _) (by omega)
          refine ⟨hp, ?_⟩
          rw [show min xs.length (i + (n.toNat + pushed cs)) = min xs.length (xs.length + pushed cs) by omega]
          exact h
        · rw [if_neg hge]
          obtain ⟨hp, h⟩ := ih (i + n.toNat) ops (by omega) (by omega)
          refine ⟨hp, ?_⟩
          rw [show i + (n.toNat + pushed cs) = i + n.toNat + pushed cs by omega]
          have : (i : Int) + n = ((i + n.toNat : Nat) : Int) := by omega
          simp only [this]
          exact h

omit [Inhabited T] in
theorem over_nil (cs : List (Call T E)) : over cs [] = false := by
  induction cs with
  | nil => rfl
  | cons c cs ih => cases c <;> simpa [over, Call.onList] using ih

omit [Inhabited T] in
theorem listChain_length (cs : List (Call T E)) : ∀ xs, (listChain cs xs).length ≤ xs.length := by
  induction cs with
  | nil => intro xs; exact Nat.le_refl _
  | cons c cs ih =>
    intro xs
    refine Nat.le_trans (ih _) ?_
    cases c <;> simp [Call.onList, List.length_filter_le]
    omega

/-- The stream that a chain of calls on `stream.OfSlice(s)` makes; the calls read no elements, so any list of the right
length can stand for them. -/
def built (view : M → Heap T) (s : Slice) {xs : List T}
    (st : Verif.Stream.Stream (Verif.Stream.sliceSource E xs)) : Stream (sliceSource view s) :=
  match st.src with
  | none => none
  | some i => ofSlice view s (Int.toNat i) (st.ops.map pureOp)

/-! ## C120 -/

/-- Each element is read when its turn comes, and not before: whatever the terminal operation's callback does to the
memory, the result is that of reading lazily. -/
theorem C120_reads (view : M → Heap T) (s : Slice) (f : A → T → St M (A × Bool)) (cs : List (Call T E))
    (hl : ∀ c ∈ cs, c.legal) {xs : List T} (hx : xs.length = s.len) (hb : s.len + pushed cs < 9223372036854775808)
    {st : Verif.Stream.Stream (Verif.Stream.sliceSource E xs)} (hst : (Verif.Stream.ofSlice E xs).chain cs = .ok st)
    (a : A) (m : M) :
    ∃ st', (built view s st).fold f a m =
      some ((lazily view s (kept cs) f (min s.len (pushed cs)) (s.len - pushed cs) [] a m).1, st',
        (lazily view s (kept cs) f (min s.len (pushed cs)) (s.len - pushed cs) [] a m).2) := by
  obtain ⟨hp, h⟩ := chain_slice cs hl xs 0 [] (by omega) (by omega)
  have : (Verif.Stream.ofSlice E xs).chain cs = _ := h
  rw [this] at hst
  cases hst
  have := fold_lazily (view := view) (s := s) (f := f) (kept cs) (min s.len (pushed cs)) (s.len - pushed cs) [] a m
    (by simp; omega) (over_nil _)
  simpa [built, hx] using this

/-- If every element is still what it was when its turn comes, the callback sees what the chain makes of the slice. -/
theorem C120_intact (view : M → Heap T) (s : Slice) (f : A → T → St M (A × Bool)) (cs : List (Call T E))
    (hl : ∀ c ∈ cs, c.legal) {xs : List T} (hx : xs.length = s.len) (hb : s.len + pushed cs < 9223372036854775808)
    {st : Verif.Stream.Stream (Verif.Stream.sliceSource E xs)} (hst : (Verif.Stream.ofSlice E xs).chain cs = .ok st)
    {J : Nat → M → Prop} (hJ : ∀ n m x, J n m → xs[n]? = some x → (load s n (view m)).1 = .ok x)
    (hn : ∀ n m, J n m → n < s.len → J (n + 1) m)
    (hf : ∀ n m a v r, J n m → n < s.len → (f a v m).1 = .ok r → J (n + 1) (f a v m).2) (a : A) (m : M) (h0 : J 0 m) :
    ∃ st', (built view s st).fold f a m =
      some ((onList f (listChain cs xs) a m).1, st', (onList f (listChain cs xs) a m).2) := by
  obtain ⟨st', h⟩ := C120_reads view s f cs hl hx hb hst a m
  refine ⟨st', ?_⟩
  have hj : ∀ n, n ≤ s.len → J n m := by
    intro n
    induction n with
    | zero => intro _; exact h0
    | succ n ih => intro h; exact hn _ _ (ih (by omega)) (by omega)
  rw [h, lazily_intact (kept cs) hx hJ hn hf _ _ [] (xs.drop (min s.len (pushed cs))) a m (by simp; omega) (by simp)
    (over_nil _) (hj _ (by simp; omega)), listChain_nil, List.length_nil, List.drop_zero, List.nil_append]
  have : xs.drop (min s.len (pushed cs)) = xs.drop (pushed cs) := by
    by_cases hc : pushed cs ≤ s.len
    · rw [Nat.min_eq_right hc]
    · rw [List.drop_of_length_le (by omega), List.drop_of_length_le (by omega)]
  rw [this, listChain_kept]

end

/-! ## Appending -/

/-- Calls of a consumer, one after the other. -/
def each (c : T → St M Unit) : List T → St M Unit
  | [] => pure ()
  | v :: vs => do c v; each c vs

theorem onList_collect (c : T → St M Unit) (vs : List T) :
    ∀ m, onList (fun (_ : Unit) v => do c v; pure ((), false)) vs () m = each c vs m := by
  induction vs with
  | nil => intro m; rfl
  | cons v vs ih =>
    intro m
    simp only [onList, each, St.bind_apply]
    rcases c v m with ⟨e | _, m'⟩
    · rfl
    · exact ih m'

section
variable [Inhabited T]

open Verif.Slice (Mem Ptr)

theorem splice_splice_next {A l : List T} {o : Nat} {v : T} (h : o + l.length + 1 ≤ A.length) :
    splice (splice A o l) (o + l.length) [v] = splice A o (l ++ [v]) := by
  have hl1 : (l ++ [v]).length = l.length + 1 := by simp
  have hl2 : (splice A o l).length = A.length := Slice.length_splice (by omega)
  have hl3 : [v].length = 1 := rfl
  apply List.ext_getElem?
  intro k
  rw [Slice.getElem?_splice (A := splice A o l) (by omega), Slice.getElem?_splice (l := l ++ [v]) (by omega),
    Slice.getElem?_splice (l := l) (by omega)]
  by_cases h1 : k < o
  · rw [if_pos (by omega), if_pos h1, if_pos h1]
  · by_cases h2 : k < o + l.length
    · rw [if_pos h2, if_neg h1, if_pos h2, if_neg h1, if_pos (by omega), List.getElem?_append_left (by omega)]
    · rw [if_neg h2, if_neg h1]
      by_cases h3 : k < o + l.length + 1
      · rw [if_pos (by omega), if_neg h1, if_pos (by omega), List.getElem?_append_right (by omega)]
        congr 1; omega
      · rw [if_neg (by omega), if_neg h2, if_neg h1, if_neg (by omega)]

theorem poke_next {h : Heap T} {s : Slice} (hv : Valid h s) {l : List T} {v : T} (hl : l.length + 1 ≤ s.cap) :
    poke (poke h s.ptr 0 l) s.ptr l.length [v] = poke h s.ptr 0 (l ++ [v]) := by
  have h3 := hv.2.2
  cases hp : s.ptr with
  | nil => rfl
  | zero => rfl
  | arr a off =>
    rw [hp] at h3
    obtain ⟨A, hA, hlen⟩ := h3
    simp only [poke, Nat.add_zero]
    apply List.ext_getElem?
    intro b
    by_cases hb : a = b
    · subst hb
      simp only [List.getElem?_modify, if_true, hA, Option.map_eq_map, Option.map_some]
      rw [splice_splice_next (by omega)]
    · simp [hb]

theorem each_append_in_place (w : Var T) {h : Heap T} {s : Slice} (hv : Valid h s) (vs : List T) :
    ∀ us : List T, us.length + vs.length ≤ s.cap →
    each (varAppend w) vs ⟨poke h s.ptr 0 us, ⟨s.ptr, us.length, s.cap⟩⟩ =
      (.ok (), ⟨poke h s.ptr 0 (us ++ vs), ⟨s.ptr, (us ++ vs).length, s.cap⟩⟩) := by
  induction vs with
  | nil => intro us _; rw [List.append_nil]; rfl
  | cons v vs ih =>
    intro us hl
    simp only [List.length_cons] at hl
    have e1 : varAppend w v (⟨poke h s.ptr 0 us, ⟨s.ptr, us.length, s.cap⟩⟩ : Mem T) =
        (.ok (), ⟨poke h s.ptr 0 (us ++ [v]), ⟨s.ptr, (us ++ [v]).length, s.cap⟩⟩) := by
      simp only [varAppend, onVar, appendMany, List.length_singleton]
      rw [if_pos (by omega)]
      simp only
      rw [poke_next hv (by omega)]
      simp
    simp only [each, St.bind_apply, e1]
    rw [ih (us ++ [v]) (by simp; omega)]
    simp

/-- Collecting the results into the slice itself, `out := s[:0]` and then `out = append(out, v)` for each: the slice
`out` holds what the chain makes of the elements `s` had, the other cells are as before, and nothing is allocated. -/
theorem C120_in_place (w : Var T) {h : Heap T} {s : Slice} (hv : Valid h s) (cs : List (Call T E))
    (hl : ∀ c ∈ cs, c.legal) (hb : s.len + pushed cs < 9223372036854775808)
    {st : Verif.Stream.Stream (Verif.Stream.sliceSource E (contents h s))}
    (hst : (Verif.Stream.ofSlice E (contents h s)).chain cs = .ok st) :
    ∃ st', (built Mem.heap s st).collect (varAppend w) ⟨h, ⟨s.ptr, 0, s.cap⟩⟩ =
        some (.ok (), st', ⟨poke h s.ptr 0 (listChain cs (contents h s)),
          ⟨s.ptr, (listChain cs (contents h s)).length, s.cap⟩⟩) ∧
      contents (poke h s.ptr 0 (listChain cs (contents h s))) ⟨s.ptr, (listChain cs (contents h s)).length, s.cap⟩ =
        listChain cs (contents h s) := by
  have hx := length_contents hv
  have hlen := listChain_length cs (contents h s)
  have hz : poke h s.ptr 0 [] = h := Slice.poke_nil hv 0
  obtain ⟨st', e⟩ := C120_intact Mem.heap s (fun (_ : Unit) v => do varAppend w v; pure ((), false)) cs hl hx hb hst
    (J := fun n m => ∃ us, us.length ≤ n ∧ m = ⟨poke h s.ptr 0 us, ⟨s.ptr, us.length, s.cap⟩⟩ ∧ us.length ≤ s.len)
    (by
      rintro n m x ⟨us, hu, rfl, hu'⟩ hx'
      dsimp only
      have : (contents (poke h s.ptr 0 us) s)[n]? = some x := by
        rw [Slice.poke_contents hv (by omega), Slice.getElem?_splice (by omega), if_neg (by omega), if_neg (by omega)]
        exact hx'
      rw [load_ok this])
    (by rintro n m ⟨us, hu, rfl, hu'⟩ _; exact ⟨us, by omega, rfl, hu'⟩)
    (by
      rintro n m a v r ⟨us, hu, rfl, hu'⟩ hn -
      have := each_append_in_place w hv [v] us (by have := hv.1; simp; omega)
      simp only [each, St.bind_apply, St.pure_apply] at this ⊢
      rcases hr : varAppend w v (⟨poke h s.ptr 0 us, ⟨s.ptr, us.length, s.cap⟩⟩ : Mem T) with ⟨e | _, m'⟩
      · rw [hr] at this; cases this
      · rw [hr] at this
        simp only [Prod.mk.injEq] at this
        exact ⟨us ++ [v], by simp; omega, this.2, by simp; omega⟩)
    () ⟨h, ⟨s.ptr, 0, s.cap⟩⟩ ⟨[], by simp, by rw [hz]; rfl, by simp⟩
  refine ⟨st', ?_, ?_⟩
  · have := each_append_in_place w hv (listChain cs (contents h s)) [] (by have := hv.1; simp; omega)
    rw [hz, List.nil_append] at this
    rw [Stream.collect, e, onList_collect]
    simp only [List.length_nil] at this
    rw [this]
  · have hv' : Valid h ⟨s.ptr, (listChain cs (contents h s)).length, s.cap⟩ := ⟨by have := hv.1; simp; omega, hv.2.1, hv.2.2⟩
    rw [Slice.poke_contents hv' (by simp)]
    simp only [splice, List.take_zero, List.nil_append, Nat.zero_add]
    rw [List.drop_of_length_le (by rw [length_contents hv']; exact Nat.le_refl _), List.append_nil]

/-- The variable has at most `n` elements, and appending to it does not change the elements `xs` of `s`. -/
structure Beside (s : Slice) (xs : List T) (n : Nat) (m : Mem T) : Prop where
  var : Valid m.heap m.var
  src : Valid m.heap s
  same : contents m.heap s = xs
  len : m.var.len ≤ n
  apart : (m.var.ptr = s.ptr ∧ s.len ≤ m.var.len) ∨ ∀ a o o', s.ptr = .arr a o → m.var.ptr ≠ .arr a o'

theorem beside_append (w : Var T) {s : Slice} {xs : List T} {n : Nat} {m : Mem T} (hm : Beside s xs n m) (v : T)
    (hg : ∀ k, k ≤ n + 1 → k + w.grow k < 9223372036854775808) :
    ∃ m', varAppend w v m = (.ok (), m') ∧ Beside s xs (n + 1) m' ∧
      contents m'.heap m'.var = contents m.heap m.var ++ [v] := by
  have hn := hm.len
  have hb := hg (m.var.len + 1) (by omega)
  obtain ⟨s', h', e1, e2, e3, e4, e5, e6⟩ := Slice.appendMany_spec (w.grow (m.var.len + 1)) hm.var [v]
    (by simp only [List.length_singleton]; omega)
  simp only [List.length_singleton] at e3 e5 e6
  refine ⟨⟨h', s'⟩, by simp only [varAppend, onVar, e1], ?_, e4⟩
  by_cases hc : m.var.len + 1 ≤ m.var.cap
  · obtain ⟨p1, p2, u⟩ := e5 hc
    refine ⟨e2, u.valid hm.src, ?_, by simp only; omega, ?_⟩
    · rw [← hm.same]
      refine u.contents hm.src ?_
      rintro a k ⟨off, ho, h1, h2⟩ ⟨off', ho', h3, h4⟩
      rcases hm.apart with ⟨hp, hl⟩ | hp
      · rw [hp, ho] at ho'; cases ho'; omega
      · exact hp _ _ _ ho ho'
    · rcases hm.apart with ⟨hp, hl⟩ | hp
      · exact .inl ⟨p1.trans hp, by simp only; omega⟩
      · exact .inr fun a o o' h => by rw [p1]; exact hp a o o' h
  · obtain ⟨p1, u⟩ := e6 (by omega)
    refine ⟨e2, u.valid hm.src, ?_, by simp only; omega, .inr ?_⟩
    · rw [← hm.same]
      exact u.contents hm.src (fun _ _ _ h => h)
    · intro a o o' ho hp
      simp only [p1, Ptr.arr.injEq] at hp
      have h3 := hm.src.2.2
      rw [ho] at h3
      obtain ⟨A, hA, -⟩ := h3
      have := (List.getElem?_eq_some_iff.1 hA).1
      omega

theorem each_append (w : Var T) (g : T → T) {s : Slice} {xs : List T} (vs : List T) : ∀ {n : Nat} {m : Mem T},
    Beside s xs n m → (∀ k, k ≤ n + vs.length → k + w.grow k < 9223372036854775808) →
    ∃ m', each (fun v => varAppend w (g v)) vs m = (.ok (), m') ∧ Beside s xs (n + vs.length) m' ∧
      contents m'.heap m'.var = contents m.heap m.var ++ vs.map g := by
  induction vs with
  | nil => intro n m hm _; exact ⟨m, rfl, hm, by simp⟩
  | cons v vs ih =>
    intro n m hm hg
    simp only [List.length_cons] at hg ⊢
    obtain ⟨m1, e1, b1, c1⟩ := beside_append w hm (g v) (fun k hk => hg k (by omega))
    obtain ⟨m2, e2, b2, c2⟩ := ih b1 (fun k hk => hg k (by omega))
    refine ⟨m2, ?_, ?_, ?_⟩
    · simp only [each, St.bind_apply, e1, e2]
    · rw [show n + (vs.length + 1) = n + 1 + vs.length by omega]; exact b2
    · rw [c2, c1]; simp

/-- Appending to the slice that is being streamed, `s = append(s, g(v))` for each: only the elements `s` had at the
start are seen, and `s` gets the results of `g` behind them, whether or not `append` has to move it. -/
theorem C120_append (w : Var T) (g : T → T) {h : Heap T} {s : Slice} (hv : Valid h s) (cs : List (Call T E))
    (hl : ∀ c ∈ cs, c.legal) (hb : s.len + pushed cs < 9223372036854775808)
    (hg : ∀ k, k ≤ s.len + s.len → k + w.grow k < 9223372036854775808)
    {st : Verif.Stream.Stream (Verif.Stream.sliceSource E (contents h s))}
    (hst : (Verif.Stream.ofSlice E (contents h s)).chain cs = .ok st) :
    ∃ st' m', (built Mem.heap s st).collect (fun v => varAppend w (g v)) ⟨h, s⟩ = some (.ok (), st', m') ∧
      contents m'.heap m'.var = contents h s ++ (listChain cs (contents h s)).map g ∧
      contents m'.heap s = contents h s := by
  have hx := length_contents hv
  have hlen := listChain_length cs (contents h s)
  have h0 : Beside s (contents h s) (s.len + 0) ⟨h, s⟩ := ⟨hv, hv, rfl, Nat.le_refl _, .inl ⟨rfl, Nat.le_refl _⟩⟩
  obtain ⟨st', e⟩ := C120_intact Mem.heap s (fun (_ : Unit) v => do varAppend w (g v); pure ((), false)) cs hl hx hb hst
    (J := fun n m => Beside s (contents h s) (s.len + n) m)
    (by
      intro n m x hm hx'
      rw [load_ok (by rw [hm.same]; exact hx')])
    (fun n m hm _ => ⟨hm.var, hm.src, hm.same, by have := hm.len; omega, hm.apart⟩)
    (by
      intro n m a v r hm hn _
      obtain ⟨m', e1, b1, -⟩ := beside_append w hm (g v) (fun k hk => hg k (by omega))
      simp only [St.bind_apply, e1, St.pure_apply]
      exact b1)
    () ⟨h, s⟩ h0
  obtain ⟨m', e1, b1, c1⟩ := each_append w g (listChain cs (contents h s)) h0 (fun k hk => hg k (by omega))
  refine ⟨st', m', ?_, c1, b1.same⟩
  rw [Stream.collect, e, onList_collect (fun v => varAppend w (g v)), e1]

end

/-! ## Concrete cases -/

section
open Verif.Slice (Mem)

/-- An array `[3, 1, 4, 1, 5, 9]` and the slice of its first five elements. -/
def exMem : Heap Nat := [[3, 1, 4, 1, 5, 9]]
/-- See `exMem`. -/
def exS : Slice := ⟨.arr 0 0, 5, 6⟩
/-- `Filter(odd).Map(* 10)`. -/
def exCs : List (Call Nat Unit) := [.filter fun n => n % 2 = 1, .map (· * 10)]

theorem exS_valid : Valid exMem exS := ⟨by decide, by decide, _, rfl, by decide⟩

/-- The chain, built. -/
def exSt : Verif.Stream.Stream (Verif.Stream.sliceSource Unit (contents exMem exS)) :=
  ⟨some (0 : Int), [.filter fun n => n % 2 = 1, .map (· * 10)], true⟩

theorem exSt_built : (Verif.Stream.ofSlice Unit (contents exMem exS)).chain exCs = .ok exSt := rfl

example : ∃ st', (built Mem.heap exS exSt).collect (varAppend ⟨fun _ => 0⟩) ⟨exMem, ⟨.arr 0 0, 0, 6⟩⟩ =
    some (.ok (), st', ⟨[[30, 10, 10, 50, 5, 9]], ⟨.arr 0 0, 4, 6⟩⟩) := by
  obtain ⟨st', h, -⟩ := C120_in_place (E := Unit) ⟨fun _ => 0⟩ exS_valid exCs (by intro c hc; simp [exCs] at hc; rcases hc with rfl | rfl <;> trivial)
    (by decide) exSt_built
  exact ⟨st', h⟩

example : ∃ st' m', (built Mem.heap exS exSt).collect (fun v => varAppend ⟨fun _ => 3⟩ (v + 1)) ⟨exMem, exS⟩ =
    some (.ok (), st', m') ∧ contents m'.heap m'.var = [3, 1, 4, 1, 5, 31, 11, 11, 51] ∧
      contents m'.heap exS = [3, 1, 4, 1, 5] :=
  C120_append (E := Unit) ⟨fun _ => 3⟩ (· + 1) exS_valid exCs (by intro c hc; simp [exCs] at hc; rcases hc with rfl | rfl <;> trivial)
    (by decide) (by intro k hk; simp [exS] at hk ⊢; omega) exSt_built

/-- `out = append(out, v, v)`. -/
def twice (v : Nat) : St (Mem Nat) Unit := do varAppend ⟨fun _ => 0⟩ v; varAppend ⟨fun _ => 0⟩ v

/-- Writing two elements for each that is read overtakes the reads: the second element read is a copy of the first. -/
example : ∃ st', (built Mem.heap ⟨.arr 0 0, 2, 4⟩ (xs := [1, 2])
      (⟨some (0 : Int), [], false⟩ : Verif.Stream.Stream (Verif.Stream.sliceSource Unit [1, 2]))).collect twice
      ⟨[[1, 2, 0, 0]], ⟨.arr 0 0, 0, 4⟩⟩ = some (.ok (), st', ⟨[[1, 1, 1, 1]], ⟨.arr 0 0, 4, 4⟩⟩) :=
  C120_reads (E := Unit) Mem.heap ⟨.arr 0 0, 2, 4⟩ _ [] (by simp) rfl (by decide) rfl () _

end

end Verif.Stream.Mem
