import Verif.Src.HashWrite
import Verif.Xhash.Xxh3

/-!
# xhash from its text (C153)

The functions of xhash/fast64.go and xhash/binary.go, as their text says by the semantics of Src/Sem.lean: what they return, in terms
of XXH3 and of the model in Xhash/Model.lean, and what they do to memory.
-/

namespace Verif.Src.Hash

variable {E : Type} (g : Nat → Nat → Nat)

/-- **C153.** The text of `Uint64` computes XXH3 of the eight bytes of the number, and that of `Uint64Seed` does with the seed. -/
theorem C153_xxh3 (n : Nat) (m : Mem E) (v seed : BitVec 64) :
    calls (ctx E g) (n + 2) "Uint64" [u64 v] m = pure ([.num .u64 (Xhash.Xxh3.hash (Xhash.Xxh3.halves v) 0)], m) ∧
    calls (ctx E g) (n + 2) "Uint64Seed" [u64 v, u64 seed] m = pure ([.num .u64 (Xhash.Xxh3.hash (Xhash.Xxh3.halves v) seed.toNat)], m) := by
  rw [uint64_src, uint64Seed_src, ← Xhash.Xxh3.C145_uint64, ← Xhash.Xxh3.C145_seed]
  exact ⟨rfl, rfl⟩

theorem pure_inj {α : Type} {a b : α} (h : (pure a : R α) = pure b) : a = b := by
  injection h with h
  injection h

theorem u64_inj {v w : BitVec 64} (h : (u64 v : Val E) = u64 w) : v = w := by
  injection h with _ h
  exact BitVec.eq_of_toNat_eq (by omega)

/-- **C153.** By its text, `Uint64` is one-to-one, and `Uint64Seed` is in each of its arguments. -/
theorem C153_injective (n : Nat) (m : Mem E) (v w s : BitVec 64) (h : v ≠ w) :
    calls (ctx E g) (n + 2) "Uint64" [u64 v] m ≠ calls (ctx E g) (n + 2) "Uint64" [u64 w] m ∧
    calls (ctx E g) (n + 2) "Uint64Seed" [u64 v, u64 s] m ≠ calls (ctx E g) (n + 2) "Uint64Seed" [u64 w, u64 s] m ∧
    calls (ctx E g) (n + 2) "Uint64Seed" [u64 s, u64 v] m ≠ calls (ctx E g) (n + 2) "Uint64Seed" [u64 s, u64 w] m := by
  have out : ∀ {a b : BitVec 64}, (pure ([u64 a], m) : R (List (Val E) × Mem E)) = pure ([u64 b], m) → a = b := by
    intro a b e
    have := pure_inj e
    injection this with this _
    injection this with this _
    exact u64_inj this
  simp only [uint64_src, uint64Seed_src]
  exact ⟨fun e => h (Xhash.uint64_bijective.1 _ _ (out e)), fun e => h ((Xhash.uint64Seed_bijective s).1 _ _ (out e)),
    fun e => h ((Xhash.uint64Seed_seed_bijective s).1 _ _ (out e))⟩

/-- **C153.** The other functions without bytes do what the model does. -/
theorem C153_calls (n : Nat) {m : Mem E} {a i : Nat} {h : BitVec 64} (hm : m.cell a i = some (obj h)) (v : BitVec 64) :
    calls (ctx E g) (n + 1) "NewFast64" [] m = pure ([obj Xhash.newFast64], m) ∧
    calls (ctx E g) (n + 3) "Incremental64.WriteUint64" [.ptr a i [], u64 v] m = pure ([], m.put a i (obj (Xhash.writeUint64 h v))) ∧
    calls (ctx E g) (n + 3) "Incremental64.Sum64" [.ptr a i []] m = pure ([u64 (Xhash.sum64 h)], m) ∧
    calls (ctx E g) (n + 2) "Incremental64.Reset" [.ptr a i []] m = pure ([], m.put a i (obj Xhash.newFast64)) ∧
    calls (ctx E g) (n + 1) "Incremental64.Size" [.ptr a i []] m = pure ([.num .int 8], m) ∧
    calls (ctx E g) (n + 1) "Incremental64.BlockSize" [.ptr a i []] m = pure ([.num .int 8], m) :=
  ⟨new_src g m n, writeUint64_src g hm n v, sum64_src g hm n, reset_src g hm n, size_src g m n _, blockSize_src g m n _⟩

/-- **C153.** `toUint64` of at least eight bytes is the number whose digits to base 256 the first eight are, the lowest first; of fewer
it panics. -/
theorem C153_toUint64 (n : Nat) {m : Mem E} {v : Val E} {l : List Byte} (h : Items u8 m v l) :
    (8 ≤ l.length → calls (ctx E g) (n + 1) "toUint64" [v] m = pure ([.num .u64 (leValue (l.take 8))], m)) ∧
    (l.length < 8 → calls (ctx E g) (n + 1) "toUint64" [v] m = panic "index out of range") := by
  have e := toUint64_src g n h
  constructor
  · intro h8
    match l, h8, h, e with
    | b0 :: b1 :: b2 :: b3 :: b4 :: b5 :: b6 :: b7 :: l, h8, h, e =>
      rw [e, toUint64_ok]
      simp only [outcome, u64, ofBytes_toNat]
      rfl
  · intro h8
    rw [e]
    have : goGet l 7 = .error "index out of range" := by
      have : l[7]? = none := List.getElem?_eq_none (by omega)
      simp [goGet, this]
    unfold toUint64
    rw [this]; rfl

/-- **C153.** `putUint64` writes the eight bytes of the number, the lowest first, to the first eight places of the slice, and nothing
else; it panics before it writes anything if there are fewer. -/
theorem C153_putUint64 (n : Nat) {m : Mem E} {v : Val E} {l : List Byte} (h : Items u8 m v l) (w : BitVec 64) :
    (8 ≤ l.length → ∃ bs m', calls (ctx E g) (n + 1) "putUint64" [v, u64 w] m = pure ([], m') ∧ Items u8 m' v (bs ++ l.drop 8) ∧
      bs.length = 8 ∧ leValue bs = w.toNat ∧ ∀ q, Apart q v → m'.arrs[q]? = m.arrs[q]?) ∧
    (l.length < 8 → calls (ctx E g) (n + 1) "putUint64" [v, u64 w] m = panic "index out of range") := by
  refine ⟨fun h8 => ?_, fun h8 => putUint64_short g n h (by omega) w⟩
  obtain ⟨m', e, hi, -, -, k⟩ := putUint64_src g n h (by omega) w
  exact ⟨_, m', e, hi, bytesOf_length w, leValue_bytesOf w, k⟩

/-- **C153.** `Sum(b)` is `b` with the eight bytes of `Sum64()`, the lowest first, after it; the object and all arrays but that of `b`
are as before. -/
theorem C153_sum (n : Nat) {m : Mem E} {a i : Nat} {h : BitVec 64} (hm : m.cell a i = some (obj h)) {b : Val E} {l : List Byte}
    (hb : Items u8 m b l) (hab : Apart a b) :
    ∃ bs v' m', calls (ctx E g) (n + 4) "Incremental64.Sum" [.ptr a i [], b] m = pure ([v'], m') ∧ Items u8 m' v' (l ++ bs) ∧
      bs.length = 8 ∧ calls (ctx E g) (n + 4) "Incremental64.Sum64" [.ptr a i []] m = pure ([.num .u64 (leValue bs)], m) ∧
      m'.cell a i = some (obj h) ∧ ∀ q, q < m.arrs.length → Apart q b → m'.arrs[q]? = m.arrs[q]? := by
  obtain ⟨v', m', e, hi, k⟩ := sum_src g n hm hb
  refine ⟨_, v', m', e, hi, bytesOf_length _, ?_, ?_, k⟩
  · rw [sum64_src g hm (n + 1), leValue_bytesOf]
  · rw [cell_of_arrs (k a (cell_lt hm) hab) i]; exact hm

/-- **C153.** `Write(p)`: the length and the words of the slice up to the next multiple of 8 are written to the object, and that
multiple is returned; if it is beyond the capacity, `Write` panics. -/
theorem C153_write (n a i b o : Nat) (p : Xhash.Slice) (hn : b ≠ a) (hl : p.arr.length + 8 < 2 ^ 63) (h : BitVec 64) {m : Mem E}
    (hm : m.cell a i = some (obj h)) (hp : Holds m b o p) :
    if Xhash.roundUp p.len ≤ p.arr.length then
      ∃ ws : List (BitVec 64), ws.flatMap bytesOf = p.arr.take (Xhash.roundUp p.len) ∧
        calls (ctx E g) (n + 4) "Incremental64.Write" [.ptr a i [], .slice b o p.len p.arr.length] m =
          pure ([.num .int (Xhash.roundUp p.len), .nil], m.put a i (obj (Xhash.writeAll h (BitVec.ofNat 64 p.len :: ws))))
    else ∃ msg, calls (ctx E g) (n + 4) "Incremental64.Write" [.ptr a i [], .slice b o p.len p.arr.length] m = panic msg := by
  have e := write_src g n a i b o p hn hl h hm hp
  have s := Xhash.write_spec h p
  split
  · rename_i c
    rw [if_pos c] at s
    obtain ⟨ws, h1, h2⟩ := s
    rw [h2] at e
    exact ⟨ws, h1, e⟩
  · rename_i c
    rw [if_neg c] at s
    obtain ⟨h', msg, h2⟩ := s
    rw [h2] at e
    exact ⟨msg, e⟩

/-! ## Histories -/

/-- A call that changes an object. `write b o p` is of the slice `p` at offset `o` of the array `b`. -/
inductive Op where
  | word (v : BitVec 64)
  | write (b o : Nat) (p : Xhash.Slice)
  | reset

/-- The call in the text. -/
def Op.call (a i : Nat) (op : Op) (m : Mem E) : R (List (Val E) × Mem E) :=
  match op with
  | .word v => calls (ctx E g) 4 "Incremental64.WriteUint64" [.ptr a i [], u64 v] m
  | .write b o p => calls (ctx E g) 4 "Incremental64.Write" [.ptr a i [], .slice b o p.len p.arr.length] m
  | .reset => calls (ctx E g) 4 "Incremental64.Reset" [.ptr a i []] m

/-- The calls one after the other, and then `Sum64`. -/
def history (a i : Nat) : List Op → Mem E → R (List (Val E) × Mem E)
  | [], m => calls (ctx E g) 4 "Incremental64.Sum64" [.ptr a i []] m
  | op :: ops, m => do
    let (_, m) ← op.call g a i m
    history a i ops m

/-- The same in the model. -/
def Op.step (h : BitVec 64) : Op → Go (BitVec 64)
  | .word v => .ok (Xhash.writeUint64 h v)
  | .write _ _ p =>
    match Xhash.write h p with
    | (h', .ok _) => .ok h'
    | (_, .error e) => .error e
  | .reset => .ok (Xhash.reset h)

def steps : List Op → BitVec 64 → Go (BitVec 64)
  | [], h => .ok h
  | op :: ops, h =>
    match op.step h with
    | .ok h' => steps ops h'
    | .error e => .error e

/-- The slice that is written is there, and not where the object is. -/
def Op.Fine (m : Mem E) (a : Nat) : Op → Prop
  | .write b o p => b ≠ a ∧ p.arr.length + 8 < 2 ^ 63 ∧ Holds m b o p
  | _ => True

theorem Op.Fine.put {m : Mem E} {a i : Nat} {v : Val E} {op : Op} (h : op.Fine m a) : op.Fine (m.put a i v) a := by
  cases op with
  | write b o p => exact ⟨h.1, h.2.1, h.2.2.put h.1⟩
  | word v => trivial
  | reset => trivial

theorem words_steps (ws : List (BitVec 64)) (h : BitVec 64) : steps (ws.map Op.word) h = .ok (ws.foldl Xhash.writeUint64 h) := by
  induction ws generalizing h with
  | nil => rfl
  | cons w ws ih => rw [List.map_cons, steps, Op.step, List.foldl_cons]; exact ih _

theorem words_fine (a : Nat) (ws : List (BitVec 64)) {m : Mem E} : ∀ op ∈ ws.map Op.word, op.Fine m a := by
  intro op ho
  obtain ⟨w, -, rfl⟩ := List.mem_map.mp ho
  trivial

/-- One call. -/
theorem call_step {a i : Nat} {m : Mem E} {h : BitVec 64} (hm : m.cell a i = some (obj h)) {op : Op} (hf : op.Fine m a) :
    match op.step h with
    | .ok h' => ∃ r, op.call g a i m = pure (r, m.put a i (obj h'))
    | .error e => op.call g a i m = panic e := by
  cases op with
  | word v => exact ⟨_, writeUint64_src g hm 1 v⟩
  | reset => exact ⟨_, reset_src g hm 2⟩
  | write b o p =>
    have e : Op.call g a i (.write b o p) m = _ := write_src g 0 a i b o p hf.1 hf.2.1 h hm hf.2.2
    rw [e]
    have st : Op.step h (.write b o p) = match Xhash.write h p with
      | (h', .ok _) => .ok h'
      | (_, .error e) => .error e := rfl
    rw [st]
    match Xhash.write h p with
    | (h', .ok k) => exact ⟨_, rfl⟩
    | (h', .error e) => rfl

/-- **C153.** Any number of calls on an object, as the text says, and then `Sum64`: the sum of the model's state after the same calls,
which is what the object holds; a panic if one of the model's does. -/
theorem C153_history (a i : Nat) (ops : List Op) {m : Mem E} {h : BitVec 64} (hm : m.cell a i = some (obj h))
    (hf : ∀ op ∈ ops, op.Fine m a) :
    history g a i ops m = match steps ops h with
      | .ok h' => pure ([u64 (Xhash.sum64 h')], m.put a i (obj h'))
      | .error e => panic e := by
  induction ops generalizing m h with
  | nil =>
    have e := sum64_src g hm 1
    simp only [history, steps, put_self hm]
    exact e
  | cons op ops ih =>
    have c := call_step g hm (hf op List.mem_cons_self)
    rw [history, steps]
    generalize op.step h = r at c
    match r, c with
    | .ok h', ⟨r, c⟩ =>
      rw [c]
      simp only [pure_bind]
      rw [ih (cell_put_same hm _) (fun op ho => (hf op (List.mem_cons_of_mem _ ho)).put)]
      simp only [put_put]
    | .error e, c =>
      rw [c]
      rfl

/-- **C153.** Words written to a new object: `Sum64` is the chain of XXH3 of Xhash/Xxh3.lean. -/
theorem C153_chain (a i : Nat) (ws : List (BitVec 64)) {m : Mem E} (hm : m.cell a i = some (obj Xhash.newFast64)) :
    ∃ m', history g a i (ws.map Op.word) m = pure ([.num .u64 (Xhash.Xxh3.hash (Xhash.Xxh3.halves (BitVec.ofNat 64
      (ws.foldl (fun h w => Xhash.Xxh3.hash (Xhash.Xxh3.halves w) h) (leValue (Xhash.Xxh3.secret.take 8))))) 0)], m') := by
  refine ⟨m.put a i (obj (ws.foldl Xhash.writeUint64 Xhash.newFast64)), ?_⟩
  rw [C153_history g a i _ hm (words_fine a ws), words_steps]
  simp only [u64, Xhash.Xxh3.C145_incremental]

/-- **C153.** Two runs of words written to the same object that differ in one word end in different sums. -/
theorem C153_one_word (a i : Nat) (xs ys : List (BitVec 64)) {v w : BitVec 64} (hv : v ≠ w) {m : Mem E} {h : BitVec 64}
    (hm : m.cell a i = some (obj h)) :
    ∃ s t m1 m2, history g a i ((xs ++ v :: ys).map Op.word) m = pure ([u64 s], m1) ∧
      history g a i ((xs ++ w :: ys).map Op.word) m = pure ([u64 t], m2) ∧ s ≠ t := by
  refine ⟨_, _, m.put a i (obj (Xhash.writeAll h (xs ++ v :: ys))), m.put a i (obj (Xhash.writeAll h (xs ++ w :: ys))), ?_, ?_,
    Xhash.one_word h xs ys v w hv⟩
  · rw [C153_history g a i _ hm (words_fine a _), words_steps]; rfl
  · rw [C153_history g a i _ hm (words_fine a _), words_steps]; rfl

/-! ## The cases that break the contract of a hash, from the text -/

/-- The memory with the slice and the object. -/
def memory (p : Xhash.Slice) (h : BitVec 64) : Mem E := ⟨[p.arr.map u8, [obj h]], []⟩

theorem memory_holds (p : Xhash.Slice) (h : BitVec 64) : Holds (memory p h : Mem E) 0 0 p :=
  ⟨_, rfl, by rw [List.drop_zero, List.take_of_length_le (by simp)], by simp⟩

/-- **C153.** By its text, `Write` of one byte panics if there is no room after it, and otherwise returns 8. -/
theorem C153_short (h : BitVec 64) :
    (∃ msg, calls (ctx E g) 4 "Incremental64.Write" [.ptr 1 0 [], .slice 0 0 1 1] (memory Xhash.short h) = panic msg) ∧
    (∃ m', calls (ctx E g) 4 "Incremental64.Write" [.ptr 1 0 [], .slice 0 0 1 8] (memory Xhash.byte1 h) =
      pure ([.num .int 8, .nil], m')) := by
  constructor
  · have := C153_write g 0 1 0 0 0 Xhash.short (by decide) (by decide) h (m := (memory Xhash.short h : Mem E)) rfl (memory_holds _ _)
    rwa [if_neg (by decide)] at this
  · have := C153_write g 0 1 0 0 0 Xhash.byte1 (by decide) (by decide) h (m := (memory Xhash.byte1 h : Mem E)) rfl (memory_holds _ _)
    rw [if_pos (by decide)] at this
    obtain ⟨ws, -, e⟩ := this
    exact ⟨_, e⟩

/-- **C153.** And the sum after a `Write` depends on the bytes beyond the length: two slices with the same one byte give different
sums. -/
theorem C153_beyond (h : BitVec 64) : Xhash.byte1.bytes = Xhash.byte1'.bytes ∧ ∃ s t m1 m2,
    history g 1 0 [.write 0 0 Xhash.byte1] (memory Xhash.byte1 h : Mem E) = pure ([u64 s], m1) ∧
    history g 1 0 [.write 0 0 Xhash.byte1'] (memory Xhash.byte1' h : Mem E) = pure ([u64 t], m2) ∧ s ≠ t := by
  obtain ⟨hb, hne⟩ := Xhash.write_reads_beyond h
  have run : ∀ p : Xhash.Slice, p.arr.length + 8 < 2 ^ 63 → (Xhash.write h p).2 = .ok 8 →
      history g 1 0 [.write 0 0 p] (memory p h : Mem E) =
        pure ([u64 (Xhash.sum64 (Xhash.write h p).1)], (memory p h).put 1 0 (obj (Xhash.write h p).1)) := by
    intro p hl hw
    rw [C153_history g 1 0 [.write 0 0 p] (m := memory p h) (h := h) rfl (by
      intro op ho
      rw [List.mem_singleton] at ho
      subst ho
      exact ⟨by decide, hl, memory_holds _ _⟩)]
    match hq : Xhash.write h p, hw with
    | (h', .ok k), hw => simp only [steps, Op.step, hq]
  refine ⟨hb, _, _, _, _, run _ (by decide) (Xhash.write_returns_too_much h), run _ (by decide) ?_, fun e =>
    hne (Xhash.uint64_bijective.1 _ _ e)⟩
  have := Xhash.write_spec h Xhash.byte1'
  rw [if_pos (by decide)] at this
  obtain ⟨ws, -, e⟩ := this
  rw [e]; rfl

def eight : Xhash.Slice := ⟨[1, 2, 3, 4, 5, 6, 7, 8], 8, by decide⟩

/-- A write of eight bytes, a reset and a word, from the text. -/
example : ∃ m', history (E := Unit) (fun _ _ => 0) 1 0 [.write 0 0 eight, .reset, .word 5] (memory eight 7) =
    pure ([u64 (Xhash.sum64 (Xhash.writeUint64 Xhash.newFast64 5))], m') := by
  have s := Xhash.write_spec 7 eight
  rw [if_pos (by decide)] at s
  obtain ⟨ws, -, e⟩ := s
  have st : steps [.write 0 0 eight, .reset, .word 5] 7 = .ok (Xhash.writeUint64 Xhash.newFast64 5) := by
    simp only [steps, Op.step, e, Xhash.reset]
  have := C153_history (E := Unit) (fun _ _ => 0) 1 0 [.write 0 0 eight, .reset, .word 5] (m := memory eight 7) (h := 7) rfl (by
    intro op ho
    simp only [List.mem_cons, List.not_mem_nil, or_false] at ho
    rcases ho with rfl | rfl | rfl
    · exact ⟨by decide, by decide, memory_holds _ _⟩
    · trivial
    · trivial)
  rw [st] at this
  exact ⟨_, this⟩

/-- The hash of 1. -/
example (m : Mem Unit) : calls (ctx Unit fun _ _ => 0) 2 "Uint64" [.num .u64 1] m = pure ([.num .u64 17197929579947543131], m) := by
  have := uint64_src (E := Unit) (fun _ _ => 0) (m := m) 0 1
  have e : Xhash.uint64 1 = 17197929579947543131 := by decide +kernel
  rw [e] at this
  exact this

end Verif.Src.Hash
