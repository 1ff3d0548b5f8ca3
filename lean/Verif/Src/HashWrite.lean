import Verif.Src.HashBytes
import Verif.Src.SortLoops

/-!
# xhash: Write
-/

namespace Verif.Src.Hash

open Verif.Src.Sort (forOf nth bodyOf)

variable {E : Type} (g : Nat → Nat → Nat) {m : Mem E}

theorem put_put (a i : Nat) (v w : Val E) : (m.put a i v).put a i w = m.put a i w := by
  unfold Mem.put
  congr 1
  apply List.ext_getElem?
  intro j
  simp only [List.getElem?_modify]
  cases m.arrs[j]? with
  | none => rfl
  | some l => by_cases h : a = j <;> simp [h]

theorem put_self {a i : Nat} {v : Val E} (h : m.cell a i = some v) : m.put a i v = m := by
  have : m.arrs.modify a (fun l => l.set i v) = m.arrs := by
    apply List.ext_getElem?
    intro j
    simp only [List.getElem?_modify]
    cases hj : m.arrs[j]? with
    | none => rfl
    | some l =>
      by_cases e : a = j
      · subst e
        simp only [Mem.cell, hj] at h
        obtain ⟨hi, rfl⟩ := List.getElem?_eq_some_iff.mp h
        simp
      · simp [e]
  unfold Mem.put
  rw [this]

/-- The slice value `.slice b o p.len p.arr.length` is the slice `p` of the model, capacity included. -/
structure Holds (m : Mem E) (b o : Nat) (p : Xhash.Slice) : Prop where
  arr : ∃ arr, m.arrs[b]? = some arr ∧ (arr.drop o).take p.arr.length = p.arr.map u8 ∧ o + p.arr.length ≤ arr.length

theorem Holds.put {b o a i : Nat} {p : Xhash.Slice} {v : Val E} (h : Holds m b o p) (hn : b ≠ a) : Holds (m.put a i v) b o p := by
  obtain ⟨arr, h1, h2⟩ := h
  exact ⟨arr, by rw [put_arrs hn]; exact h1, h2⟩

/-- The slice `p[i : i+8]`. -/
theorem Holds.eight {b o i : Nat} {p : Xhash.Slice} (h : Holds m b o p) (hi : i + 8 ≤ p.arr.length) :
    Items u8 m (.slice b (o + i) 8 (p.arr.length - i)) ((p.arr.drop i).take 8) := by
  obtain ⟨arr, h1, h2, h3⟩ := h
  have hl : ((p.arr.drop i).take 8).length = 8 := by simp; omega
  have := Items.some (f := u8) (m := m) (o := o + i) (c := p.arr.length - i) (l := (p.arr.drop i).take 8) h1 (by
    rw [hl, List.map_take, List.map_drop, ← h2, List.drop_take, List.take_take, List.drop_drop]
    congr 1
    omega) (by rw [hl]; omega) (by omega)
  rwa [hl] at this

abbrev wBody : List Stmt := Incremental64_Write_fn.body

theorem loop_src (n a i b o : Nat) (p : Xhash.Slice) (hn : b ≠ a) (hb : p.arr.length + 8 < 2 ^ 63) (d j : Nat) (hd : p.len - j ≤ d)
    (hj : j < p.len + 8) (h : BitVec 64) (hm : m.cell a i = some (obj h)) (hp : Holds m b o p) :
    forOf (ctx E g) (calls (ctx E g) (n + 3)) (nth wBody 2) [("i", .num .int j), ("n", .num .int 0), ("err", .nil), ("f", .ptr a i []),
        ("p", .slice b o p.len p.arr.length)] m =
      match Xhash.writeLoop p j h with
      | (h', .ok k) => pure (.next, [("i", .num .int k), ("n", .num .int 0), ("err", .nil), ("f", .ptr a i []),
          ("p", .slice b o p.len p.arr.length)], m.put a i (obj h'))
      | (_, .error e) => panic e := by
  have hc := p.ok
  induction d generalizing j h m with
  | zero =>
    have hj' : ¬ j < p.len := by omega
    rw [Xhash.writeLoop, if_neg hj']
    simp only [forOf, wBody, nth, Incremental64_Write_fn]
    rw [rounds_eq]
    go_run [put_self hm]
  | succ d ih =>
    rw [Xhash.writeLoop]
    simp only [forOf, wBody, nth, Incremental64_Write_fn]
    rw [rounds_eq]
    by_cases hj' : j < p.len
    · rw [if_pos hj']
      by_cases h8 : j + 8 ≤ p.arr.length
      · have i8 := hp.eight h8
        have t8 := toUint64_src g (n + 2) i8
        have ec : goSlice p.arr (j : Int) ((j : Int) + 8) = .ok ((p.arr.drop j).take 8) := by
          unfold goSlice
          rw [if_pos (by omega)]
          have e1 : ((j : Int) + 8).toNat = j + 8 := by omega
          rw [e1, Int.toNat_natCast, List.drop_take]
          congr 2
          omega
        have hx : ∃ w, toUint64 ((p.arr.drop j).take 8) = .ok w := by
          have hl : ((p.arr.drop j).take 8).length = 8 := by simp; omega
          match (p.arr.drop j).take 8, hl with
          | [b0, b1, b2, b3, b4, b5, b6, b7], _ => exact ⟨_, toUint64_ok ..⟩
        obtain ⟨w, hw⟩ := hx
        have em : (goSlice p.arr (j : Int) ((j : Int) + 8) >>= toUint64) = .ok w := by rw [ec]; exact hw
        rw [em]
        rw [hw] at t8
        simp only [outcome] at t8
        have e1 : ((j : Int) + 8 - (j : Int)).toNat = 8 := by omega
        have e2 : ((j : Int) + 8) = ((j + 8 : Nat) : Int) := by omega
        go_run [hm, Int.toNat_natCast, e1, ↓t8, ↓writeUint64_src g hm n]
        rw [e2]
        have := ih (m := m.put a i (obj (Xhash.writeUint64 h w))) (j + 8) (by omega) (by omega) (Xhash.writeUint64 h w)
          (cell_put_same hm _) (hp.put hn)
        simp only [forOf, wBody, nth, Incremental64_Write_fn, put_put] at this
        exact this
      · have em : (goSlice p.arr (j : Int) ((j : Int) + 8) >>= toUint64) = .error "slice bounds out of range" := by
          unfold goSlice
          rw [if_neg (by omega)]
          rfl
        have er : reslice (.slice b o p.len p.arr.length : Val E) j ((j : Int) + 8) = panic "slice bounds out of range" := by
          simp only [reslice]
          rw [if_neg (by omega)]
        rw [em]
        go_run [hm, ↓er]
    · rw [if_neg hj']
      go_run [put_self hm]

theorem writeLoop_end (p : Xhash.Slice) (d j : Nat) (h : BitVec 64) (hd : p.len - j ≤ d) {h' : BitVec 64} {k : Nat}
    (e : Xhash.writeLoop p j h = (h', .ok k)) : p.len ≤ k := by
  induction d generalizing j h with
  | zero =>
    rw [Xhash.writeLoop, if_neg (by omega)] at e
    cases e
    omega
  | succ d ih =>
    rw [Xhash.writeLoop] at e
    by_cases hj : j < p.len
    · rw [if_pos hj] at e
      split at e
      · cases e
      · exact ih _ _ (by omega) e
    · rw [if_neg hj] at e
      cases e
      omega

theorem write_src (n a i b o : Nat) (p : Xhash.Slice) (hn : b ≠ a) (hb : p.arr.length + 8 < 2 ^ 63) (h : BitVec 64)
    (hm : m.cell a i = some (obj h)) (hp : Holds m b o p) :
    calls (ctx E g) (n + 4) "Incremental64.Write" [.ptr a i [], .slice b o p.len p.arr.length] m =
      match Xhash.write h p with
      | (h', .ok k) => pure ([.num .int k, .nil], m.put a i (obj h'))
      | (_, .error e) => panic e := by
  have hc := p.ok
  rw [calls]
  go_run [Incremental64_Write_fn, hm, ↓int_to64, ↓writeUint64_src g hm n]
  have := loop_src (m := m.put a i (obj (Xhash.writeUint64 h (BitVec.ofNat 64 p.len)))) g n a i b o p hn hb (p.len + 8) 0 (by omega) (by omega)
     (Xhash.writeUint64 h (BitVec.ofNat 64 p.len)) (cell_put_same hm _) (hp.put hn)
  simp only [forOf, wBody, nth, Incremental64_Write_fn, put_put] at this
  have e0 : ((0 : Nat) : Int) = 0 := rfl
  rw [e0] at this
  match hl : Xhash.writeLoop p 0 (Xhash.writeUint64 h (BitVec.ofNat 64 p.len)) with
  | (h', .ok k) =>
    have hk := writeLoop_end p p.len 0 _ (by omega) hl
    rw [hl] at this
    simp only at this
    have hw : Xhash.write h p = (h', .ok k) := by
      rw [Xhash.write, hl]
      simp only [Nat.not_lt.mpr hk, if_false]
    rw [hw]
    go_run [↓this]
  | (h', .error e) =>
    rw [hl] at this
    simp only at this
    have hw : Xhash.write h p = (h', .error e) := by rw [Xhash.write, hl]
    rw [hw]
    go_run [↓this]

/-- `Write(nil)`. -/
theorem write_nil_src (n a i : Nat) (h : BitVec 64) (hm : m.cell a i = some (obj h)) :
    calls (ctx E g) (n + 4) "Incremental64.Write" [.ptr a i [], .nil] m =
      pure ([.num .int 0, .nil], m.put a i (obj (Xhash.writeUint64 h 0))) := by
  have e : convert (ctx E g) (.name "uint64" []) (.num .int 0) = pure (u64 0) := int_to64 g 0
  rw [calls]
  go_run [Incremental64_Write_fn, hm, ↓e, ↓writeUint64_src g hm n, ↓rounds_eq]

end Verif.Src.Hash
