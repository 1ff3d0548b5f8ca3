import Verif.Src.RngProg

/-!
# secrand/rng.go: erasing, and `Uint64` from the buffer, from the text
-/

namespace Verif.Src.Rng

open Verif.Src.Hash (u8 u64)

variable {E : Type} {m : Mem E} {rd : Ext E}

/-- A round of `for k := range s`. -/
theorem turns_index {X : Ctx E} {C : Calls E} {k : String} {s : Val E} {body : List Stmt} {i n : Int} (h : i < n) {env : Env E} {m : Mem E}
    {env' : Env E} {m' : Mem E} (hd : declares X env m [k, "_"] [.num .int i, .nil] = pure (env', m')) {env2 : Env E} {m2 : Mem E}
    (hb : execs X C body env' m' = pure (.next, env2, m2)) :
    turns X C k "_" s n body i env m = turns X C k "_" s n body (i + 1) (leave env (leave env env2)) m2 := by
  rw [turns, loop, if_pos h, turns]
  simp only [if_true, pure_bind, hd, hb, round]

theorem modify_of {α : Type} {l : List α} {a : Nat} {x : α} (h : l[a]? = some x) (f : α → α) : l.modify a f = l.set a (f x) := by
  apply List.ext_getElem?
  intro i
  rw [List.getElem?_modify, List.getElem?_set]
  by_cases e : a = i
  · subst e
    obtain ⟨hl, rfl⟩ := List.getElem?_eq_some_iff.mp h
    simp [hl]
  · simp [e]

/-- One more cell. -/
theorem puts_step {a o i : Nat} {arr : List (Val E)} (h : m.arrs[a]? = some arr) (hb : o + i < arr.length) (z : Val E) :
    (m.puts a o (List.replicate i z)).put a (o + i) z = m.puts a o (List.replicate (i + 1) z) := by
  have h1 := puts_same_arr (o := o) h (List.replicate i z)
  have e : (arr.take o ++ List.replicate i z ++ arr.drop (o + i)).set (o + i) z =
      arr.take o ++ List.replicate (i + 1) z ++ arr.drop (o + (i + 1)) := by
    rw [List.drop_eq_getElem_cons hb, List.set_append_right _ _ (by simp; omega), List.replicate_succ',
      show o + i - (arr.take o ++ List.replicate i z).length = 0 by simp; omega, List.set_cons_zero, ← Nat.add_assoc]
    simp
  unfold Mem.put
  rw [modify_of h1]
  unfold Mem.puts
  rw [modify_of h, modify_of h]
  simp only [List.length_replicate, List.set_set, e]

/-- The statement in `erase`. -/
abbrev eBody : List Stmt :=
  match erase_fn.body with
  | [.range _ _ _ b] => b
  | _ => []

theorem erase_loop (C : Calls E) {a o c : Nat} {arr : List (Val E)} {l : List Byte} (h : m.arrs[a]? = some arr)
    (hl : (arr.drop o).take l.length = l.map u8) (hb : o + l.length ≤ arr.length) (d j : Nat) (hd : j + d = l.length) :
    turns (ctx rd) C "i" "_" (.slice a o l.length c) (l.length : Int) eBody (j : Int) [("b", .slice a o l.length c)]
      (m.puts a o (List.replicate j (.num .u8 0))) =
      pure (.next, [("b", .slice a o l.length c)], m.puts a o (List.replicate l.length (.num .u8 0))) := by
  induction d generalizing j with
  | zero =>
    rw [turns_done _ _ _ _ _ _ (by omega)]
    rw [← hd, Nat.add_zero]
  | succ d ih =>
    have hc : (m.puts a o (List.replicate j (.num .u8 0))).cell a (o + j) = some (u8 l[j]) := by
      have h1 := puts_same_arr (o := o) h (List.replicate j (.num .u8 0 : Val E))
      have h2 := Items.cell h hl (i := j) (by omega)
      simp only [Mem.cell, h] at h2
      simp only [Mem.cell, h1]
      rw [List.getElem?_append_right (by simp; omega), List.getElem?_drop]
      rw [← h2]
      congr 1
      simp; omega
    have st : ∀ env : Env E, store env (m.puts a o (List.replicate j (.num .u8 0))) (.num .lit 0)
        (.elem (.slice a o l.length c) (.num .int (j : Int))) = pure (env, m.puts a o (List.replicate (j + 1) (.num .u8 0))) := by
      intro env
      rw [← puts_step h (by omega)]
      simp only [store]
      rw [if_pos (by omega), Int.toNat_natCast, hc]
      rfl
    rw [turns_index (by omega) (env' := [("i", .num .int (j : Int)), ("b", .slice a o l.length c)]) rfl
      (env2 := [("i", .num .int (j : Int)), ("b", .slice a o l.length c)]) (m2 := m.puts a o (List.replicate (j + 1) (.num .u8 0)))]
    · have := ih (j + 1) (by omega)
      rw [Int.natCast_add] at this
      exact this
    · go_run [eBody, erase_fn, ↓st]

theorem erase_src (n : Nat) {a o c : Nat} {arr : List (Val E)} {l : List Byte} (h : m.arrs[a]? = some arr)
    (hl : (arr.drop o).take l.length = l.map u8) (hb : o + l.length ≤ arr.length) :
    calls (ctx rd) (n + 1) "erase" [.slice a o l.length c] m = pure ([], m.puts a o (List.replicate l.length (.num .u8 0))) := by
  have e := erase_loop (rd := rd) (calls (ctx rd) n) (c := c) h hl hb l.length 0 (by omega)
  rw [List.replicate_zero, puts_nil, Int.cast_ofNat_Int] at e
  simp only [eBody, erase_fn] at e
  rw [calls]
  go_run [erase_fn, len, ↓e]

theorem byte_to64 (x : Byte) : convert (ctx rd) (.name "uint64" []) (u8 x) = pure (u64 (x.setWidth 64)) := by
  have := x.isLt
  go_run [u64, u8]
  rw [BitVec.toNat_setWidth]
  congr 2

open Verif.Src.Hash (or_src shl_src) in
theorem toUint64_src (n : Nat) {v : Val E} {l : List Byte} (h : Items u8 m v l) (h8 : 8 ≤ l.length) :
    ∃ w : BitVec 64, calls (ctx rd) (n + 1) "toUint64" [v] m = pure ([u64 w], m) ∧ w.toNat = leValue (l.take 8) := by
  obtain ⟨w, hw, hv⟩ := toUint64_spec h8
  refine ⟨w, ?_, hv⟩
  rw [calls]
  match l, h8, h, hw with
  | b0 :: b1 :: b2 :: b3 :: b4 :: b5 :: b6 :: b7 :: l, h8, h, hw =>
    have e0 : index m v (.num .lit 0) = pure (u8 b0) := h.index (by decide) (by simp)
    have e1 : index m v (.num .lit 1) = pure (u8 b1) := h.index (by decide) (by simp)
    have e2 : index m v (.num .lit 2) = pure (u8 b2) := h.index (by decide) (by simp)
    have e3 : index m v (.num .lit 3) = pure (u8 b3) := h.index (by decide) (by simp)
    have e4 : index m v (.num .lit 4) = pure (u8 b4) := h.index (by decide) (by simp)
    have e5 : index m v (.num .lit 5) = pure (u8 b5) := h.index (by decide) (by simp)
    have e6 : index m v (.num .lit 6) = pure (u8 b6) := h.index (by decide) (by simp)
    have e7 : index m v (.num .lit 7) = pure (u8 b7) := h.index (by decide) (by simp)
    rw [toUint64_ok] at hw
    injection hw with hw
    subst hw
    go_run [toUint64_fn, h.fetch, h.coerce, e0, e1, e2, e3, e4, e5, e6, e7, ↓byte_to64, ↓or_src, ↓shl_src]
    simp only [ofBytes, u64, BitVec.shiftLeft_zero]

/-- What a slice with items is. -/
theorem items_inv {A : Type} {f : A → Val E} {a o k c : Nat} {l : List A} (h : Items f m (.slice a o k c) l) : k = l.length ∧
    ∃ arr, m.arrs[a]? = some arr ∧ (arr.drop o).take l.length = l.map f ∧ l.length ≤ c ∧ o + c ≤ arr.length := by
  generalize hv : (Val.slice a o k c : Val E) = v at h
  cases h with
  | nil => cases hv
  | some h hl hc hb =>
    injection hv with h1 h2 h3 h4
    subst h1 h2 h3 h4
    exact ⟨rfl, _, h, hl, hc, hb⟩

/-- The cells outside are as before. -/
theorem cell_puts_other {b o q j : Nat} {vs arr : List (Val E)} (h : m.arrs[b]? = some arr) (hb : o + vs.length ≤ arr.length)
    (hj : ¬ (q = b ∧ o ≤ j ∧ j < o + vs.length)) : (m.puts b o vs).cell q j = m.cell q j := by
  by_cases hq : q = b
  · subst hq
    simp only [Mem.cell, puts_same_arr h, h]
    by_cases h1 : j < o
    · rw [List.append_assoc, List.getElem?_append_left (by simp; omega), List.getElem?_take_of_lt h1]
    · rw [List.getElem?_append_right (by simp; omega), List.getElem?_drop]
      congr 1
      simp; omega
  · exact cell_of_arrs (puts_arrs hq _) j

/-- Items in the middle of a slice are replaced. -/
theorem items_puts {A : Type} {f : A → Val E} {b o c n : Nat} {l xs : List A} (h : Items f m (.slice b o l.length c) l)
    (hn : n + xs.length ≤ l.length) :
    Items f (m.puts b (o + n) (xs.map f)) (.slice b o l.length c) (l.take n ++ xs ++ l.drop (n + xs.length)) := by
  obtain ⟨-, arr, h, hl, hc, hb⟩ := items_inv h
  have hlen : (l.take n ++ xs ++ l.drop (n + xs.length)).length = l.length := by simp; omega
  have h1 := puts_same_arr (o := o + n) h (xs.map f)
  have := Items.some (f := f) (o := o) (c := c) (l := l.take n ++ xs ++ l.drop (n + xs.length)) h1 (by
    rw [hlen, List.map_append, List.map_append, List.map_take, List.map_drop, ← hl, List.length_map]
    apply List.ext_getElem?
    intro j
    simp only [List.getElem?_take, List.getElem?_drop, List.getElem?_append, List.length_append, List.length_take, List.length_map, List.length_drop]
    grind) (by rw [hlen]; exact hc) (by simp; omega)
  rwa [hlen] at this

/-- An `RNG` (secrand/rng.go:39-44). The nonce is an array in the struct, which no function here looks at. -/
def rng (buf : Val E) (n : Int) (rounds nonce : Val E) : Val E :=
  .struct "RNG" [("buf", buf), ("n", .num .int n), ("rounds", rounds), ("nonce", nonce)]

/-- **C158.** `erase` sets every byte of its argument to zero and nothing else. -/
theorem C158_erase (n : Nat) {v : Val E} {l : List Byte} (h : Items u8 m v l) :
    ∃ m', calls (ctx rd) (n + 1) "erase" [v] m = pure ([], m') ∧ Items u8 m' v (List.replicate l.length 0) ∧
      (∀ a o k c, v = .slice a o k c → ∀ i, i < o ∨ o + k ≤ i → m'.cell a i = m.cell a i) ∧
      (∀ q, Apart q v → m'.arrs[q]? = m.arrs[q]?) ∧ m'.maps = m.maps := by
  cases h with
  | nil => exact ⟨m, by rw [calls]; go_run [erase_fn, len, turns_done], .nil, fun _ _ _ _ hv => (nomatch hv), fun _ _ => rfl, rfl⟩
  | @some a o c arr _ h hl hc hb =>
    refine ⟨_, erase_src n h hl (by omega), ?_, ?_, ?_, rfl⟩
    · have := items_puts (xs := List.replicate l.length (0 : Byte)) (n := 0) (Items.some h hl hc hb) (by simp)
      rw [Nat.add_zero, List.length_replicate, List.take_zero, List.nil_append, Nat.zero_add, List.map_replicate,
        List.drop_eq_nil_of_le (Nat.le_refl _), List.append_nil] at this
      exact this
    · intro a' o' k' c' hv i hi
      injection hv with h1 h2 h3 h4
      subst h1 h2 h3 h4
      exact cell_puts_other h (by simp; omega) (by simp; omega)
    · intro q hq
      exact puts_arrs (fun e => hq a o _ c rfl e.symm) _

/-- **C158.** `copyAndErase` between different arrays: as many bytes as the shorter of the two has are moved to the front of `dst`, they
are zero in `src`, and their number is returned. -/
theorem C158_copyAndErase (n : Nat) {a o c b q d : Nat} {l s : List Byte} (hd : Items u8 m (.slice a o l.length c) l)
    (hs : Items u8 m (.slice b q s.length d) s) (hab : a ≠ b) :
    ∃ m', calls (ctx rd) (n + 2) "copyAndErase" [.slice a o l.length c, .slice b q s.length d] m =
        pure ([.num .int (min l.length s.length : Nat)], m') ∧
      Items u8 m' (.slice a o l.length c) (s.take l.length ++ l.drop s.length) ∧
      Items u8 m' (.slice b q s.length d) (List.replicate (min l.length s.length) 0 ++ s.drop l.length) ∧
      (∀ p, p ≠ a → p ≠ b → m'.arrs[p]? = m.arrs[p]?) ∧ m'.maps = m.maps := by
  obtain ⟨-, arrS, h, hl, hc, hb⟩ := items_inv hs
  obtain ⟨k, hk⟩ : ∃ k, k = min l.length s.length := ⟨_, rfl⟩
  have hlk : (s.take k).length = k := by simp; omega
  have hcells : m.cells b q k = some ((s.take k).map u8) := by
    simp only [Mem.cells, h, List.map_take, ← hl, List.take_take]
    congr 2
    omega
  have hcopy : copy m (.slice a o l.length c) (.slice b q s.length d) = pure (.num .int (k : Nat), m.puts a o ((s.take k).map u8)) := by
    simp only [copy, ← hk, hcells]
  have hd1 := items_puts (xs := s.take k) (n := 0) hd (by rw [hlk]; omega)
  rw [Nat.add_zero, hlk, List.take_zero, List.nil_append, Nat.zero_add] at hd1
  have h1 : (m.puts a o ((s.take k).map u8)).arrs[b]? = some arrS := by rw [puts_arrs (fun e => hab e.symm)]; exact h
  have hs1 : Items u8 (m.puts a o ((s.take k).map u8)) (.slice b q s.length d) s :=
    hs.mono fun _ _ _ _ hv => by cases hv; rw [h1, h]
  have e2 := erase_src (rd := rd) n (o := q) (c := d) (l := s.take k) h1 (by rw [hlk, List.map_take, ← hl, List.take_take]; congr 1; omega) (by rw [hlk]; omega)
  rw [hlk] at e2
  have r1 : reslice (.slice b q s.length d : Val E) 0 (k : Int) = pure (.slice b q k d) := by
    simp only [reslice]
    rw [if_pos (by omega)]
    simp
  have hs2 := items_puts (xs := List.replicate k (0 : Byte)) (n := 0) hs1 (by simp; omega)
  rw [Nat.add_zero, List.length_replicate, List.take_zero, List.nil_append, Nat.zero_add, List.map_replicate] at hs2
  refine ⟨(m.puts a o ((s.take k).map u8)).puts b q (List.replicate k (.num .u8 0)), ?_, ?_, ?_, ?_, ?_⟩
  · rw [calls, ← hk]
    go_run [copyAndErase_fn, ↓hcopy, ↓r1, ↓e2]
  · have e1 : s.take k ++ l.drop k = s.take l.length ++ l.drop s.length := by
      rcases Nat.le_total l.length s.length with h | h
      · rw [hk, Nat.min_eq_left h, List.drop_eq_nil_of_le (Nat.le_refl _), List.drop_eq_nil_of_le h]
      · rw [hk, Nat.min_eq_right h, List.take_of_length_le (Nat.le_refl _), List.take_of_length_le h]
    rw [e1] at hd1
    exact hd1.mono fun _ _ _ _ hv => by cases hv; exact puts_arrs hab _
  · have e1 : s.drop k = s.drop l.length := by
      rcases Nat.le_total l.length s.length with h | h
      · rw [hk, Nat.min_eq_left h]
      · rw [hk, Nat.min_eq_right h, List.drop_eq_nil_of_le (Nat.le_refl _), List.drop_eq_nil_of_le h]
    rw [← hk, ← e1]
    exact hs2
  · intro p h1 h2
    rw [puts_arrs h2, puts_arrs h1]
  · rfl

/-- **C158.** `Uint64` when there are eight bytes in the buffer: the value of these bytes, the lowest first; the bytes are then zero, `n`
is behind them, and nothing else has changed. -/
theorem C158_uint64 (k : Nat) {a i b o c n : Nat} {l : List Byte} {rounds nonce : Val E}
    (hr : m.cell a i = some (rng (.slice b o l.length c) n rounds nonce)) (hab : a ≠ b) (h : Items u8 m (.slice b o l.length c) l)
    (hn : n + 8 ≤ l.length) (hL : l.length < 2 ^ 63) :
    ∃ (w : BitVec 64) (m' : Mem E), calls (ctx rd) (k + 2) "RNG.Uint64" [.ptr a i []] m = pure ([u64 w], m') ∧
      w.toNat = leValue ((l.drop n).take 8) ∧
      m'.cell a i = some (rng (.slice b o l.length c) (n + 8 : Nat) rounds nonce) ∧
      Items u8 m' (.slice b o l.length c) (l.take n ++ List.replicate 8 0 ++ l.drop (n + 8)) ∧
      (∀ q j, ¬ (q = a ∧ j = i) → ¬ (q = b ∧ o + n ≤ j ∧ j < o + n + 8) → m'.cell q j = m.cell q j) := by
  have hI := h
  obtain ⟨-, arr, h, hl, hc, hb⟩ := items_inv h
  have hl8 : ((l.drop n).take 8).length = 8 := by simp; omega
  have hle : (arr.drop (o + n)).take 8 = ((l.drop n).take 8).map u8 := by
    rw [List.map_take, List.map_drop, ← hl, List.drop_take, List.take_take, List.drop_drop]
    congr 1
    omega
  have h8 : Items u8 m (.slice b (o + n) 8 (c - n)) ((l.drop n).take 8) := by
    have := Items.some (f := u8) (m := m) (o := o + n) (c := c - n) (l := (l.drop n).take 8) h (by rw [hl8, hle]) (by rw [hl8]; omega) (by omega)
    rwa [hl8] at this
  obtain ⟨w, e1, hw⟩ := toUint64_src (rd := rd) k h8 (by rw [hl8]; omega)
  have e2 := erase_src (rd := rd) k (m := m) (o := o + n) (c := c - n) (l := (l.drop n).take 8) h (by rw [hl8, hle]) (by rw [hl8]; omega)
  rw [hl8] at e2
  have r1 : reslice (.slice b o l.length c : Val E) (n : Int) (l.length : Int) = pure (.slice b (o + n) (l.length - n) (c - n)) := by
    simp only [reslice]
    rw [if_pos (by omega), Int.toNat_natCast, show ((l.length : Int) - n).toNat = l.length - n by omega]
  have r2 : reslice (.slice b o l.length c : Val E) (n : Int) ((n : Int) + 8) = pure (.slice b (o + n) 8 (c - n)) := by
    simp only [reslice]
    rw [if_pos (by omega), Int.toNat_natCast, show ((n : Int) + 8 - n).toNat = 8 by omega]
  have w1 : wrap .int ((n : Int) + 8) = (n : Int) + 8 := wrap_int (by omega) (by omega)
  have hc1 : (m.puts b (o + n) (List.replicate 8 (.num .u8 0))).cell a i = some (rng (.slice b o l.length c) n rounds nonce) := by
    rw [← hr]; exact cell_of_arrs (puts_arrs hab _) i
  refine ⟨w, (m.puts b (o + n) (List.replicate 8 (.num .u8 0))).put a i (rng (.slice b o l.length c) (n + 8 : Nat) rounds nonce), ?_, ?_, ?_, ?_, ?_⟩
  · simp only [rng] at hr hc1 ⊢
    rw [calls]
    go_run [RNG_Uint64_fn, hr, ↓r1, ↓r2, len, w1, ↓e1, ↓e2, hc1]
    rw [u64, Int.natCast_add]; rfl
  · rw [hw, List.take_take]; simp
  · exact cell_put_same hc1 _
  · refine Items.put ?_ (fun a' o' l' c' hv => by cases hv; exact fun e => hab e.symm)
    exact items_puts (xs := List.replicate 8 0) hI hn
  · intro q j h1 h2
    rw [cell_put_other h1]
    exact cell_puts_other h (by simp; omega) (by simpa using h2)

/-- **C158.** `Uint64` with fewer than eight bytes in the buffer: it calls `Read`, whatever that does to memory, with a new array of
eight zeroes, and returns the value of the bytes that are then in it. -/
theorem C158_uint64_slow (k : Nat) {a i b o c n : Nat} {l : List Byte} {rounds nonce : Val E}
    (hr : m.cell a i = some (rng (.slice b o l.length c) n rounds nonce)) (hc : l.length ≤ c) (hn : n ≤ l.length)
    (hn8 : l.length < n + 8) {x : Int} {m1 : Mem E} {w8 : List Byte}
    (hrd : rd [.ptr a i [], .slice m.arrs.length 0 8 8] (m.alloc (List.replicate 8 (.num .u8 0))) = pure ([.num .int x, .nil], m1))
    (h8 : Items u8 m1 (.slice m.arrs.length 0 8 8) w8) :
    ∃ w : BitVec 64, calls (ctx rd) (k + 2) "RNG.Uint64" [.ptr a i []] m = pure ([u64 w], m1) ∧ w.toNat = leValue w8 := by
  have hl : 8 = w8.length := (items_inv h8).1
  obtain ⟨w, e1, hw⟩ := toUint64_src (rd := rd) k h8 (by omega)
  refine ⟨w, ?_, by rw [hw, List.take_of_length_le (by omega)]⟩
  have r1 : reslice (.slice b o l.length c : Val E) (n : Int) (l.length : Int) = pure (.slice b (o + n) (l.length - n) (c - n)) := by
    simp only [reslice]
    rw [if_pos (by omega), Int.toNat_natCast, show ((l.length : Int) - n).toNat = l.length - n by omega]
  have hlt : ¬ (8 : Int) ≤ ((l.length - n : Nat) : Int) := by omega
  have hr' : (m.alloc (List.replicate 8 (.num .u8 0))).cell a i = some (rng (.slice b o l.length c) n rounds nonce) := by
    have ha : a < m.arrs.length := by
      refine Decidable.byContradiction fun h => ?_
      simp [Mem.cell, List.getElem?_eq_none (Nat.le_of_not_lt h)] at hr
    rw [← hr]; exact cell_of_arrs (alloc_arrs ha _) i
  have e0 : calls (ctx rd) (k + 1) "RNG.Read" [.ptr a i [], .slice m.arrs.length 0 8 8] (m.alloc (List.replicate 8 (.num .u8 0))) =
      pure ([.num .int x, .nil], m1) := by
    rw [calls]
    go_run [anyRead_fn, ↓hrd]
  simp only [rng] at hr hr'
  rw [calls]
  go_run [RNG_Uint64_fn, hr, hr', ↓r1, len, hlt, ↓e0, ↓e1]

/-- A memory with an `RNG` whose buffer is the eleven bytes 1 to 11, two of them handed out, inside an array with a byte on either
side. -/
def mem0 : Mem Unit :=
  ⟨[[rng (.slice 1 1 11 11) 2 .nil .nil], [77, 1, 2, 3, 4, 5, 6, 7, 8, 9, 10, 11, 78].map u8, [20, 21, 22].map u8], []⟩

/-- A `Read` that writes the bytes 9 to 16 to a new array number 3. -/
def rd0 : Ext Unit := fun _ m => pure ([.num .int 8, .nil], m.puts 3 0 ([9, 10, 11, 12, 13, 14, 15, 16].map u8))

/-- `mem0` after two more bytes. -/
def mem1 : Mem Unit := mem0.put 0 0 (rng (.slice 1 1 11 11) 4 .nil .nil)

/-- A case: the hypotheses of `C158_uint64_slow` are met. -/
example : ∃ (w : BitVec 64) (m' : Mem Unit), calls (ctx rd0) 2 "RNG.Uint64" [.ptr 0 0 []] mem1 = pure ([u64 w], m') ∧
    w.toNat = 0x100f0e0d0c0b0a09 := by
  obtain ⟨w, h, hw⟩ := C158_uint64_slow (rd := rd0) (l := [1, 2, 3, 4, 5, 6, 7, 8, 9, 10, 11]) (n := 4) 0 (m := mem1) (a := 0) (i := 0)
    (b := 1) (o := 1) (c := 11) (rounds := .nil) (nonce := .nil) rfl (by decide) (by decide) (by decide) rfl
    (Items.some (f := u8) (c := 8) (l := [9, 10, 11, 12, 13, 14, 15, 16]) rfl rfl (by decide) (by decide))
  exact ⟨w, _, h, by rw [hw]; decide⟩

/-- The buffer of `mem0`. -/
theorem mem0_buf : Items u8 mem0 (.slice 1 1 11 11) [1, 2, 3, 4, 5, 6, 7, 8, 9, 10, 11] :=
  Items.some (f := u8) (c := 11) (l := [1, 2, 3, 4, 5, 6, 7, 8, 9, 10, 11]) rfl rfl (by decide) (by decide)

/-- A case: the hypotheses of `C158_uint64` are met. -/
example : ∃ (w : BitVec 64) (m' : Mem Unit), calls (ctx rd0) 2 "RNG.Uint64" [.ptr 0 0 []] mem0 = pure ([u64 w], m') ∧
    w.toNat = 0x0a09080706050403 ∧ Items u8 m' (.slice 1 1 11 11) [1, 2, 0, 0, 0, 0, 0, 0, 0, 0, 11] := by
  obtain ⟨w, m', h, hw, _, hi, _⟩ := C158_uint64 (l := [1, 2, 3, 4, 5, 6, 7, 8, 9, 10, 11]) (n := 2) 0 (m := mem0) (a := 0) (i := 0)
    (b := 1) (o := 1) (c := 11) (rounds := .nil) (nonce := .nil) rfl (by decide) mem0_buf (by decide) (by decide)
  refine ⟨w, m', h, ?_, hi⟩
  rw [hw]; decide

/-- A case: the hypotheses of `C158_copyAndErase` are met, three bytes are moved. -/
example : ∃ m', calls (ctx rd0) 2 "copyAndErase" [.slice 2 0 3 3, .slice 1 1 11 11] mem0 = pure ([.num .int 3], m') ∧
    Items u8 m' (.slice 2 0 3 3) [1, 2, 3] ∧ Items u8 m' (.slice 1 1 11 11) [0, 0, 0, 4, 5, 6, 7, 8, 9, 10, 11] := by
  obtain ⟨m', h, hd, hs, _⟩ := C158_copyAndErase 0 (m := mem0) (a := 2) (o := 0) (c := 3) (l := [20, 21, 22]) (b := 1) (q := 1) (d := 11)
    (s := [1, 2, 3, 4, 5, 6, 7, 8, 9, 10, 11])
    (Items.some (f := u8) (c := 3) (l := [20, 21, 22]) rfl rfl (by decide) (by decide)) mem0_buf (by decide)
  exact ⟨m', h, hd, hs⟩

/-- A case of `C158_erase`. -/
example : ∃ m', calls (ctx rd0) 1 "erase" [.slice 1 1 11 11] mem0 = pure ([], m') ∧
    Items u8 m' (.slice 1 1 11 11) [0, 0, 0, 0, 0, 0, 0, 0, 0, 0, 0] ∧ m'.cell 1 12 = some (u8 78) := by
  obtain ⟨m', h, hi, hc, _⟩ := C158_erase 0 mem0_buf
  exact ⟨m', h, hi, (hc 1 1 11 11 rfl 12 (.inr (by decide))).trans rfl⟩

end Verif.Src.Rng
