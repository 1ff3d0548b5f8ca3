import Verif.Base

/-!
# C144: where `hasher.Of` finds the hash function

`hasher.Of` makes an interface value that holds a map, follows its first word to the runtime's description of the map
type, takes that for a `maptype` as declared in hasher/runtime_go118.go and reads the field `hasher` of it. Here memory
is bytes, and structures are laid out as the Go compiler does it.
-/

namespace Verif.Sharded.Layout

/-- A field of a structure: its name, size and alignment. -/
structure Field where
  name : String
  size : Nat
  align : Nat

/-- `uintptr`, a pointer or a function value, `w` bytes being a word. -/
def word (w : Nat) (name : String) : Field := ⟨name, w, w⟩

/-- A number of `n` bytes, `n` being 1, 2 or 4. -/
def num (n : Nat) (name : String) : Field := ⟨name, n, n⟩

/-- The next multiple of `a`. -/
def up (a off : Nat) : Nat := (off + a - 1) / a * a

/-- Where the field of a name is, when the fields are laid out from `off` on: each at the next multiple of its
alignment. -/
def offsetFrom (off : Nat) (name : String) : List Field → Option Nat
  | [] => none
  | f :: fs => if f.name = name then some (up f.align off) else offsetFrom (up f.align off + f.size) name fs

/-- The offset of a field in a structure. -/
def offset (fs : List Field) (name : String) : Option Nat := offsetFrom 0 name fs

/-- The alignment of a structure: that of its fields, at least 1. -/
def alignOf (fs : List Field) : Nat := fs.foldl (fun a f => max a f.align) 1

def endFrom (off : Nat) : List Field → Nat
  | [] => off
  | f :: fs => endFrom (up f.align off + f.size) fs

/-- The size of a structure: a multiple of its alignment. -/
def sizeOf (fs : List Field) : Nat := up (alignOf fs) (endFrom 0 fs)

/-- A structure as a field of another. -/
def inner (fs : List Field) (name : String) : Field := ⟨name, sizeOf fs, alignOf fs⟩

/-- `_type` (hasher/runtime_go118.go:22-38); `tflag` is a `uint8`, `nameOff` and `typeOff` are `int32` (14-17). -/
def typ (w : Nat) : List Field :=
  [word w "size", word w "ptrdata", num 4 "hash", num 1 "tflag", num 1 "align", num 1 "fieldAlign", num 1 "kind",
    word w "equal", word w "gcdata", num 4 "str", num 4 "ptrToThis"]

/-- `maptype` (hasher/runtime_go118.go:40-51). -/
def maptype (w : Nat) : List Field :=
  [inner (typ w) "typ", word w "key", word w "elem", word w "bucket", word w "hasher", num 1 "keysize",
    num 1 "elemsize", num 2 "bucketsize", num 4 "flags"]

abbrev Byte := BitVec 8

/-- Memory: a byte at every address that may be read. -/
abbrev Mem := Nat → Option Byte

/-- Reads `n` bytes from `a` on; `none` is a fault. -/
def load (m : Mem) (a : Nat) : Nat → Option (List Byte)
  | 0 => some []
  | n + 1 => do
    let b ← m a
    let bs ← load m (a + 1) n
    pure (b :: bs)

/-- How words are read as addresses: the order of the bytes in a word depends on the machine. -/
structure Machine where
  w : Nat
  addr : List Byte → Nat

/-- `Of` (hasher/hasher.go:31-34), the interface value `m` being at address `a`. -/
def of (M : Machine) (m : Mem) (a : Nat) : Option (List Byte) := do
  let t ← load m a M.w
  let off ← offset (maptype M.w) "hasher"
  load m (M.addr t + off) M.w

/-- The interface value at `a` holds a value of a type whose description is at `t`: an interface value is two words, the
first of which points to the description of the type. -/
def Holds (M : Machine) (m : Mem) (a t : Nat) : Prop := ∃ bs, load m a M.w = some bs ∧ M.addr bs = t

/-- The description at `t`, laid out as the fields `rt`, has the word `f` in the field `name`. -/
def Has (M : Machine) (m : Mem) (rt : List Field) (t : Nat) (name : String) (f : List Byte) : Prop :=
  ∃ off, offset rt name = some off ∧ load m (t + off) M.w = some f

/-! ## Fields before others -/

theorem offsetFrom_append (name : String) (rest : List Field) : ∀ (fs : List Field) (off o : Nat),
    offsetFrom off name fs = some o → offsetFrom off name (fs ++ rest) = some o
  | [], _, _, h => by cases h
  | f :: fs, off, o, h => by
    simp only [List.cons_append, offsetFrom] at h ⊢
    split
    · rename_i e; rwa [if_pos e] at h
    · rename_i e; rw [if_neg e] at h; exact offsetFrom_append name rest fs _ _ h

theorem up_spec {a : Nat} (ha : 0 < a) (off : Nat) : a ∣ up a off ∧ off ≤ up a off ∧ up a off < off + a := by
  refine ⟨Nat.dvd_mul_left _ _, ?_, ?_⟩
  · have h1 := Nat.div_add_mod (off + a - 1) a
    have h2 := Nat.mod_lt (off + a - 1) ha
    rw [Nat.mul_comm] at h1
    unfold up; omega
  · have h1 := Nat.div_mul_le_self (off + a - 1) a
    unfold up; omega

theorem offsetFrom_spec {name : String} : ∀ {fs : List Field} {off o : Nat}, (∀ f ∈ fs, 0 < f.align) →
    offsetFrom off name fs = some o → ∃ pre f post, fs = pre ++ f :: post ∧ f.name = name ∧ (∀ g ∈ pre, g.name ≠ name) ∧
      f.align ∣ o ∧ endFrom off pre ≤ o ∧ o < endFrom off pre + f.align
  | [], _, _, _, h => by cases h
  | f :: fs, off, o, hp, h => by
    rw [offsetFrom] at h
    split at h
    · rename_i e
      injection h with h
      subst h
      exact ⟨[], f, fs, rfl, e, nofun, up_spec (hp f (List.mem_cons_self ..)) off⟩
    · rename_i e
      obtain ⟨pre, g, post, h1, h2, h3, h4⟩ := offsetFrom_spec (fun g hg => hp g (List.mem_cons_of_mem _ hg)) h
      refine ⟨f :: pre, g, post, by rw [h1]; rfl, h2, fun x hx => ?_, h4⟩
      rcases List.mem_cons.1 hx with rfl | hx
      · exact e
      · exact h3 x hx

/-- **C144.** The layout used: a field is after those before it, at the first place that is a multiple of its alignment. -/
theorem C144_layout (fs : List Field) (hp : ∀ f ∈ fs, 0 < f.align) (name : String) (o : Nat) (h : offset fs name = some o) :
    ∃ pre f post, fs = pre ++ f :: post ∧ f.name = name ∧ (∀ g ∈ pre, g.name ≠ name) ∧ f.align ∣ o ∧
      endFrom 0 pre ≤ o ∧ o < endFrom 0 pre + f.align := offsetFrom_spec hp h

/-- A byte, and a word of 8 bytes after it: 7 bytes are left free. -/
example : offset [num 1 "a", word 8 "b"] "b" = some 8 ∧ sizeOf [word 8 "b", num 1 "a"] = 16 := by decide

/-- **C144.** `Of` reads the word at offset 72 of the description where words have 8 bytes, and at offset 44 where they
have 4. -/
theorem C144_offset : offset (maptype 8) "hasher" = some 72 ∧ offset (maptype 4) "hasher" = some 44 := by decide

/-- **C144.** If the runtime's description of a map type begins with the fields that `maptype` has up to `hasher`,
whatever comes after them, then `Of` returns the hash function that the runtime has put there. -/
theorem C144_of (M : Machine) (hw : M.w = 8 ∨ M.w = 4) (m : Mem) (a t : Nat) (rest : List Field) (f : List Byte)
    (ha : Holds M m a t) (hf : Has M m ((maptype M.w).take 5 ++ rest) t "hasher" f) : of M m a = some f := by
  obtain ⟨bs, hb, rfl⟩ := ha
  obtain ⟨off, ho, hf⟩ := hf
  have h5 : ∀ o, offset ((maptype M.w).take 5) "hasher" = some o → off = o := fun o h =>
    Option.some.inj (ho.symm.trans (offsetFrom_append "hasher" rest _ 0 o h))
  have : offset (maptype M.w) "hasher" = some off := by
    rcases hw with hw | hw
    · rw [hw] at h5 ⊢
      rw [h5 72 (by decide)]; exact C144_offset.1
    · rw [hw] at h5 ⊢
      rw [h5 44 (by decide)]; exact C144_offset.2
  unfold of
  rw [hb, this]
  exact hf

theorem load_total (g : Nat → Byte) : ∀ (n a : Nat), load (fun x => some (g x)) a n = some ((List.range' a n).map g)
  | 0, _ => rfl
  | n + 1, a => by
    rw [load, load_total g n (a + 1)]
    rfl

/-- **C144, exactly.** Whatever the runtime's layout is, `Of` returns what is in its field `hasher`, in every memory, if
and only if that field is where `maptype` has it. -/
theorem C144_exact (M : Machine) (hw : M.w = 8 ∨ M.w = 4) (rt : List Field) (off : Nat)
    (ho : offset rt "hasher" = some off) :
    (∀ m a t f, Holds M m a t → Has M m rt t "hasher" f → of M m a = some f) ↔
      offset (maptype M.w) "hasher" = some off := by
  constructor
  · intro h
    obtain ⟨o, e⟩ : ∃ o, offset (maptype M.w) "hasher" = some o := by
      rcases hw with hw | hw <;> rw [hw]
      · exact ⟨72, C144_offset.1⟩
      · exact ⟨44, C144_offset.2⟩
    obtain ⟨n, hn⟩ : ∃ n, M.w = n + 1 := ⟨M.w - 1, by omega⟩
    rw [e]
    -- all bytes are 0 but the first one of the runtime's field
    let t := M.addr (List.replicate M.w 0)
    let a := t + off + 1
    let g : Nat → Byte := fun x => if x = t + off then 1 else 0
    have ha : load (fun x => some (g x)) a M.w = some (List.replicate M.w 0) := by
      rw [load_total]
      refine congrArg some ?_
      rw [List.eq_replicate_iff]
      refine ⟨by simp, fun b hb => ?_⟩
      obtain ⟨x, hx, rfl⟩ := List.mem_map.1 hb
      have := List.mem_range'.1 hx
      have : x ≠ t + off := by omega
      simp [g, this]
    have hh := h (fun x => some (g x)) a t _ ⟨_, ha, rfl⟩ ⟨off, ho, load_total g M.w (t + off)⟩
    unfold of at hh
    rw [ha, e] at hh
    have hh : load (fun x => some (g x)) (t + o) M.w = some ((List.range' (t + off) M.w).map g) := hh
    rw [load_total, hn, List.range'_succ, List.range'_succ] at hh
    have hg : g (t + o) = g (t + off) := by simpa using (List.cons.inj (Option.some.inj hh)).1
    by_cases hoo : o = off
    · rw [hoo]
    · simp [g] at hg
      omega
  · rintro h m a t f ⟨bs, hb, rfl⟩ ⟨off', ho', hf⟩
    cases ho.symm.trans ho'
    unfold of
    rw [hb, h]
    exact hf

/-! ## Concrete cases -/

/-- The description of a map type in the runtime of Go 1.24, from knowledge of it: other fields follow `hasher`. -/
def swiss (w : Nat) : List Field :=
  (maptype w).take 5 ++ [word w "groupSize", word w "slotSize", word w "elemOff", num 4 "flags"]

example : offset (swiss 8) "hasher" = some 72 := by decide

example : sizeOf (typ 8) = 48 ∧ sizeOf (typ 4) = 32 ∧ sizeOf (maptype 8) = 88 := by decide

/-- A little-endian machine with words of 4 bytes, an interface value at address 0 that points to a description at 16, and
the word 0xdeadbeef in that at offset 44. -/
def small : Machine := ⟨4, fun bs => bs.foldr (fun b n => b.toNat + 256 * n) 0⟩

def smallMem : Mem := fun x =>
  if x = 0 then some 16 else if x = 60 then some 0xef else if x = 61 then some 0xbe else if x = 62 then some 0xad
  else if x = 63 then some 0xde else if x < 100 then some 0 else none

example : of small smallMem 0 = some [0xef, 0xbe, 0xad, 0xde] :=
  C144_of small (Or.inr rfl) smallMem 0 16 [] _ ⟨[16, 0, 0, 0], by decide, by decide⟩ ⟨44, by decide, by decide⟩

/-- A runtime that keeps the function at the start of the description: `Of` would not find it. -/
example : ¬ ∀ m a t f, Holds small m a t → Has small m [word 4 "hasher"] t "hasher" f → of small m a = some f := by
  rw [C144_exact small (Or.inr rfl) [word 4 "hasher"] 0 (by decide)]
  decide

end Verif.Sharded.Layout
