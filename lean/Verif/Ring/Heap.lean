import Verif.Slice.Props
import Verif.Ring.Props

/-!
# The ring over memory: whose storage it uses

`Verif.Ring.Model` gives the ring a buffer of its own. Here `r.buf` is a slice header into the heap of
`Verif.Slice.Model`, as in the Go code, so that one can ask which memory a ring reads and writes: that of
the slice given to `OfSlice`, or arrays of its own.

Simplifications: those of `Verif.Slice.Model` and `Verif.Ring.Model` (buffers are assumed to stay below
`2^61` elements).
-/

namespace Verif.RingMem

open Verif.Iter
open Verif.Slice (Heap Ptr Valid Upd Cells poke load store reslice appendMany makeSlice readAll)

variable {T : Type} [Inhabited T]
set_option linter.unusedSectionVars false

/-- ds/xring/ring.go:3-7 `type Ring[T]`. -/
structure HRing where
  buf : Slice.Slice
  st : Nat
  len : Nat
deriving DecidableEq

/-- The ring of `Verif.Ring.Model` this one is, given memory. -/
def denote (h : Heap T) (r : HRing) : Ring.Ring T := ⟨Slice.contents h r.buf, r.st, r.len⟩

/-- ds/xring/ring.go:9-11 `New`. -/
def new : HRing := ⟨Slice.Slice.nil, 0, 0⟩

/-- Go builtin `make([]T, n, c)`. -/
def makeCap (n c : Nat) : St (Heap T) Slice.Slice := fun h =>
  if c < n then (.error "makeslice: cap out of range", h)
  else if c = 0 then (.ok ⟨.zero, 0, 0⟩, h)
  else (.ok ⟨.arr h.length 0, n, c⟩, h ++ [List.replicate c default])

/-- ds/xring/ring.go:13-19 `NewLen`. -/
def newLen (n : Nat) : St (Heap T) HRing := do
  let buf ← makeSlice n
  pure ⟨buf, 0, n⟩

/-- ds/xring/ring.go:21-27 `NewLenCap`. -/
def newLenCap (n c : Nat) : St (Heap T) HRing := do
  let buf ← makeCap n c
  pure ⟨buf, 0, n⟩

/-- ds/xring/ring.go:33-39 `OfSlice` (and `Of`, 29-31, whose argument slice is the caller's own if it
was passed with `...`). -/
def ofSlice (values : Slice.Slice) : HRing := ⟨values, 0, values.len⟩

/-- ds/xring/ring.go:41-46 `Copy`; `extra` is the spare capacity chosen by `append`. -/
def copy (extra : Nat) (values : Slice.Slice) : St (Heap T) HRing :=
  if values.len = 0 then pure new
  else do
    let vs ← readAll values
    let buf ← appendMany extra Slice.Slice.nil vs
    pure (ofSlice buf)

/-- ds/xring/ring.go:161-167, the two-part copy of `ToSlice`; `e₁`, `e₂` are the spare capacities the two
`append`s would choose. -/
def copyOut (e₁ e₂ : Nat) (r : HRing) (s : Slice.Slice) : St (Heap T) Slice.Slice :=
  if r.st + r.len ≤ r.buf.len then do
    let a ← St.lift (reslice r.buf r.st ((r.st : Int) + r.len))
    let xs ← readAll a
    appendMany e₁ s xs
  else do
    let a ← St.lift (reslice r.buf r.st r.buf.len)
    let xs ← readAll a
    let s ← appendMany e₁ s xs
    let b ← St.lift (reslice r.buf 0 ((r.st : Int) + r.len - r.buf.len))
    let ys ← readAll b
    appendMany e₂ s ys

/-- ds/xring/ring.go:152-168 `ToSlice(s)`. -/
def toSlice (e₁ e₂ : Nat) (r : HRing) (s : Slice.Slice) : St (Heap T) Slice.Slice :=
  if r.len = 0 then pure Slice.Slice.nil
  else do
    let s ← if s.ptr = .nil then makeCap 0 r.len else St.lift (reslice s 0 0)
    copyOut e₁ e₂ r s

/-- ds/xring/ring.go:48-65 `checkGrowth`. The appends of `ToSlice` stay within `newBuf`, so the spare
capacities given here are never used. -/
def checkGrowth (r : HRing) : St (Heap T) HRing :=
  let oldCap := r.buf.len
  if r.len = oldCap then do
    let newCap := if oldCap = 0 then 4 else if oldCap < 1024 then oldCap * 2 else oldCap * 5 / 4
    let newBuf ← makeSlice newCap
    let _ ← toSlice 0 0 r newBuf
    pure ⟨newBuf, 0, r.len⟩
  else pure r

/-- ds/xring/ring.go:67-76 `checkShrink`. -/
def checkShrink (r : HRing) : St (Heap T) HRing :=
  let oldCap := r.buf.len
  if oldCap > 1024 ∧ oldCap / 8 > r.len then do
    let newCap := oldCap / 8
    let newBuf ← makeSlice newCap
    let _ ← toSlice 0 0 r newBuf
    pure ⟨newBuf, 0, r.len⟩
  else pure r

/-- ds/xring/ring.go:91-99 `Append` (and `Push`, 78-80). -/
def append (r : HRing) (v : T) : St (Heap T) HRing := do
  let r ← checkGrowth r
  let i := r.st + r.len
  let i := if i ≥ r.buf.len then i - r.buf.len else i
  store r.buf i v
  pure ⟨r.buf, r.st, r.len + 1⟩

/-- ds/xring/ring.go:101-110 `Prepend`. -/
def prepend (r : HRing) (v : T) : St (Heap T) HRing := do
  let r ← checkGrowth r
  let i : Int := (r.st : Int) - 1
  let i := if i < 0 then i + r.buf.len else i
  store r.buf i v
  pure ⟨r.buf, i.toNat, r.len + 1⟩

/-- ds/xring/ring.go:112-124 `DeleteLast`. -/
def deleteLast (r : HRing) : St (Heap T) HRing :=
  if r.len = 0 then St.panic "delete from empty queue"
  else do
    let r ← checkShrink r
    let i : Int := (r.st : Int) + r.len - 1
    let i := if i ≥ r.buf.len then i - r.buf.len else i
    store r.buf i default
    pure ⟨r.buf, r.st, r.len - 1⟩

/-- ds/xring/ring.go:126-138 `DeleteFirst`. -/
def deleteFirst (r : HRing) : St (Heap T) HRing :=
  if r.len = 0 then St.panic "delete from empty queue"
  else do
    let r ← checkShrink r
    store r.buf r.st default
    let st := r.st + 1
    let st := if st = r.buf.len then 0 else st
    pure ⟨r.buf, st, r.len - 1⟩

/-- ds/xring/ring.go:170-179 `AtRef`, the index in `r.buf` of the element. -/
def atIdx (r : HRing) (i : Int) : Go Int :=
  if i < 0 ∨ (r.len : Int) ≤ i then .error "index out of bound"
  else
    let i := i + r.st
    let i := if i ≥ r.buf.len then i - r.buf.len else i
    if 0 ≤ i ∧ i.toNat < r.buf.len then .ok i else .error "index out of range"

/-- ds/xring/ring.go:181-183 `At`. -/
def at_ (r : HRing) (i : Int) : St (Heap T) T := do
  let j ← St.lift (atIdx r i)
  load r.buf j

/-- ds/xring/ring.go:185-187 `Set`. -/
def set_ (r : HRing) (i : Int) (v : T) : St (Heap T) HRing := do
  let j ← St.lift (atIdx r i)
  store r.buf j v
  pure r

/-- ds/xring/ring.go:189-194 `First`. -/
def first (r : HRing) : St (Heap T) T :=
  if r.len = 0 then St.panic "get from empty queue" else load r.buf r.st

/-- ds/xring/ring.go:196-205 `Last`. -/
def last (r : HRing) : St (Heap T) T :=
  if r.len = 0 then St.panic "get from empty queue"
  else
    let i : Int := (r.st : Int) + r.len - 1
    let i := if i ≥ r.buf.len then i - r.buf.len else i
    load r.buf i

/-- ds/xring/ring.go:82-89 `Pop`. -/
def pop (r : HRing) : St (Heap T) (HRing × T) :=
  if r.len = 0 then St.panic "pop from empty queu"
  else do
    let v ← first r
    let r ← deleteFirst r
    pure (r, v)

/-- The outcome of a method that changes the ring. -/
def changed (r : HRing) : Go HRing × Heap T → (HRing × Ring.Out T) × Heap T
  | (.ok r', h') => ((r', .unit), h')
  | (.error _, h') => ((r, .panic), h')

/-- The outcome of a method that returns an element. -/
def gave (r : HRing) : Go T × Heap T → (HRing × Ring.Out T) × Heap T
  | (.ok v, h') => ((r, .val v), h')
  | (.error _, h') => ((r, .panic), h')

/-- One call on a ring: the ring and the result, and memory afterwards. `ToSlice` is called with nil. -/
def call (r : HRing) (h : Heap T) : Ring.Op T → (HRing × Ring.Out T) × Heap T
  | .append v => changed r (append r v h)
  | .push v => changed r (append r v h)
  | .prepend v => changed r (prepend r v h)
  | .pop =>
    match pop r h with
    | (.ok (r', v), h') => ((r', .val v), h')
    | (.error _, h') => ((r, .panic), h')
  | .deleteFirst => changed r (deleteFirst r h)
  | .deleteLast => changed r (deleteLast r h)
  | .set i v => changed r (set_ r i v h)
  | .at i => gave r (at_ r i h)
  | .first => gave r (first r h)
  | .last => gave r (last r h)
  | .len => ((r, .num r.len), h)
  | .isEmpty => ((r, .bool (r.len == 0)), h)
  | .toSlice =>
    match toSlice 0 0 r Slice.Slice.nil h with
    | (.ok s, h') => ((r, .slice (if s.ptr = .nil then none else some (Slice.contents h' s))), h')
    | (.error _, h') => ((r, .panic), h')

/-! ## Copying the contents out -/

theorem appendMany_in (e : Nat) {h : Heap T} {s : Slice.Slice} {vs : List T} (hc : s.len + vs.length ≤ s.cap) :
    appendMany e s vs h = (.ok ⟨s.ptr, s.len + vs.length, s.cap⟩, poke h s.ptr s.len vs) := by
  unfold appendMany; rw [if_pos hc]

/-- The two-part copy, onto a slice `s` of length zero whose memory is not the ring's. -/
theorem copyOut_spec (e₁ e₂ : Nat) {h : Heap T} {r : HRing} {s : Slice.Slice} (hv : Valid h r.buf)
    (hw : Ring.WF (denote h r)) (hs : Valid h s) (h0 : s.len = 0)
    (hd : ∀ a k, Cells s s.cap a k → ¬ Cells r.buf r.buf.len a k)
    (h1 : ((r.len + e₁ : Nat) : Int) < 9223372036854775808)
    (h2 : ((r.len + e₂ : Nat) : Int) < 9223372036854775808) :
    ∃ s' h', copyOut e₁ e₂ r s h = (.ok s', h') ∧ Valid h' s' ∧ s'.len = r.len ∧
      Slice.contents h' s' = Ring.contents (denote h r) ∧
      (r.len ≤ s.cap → s'.ptr = s.ptr ∧ s'.cap = s.cap ∧ Upd (Cells s r.len) h h') ∧
      (s.cap < r.len → (∃ a, h.length ≤ a ∧ s'.ptr = .arr a 0) ∧ Upd (Cells s s.cap) h h') := by
  have hL := Slice.length_contents hv
  obtain ⟨w1, w2⟩ := hw
  simp only [denote] at w1 w2
  rw [hL] at w1 w2
  have hs0 : Slice.contents h s = [] := List.eq_nil_of_length_eq_zero (by rw [Slice.length_contents hs, h0])
  unfold copyOut
  by_cases hc : r.st + r.len ≤ r.buf.len
  · rw [if_pos hc]
    obtain ⟨a, ea, hva, hla, -, -, hca, -⟩ := Slice.reslice_spec hv (i := r.st) (j := r.st + r.len) (by omega) (by omega)
    rw [Int.natCast_add] at ea
    have hxs : Slice.contents h a = Ring.contents (denote h r) := by
      rw [hca]; unfold Ring.contents denote
      dsimp only
      rw [List.take_append_of_le_length (by rw [List.length_drop, hL]; omega)]
      congr 1; omega
    have hxl : (Slice.contents h a).length = r.len := by rw [Slice.length_contents hva, hla]; omega
    obtain ⟨s', h', e, hv', hl, hcc, hin, hout⟩ := Slice.appendMany_spec e₁ hs (Slice.contents h a) (by rw [hxl, h0]; omega)
    refine ⟨s', h', ?_, hv', by rw [hl, hxl, h0]; omega, by rw [hcc, hs0, hxs]; rfl, ?_, ?_⟩
    · rw [St.bind_lift ea]
      have q : readAll a h = (.ok (Slice.contents h a), h) := rfl
      rw [St.bind_ok q, e]
    · intro hle
      obtain ⟨p, c, u⟩ := hin (by rw [hxl, h0]; omega)
      refine ⟨p, c, u.mono ?_⟩
      rintro b k - ⟨off, ep, g1, g2⟩
      exact ⟨off, ep, by omega, by omega⟩
    · intro hlt
      obtain ⟨p, u⟩ := hout (by rw [hxl, h0]; omega)
      exact ⟨⟨_, Nat.le_refl _, p⟩, u.mono fun _ _ _ hf => hf.elim⟩
  · rw [if_neg hc]
    obtain ⟨a, ea, hva, hla, -, -, hca, -⟩ := Slice.reslice_spec hv (i := r.st) (j := r.buf.len) (by omega) (by omega)
    have hxl : (Slice.contents h a).length = r.buf.len - r.st := by rw [Slice.length_contents hva, hla]
    obtain ⟨s₁, g, e, hv₁, hl₁, hcc₁, hin₁, hout₁⟩ := Slice.appendMany_spec e₁ hs (Slice.contents h a) (by rw [hxl, h0]; omega)
    -- the ring's memory is as before after the first append
    have u₁ : Upd (Cells s s.cap) h g := by
      by_cases hle : r.buf.len - r.st ≤ s.cap
      · obtain ⟨-, -, u⟩ := hin₁ (by rw [hxl, h0]; omega)
        refine u.mono ?_
        rintro b k - ⟨off, ep, g1, g2⟩
        exact ⟨off, ep, by omega, by omega⟩
      · obtain ⟨-, u⟩ := hout₁ (by rw [hxl, h0]; omega)
        exact u.mono fun _ _ _ hf => hf.elim
    have hkeep : Slice.contents g r.buf = Slice.contents h r.buf :=
      u₁.contents hv fun a k hb hsc => hd a k hsc hb
    obtain ⟨b, eb, hvb, hlb, -, -, hcb, -⟩ := Slice.reslice_spec (u₁.valid hv) (i := 0) (j := r.st + r.len - r.buf.len) (by omega) (by omega)
    have eb' : reslice r.buf 0 ((r.st : Int) + r.len - r.buf.len) = .ok b := by
      rw [← eb]; congr 1; omega
    have hyl : (Slice.contents g b).length = r.st + r.len - r.buf.len := by
      rw [Slice.length_contents hvb, hlb]; omega
    have hxy : Slice.contents h a ++ Slice.contents g b = Ring.contents (denote h r) := by
      rw [hca, hcb, hkeep]; unfold Ring.contents denote
      dsimp only
      rw [List.take_append, List.take_of_length_le (l := (Slice.contents h r.buf).drop r.st) (i := r.len)
        (by rw [List.length_drop, hL]; omega), List.take_take, List.length_drop, hL,
        List.take_of_length_le (l := (Slice.contents h r.buf).drop r.st) (by rw [List.length_drop, hL]; omega)]
      simp only [List.drop_zero]
      congr 2
      omega
    obtain ⟨s', h', e', hv', hl, hcc, hin, hout⟩ := Slice.appendMany_spec e₂ hv₁ (Slice.contents g b)
      (by rw [hyl, hl₁, hxl, h0]; omega)
    refine ⟨s', h', ?_, hv', by rw [hl, hyl, hl₁, hxl, h0]; omega, by rw [hcc, hcc₁, hs0, ← hxy]; rfl, ?_, ?_⟩
    · rw [St.bind_lift ea]
      have q : readAll a h = (.ok (Slice.contents h a), h) := rfl
      have q' : readAll b g = (.ok (Slice.contents g b), g) := rfl
      rw [St.bind_ok q, St.bind_ok e, St.bind_lift eb', St.bind_ok q', e']
    · intro hle
      obtain ⟨p₁, c₁, v₁⟩ := hin₁ (by rw [hxl, h0]; omega)
      obtain ⟨p, c, v⟩ := hin (by rw [hyl, hl₁, hxl, h0, c₁]; omega)
      refine ⟨p.trans p₁, c.trans c₁, Upd.trans (h' := g) (v₁.mono ?_) (v.mono ?_)⟩
      · rintro b k - ⟨off, ep, g1, g2⟩
        exact ⟨off, ep, by omega, by omega⟩
      · rintro b k - ⟨off, ep, g1, g2⟩
        exact ⟨off, p₁ ▸ ep, by omega, by omega⟩
    · intro hlt
      by_cases hle : r.buf.len - r.st ≤ s.cap
      · obtain ⟨p₁, c₁, v₁⟩ := hin₁ (by rw [hxl, h0]; omega)
        obtain ⟨p, v⟩ := hout (by rw [hyl, hl₁, hxl, h0, c₁]; omega)
        exact ⟨⟨_, u₁.length_le, p⟩, u₁.trans (v.mono fun _ _ _ hf => hf.elim)⟩
      · obtain ⟨p₁, v₁⟩ := hout₁ (by rw [hxl, h0]; omega)
        by_cases hle2 : s₁.len + (Slice.contents g b).length ≤ s₁.cap
        · obtain ⟨p, c, v⟩ := hin hle2
          refine ⟨⟨_, Nat.le_refl _, p.trans p₁⟩, ?_⟩
          -- the second append writes only the new array
          intro x A hA
          have hx := (List.getElem?_eq_some_iff.1 hA).1
          obtain ⟨A', hA', l', f'⟩ := u₁ x A hA
          obtain ⟨A'', hA'', l'', f''⟩ := v x A' hA'
          refine ⟨A'', hA'', l''.trans l', fun k hk => (f'' k ?_).trans (f' k hk)⟩
          rintro ⟨off, ep, -, -⟩
          rw [p₁] at ep; injection ep with ep; omega
        · obtain ⟨p, v⟩ := hout (by omega)
          exact ⟨⟨_, u₁.length_le, p⟩, u₁.trans (v.mono fun _ _ _ hf => hf.elim)⟩

/-- A fresh array holds the contents followed by zero values after `ToSlice` into it. -/
theorem move_spec {h : Heap T} {r : HRing} (hv : Valid h r.buf) (hw : Ring.WF (denote h r)) {n : Nat}
    (hn : 0 < n) (hle : r.len ≤ n) (hb : (n : Int) < 9223372036854775808) :
    ∃ h', (do let newBuf ← makeSlice (T := T) n
              let _ ← toSlice 0 0 r newBuf
              pure (⟨newBuf, 0, r.len⟩ : HRing)) h = (.ok ⟨⟨.arr h.length 0, n, n⟩, 0, r.len⟩, h') ∧
      Slice.contents h' ⟨.arr h.length 0, n, n⟩ =
        Ring.contents (denote h r) ++ (List.replicate n default).drop r.len ∧
      Valid h' (⟨.arr h.length 0, n, n⟩ : Slice.Slice) ∧ Upd (fun _ _ => False) h h' := by
  have em : makeSlice (T := T) (n : Int) h = (.ok ⟨.arr h.length 0, n, n⟩, h ++ [List.replicate n default]) := by
    unfold makeSlice
    rw [if_neg (by omega), if_neg (by omega), Int.toNat_natCast]
  have u := Slice.alloc_upd h (List.replicate n (default : T))
  generalize hg : h ++ [List.replicate n (default : T)] = g at em u
  have hgn : g[h.length]? = some (List.replicate n default) := by subst hg; simp
  have hvn : Valid g (⟨.arr h.length 0, n, n⟩ : Slice.Slice) := ⟨Nat.le_refl _, hb, _, hgn, by simp⟩
  have hcn : Slice.contents g (⟨.arr h.length 0, n, n⟩ : Slice.Slice) = List.replicate n default := by
    simp [Slice.contents, hgn]
  have hkeep : Slice.contents g r.buf = Slice.contents h r.buf := u.contents hv fun _ _ _ hf => hf
  have hden : denote g r = denote h r := by unfold denote; rw [hkeep]
  rw [St.bind_ok em]
  by_cases h0 : r.len = 0
  · have et : toSlice 0 0 r ⟨.arr h.length 0, n, n⟩ g = (.ok Slice.Slice.nil, g) := by
      unfold toSlice; rw [if_pos h0]; rfl
    refine ⟨g, by rw [St.bind_ok et]; rfl, ?_, hvn, u⟩
    rw [hcn, (Ring.contents_nil_iff hw).2 h0, h0]; rfl
  · obtain ⟨s₀, er, hvs, hls, hcs, hps, -, -⟩ := Slice.reslice_spec hvn (i := 0) (j := 0) (Nat.le_refl _) (Nat.zero_le _)
    have hnotin : ∀ k, ¬ Cells r.buf r.buf.len h.length k := by
      rintro k ⟨off, ep, -, -⟩
      obtain ⟨-, -, h3⟩ := hv
      rw [ep] at h3
      obtain ⟨A, hA, -⟩ := h3
      have := (List.getElem?_eq_some_iff.1 hA).1
      omega
    obtain ⟨s', h', e, hv', hl', hc', hin, -⟩ := copyOut_spec 0 0 (h := g) (r := r) (s := s₀) (u.valid hv)
      (by rw [hden]; exact hw) hvs hls
      (by
        rintro a k ⟨off, ep, -, -⟩
        rw [hps rfl] at ep; injection ep with ep _
        rw [← ep]; exact hnotin k)
      (by omega) (by omega)
    obtain ⟨p, c, v⟩ := hin (by rw [hcs]; exact hle)
    have et : toSlice 0 0 r ⟨.arr h.length 0, n, n⟩ g = (.ok s', h') := by
      unfold toSlice
      rw [if_neg h0, if_neg (by intro hh; cases hh)]
      rw [show reslice (⟨.arr h.length 0, n, n⟩ : Slice.Slice) 0 0 = .ok s₀ from er] at *
      rw [St.bind_lift rfl]
      exact e
    have hv'n := v.valid hvn
    refine ⟨h', by rw [St.bind_ok et]; rfl, ?_, hv'n, ?_⟩
    · obtain ⟨A', hA', hl, hf⟩ := v h.length _ hgn
      have hcA : Slice.contents h' (⟨.arr h.length 0, n, n⟩ : Slice.Slice) = A' := by
        simp only [Slice.contents, hA', Option.getD_some, List.drop_zero]
        rw [List.take_of_length_le]; rw [hl]; simp
      have hcA' : Slice.contents h' s' = A'.take r.len := by
        simp only [Slice.contents, p, hps rfl, hA', Option.getD_some, List.drop_zero, hl']
      rw [hcA, ← hden, ← hc', hcA']
      have : A'.drop r.len = (List.replicate n (default : T)).drop r.len := by
        apply List.ext_getElem?
        intro k
        rw [List.getElem?_drop, List.getElem?_drop]
        refine hf _ ?_
        rintro ⟨off, ep, g1, g2⟩
        rw [hps rfl] at ep; injection ep with _ ep; omega
      rw [← this, List.take_append_drop]
    · refine (Upd.trans (W := fun a _ => a = h.length) (u.mono fun _ _ _ hf => hf.elim) (v.mono ?_)).mono ?_
      · rintro a k - ⟨off, ep, -, -⟩
        rw [hps rfl] at ep; injection ep with ep _; exact ep.symm
      · intro a k ha hh; omega

/-- What a call may have done to memory: written inside its buffer, or left all memory alone and moved
to a new array (of another size). -/
def Frame (h : Heap T) (r : HRing) (h' : Heap T) (r' : HRing) : Prop :=
  (r'.buf = r.buf ∧ Upd (Cells r.buf r.buf.len) h h') ∨
  (r'.buf.ptr = .arr h.length 0 ∧ r'.buf.len ≠ r.buf.len ∧ Upd (fun _ _ => False) h h')

theorem growth_spec {h : Heap T} {r : HRing} (hv : Valid h r.buf) (hw : Ring.WF (denote h r))
    (hb : r.buf.len < 2 ^ 61) :
    ∃ r' h', checkGrowth r h = (.ok r', h') ∧ Ring.checkGrowth (denote h r) = .ok (denote h' r') ∧
      Valid h' r'.buf ∧ Upd (fun _ _ => False) h h' ∧
      (r' = r ∨ (r'.buf.ptr = .arr h.length 0 ∧ r'.buf.len ≠ r.buf.len)) := by
  have hL := Slice.length_contents hv
  obtain ⟨q, eq, -, -, -, -, -, hq1, hq2⟩ := Ring.checkGrowth_eq hw
  by_cases hc : r.len = r.buf.len
  · have hg := Ring.grown_gt r.buf.len
    have hgb : Ring.grown r.buf.len < 2 ^ 62 + 4 := by
      unfold Ring.grown; split
      · omega
      · split <;> omega
    obtain ⟨h', e, c, v, u⟩ := move_spec hv hw (n := Ring.grown r.buf.len) (by omega) (by omega) (by omega)
    refine ⟨⟨⟨.arr h.length 0, Ring.grown r.buf.len, Ring.grown r.buf.len⟩, 0, r.len⟩, h', ?_, ?_, v, u,
      Or.inr ⟨rfl, by dsimp only; omega⟩⟩
    · unfold checkGrowth
      rw [if_pos hc]
      exact e
    · rw [eq, hq1 (by unfold denote; rw [hL]; exact hc)]
      simp only [denote, hL] at c ⊢
      rw [c]
  · refine ⟨r, h, ?_, ?_, hv, Upd.refl _ _, Or.inl rfl⟩
    · unfold checkGrowth; rw [if_neg hc]; rfl
    · rw [eq, hq2 (by unfold denote; rw [hL]; exact hc)]

theorem shrink_spec {h : Heap T} {r : HRing} (hv : Valid h r.buf) (hw : Ring.WF (denote h r)) :
    ∃ r' h', checkShrink r h = (.ok r', h') ∧ Ring.checkShrink (denote h r) = .ok (denote h' r') ∧
      Valid h' r'.buf ∧ Upd (fun _ _ => False) h h' ∧
      (r' = r ∨ (r'.buf.ptr = .arr h.length 0 ∧ r'.buf.len ≠ r.buf.len)) := by
  have hL := Slice.length_contents hv
  by_cases hc : r.buf.len > 1024 ∧ r.buf.len / 8 > r.len
  · have hvc := hv.2.1
    have hvl := hv.1
    obtain ⟨h', e, c, v, u⟩ := move_spec hv hw (n := r.buf.len / 8) (by omega) (by omega) (by omega)
    refine ⟨⟨⟨.arr h.length 0, r.buf.len / 8, r.buf.len / 8⟩, 0, r.len⟩, h', ?_, ?_, v, u,
      Or.inr ⟨rfl, by dsimp only; omega⟩⟩
    · unfold checkShrink
      rw [if_pos hc]
      exact e
    · unfold Ring.checkShrink
      have hl' : (denote h r).buf.length = r.buf.len := hL
      have hll : (denote h r).len = r.len := rfl
      simp only [hl', hll]
      rw [if_pos hc]
      have := Ring.toSlice_some_eq hw (List.replicate (r.buf.len / 8) default) (by simp [hll]; omega)
      rw [this]
      simp only [bind, Except.bind, pure, Except.pure, hll]
      unfold denote at c ⊢
      rw [c]
  · refine ⟨r, h, ?_, ?_, hv, Upd.refl _ _, Or.inl rfl⟩
    · unfold checkShrink; rw [if_neg hc]; rfl
    · unfold Ring.checkShrink
      have hl' : (denote h r).buf.length = r.buf.len := hL
      have hll : (denote h r).len = r.len := rfl
      simp only [hl', hll]
      rw [if_neg hc]; rfl

/-- `s[i] = v` in memory and in the list. -/
theorem store_spec {h : Heap T} {s : Slice.Slice} (hv : Valid h s) {i : Int} (h0 : 0 ≤ i) (h1 : i.toNat < s.len)
    (v : T) : ∃ h', store s i v h = (.ok (), h') ∧ goSet (Slice.contents h s) i v = .ok (Slice.contents h' s) ∧
      Valid h' s ∧ Upd (Cells s s.len) h h' := by
  have hL := Slice.length_contents hv
  have hl := hv.1
  obtain ⟨n, rfl⟩ := Int.eq_ofNat_of_zero_le h0
  have h1' : n < s.len := by simpa using h1
  have u := Slice.poke_upd hv (i := n) (l := [v]) (by simp; omega)
  refine ⟨poke h s.ptr n [v], Slice.store_ok v h1', ?_, u.valid hv, u.mono ?_⟩
  · rw [Slice.poke_contents hv (by simp; omega), Slice.splice_singleton v (by omega)]
    exact goSet_nat (by omega)
  · rintro a k - ⟨off, ep, g1, g2⟩
    simp only [List.length_cons, List.length_nil] at g2
    exact ⟨off, ep, by omega, by omega⟩

theorem load_spec {h : Heap T} {s : Slice.Slice} (i : Int) :
    load s i h = (goGet (Slice.contents h s) i, h) := by
  unfold load goGet
  split
  · split <;> rename_i heq <;> simp [heq]
  · rfl

/-- The frame of a move that is followed by a write inside the buffer. -/
theorem frame_of {h g h' : Heap T} {r q r' : HRing} (hu : Upd (fun _ _ => False) h g)
    (hq : q = r ∨ (q.buf.ptr = .arr h.length 0 ∧ q.buf.len ≠ r.buf.len))
    (hs : Upd (Cells q.buf q.buf.len) g h') (hb : r'.buf = q.buf) : Frame h r h' r' := by
  rcases hq with rfl | ⟨hp, hl⟩
  · exact Or.inl ⟨hb, (hu.mono fun _ _ _ hf => hf.elim).trans hs⟩
  · refine Or.inr ⟨by rw [hb, hp], by rw [hb]; exact hl, ?_⟩
    refine (Upd.trans (W := fun a _ => a = h.length) (hu.mono fun _ _ _ hf => hf.elim) (hs.mono ?_)).mono ?_
    · rintro a k - ⟨off, ep, -, -⟩
      rw [hp] at ep; injection ep with ep _; exact ep.symm
    · intro a k ha hh; omega

/-- A method that changes the ring does in memory what it does to the ring of `Verif.Ring.Model`. -/
def Sim (h : Heap T) (r : HRing) (res : Go HRing × Heap T) (spec : Go (Ring.Ring T)) : Prop :=
  ∃ r' h', res = (.ok r', h') ∧ spec = .ok (denote h' r') ∧ Valid h' r'.buf ∧ Frame h r h' r'

theorem append_sim {h : Heap T} {r : HRing} (hv : Valid h r.buf) (hw : Ring.WF (denote h r))
    (hb : r.buf.len < 2 ^ 61) (v : T) : Sim h r (append r v h) (Ring.append (denote h r) v) := by
  obtain ⟨q, g, e, e', hvq, hu, hq⟩ := growth_spec hv hw hb
  obtain ⟨q', eq', wq, -, -, hlt, -, -, -⟩ := Ring.checkGrowth_eq hw
  rw [e'] at eq'; injection eq' with eq'; subst eq'
  have hL := Slice.length_contents hvq
  have hlb : (denote g q).buf.length = q.buf.len := hL
  rw [hlb] at hlt
  obtain ⟨w1, w2⟩ := wq
  rw [hlb] at w1 w2
  simp only [denote] at w1 w2 hlt
  generalize hi : (if q.st + q.len ≥ q.buf.len then q.st + q.len - q.buf.len else q.st + q.len) = i
  have hi' : (if (denote g q).st + (denote g q).len ≥ (denote g q).buf.length then (denote g q).st + (denote g q).len - (denote g q).buf.length else (denote g q).st + (denote g q).len) = i := by
    rw [← hi]; simp only [hlb]; rfl
  have hib : i < q.buf.len := by subst hi; split <;> omega
  obtain ⟨h', es, eg, hv', us⟩ := store_spec hvq (i := (i : Int)) (by omega) (by simpa using hib) v
  refine ⟨⟨q.buf, q.st, q.len + 1⟩, h', ?_, ?_, hv', frame_of hu hq us rfl⟩
  · unfold append
    rw [St.bind_ok e]
    subst hi
    exact St.bind_ok es _
  · unfold Ring.append
    simp only [e', bind, Except.bind, hi']
    simp only [denote] at *
    rw [eg]; rfl

theorem prepend_sim {h : Heap T} {r : HRing} (hv : Valid h r.buf) (hw : Ring.WF (denote h r))
    (hb : r.buf.len < 2 ^ 61) (v : T) : Sim h r (prepend r v h) (Ring.prepend (denote h r) v) := by
  obtain ⟨q, g, e, e', hvq, hu, hq⟩ := growth_spec hv hw hb
  obtain ⟨q', eq', wq, -, -, hlt, -, -, -⟩ := Ring.checkGrowth_eq hw
  rw [e'] at eq'; injection eq' with eq'; subst eq'
  have hL := Slice.length_contents hvq
  have hlb : (denote g q).buf.length = q.buf.len := hL
  rw [hlb] at hlt
  obtain ⟨w1, w2⟩ := wq
  rw [hlb] at w1 w2
  simp only [denote] at w1 w2 hlt
  generalize hi : (if (q.st : Int) - 1 < 0 then (q.st : Int) - 1 + q.buf.len else (q.st : Int) - 1) = i
  have hi' : (if ((denote g q).st : Int) - 1 < 0 then ((denote g q).st : Int) - 1 + (denote g q).buf.length else ((denote g q).st : Int) - 1) = i := by
    rw [← hi]; simp only [hlb]; rfl
  have hib : 0 ≤ i ∧ i.toNat < q.buf.len := by subst hi; split <;> omega
  obtain ⟨h', es, eg, hv', us⟩ := store_spec hvq hib.1 hib.2 v
  refine ⟨⟨q.buf, i.toNat, q.len + 1⟩, h', ?_, ?_, hv', frame_of hu hq us rfl⟩
  · unfold prepend
    rw [St.bind_ok e]
    subst hi
    exact St.bind_ok es _
  · unfold Ring.prepend
    simp only [e', bind, Except.bind, hi']
    simp only [denote] at *
    rw [eg]; rfl

theorem deleteFirst_sim {h : Heap T} {r : HRing} (hv : Valid h r.buf) (hw : Ring.WF (denote h r))
    (hne : r.len ≠ 0) : Sim h r (deleteFirst r h) (Ring.deleteFirst (denote h r)) := by
  obtain ⟨q, g, e, e', hvq, hu, hq⟩ := shrink_spec hv hw
  obtain ⟨q', eq', wq, -, hlen, -⟩ := Ring.checkShrink_eq hw
  rw [e'] at eq'; injection eq' with eq'; subst eq'
  have hL := Slice.length_contents hvq
  have hlb : (denote g q).buf.length = q.buf.len := hL
  obtain ⟨w1, w2⟩ := wq
  rw [hlb] at w1 w2
  simp only [denote] at w1 w2 hlen
  obtain ⟨h', es, eg, hv', us⟩ := store_spec hvq (i := (q.st : Int)) (by omega) (by simp; omega) default
  have hL' := Slice.length_contents hv'
  refine ⟨⟨q.buf, if q.st + 1 = q.buf.len then 0 else q.st + 1, q.len - 1⟩, h', ?_, ?_, hv', frame_of hu hq us rfl⟩
  · unfold deleteFirst
    rw [if_neg hne, St.bind_ok e]
    rw [St.bind_ok es]; rfl
  · unfold Ring.deleteFirst
    rw [if_neg (by exact hne)]
    simp only [e', bind, Except.bind]
    simp only [denote] at *
    rw [eg]
    simp only [pure, Except.pure, hL']

theorem deleteLast_sim {h : Heap T} {r : HRing} (hv : Valid h r.buf) (hw : Ring.WF (denote h r))
    (hne : r.len ≠ 0) : Sim h r (deleteLast r h) (Ring.deleteLast (denote h r)) := by
  obtain ⟨q, g, e, e', hvq, hu, hq⟩ := shrink_spec hv hw
  obtain ⟨q', eq', wq, -, hlen, -⟩ := Ring.checkShrink_eq hw
  rw [e'] at eq'; injection eq' with eq'; subst eq'
  have hL := Slice.length_contents hvq
  have hlb : (denote g q).buf.length = q.buf.len := hL
  obtain ⟨w1, w2⟩ := wq
  rw [hlb] at w1 w2
  simp only [denote] at w1 w2 hlen
  generalize hi : (if (q.st : Int) + q.len - 1 ≥ q.buf.len then (q.st : Int) + q.len - 1 - q.buf.len
    else (q.st : Int) + q.len - 1) = i
  have hi' : (if ((denote g q).st : Int) + (denote g q).len - 1 ≥ (denote g q).buf.length then ((denote g q).st : Int) + (denote g q).len - 1 - (denote g q).buf.length
    else ((denote g q).st : Int) + (denote g q).len - 1) = i := by
    rw [← hi]; simp only [hlb]; rfl
  have hib : 0 ≤ i ∧ i.toNat < q.buf.len := by subst hi; split <;> omega
  obtain ⟨h', es, eg, hv', us⟩ := store_spec hvq hib.1 hib.2 default
  refine ⟨⟨q.buf, q.st, q.len - 1⟩, h', ?_, ?_, hv', frame_of hu hq us rfl⟩
  · unfold deleteLast
    rw [if_neg hne, St.bind_ok e]
    subst hi
    exact St.bind_ok es _
  · unfold Ring.deleteLast
    rw [if_neg (by exact hne)]
    simp only [e', bind, Except.bind, hi']
    simp only [denote] at *
    rw [eg]; rfl

theorem atIdx_eq {h : Heap T} {r : HRing} (hv : Valid h r.buf) (i : Int) :
    atIdx r i = Ring.atRef (denote h r) i := by
  have hL := Slice.length_contents hv
  unfold atIdx Ring.atRef denote
  simp only [hL]

theorem frame_refl (h : Heap T) (r : HRing) : Frame h r h r := Or.inl ⟨rfl, Upd.refl _ _⟩

/-- One call does in memory what it does to the ring of `Verif.Ring.Model`, and stays in its buffer. -/
theorem call_sim {h : Heap T} {r : HRing} (hv : Valid h r.buf) (hw : Ring.WF (denote h r))
    (hb : r.buf.len < 2 ^ 61) (o : Ring.Op T) :
    let c := call r h o
    Ring.step (denote h r) o = (denote c.2 c.1.1, c.1.2) ∧ Valid c.2 c.1.1.buf ∧ Frame h r c.2 c.1.1 := by
  have hL := Slice.length_contents hv
  intro c
  have fin : ∀ {res spec}, Sim h r res spec →
      (match spec with | .ok r' => (r', Ring.Out.unit) | .error _ => (denote h r, .panic)) =
        (denote (changed r res).2 (changed r res).1.1, (changed r res).1.2) ∧
      Valid (changed r res).2 (changed r res).1.1.buf ∧ Frame h r (changed r res).2 (changed r res).1.1 := by
    rintro _ _ ⟨r', h', rfl, rfl, hv', hf⟩
    exact ⟨rfl, hv', hf⟩
  have fin2 : ∀ g : Go T,
      (match g with | .ok v => (denote h r, Ring.Out.val v) | .error _ => (denote h r, .panic)) =
        (denote (gave r (g, h)).2 (gave r (g, h)).1.1, (gave r (g, h)).1.2) ∧
      Valid (gave r (g, h)).2 (gave r (g, h)).1.1.buf ∧ Frame h r (gave r (g, h)).2 (gave r (g, h)).1.1 := by
    intro g
    cases g with
    | ok v => exact ⟨rfl, hv, frame_refl _ _⟩
    | error e => exact ⟨rfl, hv, frame_refl _ _⟩
  subst c
  cases o with
  | append v => exact fin (append_sim hv hw hb v)
  | push v => exact fin (append_sim hv hw hb v)
  | prepend v => exact fin (prepend_sim hv hw hb v)
  | pop =>
    by_cases h0 : r.len = 0
    · have e1 : pop r h = (.error "pop from empty queu", h) := by unfold pop; rw [if_pos h0]; rfl
      have e2 : Ring.pop (denote h r) = .error "pop from empty queu" := by
        unfold Ring.pop Ring.empty; rw [if_pos (by simpa [denote] using h0)]
      simp only [call, e1, Ring.step, e2]
      exact ⟨trivial, hv, frame_refl _ _⟩
    · obtain ⟨v, t, hc⟩ : ∃ v t, Ring.contents (denote h r) = v :: t := by
        cases hc : Ring.contents (denote h r) with
        | nil => exact absurd ((Ring.contents_nil_iff hw).1 hc) h0
        | cons v t => exact ⟨v, t, rfl⟩
      have hf := Ring.first_eq hw hc
      obtain ⟨r', h', e1, e2, hv', hfr⟩ := deleteFirst_sim hv hw h0
      have ef : first r h = (.ok v, h) := by
        unfold first; rw [if_neg h0, load_spec]
        unfold Ring.first at hf; rw [if_neg (by exact h0)] at hf
        exact congrArg (·, h) hf
      have e3 : pop r h = (.ok (r', v), h') := by
        unfold pop; rw [if_neg h0, St.bind_ok ef, St.bind_ok e1]; rfl
      have e4 : Ring.pop (denote h r) = .ok (denote h' r', v) := by
        unfold Ring.pop Ring.empty
        rw [if_neg (by simpa [denote] using h0), hf]
        simp only [bind, Except.bind, e2, pure, Except.pure]
      simp only [call, e3, Ring.step, e4]
      exact ⟨trivial, hv', hfr⟩
  | deleteFirst =>
    by_cases h0 : r.len = 0
    · have e1 : deleteFirst r h = (.error "delete from empty queue", h) := by
        unfold deleteFirst; rw [if_pos h0]; rfl
      have e2 : Ring.deleteFirst (denote h r) = .error "delete from empty queue" := by
        unfold Ring.deleteFirst; rw [if_pos (by exact h0)]
      simp only [call, e1, Ring.step, e2]
      exact ⟨rfl, hv, frame_refl _ _⟩
    · exact fin (deleteFirst_sim hv hw h0)
  | deleteLast =>
    by_cases h0 : r.len = 0
    · have e1 : deleteLast r h = (.error "delete from empty queue", h) := by
        unfold deleteLast; rw [if_pos h0]; rfl
      have e2 : Ring.deleteLast (denote h r) = .error "delete from empty queue" := by
        unfold Ring.deleteLast; rw [if_pos (by exact h0)]
      simp only [call, e1, Ring.step, e2]
      exact ⟨rfl, hv, frame_refl _ _⟩
    · exact fin (deleteLast_sim hv hw h0)
  | set i v =>
    by_cases hi : 0 ≤ i ∧ i < r.len
    · obtain ⟨j, hj, hlt, -⟩ := Ring.atRef_eq hw hi.1 hi.2
      have hlt' : j < r.buf.len := by rw [← hL]; exact hlt
      obtain ⟨h', es, eg, hv', us⟩ := store_spec hv (i := (j : Int)) (by omega) (by simpa using hlt') v
      refine fin ⟨r, h', ?_, ?_, hv', Or.inl ⟨rfl, us⟩⟩
      · unfold set_
        rw [atIdx_eq hv, hj, St.bind_lift rfl, St.bind_ok es]; rfl
      · unfold Ring.set_
        rw [hj]
        simp only [bind, Except.bind]
        simp only [denote] at *
        rw [eg]; rfl
    · have e0 : Ring.atRef (denote h r) i = .error "index out of bound" := by
        unfold Ring.atRef; rw [if_pos (by simp only [denote]; omega)]
      have e1 : set_ r i v h = (.error "index out of bound", h) := by
        unfold set_; rw [atIdx_eq hv, e0]; rfl
      have e2 : Ring.set_ (denote h r) i v = .error "index out of bound" := by
        unfold Ring.set_; rw [e0]; rfl
      simp only [call, e1, Ring.step, e2]
      exact ⟨rfl, hv, frame_refl _ _⟩
  | «at» i =>
    have : at_ r i h = (Ring.at_ (denote h r) i, h) := by
      unfold at_ Ring.at_
      rw [atIdx_eq hv]
      cases Ring.atRef (denote h r) i with
      | ok j => rw [St.bind_lift rfl, load_spec]; rfl
      | error e => rfl
    simp only [call, this, Ring.step]
    exact fin2 _
  | first =>
    have : first r h = (Ring.first (denote h r), h) := by
      unfold first Ring.first
      by_cases h0 : r.len = 0
      · rw [if_pos h0, if_pos (by exact h0)]; rfl
      · rw [if_neg h0, if_neg (by exact h0), load_spec]; rfl
    simp only [call, this, Ring.step]
    exact fin2 _
  | last =>
    have : last r h = (Ring.last (denote h r), h) := by
      unfold last Ring.last
      by_cases h0 : r.len = 0
      · rw [if_pos h0, if_pos (by exact h0)]; rfl
      · rw [if_neg h0, if_neg (show ¬ (denote h r).len = 0 from h0)]
        dsimp only
        rw [load_spec]
        simp only [denote, hL]
    simp only [call, this, Ring.step]
    exact fin2 _
  | len => exact ⟨rfl, hv, frame_refl _ _⟩
  | isEmpty => exact ⟨rfl, hv, frame_refl _ _⟩
  | toSlice =>
    have hts := Ring.toSlice_none_eq hw
    by_cases h0 : r.len = 0
    · have e1 : toSlice 0 0 r Slice.Slice.nil h = (.ok Slice.Slice.nil, h) := by
        unfold toSlice; rw [if_pos h0]; rfl
      rw [(Ring.contents_nil_iff hw).2 h0] at hts
      simp only [call, e1, Ring.step, hts]
      exact ⟨rfl, hv, frame_refl _ _⟩
    · have hcne : Ring.contents (denote h r) ≠ [] := fun hh => h0 ((Ring.contents_nil_iff hw).1 hh)
      rw [if_neg hcne] at hts
      have hwl : r.len ≤ r.buf.len := by have := hw.1; simp only [denote, hL] at this; exact this
      have u := Slice.alloc_upd h (List.replicate r.len (default : T))
      have em : makeCap (T := T) 0 r.len h =
          (.ok ⟨.arr h.length 0, 0, r.len⟩, h ++ [List.replicate r.len default]) := by
        unfold makeCap; rw [if_neg (by omega), if_neg h0]
      generalize hg : h ++ [List.replicate r.len (default : T)] = g at em u
      have hgn : g[h.length]? = some (List.replicate r.len default) := by subst hg; simp
      have hvn : Valid g (⟨.arr h.length 0, 0, r.len⟩ : Slice.Slice) :=
        ⟨Nat.zero_le _, by dsimp only; omega, _, hgn, by simp⟩
      have hkeep : Slice.contents g r.buf = Slice.contents h r.buf := u.contents hv fun _ _ _ hf => hf
      have hden : denote g r = denote h r := by unfold denote; rw [hkeep]
      have hnotin : ∀ k, ¬ Cells r.buf r.buf.len h.length k := by
        rintro k ⟨off, ep, -, -⟩
        obtain ⟨-, -, h3⟩ := hv
        rw [ep] at h3
        obtain ⟨A, hA, -⟩ := h3
        have := (List.getElem?_eq_some_iff.1 hA).1
        omega
      obtain ⟨s', h', e, hv', hl', hc', hin, -⟩ := copyOut_spec 0 0 (h := g) (r := r) (u.valid hv)
        (by rw [hden]; exact hw) hvn rfl
        (by
          rintro a k ⟨off, ep, -, -⟩
          injection ep with ep _
          rw [← ep]; exact hnotin k)
        (by omega) (by omega)
      obtain ⟨p, -, v⟩ := hin (Nat.le_refl _)
      have et : toSlice 0 0 r Slice.Slice.nil h = (.ok s', h') := by
        unfold toSlice
        rw [if_neg h0, if_pos (show Slice.Slice.nil.ptr = .nil from rfl), St.bind_ok em]
        exact e
      have uu : Upd (fun _ _ => False) h h' := by
        refine (Upd.trans (W := fun a _ => a = h.length) (u.mono fun _ _ _ hf => hf.elim) (v.mono ?_)).mono ?_
        · rintro a k - ⟨off, ep, -, -⟩
          injection ep with ep _; exact ep.symm
        · intro a k ha hh; omega
      have hd' : denote h' r = denote h r := by
        unfold denote; rw [uu.contents hv fun _ _ _ hf => hf]
      simp only [call, et, Ring.step, hts]
      refine ⟨?_, uu.valid hv, Or.inl ⟨rfl, uu.mono fun _ _ _ hf => hf.elim⟩⟩
      rw [hd', p, if_neg (by intro hh; cases hh), hc', hden]

/-! ## Histories: calls on the ring, and what the rest of the program does in between -/

/-- The array a slice lies in. -/
def arrOf (s : Slice.Slice) : List Nat :=
  match s.ptr with
  | .arr a _ => [a]
  | _ => []

/-- What happened since memory was `h₀` and the ring `r₀`: calls on the ring with their results, and
changes of memory by the rest of the program, which may write the cells `May r mine`. `mine` lists the
arrays the ring has allocated for itself (their addresses are never given out, `AtRef` apart). -/
inductive Hist (May : HRing → List Nat → Nat → Nat → Prop) (h₀ : Heap T) (r₀ : HRing) (mine₀ : List Nat) :
    List (Ring.Op T) → List (Ring.Out T) → Heap T → HRing → List Nat → Prop
  | start : Hist May h₀ r₀ mine₀ [] [] h₀ r₀ mine₀
  | call {os outs h r mine} (o : Ring.Op T) : Hist May h₀ r₀ mine₀ os outs h r mine → r.buf.len < 2 ^ 61 →
      Hist May h₀ r₀ mine₀ (os ++ [o]) (outs ++ [(call r h o).1.2]) (call r h o).2 (call r h o).1.1
        (if (call r h o).1.1.buf = r.buf then mine else arrOf (call r h o).1.1.buf ++ mine)
  | other {os outs h r mine h'} : Hist May h₀ r₀ mine₀ os outs h r mine → Upd (May r mine) h h' →
      Hist May h₀ r₀ mine₀ os outs h' r mine

/-- The rest of the program writes anything but the ring's own arrays. -/
def NotMine (_ : HRing) (mine : List Nat) (a _ : Nat) : Prop := a ∉ mine

/-- The rest of the program writes anything but the ring's own arrays and its present buffer. -/
def NotBuffer (r : HRing) (mine : List Nat) (a k : Nat) : Prop := a ∉ mine ∧ ¬ Cells r.buf r.buf.len a k

theorem specRun_snoc (l : List T) (os : List (Ring.Op T)) (o : Ring.Op T) :
    Ring.specRun l (os ++ [o]) =
      ((Ring.specStep (Ring.specRun l os).1 o).1, (Ring.specRun l os).2 ++ [(Ring.specStep (Ring.specRun l os).1 o).2]) := by
  induction os generalizing l with
  | nil => rfl
  | cons p os ih => simp only [List.cons_append, Ring.specRun, ih]

/-- Where the buffer is: as at the start, or in an array of the ring's own that did not exist then. -/
theorem hist_where {May : HRing → List Nat → Nat → Nat → Prop} {h₀ h : Heap T} {r₀ r : HRing}
    {mine₀ mine : List Nat} {os : List (Ring.Op T)} {outs : List (Ring.Out T)}
    (H : Hist May h₀ r₀ mine₀ os outs h r mine) (hv : Valid h₀ r₀.buf) (hw : Ring.WF (denote h₀ r₀))
    (hMay : ∀ r mine a k, (r.buf = r₀.buf ∧ mine = mine₀ ∨ ∃ a, r.buf.ptr = .arr a 0 ∧ a ∈ mine) →
      May r mine a k → ¬ Cells r.buf r.buf.len a k) :
    Valid h r.buf ∧ Ring.WF (denote h r) ∧ h₀.length ≤ h.length ∧
    (r.buf = r₀.buf ∧ mine = mine₀ ∨ ∃ a, r.buf.ptr = .arr a 0 ∧ a ∈ mine ∧ h₀.length ≤ a) ∧
    (∃ more, mine = more ++ mine₀ ∧ ∀ a ∈ more, h₀.length ≤ a) ∧
    Ring.specRun (Ring.contents (denote h₀ r₀)) os = (Ring.contents (denote h r), outs) := by
  induction H with
  | start => exact ⟨hv, hw, Nat.le_refl _, Or.inl ⟨rfl, rfl⟩, ⟨[], rfl, by simp⟩, rfl⟩
  | @call os outs h r mine o H hb ih =>
    obtain ⟨hv, hw, hle, hp, ⟨more, rfl, hmore⟩, hs⟩ := ih
    obtain ⟨e, hv', hf⟩ := call_sim hv hw hb o
    obtain ⟨w, e'⟩ := Ring.step_refines hw o
    rw [e] at w e'
    have hlen : h.length ≤ (call r h o).2.length := by
      rcases hf with ⟨-, u⟩ | ⟨-, -, u⟩ <;> exact u.length_le
    refine ⟨hv', w, Nat.le_trans hle hlen, ?_, ?_, ?_⟩
    · by_cases hc : (call r h o).1.1.buf = r.buf
      · rw [if_pos hc, hc]; exact hp
      · rw [if_neg hc]
        rcases hf with ⟨hc', -⟩ | ⟨hc', -, -⟩
        · exact absurd hc' hc
        · exact Or.inr ⟨h.length, hc', by simp [arrOf, hc'], hle⟩
    · by_cases hc : (call r h o).1.1.buf = r.buf
      · rw [if_pos hc]; exact ⟨more, rfl, hmore⟩
      · rw [if_neg hc]
        rcases hf with ⟨hc', -⟩ | ⟨hc', -, -⟩
        · exact absurd hc' hc
        · refine ⟨h.length :: more, by simp [arrOf, hc'], ?_⟩
          intro a ha
          rcases List.mem_cons.1 ha with rfl | ha
          · exact hle
          · exact hmore a ha
    · rw [specRun_snoc, hs, e']
  | @other os outs h r mine h' H u ih =>
    obtain ⟨hv, hw, hle, hp, hm, hs⟩ := ih
    have hk : Slice.contents h' r.buf = Slice.contents h r.buf := by
      refine u.contents hv fun a k hc hmay => hMay r mine a k ?_ hmay hc
      rcases hp with hp | ⟨a, h1, h2, -⟩
      · exact Or.inl hp
      · exact Or.inr ⟨a, h1, h2⟩
    have hd : denote h' r = denote h r := by unfold denote; rw [hk]
    exact ⟨u.valid hv, by rw [hd]; exact hw, Nat.le_trans hle u.length_le, hp, hm, by rw [hd]; exact hs⟩

/-! ## Rings with storage of their own -/

/-- The ways to get a ring with its own storage, in memory `h`: the ring, memory afterwards, and the list
it starts as. -/
inductive MadeOwn (h : Heap T) : HRing → Heap T → List T → Prop
  | new : MadeOwn h new h []
  | newLen (n : Nat) (r : HRing) (h' : Heap T) : (n : Int) < 9223372036854775808 →
      newLen n h = (.ok r, h') → MadeOwn h r h' (List.replicate n default)
  | newLenCap (n c : Nat) (r : HRing) (h' : Heap T) : (c : Int) < 9223372036854775808 →
      newLenCap n c h = (.ok r, h') → MadeOwn h r h' (List.replicate n default)
  | copy (extra : Nat) (s : Slice.Slice) (r : HRing) (h' : Heap T) : Valid h s →
      ((s.len + extra : Nat) : Int) < 9223372036854775808 →
      copy extra s h = (.ok r, h') → MadeOwn h r h' (Slice.contents h s)

theorem madeOwn_spec {h h' : Heap T} {r : HRing} {l : List T} (m : MadeOwn h r h' l) :
    Valid h' r.buf ∧ Ring.WF (denote h' r) ∧ Ring.contents (denote h' r) = l ∧ Upd (fun _ _ => False) h h' ∧
    (r.buf.ptr = .arr h.length 0 ∨ arrOf r.buf = []) := by
  have ofs : ∀ {g : Heap T} {s : Slice.Slice}, Valid g s →
      Ring.WF (denote g (ofSlice s)) ∧ Ring.contents (denote g (ofSlice s)) = Slice.contents g s := by
    intro g s hv
    have := Slice.length_contents hv
    simp only [denote, ofSlice, Ring.WF, Ring.contents, List.drop_zero, List.take_zero, List.append_nil, this]
    refine ⟨⟨Nat.le_refl _, Or.inr trivial⟩, ?_⟩
    rw [List.take_of_length_le]; omega
  have hnil : Valid h Slice.Slice.nil := ⟨by simp [Slice.Slice.nil], by simp [Slice.Slice.nil], by simp [Slice.Slice.nil]⟩
  cases m with
  | new =>
    obtain ⟨w, c⟩ := ofs hnil
    exact ⟨hnil, w, c, Upd.refl _ _, Or.inr rfl⟩
  | newLen n _ _ hn e =>
    unfold newLen at e
    by_cases h0 : n = 0
    · subst h0
      have q : makeSlice (T := T) ((0 : Nat) : Int) h = (.ok ⟨.zero, 0, 0⟩, h) := rfl
      rw [St.bind_ok q] at e
      cases e
      have hz : Valid h (⟨.zero, 0, 0⟩ : Slice.Slice) := ⟨Nat.le_refl _, by decide, rfl⟩
      obtain ⟨w, c⟩ := ofs hz
      exact ⟨hz, w, c, Upd.refl _ _, Or.inr rfl⟩
    · have q : makeSlice (T := T) (n : Int) h = (.ok ⟨.arr h.length 0, n, n⟩, h ++ [List.replicate n default]) := by
        unfold makeSlice
        rw [if_neg (by omega), if_neg (by omega), Int.toNat_natCast]
      rw [St.bind_ok q] at e
      cases e
      have hz : Valid (h ++ [List.replicate n default]) (⟨.arr h.length 0, n, n⟩ : Slice.Slice) :=
        ⟨Nat.le_refl _, hn, List.replicate n default, by simp, by simp⟩
      obtain ⟨w, c⟩ := ofs hz
      refine ⟨hz, w, ?_, Slice.alloc_upd _ _, Or.inl rfl⟩
      rw [show (⟨⟨.arr h.length 0, n, n⟩, 0, n⟩ : HRing) = ofSlice ⟨.arr h.length 0, n, n⟩ from rfl, c]
      simp [Slice.contents]
  | newLenCap n k _ _ hn e =>
    unfold newLenCap at e
    by_cases hlt : k < n
    · have q : makeCap (T := T) n k h = (.error "makeslice: cap out of range", h) := by
        unfold makeCap; rw [if_pos hlt]
      rw [St.bind_error q] at e; cases e
    · by_cases h0 : k = 0
      · have hn0 : n = 0 := by omega
        subst h0; subst hn0
        have q : makeCap (T := T) 0 0 h = (.ok ⟨.zero, 0, 0⟩, h) := rfl
        rw [St.bind_ok q] at e
        cases e
        have hz : Valid h (⟨.zero, 0, 0⟩ : Slice.Slice) := ⟨Nat.le_refl _, by decide, rfl⟩
        obtain ⟨w, c⟩ := ofs hz
        exact ⟨hz, w, c, Upd.refl _ _, Or.inr rfl⟩
      · have q : makeCap (T := T) n k h = (.ok ⟨.arr h.length 0, n, k⟩, h ++ [List.replicate k default]) := by
          unfold makeCap; rw [if_neg hlt, if_neg h0]
        rw [St.bind_ok q] at e
        cases e
        have hz : Valid (h ++ [List.replicate k default]) (⟨.arr h.length 0, n, k⟩ : Slice.Slice) :=
          ⟨by dsimp only; omega, hn, List.replicate k default, by simp, by simp⟩
        obtain ⟨w, c⟩ := ofs hz
        refine ⟨hz, w, ?_, Slice.alloc_upd _ _, Or.inl rfl⟩
        rw [show (⟨⟨.arr h.length 0, n, k⟩, 0, n⟩ : HRing) = ofSlice ⟨.arr h.length 0, n, k⟩ from rfl, c]
        simp [Slice.contents]
        omega
  | copy extra s _ _ hv hb e =>
    unfold copy at e
    by_cases h0 : s.len = 0
    · rw [if_pos h0] at e
      cases e
      obtain ⟨w, c⟩ := ofs hnil
      have : Slice.contents h s = [] := List.eq_nil_of_length_eq_zero (by rw [Slice.length_contents hv, h0])
      rw [this]
      exact ⟨hnil, w, c, Upd.refl _ _, Or.inr rfl⟩
    · rw [if_neg h0] at e
      have hL := Slice.length_contents hv
      obtain ⟨s', g, ea, hvs, hl, hc, -, hout⟩ := Slice.appendMany_spec extra hnil (Slice.contents h s)
        (by rw [hL]; simpa [Slice.Slice.nil] using hb)
      obtain ⟨hp, u⟩ := hout (by rw [hL]; simp [Slice.Slice.nil]; omega)
      have q : readAll s h = (.ok (Slice.contents h s), h) := rfl
      rw [St.bind_ok q, St.bind_ok ea] at e
      cases e
      obtain ⟨w, c⟩ := ofs hvs
      refine ⟨hvs, w, ?_, u, Or.inl hp⟩
      rw [c, hc]; rfl

/-- **C103**, rings with storage of their own (`New`, `NewLen`, `NewLenCap`, `Copy`): whatever the rest of
the program writes between the calls, short of the arrays the ring has allocated, every call returns what a
double-ended queue returns; and making the ring and calling it never changes any memory but those arrays,
none of which existed before. -/
theorem C103_own {h h₀ h' : Heap T} {r₀ r : HRing} {l : List T} (m : MadeOwn h r₀ h₀ l)
    {os : List (Ring.Op T)} {outs : List (Ring.Out T)} {mine : List Nat}
    (H : Hist NotMine h₀ r₀ (arrOf r₀.buf) os outs h' r mine) :
    outs = (Ring.specRun l os).2 ∧ Upd (fun _ _ => False) h h₀ ∧ (∀ a ∈ mine, h.length ≤ a) ∧
    ∀ o, r.buf.len < 2 ^ 61 → Upd (fun a _ => a ∈ mine) h' (call r h' o).2 := by
  obtain ⟨hv, hw, hc, hu, hp⟩ := madeOwn_spec m
  have hcell : ∀ a k, Cells r₀.buf r₀.buf.len a k → a ∈ arrOf r₀.buf := by
    rintro a k ⟨off, ep, -, -⟩; simp [arrOf, ep]
  obtain ⟨hv', hw', -, hp', ⟨more, hm, hmore⟩, hs⟩ := hist_where H hv hw (by
    rintro r mine a k hcase hmay hcells
    rcases hcase with ⟨hb, rfl⟩ | ⟨b, hb, hmem⟩
    · rw [hb] at hcells; exact hmay (hcell a k hcells)
    · obtain ⟨off, ep, -, -⟩ := hcells
      rw [hb] at ep; injection ep with ep _; subst ep
      exact hmay hmem)
  rw [hc] at hs
  refine ⟨by rw [hs], hu, ?_, ?_⟩
  · intro a ha
    rw [hm] at ha
    rcases List.mem_append.1 ha with ha | ha
    · exact Nat.le_trans hu.length_le (hmore a ha)
    · rcases hp with hp | hp
      · simp only [arrOf, hp, List.mem_singleton] at ha; omega
      · rw [hp] at ha; cases ha
  · intro o hb
    obtain ⟨-, -, hf⟩ := call_sim hv' hw' hb o
    rcases hf with ⟨-, u⟩ | ⟨-, -, u⟩
    · refine u.mono ?_
      rintro a k - hcells
      rcases hp' with ⟨hb', rfl⟩ | ⟨b, hb', hmem, -⟩
      · rw [hb'] at hcells; exact hcell a k hcells
      · obtain ⟨off, ep, -, -⟩ := hcells
        rw [hb'] at ep; injection ep with ep _; subst ep
        exact hmem
    · exact u.mono fun _ _ _ hf => hf.elim

theorem Hist.call' {May : HRing → List Nat → Nat → Nat → Prop} {h₀ h h' : Heap T} {r₀ r r' : HRing}
    {mine₀ mine : List Nat} {os : List (Ring.Op T)} {outs : List (Ring.Out T)} {out : Ring.Out T}
    (H : Hist May h₀ r₀ mine₀ os outs h r mine) (hb : r.buf.len < 2 ^ 61) (o : Ring.Op T)
    (e : RingMem.call r h o = ((r', out), h')) :
    Hist May h₀ r₀ mine₀ (os ++ [o]) (outs ++ [out]) h' r'
      (if r'.buf = r.buf then mine else arrOf r'.buf ++ mine) := by
  have := Hist.call o H hb
  rw [e] at this
  exact this

/-- A concrete case: a ring copied from `[1, 2]`, with a write to the source slice in between. -/
example : MadeOwn ([[1, 2]] : Heap Nat) ⟨⟨.arr 1 0, 2, 2⟩, 0, 2⟩ [[1, 2], [1, 2]] [1, 2] ∧
    Hist NotMine ([[1, 2], [1, 2]] : Heap Nat) ⟨⟨.arr 1 0, 2, 2⟩, 0, 2⟩ [1] [.append 3, .pop] [.unit, .val 1]
      [[7, 7], [1, 2], [0, 2, 3, 0]] ⟨⟨.arr 2 0, 4, 4⟩, 1, 2⟩ [2, 1] := by
  refine ⟨.copy 0 ⟨.arr 0 0, 2, 2⟩ _ _ ⟨by decide, by decide, [1, 2], rfl, by decide⟩ (by decide) (by decide +kernel), ?_⟩
  have h1 := Hist.call' (May := NotMine) (r' := ⟨⟨.arr 2 0, 4, 4⟩, 0, 3⟩) (out := .unit)
    (h' := [[1, 2], [1, 2], [1, 2, 3, 0]])
    (.start (h₀ := ([[1, 2], [1, 2]] : Heap Nat)) (r₀ := ⟨⟨.arr 1 0, 2, 2⟩, 0, 2⟩) (mine₀ := [1])) (by decide)
    (.append 3) (by decide +kernel)
  have h2 := h1.other (h' := [[7, 7], [1, 2], [1, 2, 3, 0]]) (by
    intro a A hA
    match a, hA with
    | 0, hA => cases hA; exact ⟨[7, 7], rfl, rfl, fun k hk => absurd (by unfold NotMine; decide) hk⟩
    | 1, hA => cases hA; exact ⟨_, rfl, rfl, fun _ _ => rfl⟩
    | 2, hA => cases hA; exact ⟨_, rfl, rfl, fun _ _ => rfl⟩
    | n + 3, hA => cases hA)
  exact h2.call' (by decide) .pop (r' := ⟨⟨.arr 2 0, 4, 4⟩, 1, 2⟩) (out := .val 1)
    (h' := [[7, 7], [1, 2], [0, 2, 3, 0]]) (by decide +kernel)

/-! ## Rings over the caller's slice -/

/-- **C103**, `OfSlice` (and `Of` with `...`): the ring works in the caller's slice until its capacity
first changes, and never touches it afterwards. As long as the rest of the program leaves the ring's present
buffer and the ring's own arrays alone, every call returns what a double-ended queue returns. A call changes
memory only within the caller's slice while `r.buf` is that slice, and only in arrays of the ring's own once
it is not; and it is the caller's slice exactly as long as the ring has allocated nothing. -/
theorem C103_shared {h₀ h : Heap T} {s : Slice.Slice} (hv : Valid h₀ s) {r : HRing}
    {os : List (Ring.Op T)} {outs : List (Ring.Out T)} {mine : List Nat}
    (H : Hist NotBuffer h₀ (ofSlice s) [] os outs h r mine) :
    outs = (Ring.specRun (Slice.contents h₀ s) os).2 ∧ (∀ a ∈ mine, h₀.length ≤ a) ∧ (mine = [] ↔ r.buf = s) ∧
    ∀ o, r.buf.len < 2 ^ 61 →
      (r.buf = s → Upd (Cells s s.len) h (call r h o).2) ∧
      (r.buf ≠ s → Upd (fun a _ => a ∈ mine) h (call r h o).2 ∧ (call r h o).1.1.buf ≠ s) ∧
      ((call r h o).1.1.buf ≠ r.buf → (call r h o).1.1.buf.len ≠ r.buf.len ∧
        Upd (fun _ _ => False) h (call r h o).2) := by
  have hL := Slice.length_contents hv
  have hw : Ring.WF (denote h₀ (ofSlice s)) := by
    simp only [denote, ofSlice, Ring.WF, hL]; exact ⟨Nat.le_refl _, Or.inr trivial⟩
  have hc : Ring.contents (denote h₀ (ofSlice s)) = Slice.contents h₀ s := by
    simp only [denote, ofSlice, Ring.contents, List.drop_zero, List.take_zero, List.append_nil]
    rw [List.take_of_length_le]; omega
  obtain ⟨hv', hw', hle, hp', ⟨more, hm, hmore⟩, hs⟩ := hist_where H hv hw (fun r mine a k _ hmay => hmay.2)
  rw [hc] at hs
  rw [List.append_nil] at hm
  subst hm
  have hold : ∀ a off, s.ptr = .arr a off → a < h₀.length := by
    intro a off ep
    obtain ⟨-, -, h3⟩ := hv
    rw [ep] at h3
    obtain ⟨A, hA, -⟩ := h3
    exact (List.getElem?_eq_some_iff.1 hA).1
  have hiff : mine = [] ↔ r.buf = s := by
    rcases hp' with ⟨hb, hm⟩ | ⟨b, hb, hmem, hge⟩
    · exact ⟨fun _ => hb, fun _ => hm⟩
    · constructor
      · intro hm; rw [hm] at hmem; cases hmem
      · intro hs'
        rw [hs'] at hb
        have := hold b 0 hb; omega
  refine ⟨by rw [hs], hmore, hiff, ?_⟩
  intro o hb
  obtain ⟨-, -, hf⟩ := call_sim hv' hw' hb o
  refine ⟨?_, ?_, ?_⟩
  · intro hbs
    rcases hf with ⟨-, u⟩ | ⟨-, -, u⟩
    · rw [hbs] at u; exact u
    · exact u.mono fun _ _ _ hf => hf.elim
  · intro hbs
    rcases hp' with ⟨hb', -⟩ | ⟨b, hb', hmem, -⟩
    · exact absurd hb' hbs
    · rcases hf with ⟨he, u⟩ | ⟨he, -, u⟩
      · refine ⟨u.mono ?_, by rw [he]; exact hbs⟩
        rintro a k - ⟨off, ep, -, -⟩
        rw [hb'] at ep; injection ep with ep _; subst ep
        exact hmem
      · refine ⟨u.mono fun _ _ _ hf => hf.elim, fun hh => ?_⟩
        rw [hh] at he
        have := hold _ _ he
        omega
  · intro hne
    rcases hf with ⟨he, -⟩ | ⟨-, hl, u⟩
    · exact absurd he hne
    · exact ⟨hl, u⟩

/-- The ring does work in the caller's slice: a deletion overwrites the caller's element with the zero
value, and after growth writes go elsewhere. -/
example :
    let r₀ := ofSlice ⟨.arr 0 0, 2, 2⟩
    let c₁ := call r₀ ([[1, 2]] : Heap Nat) .deleteFirst
    let c₂ := call c₁.1.1 c₁.2 (.append 5)
    let c₃ := call c₂.1.1 c₂.2 (.append 6)
    let c₄ := call c₃.1.1 c₃.2 (.set 0 9)
    (c₁.2, c₂.2, c₃.2, c₄.2) =
      ([[0, 2]], [[5, 2]], [[5, 2], [2, 5, 6, 0]], [[5, 2], [9, 5, 6, 0]]) := by decide +kernel

/-! ## Pointers to elements -/

/-- ds/xring/ring.go:170-179 `AtRef`: the array and the cell the returned pointer refers to. -/
def atRef (r : HRing) (i : Int) : Go (Nat × Nat) := do
  let j ← atIdx r i
  match r.buf.ptr with
  | .arr a off => .ok (a, off + j.toNat)
  | _ => .error "index out of range"

/-- `*p = v`. -/
def write (p : Nat × Nat) (v : T) (h : Heap T) : Heap T := h.modify p.1 fun A => A.set p.2 v

/-- Writing slot `j` of the buffer is writing the element at the position that slot holds, if any. -/
theorem write_slot {r : Ring.Ring T} (hw : Ring.WF r) {j : Nat} (hj : j < r.buf.length) (v : T) :
    let p := if r.st ≤ j then j - r.st else j + r.buf.length - r.st
    Ring.contents ⟨r.buf.set j v, r.st, r.len⟩ =
      if p < r.len then (Ring.contents r).set p v else Ring.contents r := by
  intro p
  have w' : Ring.WF (⟨r.buf.set j v, r.st, r.len⟩ : Ring.Ring T) := ⟨by simpa using hw.1, by simpa using hw.2⟩
  have hcl := Ring.contents_length hw
  apply Ring.contents_eq_of w'
  · dsimp only; split
    · rw [List.length_set, hcl]
    · exact hcl
  · intro k hk
    dsimp only at hk
    obtain ⟨w1, w2⟩ := hw
    simp only [List.length_set]
    have hidx : Ring.wrapIdx r.buf.length (r.st + k) = j ↔ k = p := by
      subst p; unfold Ring.wrapIdx; split <;> split <;> omega
    by_cases hkp : k = p
    · have hpl : p < r.len := hkp ▸ hk
      rw [if_pos hpl, hidx.2 hkp, List.getElem?_set_self hj, hkp, List.getElem?_set_self (by omega)]
    · rw [List.getElem?_set_ne (fun hh => hkp (hidx.1 hh.symm))]
      split
      · rw [List.getElem?_set_ne (fun hh => hkp hh.symm), Ring.contents_getElem? ⟨w1, w2⟩, if_pos hk]
      · rw [Ring.contents_getElem? ⟨w1, w2⟩, if_pos hk]

/-- **C103**, `AtRef`: as long as the capacity has not changed, the pointer refers to its slot of the
buffer, so that writing through it sets the element that slot holds by then (`i` less the number of elements
deleted in front, plus the number put there) or nothing, if the slot is free; once the capacity has changed,
writing through it no longer affects the ring. -/
theorem C103_atRef {h₀ h : Heap T} {r₀ r : HRing} (hv : Valid h₀ r₀.buf) (hw : Ring.WF (denote h₀ r₀))
    {mine₀ mine : List Nat} {i : Int} {a k : Nat} (hr : atRef r₀ i = .ok (a, k))
    {os : List (Ring.Op T)} {outs : List (Ring.Out T)} (H : Hist NotBuffer h₀ r₀ mine₀ os outs h r mine) (v : T) :
    (r.buf = r₀.buf →
      let j := (r₀.st + i.toNat) % r₀.buf.len
      let p := (j + r₀.buf.len - r.st) % r₀.buf.len
      Ring.contents (denote (write (a, k) v h) r) =
        if p < r.len then (Ring.contents (denote h r)).set p v else Ring.contents (denote h r)) ∧
    (r.buf ≠ r₀.buf → Ring.contents (denote (write (a, k) v h) r) = Ring.contents (denote h r)) := by
  obtain ⟨hv', hw', hle, hp', -, -⟩ := hist_where H hv hw (fun r mine a k _ hmay => hmay.2)
  have hL₀ := Slice.length_contents hv
  have hL := Slice.length_contents hv'
  -- the slot
  have hi : 0 ≤ i ∧ i < r₀.len := by
    unfold atRef atIdx at hr
    split at hr
    · cases hr
    · omega
  obtain ⟨j, hj, hjl, hjw⟩ := Ring.atRef_eq hw hi.1 hi.2
  rw [← atIdx_eq hv] at hj
  have hjl' : j < r₀.buf.len := by rw [← hL₀]; exact hjl
  have hjw' : j = (r₀.st + i.toNat) % r₀.buf.len := by
    have hww := hw
    obtain ⟨w1, w2⟩ := hww
    simp only [denote, hL₀] at w1 w2 hjw
    rw [hjw]; unfold Ring.wrapIdx
    split
    · rw [Nat.mod_eq_sub_mod (by omega), Nat.mod_eq_of_lt (by omega)]
    · rw [Nat.mod_eq_of_lt (by omega)]
  obtain ⟨off, ep, ek⟩ : ∃ off, r₀.buf.ptr = .arr a off ∧ k = off + j := by
    unfold atRef at hr
    rw [hj] at hr
    simp only [bind, Except.bind] at hr
    split at hr
    · rename_i b off heq
      simp only [Except.ok.injEq, Prod.mk.injEq, Int.toNat_natCast] at hr
      obtain ⟨rfl, rfl⟩ := hr
      exact ⟨off, heq, rfl⟩
    · cases hr
  constructor
  · intro hb
    dsimp only
    rw [← hjw']
    have hw2 := hw'.2
    have hbl : r.buf.len = r₀.buf.len := by rw [hb]
    have hdb : (denote h r).buf.length = r₀.buf.len := by rw [← hbl]; exact hL
    rw [hdb] at hw2
    have hd : denote (write (a, k) v h) r = ⟨(denote h r).buf.set j v, r.st, r.len⟩ := by
      unfold denote
      congr 1
      have hcap := hv'.1
      obtain ⟨-, -, h3⟩ := hv'
      rw [hb, ep] at h3
      obtain ⟨A, hA, hal⟩ := h3
      rw [← hb] at hal
      simp only [Slice.contents, hb, ep, write, List.getElem?_modify, hA, if_true, Option.map_eq_map, Option.map_some,
        Option.getD_some, ek]
      rw [List.drop_set, if_neg (by omega), List.take_set, Nat.add_sub_cancel_left]
    rw [hd]
    refine (write_slot hw' (by rw [hdb]; exact hjl') v).trans ?_
    have hst : (denote h r).st = r.st := rfl
    have hln : (denote h r).len = r.len := rfl
    simp only [hst, hln, hdb]
    have hpe : (if r.st ≤ j then j - r.st else j + r₀.buf.len - r.st) = (j + r₀.buf.len - r.st) % r₀.buf.len := by
      rw [hst] at hw2
      split
      · rw [show j + r₀.buf.len - r.st = (j - r.st) + r₀.buf.len by omega, Nat.add_mod_right, Nat.mod_eq_of_lt (by omega)]
      · rw [Nat.mod_eq_of_lt (by omega)]
    rw [hpe]
  · intro hb
    rcases hp' with ⟨hb', -⟩ | ⟨b, hb', -, hge⟩
    · exact absurd hb' hb
    · have hne : a ≠ b := by
        rintro rfl
        obtain ⟨-, -, h3⟩ := hv
        rw [ep] at h3
        obtain ⟨A, hA, -⟩ := h3
        have := (List.getElem?_eq_some_iff.1 hA).1
        omega
      have : denote (write (a, k) v h) r = denote h r := by
        unfold denote
        congr 1
        simp only [Slice.contents, hb', write, List.getElem?_modify, hne, if_false]
        cases h[b]? <;> rfl
      rw [this]

/-- A pointer to the first of `[1, 2, 3]`: after `DeleteFirst` its slot is free, after a further `Append`
it is the last element; after growth it is the ring's no more. -/
example :
    let r₀ := ofSlice ⟨.arr 0 0, 3, 3⟩
    let c₁ := call r₀ ([[1, 2, 3]] : Heap Nat) .deleteFirst
    let c₂ := call c₁.1.1 c₁.2 (.append 5)
    let c₃ := call c₂.1.1 c₂.2 (.append 6)
    (atRef r₀ 0).toOption = some (0, 0) ∧
    (Ring.contents (denote (write (0, 0) 7 c₁.2) c₁.1.1), Ring.contents (denote (write (0, 0) 7 c₂.2) c₂.1.1),
      Ring.contents (denote (write (0, 0) 7 c₃.2) c₃.1.1)) = ([2, 3], [2, 3, 7], [2, 3, 5, 6]) := by decide +kernel

/-! ## The slice `ToSlice` returns -/

/-- **C103**, `ToSlice(s)`: the elements first to last, where `s` shares no memory with the ring. For nil the
result is a new array and no memory changes. Otherwise it lies in `s` and only as many cells of `s` as there
are elements change, if these fit into the capacity of `s`; if not, it is a new array, and nothing outside
the capacity of `s` changes. An empty ring gives nil and changes nothing. -/
theorem C103_toSlice (e₁ e₂ : Nat) {h : Heap T} {r : HRing} {s : Slice.Slice} (hv : Valid h r.buf)
    (hw : Ring.WF (denote h r)) (hs : Valid h s)
    (hd : ∀ a k, Cells s s.cap a k → ¬ Cells r.buf r.buf.len a k)
    (h1 : ((r.len + e₁ : Nat) : Int) < 9223372036854775808)
    (h2 : ((r.len + e₂ : Nat) : Int) < 9223372036854775808) :
    ∃ s' h', toSlice e₁ e₂ r s h = (.ok s', h') ∧ Valid h' s' ∧
      Slice.contents h' s' = Ring.contents (denote h r) ∧ Ring.contents (denote h' r) = Ring.contents (denote h r) ∧
      (r.len = 0 → s' = Slice.Slice.nil ∧ h' = h) ∧
      (r.len ≠ 0 → s.ptr = .nil → s'.ptr = .arr h.length 0 ∧ s'.cap = r.len ∧ Upd (fun _ _ => False) h h') ∧
      (r.len ≠ 0 → s.ptr ≠ .nil → r.len ≤ s.cap → s'.ptr = s.ptr ∧ s'.cap = s.cap ∧ Upd (Cells s r.len) h h') ∧
      (s.ptr ≠ .nil → s.cap < r.len → (∃ a, h.length ≤ a ∧ s'.ptr = .arr a 0) ∧ Upd (Cells s s.cap) h h') := by
  have keep : ∀ {W : Nat → Nat → Prop} {h' : Heap T}, Upd W h h' →
      (∀ a k, W a k → ¬ Cells r.buf r.buf.len a k) → denote h' r = denote h r := by
    intro W h' u hW
    unfold denote
    rw [u.contents hv fun a k hc hw => hW a k hw hc]
  by_cases h0 : r.len = 0
  · have et : toSlice e₁ e₂ r s h = (.ok Slice.Slice.nil, h) := by unfold toSlice; rw [if_pos h0]; rfl
    refine ⟨_, _, et, ⟨by simp [Slice.Slice.nil], by simp [Slice.Slice.nil], by simp [Slice.Slice.nil]⟩, ?_, rfl,
      fun _ => ⟨rfl, rfl⟩, fun hh => absurd h0 hh, fun hh => absurd h0 hh, fun _ hh => by omega⟩
    rw [(Ring.contents_nil_iff hw).2 h0]; rfl
  · by_cases hp : s.ptr = .nil
    · have em : makeCap (T := T) 0 r.len h =
          (.ok ⟨.arr h.length 0, 0, r.len⟩, h ++ [List.replicate r.len default]) := by
        unfold makeCap; rw [if_neg (by omega), if_neg h0]
      have u := Slice.alloc_upd h (List.replicate r.len (default : T))
      generalize hg : h ++ [List.replicate r.len (default : T)] = g at em u
      have hgn : g[h.length]? = some (List.replicate r.len default) := by subst hg; simp
      have hvn : Valid g (⟨.arr h.length 0, 0, r.len⟩ : Slice.Slice) :=
        ⟨Nat.zero_le _, by dsimp only; omega, _, hgn, by simp⟩
      have hden : denote g r = denote h r := keep u fun _ _ hf => hf.elim
      have hnotin : ∀ k, ¬ Cells r.buf r.buf.len h.length k := by
        rintro k ⟨off, ep, -, -⟩
        obtain ⟨-, -, h3⟩ := hv
        rw [ep] at h3
        obtain ⟨A, hA, -⟩ := h3
        have := (List.getElem?_eq_some_iff.1 hA).1
        omega
      obtain ⟨s', h', e, hv', hl', hc', hin, -⟩ := copyOut_spec e₁ e₂ (h := g) (r := r) (u.valid hv)
        (by rw [hden]; exact hw) hvn rfl
        (by
          rintro a k ⟨off, ep, -, -⟩
          injection ep with ep _
          rw [← ep]; exact hnotin k)
        h1 h2
      obtain ⟨p, c, v⟩ := hin (Nat.le_refl _)
      have et : toSlice e₁ e₂ r s h = (.ok s', h') := by
        unfold toSlice
        rw [if_neg h0, if_pos hp, St.bind_ok em]
        exact e
      have uu : Upd (fun _ _ => False) h h' := by
        refine (Upd.trans (W := fun a _ => a = h.length) (u.mono fun _ _ _ hf => hf.elim) (v.mono ?_)).mono ?_
        · rintro a k - ⟨off, ep, -, -⟩
          injection ep with ep _; exact ep.symm
        · intro a k ha hh; omega
      refine ⟨s', h', et, hv', by rw [hc', hden], ?_, fun hh => absurd hh h0, fun _ _ => ⟨p, c, uu⟩,
        fun _ hh => absurd hp hh, fun hh => absurd hp hh⟩
      rw [keep uu fun _ _ hf => hf.elim]
    · obtain ⟨s₀, er, hvs, hls, hcs, hps, -, -⟩ := Slice.reslice_spec hs (i := 0) (j := 0) (Nat.le_refl _) (Nat.zero_le _)
      have hps := hps rfl
      have hcs : s₀.cap = s.cap := hcs
      have hcell : ∀ n a k, Cells s₀ n a k ↔ Cells s n a k := by
        intro n a k; unfold Cells; rw [hps]
      obtain ⟨s', h', e, hv', hl', hc', hin, hout⟩ := copyOut_spec e₁ e₂ (h := h) (r := r) hv hw hvs hls
        (by
          intro a k hc
          rw [hcs, hcell] at hc
          exact hd a k hc)
        h1 h2
      rw [hcs] at hin hout
      have et : toSlice e₁ e₂ r s h = (.ok s', h') := by
        unfold toSlice
        rw [if_neg h0, if_neg hp, St.bind_lift (show reslice s 0 0 = .ok s₀ from er)]
        exact e
      have hin' : r.len ≤ s.cap → s'.ptr = s.ptr ∧ s'.cap = s.cap ∧ Upd (Cells s r.len) h h' := by
        intro hle
        obtain ⟨p, c, v⟩ := hin hle
        exact ⟨p.trans hps, c, v.mono fun a k _ hk => (hcell _ a k).1 hk⟩
      have hout' : s.cap < r.len → (∃ a, h.length ≤ a ∧ s'.ptr = .arr a 0) ∧ Upd (Cells s s.cap) h h' := by
        intro hlt
        obtain ⟨p, v⟩ := hout hlt
        exact ⟨p, v.mono fun a k _ hk => (hcell _ a k).1 hk⟩
      have hk : denote h' r = denote h r := by
        by_cases hle : r.len ≤ s.cap
        · refine keep (hin' hle).2.2 ?_
          rintro a k ⟨off, ep, g1, g2⟩
          exact hd a k ⟨off, ep, g1, by omega⟩
        · exact keep (hout' (by omega)).2 hd
      exact ⟨s', h', et, hv', hc', by rw [hk], fun hh => absurd hh h0, fun _ hh => absurd hh hp,
        fun _ _ => hin', fun _ => hout'⟩

/-- A wrapped ring into a slice with room, and into one without. -/
example :
    let r : HRing := ⟨⟨.arr 0 0, 3, 3⟩, 2, 2⟩
    let h : Heap Nat := [[5, 0, 4], [7, 7, 7], [8, 8]]
    toSlice 0 0 r ⟨.arr 1 0, 1, 3⟩ h = (.ok ⟨.arr 1 0, 2, 3⟩, [[5, 0, 4], [4, 5, 7], [8, 8]]) ∧
    toSlice 0 0 r ⟨.arr 2 0, 1, 1⟩ h = (.ok ⟨.arr 3 0, 2, 2⟩, [[5, 0, 4], [7, 7, 7], [4, 8], [4, 5]]) := by
  decide +kernel

end Verif.RingMem
