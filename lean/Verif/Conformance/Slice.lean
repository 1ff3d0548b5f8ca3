import Verif.Conformance.Basic
import Verif.Slice.Views
import Verif.Ring.Inserters

/-! # ds/xslice/*_test.go and algo/*_test.go on the models -/

namespace Verif.Conformance.Slice

open Verif.Iter Verif.Slice Verif.Conformance

variable {T : Type} [Inhabited T]

/-- `xslice.Of(vs...)` (ds/xslice/slice.go:22-24): an array that nobody else has, nil without arguments. -/
def of (vs : List T) : St (Heap T) Slice := fun h =>
  if vs = [] then (.ok Slice.nil, h) else (.ok ⟨.arr h.length 0, vs.length, vs.length⟩, h ++ [vs])

/-- What `assert.Equal` sees of a slice: nil is not the same as empty. -/
def seen (s : Slice) : St (Heap T) (Option (List T)) := fun h =>
  (.ok (if s.ptr = .nil then none else some (contents h s)), h)

abbrev I := St (Heap Int)

/-- TestOf, TestSlice_Slice, TestSlice_Len, TestSlice_Zero (ds/xslice/slice_test.go:11-35, 70-73). -/
example : passes ([] : Heap Int) (do
    same none (← seen (← of []))
    same (some [1, 2, 3]) (← seen (← of [1, 2, 3]))
    same 0 (Views.len (← of ([] : List Int)))
    same 3 (Views.len (← of ([1, 2, 3] : List Int)))
    same none (← seen Slice.nil)
    same 0 (Views.len Slice.nil)) = true := by decide +kernel

example : passes ([] : Heap String) (do
    same (some ["hello", "world"]) (← seen (← of ["hello", "world"]))
    same none (← seen (← of []))
    same (some ["a"]) (← seen (← of ["a"]))) = true := by decide +kernel

/-- Appends the numbers `i`, …, `i+n-1`, looking at the slice each time; `extra` is how much more than needed `append`
allocates. -/
def appendLoop (extra : Nat → Nat) (i : Int) (x : List Int) (s : Slice) : Nat → I Slice
  | 0 => pure s
  | n + 1 => do
    let s ← appendMany (extra (s.len + 1)) s [i]
    same (some (x ++ [i])) (← seen s)
    appendLoop extra (i + 1) (x ++ [i]) s n

/-- TestSlice_AppendMany's loop. -/
def appendManyLoop (extra : Nat → Nat) (i : Int) (x : List Int) (s : Slice) : Nat → I Unit
  | 0 => pure ()
  | n + 1 => do
    let s ← appendMany (extra (s.len + 2)) s [i, i * 2]
    same (some (x ++ [i, i * 2])) (← seen s)
    appendManyLoop extra (i + 1) (x ++ [i, i * 2]) s n

/-- TestSlice_EraseEnd's second loop. -/
def eraseLoop (s : Slice) : Nat → I Unit
  | 0 => pure ()
  | n + 1 => do
    same ((n : Int) + 1) (← Views.last s)
    eraseLoop (← deleteLast s) n

/-- TestSlice_Append, TestSlice_AppendMany, TestSlice_EraseEnd (ds/xslice/slice_test.go:37-68), with `append` doubling the
capacity, and allocating exactly what is needed. -/
example : passes [] (do let _ ← appendLoop id 1 [] Slice.nil 99) = true := by decide +kernel
example : passes [] (do let _ ← appendLoop (fun _ => 0) 1 [] Slice.nil 99) = true := by decide +kernel
example : passes [] (appendManyLoop id 1 [] Slice.nil 99) = true := by decide +kernel
example : passes [] (do eraseLoop (← appendLoop id 1 [] Slice.nil 99) 99) = true := by decide +kernel

/-- TestSlice_Index, TestSlice_At, TestSlice_Front, TestSlice_Back (ds/xslice/slice_test.go:75-108). -/
example : passes ([] : Heap Int) (do
    let v ← of [1, 2, 3]
    same 1 (← Views.get v 0)
    same 2 (← Views.get v 1)
    same 3 (← Views.get v 2)
    panics (Views.get v (-1) : I Int)
    panics (Views.get v 3 : I Int)
    same 1 (← Views.first v)
    panics (Views.first Slice.nil : I Int)
    same 3 (← Views.last v)
    panics (Views.last Slice.nil : I Int)) = true := by decide +kernel

/-- TestSlice_Reversed (ds/xslice/slice_test.go:110-115). -/
example : passes ([] : Heap Int) (do
    same none (← seen (← reversed Slice.nil))
    same (some [1]) (← seen (← reversed (← of [1])))
    same (some [1, 2, 3]) (← seen (← reversed (← of [3, 2, 1])))
    same (some [1, 2, 3, 4]) (← seen (← reversed (← of [4, 3, 2, 1])))) = true := by decide +kernel

/-- TestSlice_Insert (ds/xslice/slice_test.go:117-144). -/
example : passes ([] : Heap Int) (do
    same (some [5]) (← seen (← insert 0 (← of []) 0 5))
    same (some [5, 1, 2, 3]) (← seen (← insert 0 (← of [1, 2, 3]) 0 5))
    same (some [1, 2, 3, 5]) (← seen (← insert 0 (← of [1, 2, 3]) 3 5))
    same (some [1, 2, 10, 3, 4, 5, 6]) (← seen (← insert 0 (← of [1, 2, 3, 4, 5, 6]) 2 10))
    panics (insert 0 (← of [1, 2, 3]) (-1) 10 : I Slice)
    panics (insert 0 (← of [1, 2, 3]) 4 10 : I Slice)) = true := by decide +kernel

/-- A variable `s` with these elements; `v` is another slice with the same ones. -/
def mem (vs : List Int) : Mem Int := ⟨[vs, vs], ⟨.arr 0 0, vs.length, vs.length⟩⟩

def var : St (Mem Int) Slice := fun m => (.ok m.var, m)
def list : St (Mem Int) (List Int) := fun m => (.ok (contents m.heap m.var), m)

/-- TestInsert (ds/xslice/slice_test.go:146-160). -/
example : passes (mem [1, 2]) (panicsWith "iterator does not belongs to this slice"
    (varInsert ⟨fun _ => 0⟩ (begin_ ⟨.arr 1 0, 2, 2⟩) 0)) = true := by decide +kernel

example : passes (mem [1, 2, 3]) (do
    let it ← varInsert ⟨fun _ => 0⟩ (← St.lift (add (begin_ (← var)) 1)) 4
    same 4 (← get (⟨it⟩ : VIter Int))
    check (← St.lift (equal it (← St.lift (add (begin_ (← var)) 1))))
    same [1, 4, 2, 3] (← list)) = true := by decide +kernel

/-- TestIterator (ds/xslice/iterator_test.go:11-37); `Ref` is compared by what is there, as `assert.Equal` does. -/
example : passes ([] : Heap Int) (do
    let s ← of [1, 2, 3]
    let it : SIter Int := begin_ s
    let e : SIter Int := end_ s
    same 1 (← get it)
    set it 5
    same 5 (← Views.get s 0)
    same (← Views.get s 1) (← get (← St.lift (next it)))
    check (← St.lift (equal it (begin_ s)))
    check (!(← St.lift (equal it e)))
    check (← St.lift (equal e (← St.lift (add it 3))))
    same (← Views.get s 2) (← get (← St.lift (prev e)))
    panics (get e)
    panics (St.lift (prev it) : I _)
    panics (St.lift (next e) : I _)
    panics (St.lift (add it (-1)) : I _)
    panics (St.lift (add e 1) : I _)
    same (← Views.get s 0) (← get (← St.lift (add it 0)))
    same (← Views.get s 2) (← get (← St.lift (add (← St.lift (add it 2)) 0)))) = true := by decide +kernel

example : passes ([] : Heap Int) (do
    let it : SIter Int := begin_ Slice.nil
    check (← St.lift (equal it (end_ Slice.nil)))
    panics (get it)) = true := by decide +kernel

end Verif.Conformance.Slice
