import Verif.Base

/-!
# Go maps, `xmap.Map` functions and `xmap.Set`

A Go map is the list of its entries; the order of the list means nothing, and a `range` loop visits the
entries in the order chosen by an arbitrary `Order`. `==` on the key type is a `BEq`: it need not be
reflexive (floats, interfaces and structs holding NaN).  Not modelled: keys of interface type whose
dynamic type is not comparable (map operations on them panic; but see Sharded/Unhashable.lean, ArrayMap/Panics.lean), and writing a map from two goroutines
(see the `Sharded` area).
-/

namespace Verif.GoMap

/-- The entries of a Go map. -/
abbrev Tab (K V : Type) := List (K × V)

section
variable {K V : Type} [BEq K]

/-- `v, ok := m[k]` (`none` for `ok == false`). -/
def Tab.get? (m : Tab K V) (k : K) : Option V := (m.find? (fun e => e.1 == k)).map (·.2)

/-- `m[k] = v`: overwrites the entry whose key `== k`, else adds one. (The runtime may or may not
overwrite the key itself; the two differ only for keys that are `==` but different, such as 0 and -0.) -/
def Tab.put (m : Tab K V) (k : K) (v : V) : Tab K V :=
  if m.any (fun e => e.1 == k) then m.map (fun e => if e.1 == k then (k, v) else e) else m ++ [(k, v)]

/-- `delete(m, k)`. -/
def Tab.del (m : Tab K V) (k : K) : Tab K V := m.filter (fun e => !(e.1 == k))

/-- No two entries of a map have `==` keys. -/
def Tab.WF (m : Tab K V) : Prop := m.Pairwise (fun a b => (a.1 == b.1) = false)

end

/-- The order in which a `range` loop visits a map: any rearrangement, possibly another one each time. -/
structure Order (K V : Type) where
  /-- the entries as visited -/
  visit : Tab K V → Tab K V
  /-- every entry is visited once -/
  perm : ∀ m, (visit m).Perm m

/-- Visit in the order of the list. -/
def Order.id {K V : Type} : Order K V := ⟨fun m => m, fun _ => List.Perm.refl _⟩
/-- Visit backwards. -/
def Order.backwards {K V : Type} : Order K V := ⟨List.reverse, fun _ => List.reverse_perm _⟩

/-- A variable of map type: `none` is the nil map. -/
abbrev MapVar (K V : Type) := Option (Tab K V)

section
variable {K V : Type} [BEq K]

/-- Indexing: a nil map has no entries. -/
def MapVar.get? (m : MapVar K V) (k : K) : Option V := (m.getD []).get? k
/-- Assignment: panics on a nil map. -/
def MapVar.put (m : MapVar K V) (k : K) (v : V) : Go (MapVar K V) :=
  match m with
  | some t => .ok (some (t.put k v))
  | none => .error "assignment to entry in nil map"
/-- `delete`: nothing to do on a nil map. -/
def MapVar.del (m : MapVar K V) (k : K) : MapVar K V := m.map (·.del k)
/-- `len`. -/
def MapVar.len (m : MapVar K V) : Nat := (m.getD []).length

/-- `Entries` (ds/xmap/ops.go:3-9). -/
def entries (o : Order K V) (m : MapVar K V) : List (K × V) :=
  (o.visit (m.getD [])).foldl (fun acc e => acc ++ [(e.1, e.2)]) []

/-- `Keys` (ds/xmap/ops.go:11-17). -/
def keys (o : Order K V) (m : MapVar K V) : List K :=
  (o.visit (m.getD [])).foldl (fun acc e => acc ++ [e.1]) []

/-- `Values` (ds/xmap/ops.go:19-25). -/
def values (o : Order K V) (m : MapVar K V) : List V :=
  (o.visit (m.getD [])).foldl (fun acc e => acc ++ [e.2]) []

/-- The loop of `Clear`: deletes each visited key. Entries that were deleted before they are reached are
not visited (Go's rule for deleting during `range`). -/
def clearLoop : List (K × V) → Tab K V → Tab K V
  | [], m => m
  | e :: rest, m => clearLoop (rest.filter (fun x => !(x.1 == e.1))) (m.del e.1)
termination_by l => l.length
decreasing_by simp; exact Nat.lt_succ_of_le (Nat.le_trans (List.length_filter_le _ _) (by simp))

/-- `Clear` (ds/xmap/ops.go:31-38). -/
def clear (o : Order K V) (m : MapVar K V) : MapVar K V :=
  match m with
  | none => none
  | some t => some (clearLoop (o.visit t) t)

/-! ## `Set` (ds/xmap/set.go): a map to `struct{}` -/

/-- `Set[T]` (ds/xmap/set.go:3). -/
abbrev SetVar (T : Type) := MapVar T Unit

variable {T : Type} [BEq T]

/-- `NewSet` (ds/xmap/set.go:5-7). -/
def newSet : SetVar T := some []
/-- `Add` (ds/xmap/set.go:9-11). -/
def SetVar.add (s : SetVar T) (k : T) : Go (SetVar T) := MapVar.put s k ()
/-- `TryAdd` (ds/xmap/set.go:13-19). -/
def SetVar.tryAdd (s : SetVar T) (k : T) : Go (Bool × SetVar T) :=
  if (MapVar.get? s k).isSome then .ok (false, s)
  else match MapVar.put s k () with
    | .ok s' => .ok (true, s')
    | .error e => .error e
/-- `Delete` (ds/xmap/set.go:21-23). -/
def SetVar.delete (s : SetVar T) (k : T) : SetVar T := MapVar.del s k
/-- `TryDelete` (ds/xmap/set.go:25-31). -/
def SetVar.tryDelete (s : SetVar T) (k : T) : Bool × SetVar T :=
  if !(MapVar.get? s k).isSome then (false, s) else (true, MapVar.del s k)
/-- `Has` (ds/xmap/set.go:33-36). -/
def SetVar.has (s : SetVar T) (k : T) : Bool := (MapVar.get? s k).isSome
/-- `Len` (ds/xmap/set.go:38-40). -/
def SetVar.len (s : SetVar T) : Nat := MapVar.len s
/-- `Clear` (ds/xmap/set.go:42-44). -/
def SetVar.clear (o : Order T Unit) (s : SetVar T) : SetVar T := GoMap.clear o s
/-- `Values` (ds/xmap/set.go:50-52). -/
def SetVar.values (o : Order T Unit) (s : SetVar T) : List T := keys o s

end

end Verif.GoMap
