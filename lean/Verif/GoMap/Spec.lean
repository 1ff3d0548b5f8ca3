/-!
# Specification: mathematical maps and sets

Small definitions used to state what maps do; nothing here refers to a model.
-/

namespace Verif.GoMap

/-- A mathematical map: a partial function. -/
abbrev PMap (K V : Type) := K → Option V

variable {K V : Type}

/-- The empty map. -/
def PMap.empty : PMap K V := fun _ => none

/-- The map with `k` set to `v`. -/
def PMap.set [DecidableEq K] (m : PMap K V) (k : K) (v : V) : PMap K V := fun x => if x = k then some v else m x

/-- The map without `k`. -/
def PMap.erase [DecidableEq K] (m : PMap K V) (k : K) : PMap K V := fun x => if x = k then none else m x

/-- `l` lists the map: every entry once. -/
structure PMap.Lists (m : PMap K V) (l : List (K × V)) : Prop where
  nodup : (l.map Prod.fst).Nodup
  mem : ∀ k v, (k, v) ∈ l ↔ m k = some v

/-- `n` is the number of entries of the map. -/
def PMap.Size (m : PMap K V) (n : Nat) : Prop := ∃ l, m.Lists l ∧ l.length = n

end Verif.GoMap
