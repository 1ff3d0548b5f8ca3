import Verif.GoMap.Spec
import Verif.Sharded.Model
import Verif.Conc.Lin

/-!
# What the methods of a sharded map do on one mathematical map
-/

namespace Verif.Sharded

open Verif.GoMap

variable {K V : Type} [DecidableEq K] [Inhabited V]

/-- `Legal m op r m'`: on the map `m` the call `op` may return `r` and leave the map `m'`.
(`IterateShards`, which hands the tables to user code, may do anything.) -/
def Legal (m : PMap K V) : Op K V → Res K V → PMap K V → Prop
  | .set k v, r, m' => r = .unit ∧ m' = m.set k v
  | .trySet k v, r, m' => match m k with
    | some _ => r = .bool false ∧ m' = m
    | none => r = .bool true ∧ m' = m.set k v
  | .get k, r, m' => m' = m ∧ match m k with
    | some v => r = .val v
    | none => r = .panic
  | .tryGet k, r, m' => m' = m ∧ match m k with
    | some v => r = .pair v true
    | none => r = .pair default false
  | .getOrSetFactory k, r, m' => match m k with
    | some v => r = .pair v true ∧ m' = m
    | none => (r = .panic ∧ m' = m) ∨ ∃ v, r = .pair v false ∧ m' = m.set k v
  | .getOrSetDefault k d, r, m' => match m k with
    | some v => r = .pair v true ∧ m' = m
    | none => r = .pair d false ∧ m' = m.set k d
  | .len, r, m' => m' = m ∧ ∃ n, r = .nat n ∧ m.Size n
  | .empty, r, m' => m' = m ∧ ∃ b, r = .bool b ∧ (b = true ↔ m = PMap.empty)
  | .has k, r, m' => m' = m ∧ r = .bool (m k).isSome
  | .delete k, r, m' => r = .unit ∧ m' = m.erase k
  | .iterate, r, m' => m' = m ∧ ∃ l l' b, r = .visited l b ∧ m.Lists (l ++ l') ∧ (b = true → l' = [])
  | .iterateShards, _, _ => True
  | .iterateShardsReadOnly, r, m' => m' = m ∧ (r = .unit ∨ r = .panic)
  | .keys, r, m' => m' = m ∧ ∃ l, r = .keys (l.map Prod.fst) ∧ m.Lists l
  | .values, r, m' => m' = m ∧ ∃ l, r = .values (l.map Prod.snd) ∧ m.Lists l
  | .entries, r, m' => m' = m ∧ ∃ l, r = .entries l ∧ m.Lists l
  | .toMap, r, m' => m' = m ∧ ∃ t : Tab K V, r = .tab t ∧ t.WF ∧ ∀ k, t.get? k = m k
  | .clear, r, m' => r = .unit ∧ m' = PMap.empty

end Verif.Sharded

namespace Verif.Sharded

open Verif.Conc Verif.GoMap

variable {K V : Type} [DecidableEq K] [Inhabited V]

/-- Operations on one key. -/
def SingleKey : Op K V → Prop
  | .set _ _ | .trySet _ _ | .get _ | .tryGet _ | .getOrSetFactory _ | .getOrSetDefault _ _ | .has _
  | .delete _ => True
  | _ => False

/-- Operations that go through the shards, only reading. -/
def ReadsAll : Op K V → Prop
  | .len | .empty | .iterate | .iterateShardsReadOnly | .keys | .values | .entries | .toMap => True
  | _ => False

/-- The sequential object: one map. Operations that go through all shards are only required to leave it as
it is. -/
def mapSpec (K V : Type) [DecidableEq K] [Inhabited V] : SeqSpec (Op K V) (Res K V) where
  St := PMap K V
  init := PMap.empty
  legal m op r m' := (SingleKey op → Legal m op r m') ∧ (ReadsAll op → m' = m)

end Verif.Sharded
