import Verif.Base

/-! # What sorting means, independently of any algorithm -/

namespace Verif.Sort

/-- Strict weak order: irreflexive, transitive, and "neither less" is transitive. -/
structure StrictWeak {E : Type} (lt : E → E → Bool) : Prop where
  irrefl : ∀ x, lt x x = false
  trans : ∀ x y z, lt x y = true → lt y z = true → lt x z = true
  incomp : ∀ x y z, lt x y = false → lt y x = false → lt y z = false → lt z y = false →
    lt x z = false ∧ lt z x = false

/-- No later element is less than an earlier one. -/
def Ascending {E : Type} (lt : E → E → Bool) (l : List E) : Prop :=
  l.Pairwise fun x y => lt y x = false

/-- `x` and `y` are equivalent: neither is less than the other. -/
def equiv {E : Type} (lt : E → E → Bool) (x y : E) : Bool := !lt x y && !lt y x

end Verif.Sort
