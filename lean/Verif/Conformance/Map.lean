import Verif.CustomMap.Model

/-! # ds/xmap/custom_test.go on the model -/

namespace Verif.Conformance.Map

open Verif.CustomMap

/-- TestNewCustom (ds/xmap/custom_test.go:18-25): what the three calls return, for any hash function. -/
def testNewCustom (hash : String × Int → UInt64) : Bool × Bool × (Int × Bool) :=
  let eq : String × Int → String × Int → Bool := fun x y => x == y
  let r1 := set hash eq new ("1", 0) (1 : Int)
  let r2 := set hash eq r1.2 ("1", 0) 1
  (r1.1, r2.1, get hash eq r2.2 ("1", 0))

example (hash : String × Int → UInt64) : testNewCustom hash = (true, false, (1, true)) := by
  simp [testNewCustom, CustomMap.set, setBody, CustomMap.get, new, writeBack, GoMap.Tab.get?, GoMap.Tab.put]

end Verif.Conformance.Map
