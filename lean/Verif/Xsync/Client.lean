import Verif.Xsync.SyncProps
import Verif.Conc.Client

/-!
# C126: programs over a `Synchronized` or `RWSynchronized` value
-/

namespace Verif.Xsync

open Verif.Conc

variable {T R Q : Type}

/-- Goroutines that run programs over a synchronised value are, at every moment, where they can be if every section
under the lock takes effect at once. -/
theorem C126_sync (x : T) (P : Client (Op T R) R Q) (q0 : Tid → Q) (hop : ∀ q op, P.ask q = some op → Allowed op)
    (tr : List (Lab T R)) (c : Config (mach T) (Op T R) R) (he : Exec body (Config.init (fresh x)) tr c)
    (hf : P.Follows q0 (history tr)) :
    ∃ l v q, P.Atomic (atomicUse x) q0 l v q ∧ ∀ t, q t = P.after q0 (history tr) t ∨
      ∃ op r, (c.th t).op = some op ∧ q t = P.go (P.after q0 (history tr) t) r :=
  P.atomic_exec he hf (sections_linearizable he (hf.calls fun _ => hop))

end Verif.Xsync
