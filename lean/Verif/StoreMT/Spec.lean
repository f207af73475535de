import Verif.StoreMT.Model
import Verif.Pool.Spec

/-!
# Specification of the field store used by several threads
-/

namespace SpatialOps
namespace StoreMT

open World

/-- The worlds that can arise with `N` threads, under every schedule, if calls are made only under the allowed
mutexes. -/
inductive Reach (N : Nat) (allowed : Guard → Prop) : World → Prop
  | init : Reach N allowed (World.init N)
  | step {w w' : World} {e : Ev} : Reach N allowed w → w.Enabled e → (∀ t g c, e = .call t g c → allowed g) →
      w.step e = .ok w' → Reach N allowed w'

/-- The same calls, with the same results, one after the other in the single-threaded world of C13 and C14. -/
inductive Sequential : List Done → PoolWorld → Prop
  | nil : Sequential [] PoolWorld.init
  | got {l : List Done} {s s' : PoolWorld} {t n fresh : Nat} {r : GetResult} : Sequential l s → s.Legal (.get n fresh) →
      s.pool.get n fresh = .ok r → s.step (.get n fresh) = .ok s' → Sequential (l ++ [.got t n r.addr]) s'
  | gave {l : List Done} {s s' : PoolWorld} {t a : Nat} : Sequential l s → s.Legal (.put a) →
      s.step (.put a) = .ok s' → Sequential (l ++ [.gave t a]) s'

/-- No call is in progress. -/
def Quiet (w : World) : Prop := ∀ x ∈ w.threads, x.2 = .idle

/-- The threads run on, starting no new calls: `es` is any schedule of statements. -/
inductive Runs : World → List Ev → World → Prop
  | nil {w : World} : Runs w [] w
  | cons {w w' w'' : World} {t fresh : Nat} {es : List Ev} : w.Enabled (.go t fresh) → w.step (.go t fresh) = .ok w' → Runs w' es w'' →
      Runs w (.go t fresh :: es) w''

end StoreMT
end SpatialOps
