import Mathlib.Data.Nat.Basic

/-!
# Model of the task adaptors of the thread pool

spatialops/threadpool/threadpool/task_adaptors.hpp. Times are counted in nanoseconds of the clock `xtime_get` reads; the
clock does not go back. `thread::sleep(xt)` returns no sooner than when the clock shows `xt.sec` seconds and `xt.nsec`
nanoseconds, also where `xt.nsec` exceeds a second (boost converts an `xtime` by adding the two).
-/

namespace SpatialOps
namespace Adapt

/-- The number of values of `unsigned int`, the type of the interval and the breaks, task_adaptors.hpp:101-103. -/
def uintSize : Nat := 2 ^ 32

/-- `looped_task_func`, task_adaptors.hpp:97-103: whether the function is not empty, and the break between calls. -/
structure Looped where
  callable : Bool
  breakS : Nat
  breakNs : Nat

/-- `looped_task_func::looped_task_func`, task_adaptors.hpp:112-117, in arithmetic modulo 2^32. -/
def Looped.make (callable : Bool) (interval : Nat) : Looped :=
  let s := interval / 1000
  let rest := (interval + (uintSize - (s * 1000) % uintSize)) % uintSize
  ⟨callable, s, (rest * 1000 % uintSize) * 1000 % uintSize⟩

/-- `m_break_s > 0 || m_break_ns > 0`, task_adaptors.hpp:125 and 140. -/
def Looped.pauses (l : Looped) : Bool := l.breakS > 0 || l.breakNs > 0

/-- The time set in `xt`, task_adaptors.hpp:127-135 and 142-150: seconds and nanoseconds of the clock, each increased. -/
def Looped.wake (l : Looped) (now : Nat) : Nat × Nat := (now / 10 ^ 9 + l.breakS, now % 10 ^ 9 + l.breakNs)

/-- Where `operator()` is, task_adaptors.hpp:121-157: before line 123; in `thread::sleep(xt)`, lines 135 and 150; in `thread::yield()`, line 154; before the
call in the condition of the loop, line 138; in the call; after the end. -/
inductive Pc where
  | entered
  | sleeping (xt : Nat × Nat)
  | yielding
  | calling
  | inside (begun : Nat)
  | done

/-- A call of the function that has returned: when it began and ended, and what it returned, task_adaptors.hpp:138. -/
structure Call where
  begun : Nat
  ended : Nat
  result : Bool

/-- The thread that runs the task, task_adaptors.hpp:121-157: the clock, the place in the program, the calls so far. -/
structure St where
  now : Nat
  pc : Pc
  calls : List Call

/-- After the call returned true, or before the first one, task_adaptors.hpp:125-136 and 140-155. -/
def Looped.pause (l : Looped) (now : Nat) (otherwise : Pc) : Pc := if l.pauses then .sleeping (l.wake now) else otherwise

/-- Steps of `looped_task_func::operator()`, task_adaptors.hpp:121-157. `f k` is what the `k`-th call of the function returns. -/
inductive Act (l : Looped) (f : Nat → Bool) : St → St → Prop where
  | empty {s : St} : s.pc = .entered → l.callable = false → Act l f s { s with pc := .done }
  | enter {s : St} : s.pc = .entered → l.callable = true → Act l f s { s with pc := l.pause s.now .calling }
  | awake {s : St} {xt : Nat × Nat} : s.pc = .sleeping xt → xt.1 * 10 ^ 9 + xt.2 ≤ s.now → Act l f s { s with pc := .calling }
  | yielded {s : St} : s.pc = .yielding → Act l f s { s with pc := .calling }
  | call {s : St} : s.pc = .calling → Act l f s { s with pc := .inside s.now }
  | again {s : St} {b : Nat} : s.pc = .inside b → f s.calls.length = true →
      Act l f s { s with pc := l.pause s.now .yielding, calls := s.calls ++ [⟨b, s.now, true⟩] }
  | finish {s : St} {b : Nat} : s.pc = .inside b → f s.calls.length = false →
      Act l f s { s with pc := .done, calls := s.calls ++ [⟨b, s.now, false⟩] }

/-- `k` steps of the thread in task_adaptors.hpp:121-157, with any amount of time passing before, between and after them. -/
inductive Run (l : Looped) (f : Nat → Bool) (s0 : St) : Nat → St → Prop where
  | start : Run l f s0 0 s0
  | pass {k : Nat} {s : St} (dt : Nat) : Run l f s0 k s → Run l f s0 k { s with now := s.now + dt }
  | act {k : Nat} {s s' : St} : Run l f s0 k s → Act l f s s' → Run l f s0 (k + 1) s'

end Adapt
end SpatialOps
