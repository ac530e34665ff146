import Verif.Basic.AMap
import Verif.Basic.Bytes

/-!
# The fail-fast filter (filter/failfast.go)

First call by call (`filter`, `isAvailable`), then as a machine of concurrent calls where every access of shared memory is
a step of its own. Times are nanoseconds; they do not overflow before the year 2262, which is not modelled.
-/

namespace Motan.Failfast

/-- filter/failfast.go:27-32 `endpointStatus`. -/
structure Status where
  available : Bool
  errorCount : UInt32
  time : Int

/-- filter/failfast.go:53 a new status. -/
def newStatus (now : Int) : Status := ⟨true, 0, now⟩

/-- filter/failfast.go:13 `nextTestTime` in nanoseconds. -/
def interval : Int := 10 * 10 ^ 9

/-- filter/failfast.go:12 `failureCount`. -/
def failureCount : UInt32 := 10

/-- filter/failfast.go:60-74 `Filter` after the next filter returned: `failed` when there is no response or it carries an
exception (of any kind). -/
def filter (s : Status) (failed : Bool) (now : Int) : Status :=
  if failed then
    let count := s.errorCount + 1
    { available := if count ≥ failureCount then false else s.available, errorCount := count, time := now }
  else
    { available := if !s.available then true else s.available, errorCount := 0, time := now }

/-- filter/failfast.go:76-89 `IsAvailable`, with the two readings of the clock. -/
def isAvailable (s : Status) (now now' : Int) : Bool × Status :=
  if s.available then (true, s)
  else if s.time + interval < now then (true, { s with time := now' })
  else (false, s)

/-- filter/failfast.go:34-58 `getEps`: one status per address for all filters. -/
def getEps (m : AMap Bytes Status) (address : Bytes) (now : Int) : Status × AMap Bytes Status :=
  match AMap.load m address with
  | some s => (s, m)
  | none => (newStatus now, AMap.store m address (newStatus now))

/-! ## Concurrent calls -/

/-- Where a goroutine is. -/
inductive PC
  | idle
  | setFalse
  | readAvail
  | setTrue
  | stamp
  | stamped (t : Int)
  | load
  | loaded (v : Int)
  | due (v c : Int)
  | cas (v c n : Int)

/-- A write of the time: by a granted probe (the clock when it was found due, and the time written), or by a call that
ended. -/
inductive Write
  | probe (c n : Int)
  | result (t : Int)

/-- The time a write leaves. -/
def Write.value : Write → Int
  | .probe _ n => n
  | .result t => t

/-- Shared memory, the clock, all goroutines and, for the specification, the counted results (true: success) and the
writes of the time, both newest first. -/
structure St (T : Type) where
  status : Status
  clock : Int
  pc : T → PC
  results : List Bool
  writes : List Write

/-- Replace one goroutine's place. -/
def move {T : Type} [DecidableEq T] (f : T → PC) (t : T) (p : PC) : T → PC := fun x => if x = t then p else f x

/-- A new filter at this time. -/
def init {T : Type} (now : Int) : St T := ⟨newStatus now, now, fun _ => .idle, [], []⟩

/-- filter/failfast.go:60-89, one access of shared memory or of the clock at a time. -/
inductive Step {T : Type} [DecidableEq T] : St T → St T → Prop
  /-- Time passes. -/
  | tick {s} (c : Int) : s.clock ≤ c → Step s { s with clock := c }
  /-- 63 a failure is counted. -/
  | fail {s t} : s.pc t = .idle →
      Step s { s with
        status := { s.status with errorCount := s.status.errorCount + 1 }
        results := false :: s.results
        pc := move s.pc t (if s.status.errorCount + 1 ≥ failureCount then .setFalse else .stamp) }
  /-- 64. -/
  | setFalse {s t} : s.pc t = .setFalse →
      Step s { s with status := { s.status with available := false }, pc := move s.pc t .stamp }
  /-- 67 a success is counted. -/
  | succeed {s t} : s.pc t = .idle →
      Step s { s with
        status := { s.status with errorCount := 0 }, results := true :: s.results, pc := move s.pc t .readAvail }
  /-- 68. -/
  | readAvail {s t} : s.pc t = .readAvail →
      Step s { s with pc := move s.pc t (if s.status.available then .stamp else .setTrue) }
  /-- 69. -/
  | setTrue {s t} : s.pc t = .setTrue →
      Step s { s with status := { s.status with available := true }, pc := move s.pc t .stamp }
  /-- 72 `time.Now()`. -/
  | stamp {s t} : s.pc t = .stamp → Step s { s with pc := move s.pc t (.stamped s.clock) }
  /-- 72 the store. -/
  | store {s t v} : s.pc t = .stamped v →
      Step s { s with status := { s.status with time := v }, writes := .result v :: s.writes, pc := move s.pc t .idle }
  /-- 78-80 `IsAvailable`: true if available. -/
  | check {s t} : s.pc t = .idle →
      Step s { s with pc := move s.pc t (if s.status.available then .idle else .load) }
  /-- 81. -/
  | load {s t} : s.pc t = .load → Step s { s with pc := move s.pc t (.loaded s.status.time) }
  /-- 82: not due: false. -/
  | compare {s t v} : s.pc t = .loaded v →
      Step s { s with pc := move s.pc t (if v + interval < s.clock then .due v s.clock else .idle) }
  /-- 83 `time.Now()`. -/
  | now {s t v c} : s.pc t = .due v c → Step s { s with pc := move s.pc t (.cas v c s.clock) }
  /-- 83 the swap succeeds: a probe is let through. -/
  | swapped {s t v c n} : s.pc t = .cas v c n → s.status.time = v →
      Step s { s with status := { s.status with time := n }, writes := .probe c n :: s.writes, pc := move s.pc t .idle }
  /-- 83 the swap fails: false. -/
  | lost {s t v c n} : s.pc t = .cas v c n → s.status.time ≠ v → Step s { s with pc := move s.pc t .idle }

/-- All executions of a filter made at time `t0`. -/
inductive Reach {T : Type} [DecidableEq T] (t0 : Int) : St T → Prop
  | init : Reach t0 (init t0)
  | step {s s'} : Reach t0 s → Step s s' → Reach t0 s'

end Motan.Failfast
