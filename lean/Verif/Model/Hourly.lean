/-!
# Rotation of log files at each full hour (log/rotate.go:483-509)

The goroutine that `mill` starts with the first line written (log/rotate.go:400-405) if `RotatePerHour` is set. There are
two clocks, as in Go: the monotonic one, by which `time.Sleep` waits, and the wall clock, which `time.Now` shows and which may
be set. Times are nanoseconds. `Rotate` itself is modelled in `LogFile`.

Simplifications: the local time is a fixed time `zone` ahead (no change to or from daylight saving time), so that the
full hour after a time is computed by division; panics inside of `Rotate`, which end the goroutine, are left out; the end
of `Rotate` and the reading of the clock that follows it are one step.
-/

namespace Motan.Hourly

/-- An hour. -/
def hour : Nat := 3600 * 1000000000

/-- log/rotate.go:495: the full hour after a time. -/
def nextRotateTime (zone now : Nat) : Nat := now + (hour - (now + zone) % hour)

/-- Where the goroutine stands. -/
inductive Pc
  /-- before line 494 for the first time -/
  | start
  /-- asleep (501) until the monotonic clock shows `till`; `duration` and `target` are the variables of 495-496 -/
  | asleep (target duration till : Nat)
  /-- in `Rotate` (503) -/
  | rotating (target began : Nat)
deriving DecidableEq, Repr

/-- A rotation: the full hour it is for, when it began, and when the goroutine read the clock after it. -/
structure Rotation where
  target : Nat
  began : Nat
  back : Nat
deriving DecidableEq, Repr

/-- The goroutine and the clocks. `rotations` and `reads` record what happened: the rotations and the readings of the wall
clock; the code does not keep them. -/
structure St where
  mono : Nat := 0
  wall : Nat
  pc : Pc := .start
  rotations : List Rotation := []
  reads : List Nat := []
deriving DecidableEq, Repr

/-- What happens. -/
inductive Op
  /-- time passes -/
  | tick (n : Nat)
  /-- somebody sets the wall clock -/
  | set (wall : Nat)
  /-- the goroutine goes on, if it can -/
  | go
deriving DecidableEq, Repr

/-- log/rotate.go:494-501: the clock is read and the goroutine goes to sleep. (The duration is never zero, so 497-499 is left
out.) -/
def plan (zone : Nat) (s : St) : St :=
  let target := nextRotateTime zone s.wall
  let duration := target - s.wall
  { s with pc := .asleep target duration (s.mono + duration), reads := s.reads ++ [s.wall] }

/-- log/rotate.go:493-508: the next step of the goroutine. -/
def go (zone : Nat) (s : St) : St :=
  match s.pc with
  | .start => plan zone s
  | .asleep target duration till =>
    if s.mono < till then s
    else if target < s.wall then { s with pc := .rotating target s.wall, reads := s.reads ++ [s.wall] }
    -- 506: `now` is the time read before the first sleep
    else { s with pc := .asleep target duration (s.mono + duration), reads := s.reads ++ [s.wall] }
  | .rotating target began =>
    let s := { s with rotations := s.rotations ++ [⟨target, began, s.wall⟩] }
    plan zone s

/-- One step. -/
def step (zone : Nat) (s : St) : Op → St
  | .tick n => { s with mono := s.mono + n, wall := s.wall + n }
  | .set w => { s with wall := w }
  | .go => go zone s

/-- A history that began at the time `t`. -/
def run (zone t : Nat) (ops : List Op) : St := ops.foldl (step zone) { wall := t }

end Motan.Hourly
