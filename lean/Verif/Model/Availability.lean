/-!
# Availability of an endpoint (endpoint/motanCommonEndpoint.go:114-127, 219-333) as a concurrent machine

Goroutines are interleaved between any two accesses of shared memory. `m.destroyed` and `m.keepaliveRunning` are accessed
only with the mutex held, so that a critical section reading and writing them is one step, except in `Destroy`, whose
store to `available` is visible to goroutines that do not take the mutex. Connections are abstract: connecting and
heartbeats may succeed or fail at will. The intervals of the tickers are positive (Model/EndpointConf.lean `ticking` is about others).
-/

namespace Motan.Availability

/-- Where a goroutine is. -/
inductive PC
  | idle
  /-- In `recordErrAndKeepalive` (252-264), before lines 258, 259 and 261. -/
  | disabling
  | typing
  | spawning
  /-- In `keepalive` (279-317): at the start; waiting in the loop; in a heartbeat; after a successful one, before lines 325
  and 326; before the deferred function 294-298. -/
  | kaBegin
  | kaWait
  | kaBeat
  | kaUp
  | kaReset
  | kaEnd
  /-- In `Destroy` (114-127), before lines 120, 121-122 and 116 (the deferred unlock). -/
  | dAvail
  | dSend
  | dUnlock
  /-- In `initChannelPoolWithRetry` (219-250): in the first attempt; before line 236 or 247; waiting for the ticker; in a
  later attempt. -/
  | conFirst
  | conUp
  | conRetry
  | conTrying
deriving DecidableEq

/-- Shared memory (34-59), all goroutines, and for the specification: what was counted, newest first (`false`: an error was
added, `true`: the count was reset), whether the last attempt of a goroutine to connect or to get an answer to a heartbeat
succeeded, and whether a new keepalive gave way to one that had already done its work. -/
structure St (T : Type) where
  /-- `available`; `none` before anything was stored. -/
  avail : Option Bool
  errors : UInt32
  profile : Bool
  running : Bool
  destroyed : Bool
  lock : Option T
  /-- Whether there is something in `destroyCh` (capacity 1). -/
  token : Bool
  /-- Whether `channels` is set. -/
  channels : Bool
  pc : T → PC
  counted : List Bool
  succeeded : T → Bool
  missed : Bool

/-- Replace one goroutine's place. -/
def move {T : Type} [DecidableEq T] (f : T → PC) (t : T) (p : PC) : T → PC := fun x => if x = t then p else f x

/-- Note the outcome of an attempt. -/
def note {T : Type} [DecidableEq T] (f : T → Bool) (t : T) (b : Bool) : T → Bool := fun x => if x = t then b else f x

/-- An endpoint in `Initialize` (82-112): goroutine `c` connects, which may be the initialising one or a new one. -/
def init {T : Type} [DecidableEq T] (c : T) : St T :=
  { avail := none, errors := 0, profile := false, running := false, destroyed := false, lock := none, token := false,
    channels := false, pc := fun t => if t = c then .conFirst else .idle, counted := [], succeeded := fun _ => false, missed := false }

/-- The goroutines of a keepalive that has yet to bring the endpoint up. -/
def PC.looping : PC → Bool
  | .kaWait | .kaBeat | .kaUp => true
  | _ => false

/-- One step of goroutine `t`; `threshold` is `errorCountThreshold`. -/
inductive Step {T : Type} [DecidableEq T] (threshold : Int) : St T → T → St T → Prop
  /-- 254-257 a call failed: the error is counted. -/
  | err {s t} : s.pc t = .idle → threshold > 0 →
      Step threshold s t { s with
        errors := s.errors + 1
        counted := false :: s.counted
        pc := move s.pc t (if s.errors + 1 ≥ UInt32.ofNat threshold.toNat then .disabling else .idle) }
  /-- 258. -/
  | disable {s t} : s.pc t = .disabling → Step threshold s t { s with avail := some false, pc := move s.pc t .typing }
  /-- 259, 266-273, by the kind of exception. -/
  | setType {s t} (p : Bool) : s.pc t = .typing → Step threshold s t { s with profile := p, pc := move s.pc t .spawning }
  /-- 261 a new goroutine `g`. -/
  | spawn {s t g} : s.pc t = .spawning → s.pc g = .idle → g ≠ t →
      Step threshold s t { s with pc := move (move s.pc t .idle) g .kaBegin }
  /-- 187, 276 a call succeeded. -/
  | success {s t} : s.pc t = .idle → Step threshold s t { s with errors := 0, counted := true :: s.counted }
  /-- 280-285 destroyed. -/
  | kaDestroyed {s t} : s.pc t = .kaBegin → s.lock = none → s.destroyed = true →
      Step threshold s t { s with pc := move s.pc t .idle }
  /-- 287-290 another keepalive is running. -/
  | kaOther {s t} (b : Bool) : s.pc t = .kaBegin → s.lock = none → s.destroyed = false → s.running = true →
      (b = true ↔ ∃ g, (s.pc g).looping = true) →
      Step threshold s t { s with pc := move s.pc t .idle, missed := s.missed || !b }
  /-- 291-292. -/
  | kaStart {s t} : s.pc t = .kaBegin → s.lock = none → s.destroyed = false → s.running = false →
      Step threshold s t { s with running := true, pc := move s.pc t .kaWait }
  /-- 305-307 a tick, type profile. -/
  | kaProfile {s t} : s.pc t = .kaWait → s.profile = true → Step threshold s t s
  /-- 305-309, 320 a tick, type heartbeat; without channels it panics. -/
  | kaTick {s t} : s.pc t = .kaWait → s.profile = false →
      Step threshold s t { s with pc := move s.pc t (if s.channels then .kaBeat else .kaEnd) }
  /-- 320-332 a heartbeat fails. -/
  | beatFail {s t} : s.pc t = .kaBeat →
      Step threshold s t { s with succeeded := note s.succeeded t false, pc := move s.pc t .kaWait }
  /-- 323-324 a heartbeat succeeds. -/
  | beatOk {s t} : s.pc t = .kaBeat →
      Step threshold s t { s with succeeded := note s.succeeded t true, pc := move s.pc t .kaUp }
  /-- 320, 816 a heartbeat panics: the pool was closed while it took a broken connection out (300 recovers). -/
  | beatPanic {s t} : s.pc t = .kaBeat → s.destroyed = true → Step threshold s t { s with pc := move s.pc t .kaEnd }
  /-- 325. -/
  | up {s t} : s.pc t = .kaUp → Step threshold s t { s with avail := some true, pc := move s.pc t .kaReset }
  /-- 326. -/
  | kaReset {s t} : s.pc t = .kaReset →
      Step threshold s t { s with errors := 0, counted := true :: s.counted, pc := move s.pc t .kaEnd }
  /-- 313-314. -/
  | kaStop {s t} : s.pc t = .kaWait → s.token = true →
      Step threshold s t { s with token := false, pc := move s.pc t .kaEnd }
  /-- 294-298. -/
  | kaEnd {s t} : s.pc t = .kaEnd → s.lock = none → Step threshold s t { s with running := false, pc := move s.pc t .idle }
  /-- 115-119 `Destroy` again. -/
  | destroyAgain {s t} : s.pc t = .idle → s.lock = none → s.destroyed = true → Step threshold s t s
  /-- 115-117. -/
  | destroyBegin {s t} : s.pc t = .idle → s.lock = none → s.destroyed = false →
      Step threshold s t { s with lock := some t, pc := move s.pc t .dAvail }
  /-- 120. -/
  | destroyAvail {s t} : s.pc t = .dAvail → Step threshold s t { s with avail := some false, pc := move s.pc t .dSend }
  /-- 121-122 (blocks while there is something in the channel). -/
  | destroySend {s t} : s.pc t = .dSend → s.token = false →
      Step threshold s t { s with token := true, destroyed := true, pc := move s.pc t .dUnlock }
  /-- 123-126 and the deferred unlock. -/
  | destroyEnd {s t} : s.pc t = .dUnlock → Step threshold s t { s with lock := none, pc := move s.pc t .idle }
  /-- 221-225, 233 connecting fails. -/
  | conFail {s t} : s.pc t = .conFirst ∨ s.pc t = .conTrying →
      Step threshold s t { s with succeeded := note s.succeeded t false, pc := move s.pc t .conRetry }
  /-- 235, 246 connecting succeeds. -/
  | conOk {s t} : s.pc t = .conFirst ∨ s.pc t = .conTrying →
      Step threshold s t { s with channels := true, succeeded := note s.succeeded t true, pc := move s.pc t .conUp }
  /-- 236, 247. -/
  | conUp {s t} : s.pc t = .conUp → Step threshold s t { s with avail := some true, pc := move s.pc t .idle }
  /-- 232. -/
  | conTick {s t} : s.pc t = .conRetry → Step threshold s t { s with pc := move s.pc t .conTrying }
  /-- 240-241. -/
  | conStop {s t} : s.pc t = .conRetry → s.token = true →
      Step threshold s t { s with token := false, pc := move s.pc t .idle }

/-- All executions of an endpoint connected by goroutine `c`. -/
inductive Reach {T : Type} [DecidableEq T] (threshold : Int) (c : T) : St T → Prop
  | init : Reach threshold c (init c)
  | step {s t s'} : Reach threshold c s → Step threshold s t s' → Reach threshold c s'

/-- endpoint/motanCommonEndpoint.go:362-367 `IsAvailable`. -/
def isAvailable {T : Type} (s : St T) : Bool :=
  match s.avail with
  | none => false
  | some b => b

end Motan.Availability
