import Verif.Basic.Bytes
import Verif.Basic.AMap
import Verif.Basic.Strings

/-!
# Metrics: event bus, statistic items, snapshots

Models metrics/metrics.go (events, items, the snapshots of the reporter) and the counters of filter/metrics.go.

Metric objects of the library github.com/rcrowley/go-metrics are represented by the updates they got; a counter's `Count`
is their sum, a histogram's `Count` their number, a gauge's `Value` the last one. Numbers are unbounded (in Go they wrap
around at 64 bits). A histogram's sampling, percentiles, meters and timers are not modelled, nor are `RMStatItem`,
`ClearStatItems`, `Remove` and `Clear`, which nothing in the repository calls outside tests.
-/

namespace Motan.Metrics

open Strings

/-- metrics/metrics.go:17-20: the kinds of events. -/
inductive Kind
  | counter | histogram | gauge
  deriving DecidableEq, Repr

/-- metrics/metrics.go:295-303: an event on the bus. -/
structure Event where
  kind : Kind
  keys : List Bytes := []
  keySuffix : Bytes := []
  group : Bytes := []
  groupSuffix : Bytes := []
  service : Bytes := []
  value : Int := 0
  deriving DecidableEq, Repr

/-- metrics/metrics.go:202: the characters `Escape` keeps. -/
def kept (c : UInt32) : Bool :=
  (97 ≤ c && c ≤ 122) || (65 ≤ c && c ≤ 90) || (48 ≤ c && c ≤ 57) || c == 45

/-- metrics/metrics.go:197-209: `Escape`. `runes` is Go's decoding of a string into characters. The cache in front of it
holds results of the same function and is left out. -/
def escape (runes : Bytes → List UInt32) (s : Bytes) : Bytes :=
  (runes s).map fun c => if kept c then c.toUInt8 else 95

/-- metrics/metrics.go:319-333: `getMetricKey`. -/
def metricKey (runes : Bytes → List UInt32) (e : Event) : Bytes :=
  join b!":" (e.keys.map (escape runes)) ++ e.keySuffix

/-- metrics/metrics.go:112, 123: the key of a statistic item. -/
def itemKey (e : Event) : Bytes := e.group ++ e.groupSuffix ++ e.service

/-- A metric object of the library: its kind and the updates it got, the first one first. -/
structure Metric where
  kind : Kind
  updates : List Int := []
  deriving DecidableEq, Repr

/-- A registry: metric objects by key. -/
abbrev Registry := AMap Bytes Metric

/-- metrics/metrics.go:339-347: `DefaultStatItem`; `holder` is the number of its registry. -/
structure Item where
  group : Bytes
  groupSuffix : Bytes
  service : Bytes
  holder : Nat
  lastSnapshot : Option Nat := none
  deriving DecidableEq, Repr

/-- metrics/metrics.go:570-578: `ReadonlyStatItem`; `cache` holds what was read already. -/
structure Snap where
  group : Bytes
  groupSuffix : Bytes
  service : Bytes
  holder : Nat
  cache : AMap Bytes Metric := []
  deriving DecidableEq, Repr

/-- Where a goroutine of `eventLoop` stands in `processEvent` (metrics/metrics.go:869-881, 111-118, 383-407). -/
inductive Worker
  | idle
  /-- has an event, before `safeGet` -/
  | got (e : Event)
  /-- `safeGet` found nothing -/
  | absent (e : Event)
  /-- has the item, before `getRegistry` -/
  | item (e : Event) (it : Nat)
  /-- has the registry, before `Get` -/
  | reg (e : Event) (it r : Nat)
  /-- `Get` found nothing, before the second `getRegistry` -/
  | missing (e : Event) (it : Nat)
  /-- has the registry, before `GetOrRegister` -/
  | reg2 (e : Event) (r : Nat)
  /-- has the metric object, before `Inc` or `Update` -/
  | ready (e : Event) (r : Nat)
  deriving DecidableEq, Repr

/-- The state of the package. `submitted`, `dropped` and `failed` record the events that were given to the package, those
dropped because the bus was full and those whose processing panicked; the code does not keep them. -/
structure St where
  queue : List Event := []
  workers : List Worker := []
  items : AMap Bytes Nat := []
  itemList : List Item := []
  regs : List Registry := []
  snaps : List Snap := []
  submitted : List Event := []
  dropped : List Event := []
  failed : List Event := []
  deriving DecidableEq, Repr

/-- What happens: every action is one step of one goroutine. -/
inductive Act
  /-- a caller submits an event -/
  | submit (e : Event)
  /-- worker `w` does its next step -/
  | work (w : Nat)
  /-- a snapshot of an item is taken -/
  | snapshot (it : Nat)
  /-- a value of a snapshot is read -/
  | read (sn : Nat) (key : Bytes)
  deriving DecidableEq, Repr

/-- metrics/metrics.go:241-256: `sendEventWithKeys`; an event is dropped if `cap` events are waiting. -/
def submit (cap : Nat) (s : St) (e : Event) : St :=
  if s.queue.length < cap then { s with queue := s.queue ++ [e], submitted := s.submitted ++ [e] }
  else { s with submitted := s.submitted ++ [e], dropped := s.dropped ++ [e] }

/-- metrics/metrics.go:413-427: `SnapshotAndClear`: the item gets a new registry, the snapshot the old one. The swap of
the pointer is atomic and the rest is done under the item's lock. -/
def snapshot (s : St) (n : Nat) : St :=
  match s.itemList[n]? with
  | none => s
  | some it =>
    { s with
      regs := s.regs ++ [[]]
      itemList := s.itemList.set n { it with holder := s.regs.length, lastSnapshot := some s.snaps.length }
      snaps := s.snaps ++ [{ group := it.group, groupSuffix := it.groupSuffix, service := it.service, holder := it.holder }] }

/-- The registry with a number. -/
def St.registry (s : St) (r : Nat) : Registry := (s.regs[r]?).getD []

/-- metrics/metrics.go:584-618: `getCache`: what was read once is kept; what is not there is not. -/
def getCache (s : St) (sn : Snap) (key : Bytes) : Option Metric :=
  match AMap.load sn.cache key with
  | some m => some m
  | none => AMap.load (s.registry sn.holder) key

/-- metrics/metrics.go:584-618: what `getCache` leaves in the snapshot. -/
def read (s : St) (n : Nat) (key : Bytes) : St :=
  match s.snaps[n]? with
  | none => s
  | some sn =>
    match getCache s sn key with
    | none => s
    | some m => { s with snaps := s.snaps.set n { sn with cache := AMap.store sn.cache key m } }

/-- metrics/metrics.go:171-180: `safePutAbsent`. -/
def putAbsent (s : St) (e : Event) : St × Nat :=
  match AMap.load s.items (itemKey e) with
  | some n => (s, n)
  | none =>
    ({ s with
        items := AMap.store s.items (itemKey e) s.itemList.length
        itemList := s.itemList ++
          [{ group := e.group, groupSuffix := e.groupSuffix, service := e.service, holder := s.regs.length }]
        regs := s.regs ++ [[]] }, s.itemList.length)

/-- The registry's `GetOrRegister` (library): the object with the key, or a new one. -/
def getOrRegister (r : Registry) (key : Bytes) (k : Kind) : Registry :=
  match AMap.load r key with
  | some _ => r
  | none => AMap.store r key { kind := k }

/-- `Inc` or `Update` of a metric object (library). -/
def bump (r : Registry) (key : Bytes) (v : Int) : Registry :=
  match AMap.load r key with
  | some m => AMap.store r key { m with updates := m.updates ++ [v] }
  | none => r

/-- metrics/metrics.go:383-407, 851-881: the next step of worker `w`. The type assertion on an object of another kind
panics, `HandlePanic` recovers and the event is gone. (`GetOrRegisterCounter` and the others assert the type themselves.) -/
def work (runes : Bytes → List UInt32) (s : St) (w : Nat) : St :=
  match s.workers[w]? with
  | none => s
  | some .idle =>
    match s.queue with
    | [] => s
    | e :: q => { s with queue := q, workers := s.workers.set w (.got e) }
  | some (.got e) =>
    match AMap.load s.items (itemKey e) with
    | some it => { s with workers := s.workers.set w (.item e it) }
    | none => { s with workers := s.workers.set w (.absent e) }
  | some (.absent e) =>
    { (putAbsent s e).1 with workers := s.workers.set w (.item e (putAbsent s e).2) }
  | some (.item e n) =>
    match s.itemList[n]? with
    | none => s
    | some it => { s with workers := s.workers.set w (.reg e n it.holder) }
  | some (.reg e n r) =>
    match AMap.load (s.registry r) (metricKey runes e) with
    | some _ => { s with workers := s.workers.set w (.ready e r) }
    | none => { s with workers := s.workers.set w (.missing e n) }
  | some (.missing e n) =>
    match s.itemList[n]? with
    | none => s
    | some it => { s with workers := s.workers.set w (.reg2 e it.holder) }
  | some (.reg2 e r) =>
    { s with
      regs := s.regs.modify r fun g => getOrRegister g (metricKey runes e) e.kind
      workers := s.workers.set w (.ready e r) }
  | some (.ready e r) =>
    match AMap.load (s.registry r) (metricKey runes e) with
    | none => s
    | some m =>
      if m.kind = e.kind then
        { s with
          regs := s.regs.modify r fun g => bump g (metricKey runes e) e.value
          workers := s.workers.set w .idle }
      else { s with failed := s.failed ++ [e], workers := s.workers.set w .idle }

/-- One action. -/
def step (cap : Nat) (runes : Bytes → List UInt32) (s : St) : Act → St
  | .submit e => submit cap s e
  | .work w => work runes s w
  | .snapshot n => snapshot s n
  | .read n key => read s n key

/-- Any schedule. -/
def run (cap : Nat) (runes : Bytes → List UInt32) (s : St) (acts : List Act) : St := acts.foldl (step cap runes) s

/-- metrics/metrics.go:821-823: the state after `StartReporter` with a number of processors. -/
def start (processors : Nat) : St := { workers := List.replicate processors .idle }

/-- metrics/metrics.go:463-474, 690-701: `Count` of a metric object. -/
def Metric.count (m : Metric) : Int :=
  match m.kind with
  | .counter => m.updates.sum
  | .histogram => m.updates.length
  | .gauge => 0

/-- metrics/metrics.go:690-701: `Count` of a snapshot. -/
def count (s : St) (sn : Snap) (key : Bytes) : Int := ((getCache s sn key).map Metric.count).getD 0

/-- metrics/metrics.go:257-270: `ElapseTimeSuffix`. -/
def elapseSuffix (t : Int) : Bytes :=
  if t < 50 then b!".Less50ms"
  else if t < 100 then b!".Less100ms"
  else if t < 200 then b!".Less200ms"
  else if t < 500 then b!".Less500ms"
  else b!".More500ms"

/-- What the exception of a response is to the counters. -/
inductive Outcome
  | ok | bizError | otherError
  deriving DecidableEq, Repr

/-- filter/metrics.go:110-126: `addMetricWithKeys`: the events of one call. -/
def callEvents (group groupSuffix service : Bytes) (keys : List Bytes) (cost : Int) (out : Outcome) : List Event :=
  let ev (k : Kind) (suffix : Bytes) (v : Int) : Event := ⟨k, keys, suffix, group, groupSuffix, service, v⟩
  [ev .counter b!".total_count" 1] ++
  (match out with
    | .ok => []
    | .bizError => [ev .counter b!".biz_error_count" 1]
    | .otherError => [ev .counter b!".other_error_count" 1]) ++
  [ev .counter (elapseSuffix cost) 1] ++
  (if cost > 200 then [ev .counter b!".slow_count" 1] else []) ++
  [ev .histogram [] cost]

end Motan.Metrics
