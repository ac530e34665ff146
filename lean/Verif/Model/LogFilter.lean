import Verif.Basic.AMap
import Verif.Basic.Bytes

/-!
# Filters that get a copy of what is logged (log/filter.go, log/log.go)

Every logging function hands an item to a channel of 5000 places; one goroutine takes the items and offers each to the channel
of every registered filter. Nothing of this waits: an item that finds a channel full is dropped. The notices about drops are
log calls of their own and appear here as further `log` operations of the schedule. `GetChannel` of a filter is taken to give
the same channel every time, and the unlocked look at the number of filters in `doAsyncFilters` to be one step with the send
(filters are never removed).
-/

namespace Motan.LogFilter

/-- log/filter.go:41-46 `FilterItem`: level, entry point and content (the caller is left out). -/
structure Item where
  level : Nat
  entry : Nat
  content : Bytes
deriving DecidableEq

/-! ## Items -/

/-- log/level.go:9-18 `InfoLevel`, `WarnLevel`, `ErrorLevel`, `FatalLevel` (their numbers). -/
def info : Nat := 0
def warn : Nat := 1
def error : Nat := 2
def fatal : Nat := 5

/-- The logging functions, log/log.go:96-177. -/
inductive Func
  | infoln | infof | warningln | warningf | errorln | errorf | fatalln | fatalf | accessLog | metricsLog
deriving DecidableEq

/-- log/log.go:96-177: the level with which each function calls `doAsyncFilters`. -/
def Func.level : Func → Nat
  | .infoln | .infof | .accessLog | .metricsLog => info
  | .warningln | .warningf => warn
  | .errorln | .errorf => error
  | .fatalln | .fatalf => fatal

/-- log/filter.go:14-25: the number of the entry point each function names. -/
def Func.entry : Func → Nat
  | .infoln => 0
  | .infof => 1
  | .warningln => 2
  | .warningf => 3
  | .errorln => 4
  | .errorf => 5
  | .fatalln => 6
  | .fatalf => 7
  | .accessLog => 8
  | .metricsLog => 9

/-- What is logged: the format (empty for the functions without one) and the arguments. `sprint` and `sprintf` are those of
package fmt, `json` the JSON of an access log entry. -/
structure Lib (α : Type) where
  sprint : List α → Bytes
  sprintf : Bytes → List α → Bytes
  json : α → Bytes

/-- log/filter.go:127-139 `getLogContent`. -/
def content {α : Type} (lib : Lib α) (f : Func) (format : Bytes) (args : List α) : Bytes :=
  if f.entry = 8 then
    match args with
    | a :: _ => lib.json a
    | [] => []
  else if format = [] ∧ 0 < args.length then lib.sprint args
  else if format ≠ [] ∧ 0 < args.length then lib.sprintf format args
  else format

/-- log/filter.go:98-103 and log/log.go:96-177: the item of a call. The functions with a name in -ln, `AccessLog` and
`MetricsLog` give no format. -/
def item {α : Type} (lib : Lib α) (f : Func) (format : Bytes) (args : List α) : Item :=
  let format := match f with | .infof | .warningf | .errorf | .fatalf => format | _ => []
  ⟨f.level, f.entry, content lib f format args⟩

/-! ## The channels -/

/-- log/filter.go:28: the room in the first channel. -/
def room : Nat := 5000

/-- The channel of a filter, a Go channel: its room, whether it was closed, what waits in it, the number of readers waiting,
and what readers were given, in order. -/
structure Chan where
  cap : Nat := 0
  closed : Bool := false
  queue : List Item := []
  readers : Nat := 0
  got : List Item := []
deriving DecidableEq

/-- The first channel, the registered filters (a name to a filter), their channels, and the item
being offered with the filters that have not had it yet (the goroutine holds the lock then). -/
structure St where
  queue : List Item := []
  filters : AMap Bytes Nat := []
  chan : Nat → Chan := fun _ => {}
  offering : Option (Item × List Nat) := none

/-- The steps. -/
inductive Op
  | log (i : Item)
  | add (name : Bytes) (f : Nat)
  | take
  | offer (f : Nat)
  | finish
  | receive (f : Nat)
  | close (f : Nat)
deriving DecidableEq

/-- log/filter.go:77-92 `callAsyncFilter`: an item is sent if a reader waits or there is room; if not, or if the channel is
closed (a panic that is recovered), it is dropped. -/
def send (c : Chan) (i : Item) : Chan :=
  if c.closed then c
  else if 0 < c.readers then { c with readers := c.readers - 1, got := c.got ++ [i] }
  else if c.queue.length < c.cap then { c with queue := c.queue ++ [i] }
  else c

/-- A reader comes to the channel of a filter (in the program that uses the library): it gets the first item that waits, waits
itself if there is none, and gets none from a closed channel. -/
def Chan.receive (c : Chan) : Chan :=
  match c.queue with
  | i :: q => { c with queue := q, got := c.got ++ [i] }
  | [] => if c.closed then c else { c with readers := c.readers + 1 }

/-- One channel changed. -/
def St.setChan (s : St) (f : Nat) (c : Chan) : St := { s with chan := fun g => if g = f then c else s.chan g }

/-- log/filter.go:55-113: `AddAsyncFilter`, the goroutine of `startAsyncFilterConsumer` and `doAsyncFilters`. None: the step cannot be
taken. -/
def step (s : St) (o : Op) : Option St :=
  match o with
  | .log i =>
    if s.filters = [] then some s
    else if s.queue.length < room then some { s with queue := s.queue ++ [i] }
    else some s
  | .add n f => if s.offering = none then some { s with filters := s.filters.store n f } else none
  | .take =>
    match s.offering, s.queue with
    | none, i :: q => some { s with queue := q, offering := some (i, s.filters.map (·.2)) }
    | _, _ => none
  | .offer f =>
    match s.offering with
    | some (i, fs) =>
      if f ∈ fs then some { s.setChan f (send (s.chan f) i) with offering := some (i, fs.erase f) } else none
    | none => none
  | .finish =>
    match s.offering with
    | some (_, []) => some { s with offering := none }
    | _ => none
  | .receive f => some (s.setChan f (s.chan f).receive)
  | .close f => some (s.setChan f { s.chan f with closed := true, readers := 0 })

/-- log/filter.go:27-33: the start; the filters of the program have channels of the given sizes. -/
def init (cap : Nat → Nat) : St := { chan := fun f => { cap := cap f } }

/-- A schedule. -/
def play (s : St) : List Op → Option St
  | [] => some s
  | o :: os => (step s o).bind fun s' => play s' os

end Motan.LogFilter
