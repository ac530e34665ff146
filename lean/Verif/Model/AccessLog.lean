import Verif.Basic.Bytes
import Verif.Basic.Decimal
import Verif.Basic.Strings

/-!
# The access log

log/log.go 43-60, 362-436, 448-467, 485-515, log/bytes.go and filter/accessLog.go 80-120: an entry is filled into a pooled
entity, handed to the logger and written, at once or, with `log_async`, by a goroutine that takes the entities from a
channel.

Goroutines are the elements of a list, a schedule is a list of operations. The fields `async` and `outputChan` are read and
written without synchronisation by the code; the model takes each access to be one atomic step. The writer behind zap is
C66 (LogFile.lean): here writing a line always succeeds. Structured logging (382-398) writes the same fields as JSON: the
fields are modelled, how zap writes them is not. Panics while writing (376-381) are left out: nothing in 397-434 can panic.
-/

namespace Motan.AccessLog

open Strings

/-- log/log.go:43-60 `AccessLogEntity`. -/
structure Entry where
  filterName : Bytes := []
  role : Bytes := []
  requestID : Nat := 0
  service : Bytes := []
  method : Bytes := []
  desc : Bytes := []
  remoteAddress : Bytes := []
  reqSize : Int := 0
  resSize : Int := 0
  bizTime : Int := 0
  totalTime : Int := 0
  success : Bool := false
  responseCode : Bytes := []
  exception : Bytes := []
  upstreamCode : Bytes := []
deriving DecidableEq

/-- log/bytes.go:25-31 `WriteBoolString`. -/
def boolString (b : Bool) : Bytes := if b then b!"true" else b!"false"

/-- log/log.go:398-432: the line of an entry. -/
def line (e : Entry) : Bytes :=
  e.filterName ++ b!"|" ++ e.role ++ b!"|" ++ natDigits e.requestID ++ b!"|" ++ e.service ++ b!"|" ++ e.method ++ b!"|" ++
  e.desc ++ b!"|" ++ e.remoteAddress ++ b!"|" ++ formatInt e.reqSize ++ b!"|" ++ formatInt e.resSize ++ b!"|" ++
  formatInt e.bizTime ++ b!"|" ++ formatInt e.totalTime ++ b!"|" ++ boolString e.success ++ b!"|" ++ e.responseCode ++
  b!"|" ++ e.exception ++ b!"|" ++ e.upstreamCode

/-- The value of a field of a structured line, by its kind (`zap.String`, `zap.Uint64` and `zap.Int`, `zap.Bool`). -/
inductive Field
  | text (s : Bytes)
  | number (n : Int)
  | flag (b : Bool)
deriving DecidableEq

/-- log/log.go:383-398: the fields of an entry if structured lines are asked for (the flag `log_structured`). How zap writes them as JSON
is left out; the lines are otherwise treated like the plain ones. -/
def structured (e : Entry) : List (Bytes × Field) :=
  [(b!"filterName", .text e.filterName), (b!"role", .text e.role), (b!"requestID", .number e.requestID),
   (b!"service", .text e.service), (b!"method", .text e.method), (b!"desc", .text e.desc),
   (b!"remoteAddress", .text e.remoteAddress), (b!"reqSize", .number e.reqSize), (b!"resSize", .number e.resSize),
   (b!"bizTime", .number e.bizTime), (b!"totalTime", .number e.totalTime), (b!"success", .flag e.success),
   (b!"responseCode", .text e.responseCode), (b!"exception", .text e.exception), (b!"upstreamCode", .text e.upstreamCode)]

/-- What a goroutine does next. Entities and channels are numbers; the channel is none where `outputChan` was nil. -/
inductive Act
  /-- log/log.go:362-363: `AccessLog` has been called and looks at `async` -/
  | log (id : Nat)
  /-- 365: the channel has been read, the `select` is next -/
  | send (id : Nat) (c : Option Nat)
  /-- 371, 375-432: the caller itself writes -/
  | write (id : Nat)
  /-- 435: the caller releases the entity -/
  | release (id : Nat)
  /-- 448-451: `SetAsync(true)` has set `async`, the channel comes next -/
  | makeChan
  /-- 452: the goroutine comes next -/
  | spawn
  /-- 460: the goroutine reads `outputChan` -/
  | top
  /-- 460: it receives -/
  | recv (c : Option Nat)
  /-- 460, 375-432: it writes -/
  | drain (id : Nat)
  /-- 435: it releases the entity -/
  | drained (id : Nat)
  /-- finished -/
  | done
deriving DecidableEq

/-- An attempt to write an entry: `shown` is false if the access log was switched off (zap drops the line then),
`queued` tells that it came through a channel. -/
structure Try where
  entry : Entry
  shown : Bool
  queued : Bool
deriving DecidableEq

/-- The logger. `mem` is the memory of the entities, `pool` those in `accessLogEntityPool` (18-21), `next` the first
number that was never used. `began`, `accepted` and `dropped` are there for the statements only: what was handed to
the logger, what was put into a channel, and what was discarded (368). `reported` is what the sampler has taken from the
counter of discarded entries (463-465). -/
structure St where
  cap : Nat
  async : Bool := false
  shown : Bool := true
  cur : Option Nat := none
  chans : List (List Nat) := []
  gs : List Act := []
  mem : Nat → Entry := fun _ => {}
  pool : List Nat := []
  next : Nat := 0
  count : Nat := 0
  reported : Nat := 0
  began : List Entry := []
  accepted : List Entry := []
  dropped : List Entry := []
  tries : List Try := []

/-- What can happen. -/
inductive Op
  /-- filter/accessLog.go:99-119, log/log.go:505-507: an entity is taken from the pool (its place there; none: a new one),
  all its fields are set and `AccessLog` is called -/
  | begin (e : Entry) (from_ : Option Nat)
  /-- log/log.go:448-449 `SetAsync` -/
  | setAsync (b : Bool)
  /-- log/log.go:485-491 `SetAccessLogAvailable` -/
  | setShown (b : Bool)
  /-- the goroutine with this number goes on -/
  | go (g : Nat)
  /-- log/log.go:463-465: the sampler takes the counter -/
  | sample
  /-- `sync.Pool` forgets an entity -/
  | forget (i : Nat)
deriving DecidableEq

/-- log/log.go:505-507: `Get` of the pool and the setting of the fields. -/
def acquire (s : St) (e : Entry) : Option Nat → Option (Nat × St)
  | none => some (s.next, { s with next := s.next + 1, mem := fun i => if i = s.next then e else s.mem i })
  | some i =>
    match s.pool[i]? with
    | none => none
    | some id => some (id, { s with pool := s.pool.eraseIdx i, mem := fun j => if j = id then e else s.mem j })

/-- log/log.go:397-434 `doAccessLog`: the entity is read and written. -/
def write (s : St) (id : Nat) (queued : Bool) : St :=
  { s with tries := s.tries ++ [{ entry := s.mem id, shown := s.shown, queued := queued }] }

/-- log/log.go:365-369: the `select`. A nil channel never takes anything. -/
def send (s : St) (id : Nat) (c : Option Nat) : Option St :=
  let drop := some { s with count := s.count + 1, dropped := s.dropped ++ [s.mem id] }
  match c with
  | none => drop
  | some c =>
    match s.chans[c]? with
    | none => none
    | some buf =>
      if buf.length < s.cap then
        some { s with chans := s.chans.set c (buf ++ [id]), accepted := s.accepted ++ [s.mem id] }
      else drop

/-- One step of a goroutine: the state and what it does next; none: it has to wait, or it is finished. -/
def act (s : St) : Act → Option (St × Act)
  | .log id => some (s, if s.async then .send id s.cur else .write id)
  | .send id c => (send s id c).map fun s => (s, .done)
  | .write id => some (write s id false, .release id)
  | .release id => some ({ s with pool := s.pool ++ [id] }, .done)
  | .makeChan => some ({ s with cur := some s.chans.length, chans := s.chans ++ [[]] }, .spawn)
  | .spawn => some (s, .top)
  | .top => some (s, .recv s.cur)
  | .recv none => none
  | .recv (some c) =>
    match s.chans[c]? with
    | some (id :: buf) => some ({ s with chans := s.chans.set c buf }, .drain id)
    | _ => none
  | .drain id => some (write s id true, .drained id)
  | .drained id => some ({ s with pool := s.pool ++ [id] }, .top)
  | .done => none

/-- One operation. -/
def step (s : St) : Op → Option St
  | .begin e from_ => (acquire s e from_).map fun x => { x.2 with gs := s.gs ++ [.log x.1], began := s.began ++ [e] }
  | .setAsync b => some { s with async := b, gs := if b then s.gs ++ [.makeChan] else s.gs }
  | .setShown b => some { s with shown := b }
  | .go g =>
    match s.gs[g]? with
    | none => none
    | some a => (act s a).map fun x => { x.1 with gs := s.gs.set g x.2 }
  | .sample => some { s with reported := s.reported + s.count, count := 0 }
  | .forget i => some { s with pool := s.pool.eraseIdx i }

/-- A schedule. -/
def play (s : St) : List Op → Option St
  | [] => some s
  | op :: ops => (step s op).bind fun s => play s ops

/-- log/log.go:276-288: a new logger; `cap` is `log_buffer_size`. -/
def init (cap : Nat) : St := { cap := cap }

/-- The access log: the lines that were shown, each with the end of line zap adds. -/
def file (s : St) : Bytes := ((s.tries.filter (·.shown)).map fun t => line t.entry ++ b!"\n").flatten

end Motan.AccessLog
