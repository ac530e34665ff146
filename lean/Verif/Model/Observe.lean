import Verif.Model.Failfast
import Verif.Model.Filters
import Verif.Model.Ha
import Verif.Model.Metrics

/-!
# The built-in filters (filter/)

What the filters do around a call: access log, metrics, tracing, fail fast, rate limit, circuit breaker, on the side of a
client, of a server and of a cluster. A request is passed as an object that whoever gets it may change, so a handler
returns it too. What the callee does, what the libraries for circuit breakers (hystrix), rate limits (see
`Model/RateLimit.lean`) and tracing decide, and how time passes, is given from outside.

Simplifications: time passes only in the callee and in waits; the code of the filters itself takes none. A response is
never nil. The trace context `Tc` and `RemoteAddr` of the last filter are left out. Logging is not asynchronous
(`SetAsync`), so no line is discarded.
-/

namespace Motan.Observe

open Motan.Convert (Exn Request Response loadOrEmpty)
open Motan.Url (URL getParam getPortStr parseBool)
open Motan.Metrics (Event callEvents Outcome)

/-- Which kind of caller a chain of filters is around: `motan.Provider`, `motan.EndPoint`, or a cluster. -/
inductive Side
  | provider | endpoint | cluster
deriving DecidableEq, Repr

/-- A request with the times of its context (core/motan.go:405-406). -/
structure Req where
  call : Request
  received : Int := 0
  sent : Int := 0

/-- A finish handler (filter/accessLog.go:55-58): the values the closure has besides request and response. -/
structure Handler where
  filter : Bytes
  role : Bytes
  address : Bytes
deriving DecidableEq, Repr

/-- A response with the finish handlers of its context (core/motan.go:409). -/
structure Resp where
  answer : Response
  finish : List Handler := []

/-- log/log.go:41-57 `AccessLogEntity`. -/
structure Entry where
  filter : Bytes
  role : Bytes
  id : UInt64
  service : Bytes
  method : Bytes
  address : Bytes
  desc : Bytes
  reqSize : Nat
  resSize : Nat
  bizTime : Int
  totalTime : Int
  code : Bytes
  success : Bool
  exception : Bytes
  upstream : Bytes
deriving DecidableEq, Repr

/-- How a call ends: with a response, in a panic of the goroutine that made it, or in a panic of another goroutine, which
ends the process. -/
inductive Out
  | ret (r : Resp)
  | panic (v : Bytes)
  | crash

/-- What a span was given. -/
inductive Tag
  | nothing
  | ok
  | failed (e : Exn)
  | panicked (v : Bytes)
deriving DecidableEq, Repr

/-- A finished span. -/
structure Span where
  name : Bytes
  parent : Option Bytes
  tag : Tag
deriving DecidableEq, Repr

/-- What the filters work on: clock, metric events sent, access log, spans, calls that reached the callee, the status
of the fail-fast filter, how often circuit breaker and rate limit were asked, and how many spans were started. -/
structure World where
  now : Int
  events : List Event := []
  log : List Entry := []
  spans : List Span := []
  called : List Req := []
  eps : Failfast.Status
  asked : Nat := 0
  limited : Nat := 0
  started : Nat := 0

/-- What `hystrix.Do` does with a function: not run it (circuit open, too many at once), let it run to its end, or let it
run and give up waiting for it. -/
inductive Verdict
  | reject (msg : Bytes)
  | admit
  | late (msg : Bytes)

/-- What is given from outside. `callee` gets the number of the call; it returns how it ended, the request as it left it and
how long it took. `limit`: the rate limit waits, and passes the call on or not. `recorder` is whether a
`TraceRecordingFunc` was set (taken not to panic). -/
structure Env where
  callee : Nat → Req → Out × Req × Int
  verdict : Nat → Verdict
  limit : Nat → Option Bytes × Int
  extract : Convert.Request → Option Bytes
  inject : Nat → Motan2.Meta → Motan2.Meta
  json : Exn → Bytes
  recorder : Bool
  reqApp : Bool

abbrev H := Req → World → Out × Req × World

/-- core/motan.go:965-974 and 1014-1026: the last filter calls the callee. -/
def last (E : Env) : H := fun r w =>
  let x := E.callee w.called.length r
  (x.1, x.2.1, { w with called := w.called ++ [r], now := w.now + x.2.2 })

/-- filter/accessLog.go:81-117 `doAccessLog`. -/
def entry (E : Env) (filter role address : Bytes) (total : Int) (r : Req) (resp : Response) : Entry where
  filter := filter
  role := role
  id := resp.id
  service := r.call.service
  method := r.call.method
  address := address
  desc := r.call.desc
  reqSize := r.call.rc.bodySize
  resSize := resp.rc.bodySize
  bizTime := resp.processTime
  totalTime := total
  code := match resp.exception with
    | some e => formatInt e.errCode
    | none => b!"200"
  success := resp.exception.isNone
  exception := match resp.exception with
    | some e => E.json e
    | none => []
  upstream := loadOrEmpty resp.attachment b!"upstreamCode"

/-- Nanoseconds as milliseconds, `d.Nanoseconds() / 1e6`. -/
def ms (d : Int) : Int := d.tdiv 1000000

/-- filter/accessLog.go:42-49: the address of the other side. -/
def peer (side : Side) (u : URL) (r : Req) : Bytes :=
  match side with
  | .provider => loadOrEmpty r.call.attachment b!"host"
  | .endpoint => u.host ++ b!":" ++ (getPortStr u).1
  | .cluster => []

/-- filter/accessLog.go:37-63 `Filter`, and filter/clusterAccessLog.go:29-34. -/
def accessLog (E : Env) (side : Side) (u : URL) (next : H) : H := fun r w =>
  let name := if side = .cluster then b!"clusterAccessLog" else b!"accessLog"
  let role := if side = .provider then b!"server-agent" else b!"client-agent"
  let address := peer side u r
  match next r w with
  | (.ret resp, r', w') =>
    if side = .provider then
      (.ret { resp with finish := resp.finish ++ [⟨name, role, address⟩] }, r', w')
    else (.ret resp, r', { w' with log := w'.log ++ [entry E name role address (ms (w'.now - w.now)) r' resp.answer] })
  | x => x

/-- core/constants.go:10-12: what the exception of a response is to the counters (filter/metrics.go:113-120). -/
def outcome (resp : Response) : Outcome :=
  match resp.exception with
  | none => .ok
  | some e => if e.errType = Ha.bizException then .bizError else .otherError

/-- filter/metrics.go:78-92, filter/clusterMetrics.go:59-63: the role. -/
def role (side : Side) (r : Req) : Bytes :=
  match side with
  | .provider => if r.call.rc.proxy then b!"motan-server-agent" else b!"motan-server"
  | _ => if r.call.rc.proxy then b!"motan-client-agent" else b!"motan-client"

/-- filter/metrics.go:93-107, filter/clusterMetrics.go:64-81: the events of one call. -/
def metricEvents (E : Env) (side : Side) (u : URL) (r : Req) (cost : Int) (resp : Response) : List Event :=
  let group := loadOrEmpty r.call.attachment b!"M_g"
  let suffix := if side = .cluster then b!".cluster" else []
  let app := getParam u b!"application" []
  let source := loadOrEmpty r.call.attachment b!"M_s"
  let ev (a : Bytes) := callEvents group suffix r.call.service [role side r, a, r.call.method] cost (outcome resp)
  (if side ≠ .provider ∧ E.reqApp = true ∧ app ≠ source then ev source else []) ++ ev app

/-- filter/metrics.go:69-108 `Filter`, filter/clusterMetrics.go:54-83; filter/filter.go:64-73 `getFilterStartTime`. -/
def metrics (E : Env) (side : Side) (u : URL) (next : H) : H := fun r w =>
  let start := if side = .provider then r.received else w.now
  match next r w with
  | (.ret resp, r', w') =>
    (.ret resp, r', { w' with events := w'.events ++ metricEvents E side u r' (ms (w'.now - start)) resp.answer })
  | x => x

/-- filter/tracing.go:27-48 `DefaultTraceRecordingFunc` for a response (or a `TraceRecordingFunc`). -/
def tagOf (resp : Response) : Tag :=
  match resp.exception with
  | some e => .failed e
  | none => .ok

/-- The text of Go's run-time panic on a method of a nil interface. -/
def nilPanic : Bytes := b!"runtime error: invalid memory address or nil pointer dereference"

/-- filter/tracing.go:134-196 `Filter`, `filterForClient`, `filterForProvider`, `handleIfPanic`. On a panic there is no
response, and `DefaultTraceRecordingFunc` calls a method of it (31). -/
def trace (E : Env) (next : H) : H := fun r w =>
  let name := r.call.service ++ b!"." ++ r.call.method
  let parent := E.extract r.call
  let r1 := { r with call := { r.call with attachment := E.inject w.started r.call.attachment } }
  match next r1 { w with started := w.started + 1 } with
  | (.ret resp, r', w') => (.ret resp, r', { w' with spans := w'.spans ++ [⟨name, parent, tagOf resp.answer⟩] })
  | (.panic v, r', w') =>
    if E.recorder then (.panic v, r', { w' with spans := w'.spans ++ [⟨name, parent, .panicked v⟩] })
    else (.panic nilPanic, r', { w' with spans := w'.spans ++ [⟨name, parent, .nothing⟩] })
  | x => x

/-- filter/failfast.go:60-74 `Filter`. -/
def failfast (next : H) : H := fun r w =>
  match next r w with
  | (.ret resp, r', w') => (.ret resp, r', { w' with eps := Failfast.filter w'.eps resp.answer.exception.isSome w'.now })
  | x => x

/-- filter/circuitBreaker.go:115-126 `defaultErrMotanResponse`. -/
def errResponse (r : Req) (msg : Bytes) : Response :=
  { id := r.call.id, value := none, exception := some ⟨400, msg, Ha.serviceException⟩, processTime := 0, attachment := [] }

/-- filter/rateLimit.go:84-111 `Filter`, with the decision from outside. -/
def rateLimit (E : Env) (next : H) : H := fun r w =>
  let x := E.limit w.limited
  let w1 := { w with limited := w.limited + 1, now := w.now + x.2 }
  match x.1 with
  | none => next r w1
  | some msg => (.ret ⟨errResponse r msg, []⟩, r, w1)

/-- filter/circuitBreaker.go:72-78: whether exceptions of the business logic count. -/
def includeBiz (u : URL) : Bool := (parseBool (getParam u b!"circuitBreaker.bizException" b!"true")).getD true

/-- filter/circuitBreaker.go:138-143 `checkException`. -/
def checkException (resp : Response) (biz : Bool) : Option Bytes :=
  match resp.exception with
  | some e => if biz = true ∨ e.errType ≠ Ha.bizException then some e.errMsg else none
  | none => none

/-- filter/circuitBreaker.go:44-54 `Filter`, filter/clusterCircuitBreaker.go:27-37. `hystrix.Do` runs the function in a
goroutine of its own and, without a fallback, returns its error; a panic there ends the process. The function that was
given up is run to its end here; in Go it goes on in the background. -/
def breaker (E : Env) (u : URL) (next : H) : H := fun r w =>
  let w1 := { w with asked := w.asked + 1 }
  match E.verdict w.asked with
  | .reject msg => (.ret ⟨errResponse r msg, []⟩, r, w1)
  | .late msg =>
    match next r w1 with
    | (.ret _, r', w') => (.ret ⟨errResponse r msg, []⟩, r', w')
    | (_, r', w') => (.crash, r', w')
  | .admit =>
    match next r w1 with
    | (.ret resp, r', w') =>
      match checkException resp.answer (includeBiz u) with
      | some msg => (.ret ⟨errResponse r' msg, []⟩, r', w')
      | none => (.ret resp, r', w')
    | (_, r', w') => (.crash, r', w')

/-- filter/circuitBreaker.go:89-103 `getConfigValue`. -/
def getConfigValue (u : URL) (key : Bytes) (dflt : Int) : Int :=
  match u.param key with
  | some v =>
    let n := (parseInt64 v).1
    if n > 0 then
      if key = b!"circuitBreaker.errorPercent" then if n ≤ 100 then n else dflt
      else n
    else dflt
  | none => dflt

/-- What is configured of `hystrix.CommandConfig`. -/
structure CommandConfig where
  volume : Int
  sleep : Int
  percent : Int
  concurrent : Int
  timeout : Int
deriving DecidableEq, Repr

/-- filter/circuitBreaker.go:105-113 `buildCommandConfig`, with the defaults of hystrix-go and line 17. -/
def buildCommandConfig (u : URL) : CommandConfig where
  volume := getConfigValue u b!"circuitBreaker.requestThreshold" 20
  sleep := getConfigValue u b!"circuitBreaker.sleepWindow" 5000
  percent := getConfigValue u b!"circuitBreaker.errorPercent" 50
  concurrent := getConfigValue u b!"circuitBreaker.maxConcurrent" 5000
  timeout := getConfigValue u b!"requestTimeout" 1000

/-- The built-in filters. -/
inductive Builtin
  | accessLog | metrics | trace | failfast | rateLimit | breaker
deriving DecidableEq, Repr

/-- `GetIndex` of the endpoint filters (filter/accessLog.go:25, metrics.go:33, tracing.go:221, failfast.go:91, rateLimit.go:133,
circuitBreaker.go:31). -/
def Builtin.index : Builtin → Int
  | .accessLog => 1
  | .metrics => 2
  | .trace => 2
  | .failfast => 1
  | .rateLimit => 3
  | .breaker => 20

/-- `GetIndex` of the cluster filters (filter/clusterAccessLog.go:17, clusterMetrics.go:18, clusterCircuitBreaker.go:18). -/
def Builtin.clusterIndex : Builtin → Int
  | .accessLog => 1
  | .metrics => 5
  | .breaker => 20
  | _ => 0

/-- The `Filter` methods. -/
def Builtin.body (E : Env) (side : Side) (u : URL) : Builtin → H → H
  | .accessLog => Observe.accessLog E side u
  | .metrics => Observe.metrics E side u
  | .trace => Observe.trace E
  | .failfast => Observe.failfast
  | .rateLimit => Observe.rateLimit E
  | .breaker => Observe.breaker E u

/-- `NewFilter` of an endpoint filter. (`IsAvailable` of the fail-fast filter is the subject of `Model/Failfast.lean`.) -/
def Builtin.inst (E : Env) (side : Side) (k : Builtin) (u : URL) : Filters.Inst H where
  index := k.index
  implCluster := false
  implEndpoint := true
  status := if k = .failfast then some true else none
  body := k.body E side u

/-- `NewFilter` of a cluster filter. -/
def Builtin.clusterInst (E : Env) (k : Builtin) (u : URL) : Filters.Inst H where
  index := k.clusterIndex
  implCluster := true
  implEndpoint := false
  status := none
  body := k.body E .cluster u

/-- An endpoint filter as it is registered. -/
def Builtin.proto (E : Env) (side : Side) (k : Builtin) : Filters.Proto H :=
  { index := k.index, cluster := false, newFilter := fun u => some (k.inst E side u) }

/-- A cluster filter as it is registered. -/
def Builtin.clusterProto (E : Env) (k : Builtin) : Filters.Proto H :=
  { index := k.clusterIndex, cluster := true, newFilter := fun u => some (k.clusterInst E u) }

/-- filter/filter.go:24-62 `RegistDefaultFilters`; `side` is where the endpoint filters are used. -/
def registered (E : Env) (side : Side) : AMap Bytes (Filters.Proto H) :=
  [(b!"accessLog", Builtin.accessLog.proto E side), (b!"metrics", Builtin.metrics.proto E side),
   (b!"circuitBreaker", Builtin.breaker.proto E side), (b!"failfast", Builtin.failfast.proto E side),
   (b!"trace", Builtin.trace.proto E side), (b!"rateLimit", Builtin.rateLimit.proto E side),
   (b!"clusterAccessLog", Builtin.accessLog.clusterProto E), (b!"clusterMetrics", Builtin.metrics.clusterProto E),
   (b!"clusterCircuitBreaker", Builtin.breaker.clusterProto E)]

def factory (E : Env) (side : Side) : Filters.Factory H := Filters.getFilter (registered E side)

/-- server/server.go:274-296: a provider with its filters (`none`: setting them up panics). -/
def provider (E : Env) (sorter : Filters.Sorter) (u : URL) : Option H :=
  (Filters.wrapWithFilter sorter u (factory E .provider)).map fun c => c.run (last E)

/-- cluster/motanCluster.go:247-268: an endpoint with the filters of its cluster. -/
def endpoint (E : Env) (sorter : Filters.Sorter) (clusterUrl u : URL) : Option H :=
  (Filters.initFilters sorter clusterUrl (factory E .endpoint)).map fun x => (Filters.addFilter u x.2).call (last E)

/-- cluster/motanCluster.go:73-74: the filters of a cluster around its HA strategy, which is the callee here. -/
def cluster (E : Env) (sorter : Filters.Sorter) (u : URL) : Option H :=
  (Filters.initFilters sorter u (factory E .endpoint)).map fun x => Filters.clusterCall x.1 (last E)

/-- core/util.go:178-188 `HandlePanic` in server/server.go:210-213 and cluster/motanCluster.go:69-72: a panic becomes
an answer. `none` is the end of the process. -/
def recovered (msg : Bytes) (h : H) (r : Req) (w : World) : Option (Resp × Req × World) :=
  match h r w with
  | (.ret resp, r', w') => some (resp, r', w')
  | (.panic _, r', w') => some (⟨Ha.buildExceptionResponse r'.call.id ⟨500, msg, Ha.serviceException⟩, []⟩, r', w')
  | (.crash, _, _) => none

/-- cluster/motanCluster.go:68-79 `Call` of an available cluster with these filters. -/
def clusterCall (h : H) (r : Req) (w : World) : Option (Resp × Req × World) := recovered b!"cluster call panic" h r w

/-- server/server.go:209-229 `Call` of the message handler, for a request of the provider with these filters. -/
def handlerCall (h : H) (r : Req) (w : World) : Option (Resp × Req × World) := recovered b!"provider call panic" h r w

/-- core/motan.go:443-447 `OnFinish`. -/
def onFinish (E : Env) (r : Req) (resp : Resp) (w : World) : World :=
  { w with log := w.log ++ resp.finish.map fun h => entry E h.filter h.role h.address (ms (r.sent - r.received)) r resp.answer }

/-- What the server writes to the connection: the answer, or the exception it makes when the answer cannot be converted. -/
inductive Reply
  | answer (resp : Response)
  | convertFailed (id : UInt64)

/-- server/motanserver.go:247-295, from `handler.Call` to `OnFinish`. `convert` is whether `ConvertToResMessage` succeeds,
`took` the time until the answer is written (or writing has failed). Attachments set here are left out. -/
def serve (E : Env) (h : H) (convert : Response → Bool) (took : Int) (r : Req) (w : World) : Option (Reply × World) :=
  match handlerCall h r w with
  | none => none
  | some (resp, r', w') =>
    let w1 := { w' with now := w'.now + took }
    some (if convert resp.answer then .answer resp.answer else .convertFailed r.call.id,
      onFinish E { r' with sent := w1.now } resp w1)

end Motan.Observe
