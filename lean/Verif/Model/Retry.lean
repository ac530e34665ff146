import Verif.Model.Call
import Verif.Model.Ha

/-! # The same request, given to one endpoint after another

`FailOverHA.Call` (ha/failoverHA.go:24-58, the call at 41) gives the same request object to `MotanCommonEndpoint.Call` of one
endpoint after the other. Each of these calls leaves something behind in the request: the
context, the group, the attachments and, for a request an agent relays, the message it was received in. -/

namespace Motan.Retry

open Motan2 (Message)
open Convert (Lib Request Response Err)
open Call

/-- One call of `MotanCommonEndpoint.Call`: the endpoint, the number of the stream
(endpoint/motanCommonEndpoint.go:574-580), and whether the endpoint gives a channel (155-171). -/
structure Attempt where
  ep : Ep
  streamId : UInt64
  channel : Bool := true

/-- The request after its conversion to the message `m` (protocol/motanProtocol.go:640-702): the message of a relayed request
is `m` itself (642-649, and endpoint/motanCommonEndpoint.go:452 for the id); otherwise the attachments of the request are the
metadata of `m` (683 `req.Metadata = request.GetAttachments()`). `BodySize` is set at 647 and 685. -/
def sent (req : Request) (m : Message) : Request :=
  { req with
    attachment := m.metadata
    rc := { req.rc with
            original := match req.rc.proxy, req.rc.original with
              | true, some (.v2 _) => some (.v2 m)
              | _, o => o
            bodySize := m.body.length } }

/-- endpoint/motanCommonEndpoint.go:149-175 with 438-452: the request after an attempt. Without a channel only the context is
set (150-152); if the conversion fails (448-451) the group is set as well (174). What becomes of the message afterwards, and
the answer, leave the request as it is. Only requests that are not motan1. -/
def attempt (lib : Lib) (req : Request) (a : Attempt) : Request :=
  if a.channel then
    match requestMessage lib a.ep a.streamId req with
    | .ok m => sent (fitGroup a.ep (withContext a.ep req)) m
    | .error _ => fitGroup a.ep (withContext a.ep req)
  else withContext a.ep req

/-- The request after several attempts, in their order. -/
def tried (lib : Lib) (req : Request) (l : List Attempt) : Request := l.foldl (attempt lib) req

/-! ### The rounds of `FailOverHA.Call`, with what is behind the endpoints -/

/-- What is behind an endpoint: a failure (any `Chan` but an answer is meant), or a server, with the buffer the request is
written with and the greatest length of an answer. -/
inductive Net where
  | down (c : Chan)
  | server (p : Peer) (buf : Option BytesBuffer) (maxLen : Nat)

/-- A round of ha/failoverHA.go:34-49 in which the load balancer gives an endpoint. -/
structure Round where
  ep : Ep
  streamId : UInt64
  net : Net

/-- endpoint/motanCommonEndpoint.go:154-175: what becomes of the call of `req` in this round. -/
def Round.chan (errText : Err → Bytes) (x : Round) (req : Request) : Chan :=
  match x.net with
  | .down c => c
  | .server p buf maxLen => exchange p errText x.ep maxLen buf x.streamId req

/-- The attempt of a round: without a pool or a channel (endpoint/motanCommonEndpoint.go:154-171) the request is not sent. -/
def Round.attempt (x : Round) : Attempt :=
  { ep := x.ep, streamId := x.streamId,
    channel := match x.net with
      | .down .null => false
      | .down .refused => false
      | _ => true }

/-- The request as round `k` is given it. -/
def requestAt (lib : Lib) (req : Request) (rounds : Nat → Round) (k : Nat) : Request :=
  tried lib req ((List.range k).map fun i => (rounds i).attempt)

/-- The result of the call of round `k` (ha/failoverHA.go:41). `version` is the heartbeat version of the endpoint. -/
def resultAt (lib : Lib) (errText : Err → Bytes) (version : Nat → Int) (req : Request) (rounds : Nat → Round) (k : Nat) : Result :=
  call lib errText (rounds k).ep (requestAt lib req rounds k) .none (version k)
    ((rounds k).chan errText (requestAt lib req rounds k))

/-- ha/failoverHA.go:30-59 `FailOverHA.Call` over these endpoints: the answer, and the endpoints called. -/
def failover (lib : Lib) (errText : Err → Bytes) (version : Nat → Int) (u : Url.URL) (req : Request) (rounds : Nat → Round) :
    Response × List Ep :=
  Ha.failoverCall u req.method req.desc req.id fun k =>
    .call (rounds k).ep (some (resultAt lib errText version req rounds k).resp)

end Motan.Retry
