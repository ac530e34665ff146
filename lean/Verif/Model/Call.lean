import Verif.Model.Server

/-!
# Model of one call through a motan endpoint, and of the way from the caller to the handler and back

`endpoint/motanCommonEndpoint.go`: `Call` 149-202, `fitGroup` 204-217, `defaultErrMotanResponse` 342-348, the message built by
`Stream.Send` 438-454, `Stream.notify` 519-568, the message part of `recvLoop` 670-695 and `handleMsg` 697-735.

The schedule (timeouts, other calls on the connection, closing) is the subject of Model/Stream.lean; here its result is a
`Chan`. What `recordErrAndKeepalive` and `resetErr` do is the subject of Model/Availability.lean; here it is recorded which
of them was called. Not modelled: trace spans, logging, time stamps, the release of the pooled objects.
-/

namespace Motan.Call

open Motan2 (Message Meta encode)
open Convert (Lib Ser Exn Request Response Err Original loadOrEmpty MGroup)
open Simple (Hint)
open Server (GroupKey ServiceException)

/-- endpoint/motanCommonEndpoint.go:33-58: the fields of an endpoint a call uses: the group of its URL, whether it is a
proxy, its gzip size and its serialization. -/
structure Ep where
  group : Bytes
  proxy : Bool
  gzipSize : Int
  ser : Option Ser

/-- core/constants.go:6-12 `BizException`. -/
def BizException : Int := 2
/-- core/constants.go:137-139. -/
def ENoChannel : Int := 1002
def EUnkonwnMsg : Int := 1003
def EConvertMsg : Int := 1004

/-- protocol/motan1Protocol.go:119-120: `OriginalMessage` is a motan1 message, and `IsMotanV1` is set with it. -/
def isV1 (req : Request) : Bool :=
  match req.rc.original with
  | some .other => true
  | _ => false

/-- endpoint/motanCommonEndpoint.go:150-152: the context of the request. -/
def withContext (ep : Ep) (req : Request) : Request :=
  { req with rc := { req.rc with proxy := ep.proxy, gzipSize := ep.gzipSize } }

/-- endpoint/motanCommonEndpoint.go:204-217 `fitGroup`, with endpoint/endpoint.go:50-56 `GetRequestGroup` (the code is that of
agent.go:1009-1013). The attachments of a request that was received in a motan2 message are the map of that message; the
conversion copies the group into the message anyway (protocol/motanProtocol.go:644). -/
def fitGroup (ep : Ep) (req : Request) : Request :=
  if isV1 req then
    if loadOrEmpty req.attachment GroupKey ≠ ep.group ∧ ep.group ≠ [] then
      { req with attachment := req.attachment.store GroupKey ep.group }
    else req
  else
    if Server.requestGroup req ≠ ep.group ∧ ep.group ≠ [] then
      { req with attachment := req.attachment.store MGroup ep.group }
    else req

/-- endpoint/motanCommonEndpoint.go:442-449 in `Stream.Send`: the message of a request that is not motan1. -/
def requestMessage (lib : Lib) (ep : Ep) (streamId : UInt64) (req : Request) : Except Err Message :=
  (Convert.convertToReqMessage lib ep.ser (fitGroup ep (withContext ep req))).map fun m => Server.withId m streamId

/-- core/motan.go:726-731 `BuildExceptionResponse`. -/
def exceptionResponse (id : UInt64) (e : Exn) : Response :=
  { id := id, value := none, exception := some e, processTime := 0, attachment := [] }

/-- endpoint/motanCommonEndpoint.go:342-348 `defaultErrMotanResponse`. -/
def errResponse (req : Request) (text : Bytes) : Response := exceptionResponse req.id ⟨400, text, ServiceException⟩

/-- What `handleMsg` gives to `notify` (697-716): a decoded motan1 response, a motan2 message, or nil for a motan1 message that
cannot be decoded. -/
inductive Got where
  | v1 (r : Motan1.Res)
  | v2 (m : Message)
  | unknown

/-- protocol/motan1Protocol.go:144-151: the exception of a motan1 response. -/
def v1Exception (e : Motan1.ExnKind × Bytes) : Exn :=
  match e.1 with
  | .biz => ⟨500, e.2, BizException⟩
  | .service => ⟨500, e.2, ServiceException⟩

/-- protocol/motan1Protocol.go:131-159: the response made of a motan1 message; its only value is that of a heartbeat, which
`handleMsg` does not give to a call. -/
def v1Response (r : Motan1.Res) : Response :=
  { id := r.id, value := none, exception := r.exception.map v1Exception, processTime := r.processTime, attachment := [],
    rc := { original := some .other } }

/-- endpoint/motanCommonEndpoint.go:519-568 `Stream.notify` for a call (`s.req` and `s.rc` are not nil). -/
def notify (lib : Lib) (ep : Ep) (req : Request) (got : Got) : Response :=
  match got with
  | .v1 r => { v1Response r with id := req.id }
  | .v2 m =>
    match Convert.convertToResponse lib ep.ser (Server.withId { m with header := m.header.setProxy ep.proxy } req.id) with
    | .ok r => r
    | .error _ => exceptionResponse req.id ⟨EConvertMsg, b!"convert response fail", ServiceException⟩
  | .unknown => exceptionResponse req.id ⟨EUnkonwnMsg, b!"receive unsupported msg", ServiceException⟩

/-- What becomes of a call: no pool, no channel, the error of `Channel.Call` (631-642), or an answer. -/
inductive Chan where
  | null
  | refused
  | failed (err : Bytes)
  | answered (got : Got)

/-- The result of `Call`: the response; the exception given to `recordErrAndKeepalive`, if it was called; whether
`resetErr` was called; the heartbeat version of the endpoint. -/
structure Result where
  resp : Response
  recorded : Option Exn
  reset : Bool
  version : Int

/-- endpoint/motanCommonEndpoint.go:184: an exception that is not the business's. -/
def failure (r : Response) : Option Exn :=
  match r.exception with
  | some e => if e.errType ≠ BizException then some e else none
  | none => none

/-- endpoint/motanCommonEndpoint.go:189-195: the first answered request determines the version of the heartbeats
(protocol/motanProtocol.go:38-39: `Version1` is 0, `Version2` is 1). -/
def heartbeatVersion (req : Request) (version : Int) : Int :=
  if version = -1 then (if isV1 req then 0 else 1) else version

/-- endpoint/motanCommonEndpoint.go:197-201: the value is deserialized, unless the endpoint is a proxy. -/
def finish (errText : Err → Bytes) (ep : Ep) (req : Request) (reply : Hint) (r : Response) : Response :=
  if ep.proxy then r
  else
    match r.processDeserializable reply with
    | .ok r => r
    | .error e => errResponse req (errText e)

/-- endpoint/motanCommonEndpoint.go:149-202 `Call`. `reply` is `rc.Reply`, `version` the heartbeat version before. -/
def call (lib : Lib) (errText : Err → Bytes) (ep : Ep) (req : Request) (reply : Hint) (version : Int) (c : Chan) : Result :=
  match c with
  | .null =>
    let r := errResponse req b!"motanEndpoint error: channels is null"
    ⟨r, r.exception, false, version⟩
  | .refused =>
    let r := exceptionResponse req.id ⟨ENoChannel, b!"can not get a channel", ServiceException⟩
    ⟨r, r.exception, false, version⟩
  | .failed err =>
    let r := errResponse req (b!"channel call error:" ++ err)
    ⟨r, r.exception, false, version⟩
  | .answered got =>
    let r := notify lib ep req got
    match failure r with
    | some e => ⟨finish errText ep req reply r, some e, false, version⟩
    | none => ⟨finish errText ep req reply r, none, true, heartbeatVersion req version⟩

/-! ### From the caller to the handler and back -/

/-- A server with its handler: the environment, what the handler does, the measured process time, the address of the peer, the
greatest length of a message, and the buffer an answer is written with. -/
structure Peer where
  env : Server.Env
  handler : Request → Server.Outcome
  pt : Bytes
  ip : Bytes
  maxLen : Nat
  buf : Option BytesBuffer

/-- What the client makes of the answer (endpoint/motanCommonEndpoint.go:670-695 `recvLoop`, whose reading of a message is the
code of server/motanserver.go:178-206, and 697-735 `handleMsg`): the answer goes to the stream that has its id. -/
def receive (maxLen : Nat) (streamId : UInt64) (bytes : Bytes) : Chan :=
  match Server.nextMessage maxLen bytes with
  | some (.v2 m, _) =>
    if m.header.isHeartbeat = false ∧ m.header.requestID = streamId then .answered (.v2 m)
    else .failed b!"timeout"
  | _ => .failed b!"channel closed"

/-- One motan2 request over a connection: written by the client, read and processed by the server, and the answer read by the
client. (The texts of the failures that are not errors of the conversion are not those of the code.) -/
def exchange (p : Peer) (errText : Err → Bytes) (ep : Ep) (maxLen : Nat) (buf : Option BytesBuffer) (streamId : UInt64)
    (req : Request) : Chan :=
  match requestMessage p.env.lib ep streamId req with
  | .error e => .failed (errText e)
  | .ok msg =>
    match Server.nextMessage p.maxLen (encode buf msg) with
    | some (m, _) =>
      match Server.process p.env p.handler p.pt p.ip m with
      | .sent (.v2 a) => receive maxLen streamId (encode p.buf a)
      | .sent (.v1 _) => .failed b!"timeout"
      | .closed => .failed b!"channel closed"
      | .nothing => .failed b!"timeout"
    | none => .failed b!"channel closed"

end Motan.Call
