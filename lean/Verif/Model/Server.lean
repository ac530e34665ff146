import Verif.Model.Motan1

/-!
# Model of the motan server and its message handlers

`server/motanserver.go` (164-398), `server/server.go` `DefaultMessageHandler` (163-228) and `agent.go`
`serverAgentMessageHandler` (966-1045).

Not modelled: trace spans, logging, statistics, time stamps, `HttpMotanResponse` (an answer of the
HTTP provider), and the release of the pooled objects (see the model of the pools).
-/

namespace Motan.Server

open Motan2 (Header Message Meta)
open Convert (Lib Ser Exn Request Response RC loadOrEmpty MGroup MMethod MProcessTime)

/-- A response given to the server: `MotanResponse`, with the motan1 message it was received in, if its
`OriginalMessage` is one (core/motan.go:389-417; `Response.rc.original` is then `.other`). -/
structure Res where
  r : Response
  v1 : Option Motan1.Msg := none

/-- How a call ends: with a response, with a nil response, or in a panic. -/
inductive Outcome where
  | returned (res : Option Res)
  | panicked

/-- core/motan.go:726-731 `BuildExceptionResponse`. -/
def exceptionRes (id : UInt64) (e : Exn) : Res :=
  { r := { id := id, value := none, exception := some e, processTime := 0, attachment := [] } }

/-- core/constants.go:6-12: `ServiceException`. -/
def ServiceException : Int := 1
/-- core/constants.go:140 `EProviderNotExist`. -/
def EProviderNotExist : Int := 404
/-- core/constants.go:145 `ProviderNotExistPrefix`. -/
def providerNotExistPrefix : Bytes := b!"provider not exist serviceKey="
/-- core/constants.go:163 `ServiceNotSupport`. -/
def serviceNotSupport : Bytes := b!"service not support"
/-- protocol/motanProtocol.go:56 `MFrameworkService`. -/
def MFrameworkService : Bytes := b!"M_fws"
/-- protocol/motanProtocol.go:51 and 53. -/
def MVersion : Bytes := b!"M_v"
def MSource : Bytes := b!"M_s"
/-- core/constants.go:52 `HostKey`; protocol/motan1Protocol.go:64-66 and core/constants.go:47 `GroupKey`. -/
def HostKey : Bytes := b!"host"
def GroupKey : Bytes := b!"group"
def V1Group : Bytes := b!"group"
def V1Version : Bytes := b!"version"
def V1Application : Bytes := b!"application"

/-! ### Message handlers -/

/-- core/motan.go:300-304 `Provider`: the pointer (`ref`, compared by `==`), the path and group of its URL, the
gzip size of its URL and its `Call`. -/
structure Provider where
  ref : Nat
  group : Bytes
  path : Bytes
  gzipSize : Int
  call : Request → Outcome

/-- server/server.go:163-166 and agent.go:966-969: providers and framework providers by key. -/
structure Handler where
  providers : AMap Bytes Provider
  framework : AMap Bytes Provider

/-- server/server.go:184-192: no providers, the framework provider `meta`
(its name is in meta/service.go:4). -/
def Handler.init (metaName : Bytes) (metaProvider : Provider) : Handler :=
  ⟨[], [(metaName, metaProvider)]⟩

/-- server/server.go:210-213, agent.go:1005-1008: the answer after a recovered panic. -/
def panicRes (id : UInt64) : Res := exceptionRes id ⟨500, b!"provider call panic", ServiceException⟩

/-- server/server.go:216, agent.go:1018: the call of a framework provider, with the recovery of panics. -/
def frameworkCall (p : Provider) (req : Request) : Option Res :=
  match p.call req with
  | .returned res => res
  | .panicked => some (panicRes req.id)

/-- server/server.go:223-225, agent.go:1024-1027: the call of a provider, with the recovery of panics; the
gzip size of its URL is put into the context of the response, which panics if there is none. -/
def providerCall (p : Provider) (req : Request) : Option Res :=
  match p.call req with
  | .returned (some res) => some { res with r := { res.r with rc := { res.r.rc with gzipSize := p.gzipSize } } }
  | .returned none => some (panicRes req.id)
  | .panicked => some (panicRes req.id)

/-- server/server.go:209-230 and agent.go:1004-1032: the common part of the two `Call`s, `key` being the key
under which the provider is sought. -/
def callKey (h : Handler) (key : Bytes) (req : Request) : Option Res :=
  if loadOrEmpty req.attachment MFrameworkService ≠ [] then
    match h.framework.load req.service with
    | some fp => frameworkCall fp req
    | none => some (exceptionRes req.id ⟨501, serviceNotSupport, ServiceException⟩)
  else
    match h.providers.load key with
    | some p => providerCall p req
    | none => some (exceptionRes req.id ⟨EProviderNotExist, providerNotExistPrefix ++ key, ServiceException⟩)

/-- server/server.go:209-230 `DefaultMessageHandler.Call`. -/
def defaultCall (h : Handler) (req : Request) : Option Res := callKey h req.service req

/-- server/server.go:194-197 `AddProvider`. -/
def defaultAdd (h : Handler) (p : Provider) : Handler := { h with providers := h.providers.store p.path p }

/-- server/server.go:199-204 `RmProvider`: only the very provider that is registered. -/
def defaultRm (h : Handler) (p : Provider) : Handler :=
  match h.providers.load p.path with
  | some dp => if p.ref = dp.ref then { h with providers := h.providers.erase p.path } else h
  | none => h

/-- agent.go:1000-1002 `getServiceKey`. -/
def serviceKey (group path : Bytes) : Bytes := group ++ b!"_" ++ path

/-- agent.go:1009-1013: the group of a request. -/
def requestGroup (req : Request) : Bytes :=
  let g := loadOrEmpty req.attachment MGroup
  if g = [] then loadOrEmpty req.attachment GroupKey else g

/-- agent.go:1004-1032 `serverAgentMessageHandler.Call`. -/
def agentCall (h : Handler) (req : Request) : Option Res :=
  callKey h (serviceKey (requestGroup req) req.service) req

/-- agent.go:1034-1037 `AddProvider`. -/
def agentAdd (h : Handler) (p : Provider) : Handler :=
  { h with providers := h.providers.store (serviceKey p.group p.path) p }

/-- agent.go:1039-1041 `RmProvider`: whatever is registered under the key. -/
def agentRm (h : Handler) (p : Provider) : Handler :=
  { h with providers := h.providers.erase (serviceKey p.group p.path) }

/-! ### The server -/

/-- What a server is given: library functions, the serializations by number (`GetSerialization`), the text of
errors, and its switches (server/motanserver.go:46-56). -/
structure Env where
  lib : Lib
  sers : Nat → Option Ser
  errText : Convert.Err → Bytes
  err1Text : Motan1.Err → Bytes
  heartbeatEnabled : Bool
  proxy : Bool

/-- What is written to the connection for one message. -/
inductive Answer where
  | v2 (m : Message)
  | v1 (b : Bytes)

/-- How the processing of a message ends: an answer to write, the connection closed, or nothing at all. -/
inductive Out where
  | sent (a : Answer)
  | closed
  | nothing

/-- protocol/motanProtocol.go:149-158 `BuildHeartbeat` (`defaultSerialize` is 6). -/
def buildHeartbeat (id : UInt64) (msgType : Int) : Message :=
  ⟨(Motan2.buildHeader msgType true 6 id Motan2.Normal).setHeartbeat true, [], [], 0⟩

/-- The message a response was received in, with an attachment of the response set: the attachments are the
map of that message (protocol/motanProtocol.go:768). -/
def setOriginal (o : Option Convert.Original) (k v : Bytes) : Option Convert.Original :=
  match o with
  | some (.v2 m) => some (.v2 { m with metadata := m.metadata.store k v })
  | o => o

/-- server/motanserver.go:253-257 and 340-344: the proxy flag and the process time `pt`. -/
def finishRes (proxy : Bool) (pt : Bytes) (r : Response) : Response :=
  let r := { r with rc := { r.rc with proxy := proxy } }
  if loadOrEmpty r.attachment MProcessTime = [] then
    { r with attachment := r.attachment.store MProcessTime pt,
             rc := { r.rc with original := setOriginal r.rc.original MProcessTime pt } }
  else r

/-- server/motanserver.go:267: the exception answer for a response that cannot be sent. -/
def convertFail (env : Env) (id : UInt64) (err : Bytes) : Message :=
  Convert.buildExceptionResponse id
    (env.lib.jsonEnc ⟨500, b!"convert to response fail. err:" ++ err, ServiceException⟩)

/-- server/motanserver.go:235: the exception answer for a request that cannot be read. -/
def deserializeFail (env : Env) (msg : Message) (e : Convert.Err) : Message :=
  Convert.buildExceptionResponse msg.header.requestID
    (env.lib.jsonEnc ⟨500, b!"deserialize fail. err:" ++ env.errText e ++ b!" method:" ++
      loadOrEmpty msg.metadata MMethod, ServiceException⟩)

/-- server/motanserver.go:252-268: the message for what the handler returned. -/
def answerMessage (env : Env) (ser : Option Ser) (pt : Bytes) (id : UInt64) (res : Option Res) : Message :=
  match res with
  | some res =>
    match Convert.convertToResMessage env.lib ser (finishRes env.proxy pt res.r) with
    | .ok m => m
    | .error e => convertFail env id (env.errText e)
  | none => convertFail env id b!"handler call return nil"

/-- server/motanserver.go:272: the id of the connection is restored. -/
def withId (m : Message) (id : UInt64) : Message := { m with header := { m.header with requestID := id } }

/-- server/motanserver.go:211-213: the message as the server sees it. -/
def received (env : Env) (ip : Bytes) (msg : Message) : Message :=
  { msg with metadata := msg.metadata.store HostKey ip, header := msg.header.setProxy env.proxy }

/-- server/motanserver.go:210-310 `processV2`. `call` is `m.handler.Call`; `pt` the measured process time. A panic
is recovered at 211 and leaves no answer. -/
def processV2 (env : Env) (call : Request → Outcome) (pt ip : Bytes) (msg : Message) : Out :=
  let msg := received env ip msg
  let id := msg.header.requestID
  if msg.header.isHeartbeat then
    if env.heartbeatEnabled = false then .closed
    else .sent (.v2 (withId (buildHeartbeat id Motan2.Res) id))
  else
    let ser := env.sers msg.header.getSerialize
    match Convert.convertToRequest env.lib ser msg with
    | .error e => .sent (.v2 (withId (deserializeFail env msg e) id))
    | .ok req =>
      match call req with
      | .panicked => .nothing
      | .returned res => .sent (.v2 (withId (answerMessage env ser pt id res) id))

/-- protocol/motan1Protocol.go:112-121: the request of a decoded motan1 message. -/
def requestV1 (msg : Motan1.Msg) (st : Motan1.ReqStream) : Request :=
  { id := msg.rid, service := st.service, method := st.method, desc := st.desc, args := [],
    attachment := st.attachment, rc := { original := some .other } }

/-- server/motanserver.go:387-398: `dst` is filled from `src` if it is empty. -/
def fillAttachment (m : Meta) (dst src : Bytes) : Meta :=
  if loadOrEmpty m dst = [] then m.store dst (loadOrEmpty m src) else m

/-- server/motanserver.go:387-398 `setV1Attachments`. -/
def setV1Attachments (req : Request) : Request :=
  let m := fillAttachment req.attachment MGroup V1Group
  let m := fillAttachment m MVersion V1Version
  { req with attachment := fillAttachment m MSource V1Application }

/-- server/motanserver.go:312-369 `processV1`. When the request cannot be decoded `req` is nil, and
`setV1Attachments` panics before the error is looked at: the panic is recovered and nothing is written. -/
def processV1 (env : Env) (call : Request → Outcome) (ip : Bytes) (msg : Motan1.Msg) : Out :=
  match Motan1.decodeRequest env.lib msg with
  | .error _ => .nothing
  | .ok st =>
    let req := setV1Attachments (requestV1 msg st)
    let req := { req with attachment := req.attachment.store HostKey ip }
    if Motan1.isHeartbeatReq req.service req.method then
      if env.heartbeatEnabled = false then .closed
      else .sent (.v1 (Motan1.buildHeartbeatRes req.id))
    else
      match call req with
      | .panicked => .nothing
      | .returned none => .nothing
      | .returned (some res) =>
        match Motan1.encodeResponse res.v1 res.r.id (res.r.exception.map (·.errMsg)) with
        | .error _ => .nothing
        | .ok b => if b = [] then .nothing else .sent (.v1 b)

/-! ### A connection -/

/-- A message read from a connection. -/
inductive Incoming where
  | v1 (m : Motan1.Msg)
  | v2 (m : Message)

/-- server/motanserver.go:178-206: the next message of the remaining input, `none` if the loop ends. -/
def nextMessage (maxLen : Nat) (s : Bytes) : Option (Incoming × Bytes) :=
  match Motan2.checkMotanVersion s with
  | .error _ => none
  | .ok v =>
    if v = Motan2.Version1 then
      match Motan1.readV1Message maxLen s with
      | (.error _, _) => none
      | (.ok m, s) => some (.v1 m, s)
    else if v = Motan2.Version2 then
      match Motan2.decode maxLen Motan2.DefaultBufferSize 0 s with
      | ⟨.error _, _, _⟩ => none
      | ⟨.ok m, s, _⟩ => some (.v2 m, s)
    else none

/-- The processing of a message. -/
def process (env : Env) (call : Request → Outcome) (pt ip : Bytes) : Incoming → Out
  | .v1 m => processV1 env call ip m
  | .v2 m => processV2 env call pt ip m

/-- A connection: what is still to be read, whether it is still read and open, the messages read so far, those
being processed (with their number), the answers written (with the number of the message they are for), and the
numbers of the messages that were refused by the pool and of those that got no answer otherwise. -/
structure Conn where
  input : Bytes
  reading : Bool := true
  isOpen : Bool := true
  seen : List Incoming := []
  pending : List (Nat × Incoming) := []
  written : List (Nat × Answer) := []
  refused : List Nat := []
  lost : List Nat := []

/-- What happens on a connection, in any order: the reading goroutine reads a message and starts its processing
(`go`, or the pool of 50000 goroutines, server/motanserver.go:24, which refuses a message when it is full and has
1024 messages waiting), or ends; a message is processed. `call` and `pt` are whatever the handler and the clock do
at that time; `Ok` says what handlers are possible. A write fails on a closed connection
and may fail at any time, which closes it. -/
inductive Step (Ok : (Request → Outcome) → Prop) (env : Env) (maxLen : Nat) (ip : Bytes) : Conn → Conn → Prop where
  | read {c : Conn} {m rest} : c.reading = true → nextMessage maxLen c.input = some (m, rest) →
      Step Ok env maxLen ip c { c with input := rest, seen := c.seen ++ [m],
                                       pending := c.pending ++ [(c.seen.length, m)] }
  | refused {c : Conn} {m rest} : c.reading = true → nextMessage maxLen c.input = some (.v2 m, rest) →
      Step Ok env maxLen ip c { c with input := rest, seen := c.seen ++ [.v2 m],
                                       refused := c.refused ++ [c.seen.length] }
  | stop {c : Conn} : c.reading = true → nextMessage maxLen c.input = none →
      Step Ok env maxLen ip c { c with reading := false, isOpen := false }
  | answer {c : Conn} {l r n m call pt a} : c.pending = l ++ (n, m) :: r → Ok call → c.isOpen = true →
      process env call pt ip m = .sent a →
      Step Ok env maxLen ip c { c with pending := l ++ r, written := c.written ++ [(n, a)] }
  | writeFails {c : Conn} {l r n m call pt a} : c.pending = l ++ (n, m) :: r → Ok call →
      process env call pt ip m = .sent a →
      Step Ok env maxLen ip c { c with pending := l ++ r, lost := c.lost ++ [n], isOpen := false }
  | closes {c : Conn} {l r n m call pt} : c.pending = l ++ (n, m) :: r → Ok call →
      process env call pt ip m = .closed →
      Step Ok env maxLen ip c { c with pending := l ++ r, lost := c.lost ++ [n], isOpen := false }
  | silent {c : Conn} {l r n m call pt} : c.pending = l ++ (n, m) :: r → Ok call →
      process env call pt ip m = .nothing →
      Step Ok env maxLen ip c { c with pending := l ++ r, lost := c.lost ++ [n] }

/-- The states a connection with input `s` can reach. -/
inductive Reach (Ok : (Request → Outcome) → Prop) (env : Env) (maxLen : Nat) (ip s : Bytes) : Conn → Prop where
  | start : Reach Ok env maxLen ip s { input := s }
  | step {c c'} : Reach Ok env maxLen ip s c → Step Ok env maxLen ip c c' → Reach Ok env maxLen ip s c'

end Motan.Server
