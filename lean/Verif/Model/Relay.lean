import Verif.Model.Call

/-!
# Model of a call that is relayed by agents

`agent.go`: `agentMessageHandler.Call` 828-843 and `clusterCall` 729-738 with a cluster of one endpoint that is tried once
(which cluster is found is the subject of Model/Routing.lean, which endpoint is chosen and how often it is tried that of the
models of the load balancers and of the HA strategies, and the filters that of Model/Filters.lean), `fillDefaultReqInfo`
799-826, and core/motan.go:965-974 `lastEndPointFilter.Filter`. Not modelled: trace spans, logging, `httpCall` (740-797).
-/

namespace Motan.Relay

open Motan2 (Message Meta encode)
open Convert (Lib Request Response Err loadOrEmpty MGroup)
open Server (Env Outcome GroupKey MSource)
open Call (Ep Peer isV1 call exchange)

/-- core/constants.go:33 `ApplicationKey`. -/
def ApplicationKey : Bytes := b!"application"
/-- core/constants.go:80 `XForwardedForLower`. -/
def XForwardedForLower : Bytes := b!"x-forwarded-for"

/-- core/motan.go:520-522 `SetAttachment` of a request: the attachments of a request that was received in a motan2 message
are the map of that message (protocol/motanProtocol.go:620). -/
def setAttachment (r : Request) (k v : Bytes) : Request :=
  { r with attachment := r.attachment.store k v, rc := { r.rc with original := Server.setOriginal r.rc.original k v } }

/-- core/motan.go:665-667 `SetAttachment` of a response. -/
def setResAttachment (r : Response) (k v : Bytes) : Response :=
  { r with attachment := r.attachment.store k v, rc := { r.rc with original := Server.setOriginal r.rc.original k v } }

/-- agent.go:801-810 (motan1) and 812-821: the application of the caller. `app` is the parameter `application` of the URL of
the cluster. -/
def fillSource (r : Request) (app : Bytes) : Request :=
  if isV1 r then
    if loadOrEmpty r.attachment ApplicationKey = [] then
      if app ≠ [] then setAttachment r ApplicationKey app else r
    else r
  else
    if loadOrEmpty r.attachment MSource = [] then
      if loadOrEmpty r.attachment ApplicationKey ≠ [] then setAttachment r MSource (loadOrEmpty r.attachment ApplicationKey)
      else if app ≠ [] then setAttachment r MSource app else r
    else r

/-- agent.go:807-809 (motan1) and 822-824: the group. -/
def fillGroup (r : Request) (group : Bytes) : Request :=
  if isV1 r then
    if loadOrEmpty r.attachment GroupKey = [] then setAttachment r GroupKey group else r
  else
    if loadOrEmpty r.attachment MGroup = [] then setAttachment r MGroup group else r

/-- agent.go:799-826 `fillDefaultReqInfo`; `app` and `group` are those of the URL of the cluster. -/
def fillDefaultReqInfo (r : Request) (app group : Bytes) : Request := fillGroup (fillSource r app) group

/-- An agent that relays: its server (environment, process time, address of its client, greatest length of a message, buffer of
its answers), the application and the group of the URL of the cluster, the endpoint with its greatest length of a message, its
buffer, the id its connection uses for the call, its heartbeat version, and the address of the endpoint. -/
structure Hop where
  env : Env
  pt : Bytes
  ip : Bytes
  maxLen : Nat
  buf : Option BytesBuffer
  app : Bytes
  group : Bytes
  ep : Ep
  epMaxLen : Nat
  epBuf : Option BytesBuffer
  streamId : UInt64
  version : Int
  addr : Bytes

/-- agent.go:839-841, with core/motan.go:970-972: the address of the endpoint that answered is an attachment. -/
def setRemote (addr : Bytes) (r : Response) : Response :=
  if addr ≠ [] then setResAttachment r XForwardedForLower addr else r

/-- agent.go:828-843 `agentMessageHandler.Call`: the request is sent through the endpoint to `next`. -/
def agentHandler (h : Hop) (next : Peer) (req : Request) : Outcome :=
  let req := fillDefaultReqInfo req h.app h.group
  .returned (some { r := setRemote h.addr (call h.env.lib h.env.errText h.ep req .none h.version
    (exchange next h.env.errText h.ep h.epMaxLen h.epBuf h.streamId req)).resp })

/-- The agent, seen by its client. -/
def relay (h : Hop) (next : Peer) : Peer :=
  { env := h.env, handler := agentHandler h next, pt := h.pt, ip := h.ip, maxLen := h.maxLen, buf := h.buf }

/-- A chain of agents in front of a server. -/
def chain (hops : List Hop) (server : Peer) : Peer := hops.foldr relay server

end Motan.Relay
