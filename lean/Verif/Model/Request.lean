import Verif.Basic.AMap
import Verif.Basic.Bytes

/-!
# Requests and their clones in memory

core/motan.go:389-626 with the maps (core/map.go:10-83) and the arrays behind slices as cells of a heap, because clones
share some of them. `V` stands for values whose inside does not matter. Calls are atomic: the code gives no guarantee for
a clone taken during a change of the same request.
-/

namespace Motan.Request

variable {V : Type}

/-- A slice that begins at the start of its array; the nil slice has no array. -/
structure Slice where
  addr : Option Nat := none
  len : Nat := 0

/-- The `StringMap`s and the arrays; an array is as long as its capacity. -/
structure Heap (V : Type) where
  maps : List (AMap Bytes Bytes) := []
  arrays : List (List V) := []

/-- The elements of a slice. -/
def Heap.get (h : Heap V) (s : Slice) : List V :=
  match s.addr with
  | none => []
  | some a => (h.arrays[a]?.getD []).take s.len

/-- The capacity of a slice. -/
def Heap.cap (h : Heap V) (s : Slice) : Nat :=
  match s.addr with
  | none => 0
  | some a => (h.arrays[a]?.getD []).length

/-- `append(s, v)`: in place if there is room, otherwise in a new array that has `spare` more elements (`zero`). -/
def Heap.append (h : Heap V) (zero : V) (spare : Nat) (s : Slice) (v : V) : Heap V × Slice :=
  match s.addr with
  | some a =>
    if s.len < h.cap s then
      ({ h with arrays := h.arrays.modify a (·.set s.len v) }, { s with len := s.len + 1 })
    else
      ({ h with arrays := h.arrays ++ [h.get s ++ v :: List.replicate spare zero] },
        { addr := some h.arrays.length, len := s.len + 1 })
  | none =>
    ({ h with arrays := h.arrays ++ [h.get s ++ v :: List.replicate spare zero] },
      { addr := some h.arrays.length, len := s.len + 1 })

/-- A slice literal: a new array. -/
def Heap.slice (h : Heap V) (vs : List V) : Heap V × Slice :=
  ({ h with arrays := h.arrays ++ [vs] }, { addr := some h.arrays.length, len := vs.length })

/-- protocol/motanProtocol.go:85-93 `Message`: header and body are values here. -/
structure Msg (V : Type) where
  header : V
  body : V
  type : Int
  metadata : Option Nat

/-- core/motan.go:389-417 `RPCContext`. -/
structure Ctx (V : Type) where
  extFactory : Option V := none
  originalMessage : Option (Msg V) := none
  oneway : Bool := false
  proxy : Bool := false
  gzipSize : Int := 0
  bodySize : Int := 0
  serializeNum : Int := 0
  serialized : Bool := false
  asyncCall : Bool := false
  result : Option V := none
  reply : Option V := none
  requestSendTime : Nat := 0
  requestReceiveTime : Nat := 0
  responseSendTime : Nat := 0
  responseReceiveTime : Nat := 0
  finishHandlers : Slice := {}
  tc : Option V := none
  isMotanV1 : Bool := false
  remoteAddr : Bytes := []

/-- core/motan.go:478-487 `MotanRequest`. -/
structure Req (V : Type) where
  requestID : UInt64 := 0
  serviceName : Bytes := []
  method : Bytes := []
  methodDesc : Bytes := []
  arguments : Slice := {}
  attachment : Option Nat := none
  rpcContext : Option (Ctx V) := none

/-- The map at an address. -/
def Heap.map (h : Heap V) (a : Nat) : AMap Bytes Bytes := h.maps[a]?.getD []

/-- A new map. -/
def Heap.newMap (h : Heap V) (m : AMap Bytes Bytes) : Heap V := { h with maps := h.maps ++ [m] }

/-- core/motan.go:511-517 `GetAttachment`. -/
def getAttachment (h : Heap V) (r : Req V) (k : Bytes) : Bytes :=
  match r.attachment with
  | none => []
  | some a => (AMap.load (h.map a) k).getD []

/-- core/motan.go:551-565 `GetAttachments`. -/
def getAttachments (h : Heap V) (r : Req V) : Heap V × Req V :=
  match r.attachment with
  | some _ => (h, r)
  | none => (h.newMap [], { r with attachment := some h.maps.length })

/-- core/map.go:23-27, 37-41: `Store`, `Delete` in the map at an address. -/
def Heap.update (h : Heap V) (a : Option Nat) (f : AMap Bytes Bytes → AMap Bytes Bytes) : Heap V :=
  match a with
  | none => h
  | some a => { h with maps := h.maps.modify a f }

/-- core/map.go:70-83: `Copy` of the map at an address, if any. -/
def Heap.copyMap (h : Heap V) (a : Option Nat) : Heap V × Option Nat :=
  match a with
  | none => (h, none)
  | some a => (h.newMap (h.map a), some h.maps.length)

/-- protocol/motanProtocol.go:361-371 `Message.Clone`. -/
def cloneMsg (h : Heap V) (m : Msg V) : Heap V × Msg V :=
  ((h.copyMap m.metadata).1, { header := m.header, body := m.body, type := m.type, metadata := (h.copyMap m.metadata).2 })

/-- core/motan.go:585-609: the context of a clone. The original message is always a `Message` here. -/
def cloneCtx (h : Heap V) (c : Ctx V) : Heap V × Ctx V :=
  let c' : Ctx V :=
    { extFactory := c.extFactory, oneway := c.oneway, proxy := c.proxy, gzipSize := c.gzipSize,
      serializeNum := c.serializeNum, serialized := c.serialized, result := c.result, reply := c.reply,
      requestSendTime := c.requestSendTime, requestReceiveTime := c.requestReceiveTime,
      responseSendTime := c.responseSendTime, responseReceiveTime := c.responseReceiveTime,
      finishHandlers := c.finishHandlers, tc := c.tc }
  match c.originalMessage with
  | none => (h, c')
  | some m => ((cloneMsg h m).1, { c' with originalMessage := some (cloneMsg h m).2 })

/-- core/motan.go:574-611 `Clone`. -/
def clone (h : Heap V) (r : Req V) : Heap V × Req V :=
  let h' := (h.copyMap r.attachment).1
  let r' : Req V :=
    { requestID := r.requestID, serviceName := r.serviceName, method := r.method, methodDesc := r.methodDesc,
      arguments := r.arguments, attachment := (h.copyMap r.attachment).2 }
  match r.rpcContext with
  | none => (h', r')
  | some c => ((cloneCtx h' c).1, { r' with rpcContext := some (cloneCtx h' c).2 })

/-- core/motan.go:419-437, 501-509 `Reset`, for a request with a context. -/
def reset (r : Req V) (c : Ctx V) : Req V :=
  { r with
    method := [], requestID := 0, serviceName := [], methodDesc := [], attachment := none,
    arguments := { r.arguments with len := 0 },
    rpcContext := some { c with
      extFactory := none, originalMessage := none, oneway := false, proxy := false, gzipSize := 0, bodySize := 0,
      serializeNum := 0, serialized := false, result := none, reply := none,
      finishHandlers := { c.finishHandlers with len := 0 }, tc := none, isMotanV1 := false, remoteAddr := [] } }

/-! ## Histories -/

/-- All requests there are, and the numbers of those in the pool. -/
structure St (V : Type) where
  heap : Heap V := {}
  reqs : List (Req V) := []
  free : List Nat := []

/-- What is done to requests. -/
inductive Op (V : Type)
  /-- an application makes a request, with or without context and attachments -/
  | new (id : UInt64) (service method desc : Bytes) (args : List V) (att : Option (AMap Bytes Bytes)) (ctx : Bool)
  /-- a server receives one: protocol/motanProtocol.go:604-637 `ConvertToRequest`, with request `reuse` of the pool -/
  | receive (reuse : Option Nat) (id : UInt64) (service method desc : Bytes) (md : AMap Bytes Bytes) (header body : V)
      (proxy : Bool) (arg : Option V)
  | clone (i : Nat)
  | set (i : Nat) (k v : Bytes)
  | delete (i : Nat) (k : Bytes)
  | touch (i : Nat)
  | setArguments (i : Nat) (vs : List V)
  | addHandler (i : Nat) (v : V)
  /-- it is sent as it came: protocol/motanProtocol.go:641-651, the part of `ConvertToReqMessage` for proxies -/
  | forward (i : Nat) (group : Bytes)
  | release (i : Nat)

/-- core/motan.go:519-522 `SetAttachment`, and `GetAttachments().Delete`. -/
def update (s : St V) (i : Nat) (f : AMap Bytes Bytes → AMap Bytes Bytes) : St V :=
  match s.reqs[i]? with
  | none => s
  | some r =>
    { s with
      heap := (getAttachments s.heap r).1.update (getAttachments s.heap r).2.attachment f
      reqs := s.reqs.set i (getAttachments s.heap r).2 }

/-- protocol/motanProtocol.go:604-637: the fields `ConvertToRequest` sets; the message and the request share the map of
the metadata. -/
def fill (h : Heap V) (zero : V) (spare : Nat) (r : Req V) (id : UInt64) (service method desc : Bytes)
    (md : AMap Bytes Bytes) (header body : V) (proxy : Bool) (arg : Option V) : Heap V × Req V :=
  let a := h.maps.length
  let h := h.newMap md
  let c : Ctx V :=
    { r.rpcContext.getD {} with
      originalMessage := some { header, body, type := 0, metadata := some a }, proxy := proxy }
  let r := { r with requestID := id, serviceName := service, method := method, methodDesc := desc, attachment := some a,
                    rpcContext := some c }
  match arg with
  | none => (h, r)
  | some v => ((h.append zero spare r.arguments v).1, { r with arguments := (h.append zero spare r.arguments v).2 })

/-- One operation; `spare` is the room `append` leaves in new arrays. -/
def step (zero : V) (spare : Nat) (s : St V) : Op V → St V
  | .new id service method desc args att ctx =>
    let h := (s.heap.slice args).1
    { s with
      heap := (match att with | none => h | some m => h.newMap m)
      reqs := s.reqs ++ [{
        requestID := id, serviceName := service, method := method, methodDesc := desc,
        arguments := (s.heap.slice args).2, attachment := att.map fun _ => h.maps.length,
        rpcContext := if ctx then some {} else none }] }
  | .receive reuse id service method desc md header body proxy arg =>
    match reuse.bind fun i => if i ∈ s.free then s.reqs[i]?.map (i, ·) else none with
    | some (i, r) =>
      let f := fill s.heap zero spare r id service method desc md header body proxy arg
      { heap := f.1, reqs := s.reqs.set i f.2, free := s.free.erase i }
    | none =>
      let f := fill s.heap zero spare { rpcContext := some {} } id service method desc md header body proxy arg
      { s with heap := f.1, reqs := s.reqs ++ [f.2] }
  | .clone i =>
    match s.reqs[i]? with
    | none => s
    | some r => { s with heap := (clone s.heap r).1, reqs := s.reqs ++ [(clone s.heap r).2] }
  | .set i k v => update s i (·.store k v)
  | .delete i k => update s i (·.erase k)
  | .touch i => update s i id
  | .setArguments i vs =>
    { s with heap := (s.heap.slice vs).1, reqs := s.reqs.modify i fun r => { r with arguments := (s.heap.slice vs).2 } }
  | .addHandler i v =>
    match s.reqs[i]? with
    | none => s
    | some r =>
      let c := r.rpcContext.getD {}
      let f := s.heap.append zero spare c.finishHandlers v
      { s with heap := f.1, reqs := s.reqs.set i { r with rpcContext := some { c with finishHandlers := f.2 } } }
  | .forward i group =>
    match s.reqs[i]? with
    | none => s
    | some r =>
      match r.rpcContext.bind Ctx.originalMessage with
      | none => s
      | some m => { s with heap := s.heap.update m.metadata (·.store group (getAttachment s.heap r group)) }
  | .release i =>
    match s.reqs[i]? with
    | none => s
    | some r =>
      match r.rpcContext with
      | none => s
      | some c => { s with reqs := s.reqs.set i (reset r c), free := i :: s.free }

def run (zero : V) (spare : Nat) (s : St V) (ops : List (Op V)) : St V := ops.foldl (step zero spare) s

/-- protocol/motanProtocol.go:643-648, 693: the metadata that is sent: of the original message for proxies, otherwise the
attachments. -/
def sentMetadata (h : Heap V) (r : Req V) : AMap Bytes Bytes :=
  match r.rpcContext with
  | none => (r.attachment.map h.map).getD []
  | some c =>
    match (if c.proxy then c.originalMessage else none) with
    | some m => (m.metadata.map h.map).getD []
    | none => (r.attachment.map h.map).getD []

end Motan.Request
