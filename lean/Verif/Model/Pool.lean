import Verif.Basic.AMap
import Verif.Basic.Bytes

/-!
# Pooled requests, responses and messages

The `sync.Pool`s of core/motan.go, http/httpProxy.go and protocol/motanProtocol.go with the `Reset` of each object.
`V` stands for all values whose inside does not matter here (arguments, pointers to other objects). Slices are the lists
of their elements; what is behind the end of a slice is in `Model/Request.lean`.
-/

namespace Motan.Pool

variable {V : Type}

/-- core/motan.go:389-417 `RPCContext`; none is nil. -/
structure Ctx (V : Type) where
  extFactory : Option V := none
  originalMessage : Option V := none
  oneway : Bool := false
  proxy : Bool := false
  gzipSize : Int := 0
  bodySize : Int := 0
  serializeNum : Int := 0
  serialized : Bool := false
  asyncCall : Bool := false
  result : Option V := none
  reply : Option V := none
  requestSendTime : Nat := 0
  requestReceiveTime : Nat := 0
  responseSendTime : Nat := 0
  responseReceiveTime : Nat := 0
  finishHandlers : List V := []
  tc : Option V := none
  isMotanV1 : Bool := false
  remoteAddr : Bytes := []

/-- core/motan.go:419-437 `RPCContext.Reset`. -/
def Ctx.reset (c : Ctx V) : Ctx V :=
  { c with
    extFactory := none, originalMessage := none, oneway := false, proxy := false, gzipSize := 0, bodySize := 0,
    serializeNum := 0, serialized := false, result := none, reply := none, finishHandlers := [], tc := none,
    isMotanV1 := false, remoteAddr := [] }

/-- core/motan.go:478-487 `MotanRequest` without the mutex. -/
structure Req (V : Type) where
  requestID : UInt64 := 0
  serviceName : Bytes := []
  method : Bytes := []
  methodDesc : Bytes := []
  arguments : List V := []
  attachment : Option (AMap Bytes Bytes) := none
  rpcContext : Option (Ctx V) := none

/-- core/motan.go:501-509 `MotanRequest.Reset`; none: panic (nil context). -/
def Req.reset (r : Req V) : Option (Req V) :=
  match r.rpcContext with
  | none => none
  | some c =>
    some { r with
      method := [], requestID := 0, serviceName := [], methodDesc := [], rpcContext := some c.reset, attachment := none,
      arguments := [] }

/-- core/motan.go:21-26: what the pool makes. -/
def Req.new : Req V := { rpcContext := some {} }

/-- core/motan.go:382-386 `Exception`. -/
structure Exception where
  errCode : Int
  errMsg : Bytes
  errType : Int

/-- core/motan.go:628-636 `MotanResponse` without the mutex. -/
structure Res (V : Type) where
  requestID : UInt64 := 0
  value : Option V := none
  exception : Option Exception := none
  processTime : Int := 0
  attachment : Option (AMap Bytes Bytes) := none
  rpcContext : Option (Ctx V) := none

/-- core/motan.go:649-656 `MotanResponse.Reset`; none: panic (nil context). -/
def Res.reset (r : Res V) : Option (Res V) :=
  match r.rpcContext with
  | none => none
  | some c =>
    some { r with
      requestID := 0, value := none, exception := none, processTime := 0, attachment := none, rpcContext := some c.reset }

/-- core/motan.go:27-31: what the pool makes. -/
def Res.new : Res V := { rpcContext := some {} }

/-- http/httpProxy.go:100-103 `HttpMotanResponse`. -/
structure HttpRes (V : Type) where
  base : Res V
  httpResponse : Option V := none

/-- http/httpProxy.go:105-113, 119-127 `HttpMotanResponse.Reset`; none: panic. -/
def HttpRes.reset (r : HttpRes V) : Option (HttpRes V) :=
  (r.base.reset).map fun b => { base := b, httpResponse := none }

/-- http/httpProxy.go:92-96: what the pool makes. -/
def HttpRes.new : HttpRes V := { base := { rpcContext := some {} } }

/-- protocol/motanProtocol.go:59-65, 85-93 `Header`, `Message`; the encoding buffer by its contents. -/
structure Msg where
  magic : UInt16 := 0
  msgType : UInt8 := 0
  versionStatus : UInt8 := 0
  serialize : UInt8 := 0
  requestID : UInt64 := 0
  metadata : AMap Bytes Bytes := []
  body : Bytes := []
  type : Int := 0
  canRelease : Bool := false
  bytesBuffer : Option Bytes := none

/-- protocol/motanProtocol.go:349-359 `Message.Reset`, 828-832 `ReleaseMessage`; none: not put back. -/
def Msg.reset (m : Msg) : Option Msg :=
  if m.canRelease then
    some { m with
      type := 0, body := [], magic := 0, msgType := 0, versionStatus := 0, serialize := 0, requestID := 0, metadata := [],
      canRelease := false }
  else none

/-- protocol/motanProtocol.go:122-124: what the pool makes. -/
def Msg.new : Msg := {}

/-! ## The pool -/

/-- The objects ever made, which of them are in the pool and which somebody holds. -/
structure St (α : Type) where
  objs : List α := []
  free : List Nat := []
  held : List Nat := []

/-- What the holders and the pool do: `make`: a `Get` with nothing in the pool (the pool may also forget objects);
`take i`: a `Get` that returns object `i`; `write`: a holder changes its object in any way; `put`: a holder releases. -/
inductive Op (α : Type)
  | make
  | take (i : Nat)
  | write (i : Nat) (f : α → α)
  | put (i : Nat)
  | forget (i : Nat)

/-- core/motan.go:489-498, 638-647, http/httpProxy.go:115-127, protocol/motanProtocol.go:824-832: one operation; an
operation that is not possible changes nothing. An object whose `Reset` panics or says no is not put back. -/
def step {α : Type} (new : α) (reset : α → Option α) (s : St α) : Op α → St α
  | .make => { s with objs := s.objs ++ [new], held := s.objs.length :: s.held }
  | .take i => if i ∈ s.free then { s with free := s.free.erase i, held := i :: s.held } else s
  | .write i f => if i ∈ s.held then { s with objs := s.objs.modify i f } else s
  | .put i =>
    if i ∈ s.held then
      match s.objs[i]?.bind reset with
      | none => { s with held := s.held.erase i }
      | some x => { objs := s.objs.set i x, free := i :: s.free, held := s.held.erase i }
    else s
  | .forget i => { s with free := s.free.erase i }

def run {α : Type} (new : α) (reset : α → Option α) (ops : List (Op α)) : St α := ops.foldl (step new reset) {}

end Motan.Pool
