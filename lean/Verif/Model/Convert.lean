import Verif.Basic.Decimal
import Verif.Model.Motan2
import Verif.Model.Simple

/-!
# Model of the conversions between requests/responses and motan2 messages

`protocol/motanProtocol.go` 499-817 and the request and response records of `core/motan.go`.
-/

namespace Motan.Convert

open Motan2 (Header Message Meta)
open Simple (Val Hint)

/-! ### Library functions the code calls -/

/-- core/motan.go:382-386 `Exception`. -/
structure Exn where
  errCode : Int
  errMsg : Bytes
  errType : Int
  deriving DecidableEq, Repr

/-- Standard-library functions, left uninterpreted: `compress/gzip` and `encoding/json` on `Exception`.
`gunzip` and `jsonDec` give `none` for an error; `jsonDec` gives `some none` when the text is `null`. -/
structure Lib where
  gzip : Bytes → Option Bytes
  gunzip : Bytes → Option Bytes
  jsonEnc : Exn → Bytes
  jsonDec : Bytes → Option (Option Exn)

/-- The interface `motan.Serialization`, core/motan.go:317-323. -/
structure Ser where
  num : Int
  serialize : Val → Except Simple.Err Bytes
  serializeMulti : List Val → Except Simple.Err Bytes
  deSerialize : Bytes → Hint → Except Simple.Err (Val × Option Val)
  deSerializeMulti : Bytes → Option (List Hint) → Except Simple.Err (List (Val × Option Val))

/-- `serialize/simple.go`: the simple serialization (its number is 6, serialize/serialize.go:16-26; buffer size 2048,
serialize/simple.go:32). -/
def simpleSer : Ser where
  num := 6
  serialize := Simple.serialize 2048
  serializeMulti := Simple.serializeMulti 2048
  deSerialize := Simple.deSerialize
  deSerializeMulti := Simple.deSerializeMulti

/-- The errors of the conversions. -/
inductive Err where
  | proto (e : Motan2.Err)
  | ser (e : Simple.Err)
  | json
  | deserializeNil
  deriving DecidableEq, Repr

/-! ### Requests and responses -/

/-- An argument or a result: a Go value, or core/motan.go:456-459 `DeserializableValue`. -/
inductive Arg where
  | val (v : Val)
  | deser (body : Bytes) (ser : Option Ser)

/-- How the serialization sees an argument (a pointer to a `DeserializableValue` is a type it does not
support). -/
def Arg.toVal : Arg → Val
  | .val v => v
  | .deser _ _ => .other

/-- `x.([]byte)`. -/
def Arg.asBytes : Arg → Option Bytes
  | .val (.bytes b) => some b
  | _ => none

/-- `RPCContext.OriginalMessage`: a motan2 message or something else (a motan1 message). -/
inductive Original where
  | v2 (m : Message)
  | other

/-- core/motan.go:389-417 `RPCContext`, the fields the conversions use. -/
structure RC where
  original : Option Original := none
  oneway : Bool := false
  proxy : Bool := false
  gzipSize : Int := 0
  bodySize : Nat := 0
  serializeNum : Int := 0
  serialized : Bool := false

/-- core/motan.go:478-487 `MotanRequest`. A nil attachment map is not distinguished from an empty one
(`GetAttachments`, 551-565, creates it on demand). -/
structure Request where
  id : UInt64
  service : Bytes
  method : Bytes
  desc : Bytes
  args : List Arg
  attachment : Meta
  rc : RC := {}

/-- core/motan.go:628-636 `MotanResponse`. -/
structure Response where
  id : UInt64
  value : Option Arg
  exception : Option Exn
  processTime : Int
  attachment : Meta
  rc : RC := {}

/-- core/map.go:50-53 `LoadOrEmpty`. -/
def loadOrEmpty (m : Meta) (k : Bytes) : Bytes := (m.load k).getD []

/-! protocol/motanProtocol.go:43-57: metadata keys, and 40 `defaultProtocol`. -/
def MPath : Bytes := b!"M_p"
def MMethod : Bytes := b!"M_m"
def MException : Bytes := b!"M_e"
def MProcessTime : Bytes := b!"M_pt"
def MMethodDesc : Bytes := b!"M_md"
def MGroup : Bytes := b!"M_g"
def MProxyProtocol : Bytes := b!"M_pp"
def MRequestID : Bytes := b!"M_rid"
def defaultProtocol : Bytes := b!"motan2"

/-! ### gzip -/

/-- protocol/motanProtocol.go:518-548 `EncodeGzip`. -/
def encodeGzip (lib : Lib) (data : Bytes) : Option Bytes :=
  if data.length > 0 then lib.gzip data else some data

/-- protocol/motanProtocol.go:562-601 `DecodeGzip`. -/
def decodeGzip (lib : Lib) (data : Bytes) : Option Bytes :=
  if data.length > 0 then lib.gunzip data else some data

/-- protocol/motanProtocol.go:499-506 `DecodeGzipBody`: the body itself if it cannot be decompressed. -/
def decodeGzipBody (lib : Lib) (body : Bytes) : Bytes := (decodeGzip lib body).getD body

/-- protocol/motanProtocol.go:550-560 `EncodeMessageGzip`. -/
def encodeMessageGzip (lib : Lib) (msg : Message) (gzipSize : Int) : Message :=
  if gzipSize > 0 ∧ (msg.body.length : Int) > gzipSize ∧ msg.header.isGzip = false then
    match encodeGzip lib msg.body with
    | none => msg
    | some data => { msg with header := msg.header.setGzip true, body := data }
  else msg

/-- protocol/motanProtocol.go:626-629 and 777-780: undo the compression of a received message. -/
def gunzipMessage (lib : Lib) (msg : Message) : Message :=
  if msg.header.isGzip then
    { msg with body := decodeGzipBody lib msg.body, header := msg.header.setGzip false }
  else msg

/-! ### Requests -/

/-- `int64(x)` for a `uint64`. -/
def toInt64 (x : UInt64) : Int := if x.toNat < 2 ^ 63 then x.toNat else (x.toNat : Int) - 2 ^ 64

/-- `uint64(x)` for an `int64`. -/
def ofInt64 (x : Int) : UInt64 := UInt64.ofNat (x % 2 ^ 64).toNat

/-- protocol/motanProtocol.go:606-615: the request id and the metadata after it was determined. -/
def requestIdOf (msg : Message) : UInt64 × Meta :=
  match msg.metadata.load MRequestID with
  | none =>
    (msg.header.requestID,
      if msg.header.isProxy then msg.metadata.store MRequestID (formatInt (toInt64 msg.header.requestID))
      else msg.metadata)
  | some idStr => (ofInt64 (parseInt64 idStr).1, msg.metadata)

/-- protocol/motanProtocol.go:603-637 `ConvertToRequest`. The request object comes fresh from its pool
(see the model of the pools). The message is modified in place: its final state is the `original` of
the result; the attachments of the request are the very map of the message. -/
def convertToRequest (lib : Lib) (ser : Option Ser) (msg : Message) : Except Err Request :=
  let (id, metadata) := requestIdOf msg
  let msg := { msg with metadata := metadata }
  let proxy := msg.header.isProxy
  let req : Request :=
    { id := id, service := loadOrEmpty metadata MPath, method := loadOrEmpty metadata MMethod,
      desc := loadOrEmpty metadata MMethodDesc, args := [], attachment := metadata,
      rc := { original := some (.v2 msg), proxy := proxy } }
  if msg.body.length > 0 then
    let bodySize := msg.body.length
    let msg := gunzipMessage lib msg
    if proxy = false ∧ ser.isNone then .error (.proto .serializeNil)
    else .ok { req with args := [.deser msg.body ser],
                        rc := { original := some (.v2 msg), proxy := proxy, bodySize := bodySize } }
  else .ok req

/-- protocol/motanProtocol.go:661-681: the body for the arguments. -/
def requestBody (ser : Option Ser) (req : Request) : Except Err Bytes :=
  if req.args.length > 0 then
    if req.rc.serialized then
      match req.args with
      | [a] =>
        match a.asBytes with
        | some b => .ok b
        | none => .error (.proto .serializedData)
      | _ => .error (.proto .serializedData)
    else
      match ser with
      | none => .error (.proto .serializeNil)
      | some s => (s.serializeMulti (req.args.map Arg.toVal)).mapError .ser
  else .ok []

/-- protocol/motanProtocol.go:692-700: the metadata added to the attachments. -/
def requestMeta (req : Request) : Meta :=
  let m := req.attachment
  let m := m.store MPath req.service
  let m := m.store MMethod req.method
  let m := if loadOrEmpty m MProxyProtocol = [] then m.store MProxyProtocol defaultProtocol else m
  if req.desc ≠ [] then m.store MMethodDesc req.desc else m

/-- protocol/motanProtocol.go:653-660 and 724-731: the serialization number of the header. -/
def serialNum (ser : Option Ser) (rc : RC) : Except Err Int :=
  if rc.serialized then .ok rc.serializeNum
  else
    match ser with
    | none => .error (.proto .serializeNil)
    | some s => .ok s.num

/-- protocol/motanProtocol.go:686-691: the flags. -/
def requestFlags (h : Header) (rc : RC) : Header :=
  let h := if rc.oneway then h.setOneWay true else h
  if rc.proxy then h.setProxy true else h

/-- protocol/motanProtocol.go:640-702 `ConvertToReqMessage`. The update of the request (its attachments
are the map of the message; `BodySize`) is not part of the result. -/
def convertToReqMessage (lib : Lib) (ser : Option Ser) (req : Request) : Except Err Message :=
  match req.rc.proxy, req.rc.original with
  | true, some (.v2 msg) =>
    let msg := { msg with header := msg.header.setProxy true,
                          metadata := msg.metadata.store MGroup (loadOrEmpty req.attachment MGroup) }
    .ok (encodeMessageGzip lib msg req.rc.gzipSize)
  | _, _ =>
    match serialNum ser req.rc with
    | .error e => .error e
    | .ok num =>
      match requestBody ser req with
      | .error e => .error e
      | .ok body =>
        let m : Message := ⟨Motan2.buildHeader Motan2.Req false num req.id Motan2.Normal, [], body, 0⟩
        let m := encodeMessageGzip lib m req.rc.gzipSize
        .ok { m with header := requestFlags m.header req.rc, metadata := requestMeta req }

/-! ### Responses -/

/-- protocol/motanProtocol.go:715-723: attachments and the serialized flag for an exception. -/
def exceptionMeta (lib : Lib) (res : Response) : Meta :=
  match res.exception with
  | some e => res.attachment.store MException (lib.jsonEnc e)
  | none => res.attachment

/-- protocol/motanProtocol.go:718-720. -/
def exceptionRC (res : Response) : RC :=
  match res.exception with
  | some _ => if res.rc.proxy then { res.rc with serialized := true } else res.rc
  | none => res.rc

/-- protocol/motanProtocol.go:733-752: the body for the value. -/
def responseBody (ser : Option Ser) (rc : RC) (value : Option Arg) : Except Err Bytes :=
  match value with
  | none => .ok []
  | some v =>
    if rc.serialized then
      match v.asBytes with
      | some b => .ok b
      | none => .error (.proto .serializedData)
    else
      match ser with
      | none => .error (.proto .serializeNil)
      | some s => (s.serialize v.toVal).mapError .ser

/-- protocol/motanProtocol.go:705-762 `ConvertToResMessage`. -/
def convertToResMessage (lib : Lib) (ser : Option Ser) (res : Response) : Except Err Message :=
  match res.rc.proxy, res.rc.original with
  | true, some (.v2 msg) => .ok { msg with header := msg.header.setProxy true }
  | _, _ =>
    let status := if res.exception.isSome then Motan2.Exception else Motan2.Normal
    let rc := exceptionRC res
    match serialNum ser rc with
    | .error e => .error e
    | .ok num =>
      match responseBody ser rc res.value with
      | .error e => .error e
      | .ok body =>
        let m : Message := ⟨Motan2.buildHeader Motan2.Res false num res.id status, [], body, 0⟩
        let m := encodeMessageGzip lib m rc.gzipSize
        .ok { m with header := if rc.proxy then m.header.setProxy true else m.header,
                     metadata := exceptionMeta lib res }

/-- protocol/motanProtocol.go:770-774: the process time. -/
def processTimeOf (m : Meta) : Int :=
  match m.load MProcessTime with
  | none => 0
  | some pt => match parseInt64 pt with
    | (n, none) => n
    | _ => 0

/-- protocol/motanProtocol.go:788-799: the exception of a response message. -/
def exceptionOf (lib : Lib) (msg : Message) : Except Err (Option Exn) :=
  if msg.header.getStatus = 1 then
    let e := loadOrEmpty msg.metadata MException
    if e ≠ [] then
      match lib.jsonDec e with
      | none => .error .json
      | some x => .ok x
    else .ok none
  else .ok none

/-- protocol/motanProtocol.go:765-804 `ConvertToResponse`. -/
def convertToResponse (lib : Lib) (ser : Option Ser) (msg : Message) : Except Err Response :=
  let proxy := msg.header.isProxy
  let normalBody := msg.header.getStatus = 0 ∧ msg.body.length > 0
  if normalBody ∧ proxy = false ∧ ser.isNone then .error (.proto .serializeNil)
  else
    let bodySize := if normalBody then msg.body.length else 0
    let msg := if normalBody then gunzipMessage lib msg else msg
    match exceptionOf lib msg with
    | .error e => .error e
    | .ok exn =>
      .ok { id := msg.header.requestID,
            value := if normalBody then some (.deser msg.body ser) else none,
            exception := exn, processTime := processTimeOf msg.metadata, attachment := msg.metadata,
            rc := { original := some (.v2 msg), proxy := proxy, bodySize := bodySize } }

/-- protocol/motanProtocol.go:806-817 `BuildExceptionResponse` (`defaultSerialize` is `Simple`, that is 6, lines 116 and 95-105). -/
def buildExceptionResponse (id : UInt64) (errmsg : Bytes) : Message :=
  let h : Header := { Header.zero with magic := 0, requestID := id }
  let h := (h.setRequest false).setProxy false
  let h := (h.setVersion Motan2.Version2).toOption.getD h
  let h := (h.setStatus Motan2.Exception).toOption.getD h
  let h := (h.setSerialize 6).toOption.getD h
  ⟨h, AMap.store [] MException errmsg, [], 0⟩

/-! ### Lazy deserialization -/

/-- core/motan.go:615-626 `MotanRequest.ProcessDeserializable`. -/
def Request.processDeserializable (req : Request) (toTypes : Option (List Hint)) : Except Err Request :=
  match req.args with
  | [.deser body ser] =>
    match ser with
    | none => .error .deserializeNil
    | some s =>
      match s.deSerializeMulti body toTypes with
      | .error e => .error (.ser e)
      | .ok vs => .ok { req with args := vs.map fun v => .val v.1 }
  | _ => .ok req

/-- core/motan.go:713-724 `MotanResponse.ProcessDeserializable`. -/
def Response.processDeserializable (res : Response) (toType : Hint) : Except Err Response :=
  match res.value with
  | some (.deser body ser) =>
    match ser with
    | none => .error .deserializeNil
    | some s =>
      match s.deSerialize body toType with
      | .error e => .error (.ser e)
      | .ok v => .ok { res with value := some (.val v.1) }
  | _ => .ok res

end Motan.Convert
