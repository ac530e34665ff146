import Verif.Model.BytesBuffer
import Verif.Basic.AMap

/-!
# Model of `protocol/motanProtocol.go`: header, encoding and decoding of motan2 messages
-/

namespace Motan.Motan2

/-- protocol/motanProtocol.go:33-41. -/
def MotanMagic : UInt16 := 0xf1f1
def HeaderLength : Nat := 13
def MetaStartOffset : Nat := HeaderLength + 4
def Version1 : Nat := 0
def Version2 : Nat := 1

/-- protocol/motanProtocol.go:28-31 and 108-111: message type and status constants. -/
def Req : Int := 0
def Res : Int := 1
def Normal : Int := 0
def Exception : Int := 1

/-- protocol/motanProtocol.go:24 `DefaultBufferSize`. -/
def DefaultBufferSize : Nat := 256

/-- protocol/motanProtocol.go:59-65. -/
structure Header where
  magic : UInt16
  msgType : UInt8
  versionStatus : UInt8
  serialize : UInt8
  requestID : UInt64
  deriving DecidableEq, Repr

/-- The errors of protocol/motanProtocol.go:128-138 that the modelled functions return, and the two
errors of `io.ReadAtLeast`/`bufio.Reader.Read` at the end of the stream. -/
inductive Err where
  | version | magicNum | status | metadata | serializeNum | serializeNil | serializedData | overSize
  | eof | unexpectedEOF
  deriving DecidableEq, Repr

namespace Header

/-- protocol/motanProtocol.go:67-73 `Reset` (a zero header). -/
def zero : Header := ⟨0, 0, 0, 0, 0⟩

/-- `uint8(x)` for a Go `int`. -/
def toU8 (x : Int) : UInt8 := UInt8.ofInt x

/-- protocol/motanProtocol.go:160-166. -/
def setVersion (h : Header) (version : Int) : Except Err Header :=
  if version > 31 then .error .version
  else .ok { h with versionStatus := (h.versionStatus &&& 0x07) ||| ((toU8 version <<< (3 : UInt8)) &&& (0xf8 : UInt8)) }

/-- protocol/motanProtocol.go:168-170. -/
def getVersion (h : Header) : Nat := ((h.versionStatus >>> 3) &&& 0x1f).toNat

/-- protocol/motanProtocol.go:172-178. -/
def setHeartbeat (h : Header) (b : Bool) : Header :=
  if b then { h with msgType := h.msgType ||| 0x10 } else { h with msgType := h.msgType &&& 0xef }

/-- protocol/motanProtocol.go:179-181. -/
def isHeartbeat (h : Header) : Bool := h.msgType &&& 0x10 == 0x10

/-- protocol/motanProtocol.go:183-189. -/
def setGzip (h : Header) (b : Bool) : Header :=
  if b then { h with msgType := h.msgType ||| 0x08 } else { h with msgType := h.msgType &&& 0xf7 }

/-- protocol/motanProtocol.go:191-193. -/
def isGzip (h : Header) : Bool := h.msgType &&& 0x08 == 0x08

/-- protocol/motanProtocol.go:195-201. -/
def setOneWay (h : Header) (b : Bool) : Header :=
  if b then { h with msgType := h.msgType ||| 0x04 } else { h with msgType := h.msgType &&& 0xfb }

/-- protocol/motanProtocol.go:203-205. -/
def isOneWay (h : Header) : Bool := h.msgType &&& 0x04 == 0x04

/-- protocol/motanProtocol.go:207-213. -/
def setProxy (h : Header) (b : Bool) : Header :=
  if b then { h with msgType := h.msgType ||| 0x02 } else { h with msgType := h.msgType &&& 0xfd }

/-- protocol/motanProtocol.go:215-217. -/
def isProxy (h : Header) : Bool := h.msgType &&& 0x02 == 0x02

/-- protocol/motanProtocol.go:219-225. -/
def setRequest (h : Header) (b : Bool) : Header :=
  if b then { h with msgType := h.msgType &&& 0xfe } else { h with msgType := h.msgType ||| 0x01 }

/-- protocol/motanProtocol.go:227-229. -/
def isRequest (h : Header) : Bool := h.msgType &&& 0x01 == 0x00

/-- protocol/motanProtocol.go:231-237. -/
def setStatus (h : Header) (status : Int) : Except Err Header :=
  if status > 7 then .error .status
  else .ok { h with versionStatus := (h.versionStatus &&& 0xf8) ||| (toU8 status &&& 0x07) }

/-- protocol/motanProtocol.go:239-241. -/
def getStatus (h : Header) : Nat := (h.versionStatus &&& 0x07).toNat

/-- protocol/motanProtocol.go:243-249. -/
def setSerialize (h : Header) (serialize : Int) : Except Err Header :=
  if serialize > 31 then .error .serializeNum
  else .ok { h with serialize := (h.serialize &&& 0x07) ||| ((toU8 serialize <<< (3 : UInt8)) &&& (0xf8 : UInt8)) }

/-- protocol/motanProtocol.go:251-253. -/
def getSerialize (h : Header) : Nat := ((h.serialize >>> 3) &&& 0x1f).toNat

end Header

/-- protocol/motanProtocol.go:257-275 `BuildHeader`. -/
def buildHeader (msgType : Int) (proxy : Bool) (serialize : Int) (requestID : UInt64)
    (msgStatus : Int) : Header :=
  let mtype : UInt8 := 0x00
  let mtype := if proxy then mtype ||| 0x02 else mtype
  let mtype := if msgType = Req then mtype &&& 0xfe else mtype ||| 0x01
  let status : UInt8 := 0x08 ||| (Header.toU8 msgStatus &&& 0x07)
  let serial : UInt8 := (0x00 : UInt8) ||| (Header.toU8 serialize <<< (3 : UInt8))
  ⟨MotanMagic, mtype, status, serial, requestID⟩

/-- Metadata: a string map, listed in the order in which `Range` happens to visit it
(Go map iteration order is arbitrary, so theorems hold for every listing). -/
abbrev Meta := AMap Bytes Bytes

/-- protocol/motanProtocol.go:85-93. `canRelease` and the encode buffer are not part of the value;
the buffer is an argument of `encode0`. A nil `Body` and an empty one are not distinguished. -/
structure Message where
  header : Header
  metadata : Meta
  body : Bytes
  type : Int
  deriving DecidableEq, Repr

/-- protocol/motanProtocol.go:122-124: a new pooled message; also what `Reset` (349-359) leaves. -/
def Message.fresh : Message := ⟨Header.zero, [], [], 0⟩

/-- `'\n'`. -/
def nl : UInt8 := 10

/-- protocol/motanProtocol.go:298-304: the pairs the encoder writes. -/
def keepPair (k v : Bytes) : Bool := k ≠ [] && v ≠ [] && !(k.contains nl || v.contains nl)

/-- protocol/motanProtocol.go:297-310: the metadata loop. -/
def encodeMeta (b : BytesBuffer) : Meta → BytesBuffer
  | [] => b
  | (k, v) :: m =>
    if k = [] ∨ v = [] then encodeMeta b m
    else if k.contains nl || v.contains nl then encodeMeta b m
    else encodeMeta ((((b.write k).writeByte nl).write v).writeByte nl) m

/-- protocol/motanProtocol.go:281-285: the buffer `Encode0` starts with (`none`: not allocated yet). -/
def startBuf : Option BytesBuffer → BytesBuffer
  | none => BytesBuffer.new DefaultBufferSize .big
  | some b => b.reset

/-- protocol/motanProtocol.go:288-292: the header. -/
def encodeHeader (b : BytesBuffer) (h : Header) : BytesBuffer :=
  let b := b.writeUint16 MotanMagic
  let b := b.writeByte h.msgType
  let b := b.writeByte h.versionStatus
  let b := b.writeByte h.serialize
  b.writeUint64 h.requestID

/-- protocol/motanProtocol.go:311-325: back-patching the metadata size and writing the body size. -/
def encodeSizes (b : BytesBuffer) (bodyLen : Nat) : BytesBuffer :=
  let metaWpos := b.wpos
  let metaWpos' := if metaWpos ≠ MetaStartOffset then metaWpos - 1 else metaWpos
  let metaSize := if metaWpos ≠ MetaStartOffset then metaWpos' - MetaStartOffset else 0
  let b := b.setWPos HeaderLength
  let b := b.writeUint32 (UInt32.ofNat metaSize)
  let b := b.setWPos metaWpos'
  b.writeUint32 (UInt32.ofNat bodyLen)

/-- protocol/motanProtocol.go:280-326 `Encode0`, on the buffer `buf` (`none`: not allocated yet). -/
def encode0 (buf : Option BytesBuffer) (msg : Message) : BytesBuffer :=
  let b := encodeHeader (startBuf buf) msg.header
  let b := b.setWPos MetaStartOffset
  let b := encodeMeta b msg.metadata
  encodeSizes b msg.body.length

/-- protocol/motanProtocol.go:340-347 `Encode`: the encoded bytes. -/
def encode (buf : Option BytesBuffer) (msg : Message) : Bytes :=
  let b := encode0 buf msg
  if msg.body.length > 0 then (b.write msg.body).bytes else b.bytes

/-- protocol/motanProtocol.go:331-336 `GetEncodedBytes` after `Encode0`, as written to the
connection by `net.Buffers`: the two parts one after the other. -/
def getEncodedBytes (buf : Option BytesBuffer) (msg : Message) : Bytes :=
  (encode0 buf msg).bytes ++ msg.body

/-! ### Decoding -/

/-- `io.ReadAtLeast(reader, p[:n], n)` with `n > 0` on a stream holding the given bytes: the bytes
and the rest, or `EOF` if nothing was there and `ErrUnexpectedEOF` if too little was there (in both
cases the stream has been consumed). -/
def readAtLeast (n : Nat) (s : Bytes) : Except Err Bytes × Bytes :=
  if n ≤ s.length then (.ok (s.take n), s.drop n)
  else if s = [] then (.error .eof, []) else (.error .unexpectedEOF, [])

/-- protocol/motanProtocol.go:508-516 `readBytes`: reads repeatedly until `size` bytes are there or
the reader fails. -/
def readBytes (size : Nat) (s : Bytes) : Except Err Bytes × Bytes :=
  if size ≤ s.length then (.ok (s.take size), s.drop size) else (.error .eof, [])

/-- protocol/motanProtocol.go:452-465: the metadata loop. `cur` is `readSlice[s:i]`, the end of the
input plays the role of a final newline. Returns the last `k` and the metadata. -/
def parseMeta (cur k : Bytes) (m : Meta) : Bytes → Bytes × Meta
  | [] => if k = [] then (cur, m) else ([], m.store k cur)
  | c :: cs =>
    if c = nl then
      if k = [] then parseMeta [] cur m cs else parseMeta [] [] (m.store k cur) cs
    else parseMeta (cur ++ [c]) k m cs

/-- What a decoding attempt did: its result, the unread part of the stream, and the sizes of the
slices it allocated for announced contents. -/
structure DecodeOut where
  res : Except Err Message
  rest : Bytes
  allocs : List Nat
  deriving DecidableEq, Repr

/-- protocol/motanProtocol.go:473-496: the body part. `bodyCap` is the capacity of the pooled
message's `Body`. -/
def decodeBody (maxLen bodyCap : Nat) (msg : Message) (s : Bytes) (allocs : List Nat) : DecodeOut :=
  match readAtLeast 4 s with
  | (.error e, s) => ⟨.error e, s, allocs⟩
  | (.ok sz, s) =>
    let bodySize := beVal sz
    if bodySize > maxLen then ⟨.error .overSize, s, allocs⟩
    else if bodySize > 0 then
      let allocs := if bodyCap < bodySize then allocs ++ [bodySize] else allocs
      match readBytes bodySize s with
      | (.error e, s) => ⟨.error e, s, allocs⟩
      | (.ok body, s) => ⟨.ok { msg with body := body }, s, allocs⟩
    else ⟨.ok { msg with body := [] }, s, allocs⟩

/-- protocol/motanProtocol.go:432-471: the metadata part. `bufCap` is the capacity of the reusable
read buffer. -/
def decodeMeta (maxLen bufCap bodyCap : Nat) (msg : Message) (s : Bytes) : DecodeOut :=
  match readAtLeast 4 s with
  | (.error e, s) => ⟨.error e, s, []⟩
  | (.ok sz, s) =>
    let metasize := beVal sz
    if metasize > maxLen then ⟨.error .overSize, s, []⟩
    else if metasize > 0 then
      let allocs := if bufCap < metasize then [metasize] else []
      match readBytes metasize s with
      | (.error e, s) => ⟨.error e, s, allocs⟩
      | (.ok raw, s) =>
        let km := parseMeta [] [] msg.metadata raw
        if km.1 ≠ [] then ⟨.error .metadata, s, allocs⟩
        else decodeBody maxLen bodyCap { msg with metadata := km.2 } s allocs
    else decodeBody maxLen bodyCap msg s []

/-- protocol/motanProtocol.go:420-430: the header read from its 13 bytes. -/
def parseHeader (hd : Bytes) : Header :=
  { magic := MotanMagic, msgType := hd.getD 2 0, versionStatus := hd.getD 3 0,
    serialize := hd.getD 4 0, requestID := UInt64.ofNat (beVal ((hd.drop 5).take 8)) }

/-- protocol/motanProtocol.go:399-497 `DecodeWithTime` on a connection whose remaining input is `s`.
The time stamp is not modelled. The buffer is assumed to have room for the header (13 bytes), as all
callers provide. -/
def decode (maxLen bufCap bodyCap : Nat) (s : Bytes) : DecodeOut :=
  match readAtLeast HeaderLength s with
  | (.error e, s) => ⟨.error e, s, []⟩
  | (.ok hd, s) =>
    if beVal (hd.take 2) ≠ MotanMagic.toNat then ⟨.error .magicNum, s, []⟩
    else if (parseHeader hd).getVersion ≠ Version2 then ⟨.error .version, s, []⟩
    else decodeMeta maxLen bufCap bodyCap { Message.fresh with header := parseHeader hd } s

/-- protocol/motanProtocol.go:377-389 `CheckMotanVersion`: peeks four bytes and consumes nothing. -/
def checkMotanVersion (s : Bytes) : Except Err Nat :=
  if s.length < 4 then .error .eof
  else if beVal (s.take 2) ≠ MotanMagic.toNat then .error .magicNum
  else .ok (((s.getD 3 0) >>> 3) &&& 0x1f).toNat

end Motan.Motan2
