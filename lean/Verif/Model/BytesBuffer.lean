import Verif.Basic.Bytes

/-!
# Model of `core/bytes.go`

`BytesBuffer` with its write and read operations. Positions are natural numbers (Go `int`; negative
positions can only come from a caller passing a negative number to `SetWPos`/`SetRPos`, which is
not modelled). The scratch array `temp` is not part of the state: every use overwrites the bytes
it then reads.
-/

namespace Motan

/-- `binary.BigEndian` / `binary.LittleEndian` (core/bytes.go:25). -/
inductive ByteOrder where
  | big
  | little
  deriving DecidableEq, Repr

/-- The errors returned by the reads (core/bytes.go:29-30 and `io.EOF`). -/
inductive BufErr where
  | eof
  | notEnough
  | overflow
  deriving DecidableEq, Repr

/-- core/bytes.go:21-27. `buf` is the whole allocated slice `b.buf` (its `len`, not its `cap`). -/
structure BytesBuffer where
  buf : Bytes
  rpos : Nat
  wpos : Nat
  order : ByteOrder
  deriving DecidableEq, Repr

namespace ByteOrder

/-- `order.PutUintN` for N = 8*k: the bytes written. -/
def put (o : ByteOrder) (k n : Nat) : Bytes :=
  match o with
  | .big => beBytes k n
  | .little => leBytes k n

/-- `order.UintN` of the given bytes. -/
def get (o : ByteOrder) (bs : Bytes) : Nat :=
  match o with
  | .big => beVal bs
  | .little => leVal bs

end ByteOrder

namespace BytesBuffer

/-- core/bytes.go:33-44 `NewBytesBufferWithOrder` (`NewBytesBuffer` is the big-endian case). -/
def new (initsize : Nat) (order : ByteOrder) : BytesBuffer :=
  { buf := List.replicate initsize 0, rpos := 0, wpos := 0, order := order }

/-- core/bytes.go:47-58 `CreateBytesBufferWithOrder`. -/
def create (data : Bytes) (order : ByteOrder) : BytesBuffer :=
  { buf := data, rpos := 0, wpos := data.length, order := order }

/-- core/bytes.go:160-164 `grow`: a zeroed slice of length `2*len+n` with the written part copied. -/
def grow (b : BytesBuffer) (n : Nat) : BytesBuffer :=
  { b with buf := copyAt (List.replicate (2 * b.buf.length + n) 0) 0 (b.buf.take b.wpos) }

/-- core/bytes.go:61-66 `SetWPos`. -/
def setWPos (b : BytesBuffer) (pos : Nat) : BytesBuffer :=
  let b := if b.buf.length < pos then b.grow (pos - b.buf.length) else b
  { b with wpos := pos }

/-- core/bytes.go:74-76 `SetRPos`. -/
def setRPos (b : BytesBuffer) (pos : Nat) : BytesBuffer := { b with rpos := pos }

/-- core/bytes.go:93-110 `WriteString`/`Write`: both grow by the length if needed, copy, advance. -/
def write (b : BytesBuffer) (bytes : Bytes) : BytesBuffer :=
  let l := bytes.length
  let b := if b.buf.length < b.wpos + l then b.grow l else b
  { b with buf := copyAt b.buf b.wpos bytes, wpos := b.wpos + l }

/-- core/bytes.go:84-90 `WriteByte`. The indexed store equals a one-byte copy because the slice
has been grown to contain `wpos`. -/
def writeByte (b : BytesBuffer) (c : UInt8) : BytesBuffer :=
  let b := if b.buf.length < b.wpos + 1 then b.grow 1 else b
  { b with buf := copyAt b.buf b.wpos [c], wpos := b.wpos + 1 }

/-- core/bytes.go:113-120 `WriteUint16`. -/
def writeUint16 (b : BytesBuffer) (u : UInt16) : BytesBuffer :=
  let b := if b.buf.length < b.wpos + 2 then b.grow 2 else b
  { b with buf := copyAt b.buf b.wpos (b.order.put 2 u.toNat), wpos := b.wpos + 2 }

/-- core/bytes.go:122-129 `WriteUint32`. -/
def writeUint32 (b : BytesBuffer) (u : UInt32) : BytesBuffer :=
  let b := if b.buf.length < b.wpos + 4 then b.grow 4 else b
  { b with buf := copyAt b.buf b.wpos (b.order.put 4 u.toNat), wpos := b.wpos + 4 }

/-- core/bytes.go:131-138 `WriteUint64`. -/
def writeUint64 (b : BytesBuffer) (u : UInt64) : BytesBuffer :=
  let b := if b.buf.length < b.wpos + 8 then b.grow 8 else b
  { b with buf := copyAt b.buf b.wpos (b.order.put 8 u.toNat), wpos := b.wpos + 8 }

/-- core/bytes.go:148-158 `WriteVarint`: the buffer and the returned number of bytes
(`1<<7` is 128). -/
def writeVarint (b : BytesBuffer) (u : UInt64) : BytesBuffer × Nat :=
  if _h : (128 : UInt64) ≤ u then
    let r := writeVarint (b.writeByte ((u &&& 0x7f) ||| 0x80).toUInt8) (u >>> 7)
    (r.1, r.2 + 1)
  else
    (b.writeByte u.toUInt8, 1)
termination_by u.toNat
decreasing_by
  have h1 : (128 : Nat) ≤ u.toNat := by
    have := UInt64.le_iff_toNat_le.mp _h
    simpa using this
  simp only [UInt64.toNat_shiftRight]
  have : (7 : UInt64).toNat % 64 = 7 := rfl
  rw [this, Nat.shiftRight_eq_div_pow]
  omega

/-- core/bytes.go:141 the zigzag code of a `uint32` holding an `int32`: `(u << 1) ^ (int32(u) >> 31)`.
The arithmetic shift is the one of the signed type. -/
def zigzagEnc32 (u : BitVec 32) : BitVec 32 := (u <<< 1) ^^^ (u.sshiftRight 31)

/-- core/bytes.go:145 `(u << 1) ^ (int64(u) >> 63)`. -/
def zigzagEnc64 (u : BitVec 64) : BitVec 64 := (u <<< 1) ^^^ (u.sshiftRight 63)

/-- core/bytes.go:228 `(x >> 1) ^ -(x & 1)`. -/
def zigzagDec64 (x : BitVec 64) : BitVec 64 := (x >>> 1) ^^^ (-(x &&& 1))

/-- core/bytes.go:237 `(uint32(x) >> 1) ^ -(int32(x & 1))`, on the low 32 bits. -/
def zigzagDec32 (x : BitVec 32) : BitVec 32 := (x >>> 1) ^^^ (-(x &&& 1))

/-- core/bytes.go:140-142 `WriteZigzag32`. -/
def writeZigzag32 (b : BytesBuffer) (u : UInt32) : BytesBuffer × Nat :=
  b.writeVarint (UInt64.ofBitVec ((zigzagEnc32 u.toBitVec).setWidth 64))

/-- core/bytes.go:144-146 `WriteZigzag64`. -/
def writeZigzag64 (b : BytesBuffer) (u : UInt64) : BytesBuffer × Nat :=
  b.writeVarint (UInt64.ofBitVec (zigzagEnc64 u.toBitVec))

/-- core/bytes.go:166 `Bytes`. -/
def bytes (b : BytesBuffer) : Bytes := b.buf.take b.wpos

/-- core/bytes.go:281 `Remain` (an `int`: negative when the read position passed the write position). -/
def remain (b : BytesBuffer) : Int := (b.wpos : Int) - b.rpos

/-- core/bytes.go:283 `Len`. -/
def len (b : BytesBuffer) : Nat := b.wpos

/-- core/bytes.go:276-279 `Reset`. -/
def reset (b : BytesBuffer) : BytesBuffer := { b with rpos := 0, wpos := 0 }

/-- core/bytes.go:267-274 `ReadByte`: note that the bound is `len(b.buf)`, not `wpos`. -/
def readByte (b : BytesBuffer) : Except BufErr (UInt8 × BytesBuffer) :=
  match b.buf[b.rpos]? with
  | none => .error .eof
  | some c => .ok (c, { b with rpos := b.rpos + 1 })

/-- core/bytes.go:257-265 `Next`. -/
def next (b : BytesBuffer) (n : Nat) : Except BufErr (Bytes × BytesBuffer) :=
  if (n : Int) > b.remain then .error .notEnough
  else .ok ((b.buf.drop b.rpos).take n, { b with rpos := b.rpos + n })

/-- core/bytes.go:178-188 `ReadFull` into a slice of length `n`: the bytes stored. The second length
check can only fail when `wpos` is beyond `len(buf)`. -/
def readFull (b : BytesBuffer) (n : Nat) : Except BufErr (Bytes × BytesBuffer) :=
  if b.remain < n then .error .notEnough
  else
    let data := (b.buf.drop b.rpos).take n
    if data.length < n then .error .notEnough
    else .ok (data, { b with rpos := b.rpos + data.length })

/-- core/bytes.go:168-176 `Read` into a slice of length `n`: the bytes stored. -/
def read (b : BytesBuffer) (n : Nat) : Except BufErr (Bytes × BytesBuffer) :=
  if b.buf.length ≤ b.rpos then .error .eof
  else
    let data := (b.buf.drop b.rpos).take n
    .ok (data, { b with rpos := b.rpos + data.length })

/-- core/bytes.go:190-197 `ReadUint16`. -/
def readUint16 (b : BytesBuffer) : Except BufErr (UInt16 × BytesBuffer) :=
  if b.remain < 2 then .error .notEnough
  else .ok (UInt16.ofNat (b.order.get ((b.buf.drop b.rpos).take 2)), { b with rpos := b.rpos + 2 })

/-- core/bytes.go:205-212 `ReadUint32`. -/
def readUint32 (b : BytesBuffer) : Except BufErr (UInt32 × BytesBuffer) :=
  if b.remain < 4 then .error .notEnough
  else .ok (UInt32.ofNat (b.order.get ((b.buf.drop b.rpos).take 4)), { b with rpos := b.rpos + 4 })

/-- core/bytes.go:200-203 `ReadInt`. -/
def readInt (b : BytesBuffer) : Except BufErr (Nat × BytesBuffer) :=
  match b.readUint32 with
  | .error e => .error e
  | .ok (n, b) => .ok (n.toNat, b)

/-- core/bytes.go:214-221 `ReadUint64`. -/
def readUint64 (b : BytesBuffer) : Except BufErr (UInt64 × BytesBuffer) :=
  if b.remain < 8 then .error .notEnough
  else .ok (UInt64.ofNat (b.order.get ((b.buf.drop b.rpos).take 8)), { b with rpos := b.rpos + 8 })

/-- core/bytes.go:243-254 the loop of `ReadVarint` from the given offset with accumulator `x`. -/
def readVarintLoop (b : BytesBuffer) (offset : Nat) (x : UInt64) :
    Except BufErr (UInt64 × BytesBuffer) :=
  if offset < 64 then
    match b.readByte with
    | .error e => .error e
    | .ok (temp, b) =>
      if temp &&& 0x80 ≠ 0x80 then
        .ok (x ||| (temp.toUInt64 <<< UInt64.ofNat offset), b)
      else
        readVarintLoop b (offset + 7) (x ||| ((temp &&& 0x7f).toUInt64 <<< UInt64.ofNat offset))
  else .error .overflow
termination_by 64 - offset

/-- core/bytes.go:241-255 `ReadVarint`. -/
def readVarint (b : BytesBuffer) : Except BufErr (UInt64 × BytesBuffer) := readVarintLoop b 0 0

/-- core/bytes.go:223-230 `ReadZigzag64`. -/
def readZigzag64 (b : BytesBuffer) : Except BufErr (UInt64 × BytesBuffer) :=
  match b.readVarint with
  | .error e => .error e
  | .ok (x, b) => .ok (UInt64.ofBitVec (zigzagDec64 x.toBitVec), b)

/-- core/bytes.go:232-239 `ReadZigzag32`: the returned `uint64` holds the 32-bit pattern. -/
def readZigzag32 (b : BytesBuffer) : Except BufErr (UInt64 × BytesBuffer) :=
  match b.readVarint with
  | .error e => .error e
  | .ok (x, b) => .ok (UInt64.ofBitVec ((zigzagDec32 (x.toBitVec.setWidth 32)).setWidth 64), b)

end BytesBuffer

end Motan
