import Verif.Model.BytesBuffer

/-!
# The protobuf serializations (serialize/pb.go)

`PbSerialization` and `GrpcPbSerialization` over the primitives of github.com/golang/protobuf v1.3.2, which is not in
/repo and is modelled from its documentation: base-128 varints, zigzag integers, little-endian fixed integers and
length-delimited bytes. A protobuf message is an element of `P` with the library's marshalling as parameters.

Simplifications: a pointer to a value is the value (one level, as pb.go:115-117, 204-206); floats are their bit patterns;
after an error the pointer given as a target may already hold a zero, which is not modelled.
-/

namespace Motan.Pb

/-! ## The library's buffer -/

/-- Decoding errors that pb.go tells apart (`io.ErrUnexpectedEOF` ends an array), and panics. -/
inductive Err where
  | eof
  | bad
  | panic
deriving DecidableEq, Repr

/-- `Buffer.EncodeVarint`. -/
def encVarint (n : Nat) : Bytes :=
  if n < 128 then [UInt8.ofNat n] else UInt8.ofNat (n % 128 + 128) :: encVarint (n / 128)
termination_by n
decreasing_by omega

/-- `Buffer.DecodeVarint`: at most ten bytes, modulo 2^64. -/
def decVarintLoop : Nat → Nat → Nat → Bytes → Except Err (Nat × Bytes)
  | 0, _, _, _ => .error .bad
  | _ + 1, _, _, [] => .error .eof
  | n + 1, shift, acc, b :: bs =>
    if b.toNat < 128 then .ok ((acc + b.toNat * 2 ^ shift) % 2 ^ 64, bs)
    else decVarintLoop n (shift + 7) (acc + (b.toNat - 128) * 2 ^ shift) bs

/-- `Buffer.DecodeVarint`. -/
def decVarint (bs : Bytes) : Except Err (Nat × Bytes) := decVarintLoop 10 0 0 bs

/-- Little-endian bytes of `EncodeFixed32` and `EncodeFixed64`. -/
def encFixed : Nat → Nat → Bytes
  | 0, _ => []
  | k + 1, n => UInt8.ofNat (n % 256) :: encFixed k (n / 256)

/-- The number of little-endian bytes. -/
def fixedVal : Bytes → Nat
  | [] => 0
  | b :: bs => b.toNat + 256 * fixedVal bs

/-- `DecodeFixed32` (`k` = 4) and `DecodeFixed64` (`k` = 8). -/
def decFixed (k : Nat) (bs : Bytes) : Except Err (Nat × Bytes) :=
  if bs.length < k then .error .eof else .ok (fixedVal (bs.take k), bs.drop k)

/-- `EncodeRawBytes`, `EncodeStringBytes`. -/
def encRaw (bs : Bytes) : Bytes := encVarint bs.length ++ bs

/-- `DecodeRawBytes`, `DecodeStringBytes`: a length that is negative as an `int` is an error of its own. -/
def decRaw (bs : Bytes) : Except Err (Bytes × Bytes) :=
  match decVarint bs with
  | .error e => .error e
  | .ok (n, rest) =>
    if 2 ^ 63 ≤ n then .error .bad
    else if rest.length < n then .error .eof
    else .ok (rest.take n, rest.drop n)

/-- `EncodeZigzag32(x)`, on the low 32 bits of `x`. -/
def encZigzag32 (x : BitVec 64) : Bytes := encVarint (BytesBuffer.zigzagEnc32 (x.setWidth 32)).toNat

/-- `DecodeZigzag32`. -/
def decZigzag32 (bs : Bytes) : Except Err (BitVec 32 × Bytes) :=
  (decVarint bs).map fun r => (BytesBuffer.zigzagDec32 (BitVec.ofNat 32 r.1), r.2)

/-- `EncodeZigzag64`. -/
def encZigzag64 (x : BitVec 64) : Bytes := encVarint (BytesBuffer.zigzagEnc64 x).toNat

/-- `DecodeZigzag64`. -/
def decZigzag64 (bs : Bytes) : Except Err (BitVec 64 × Bytes) :=
  (decVarint bs).map fun r => (BytesBuffer.zigzagDec64 (BitVec.ofNat 64 r.1), r.2)

/-! ## Values and targets -/

/-- The kinds of pb.go's switches. `int` and `uint` have 64 bits. -/
inductive Kind where
  | bool | u8 | i16 | u16 | i32 | u32 | int | uint | i64 | u64 | f32 | f64 | str
deriving DecidableEq, Repr

/-- A value of one of these kinds. -/
inductive Prim where
  | bool (b : Bool)
  | u8 (x : BitVec 8)
  | i16 (x : BitVec 16)
  | u16 (x : BitVec 16)
  | i32 (x : BitVec 32)
  | u32 (x : BitVec 32)
  | int (x : BitVec 64)
  | uint (x : BitVec 64)
  | i64 (x : BitVec 64)
  | u64 (x : BitVec 64)
  | f32 (bits : BitVec 32)
  | f64 (bits : BitVec 64)
  | str (s : Bytes)
deriving DecidableEq, Repr

/-- The kind of a value. -/
def Prim.kind : Prim → Kind
  | .bool _ => .bool | .u8 _ => .u8 | .i16 _ => .i16 | .u16 _ => .u16 | .i32 _ => .i32 | .u32 _ => .u32
  | .int _ => .int | .uint _ => .uint | .i64 _ => .i64 | .u64 _ => .u64 | .f32 _ => .f32 | .f64 _ => .f64
  | .str _ => .str

/-- What can be given to `Serialize` or come out of `DeSerialize`: nil (also a nil pointer), a value of a kind, a pointer
to a message, a message that is not behind a pointer, a slice of message pointers (none is nil), another value. -/
inductive Val (P : Type) where
  | nil
  | prim (p : Prim)
  | msg (m : P)
  | msgValue (m : P)
  | msgs (l : List (Option P))
  | other
deriving DecidableEq, Repr

/-- The library on messages. `marshal` fails for example on missing required fields; `merge` unmarshals into a message
that may hold something (`Buffer.Unmarshal` does not reset it); `zero` is a new message. -/
structure Lib (P : Type) where
  marshal : P → Option Bytes
  merge : P → Bytes → Except Err P
  zero : P

variable {P : Type}

/-! ## Serializing -/

/-- serialize/pb.go:124-145: the kinds. -/
def serPrim : Prim → Bytes
  | .bool b => encVarint (if b then 1 else 0)
  | .i32 x => encZigzag32 (x.signExtend 64)
  | .i16 x => encZigzag32 (x.signExtend 64)
  | .u32 x => encZigzag32 (x.setWidth 64)
  | .u16 x => encZigzag32 (x.setWidth 64)
  | .int x => encZigzag64 x
  | .i64 x => encZigzag64 x
  | .uint x => encZigzag64 x
  | .u64 x => encZigzag64 x
  | .f32 x => encFixed 4 x.toNat
  | .f64 x => encFixed 8 x.toNat
  | .str s => encRaw s
  | .u8 x => encVarint x.toNat

/-- serialize/pb.go:146-160: a slice. Each element is checked to be a message and then serialized as
`iv.Elem().Interface()`, a message that is not behind a pointer, so that lines 162-167 refuse it; a nil element panics in
`Interface`. -/
def serMsgs : List (Option P) → Except Err Bytes
  | [] => .ok []
  | none :: _ => .error .panic
  | some _ :: _ => .error .bad

/-- serialize/pb.go:107-169 `serializeBuf`: the bytes appended. -/
def serBuf (L : Lib P) : Val P → Except Err Bytes
  | .nil => .ok (encVarint 1)
  | .prim p => .ok (encVarint 0 ++ serPrim p)
  | .msg m =>
    match L.marshal m with
    | some bs => .ok (encVarint 0 ++ encRaw bs)
    | none => .error .bad
  | .msgValue _ => .error .bad
  | .msgs l => (serMsgs l).map (encVarint 0 ++ ·)
  | .other => .error .bad

/-- serialize/pb.go:96-105 `SerializeMulti`. -/
def serMulti (L : Lib P) : List (Val P) → Except Err Bytes
  | [] => .ok []
  | v :: vs =>
    match serBuf L v with
    | .error e => .error e
    | .ok bs => (serMulti L vs).map (bs ++ ·)

/-! ## Deserializing -/

/-- How a slice is given as a target: a pointer to a slice that holds some elements, the slice itself, or its type. -/
inductive SliceForm (P : Type) where
  | ptr (have_ : List (Option P))
  | value
  | type
deriving DecidableEq, Repr

/-- What `DeSerialize` is given: nil; a type or a value of a kind; a pointer to such a value; a pointer to a message with
its content; a message type; a slice whose elements are message pointers; a slice of something else; another type. -/
inductive Target (P : Type) where
  | nil
  | kind (k : Kind)
  | ptr (k : Kind)
  | msg (cur : P)
  | msgType
  | slice (f : SliceForm P)
  | sliceOther
  | other
deriving DecidableEq, Repr

/-- serialize/pb.go:207-281: the kinds. The result of an `int` is an `int64`, of a `uint` a `uint64`. -/
def deKind (k : Kind) (bs : Bytes) : Except Err (Prim × Bytes) :=
  match k with
  | .bool => (decVarint bs).map fun r => (.bool (r.1 == 1), r.2)
  | .i16 => (decZigzag32 bs).map fun r => (.i16 (r.1.setWidth 16), r.2)
  | .u16 => (decZigzag32 bs).map fun r => (.u16 (r.1.setWidth 16), r.2)
  | .i32 => (decZigzag32 bs).map fun r => (.i32 r.1, r.2)
  | .u32 => (decZigzag32 bs).map fun r => (.u32 r.1, r.2)
  | .int => (decZigzag64 bs).map fun r => (.i64 r.1, r.2)
  | .i64 => (decZigzag64 bs).map fun r => (.i64 r.1, r.2)
  | .uint => (decZigzag64 bs).map fun r => (.u64 r.1, r.2)
  | .u64 => (decZigzag64 bs).map fun r => (.u64 r.1, r.2)
  | .f32 => (decFixed 4 bs).map fun r => (.f32 (BitVec.ofNat 32 r.1), r.2)
  | .f64 => (decFixed 8 bs).map fun r => (.f64 (BitVec.ofNat 64 r.1), r.2)
  | .str => (decRaw bs).map fun r => (.str r.1, r.2)
  | .u8 => (decVarint bs).map fun r => (.u8 (BitVec.ofNat 8 r.1), r.2)

/-- What a pointer of kind `k` holds after `p` was decoded: the assignments after `v.(*int64)` and the like; there is none
for `*int` and `*uint` (serialize/pb.go:244-255). -/
def stored (k : Kind) (p : Prim) : Option Prim :=
  match k with
  | .int => none
  | .uint => none
  | _ => some p

/-- `Buffer.DecodeMessage` into `cur`. -/
def deMsg (L : Lib P) (cur : P) (bs : Bytes) : Except Err (P × Bytes) :=
  match decRaw bs with
  | .error e => .error e
  | .ok (enc, rest) => (L.merge cur enc).map fun m => (m, rest)

/-- serialize/pb.go:189-196, 282-298, the loop over an array: one message object for all elements, so what is returned is
how many there are, the content of that object and the rest. `canAppend` is false if the target is a type. -/
def deMsgsLoop (L : Lib P) (canAppend : Bool) : Nat → P → Nat → Bytes → Except Err (Nat × P × Bytes)
  | 0, cur, n, bs => .ok (n, cur, bs)
  | fuel + 1, cur, n, bs =>
    match decVarint bs with
    | .error .eof => .ok (n, cur, bs)
    | .error e => .error e
    | .ok (i, rest) =>
      if i = 1 then
        if canAppend then deMsgsLoop L canAppend fuel cur (n + 1) rest else .error .panic
      else
        match deMsg L cur rest with
        | .error .eof => .ok (n, cur, rest)
        | .error e => .error e
        | .ok (m, rest) => if canAppend then deMsgsLoop L canAppend fuel m (n + 1) rest else .error .panic

/-- A decoded value, what the pointer given as the target holds afterwards (if it was assigned), and the rest. -/
structure Got (P : Type) where
  val : Val P
  assigned : Option (Val P) := none
  rest : Bytes
deriving DecidableEq, Repr

/-- serialize/pb.go:189-309 `deSerializeBuf`. -/
def deBuf (L : Lib P) (t : Target P) (bs : Bytes) : Except Err (Got P) :=
  match decVarint bs with
  | .error e => .error e
  | .ok (i, bs) =>
    if i = 1 then .ok ⟨.nil, none, bs⟩
    else
      match t with
      | .nil => .error .bad
      | .kind k => (deKind k bs).map fun r => ⟨.prim r.1, none, r.2⟩
      | .ptr k => (deKind k bs).map fun r => ⟨.prim r.1, (stored k r.1).map .prim, r.2⟩
      | .msg cur => (deMsg L cur bs).map fun r => ⟨.msg r.1, some (.msg r.1), r.2⟩
      | .msgType => (deMsg L L.zero bs).map fun r => ⟨.msg r.1, none, r.2⟩
      | .slice .value => .error .panic
      | .slice .type => (deMsgsLoop L false bs.length L.zero 0 bs).map fun r => ⟨.other, none, r.2.2⟩
      | .slice (.ptr l) =>
        (deMsgsLoop L true bs.length L.zero 0 bs).map fun r =>
          ⟨.msgs (l ++ List.replicate r.1 (some r.2.1)), some (.msgs (l ++ List.replicate r.1 (some r.2.1))), r.2.2⟩
      | .sliceOther => .error .bad
      | .other => .error .bad

/-- serialize/pb.go:171-174 `DeSerialize`: one value. -/
def deSer (L : Lib P) (t : Target P) (bs : Bytes) : Except Err (Val P × Option (Val P)) :=
  (deBuf L t bs).map fun g => (g.val, g.assigned)

/-- serialize/pb.go:176-187 `DeSerializeMulti`: the values and what was assigned. -/
def deMulti (L : Lib P) : List (Target P) → Bytes → Except Err (List (Val P × Option (Val P)))
  | [], _ => .ok []
  | t :: ts, bs =>
    match deBuf L t bs with
    | .error e => .error e
    | .ok g => (deMulti L ts g.rest).map ((g.val, g.assigned) :: ·)

/-! ## The serialization of gRPC -/

/-- serialize/pb.go:35-48 `GrpcPbSerialization.Serialize`. -/
def grpcSer (L : Lib P) : Val P → Except Err Bytes
  | .msg m =>
    match L.marshal m with
    | some bs => .ok bs
    | none => .error .bad
  | _ => .error .bad

/-- serialize/pb.go:25-33 `SerializeMulti`: exactly one message. -/
def grpcSerMulti (L : Lib P) : List (Val P) → Except Err Bytes
  | [v] => grpcSer L v
  | _ => .error .bad

/-- serialize/pb.go:64-80 `DeSerialize`: `proto.Unmarshal` resets the message first. -/
def grpcDe (L : Lib P) (t : Target P) (bs : Bytes) : Except Err (Val P × Option (Val P)) :=
  match t with
  | .msg _ => (L.merge L.zero bs).map fun m => (.msg m, some (.msg m))
  | .msgType => (L.merge L.zero bs).map fun m => (.msg m, none)
  | _ => .error .bad

/-- serialize/pb.go:50-62 `DeSerializeMulti`. -/
def grpcDeMulti (L : Lib P) : List (Target P) → Bytes → Except Err (List (Val P × Option (Val P)))
  | [t], bs => (grpcDe L t bs).map fun r => [r]
  | _, _ => .error .bad

end Motan.Pb
