import Verif.Model.BytesBuffer
import Verif.Basic.AMap

/-!
# Model of `serialize/simple.go`

The recursion of the decoder is over the buffer; it is modelled with a fuel argument that is proved
never to run out (`Verif/Props/Simple.lean`). Stack exhaustion by very deep nesting is not modelled.
-/

namespace Motan.Simple

open Motan

/-- The Go values the serialization deals with, by dynamic type. Integers and floats are their bit
patterns. `arr`/`map` stand for every slice/map type other than `[]string`, `[]byte` and
`map[string]string`; a nil slice or map is the empty one. A map is the list of its entries in
iteration order. `other` stands for every unsupported kind (struct, pointer, channel, uint32, ...). -/
inductive Val where
  | null
  | str (s : Bytes)
  | strMap (m : AMap Bytes Bytes)
  | bytes (b : Bytes)
  | strArr (l : List Bytes)
  | bool (b : Bool)
  | byte (c : UInt8)
  | i16 (v : UInt16)
  | i32 (v : UInt32)
  | i64 (v : UInt64)
  | int (v : UInt64)
  | f32 (v : UInt32)
  | f64 (v : UInt64)
  | map (m : List (Val × Val))
  | arr (l : List Val)
  | other
  deriving Repr

mutual
/-- Equality test of the model's values (used only to evaluate examples). -/
def Val.beq : Val → Val → Bool
  | .null, .null => true
  | .str a, .str b => a == b
  | .strMap a, .strMap b => a == b
  | .bytes a, .bytes b => a == b
  | .strArr a, .strArr b => a == b
  | .bool a, .bool b => a == b
  | .byte a, .byte b => a == b
  | .i16 a, .i16 b => a == b
  | .i32 a, .i32 b => a == b
  | .i64 a, .i64 b => a == b
  | .int a, .int b => a == b
  | .f32 a, .f32 b => a == b
  | .f64 a, .f64 b => a == b
  | .map a, .map b => Val.beqPairs a b
  | .arr a, .arr b => Val.beqList a b
  | .other, .other => true
  | _, _ => false

def Val.beqList : List Val → List Val → Bool
  | [], [] => true
  | a :: l, b :: r => Val.beq a b && Val.beqList l r
  | _, _ => false

def Val.beqPairs : List (Val × Val) → List (Val × Val) → Bool
  | [], [] => true
  | (a, c) :: l, (b, d) :: r => Val.beq a b && Val.beq c d && Val.beqPairs l r
  | _, _ => false
end

mutual
theorem Val.beq_iff : ∀ a b : Val, Val.beq a b = true ↔ a = b
  | .null, b => by cases b <;> simp [Val.beq]
  | .str _, b => by cases b <;> simp [Val.beq]
  | .strMap _, b => by cases b <;> simp [Val.beq]
  | .bytes _, b => by cases b <;> simp [Val.beq]
  | .strArr _, b => by cases b <;> simp [Val.beq]
  | .bool _, b => by cases b <;> simp [Val.beq]
  | .byte _, b => by cases b <;> simp [Val.beq]
  | .i16 _, b => by cases b <;> simp [Val.beq]
  | .i32 _, b => by cases b <;> simp [Val.beq]
  | .i64 _, b => by cases b <;> simp [Val.beq]
  | .int _, b => by cases b <;> simp [Val.beq]
  | .f32 _, b => by cases b <;> simp [Val.beq]
  | .f64 _, b => by cases b <;> simp [Val.beq]
  | .map x, b => by
    cases b with
    | map y => simpa [Val.beq] using Val.beqPairs_iff x y
    | _ => simp [Val.beq]
  | .arr x, b => by
    cases b with
    | arr y => simpa [Val.beq] using Val.beqList_iff x y
    | _ => simp [Val.beq]
  | .other, b => by cases b <;> simp [Val.beq]

theorem Val.beqList_iff : ∀ a b : List Val, Val.beqList a b = true ↔ a = b
  | [], [] => by simp [Val.beqList]
  | [], _ :: _ => by simp [Val.beqList]
  | _ :: _, [] => by simp [Val.beqList]
  | a :: l, b :: r => by simp [Val.beqList, Val.beq_iff a b, Val.beqList_iff l r]

theorem Val.beqPairs_iff : ∀ a b : List (Val × Val), Val.beqPairs a b = true ↔ a = b
  | [], [] => by simp [Val.beqPairs]
  | [], _ :: _ => by simp [Val.beqPairs]
  | _ :: _, [] => by simp [Val.beqPairs]
  | (a, c) :: l, (b, d) :: r => by
    simp [Val.beqPairs, Val.beq_iff a b, Val.beq_iff c d, Val.beqPairs_iff l r]
end

instance : DecidableEq Val := fun a b => decidable_of_iff _ (Val.beq_iff a b)

/-- Errors of the serialization; `panic` is a Go run-time panic, `fuel` is the model's own. -/
inductive Err where
  | buf (e : BufErr)
  | notSupport
  | wrongSize
  | panic
  | fuel
  deriving DecidableEq, Repr

/-! ## Tags: serialize/simple.go:13-30 -/

def sNull : UInt8 := 0
def sString : UInt8 := 1
def sStringMap : UInt8 := 2
def sByteArray : UInt8 := 3
def sStringArray : UInt8 := 4
def sBool : UInt8 := 5
def sByte : UInt8 := 6
def sInt16 : UInt8 := 7
def sInt32 : UInt8 := 8
def sInt64 : UInt8 := 9
def sFloat32 : UInt8 := 10
def sFloat64 : UInt8 := 11
def sMap : UInt8 := 20
def sArray : UInt8 := 21

/-! ## Go map keys of interface type -/

/-- An IEEE-754 single NaN. -/
def isNaN32 (v : UInt32) : Bool := (v &&& 0x7fffffff) > 0x7f800000
/-- An IEEE-754 double NaN. -/
def isNaN64 (v : UInt64) : Bool := (v &&& 0x7fffffffffffffff) > 0x7ff0000000000000

/-- Go `==` on interface values holding hashable dynamic values: same dynamic type and equal value;
floats compare as numbers (NaN differs from itself, the two zeros are equal). -/
def keyEq : Val → Val → Bool
  | .null, .null => true
  | .str a, .str b => a == b
  | .bool a, .bool b => a == b
  | .byte a, .byte b => a == b
  | .i16 a, .i16 b => a == b
  | .i32 a, .i32 b => a == b
  | .i64 a, .i64 b => a == b
  | .int a, .int b => a == b
  | .f32 a, .f32 b => !isNaN32 a && (a == b || ((a ||| b) &&& 0x7fffffff) == 0)
  | .f64 a, .f64 b => !isNaN64 a && (a == b || ((a ||| b) &&& 0x7fffffffffffffff) == 0)
  | _, _ => false

/-- Using a value of this dynamic type as a map key does not panic. -/
def hashable : Val → Bool
  | .strMap _ | .bytes _ | .strArr _ | .map _ | .arr _ => false
  | _ => true

/-- A key that a map lookup cannot find again. -/
def isNaNKey : Val → Bool
  | .f32 v => isNaN32 v
  | .f64 v => isNaN64 v
  | _ => false

/-- Go map assignment `m[k] = v` (for a hashable `k`); a key equal to an existing one replaces it. -/
def mapStore : List (Val × Val) → Val → Val → List (Val × Val)
  | [], k, v => [(k, v)]
  | (k', v') :: m, k, v => if keyEq k' k then (k, v) :: m else (k', v') :: mapStore m k v

/-! ## Encoding -/

/-- serialize/simple.go:201-206 `encodeStringNoTag`. -/
def encodeStringNoTag (b : BytesBuffer) (s : Bytes) : BytesBuffer :=
  (b.writeUint32 (UInt32.ofNat s.length)).write s

/-- The end of the container encoders, e.g. serialize/simple.go:216-219: go back to `pos`, write the
size, return to the end. -/
def patchSize (b : BytesBuffer) (pos : Nat) : BytesBuffer :=
  let npos := b.wpos
  let b := b.setWPos pos
  let b := b.writeUint32 (UInt32.ofNat (npos - pos - 4))
  b.setWPos npos

/-- serialize/simple.go:208-220 `encodeStringMap`. -/
def encodeStringMap (b : BytesBuffer) (m : AMap Bytes Bytes) : BytesBuffer :=
  let b := b.writeByte sStringMap
  let pos := b.wpos
  let b := b.setWPos (pos + 4)
  let b := m.foldl (fun b p => encodeStringNoTag (encodeStringNoTag b p.1) p.2) b
  patchSize b pos

/-- serialize/simple.go:228-239 `encodeStringArray`. -/
def encodeStringArray (b : BytesBuffer) (l : List Bytes) : BytesBuffer :=
  let b := b.writeByte sStringArray
  let pos := b.wpos
  let b := b.setWPos (pos + 4)
  let b := l.foldl encodeStringNoTag b
  patchSize b pos

/-- serialize/simple.go:83-118 for the scalar kinds and 196-248, 290-318 (`encodeString`, `encodeBool`,
`encodeBytes`, `encodeByte`, `encodeInt16/32/64`, `encodeFloat32/64`, `encodeStringMap`,
`encodeStringArray`). The detour of a float32 through float64 is taken to preserve the bits
(true of every float32 except signalling NaNs). -/
def encodeFlat (b : BytesBuffer) : Val → Option BytesBuffer
  | .str s => some (encodeStringNoTag (b.writeByte sString) s)
  | .strMap m => some (encodeStringMap b m)
  | .bytes s => some (((b.writeByte sByteArray).writeUint32 (UInt32.ofNat s.length)).write s)
  | .strArr l => some (encodeStringArray b l)
  | .bool v => some ((b.writeByte sBool).writeByte (if v then 1 else 0))
  | .byte c => some ((b.writeByte sByte).writeByte c)
  | .i16 v => some ((b.writeByte sInt16).writeUint16 v)
  | .i32 v => some ((b.writeByte sInt32).writeZigzag32 v).1
  | .i64 v => some ((b.writeByte sInt64).writeZigzag64 v).1
  | .int v => some ((b.writeByte sInt64).writeZigzag64 v).1
  | .f32 v => some ((b.writeByte sFloat32).writeUint32 v)
  | .f64 v => some ((b.writeByte sFloat64).writeUint64 v)
  | .null | .map _ | .arr _ | .other => none

mutual
/-- serialize/simple.go:66-120 `serializeBuf` called with a `reflect.Value` (element of a container):
a nil element has an invalid kind and is not supported. -/
def serElem (b : BytesBuffer) : Val → Except Err BytesBuffer
  | .arr l =>
    -- encodeArray, 272-288
    let b := b.writeByte sArray
    let pos := b.wpos
    match serElems (b.setWPos (pos + 4)) l with
    | .error e => .error e
    | .ok b => .ok (patchSize b pos)
  | .map m =>
    -- encodeMap, 250-270
    let b := b.writeByte sMap
    let pos := b.wpos
    match serPairs (b.setWPos (pos + 4)) m with
    | .error e => .error e
    | .ok b => .ok (patchSize b pos)
  | v =>
    match encodeFlat b v with
    | some b => .ok b
    | none => .error .notSupport

/-- serialize/simple.go:277-282: the elements of a slice. -/
def serElems (b : BytesBuffer) : List Val → Except Err BytesBuffer
  | [] => .ok b
  | v :: l =>
    match serElem b v with
    | .error e => .error e
    | .ok b => serElems b l

/-- serialize/simple.go:255-264: the entries of a map. `MapIndex` of a NaN key is the invalid value. -/
def serPairs (b : BytesBuffer) : List (Val × Val) → Except Err BytesBuffer
  | [] => .ok b
  | (k, v) :: m =>
    match serElem b k with
    | .error e => .error e
    | .ok b =>
      if isNaNKey k then .error .notSupport
      else
        match serElem b v with
        | .error e => .error e
        | .ok b => serPairs b m
end

/-- serialize/simple.go:66-70 `serializeBuf` called with an ordinary interface value. -/
def serializeBuf (b : BytesBuffer) (v : Val) : Except Err BytesBuffer :=
  match v with
  | .null => .ok (b.writeByte sNull)
  | v => serElem b v

/-- serialize/simple.go:46-50 `Serialize` (the bytes are only meaningful without an error);
`size` is the configurable `DefaultBufferSize`. -/
def serialize (size : Nat) (v : Val) : Except Err Bytes :=
  match serializeBuf (.new size .big) v with
  | .error e => .error e
  | .ok b => .ok b.bytes

/-- serialize/simple.go:57-62. -/
def serializeAll (b : BytesBuffer) : List Val → Except Err BytesBuffer
  | [] => .ok b
  | v :: l =>
    match serializeBuf b v with
    | .error e => .error e
    | .ok b => serializeAll b l

/-- serialize/simple.go:52-64 `SerializeMulti`. -/
def serializeMulti (size : Nat) (vs : List Val) : Except Err Bytes :=
  if vs.length = 0 then .ok []
  else
    match serializeAll (.new size .big) vs with
    | .error e => .error e
    | .ok b => .ok b.bytes

/-! ## Decoding -/

/-- A buffer read as a decoder result. -/
def rd {α : Type} (r : Except BufErr (α × BytesBuffer)) : Except Err (α × BytesBuffer) :=
  match r with
  | .error e => .error (.buf e)
  | .ok x => .ok x

/-- serialize/simple.go:349-365 `decodeString` and 401-416 `decodeBytes`: the same reads. -/
def decodeString (b : BytesBuffer) : Except Err (Bytes × BytesBuffer) :=
  match b.readInt with
  | .error e => .error (.buf e)
  | .ok (size, b) =>
    match b.next size with
    | .error _ => .error (.buf .notEnough)
    | .ok (s, b) => .ok (s, b)

/-- serialize/simple.go:495-504: the loop of `decodeStringArray` and the size check. -/
def decStrs : Nat → BytesBuffer → Nat → List Bytes → Except Err (List Bytes × BytesBuffer)
  | 0, _, _, _ => .error .fuel
  | f + 1, b, endPos, a =>
    if b.rpos < endPos then
      match decodeString b with
      | .error e => .error e
      | .ok (s, b) => decStrs f b endPos (a ++ [s])
    else if b.rpos ≠ endPos then .error .wrongSize
    else .ok (a, b)

/-- serialize/simple.go:379-392: the loop of `decodeStringMap` and the size check. -/
def decStrMap : Nat → BytesBuffer → Nat → AMap Bytes Bytes → Except Err (AMap Bytes Bytes × BytesBuffer)
  | 0, _, _, _ => .error .fuel
  | f + 1, b, endPos, m =>
    if b.rpos < endPos then
      match decodeString b with
      | .error e => .error e
      | .ok (k, b) =>
        match decodeString b with
        | .error e => .error e
        | .ok (v, b) => decStrMap f b endPos (m.store k v)
    else if b.rpos ≠ endPos then .error .wrongSize
    else .ok (m, b)

/-- serialize/simple.go:163-187 and the scalar decoders 320-335, 513-594, by tag. -/
def decScalar (b : BytesBuffer) (tp : UInt8) : Option (Except Err (Val × BytesBuffer)) :=
  if tp = sNull then some (.ok (.null, b))
  else if tp = sBool then some ((rd b.readByte).map fun (c, b) => (.bool (c == 1), b))
  else if tp = sByte then some ((rd b.readByte).map fun (c, b) => (.byte c, b))
  else if tp = sInt16 then some ((rd b.readUint16).map fun (v, b) => (.i16 v, b))
  else if tp = sInt32 then some ((rd b.readZigzag32).map fun (v, b) => (.i32 v.toUInt32, b))
  else if tp = sInt64 then some ((rd b.readZigzag64).map fun (v, b) => (.i64 v, b))
  else if tp = sFloat32 then some ((rd b.readUint32).map fun (v, b) => (.f32 v, b))
  else if tp = sFloat64 then some ((rd b.readUint64).map fun (v, b) => (.f64 v, b))
  else none

mutual
/-- serialize/simple.go:158-194 `deSerializeBuf` without a type hint. -/
def decVal : Nat → BytesBuffer → Except Err (Val × BytesBuffer)
  | 0, _ => .error .fuel
  | f + 1, b =>
    match b.readByte with
    | .error e => .error (.buf e)
    | .ok (tp, b) =>
      match decScalar b tp with
      | some r => r
      | none =>
        if tp = sString then (decodeString b).map fun (s, b) => (.str s, b)
        else if tp = sByteArray then (decodeString b).map fun (s, b) => (.bytes s, b)
        else if tp = sStringMap ∨ tp = sStringArray ∨ tp = sMap ∨ tp = sArray then
          -- the common start of decodeStringMap (367-378), decodeStringArray (483-494),
          -- decodeMap (418-430) and decodeArray (453-464)
          match b.readInt with
          | .error e => .error (.buf e)
          | .ok (total, b) =>
            let endPos := b.rpos + total
            if tp = sStringMap then
              if total = 0 then .ok (.strMap [], b)
              else (decStrMap f b endPos []).map fun (m, b) => (.strMap m, b)
            else if tp = sStringArray then
              if total = 0 then .ok (.strArr [], b)
              else (decStrs f b endPos []).map fun (l, b) => (.strArr l, b)
            else if tp = sMap then
              if total = 0 then .ok (.map [], b)
              else (decPairs f b endPos []).map fun (m, b) => (.map m, b)
            else
              if total = 0 then .ok (.arr [], b)
              else (decElems f b endPos []).map fun (l, b) => (.arr l, b)
        else .error .notSupport

/-- serialize/simple.go:465-474: the loop of `decodeArray` and the size check. -/
def decElems : Nat → BytesBuffer → Nat → List Val → Except Err (List Val × BytesBuffer)
  | 0, _, _, _ => .error .fuel
  | f + 1, b, endPos, a =>
    if b.rpos < endPos then
      match decVal f b with
      | .error e => .error e
      | .ok (v, b) => decElems f b endPos (a ++ [v])
    else if b.rpos ≠ endPos then .error .wrongSize
    else .ok (a, b)

/-- serialize/simple.go:431-444: the loop of `decodeMap` and the size check. -/
def decPairs : Nat → BytesBuffer → Nat → List (Val × Val) → Except Err (List (Val × Val) × BytesBuffer)
  | 0, _, _, _ => .error .fuel
  | f + 1, b, endPos, m =>
    if b.rpos < endPos then
      match decVal f b with
      | .error e => .error e
      | .ok (k, b) =>
        match decVal f b with
        | .error e => .error e
        | .ok (v, b) =>
          if hashable k then decPairs f b endPos (mapStore m k v) else .error .panic
    else if b.rpos ≠ endPos then .error .wrongSize
    else .ok (m, b)
end

/-- `deSerializeBuf(buf, nil)` with enough fuel. -/
def deSerializeBuf (b : BytesBuffer) : Except Err (Val × BytesBuffer) :=
  decVal (2 * (b.buf.length - b.rpos) + 1) b

/-- The Go type `T` of a `*T` hint. -/
inductive Ty where
  | bool | str | bytes | strMap | strArr | byte | i16 | i32 | i64 | int | f32 | f64 | map | arr | other
  deriving DecidableEq, Repr

/-- The hint argument `v` of the deserialization: nil, the `reflect.Type` of a byte slice, a pointer to a
variable of the given type; every other hint behaves as nil. -/
inductive Hint where
  | none
  | byteSliceType
  | ptr (t : Ty)
  deriving DecidableEq, Repr

/-- What is stored through a `*T` hint (serialize/simple.go:329-333, 358-363, 393-397, 410-414, 445-449,
475-479, 505-509, 518-522, 531-535, 544-548, 557-564, 574-578, 588-592). Nothing is stored when the type
differs, for a null and, because of the early returns at 372, 423, 458, 488, for an empty container. -/
def assign : Ty → Val → Option Val
  | .bool, .bool v => some (.bool v)
  | .str, .str v => some (.str v)
  | .bytes, .bytes v => some (.bytes v)
  | .strMap, .strMap m => if m = [] then none else some (.strMap m)
  | .strArr, .strArr l => if l = [] then none else some (.strArr l)
  | .byte, .byte v => some (.byte v)
  | .i16, .i16 v => some (.i16 v)
  | .i32, .i32 v => some (.i32 v)
  | .i64, .i64 v => some (.i64 v)
  | .int, .i64 v => some (.int v)
  | .f32, .f32 v => some (.f32 v)
  | .f64, .f64 v => some (.f64 v)
  | .map, .map m => if m.isEmpty then none else some (.map m)
  | .arr, .arr l => if l.isEmpty then none else some (.arr l)
  | _, _ => none

/-- serialize/simple.go:158-194 and 337-347 `deSerializeBuf` with a hint: the returned value, the value
stored through the hint if any, and the buffer. -/
def deSerializeHint (b : BytesBuffer) (h : Hint) : Except Err (Val × Option Val × BytesBuffer) :=
  match b.readByte with
  | .error e => .error (.buf e)
  | .ok (tp, b') =>
    if tp = sString ∧ (h = .byteSliceType ∨ h = .ptr .bytes) then
      -- compatDecodeString
      (decodeString b').map fun (s, b) =>
        (.bytes s, if h = .ptr .bytes then some (.bytes s) else none, b)
    else
      (deSerializeBuf b).map fun (v, b) =>
        (v, (match h with | .ptr t => assign t v | _ => none), b)

/-- serialize/simple.go:122-128 `DeSerialize`: value and what was stored through the hint. -/
def deSerialize (bs : Bytes) (h : Hint) : Except Err (Val × Option Val) :=
  if bs.length = 0 then .ok (.null, none)
  else (deSerializeHint (.create bs .big) h).map fun (v, a, _) => (v, a)

/-- serialize/simple.go:142-152: the loop of `DeSerializeMulti` without hints. -/
def multiLoop : Nat → BytesBuffer → List Val → Except Err (List Val)
  | 0, _, _ => .error .fuel
  | f + 1, b, ret =>
    if b.remain > 0 then
      match deSerializeBuf b with
      | .error e => if e = .buf .eof then .ok ret else .error e
      | .ok (v, b) => multiLoop f b (ret ++ [v])
    else .ok ret

/-- serialize/simple.go:134-140: the loop of `DeSerializeMulti` over the hints. -/
def multiHints (b : BytesBuffer) : List Hint → Except Err (List (Val × Option Val))
  | [] => .ok []
  | h :: hs =>
    match deSerializeHint b h with
    | .error e => .error e
    | .ok (v, a, b) =>
      match multiHints b hs with
      | .error e => .error e
      | .ok r => .ok ((v, a) :: r)

/-- serialize/simple.go:130-156 `DeSerializeMulti`; `hs = none` is a nil hint slice. -/
def deSerializeMulti (bs : Bytes) (hs : Option (List Hint)) : Except Err (List (Val × Option Val)) :=
  match hs with
  | some hs => multiHints (.create bs .big) hs
  | none => (multiLoop (bs.length + 1) (.create bs .big) []).map fun l => l.map fun v => (v, none)

end Motan.Simple
