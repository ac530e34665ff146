import Verif.Basic.Bytes
import Verif.Basic.AMap

/-!
# Specification of the motan1 wire data

Written from the Java serialization and motan1 frame formats, without reference to the model.
-/

namespace Motan.Spec.Motan1

open Motan

/-- The header of one block of `n` bytes: `TC_BLOCKDATA` with one length byte up to 255, else
`TC_BLOCKDATALONG` with four. -/
def blockHeader (n : Nat) : Bytes :=
  if n < 256 then [0x77, UInt8.ofNat n] else 0x7A :: beBytes 4 n

/-- Block data: the content in blocks of 1024 bytes, only the last of which may be shorter. -/
def blocks (c : Bytes) : Bytes :=
  if h : c = [] then []
  else blockHeader (min c.length 1024) ++ c.take 1024 ++ blocks (c.drop 1024)
termination_by c.length
decreasing_by
  have : 0 < c.length := List.length_pos_iff.mpr h
  simp only [List.length_drop]; omega

/-- A Java modified-UTF string: two length bytes and the content. -/
def utf (s : Bytes) : Bytes := beBytes 2 s.length ++ s

/-- Whether a byte starts a block. -/
def StartsBlock (b : UInt8) : Prop := b = 0x77 ∨ b = 0x7A

/-- The serialized form of one argument: `null`, or a byte array with a class descriptor (19 bytes from the
array type on) or a back reference (6 bytes), the four byte length and the content. -/
inductive Arg : Bytes → Prop
  | null : Arg [0x70]
  | desc (d content : Bytes) (hd : d.length = 17) (hc : content.length < 2 ^ 32) :
      Arg (0x75 :: 0x72 :: d ++ beBytes 4 content.length ++ content)
  | ref (d content : Bytes) (hd : d.length = 4) (hc : content.length < 2 ^ 32) :
      Arg (0x75 :: 0x71 :: d ++ beBytes 4 content.length ++ content)

/-- The attachment map: the number of pairs (two bytes in the compressed version of the protocol, else
four) and the pairs of strings. -/
def attachments (version : UInt8) (ps : List (Bytes × Bytes)) : Bytes :=
  beBytes (if version = 2 then 2 else 4) ps.length ++ (ps.map fun p => utf p.1 ++ utf p.2).flatten

/-- The body of a request: object stream header, then the names, the arguments and the attachments.
Without arguments names and attachments are written as one run of block data. -/
def request (version : UInt8) (service method desc : Bytes) (args : List Bytes) (att : List (Bytes × Bytes)) :
    Bytes :=
  let names := utf service ++ utf method ++ utf desc
  [0xac, 0xed, 0x00, 0x05] ++
    (if args = [] then blocks (names ++ attachments version att)
     else blocks names ++ args.flatten ++ blocks (attachments version att))

/-- A Hessian 2 string: the length in one, two or three bytes and the text. This reader returns the text and
what follows; lengths count characters, so it is right for texts of one byte per character. -/
def readHessian : Bytes → Option (Bytes × Bytes)
  | [] => none
  | b :: r =>
    if b ≤ 0x1f then
      if b.toNat ≤ r.length then some (r.take b.toNat, r.drop b.toNat) else none
    else if 0x30 ≤ b ∧ b ≤ 0x33 then
      match r with
      | c :: r =>
        let n := (b.toNat - 0x30) * 256 + c.toNat
        if n ≤ r.length then some (r.take n, r.drop n) else none
      | [] => none
    else if b = 83 then
      match r with
      | c :: d :: r =>
        let n := c.toNat * 256 + d.toNat
        if n ≤ r.length then some (r.take n, r.drop n) else none
      | _ => none
    else none

/-- A frame: magic and flags, the id, the outer length, the inner magic, version and flag, the id again,
the inner length and the body. -/
def frame (pre : Bytes) (rid1 rid2 : Nat) (version flag : UInt8) (body : Bytes) : Bytes :=
  pre ++ beBytes 8 rid1 ++ beBytes 4 (body.length + 16) ++ [0xf0, 0xf0, version, flag] ++ beBytes 8 rid2 ++
    beBytes 4 body.length ++ body

end Motan.Spec.Motan1
