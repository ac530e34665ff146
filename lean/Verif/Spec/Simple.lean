import Verif.Model.Simple

/-!
# Specification of the simple serialization's wire format

`Wire p v` says that the byte string `p` is an encoding of the value `v`. It is a grammar, independent
of the buffer code in the model.
-/

namespace Motan.Simple

open Motan

/-- A base-128 number: little-endian groups of seven bits, the high bit marks that more follow;
at most ten groups. `VarintAt off x c r`: the bytes `c` continue a number whose groups below bit `off`
are `x`, and the final number is `r`. -/
inductive VarintAt : Nat → UInt64 → Bytes → UInt64 → Prop where
  | last {off : Nat} {x : UInt64} {c : UInt8} (h : off < 64) (hc : c &&& 0x80 ≠ 0x80) :
      VarintAt off x [c] (x ||| (c.toUInt64 <<< UInt64.ofNat off))
  | more {off : Nat} {x : UInt64} {c : UInt8} {cs : Bytes} {r : UInt64} (h : off < 64)
      (hc : c &&& 0x80 = 0x80)
      (ht : VarintAt (off + 7) (x ||| ((c &&& 0x7f).toUInt64 <<< UInt64.ofNat off)) cs r) :
      VarintAt off x (c :: cs) r

/-- A length-prefixed string. -/
def lp (s : Bytes) : Bytes := beBytes 4 s.length ++ s

/-- The grammar. -/
inductive Wire : Bytes → Val → Prop where
  | null : Wire [0] .null
  | str (s : Bytes) (h : s.length < 2 ^ 32) : Wire (1 :: lp s) (.str s)
  | strMap (l : List (Bytes × Bytes)) (h : ∀ x ∈ l, x.1.length < 2 ^ 32 ∧ x.2.length < 2 ^ 32)
      (content : Bytes) (hc : content = (l.map fun x => lp x.1 ++ lp x.2).flatten)
      (ht : content.length < 2 ^ 32) :
      Wire (2 :: lp content) (.strMap (AMap.storeAll [] l))
  | bytes (s : Bytes) (h : s.length < 2 ^ 32) : Wire (3 :: lp s) (.bytes s)
  | strArr (l : List Bytes) (h : ∀ x ∈ l, x.length < 2 ^ 32) (content : Bytes)
      (hc : content = (l.map lp).flatten) (ht : content.length < 2 ^ 32) :
      Wire (4 :: lp content) (.strArr l)
  | bool (c : UInt8) : Wire [5, c] (.bool (c == 1))
  | byte (c : UInt8) : Wire [6, c] (.byte c)
  | i16 (v : UInt16) : Wire (7 :: beBytes 2 v.toNat) (.i16 v)
  | i32 (c : Bytes) (x : UInt64) (h : VarintAt 0 0 c x) :
      Wire (8 :: c) (.i32 ⟨BytesBuffer.zigzagDec32 (x.toBitVec.setWidth 32)⟩)
  | i64 (c : Bytes) (x : UInt64) (h : VarintAt 0 0 c x) :
      Wire (9 :: c) (.i64 ⟨BytesBuffer.zigzagDec64 x.toBitVec⟩)
  | f32 (v : UInt32) : Wire (10 :: beBytes 4 v.toNat) (.f32 v)
  | f64 (v : UInt64) : Wire (11 :: beBytes 8 v.toNat) (.f64 v)
  | map (l : List ((Bytes × Val) × (Bytes × Val)))
      (h1 : ∀ x ∈ l, Wire x.1.1 x.1.2) (h2 : ∀ x ∈ l, Wire x.2.1 x.2.2)
      (hk : ∀ x ∈ l, hashable x.1.2 = true) (content : Bytes)
      (hc : content = (l.map fun x => x.1.1 ++ x.2.1).flatten) (ht : content.length < 2 ^ 32) :
      Wire (20 :: lp content) (.map (l.foldl (fun m x => mapStore m x.1.2 x.2.2) []))
  | arr (l : List (Bytes × Val)) (h : ∀ x ∈ l, Wire x.1 x.2) (content : Bytes)
      (hc : content = (l.map Prod.fst).flatten) (ht : content.length < 2 ^ 32) :
      Wire (21 :: lp content) (.arr (l.map Prod.snd))

mutual
/-- What a value becomes after a round trip: an `int` is read back as `int64`, everything else
is unchanged. -/
def norm : Val → Val
  | .int v => .i64 v
  | .map m => .map (normP m)
  | .arr l => .arr (normL l)
  | v => v

def normL : List Val → List Val
  | [] => []
  | v :: l => norm v :: normL l

def normP : List (Val × Val) → List (Val × Val)
  | [] => []
  | (k, v) :: m => (norm k, norm v) :: normP m
end

/-- The number held by the bits of a single: NaN, a zero of either sign, or another number given by its
bits (two bit patterns that are neither are the same number only when they are the same bits). -/
def num32 (a : UInt32) : Option UInt32 :=
  if a.toNat % 2 ^ 31 > 255 * 2 ^ 23 then none else if a.toNat % 2 ^ 31 = 0 then some 0 else some a

/-- The number held by the bits of a double. -/
def num64 (a : UInt64) : Option UInt64 :=
  if a.toNat % 2 ^ 63 > 2047 * 2 ^ 52 then none else if a.toNat % 2 ^ 63 = 0 then some 0 else some a

/-- Two values are the same key of a Go map: of the same type and equal; a NaN is no key's equal. -/
def sameKey : Val → Val → Bool
  | .f32 a, .f32 b => (num32 a).isSome && num32 a == num32 b
  | .f64 a, .f64 b => (num64 a).isSome && num64 a == num64 b
  | .null, .null => true
  | .str a, .str b => a == b
  | .bool a, .bool b => a == b
  | .byte a, .byte b => a == b
  | .i16 a, .i16 b => a == b
  | .i32 a, .i32 b => a == b
  | .i64 a, .i64 b => a == b
  | .int a, .int b => a == b
  | _, _ => false

/-- No key equals an earlier one. -/
def distinctKeys : List Val → Bool
  | [] => true
  | k :: ks => (ks.all fun k' => !sameKey k k') && distinctKeys ks

mutual
/-- The maps inside the value are Go maps (hashable, pairwise different keys) whose keys stay
different when `int` keys become `int64` keys. -/
def storable : Val → Bool
  | .strMap m => decide m.NodupKeys
  | .map m => (m.all fun p => hashable p.1) && distinctKeys (m.map fun p => norm p.1) && storableP m
  | .arr l => storableL l
  | _ => true

def storableL : List Val → Bool
  | [] => true
  | v :: l => storable v && storableL l

def storableP : List (Val × Val) → Bool
  | [] => true
  | (k, v) :: m => storable k && storable v && storableP m
end

mutual
/-- The value is built from supported types only: no nil inside a generic container, no unsupported
kind, no NaN as a map key. -/
def supportedIn : Val → Bool
  | .null | .other => false
  | .map m => supportedP m
  | .arr l => supportedL l
  | _ => true

def supportedL : List Val → Bool
  | [] => true
  | v :: l => supportedIn v && supportedL l

def supportedP : List (Val × Val) → Bool
  | [] => true
  | (k, v) :: m => supportedIn k && !isNaNKey k && supportedIn v && supportedP m
end

/-- A top-level value: nil is supported here. -/
def supported : Val → Bool
  | .null => true
  | v => supportedIn v

end Motan.Simple
