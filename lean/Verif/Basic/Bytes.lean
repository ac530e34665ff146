/-!
# Byte strings

Helper definitions that mention no motan-go code: byte strings, fixed-width big/little-endian
numbers, Go's `copy`.
-/

deriving instance DecidableEq for Except

namespace Motan

/-- A Go `[]byte` or `string`: the sequence of its bytes. -/
abbrev Bytes := List UInt8

/-- `b!"abc"` is the list of the UTF-8 bytes of the literal, written out at elaboration time. -/
syntax:max (name := byteStr) "b!" noWs str : term

macro_rules
  | `(b!$s:str) => do
    let bs := s.getString.toUTF8.toList
    let elems ← bs.toArray.mapM fun b => `(term| $(Lean.quote b.toNat))
    `(([$elems,*] : List UInt8))

/-- The `k` low-order bytes of `n`, most significant first. -/
def beBytes : Nat → Nat → Bytes
  | 0, _ => []
  | k + 1, n => UInt8.ofNat (n / 256 ^ k) :: beBytes k n

/-- The number whose big-endian representation is the given byte string. -/
def beVal : Bytes → Nat
  | [] => 0
  | b :: bs => b.toNat * 256 ^ bs.length + beVal bs

/-- The `k` low-order bytes of `n`, least significant first. -/
def leBytes : Nat → Nat → Bytes
  | 0, _ => []
  | k + 1, n => UInt8.ofNat n :: leBytes k (n / 256)

/-- The number whose little-endian representation is the given byte string. -/
def leVal : Bytes → Nat
  | [] => 0
  | b :: bs => b.toNat + 256 * leVal bs

/-- Go's `copy(dst[at:], src)`: overwrites as much as fits and keeps the length of `dst`. -/
def copyAt (dst : Bytes) (pos : Nat) (src : Bytes) : Bytes :=
  dst.take pos ++ src.take (dst.length - pos) ++ dst.drop (pos + min src.length (dst.length - pos))

@[simp] theorem length_beBytes (k n : Nat) : (beBytes k n).length = k := by
  induction k <;> simp [beBytes, *]

@[simp] theorem length_leBytes (k n : Nat) : (leBytes k n).length = k := by
  induction k generalizing n <;> simp [leBytes, *]

theorem beVal_beBytes_mod (k n : Nat) : beVal (beBytes k n) = n % 256 ^ k := by
  induction k with
  | zero => simp [beBytes, beVal, Nat.mod_one]
  | succ k ih =>
    simp only [beBytes, beVal, length_beBytes, ih, UInt8.toNat_ofNat']
    have h : n % 256 ^ (k + 1) = n % 256 ^ k + 256 ^ k * (n / 256 ^ k % 256) := by
      rw [Nat.pow_succ, Nat.mod_mul]
    rw [h]
    have : (2:Nat)^8 = 256 := rfl
    rw [this, Nat.mul_comm, Nat.add_comm]

theorem beVal_beBytes {k n : Nat} (h : n < 256 ^ k) : beVal (beBytes k n) = n := by
  rw [beVal_beBytes_mod, Nat.mod_eq_of_lt h]

theorem leVal_leBytes_mod (k n : Nat) : leVal (leBytes k n) = n % 256 ^ k := by
  induction k generalizing n with
  | zero => simp [leBytes, leVal, Nat.mod_one]
  | succ k ih =>
    simp only [leBytes, leVal, ih, UInt8.toNat_ofNat']
    rw [show 256 ^ (k + 1) = 256 * 256 ^ k by rw [Nat.pow_succ, Nat.mul_comm], Nat.mod_mul]

theorem leVal_leBytes {k n : Nat} (h : n < 256 ^ k) : leVal (leBytes k n) = n := by
  rw [leVal_leBytes_mod, Nat.mod_eq_of_lt h]

theorem beVal_lt (bs : Bytes) : beVal bs < 256 ^ bs.length := by
  induction bs with
  | nil => simp [beVal]
  | cons b bs ih =>
    simp only [beVal, List.length_cons, Nat.pow_succ]
    have hb := b.toNat_lt
    have : b.toNat * 256 ^ bs.length ≤ 255 * 256 ^ bs.length :=
      Nat.mul_le_mul_right _ (by omega)
    omega

theorem leVal_lt (bs : Bytes) : leVal bs < 256 ^ bs.length := by
  induction bs with
  | nil => simp [leVal]
  | cons b bs ih =>
    simp only [leVal, List.length_cons, Nat.pow_succ]
    have hb := b.toNat_lt
    omega

theorem beBytes_beVal (bs : Bytes) : beBytes bs.length (beVal bs) = bs := by
  have key : ∀ (k : Nat) (bs : Bytes), bs.length = k → ∀ m,
      beBytes k (m * 256 ^ k + beVal bs) = bs := by
    intro k
    induction k with
    | zero => intro bs h m; simp at h; simp [beBytes, h]
    | succ k ih =>
      intro bs h m
      match bs, h with
      | b :: bs, h =>
        simp only [List.length_cons, Nat.add_right_cancel_iff] at h
        simp only [beBytes, beVal, h]
        have e : m * 256 ^ (k + 1) + (b.toNat * 256 ^ k + beVal bs)
            = (m * 256 + b.toNat) * 256 ^ k + beVal bs := by
          rw [Nat.pow_succ, Nat.add_mul, Nat.mul_assoc, Nat.mul_comm (256 ^ k) 256]
          omega
        rw [e, ih bs h]
        congr 1
        have hlt := beVal_lt bs
        rw [h] at hlt
        have hpos : 0 < 256 ^ k := Nat.pow_pos (by decide)
        rw [Nat.add_comm, Nat.add_mul_div_right _ _ hpos, Nat.div_eq_of_lt hlt, Nat.zero_add]
        apply UInt8.toNat_inj.mp
        rw [UInt8.toNat_ofNat']
        have hb := b.toNat_lt
        omega
  have := key bs.length bs rfl 0
  simpa using this

@[simp] theorem length_copyAt (dst : Bytes) (pos : Nat) (src : Bytes) (h : pos ≤ dst.length) :
    (copyAt dst pos src).length = dst.length := by
  simp [copyAt]; omega

theorem copyAt_fit (dst : Bytes) (pos : Nat) (src : Bytes) (h : pos + src.length ≤ dst.length) :
    copyAt dst pos src = dst.take pos ++ src ++ dst.drop (pos + src.length) := by
  have h1 : src.take (dst.length - pos) = src := List.take_of_length_le (by omega)
  have h2 : min src.length (dst.length - pos) = src.length := by omega
  rw [copyAt, h1, h2]

end Motan
