import Verif.Model.BytesBuffer

/-! Helper lemmas about the byte buffer model. -/

namespace Motan

namespace ByteOrder

@[simp] theorem length_put (o : ByteOrder) (k n : Nat) : (o.put k n).length = k := by
  cases o <;> simp [put]

theorem get_put (o : ByteOrder) {k n : Nat} (h : n < 256 ^ k) : o.get (o.put k n) = n := by
  cases o <;> simp [put, get, beVal_beBytes, leVal_leBytes, h]

end ByteOrder

namespace BytesBuffer

/-- The write position lies inside the slice. -/
def WF (b : BytesBuffer) : Prop := b.wpos ≤ b.buf.length

theorem new_wf (n : Nat) (o : ByteOrder) : (new n o).WF := by simp [WF, new]

theorem create_wf (d : Bytes) (o : ByteOrder) : (create d o).WF := by simp [WF, create]

theorem grow_buf_length (b : BytesBuffer) (n : Nat) : (b.grow n).buf.length = 2 * b.buf.length + n := by
  simp [grow]

theorem grow_bytes (b : BytesBuffer) (n : Nat) (h : b.WF) : (b.grow n).bytes = b.bytes := by
  simp only [bytes, grow, WF] at *
  rw [copyAt_fit _ _ _ (by simp; omega)]
  rw [List.take_zero, List.nil_append, List.take_append_of_le_length (by simp; omega)]
  rw [List.take_take, Nat.min_self]

theorem grow_wf (b : BytesBuffer) (n : Nat) (h : b.WF) : (b.grow n).WF := by
  have := grow_buf_length b n
  simp only [WF] at *
  have e : (b.grow n).wpos = b.wpos := rfl
  omega

/-- The common shape of all fixed-size writes: grow if needed, copy, advance. -/
def put (b : BytesBuffer) (d : Bytes) : BytesBuffer :=
  let b := if b.buf.length < b.wpos + d.length then b.grow d.length else b
  { b with buf := copyAt b.buf b.wpos d, wpos := b.wpos + d.length }

theorem put_bytes_wf (b : BytesBuffer) (d : Bytes) (h : b.WF) :
    (b.put d).bytes = b.bytes ++ d ∧ (b.put d).WF ∧ (b.put d).rpos = b.rpos ∧
      (b.put d).order = b.order ∧ (b.put d).wpos = b.wpos + d.length := by
  have key : ∀ b' : BytesBuffer, b'.WF → b'.wpos + d.length ≤ b'.buf.length →
      ({ b' with buf := copyAt b'.buf b'.wpos d, wpos := b'.wpos + d.length } : BytesBuffer).bytes
        = b'.bytes ++ d ∧
      ({ b' with buf := copyAt b'.buf b'.wpos d, wpos := b'.wpos + d.length } : BytesBuffer).WF := by
    intro b' hw hl
    constructor
    · simp only [bytes]
      rw [copyAt_fit _ _ _ hl]
      rw [List.take_append_of_le_length (by simp; omega), List.take_of_length_le (by simp; omega)]
    · simp only [WF] at *
      rw [length_copyAt _ _ _ hw]; exact hl
  simp only [put]
  split
  · rename_i hlt
    have hg := grow_wf b d.length h
    have hl := grow_buf_length b d.length
    have hwp : (b.grow d.length).wpos = b.wpos := rfl
    have := key (b.grow d.length) hg (by simp only [WF] at h; omega)
    refine ⟨?_, this.2, rfl, rfl, rfl⟩
    rw [this.1, grow_bytes _ _ h]
  · have := key b h (by omega)
    exact ⟨this.1, this.2, rfl, rfl, rfl⟩

theorem write_eq_put (b : BytesBuffer) (d : Bytes) : b.write d = b.put d := rfl

theorem writeByte_eq_put (b : BytesBuffer) (c : UInt8) : b.writeByte c = b.put [c] := rfl

theorem order_ite (b : BytesBuffer) (p : Prop) [Decidable p] (n : Nat) :
    (if p then b.grow n else b).order = b.order := by split <;> rfl

theorem writeUint16_eq_put (b : BytesBuffer) (u : UInt16) :
    b.writeUint16 u = b.put (b.order.put 2 u.toNat) := by
  simp only [writeUint16, put, ByteOrder.length_put, order_ite]

theorem writeUint32_eq_put (b : BytesBuffer) (u : UInt32) :
    b.writeUint32 u = b.put (b.order.put 4 u.toNat) := by
  simp only [writeUint32, put, ByteOrder.length_put, order_ite]

theorem writeUint64_eq_put (b : BytesBuffer) (u : UInt64) :
    b.writeUint64 u = b.put (b.order.put 8 u.toNat) := by
  simp only [writeUint64, put, ByteOrder.length_put, order_ite]

/-- LEB128 of a natural number. -/
def leb (n : Nat) : Bytes :=
  if n < 128 then [UInt8.ofNat n] else UInt8.ofNat (n % 128 + 128) :: leb (n / 128)
termination_by n
decreasing_by omega

theorem leb_small {n : Nat} (h : n < 128) : leb n = [UInt8.ofNat n] := by
  rw [leb]; simp [h]

theorem leb_big {n : Nat} (h : ¬ n < 128) :
    leb n = UInt8.ofNat (n % 128 + 128) :: leb (n / 128) := by
  rw [leb]; simp [h]

theorem leb_length_pos (n : Nat) : 1 ≤ (leb n).length := by
  rw [leb]; split <;> simp

theorem leb_length_le (k n : Nat) (h : n < 128 ^ (k + 1)) : (leb n).length ≤ k + 1 := by
  induction k generalizing n with
  | zero => rw [leb_small (by simpa using h)]; simp
  | succ k ih =>
    by_cases hn : n < 128
    · rw [leb_small hn]; simp
    · rw [leb_big hn]
      have : n / 128 < 128 ^ (k + 1) := by
        rw [Nat.div_lt_iff_lt_mul (by decide)]
        rw [Nat.pow_succ] at h; exact h
      have := ih _ this
      simp only [List.length_cons]; omega

theorem toUInt8_cont (u : UInt64) :
    ((u &&& 0x7f) ||| 0x80).toUInt8 = UInt8.ofNat (u.toNat % 128 + 128) := by
  apply UInt8.toNat_inj.mp
  simp only [UInt64.toNat_toUInt8, UInt64.toNat_or, UInt64.toNat_and, UInt8.toNat_ofNat']
  have e : u.toNat &&& (0x7f : UInt64).toNat = u.toNat % 128 := by
    have : (0x7f : UInt64).toNat = 2 ^ 7 - 1 := rfl
    rw [this, Nat.and_two_pow_sub_one_eq_mod]
  rw [e]
  have e2 : (0x80 : UInt64).toNat = 2 ^ 7 := rfl
  rw [e2]
  have h : u.toNat % 128 < 2 ^ 7 := Nat.mod_lt _ (by decide)
  have := Nat.two_pow_add_eq_or_of_lt h 1
  rw [Nat.or_comm]
  rw [Nat.mul_one] at this
  rw [← this]
  congr 1
  omega

theorem toNat_shr7 (u : UInt64) : (u >>> 7).toNat = u.toNat / 128 := by
  simp only [UInt64.toNat_shiftRight]
  have : (7 : UInt64).toNat % 64 = 7 := rfl
  rw [this, Nat.shiftRight_eq_div_pow]

theorem writeVarint_spec (b : BytesBuffer) (u : UInt64) (h : b.WF) :
    (b.writeVarint u).1.bytes = b.bytes ++ leb u.toNat ∧ (b.writeVarint u).1.WF ∧
    (b.writeVarint u).1.rpos = b.rpos ∧ (b.writeVarint u).1.order = b.order ∧
    (b.writeVarint u).2 = (leb u.toNat).length := by
  fun_induction writeVarint b u with
  | case1 b u hu r ih =>
    have hge : ¬ u.toNat < 128 := by
      have := UInt64.le_iff_toNat_le.mp hu
      have e : (128 : UInt64).toNat = 128 := rfl
      omega
    rw [writeByte_eq_put] at ih
    obtain ⟨p1, p2, p3, p4, p5⟩ := put_bytes_wf b [((u &&& 0x7f) ||| 0x80).toUInt8] h
    have ih := ih p2
    rw [leb_big hge]
    rw [toNat_shr7] at ih
    obtain ⟨i1, i2, i3, i4, i5⟩ := ih
    refine ⟨?_, i2, i3.trans p3, i4.trans p4, ?_⟩
    · refine i1.trans ?_
      rw [p1, toUInt8_cont]; simp
    · simp only [List.length_cons]; exact congrArg (· + 1) i5
  | case2 b u hu =>
    have hlt : u.toNat < 128 := by
      have h1 := mt UInt64.le_iff_toNat_le.mpr hu
      have e : (128 : UInt64).toNat = 128 := rfl
      omega
    rw [leb_small hlt, writeByte_eq_put]
    obtain ⟨p1, p2, p3, p4, p5⟩ := put_bytes_wf b [u.toUInt8] h
    refine ⟨?_, p2, p3, p4, rfl⟩
    rw [p1]
    congr 2

/-! ### Reading -/

/-- A buffer whose whole slice is readable (as produced by `create`) at position `rpos`. -/
def Full (b : BytesBuffer) : Prop := b.wpos = b.buf.length ∧ b.rpos ≤ b.wpos

/-- The bytes still to be read. -/
def rest (b : BytesBuffer) : Bytes := b.buf.drop b.rpos

theorem remain_full {b : BytesBuffer} (h : b.Full) : b.remain = (b.rest.length : Int) := by
  simp only [Full, rest, remain, List.length_drop] at *; omega

/-- `b` after reading `n` bytes. -/
def skip (b : BytesBuffer) (n : Nat) : BytesBuffer := { b with rpos := b.rpos + n }

theorem skip_full {b : BytesBuffer} {n : Nat} (h : b.Full) (hn : n ≤ b.rest.length) :
    (b.skip n).Full := by
  simp only [Full, rest, skip, List.length_drop] at *; omega

theorem skip_rest (b : BytesBuffer) (n : Nat) : (b.skip n).rest = b.rest.drop n := by
  simp [skip, rest, List.drop_drop]

@[simp] theorem skip_order (b : BytesBuffer) (n : Nat) : (b.skip n).order = b.order := rfl

@[simp] theorem skip_zero (b : BytesBuffer) : b.skip 0 = b := rfl

theorem skip_skip (b : BytesBuffer) (n m : Nat) : (b.skip n).skip m = b.skip (n + m) := by
  simp [skip, Nat.add_assoc]

theorem readByte_rest {b : BytesBuffer} {c : UInt8} {tl : Bytes} (hr : b.rest = c :: tl) :
    b.readByte = .ok (c, b.skip 1) := by
  have : b.buf[b.rpos]? = some c := by
    have h : (b.buf.drop b.rpos)[0]? = some c := by
      have : b.buf.drop b.rpos = c :: tl := hr
      rw [this]; rfl
    simpa using h
  simp [readByte, this, skip]

theorem readByte_nil {b : BytesBuffer} (hr : b.rest = []) : b.readByte = .error .eof := by
  have : b.buf[b.rpos]? = none := by
    simp only [rest, List.drop_eq_nil_iff] at hr
    simp [hr]
  simp [readByte, this]

theorem next_full {b : BytesBuffer} (h : b.Full) (n : Nat) :
    b.next n = if b.rest.length < n then .error .notEnough else .ok (b.rest.take n, b.skip n) := by
  simp only [next, remain_full h]
  by_cases hl : b.rest.length < n
  · simp [hl]
  · have : ¬ (n : Int) > (b.rest.length : Int) := by omega
    simp [this, hl]; exact ⟨rfl, rfl⟩

theorem readUint16_full {b : BytesBuffer} (h : b.Full) :
    b.readUint16 = if b.rest.length < 2 then .error .notEnough
      else .ok (UInt16.ofNat (b.order.get (b.rest.take 2)), b.skip 2) := by
  simp only [readUint16, remain_full h]
  by_cases hl : b.rest.length < 2
  · have : (b.rest.length : Int) < 2 := by omega
    simp [hl, this]
  · have : ¬ (b.rest.length : Int) < 2 := by omega
    simp [this, hl]; exact ⟨rfl, rfl⟩

theorem readUint32_full {b : BytesBuffer} (h : b.Full) :
    b.readUint32 = if b.rest.length < 4 then .error .notEnough
      else .ok (UInt32.ofNat (b.order.get (b.rest.take 4)), b.skip 4) := by
  simp only [readUint32, remain_full h]
  by_cases hl : b.rest.length < 4
  · have : (b.rest.length : Int) < 4 := by omega
    simp [hl, this]
  · have : ¬ (b.rest.length : Int) < 4 := by omega
    simp [this, hl]; exact ⟨rfl, rfl⟩

theorem readUint64_full {b : BytesBuffer} (h : b.Full) :
    b.readUint64 = if b.rest.length < 8 then .error .notEnough
      else .ok (UInt64.ofNat (b.order.get (b.rest.take 8)), b.skip 8) := by
  simp only [readUint64, remain_full h]
  by_cases hl : b.rest.length < 8
  · have : (b.rest.length : Int) < 8 := by omega
    simp [hl, this]
  · have : ¬ (b.rest.length : Int) < 8 := by omega
    simp [this, hl]; exact ⟨rfl, rfl⟩

/-- One accumulation step of the varint reader in terms of numbers. -/
theorem varint_acc (x : UInt64) (t : Nat) (offset : Nat) (ho : offset < 64)
    (hx : x.toNat < 2 ^ offset) (ht : t < 256) (hfit : t * 2 ^ offset < 2 ^ 64) :
    (x ||| ((UInt8.ofNat t).toUInt64 <<< UInt64.ofNat offset)).toNat = x.toNat + t * 2 ^ offset := by
  simp only [UInt64.toNat_or, UInt64.toNat_shiftLeft, UInt8.toNat_toUInt64, UInt8.toNat_ofNat',
    UInt64.toNat_ofNat']
  have e1 : offset % 2 ^ 64 % 64 = offset := by omega
  have e2 : t % 2 ^ 8 = t := by omega
  rw [e1, e2, Nat.shiftLeft_eq, Nat.mod_eq_of_lt hfit]
  have := Nat.two_pow_add_eq_or_of_lt hx t
  rw [Nat.or_comm]
  rw [Nat.mul_comm] at this
  rw [← this, Nat.add_comm]

theorem leb_head_small {n : Nat} (h : n < 128) : UInt8.ofNat n &&& 0x80 ≠ 0x80 := by
  intro hc
  have := congrArg UInt8.toNat hc
  simp only [UInt8.toNat_and, UInt8.toNat_ofNat'] at this
  have e : n % 2 ^ 8 = n := by omega
  have e2 : (0x80 : UInt8).toNat = 2 ^ 7 := rfl
  rw [e, e2] at this
  have hb : (n &&& 2 ^ 7).testBit 7 = true := by rw [this]; decide
  rw [Nat.testBit_and] at hb
  have : n.testBit 7 = false := Nat.testBit_lt_two_pow h
  simp [this] at hb

theorem cont_flag (m : Nat) (h : m < 128) : UInt8.ofNat (m + 128) &&& 0x80 = 0x80 := by
  have : ∀ m : Fin 128, UInt8.ofNat (m.val + 128) &&& 0x80 = 0x80 := by decide
  exact this ⟨m, h⟩

theorem cont_low (m : Nat) (h : m < 128) : UInt8.ofNat (m + 128) &&& 0x7f = UInt8.ofNat m := by
  have : ∀ m : Fin 128, UInt8.ofNat (m.val + 128) &&& 0x7f = UInt8.ofNat m.val := by decide
  exact this ⟨m, h⟩

theorem readVarintLoop_leb (b : BytesBuffer) (offset : Nat) (x : UInt64) (n : Nat) (tl : Bytes)
    (ho : offset < 64) (hx : x.toNat < 2 ^ offset) (hfit : x.toNat + n * 2 ^ offset < 2 ^ 64)
    (hr : b.rest = leb n ++ tl) :
    readVarintLoop b offset x
      = .ok (UInt64.ofNat (x.toNat + n * 2 ^ offset), b.skip (leb n).length) := by
  induction hk : 64 - offset using Nat.strongRecOn generalizing b offset x n with
  | _ k ih =>
    have hpow : 0 < 2 ^ offset := Nat.pow_pos (by decide)
    by_cases hn : n < 128
    · rw [leb_small hn] at hr ⊢
      rw [readVarintLoop]
      simp only [ho, if_true, readByte_rest hr, leb_head_small hn, ne_eq, not_false_eq_true,
        List.length_singleton]
      congr 2
      apply UInt64.toNat_inj.mp
      rw [varint_acc x n offset ho hx (by omega) (by omega), UInt64.toNat_ofNat',
        Nat.mod_eq_of_lt hfit]
    · have hm : n % 128 < 128 := Nat.mod_lt _ (by decide)
      rw [leb_big hn] at hr ⊢
      have hdm : n = 128 * (n / 128) + n % 128 := (Nat.div_add_mod n 128).symm
      have hpow7 : 2 ^ (offset + 7) = 128 * 2 ^ offset := by rw [Nat.pow_add]; omega
      have hmul : n * 2 ^ offset = n / 128 * 2 ^ (offset + 7) + n % 128 * 2 ^ offset := by
        rw [hpow7, ← Nat.mul_assoc, ← Nat.add_mul]; congr 1; omega
      have hacc := varint_acc x (n % 128) offset ho hx (by omega) (by omega)
      have ho' : offset + 7 < 64 := by
        have h1 : 1 ≤ n / 128 := by omega
        have h2 : 1 * 2 ^ (offset + 7) ≤ n / 128 * 2 ^ (offset + 7) := Nat.mul_le_mul_right _ h1
        have h3 : 2 ^ (offset + 7) < 2 ^ 64 := by omega
        exact (Nat.pow_lt_pow_iff_right (by decide)).mp h3
      have hle : n % 128 * 2 ^ offset ≤ 127 * 2 ^ offset := Nat.mul_le_mul_right _ (by omega)
      rw [readVarintLoop]
      simp only [ho, if_true, readByte_rest (c := UInt8.ofNat (n % 128 + 128)) (by simpa using hr),
        cont_flag _ hm, ne_eq, not_true_eq_false, if_false, cont_low _ hm]
      rw [ih (64 - (offset + 7)) (by omega) (b.skip 1) (offset + 7) _ (n / 128)
        ho' (by rw [hacc]; omega) (by rw [hacc]; omega)
        (by rw [skip_rest, hr]; simp) rfl]
      rw [hacc, hmul, skip_skip]
      simp only [List.length_cons]
      congr 2
      · congr 1; omega
      · congr 1; omega

theorem readVarint_leb (b : BytesBuffer) (u : UInt64) (tl : Bytes)
    (hr : b.rest = leb u.toNat ++ tl) :
    b.readVarint = .ok (u, b.skip (leb u.toNat).length) := by
  have hu := u.toNat_lt
  rw [readVarint, readVarintLoop_leb b 0 0 u.toNat tl (by decide) (by decide) (by simp; omega) hr]
  simp

end BytesBuffer

end Motan
