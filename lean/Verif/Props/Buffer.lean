import Verif.Proof.BytesBuffer

/-!
# C01, C02, C03: byte buffer, varint and zigzag
-/

namespace Motan.Props

open Motan BytesBuffer

/-! ## Specification vocabulary -/

/-- A typed value that can be written to a buffer. -/
inductive Item where
  | byte (v : UInt8)
  | u16 (v : UInt16)
  | u32 (v : UInt32)
  | u64 (v : UInt64)
  | raw (v : Bytes)
  | varint (v : UInt64)
  | zigzag32 (v : UInt32)
  | zigzag64 (v : UInt64)
  deriving DecidableEq, Repr

/-- What the reader has to know to read an item back: its type, and the length for raw bytes. -/
inductive Kind where
  | byte | u16 | u32 | u64 | raw (len : Nat) | varint | zigzag32 | zigzag64
  deriving DecidableEq, Repr

def Item.kind : Item → Kind
  | .byte _ => .byte
  | .u16 _ => .u16
  | .u32 _ => .u32
  | .u64 _ => .u64
  | .raw v => .raw v.length
  | .varint _ => .varint
  | .zigzag32 _ => .zigzag32
  | .zigzag64 _ => .zigzag64

/-- Write one item with the API call for its type. -/
def writeItem (b : BytesBuffer) : Item → BytesBuffer
  | .byte v => b.writeByte v
  | .u16 v => b.writeUint16 v
  | .u32 v => b.writeUint32 v
  | .u64 v => b.writeUint64 v
  | .raw v => b.write v
  | .varint v => (b.writeVarint v).1
  | .zigzag32 v => (b.writeZigzag32 v).1
  | .zigzag64 v => (b.writeZigzag64 v).1

/-- Read one item with the API call for its type. `ReadZigzag32` returns the 32-bit pattern in a
`uint64`, which callers convert back with `uint32`/`int32`. -/
def readItem (b : BytesBuffer) : Kind → Except BufErr (Item × BytesBuffer)
  | .byte => b.readByte.map fun (v, b) => (.byte v, b)
  | .u16 => b.readUint16.map fun (v, b) => (.u16 v, b)
  | .u32 => b.readUint32.map fun (v, b) => (.u32 v, b)
  | .u64 => b.readUint64.map fun (v, b) => (.u64 v, b)
  | .raw n => (b.next n).map fun (v, b) => (.raw v, b)
  | .varint => b.readVarint.map fun (v, b) => (.varint v, b)
  | .zigzag32 => b.readZigzag32.map fun (v, b) => (.zigzag32 v.toUInt32, b)
  | .zigzag64 => b.readZigzag64.map fun (v, b) => (.zigzag64 v, b)

def readItems (b : BytesBuffer) : List Kind → Except BufErr (List Item × BytesBuffer)
  | [] => .ok ([], b)
  | k :: ks =>
    match readItem b k with
    | .error e => .error e
    | .ok (i, b) =>
      match readItems b ks with
      | .error e => .error e
      | .ok (is, b) => .ok (i :: is, b)

/-! ## C03 zigzag -/

theorem bv_neg_and_one {w : Nat} (x : BitVec w) : -(x &&& 1) = if x.getLsbD 0 then BitVec.allOnes w else 0 := by
  have h : x &&& 1 = if x.getLsbD 0 then 1 else 0 := by
    apply BitVec.eq_of_getLsbD_eq
    intro i hi
    simp only [BitVec.getLsbD_and]
    have h1 : (1 : BitVec w).getLsbD i = (decide (0 < w) && decide (i = 0)) := by
      simp
    rw [h1]
    by_cases hz : i = 0
    · subst hz
      by_cases hb : x.getLsbD 0
      · rw [if_pos hb, hb, h1]; simp
      · rw [if_neg hb]; simp only [Bool.not_eq_true] at hb; rw [hb]; simp
    · split <;> simp [hz]
  rw [h]
  split
  · exact BitVec.neg_one_eq_allOnes
  · simp

theorem zigzag_dec_enc {w : Nat} (x : BitVec (w + 1)) :
    let e := (x <<< 1) ^^^ (x.sshiftRight w)
    (e >>> 1) ^^^ (-(e &&& 1)) = x := by
  intro e
  rw [bv_neg_and_one]
  have he : ∀ i, i < w + 1 → e.getLsbD i = (((!decide (i < 1)) && x.getLsbD (i - 1)) ^^ x.msb) := by
    intro i hi
    simp only [e, BitVec.getLsbD_xor, BitVec.getLsbD_shiftLeft, hi, decide_true, Bool.true_and]
    congr 1
    rw [BitVec.getLsbD_sshiftRight]
    have h1 : ¬ w + 1 ≤ i := by omega
    simp only [h1, decide_false, Bool.not_false, Bool.true_and]
    split
    · have : i = 0 := by omega
      subst this
      simp [BitVec.msb_eq_getLsbD_last]
    · rfl
  have he0 : e.getLsbD 0 = x.msb := by rw [he 0 (by omega)]; simp
  rw [he0]
  apply BitVec.eq_of_getLsbD_eq
  intro i hi
  rw [BitVec.getLsbD_xor, BitVec.getLsbD_ushiftRight]
  by_cases hl : 1 + i < w + 1
  · rw [he _ hl]
    have h2 : 1 + i - 1 = i := by omega
    rw [h2]
    have h3 : ¬ (1 + i < 1) := by omega
    cases hm : x.msb <;> simp [h3, hi]
  · have : i = w := by omega
    subst this
    have h4 : e.getLsbD (1 + i) = false := BitVec.getLsbD_of_ge _ _ (by omega)
    rw [h4]
    have h5 : x.getLsbD i = x.msb := by simp [BitVec.msb_eq_getLsbD_last]
    rw [h5]
    cases hm : x.msb <;> simp

theorem zigzag_enc_value {w : Nat} (x : BitVec (w + 1)) :
    (((x <<< 1) ^^^ (x.sshiftRight w)).toNat : Int)
      = if 0 ≤ x.toInt then 2 * x.toInt else -2 * x.toInt - 1 := by
  have hs : x.sshiftRight w = if x.msb then BitVec.allOnes (w + 1) else 0 := by
    apply BitVec.eq_of_getLsbD_eq
    intro i hi
    rw [BitVec.getLsbD_sshiftRight]
    have h1 : ¬ w + 1 ≤ i := by omega
    simp only [h1, decide_false, Bool.not_false, Bool.true_and]
    have h2 : (if w + i < w + 1 then x.getLsbD (w + i) else x.msb) = x.msb := by
      split
      · have : i = 0 := by omega
        subst this
        simp [BitVec.msb_eq_getLsbD_last]
      · rfl
    rw [h2]
    cases hm : x.msb <;> simp [hi]
  rw [hs]
  have hp : 2 ^ (w + 1) = 2 * 2 ^ w := by rw [Nat.pow_succ, Nat.mul_comm]
  have hx := x.isLt
  have hti := BitVec.toInt_eq_msb_cond x
  have hmsb := BitVec.msb_eq_decide x
  simp only [Nat.add_sub_cancel] at hmsb
  have hsl : (x <<< 1).toNat = 2 * x.toNat % 2 ^ (w + 1) := by
    rw [BitVec.toNat_shiftLeft, Nat.shiftLeft_eq, Nat.mul_comm, Nat.pow_one]
  cases hm : x.msb
  · rw [hm] at hti hmsb
    simp only [Bool.false_eq_true, if_false] at hti ⊢
    have hlt : x.toNat < 2 ^ w := by
      have := (decide_eq_false_iff_not.mp hmsb.symm); omega
    have hz : (x <<< 1 ^^^ (0 : BitVec (w + 1))) = x <<< 1 := by simp
    rw [hz, hsl, Nat.mod_eq_of_lt (by omega), hti]
    rw [if_pos (by omega)]; omega
  · rw [hm] at hti hmsb
    simp only [if_true] at hti ⊢
    have hge : 2 ^ w ≤ x.toNat := decide_eq_true_iff.mp hmsb.symm
    have hz : (x <<< 1 ^^^ BitVec.allOnes (w + 1)) = ~~~ (x <<< 1) := by simp
    have hmod : 2 * x.toNat % 2 ^ (w + 1) = 2 * x.toNat - 2 ^ (w + 1) := by
      rw [Nat.mod_eq_sub_mod (by omega), Nat.mod_eq_of_lt (by omega)]
    rw [hz, BitVec.toNat_not, hsl, hmod, hti]
    have hp' : ((2 ^ (w + 1) : Nat) : Int) = 2 * ((2 ^ w : Nat) : Int) := by rw [hp]; simp
    rw [if_neg (by omega)]
    omega

/-- C03: the 32-bit zigzag code of `n` is `2n` for `n ≥ 0` and `-2n-1` for `n < 0`. -/
theorem zigzag32_value (u : BitVec 32) :
    ((zigzagEnc32 u).toNat : Int) = if 0 ≤ u.toInt then 2 * u.toInt else -2 * u.toInt - 1 :=
  zigzag_enc_value (w := 31) u

/-- C03: the 64-bit zigzag code of `n` is `2n` for `n ≥ 0` and `-2n-1` for `n < 0`. -/
theorem zigzag64_value (u : BitVec 64) :
    ((zigzagEnc64 u).toNat : Int) = if 0 ≤ u.toInt then 2 * u.toInt else -2 * u.toInt - 1 :=
  zigzag_enc_value (w := 63) u

/-- C03: decoding the 32-bit zigzag code of any `int32` bit pattern gives it back. -/
theorem zigzag32_roundtrip (u : BitVec 32) : zigzagDec32 (zigzagEnc32 u) = u :=
  zigzag_dec_enc (w := 31) u

/-- C03: decoding the 64-bit zigzag code of any `int64` bit pattern gives it back. -/
theorem zigzag64_roundtrip (u : BitVec 64) : zigzagDec64 (zigzagEnc64 u) = u :=
  zigzag_dec_enc (w := 63) u

/-! ## C02 varint -/

/-- C02: writing any `uint64` appends 1 to 10 bytes to what was written before, and returns that
number; from any buffer whose unread bytes start with these bytes, reading returns the number and
consumes exactly them. -/
theorem varint_roundtrip (b : BytesBuffer) (hb : b.wpos ≤ b.buf.length) (u : UInt64) :
    ∃ code : Bytes,
      (b.writeVarint u).1.bytes = b.bytes ++ code ∧
      (b.writeVarint u).2 = code.length ∧ 1 ≤ code.length ∧ code.length ≤ 10 ∧
      ∀ (r : BytesBuffer) (tl : Bytes), r.buf.drop r.rpos = code ++ tl →
        r.readVarint = .ok (u, { r with rpos := r.rpos + code.length }) := by
  obtain ⟨h1, _, _, _, h5⟩ := writeVarint_spec b u hb
  refine ⟨leb u.toNat, h1, h5, leb_length_pos _, ?_, fun r tl hr => readVarint_leb r u tl hr⟩
  apply leb_length_le 9
  have := u.toNat_lt
  omega

example : ∃ code, ((BytesBuffer.new 1 .big).writeVarint 300).1.bytes = [] ++ code ∧ code = [172, 2] :=
  ⟨[172, 2], by decide +kernel, rfl⟩

theorem readVarintLoop_bounds (b : BytesBuffer) (offset : Nat) (x : UInt64) :
    match readVarintLoop b offset x with
    | .ok (_, b') => b'.buf = b.buf ∧ b'.wpos = b.wpos ∧ b'.order = b.order ∧
        b.rpos < b'.rpos ∧ b'.rpos ≤ b.buf.length ∧ 7 * (b'.rpos - b.rpos) ≤ 70 - offset
    | .error .eof => ∃ k, b.buf.length - b.rpos = k ∧ 7 * k < 70 - offset ∧
        ∀ i, i < k → ∃ c, b.buf[b.rpos + i]? = some c ∧ c &&& 0x80 = 0x80
    | .error .overflow => ∀ i, offset + 7 * i < 64 → ∃ c, b.buf[b.rpos + i]? = some c ∧ c &&& 0x80 = 0x80
    | .error .notEnough => False := by
  fun_induction readVarintLoop b offset x with
  | case1 b offset x ho e he =>
    simp only [readByte] at he
    split at he
    · rename_i hnone
      simp only [Except.error.injEq] at he
      subst he
      have hl := List.getElem?_eq_none_iff.mp hnone
      exact ⟨b.buf.length - b.rpos, rfl, by omega, by omega⟩
    · simp at he
  | case2 b offset x ho temp b' he hc =>
    simp only [readByte] at he
    split at he
    · simp at he
    · rename_i c hsome
      simp only [Except.ok.injEq, Prod.mk.injEq] at he
      obtain ⟨rfl, rfl⟩ := he
      have hl := (List.getElem?_eq_some_iff.mp hsome).1
      simp; omega
  | case3 b offset x ho temp b' he hc ih =>
    simp only [readByte] at he
    split at he
    · simp at he
    · rename_i c hsome
      simp only [Except.ok.injEq, Prod.mk.injEq] at he
      obtain ⟨rfl, rfl⟩ := he
      have hl := (List.getElem?_eq_some_iff.mp hsome).1
      simp only [ne_eq, Decidable.not_not] at hc
      have hshift : ∀ i, 0 < i → (∃ d, b.buf[b.rpos + 1 + (i - 1)]? = some d ∧ d &&& 0x80 = 0x80) →
          ∃ d, b.buf[b.rpos + i]? = some d ∧ d &&& 0x80 = 0x80 := by
        intro i hi h
        have : b.rpos + 1 + (i - 1) = b.rpos + i := by omega
        rwa [this] at h
      revert ih
      split
      · simp only []
        intro ⟨a1, a2, a3, a4, a5, a6⟩
        refine ⟨a1, a2, a3, by omega, a5, by omega⟩
      · simp only []
        intro ⟨k, a1, a2, a3⟩
        refine ⟨b.buf.length - b.rpos, rfl, by omega, ?_⟩
        intro i hi
        by_cases h0 : i = 0
        · subst h0; exact ⟨c, hsome, hc⟩
        · exact hshift i (by omega) (a3 (i - 1) (by omega))
      · simp only []
        intro a i hi
        by_cases h0 : i = 0
        · subst h0; exact ⟨c, hsome, hc⟩
        · exact hshift i (by omega) (a (i - 1) (by omega))
      · simp
  | case4 b offset x ho =>
    intro i hi; omega

/-- C02: on any buffer, `ReadVarint` either succeeds having consumed between 1 and 10 bytes that
lie inside the buffer, or fails with EOF because fewer than 10 bytes are left and all of them are
continuation bytes, or fails with overflow because the next ten bytes are all continuation bytes. -/
theorem readVarint_total (b : BytesBuffer) :
    match b.readVarint with
    | .ok (_, b') => b'.buf = b.buf ∧ b'.wpos = b.wpos ∧ b'.order = b.order ∧
        b.rpos < b'.rpos ∧ b'.rpos ≤ b.rpos + 10 ∧ b'.rpos ≤ b.buf.length
    | .error .eof => b.buf.length - b.rpos < 10 ∧
        ∀ i, b.rpos + i < b.buf.length → ∃ c, b.buf[b.rpos + i]? = some c ∧ c &&& 0x80 = 0x80
    | .error .overflow => ∀ i, i < 10 → ∃ c, b.buf[b.rpos + i]? = some c ∧ c &&& 0x80 = 0x80
    | .error .notEnough => False := by
  have h := readVarintLoop_bounds b 0 0
  rw [readVarint]
  revert h
  split
  · intro ⟨a1, a2, a3, a4, a5, a6⟩; exact ⟨a1, a2, a3, a4, by omega, a5⟩
  · intro ⟨k, a1, a2, a3⟩; exact ⟨by omega, fun i hi => a3 i (by omega)⟩
  · intro a i hi; exact a i (by omega)
  · exact id

/-- Ten continuation bytes are an overflow. -/
example : (BytesBuffer.create (List.replicate 12 0x80) .big).readVarint = .error .overflow := by decide +kernel

/-- The largest `uint64` takes ten bytes. -/
example : ((BytesBuffer.new 0 .big).writeVarint 0xffffffffffffffff).2 = 10 := by decide +kernel

/-! ## C01 sequences of typed values -/

/-- The bytes an item occupies. -/
def encItem (o : ByteOrder) : Item → Bytes
  | .byte v => [v]
  | .u16 v => o.put 2 v.toNat
  | .u32 v => o.put 4 v.toNat
  | .u64 v => o.put 8 v.toNat
  | .raw v => v
  | .varint v => leb v.toNat
  | .zigzag32 v => leb (UInt64.ofBitVec ((zigzagEnc32 v.toBitVec).setWidth 64)).toNat
  | .zigzag64 v => leb (UInt64.ofBitVec (zigzagEnc64 v.toBitVec)).toNat

theorem writeItem_spec (b : BytesBuffer) (i : Item) (h : b.WF) :
    (writeItem b i).bytes = b.bytes ++ encItem b.order i ∧ (writeItem b i).WF ∧
      (writeItem b i).order = b.order := by
  cases i with
  | byte v => rw [writeItem, writeByte_eq_put]; have := put_bytes_wf b [v] h; exact ⟨this.1, this.2.1, this.2.2.2.1⟩
  | u16 v =>
    rw [writeItem, writeUint16_eq_put]; have := put_bytes_wf b (b.order.put 2 v.toNat) h
    exact ⟨this.1, this.2.1, this.2.2.2.1⟩
  | u32 v =>
    rw [writeItem, writeUint32_eq_put]; have := put_bytes_wf b (b.order.put 4 v.toNat) h
    exact ⟨this.1, this.2.1, this.2.2.2.1⟩
  | u64 v =>
    rw [writeItem, writeUint64_eq_put]; have := put_bytes_wf b (b.order.put 8 v.toNat) h
    exact ⟨this.1, this.2.1, this.2.2.2.1⟩
  | raw v =>
    rw [writeItem, write_eq_put]; have := put_bytes_wf b v h
    exact ⟨this.1, this.2.1, this.2.2.2.1⟩
  | varint v => have := writeVarint_spec b v h; exact ⟨this.1, this.2.1, this.2.2.2.1⟩
  | zigzag32 v => have := fun u => writeVarint_spec b u h; exact ⟨(this _).1, (this _).2.1, (this _).2.2.2.1⟩
  | zigzag64 v => have := fun u => writeVarint_spec b u h; exact ⟨(this _).1, (this _).2.1, (this _).2.2.2.1⟩

theorem readItem_spec (b : BytesBuffer) (i : Item) (tl : Bytes) (h : b.Full)
    (hr : b.rest = encItem b.order i ++ tl) :
    readItem b i.kind = .ok (i, b.skip (encItem b.order i).length) := by
  have hlen : b.rest.length = (encItem b.order i).length + tl.length := by rw [hr]; simp
  have htake : ∀ n, n = (encItem b.order i).length → b.rest.take n = encItem b.order i := by
    intro n hn; rw [hr, hn]; simp
  cases i with
  | byte v =>
    simp only [Item.kind, readItem, readByte_rest (c := v) (tl := tl) (by simpa [encItem] using hr)]
    rfl
  | u16 v =>
    simp only [Item.kind, readItem, readUint16_full h]
    simp only [encItem, ByteOrder.length_put] at hlen htake ⊢
    rw [if_neg (by omega), htake 2 rfl, ByteOrder.get_put _ v.toNat_lt]
    simp [Except.map]
  | u32 v =>
    simp only [Item.kind, readItem, readUint32_full h]
    simp only [encItem, ByteOrder.length_put] at hlen htake ⊢
    rw [if_neg (by omega), htake 4 rfl, ByteOrder.get_put _ v.toNat_lt]
    simp [Except.map]
  | u64 v =>
    simp only [Item.kind, readItem, readUint64_full h]
    simp only [encItem, ByteOrder.length_put] at hlen htake ⊢
    rw [if_neg (by omega), htake 8 rfl, ByteOrder.get_put _ v.toNat_lt]
    simp [Except.map]
  | raw v =>
    simp only [Item.kind, readItem, next_full h]
    simp only [encItem] at hlen htake ⊢
    rw [if_neg (by omega), htake _ rfl]
    rfl
  | varint v =>
    simp only [Item.kind, readItem, readVarint_leb b v tl hr]
    rfl
  | zigzag32 v =>
    simp only [Item.kind, readItem, readZigzag32, readVarint_leb b _ tl hr, Except.map, encItem]
    congr 3
    have e : ((zigzagEnc32 v.toBitVec).setWidth 64).setWidth 32 = zigzagEnc32 v.toBitVec := by
      apply BitVec.eq_of_getLsbD_eq
      intro i hi
      simp [hi]
    simp only [e, zigzag32_roundtrip]
    apply UInt32.toNat_inj.mp
    simp
  | zigzag64 v =>
    simp only [Item.kind, readItem, readZigzag64, readVarint_leb b _ tl hr, Except.map, encItem,
      zigzag64_roundtrip]

theorem writeItems_spec (items : List Item) (b : BytesBuffer) (h : b.WF) :
    (items.foldl writeItem b).bytes = b.bytes ++ (items.map (encItem b.order)).flatten ∧
    (items.foldl writeItem b).WF ∧ (items.foldl writeItem b).order = b.order := by
  induction items generalizing b with
  | nil => simp [h]
  | cons i is ih =>
    obtain ⟨h1, h2, h3⟩ := writeItem_spec b i h
    obtain ⟨g1, g2, g3⟩ := ih (writeItem b i) h2
    refine ⟨?_, g2, by rw [List.foldl_cons, g3, h3]⟩
    rw [List.foldl_cons, g1, h1, h3]; simp

theorem readItems_spec (items : List Item) (b : BytesBuffer) (tl : Bytes) (h : b.Full)
    (hr : b.rest = (items.map (encItem b.order)).flatten ++ tl) :
    readItems b (items.map Item.kind)
      = .ok (items, b.skip (items.map (encItem b.order)).flatten.length) := by
  induction items generalizing b with
  | nil => simp [readItems]
  | cons i is ih =>
    simp only [List.map_cons, List.flatten_cons, List.append_assoc] at hr ⊢
    have h1 := readItem_spec b i _ h hr
    have hlen : (encItem b.order i).length ≤ b.rest.length := by rw [hr]; simp
    have h2 := ih (b.skip (encItem b.order i).length) (skip_full h hlen)
      (by rw [skip_rest, hr, skip_order]; simp)
    rw [readItems, h1]
    simp only [h2, skip_order, skip_skip, List.length_append]

/-- **C01.** Any sequence of typed values written to a fresh buffer of any initial size and byte
order and read back in order through a buffer over `Bytes()` gives exactly these values, and
nothing is left to read. -/
theorem buffer_roundtrip (initsize : Nat) (order : ByteOrder) (items : List Item) :
    ∃ b', readItems (create (items.foldl writeItem (BytesBuffer.new initsize order)).bytes order)
        (items.map Item.kind) = .ok (items, b') ∧ b'.remain = 0 := by
  obtain ⟨h1, _, _⟩ := writeItems_spec items _ (new_wf initsize order)
  have h0 : (BytesBuffer.new initsize order).bytes = [] := by simp [BytesBuffer.new, bytes]
  rw [h0, List.nil_append] at h1
  rw [h1]
  have hfull : (create (items.map (encItem order)).flatten order).Full := by simp [Full, create]
  have := readItems_spec items (create (items.map (encItem order)).flatten order) [] hfull
    (by simp [create, rest])
  exact ⟨_, this, by simp [skip, remain, create]⟩

/-- **C01**, general position: writing after other data only appends, and reading from the middle
of a longer buffer consumes exactly the items. -/
theorem buffer_roundtrip_context (b : BytesBuffer) (hb : b.wpos ≤ b.buf.length) (items : List Item) :
    ∃ code, (items.foldl writeItem b).bytes = b.bytes ++ code ∧
      ∀ (pre post : Bytes), readItems ((create (pre ++ code ++ post) b.order).setRPos pre.length)
          (items.map Item.kind)
        = .ok (items, (create (pre ++ code ++ post) b.order).setRPos (pre.length + code.length)) := by
  obtain ⟨h1, _, _⟩ := writeItems_spec items b hb
  refine ⟨_, h1, fun pre post => ?_⟩
  have := readItems_spec items ((create (pre ++ (items.map (encItem b.order)).flatten ++ post) b.order).setRPos pre.length)
    post (by simp [Full, create, setRPos]) (by simp [create, rest, setRPos])
  rw [this]; rfl

/-- **C01.** Growing keeps everything written before. -/
theorem write_preserves_earlier (b : BytesBuffer) (hb : b.wpos ≤ b.buf.length) (i : Item) :
    ((writeItem b i).bytes).take b.wpos = b.bytes ∧ (writeItem b i).wpos ≤ (writeItem b i).buf.length := by
  obtain ⟨h1, h2, _⟩ := writeItem_spec b i hb
  refine ⟨?_, h2⟩
  have : b.bytes.length = b.wpos := by simp [bytes]; exact Nat.min_eq_left hb
  rw [h1, ← this]; simp

example : readItems (create ([Item.u32 70000, .raw [1, 2], .zigzag32 0xffffffff, .varint 300, .u16 5].foldl
      writeItem (BytesBuffer.new 1 .little)).bytes .little) [.u32, .raw 2, .zigzag32, .varint, .u16]
    = .ok ([Item.u32 70000, .raw [1, 2], .zigzag32 0xffffffff, .varint 300, .u16 5],
        { buf := [112, 17, 1, 0, 1, 2, 1, 172, 2, 5, 0], rpos := 11, wpos := 11, order := .little }) := by
  decide +kernel

/-- **C01, reading raw bytes.** `ReadFull` and `Next` give the next `n` written bytes and advance past them if there are so many,
and otherwise report an error; `ReadUint16`, `ReadUint32` and `ReadUint64` likewise succeed exactly if 2, 4 or 8 bytes are
left, and advance past them. -/
theorem read_exactly (b : BytesBuffer) (hb : b.wpos ≤ b.buf.length) (hr : b.rpos ≤ b.wpos) (n : Nat) :
    (b.rpos + n ≤ b.wpos → b.readFull n = .ok ((b.bytes.drop b.rpos).take n, b.setRPos (b.rpos + n)) ∧
      b.next n = .ok ((b.bytes.drop b.rpos).take n, b.setRPos (b.rpos + n))) ∧
    (b.wpos < b.rpos + n → b.readFull n = .error .notEnough ∧ b.next n = .error .notEnough) ∧
    ((∃ v, b.readUint16 = .ok (v, b.setRPos (b.rpos + 2))) ∧ b.rpos + 2 ≤ b.wpos ∨
      b.readUint16 = .error .notEnough ∧ b.wpos < b.rpos + 2) ∧
    ((∃ v, b.readUint32 = .ok (v, b.setRPos (b.rpos + 4))) ∧ b.rpos + 4 ≤ b.wpos ∨
      b.readUint32 = .error .notEnough ∧ b.wpos < b.rpos + 4) ∧
    ((∃ v, b.readUint64 = .ok (v, b.setRPos (b.rpos + 8))) ∧ b.rpos + 8 ≤ b.wpos ∨
      b.readUint64 = .error .notEnough ∧ b.wpos < b.rpos + 8) := by
  refine ⟨fun h => ?_, fun h => ?_, ?_, ?_, ?_⟩
  · have e : (b.buf.drop b.rpos).take n = (b.bytes.drop b.rpos).take n := by
      rw [bytes, List.drop_take, List.take_take, Nat.min_eq_left (by omega)]
    have l : ((b.bytes.drop b.rpos).take n).length = n := by
      simp [bytes]; omega
    constructor
    · rw [readFull, if_neg (by simp [remain]; omega)]
      simp only [e, l, Nat.lt_irrefl, if_false]
      rfl
    · rw [next, if_neg (by simp [remain]; omega), e]
      rfl
  · constructor
    · rw [readFull, if_pos (by simp [remain]; omega)]
    · rw [next, if_pos (by simp [remain]; omega)]
  · by_cases h : b.rpos + 2 ≤ b.wpos
    · exact .inl ⟨⟨_, by rw [readUint16, if_neg (by simp [remain]; omega)]; rfl⟩, h⟩
    · exact .inr ⟨by rw [readUint16, if_pos (by simp [remain]; omega)], by omega⟩
  · by_cases h : b.rpos + 4 ≤ b.wpos
    · exact .inl ⟨⟨_, by rw [readUint32, if_neg (by simp [remain]; omega)]; rfl⟩, h⟩
    · exact .inr ⟨by rw [readUint32, if_pos (by simp [remain]; omega)], by omega⟩
  · by_cases h : b.rpos + 8 ≤ b.wpos
    · exact .inl ⟨⟨_, by rw [readUint64, if_neg (by simp [remain]; omega)]; rfl⟩, h⟩
    · exact .inr ⟨by rw [readUint64, if_pos (by simp [remain]; omega)], by omega⟩

/-- C01. `Read` gives what is left of the slice when asked for more, and nothing is skipped: on a buffer that is full (as one
made to be read is) these are the next written bytes. -/
theorem read_some (b : BytesBuffer) (hb : b.wpos = b.buf.length) (n : Nat) :
    (b.rpos < b.wpos → b.read n = .ok ((b.bytes.drop b.rpos).take n, b.setRPos (min (b.rpos + n) b.wpos))) ∧
    (b.wpos ≤ b.rpos → b.read n = .error .eof) := by
  have e : b.bytes = b.buf := by simp [bytes, hb]
  constructor
  · intro h
    rw [BytesBuffer.read, if_neg (by omega), e]
    simp only [setRPos, List.length_take, List.length_drop, hb]
    congr 4
    omega
  · intro h
    rw [BytesBuffer.read, if_pos (by omega)]

example : (create [1, 2, 3, 4, 5] .big |>.setRPos 1).readFull 3 = .ok ([2, 3, 4], create [1, 2, 3, 4, 5] .big |>.setRPos 4) ∧
    (create [1, 2, 3, 4, 5] .big |>.setRPos 3).read 7 = .ok ([4, 5], create [1, 2, 3, 4, 5] .big |>.setRPos 5) := by
  decide +kernel

/-- The read side of a buffer still being written is *not* protected by the write position:
`ReadByte` returns a stale byte where `ReadUint16` would report "not enough". -/
theorem readByte_past_wpos_counterexample :
    ∃ b : BytesBuffer, b.remain = 0 ∧ b.wpos ≤ b.buf.length ∧ (∃ c b', b.readByte = .ok (c, b')) ∧
      b.readUint16 = .error .notEnough :=
  ⟨BytesBuffer.new 4 .big, by decide, by decide, ⟨0, _, rfl⟩, rfl⟩

end Motan.Props
