import Verif.Model.Pb
import Verif.Props.Buffer

/-!
# C57: protobuf serialization round-trip

Arguments serialized with the protobuf serialization and deserialized with targets of their kinds come back, whatever
follows them; integers of different width with the same value have the same bytes; decoding arbitrary bytes never panics
unless the target is a slice that is not behind a pointer. Pointers to `int` and `uint` are left alone and arrays of
messages do not work, which is shown.
-/

namespace Motan.Props

open Motan Pb

variable {P : Type}

/-! ## The specification -/

/-- What the caller gets for a value: `int` comes back as `int64`, `uint` as `uint64`. -/
def Spec.widened : Prim → Prim
  | .int x => .i64 x
  | .uint x => .u64 x
  | p => p

/-- The target is for values of this kind: nil for every target; a value of a kind for the kind or a pointer to it; a
message for a message type or a pointer to a new message. Strings are shorter than 2^63. -/
def Spec.Fits (L : Lib P) : Val P → Target P → Prop
  | .nil, _ => True
  | .prim (.str s), .kind k => k = .str ∧ s.length < 2 ^ 63
  | .prim (.str s), .ptr k => k = .str ∧ s.length < 2 ^ 63
  | .prim p, .kind k => k = p.kind
  | .prim p, .ptr k => k = p.kind
  | .msg _, .msg cur => cur = L.zero
  | .msg _, .msgType => True
  | _, _ => False

/-- The result and what the pointer holds afterwards. -/
def Spec.returned : Val P → Target P → Val P × Option (Val P)
  | .prim p, .ptr k => (.prim (Spec.widened p), if k = .int ∨ k = .uint then none else some (.prim p))
  | .prim p, _ => (.prim (Spec.widened p), none)
  | .msg m, .msg _ => (.msg m, some (.msg m))
  | v, _ => (v, none)

/-- The message library is a codec: what it marshals it unmarshals into a new message, and fits into memory. -/
def Spec.Codec (L : Lib P) : Prop :=
  ∀ m bs, L.marshal m = some bs → L.merge L.zero bs = .ok m ∧ bs.length < 2 ^ 63

/-- The zigzag number of an integer. -/
def Spec.zig (n : Int) : Nat := if 0 ≤ n then (2 * n).toNat else (-2 * n - 1).toNat

/-! ## The library's primitives -/

theorem decVarintLoop_enc (n : Nat) : ∀ (fuel shift acc : Nat) (tl : Bytes), n < 128 ^ fuel → 0 < fuel →
    decVarintLoop fuel shift acc (encVarint n ++ tl) = .ok ((acc + n * 2 ^ shift) % 2 ^ 64, tl) := by
  induction n using Nat.strongRecOn with
  | _ n ih =>
    intro fuel shift acc tl hn hf
    obtain ⟨f, rfl⟩ : ∃ f, fuel = f + 1 := ⟨fuel - 1, by omega⟩
    rw [encVarint]
    by_cases h : n < 128
    · rw [if_pos h]
      have h1 : (UInt8.ofNat n).toNat = n := by
        rw [UInt8.toNat_ofNat']; omega
      simp only [List.cons_append, List.nil_append, decVarintLoop, h1, if_pos h]
    · rw [if_neg h]
      have h1 : (UInt8.ofNat (n % 128 + 128)).toNat = n % 128 + 128 := by
        rw [UInt8.toNat_ofNat']; omega
      simp only [List.cons_append, decVarintLoop, h1]
      rw [if_neg (by omega)]
      have hp : n / 128 < 128 ^ f := by
        rw [Nat.pow_succ] at hn
        exact Nat.div_lt_of_lt_mul (by rwa [Nat.mul_comm] at hn)
      have hf' : 0 < f := by
        rcases Nat.eq_zero_or_pos f with h0 | h0
        · subst h0
          simp at hn
          omega
        · exact h0
      rw [ih (n / 128) (by omega) f (shift + 7) _ tl hp hf']
      refine congrArg (fun z => (Except.ok (z % 2 ^ 64, tl) : Except Err (Nat × Bytes))) ?_
      have h2 : n % 128 + 128 - 128 = n % 128 := by omega
      rw [h2, Nat.pow_add, Nat.add_assoc]
      refine congrArg (acc + ·) ?_
      have h3 : (2 : Nat) ^ 7 = 128 := rfl
      have h4 : n * 2 ^ shift = (n % 128) * 2 ^ shift + n / 128 * (2 ^ shift * 128) := by
        have := Nat.div_add_mod n 128
        calc n * 2 ^ shift = (128 * (n / 128) + n % 128) * 2 ^ shift := by rw [this]
          _ = 128 * (n / 128) * 2 ^ shift + (n % 128) * 2 ^ shift := Nat.add_mul _ _ _
          _ = (n % 128) * 2 ^ shift + n / 128 * (2 ^ shift * 128) := by
            rw [Nat.add_comm, Nat.mul_comm 128 (n / 128), Nat.mul_assoc (n / 128), Nat.mul_comm 128 (2 ^ shift)]
      rw [h3, h4]

theorem decVarint_enc {n : Nat} (h : n < 2 ^ 64) (tl : Bytes) : decVarint (encVarint n ++ tl) = .ok (n, tl) := by
  rw [decVarint, decVarintLoop_enc n 10 0 0 tl (Nat.lt_of_lt_of_le h (by decide)) (by decide)]
  simp only [Nat.pow_zero, Nat.mul_one, Nat.zero_add]
  rw [Nat.mod_eq_of_lt h]

theorem encFixed_length (k n : Nat) : (encFixed k n).length = k := by
  induction k generalizing n with
  | zero => rfl
  | succ k ih => simp [encFixed, ih]

theorem fixedVal_enc (k n : Nat) (h : n < 256 ^ k) : fixedVal (encFixed k n) = n := by
  induction k generalizing n with
  | zero =>
    simp at h
    subst h
    rfl
  | succ k ih =>
    simp only [encFixed, fixedVal]
    rw [ih _ (Nat.div_lt_of_lt_mul (by rw [Nat.pow_succ, Nat.mul_comm] at h; exact h))]
    rw [UInt8.toNat_ofNat']
    omega

theorem decFixed_enc (k n : Nat) (h : n < 256 ^ k) (tl : Bytes) : decFixed k (encFixed k n ++ tl) = .ok (n, tl) := by
  have hl := encFixed_length k n
  rw [decFixed, if_neg (by rw [List.length_append]; omega), List.take_left' hl, List.drop_left' hl, fixedVal_enc k n h]

theorem decRaw_enc {s : Bytes} (h : s.length < 2 ^ 63) (tl : Bytes) : decRaw (encRaw s ++ tl) = .ok (s, tl) := by
  unfold decRaw encRaw
  rw [List.append_assoc, decVarint_enc (by omega)]
  show (if _ then _ else _) = _
  rw [if_neg (by omega), if_neg (by rw [List.length_append]; omega), List.take_left' rfl, List.drop_left' rfl]

theorem decZigzag32_enc (x : BitVec 64) (tl : Bytes) : decZigzag32 (encZigzag32 x ++ tl) = .ok (x.setWidth 32, tl) := by
  unfold decZigzag32 encZigzag32
  rw [decVarint_enc (Nat.lt_trans (BitVec.isLt _) (by decide))]
  simp only [Except.map]
  rw [BitVec.ofNat_toNat, BitVec.setWidth_eq, zigzag32_roundtrip]

theorem decZigzag64_enc (x : BitVec 64) (tl : Bytes) : decZigzag64 (encZigzag64 x ++ tl) = .ok (x, tl) := by
  unfold decZigzag64 encZigzag64
  rw [decVarint_enc (BitVec.isLt _)]
  simp only [Except.map]
  rw [BitVec.ofNat_toNat, BitVec.setWidth_eq, zigzag64_roundtrip]

theorem setWidth_signExtend {w v : Nat} (x : BitVec w) (h : w ≤ v) : (x.signExtend v).setWidth w = x := by
  apply BitVec.eq_of_getLsbD_eq
  intro i hi
  rw [BitVec.getLsbD_setWidth, BitVec.getLsbD_signExtend]
  have h1 : i < v := by omega
  simp [hi, h1]

theorem setWidth_back {w v : Nat} (x : BitVec w) (h : w ≤ v) : (x.setWidth v).setWidth w = x := by
  apply BitVec.eq_of_getLsbD_eq
  intro i hi
  rw [BitVec.getLsbD_setWidth, BitVec.getLsbD_setWidth]
  have h1 : i < v := by omega
  simp [hi, h1]

/-- Each kind comes back. -/
theorem deKind_ser (p : Prim) (h : ∀ s, p = .str s → s.length < 2 ^ 63) (tl : Bytes) :
    deKind p.kind (serPrim p ++ tl) = .ok (Spec.widened p, tl) := by
  cases p with
  | bool b => cases b <;> simp only [Prim.kind, deKind, serPrim] <;> rw [decVarint_enc (by decide)] <;> rfl
  | u8 x =>
    simp only [Prim.kind, deKind, serPrim]
    rw [decVarint_enc (Nat.lt_trans x.isLt (by decide))]
    simp only [Except.map]
    rw [BitVec.ofNat_toNat, BitVec.setWidth_eq]
    rfl
  | i16 x =>
    simp only [Prim.kind, deKind, serPrim]
    rw [decZigzag32_enc]
    simp only [Except.map]
    have : ((x.signExtend 64).setWidth 32).setWidth 16 = x := by
      rw [BitVec.setWidth_setWidth_of_le _ (by decide), setWidth_signExtend x (by decide)]
    rw [this]
    rfl
  | u16 x =>
    simp only [Prim.kind, deKind, serPrim]
    rw [decZigzag32_enc]
    simp only [Except.map]
    have : ((x.setWidth 64).setWidth 32).setWidth 16 = x := by
      rw [BitVec.setWidth_setWidth_of_le _ (by decide), setWidth_back x (by decide)]
    rw [this]
    rfl
  | i32 x =>
    simp only [Prim.kind, deKind, serPrim]
    rw [decZigzag32_enc, setWidth_signExtend x (by decide)]
    rfl
  | u32 x =>
    simp only [Prim.kind, deKind, serPrim]
    rw [decZigzag32_enc, setWidth_back x (by decide)]
    rfl
  | int x => simp only [Prim.kind, deKind, serPrim]; rw [decZigzag64_enc]; rfl
  | uint x => simp only [Prim.kind, deKind, serPrim]; rw [decZigzag64_enc]; rfl
  | i64 x => simp only [Prim.kind, deKind, serPrim]; rw [decZigzag64_enc]; rfl
  | u64 x => simp only [Prim.kind, deKind, serPrim]; rw [decZigzag64_enc]; rfl
  | f32 x =>
    simp only [Prim.kind, deKind, serPrim]
    rw [decFixed_enc 4 _ (Nat.lt_of_lt_of_le x.isLt (by decide))]
    simp only [Except.map]
    rw [BitVec.ofNat_toNat, BitVec.setWidth_eq]
    rfl
  | f64 x =>
    simp only [Prim.kind, deKind, serPrim]
    rw [decFixed_enc 8 _ (Nat.lt_of_lt_of_le x.isLt (by decide))]
    simp only [Except.map]
    rw [BitVec.ofNat_toNat, BitVec.setWidth_eq]
    rfl
  | str s =>
    simp only [Prim.kind, deKind, serPrim]
    rw [decRaw_enc (h s rfl)]
    rfl

/-- One value comes back. -/
theorem deBuf_ser (L : Lib P) (hL : Spec.Codec L) (v : Val P) (t : Target P) (hf : Spec.Fits L v t) {bs : Bytes}
    (hs : serBuf L v = .ok bs) (tl : Bytes) :
    deBuf L t (bs ++ tl) = .ok ⟨(Spec.returned v t).1, (Spec.returned v t).2, tl⟩ := by
  cases v with
  | nil =>
    cases hs
    unfold deBuf
    rw [decVarint_enc (by decide)]
    cases t <;> rfl
  | prim p =>
    cases hs
    unfold deBuf
    rw [List.append_assoc, decVarint_enc (by decide)]
    have hk : ∀ k, t = .kind k ∨ t = .ptr k → k = p.kind ∧ ∀ s, p = .str s → s.length < 2 ^ 63 := by
      intro k hk
      rcases hk with hk | hk <;> subst hk <;> cases p <;>
        first
        | exact ⟨hf.1, fun s e => by cases e; exact hf.2⟩
        | exact ⟨hf, fun s e => by cases e⟩
    cases t with
    | kind k =>
      obtain ⟨h1, h2⟩ := hk k (.inl rfl)
      show ((deKind k (serPrim p ++ tl)).map _ : Except Err (Got P)) = _
      rw [h1, deKind_ser p h2]
      rfl
    | ptr k =>
      obtain ⟨h1, h2⟩ := hk k (.inr rfl)
      show ((deKind k (serPrim p ++ tl)).map _ : Except Err (Got P)) = _
      rw [h1, deKind_ser p h2]
      cases p <;> rfl
    | _ => cases p <;> exact hf.elim
  | msg m =>
    simp only [serBuf] at hs
    cases hm : L.marshal m with
    | none => rw [hm] at hs; cases hs
    | some enc =>
      rw [hm] at hs
      cases hs
      obtain ⟨h1, h2⟩ := hL m enc hm
      unfold deBuf
      rw [List.append_assoc, decVarint_enc (by decide)]
      cases t with
      | msg cur =>
        have hc : cur = L.zero := hf
        subst hc
        show ((deMsg L L.zero (encRaw enc ++ tl)).map _ : Except Err (Got P)) = _
        unfold deMsg
        rw [decRaw_enc h2]
        show (((L.merge L.zero enc).map _).map _ : Except Err (Got P)) = _
        rw [h1]
        rfl
      | msgType =>
        show ((deMsg L L.zero (encRaw enc ++ tl)).map _ : Except Err (Got P)) = _
        unfold deMsg
        rw [decRaw_enc h2]
        show (((L.merge L.zero enc).map _).map _ : Except Err (Got P)) = _
        rw [h1]
        rfl
      | _ => exact hf.elim
  | msgValue m => cases hs
  | msgs l => exact hf.elim
  | other => cases hs

/-- **C57.** Any list of arguments that serializes comes back from targets of their kinds, whatever bytes follow, and the
pointers given as targets hold the values (except `*int` and `*uint`). -/
theorem pb_roundtrip (L : Lib P) (hL : Spec.Codec L) (args : List (Val P × Target P))
    (hf : ∀ a ∈ args, Spec.Fits L a.1 a.2) {bs : Bytes} (hs : serMulti L (args.map Prod.fst) = .ok bs) (tl : Bytes) :
    deMulti L (args.map Prod.snd) (bs ++ tl) = .ok (args.map fun a => Spec.returned a.1 a.2) := by
  induction args generalizing bs with
  | nil => rfl
  | cons a args ih =>
    rw [List.map_cons] at hs
    unfold serMulti at hs
    cases h1 : serBuf L a.1 with
    | error e => rw [h1] at hs; cases hs
    | ok b1 =>
      rw [h1] at hs
      cases h2 : serMulti L (args.map Prod.fst) with
      | error e => rw [h2] at hs; cases hs
      | ok b2 =>
        rw [h2] at hs
        have hbs : bs = b1 ++ b2 := by cases hs; rfl
        rw [List.map_cons, deMulti, hbs, List.append_assoc,
          deBuf_ser L hL a.1 a.2 (hf a (List.mem_cons_self ..)) h1]
        show ((deMulti L (args.map Prod.snd) (b2 ++ tl)).map _ : Except Err _) = _
        rw [ih (fun a h => hf a (List.mem_cons_of_mem _ h)) h2]
        rfl

/-- **C57.** Serializing succeeds for nil, for all values of the kinds and for messages that the library marshals. -/
theorem pb_serializes (L : Lib P) (vs : List (Val P))
    (h : ∀ v ∈ vs, v = .nil ∨ (∃ p, v = .prim p) ∨ ∃ m bs, v = .msg m ∧ L.marshal m = some bs) :
    ∃ bs, serMulti L vs = .ok bs := by
  induction vs with
  | nil => exact ⟨[], rfl⟩
  | cons v vs ih =>
    obtain ⟨b2, h2⟩ := ih fun v hv => h v (List.mem_cons_of_mem _ hv)
    have h1 : ∃ b1, serBuf L v = .ok b1 := by
      rcases h v (List.mem_cons_self ..) with rfl | ⟨p, rfl⟩ | ⟨m, bs, rfl, hm⟩
      · exact ⟨_, rfl⟩
      · exact ⟨_, rfl⟩
      · refine ⟨encVarint 0 ++ encRaw bs, ?_⟩
        simp only [serBuf, hm]
    obtain ⟨b1, h1⟩ := h1
    exact ⟨b1 ++ b2, by rw [serMulti, h1, h2]; rfl⟩

/-! ## The wire -/

theorem zig32 (x : BitVec 32) : (BytesBuffer.zigzagEnc32 x).toNat = Spec.zig x.toInt := by
  have h := zigzag32_value x
  unfold Spec.zig
  split at h <;> rename_i h' <;> simp only [h', if_true, if_false] <;> omega

theorem zig64 (x : BitVec 64) : (BytesBuffer.zigzagEnc64 x).toNat = Spec.zig x.toInt := by
  have h := zigzag64_value x
  unfold Spec.zig
  split at h <;> rename_i h' <;> simp only [h', if_true, if_false] <;> omega

theorem toInt_signExtend_setWidth {w v : Nat} (x : BitVec w) (h1 : w ≤ v) (h2 : v ≤ 64) :
    ((x.signExtend 64).setWidth v).toInt = x.toInt := by
  have h : (x.signExtend 64).setWidth v = x.signExtend v := by
    apply BitVec.eq_of_getLsbD_eq
    intro i hi
    rw [BitVec.getLsbD_setWidth, BitVec.getLsbD_signExtend, BitVec.getLsbD_signExtend]
    have h3 : i < 64 := by omega
    simp [hi, h3]
  rw [h, BitVec.toInt_signExtend_of_le h1]

/-- **C57.** Signed integers are the varint of their zigzag number, whatever their width: an `int16`, an `int32` and an
`int64` of the same value have the same bytes. -/
theorem pb_signed_wire :
    (∀ x : BitVec 16, serPrim (.i16 x) = encVarint (Spec.zig x.toInt)) ∧
    (∀ x : BitVec 32, serPrim (.i32 x) = encVarint (Spec.zig x.toInt)) ∧
    (∀ x : BitVec 64, serPrim (.i64 x) = encVarint (Spec.zig x.toInt)) ∧
    (∀ x : BitVec 64, serPrim (.int x) = encVarint (Spec.zig x.toInt)) := by
  refine ⟨fun x => ?_, fun x => ?_, fun x => ?_, fun x => ?_⟩
  · rw [serPrim, encZigzag32, zig32, toInt_signExtend_setWidth x (by decide) (by decide)]
  · rw [serPrim, encZigzag32, zig32, toInt_signExtend_setWidth x (by decide) (by decide)]
  · rw [serPrim, encZigzag64, zig64]
  · rw [serPrim, encZigzag64, zig64]

/-- **C57.** Unsigned integers are sent like the signed integers with the same bits; those that are not negative as such
are the varint of twice their value. -/
theorem pb_unsigned_wire :
    (∀ x : BitVec 16, serPrim (.u16 x) = encVarint (2 * x.toNat)) ∧
    (∀ x : BitVec 32, serPrim (.u32 x) = serPrim (.i32 x)) ∧
    (∀ x : BitVec 32, x.toNat < 2 ^ 31 → serPrim (.u32 x) = encVarint (2 * x.toNat)) ∧
    (∀ x : BitVec 64, serPrim (.u64 x) = serPrim (.i64 x)) ∧
    (∀ x : BitVec 64, x.toNat < 2 ^ 63 → serPrim (.u64 x) = encVarint (2 * x.toNat)) := by
  have hz : ∀ n : Nat, Spec.zig (n : Int) = 2 * n := by
    intro n
    unfold Spec.zig
    rw [if_pos (by omega)]
    omega
  have h32 : ∀ x : BitVec 32, (x.setWidth 64).setWidth 32 = x := fun x => setWidth_back x (by decide)
  have hsm : ∀ {w : Nat} (x : BitVec w), 2 * x.toNat < 2 ^ w → x.toInt = (x.toNat : Int) := fun x h =>
    BitVec.toInt_eq_toNat_of_lt h
  refine ⟨fun x => ?_, fun x => ?_, fun x hx => ?_, fun x => rfl, fun x hx => ?_⟩
  · have h1 : ((x.setWidth 64).setWidth 32).toNat = x.toNat := by
      have h2 := x.isLt
      rw [BitVec.toNat_setWidth, BitVec.toNat_setWidth, Nat.mod_eq_of_lt (a := x.toNat) (by omega),
        Nat.mod_eq_of_lt (by omega)]
    rw [serPrim, encZigzag32, zig32, hsm _ (by rw [h1]; have := x.isLt; omega), h1, hz]
  · rw [serPrim, serPrim, encZigzag32, encZigzag32, h32, setWidth_signExtend x (by decide)]
  · rw [serPrim, encZigzag32, zig32, h32, hsm x (by omega), hz]
  · rw [serPrim, encZigzag64, zig64, hsm x (by omega), hz]

/-! ## Arbitrary bytes -/

theorem decVarintLoop_safe (fuel shift acc : Nat) (bs : Bytes) : decVarintLoop fuel shift acc bs ≠ .error .panic := by
  induction fuel generalizing shift acc bs with
  | zero => intro h; cases h
  | succ n ih =>
    cases bs with
    | nil => intro h; cases h
    | cons b bs =>
      unfold decVarintLoop
      split
      · intro h; cases h
      · exact ih _ _ _

theorem decRaw_safe (bs : Bytes) : decRaw bs ≠ .error .panic := by
  unfold decRaw
  split
  · next e he =>
    intro h
    cases h
    exact decVarintLoop_safe _ _ _ _ he
  · split
    · intro h; cases h
    · split <;> intro h <;> cases h

theorem map_safe {α β : Type} {r : Except Err α} {f : α → β} (h : r ≠ .error .panic) : r.map f ≠ .error .panic := by
  cases r with
  | ok a => intro h; cases h
  | error e => intro h'; cases h'; exact h rfl

theorem deKind_safe (k : Pb.Kind) (bs : Bytes) : deKind k bs ≠ .error .panic := by
  have hv : decVarint bs ≠ .error .panic := decVarintLoop_safe _ _ _ _
  have h32 : decZigzag32 bs ≠ .error .panic := map_safe hv
  have h64 : decZigzag64 bs ≠ .error .panic := map_safe hv
  have hf : ∀ k, decFixed k bs ≠ .error .panic := by
    intro k
    unfold decFixed
    split <;> intro h <;> cases h
  cases k <;> unfold deKind <;>
    first
    | exact map_safe hv
    | exact map_safe h32
    | exact map_safe h64
    | exact map_safe (hf _)
    | exact map_safe (decRaw_safe bs)

theorem deMsg_safe (L : Lib P) (hL : ∀ m bs, L.merge m bs ≠ .error .panic) (m : P) (bs : Bytes) :
    deMsg L m bs ≠ .error .panic := by
  unfold deMsg
  split
  · next e he =>
    intro h
    cases h
    exact decRaw_safe _ he
  · exact map_safe (hL _ _)

theorem deMsgsLoop_safe (L : Lib P) (hL : ∀ m bs, L.merge m bs ≠ .error .panic) (fuel : Nat) (m : P) (n : Nat)
    (bs : Bytes) : deMsgsLoop L true fuel m n bs ≠ .error .panic := by
  induction fuel generalizing m n bs with
  | zero => intro h; cases h
  | succ fuel ih =>
    unfold deMsgsLoop
    split
    · intro h; cases h
    · next e he =>
      intro h
      cases h
      exact decVarintLoop_safe _ _ _ _ (by assumption)
    · split
      · exact ih _ _ _
      · split
        · intro h; cases h
        · intro h
          cases h
          exact deMsg_safe L hL _ _ (by assumption)
        · exact ih _ _ _

/-- **C57.** Decoding any bytes ends with values or an error, if the library does and no target is a slice that is not
behind a pointer. -/
theorem pb_contained (L : Lib P) (hL : ∀ m bs, L.merge m bs ≠ .error .panic) (ts : List (Target P))
    (ht : ∀ t ∈ ts, t ≠ .slice .value ∧ t ≠ .slice .type) (bs : Bytes) : deMulti L ts bs ≠ .error .panic := by
  induction ts generalizing bs with
  | nil => intro h; cases h
  | cons t ts ih =>
    have h1 : deBuf L t bs ≠ .error .panic := by
      unfold deBuf
      split
      · next e he =>
        intro h
        cases h
        exact decVarintLoop_safe _ _ _ _ he
      · split
        · intro h; cases h
        · have := ht t (List.mem_cons_self ..)
          cases t with
          | nil => intro h; cases h
          | kind k => exact map_safe (deKind_safe k _)
          | ptr k => exact map_safe (deKind_safe k _)
          | msg cur => exact map_safe (deMsg_safe L hL _ _)
          | msgType => exact map_safe (deMsg_safe L hL _ _)
          | slice f =>
            cases f with
            | ptr l => exact map_safe (deMsgsLoop_safe L hL _ _ _ _)
            | value => exact absurd rfl this.1
            | type => exact absurd rfl this.2
          | sliceOther => intro h; cases h
          | other => intro h; cases h
    unfold deMulti
    split
    · next e he =>
      intro h
      cases h
      exact h1 he
    · exact map_safe (ih (fun t h => ht t (List.mem_cons_of_mem _ h)) _)

/-- **C57.** The gRPC serialization carries exactly one message, and it comes back. -/
theorem grpc_roundtrip (L : Lib P) (hL : Spec.Codec L) (v : Val P) (t : Target P) (bs : Bytes)
    (hs : grpcSerMulti L [v] = .ok bs) (ht : t = .msgType ∨ ∃ cur, t = .msg cur) :
    ∃ m, v = .msg m ∧ grpcDeMulti L [t] bs = .ok [Spec.returned (.msg m) t] := by
  cases v with
  | msg m =>
    refine ⟨m, rfl, ?_⟩
    simp only [grpcSerMulti, grpcSer] at hs
    cases hm : L.marshal m with
    | none => rw [hm] at hs; cases hs
    | some enc =>
      rw [hm] at hs
      cases hs
      have h1 := (hL m bs hm).1
      rcases ht with rfl | ⟨cur, rfl⟩
      · simp only [grpcDeMulti, grpcDe, h1]
        rfl
      · simp only [grpcDeMulti, grpcDe, h1]
        rfl
  | _ => cases hs

/-- **C57.** Anything but one target is refused. -/
theorem grpc_one_target (L : Lib P) (ts : List (Target P)) (bs : Bytes) (h : ts.length ≠ 1) :
    grpcDeMulti L ts bs = .error .bad := by
  unfold grpcDeMulti
  split
  · exact absurd rfl h
  · rfl

theorem grpc_only_one (L : Lib P) (vs : List (Val P)) (bs : Bytes) (h : grpcSerMulti L vs = .ok bs) : vs.length = 1 := by
  unfold grpcSerMulti at h
  split at h
  · rfl
  · cases h

/-! ## Examples -/

/-- A library whose messages are strings of less than 1000 bytes. -/
def plainLib : Lib Bytes where
  marshal m := if m.length < 1000 then some m else none
  merge _ bs := .ok bs
  zero := []

theorem plainLib_codec : Spec.Codec plainLib := by
  intro m bs h
  unfold plainLib at h ⊢
  simp only at h ⊢
  split at h
  · cases h
    exact ⟨rfl, by omega⟩
  · cases h

def exPbArgs : List (Val Bytes × Target Bytes) :=
  [(.prim (.i64 (-5)), .ptr .i64), (.nil, .ptr .str), (.prim (.str b!"motan"), .kind .str), (.msg b!"hello", .msg []),
   (.prim (.u32 4000000000), .ptr .u32), (.prim (.int 7), .kind .int), (.prim (.bool true), .ptr .bool),
   (.prim (.f32 1065353216), .kind .f32)]

example : (∀ a ∈ exPbArgs, Spec.Fits plainLib a.1 a.2) ∧
    serMulti plainLib (exPbArgs.map Prod.fst) =
      .ok [0, 9, 1, 0, 5, 109, 111, 116, 97, 110, 0, 5, 104, 101, 108, 108, 111, 0, 255, 223, 166, 153, 2, 0, 14, 0, 1,
        0, 0, 0, 128, 63] ∧
    (deMulti plainLib (exPbArgs.map Prod.snd) ((serMulti plainLib (exPbArgs.map Prod.fst)).toOption.get! ++ b!"rest")) =
      .ok (exPbArgs.map fun a => Spec.returned a.1 a.2) := by
  have hs : serMulti plainLib (exPbArgs.map Prod.fst) =
      .ok [0, 9, 1, 0, 5, 109, 111, 116, 97, 110, 0, 5, 104, 101, 108, 108, 111, 0, 255, 223, 166, 153, 2, 0, 14, 0, 1,
        0, 0, 0, 128, 63] := by
    simp [exPbArgs, serMulti, serBuf, serPrim, encZigzag32, encZigzag64, BytesBuffer.zigzagEnc32,
      BytesBuffer.zigzagEnc64, encVarint, encRaw, encFixed, plainLib, Except.map]
  refine ⟨?_, hs, by rw [hs]; decide +kernel⟩
  intro a ha
  simp only [exPbArgs, List.mem_cons, List.not_mem_nil, or_false] at ha
  rcases ha with rfl | rfl | rfl | rfl | rfl | rfl | rfl | rfl <;>
    first
    | exact trivial
    | exact rfl
    | exact ⟨rfl, by decide⟩

/-! ## What does not work -/

/-- **C57 is false for pointers to `int` and `uint`.** The value comes back as an `int64` and the pointer is left alone,
for every number. -/
theorem pb_int_pointer_untouched_violated (L : Lib P) (x : BitVec 64) (tl : Bytes) :
    (∃ bs, serBuf L (.prim (.int x)) = .ok bs ∧ deSer L (.ptr .int) (bs ++ tl) = .ok (.prim (.i64 x), none)) ∧
    (∃ bs, serBuf L (.prim (.uint x)) = .ok bs ∧ deSer L (.ptr .uint) (bs ++ tl) = .ok (.prim (.u64 x), none)) := by
  refine ⟨⟨_, rfl, ?_⟩, ⟨_, rfl, ?_⟩⟩
  · unfold deSer deBuf
    rw [List.append_assoc, decVarint_enc (by decide)]
    show ((((deKind (Prim.int x).kind (serPrim (.int x) ++ tl)).map _ : Except Err (Got P))).map _ : Except Err _) = _
    rw [deKind_ser _ (fun s h => by cases h)]
    rfl
  · unfold deSer deBuf
    rw [List.append_assoc, decVarint_enc (by decide)]
    show ((((deKind (Prim.uint x).kind (serPrim (.uint x) ++ tl)).map _ : Except Err (Got P))).map _ : Except Err _) = _
    rw [deKind_ser _ (fun s h => by cases h)]
    rfl

/-- **C57 is false for arrays of messages (1).** No array with an element can be serialized, and one that begins with nil
panics. -/
theorem pb_array_refused_violated (L : Lib P) (l : List (Option P)) :
    (∀ m, serBuf L (.msgs (some m :: l)) = .error .bad) ∧ serBuf L (.msgs (none :: l)) = .error .panic :=
  ⟨fun _ => rfl, rfl⟩

/-- **C57 is false for arrays of messages (2).** An array "one", "two" sent by another implementation is read as "two",
"two": all elements are the same object. -/
theorem pb_array_aliased_violated :
    deSer plainLib (.slice (.ptr [])) ([0] ++ ([0, 3] ++ b!"one") ++ ([0, 3] ++ b!"two")) =
      .ok (.msgs [some b!"two", some b!"two"], some (.msgs [some b!"two", some b!"two"])) := by decide +kernel

/-- An array as another implementation sends it: 1 for each nil, 0 and the length-delimited message for each other. -/
def Spec.arrayBytes (xs : List (Option Bytes)) : Bytes :=
  xs.flatMap fun x => match x with | none => [1] | some enc => 0 :: encRaw enc

/-- What one message object holds after all the messages of an array were read into it. -/
def Spec.mergedAll (L : Lib P) (m : P) (xs : List (Option Bytes)) : Except Err P :=
  (xs.filterMap id).foldlM L.merge m

theorem deMsgsLoop_array (L : Lib P) (xs : List (Option Bytes)) (hx : ∀ enc, some enc ∈ xs → enc.length < 2 ^ 63) :
    ∀ (fuel : Nat) (cur m : P) (n : Nat), (Spec.arrayBytes xs).length ≤ fuel → Spec.mergedAll L cur xs = .ok m →
      deMsgsLoop L true fuel cur n (Spec.arrayBytes xs) = .ok (n + xs.length, m, []) := by
  induction xs with
  | nil =>
    intro fuel cur m n _ hm
    cases hm
    cases fuel <;> rfl
  | cons x xs ih =>
    intro fuel cur m n hf hm
    have ih := ih fun enc h => hx enc (List.mem_cons_of_mem _ h)
    cases x with
    | none =>
      have hb : Spec.arrayBytes (none :: xs) = encVarint 1 ++ Spec.arrayBytes xs := by
        rw [show encVarint 1 = [1] by unfold encVarint; decide +kernel]; rfl
      have hl : (Spec.arrayBytes (none :: xs)).length = (Spec.arrayBytes xs).length + 1 := rfl
      obtain ⟨f, rfl⟩ : ∃ f, fuel = f + 1 := ⟨fuel - 1, by omega⟩
      rw [deMsgsLoop, hb, decVarint_enc (by decide)]
      simp only [if_true]
      rw [ih f cur m (n + 1) (by omega) hm, List.length_cons, Nat.add_assoc, Nat.add_comm 1]
    | some enc =>
      have hb : Spec.arrayBytes (some enc :: xs) = encVarint 0 ++ (encRaw enc ++ Spec.arrayBytes xs) := by
        rw [show encVarint 0 = [0] by unfold encVarint; decide +kernel]; rfl
      have hl : (Spec.arrayBytes (some enc :: xs)).length = (encRaw enc).length + 1 + (Spec.arrayBytes xs).length := by
        show ((0 :: encRaw enc) ++ Spec.arrayBytes xs).length = _
        rw [List.length_append, List.length_cons]
      obtain ⟨f, rfl⟩ : ∃ f, fuel = f + 1 := ⟨fuel - 1, by omega⟩
      cases h1 : L.merge cur enc with
      | error e =>
        exfalso
        have : Spec.mergedAll L cur (some enc :: xs) = (L.merge cur enc).bind fun c => Spec.mergedAll L c xs := rfl
        rw [this, h1] at hm
        cases hm
      | ok c =>
        have : Spec.mergedAll L cur (some enc :: xs) = (L.merge cur enc).bind fun c => Spec.mergedAll L c xs := rfl
        rw [this, h1] at hm
        rw [deMsgsLoop, hb, decVarint_enc (by decide)]
        simp only [Nat.zero_ne_one, if_false, deMsg]
        rw [decRaw_enc (hx enc (List.mem_cons_self ..))]
        simp only [h1, Except.map, if_true]
        rw [ih f c m (n + 1) (by omega) hm, List.length_cons, Nat.add_assoc, Nat.add_comm 1]

/-- **C57 is false for arrays of messages (2), in general.** Whatever array another implementation sends, the slice behind
the pointer gets as many elements as were sent, all of them the same message object, which holds the messages of the array
merged one over the other; a nil in the array becomes that object too. -/
theorem pb_array_read_violated (L : Lib P) (l : List (Option P)) (xs : List (Option Bytes))
    (hx : ∀ enc, some enc ∈ xs → enc.length < 2 ^ 63) (m : P) (hm : Spec.mergedAll L L.zero xs = .ok m) :
    deSer L (.slice (.ptr l)) (0 :: Spec.arrayBytes xs) =
      .ok (.msgs (l ++ List.replicate xs.length (some m)), some (.msgs (l ++ List.replicate xs.length (some m)))) := by
  unfold deSer deBuf
  rw [show (0 :: Spec.arrayBytes xs) = encVarint 0 ++ Spec.arrayBytes xs by
    rw [show encVarint 0 = [0] by unfold encVarint; decide +kernel]; rfl, decVarint_enc (by decide)]
  simp only [Nat.zero_ne_one, if_false]
  rw [deMsgsLoop_array L xs hx _ L.zero m 0 (Nat.le_refl _) hm]
  simp only [Except.map, Nat.zero_add]

/-- The array "one", nil, "two". -/
example : Spec.mergedAll plainLib plainLib.zero [some b!"one", none, some b!"two"] = .ok b!"two" ∧
    deSer plainLib (.slice (.ptr [])) (0 :: Spec.arrayBytes [some b!"one", none, some b!"two"]) =
      .ok (.msgs [some b!"two", some b!"two", some b!"two"], some (.msgs [some b!"two", some b!"two", some b!"two"])) := by
  decide +kernel

/-- **C57 is false for arrays of messages (3).** An array cut inside an element is read without an error, and an argument
after the array is lost to it. -/
theorem pb_array_cut_unnoticed_violated :
    deSer plainLib (.slice (.ptr [])) ([0] ++ ([0, 3] ++ b!"one") ++ ([0, 3] ++ b!"tw")) =
      .ok (.msgs [some b!"one"], some (.msgs [some b!"one"])) ∧
    deMulti plainLib [.slice (.ptr []), .kind .str] ([0] ++ ([0, 3] ++ b!"one") ++ ([0, 3] ++ b!"arg")) =
      .error .eof := by decide +kernel

/-- **C57 is false for slice types.** A provider's method that takes an array of messages makes the decoder panic on every
non-empty array. -/
theorem pb_array_parameter_panics_violated :
    deSer plainLib (.slice .type) ([0] ++ ([0, 3] ++ b!"one")) = .error .panic ∧
    deSer plainLib (.slice .value) [0] = .error .panic := by decide +kernel

end Motan.Props
