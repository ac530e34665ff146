import Verif.Spec.Simple
import Verif.Proof.BytesBuffer
import Verif.Props.Buffer

/-!
# Lemmas about the simple serialization
-/

namespace Motan.Simple

open Motan BytesBuffer

/-! ## Encoding -/

/-- `b'` is `b` with `p` appended. -/
structure Ext (b : BytesBuffer) (p : Bytes) (b' : BytesBuffer) : Prop where
  wf : b'.WF
  bytes : b'.bytes = b.bytes ++ p
  order : b'.order = b.order

theorem wpos_eq {b : BytesBuffer} (h : b.WF) : b.wpos = b.bytes.length := by
  simp only [BytesBuffer.bytes, WF] at *; simp; omega

theorem Ext.trans {b b' b'' : BytesBuffer} {p q : Bytes} (h : Ext b p b') (h' : Ext b' q b'') :
    Ext b (p ++ q) b'' :=
  ⟨h'.wf, by rw [h'.bytes, h.bytes, List.append_assoc], h'.order.trans h.order⟩

theorem ext_put {b : BytesBuffer} (hw : b.WF) (d : Bytes) : Ext b d (b.put d) := by
  obtain ⟨h1, h2, _, h4, _⟩ := put_bytes_wf b d hw
  exact ⟨h2, h1, h4⟩

theorem ext_refl {b : BytesBuffer} (hw : b.WF) : Ext b [] b := ⟨hw, by simp, rfl⟩

theorem ext_writeByte {b : BytesBuffer} (hw : b.WF) (c : UInt8) : Ext b [c] (b.writeByte c) := by
  rw [writeByte_eq_put]; exact ext_put hw _

theorem ext_writeUint32 {b : BytesBuffer} (hw : b.WF) (ho : b.order = .big) (u : UInt32) :
    Ext b (beBytes 4 u.toNat) (b.writeUint32 u) := by
  rw [writeUint32_eq_put, ho]; exact ext_put hw _

theorem ext_writeUint16 {b : BytesBuffer} (hw : b.WF) (ho : b.order = .big) (u : UInt16) :
    Ext b (beBytes 2 u.toNat) (b.writeUint16 u) := by
  rw [writeUint16_eq_put, ho]; exact ext_put hw _

theorem ext_writeUint64 {b : BytesBuffer} (hw : b.WF) (ho : b.order = .big) (u : UInt64) :
    Ext b (beBytes 8 u.toNat) (b.writeUint64 u) := by
  rw [writeUint64_eq_put, ho]; exact ext_put hw _

theorem ext_write {b : BytesBuffer} (hw : b.WF) (s : Bytes) : Ext b s (b.write s) := by
  rw [write_eq_put]; exact ext_put hw _

theorem ext_writeVarint {b : BytesBuffer} (hw : b.WF) (u : UInt64) : Ext b (leb u.toNat) (b.writeVarint u).1 := by
  obtain ⟨h1, h2, _, h4, _⟩ := writeVarint_spec b u hw
  exact ⟨h2, h1, h4⟩

/-- Moving the write position forward appends unspecified bytes. -/
theorem ext_setWPos {b : BytesBuffer} (hw : b.WF) (n : Nat) :
    ∃ g : Bytes, g.length = n ∧ Ext b g (b.setWPos (b.wpos + n)) := by
  have key : ∀ b' : BytesBuffer, b'.WF → b'.bytes = b.bytes → b'.wpos = b.wpos → b'.order = b.order →
      b.wpos + n ≤ b'.buf.length →
      ∃ g : Bytes, g.length = n ∧ Ext b g { b' with wpos := b.wpos + n } := by
    intro b' hw' hb hwp ho hl
    refine ⟨(b'.buf.drop b.wpos).take n, by simp; omega, hl, ?_, ho⟩
    rw [← hb]
    simp only [BytesBuffer.bytes, hwp]
    rw [List.take_add]
  simp only [setWPos]
  split
  · refine key _ (grow_wf _ _ hw) (grow_bytes _ _ hw) rfl rfl ?_
    rw [grow_buf_length]; omega
  · exact key b hw rfl rfl rfl (by omega)

theorem toNat_ofNat32 {n : Nat} (h : n < 2 ^ 32) : (UInt32.ofNat n).toNat = n := by
  rw [UInt32.toNat_ofNat']; exact Nat.mod_eq_of_lt h

theorem beBytes_ofNat32 (n : Nat) : beBytes 4 (UInt32.ofNat n).toNat = beBytes 4 n := by
  have h : ∀ a b : Nat, a % 256 ^ 4 = b % 256 ^ 4 → beBytes 4 a = beBytes 4 b := by
    intro a b hab
    have h1 := beBytes_beVal (beBytes 4 a)
    have h2 := beBytes_beVal (beBytes 4 b)
    rw [length_beBytes, beVal_beBytes_mod] at h1 h2
    rw [← h1, ← h2, hab]
  apply h
  rw [UInt32.toNat_ofNat']; omega

/-- Writing the size at its place. -/
theorem ext_patchSize {b b' : BytesBuffer} {g content : Bytes} (hg : g.length = 4)
    (ho : b.order = .big) (hwb : b.WF)
    (h : Ext b (g ++ content) b') : Ext b (lp content) (patchSize b' b.wpos) := by
  have hb := wpos_eq hwb
  have hb' := wpos_eq h.wf
  have hbytes := h.bytes
  have hlen : b'.bytes.length = b.wpos + 4 + content.length := by rw [hbytes]; simp [hb, hg]; omega
  have hbl : b'.wpos ≤ b'.buf.length := h.wf
  have hsize : b'.wpos - b.wpos - 4 = content.length := by omega
  have hset : ∀ (c : BytesBuffer) p, p ≤ c.buf.length → c.setWPos p = { c with wpos := p } := by
    intro c p hp
    simp only [setWPos]
    rw [if_neg (by omega)]
  have hput : (patchSize b' b.wpos) = { b' with buf := copyAt b'.buf b.wpos (beBytes 4 (UInt32.ofNat content.length).toNat) } := by
    simp only [patchSize, hsize]
    rw [hset b' b.wpos (by omega), writeUint32_eq_put]
    simp only [put, ByteOrder.length_put]
    rw [if_neg (by omega)]
    have ho' : b'.order = .big := h.order.trans ho
    rw [hset _ _ (by simp [length_copyAt _ _ _ (show b.wpos ≤ b'.buf.length by omega)]; omega)]
    simp only [ho', ByteOrder.put]
  rw [hput, beBytes_ofNat32]
  have hcl : (copyAt b'.buf b.wpos (beBytes 4 content.length)).length = b'.buf.length :=
    length_copyAt _ _ _ (by omega)
  refine ⟨?_, ?_, h.order⟩
  · show b'.wpos ≤ (copyAt b'.buf b.wpos (beBytes 4 content.length)).length
    omega
  · show (copyAt b'.buf b.wpos (beBytes 4 content.length)).take b'.wpos = _
    rw [copyAt_fit _ _ _ (by simp; omega)]
    have e1 : b'.buf.take b.wpos = b.bytes := by
      have : (b'.buf.take b'.wpos).take b.wpos = b.bytes := by
        have hh : b'.buf.take b'.wpos = b.bytes ++ (g ++ content) := hbytes
        rw [hh, hb, List.take_left']; rfl
      rwa [List.take_take, Nat.min_eq_left (by omega)] at this
    have e2 : (b'.buf.drop (b.wpos + 4)).take content.length = content := by
      have hh : b'.buf.take b'.wpos = b.bytes ++ (g ++ content) := hbytes
      have : (b'.buf.take b'.wpos).drop (b.wpos + 4) = content := by
        rw [hh, ← List.append_assoc, List.drop_left' (by simp [hb, hg])]
      rw [List.drop_take] at this
      rwa [show b'.wpos - (b.wpos + 4) = content.length by omega] at this
    rw [e1, length_beBytes]
    rw [List.take_append, List.take_append]
    have l1 : (b.bytes ++ beBytes 4 content.length).length = b.wpos + 4 := by simp [hb]
    rw [List.take_of_length_le (by omega), List.take_of_length_le (by simp; omega), l1,
      show b'.wpos - (b.wpos + 4) = content.length by omega, e2, lp, List.append_assoc]

theorem ext_strNoTag {b : BytesBuffer} (hw : b.WF) (ho : b.order = .big) (s : Bytes) :
    Ext b (lp s) (encodeStringNoTag b s) := by
  have h := ext_writeUint32 hw ho (UInt32.ofNat s.length)
  rw [beBytes_ofNat32] at h
  exact h.trans (ext_write h.wf s)

theorem ext_strs {b : BytesBuffer} (hw : b.WF) (ho : b.order = .big) (l : List Bytes) :
    Ext b (l.map lp).flatten (l.foldl encodeStringNoTag b) := by
  induction l generalizing b with
  | nil => exact ext_refl hw
  | cons s l ih =>
    have h := ext_strNoTag hw ho s
    exact h.trans (ih h.wf (h.order.trans ho))

theorem ext_strPairs {b : BytesBuffer} (hw : b.WF) (ho : b.order = .big) (l : List (Bytes × Bytes)) :
    Ext b (l.map fun x => lp x.1 ++ lp x.2).flatten
      (l.foldl (fun b p => encodeStringNoTag (encodeStringNoTag b p.1) p.2) b) := by
  induction l generalizing b with
  | nil => exact ext_refl hw
  | cons s l ih =>
    have h := ext_strNoTag hw ho s.1
    have h2 := h.trans (ext_strNoTag h.wf (h.order.trans ho) s.2)
    exact h2.trans (ih h2.wf (h2.order.trans ho))

/-- A container: tag, room for the size, content, size. -/
theorem ext_container {b b2 : BytesBuffer} (hw : b.WF) (ho : b.order = .big) (tag : UInt8) {content : Bytes}
    (h : Ext ((b.writeByte tag).setWPos ((b.writeByte tag).wpos + 4)) content b2) :
    Ext b (tag :: lp content) (patchSize b2 (b.writeByte tag).wpos) := by
  have h1 := ext_writeByte hw tag
  obtain ⟨g, hg, h2⟩ := ext_setWPos h1.wf 4
  have h3 := ext_patchSize hg (h1.order.trans ho) h1.wf (h2.trans h)
  exact h1.trans h3

theorem setWPos_order (b : BytesBuffer) (n : Nat) : (b.setWPos n).order = b.order := by
  simp only [setWPos]; split <;> rfl

theorem start_ok {b : BytesBuffer} (hw : b.WF) (ho : b.order = .big) (tag : UInt8) :
    ((b.writeByte tag).setWPos ((b.writeByte tag).wpos + 4)).WF ∧
    ((b.writeByte tag).setWPos ((b.writeByte tag).wpos + 4)).order = .big := by
  have h1 := ext_writeByte hw tag
  obtain ⟨g, hg, h2⟩ := ext_setWPos h1.wf 4
  exact ⟨h2.wf, h2.order.trans (h1.order.trans ho)⟩

theorem lp_length_le (s : Bytes) : s.length ≤ (lp s).length := by simp [lp]

theorem mem_flatten_le {l : List Bytes} {s : Bytes} (h : s ∈ l) : s.length ≤ l.flatten.length := by
  induction l with
  | nil => simp at h
  | cons x l ih =>
    simp only [List.flatten_cons, List.length_append]
    rcases List.mem_cons.mp h with rfl | h
    · omega
    · have := ih h; omega

theorem leb_varintAt (off : Nat) (x : UInt64) (n : Nat) (ho : off < 64) (hx : x.toNat < 2 ^ off)
    (hfit : x.toNat + n * 2 ^ off < 2 ^ 64) :
    VarintAt off x (leb n) (UInt64.ofNat (x.toNat + n * 2 ^ off)) := by
  have hb : ∃ b : BytesBuffer, b.rest = leb n ++ [] := ⟨.create (leb n) .big, by simp [rest, create]⟩
  induction n using Nat.strongRecOn generalizing off x with
  | _ n ih =>
    by_cases h : n < 128
    · rw [leb_small h]
      have e := varint_acc x n off ho hx (by omega) (by omega)
      rw [← e, UInt64.ofNat_toNat]
      exact .last ho (leb_head_small h)
    · rw [leb_big h]
      have hm : n % 128 < 128 := by omega
      have hle : n % 128 * 2 ^ off ≤ n * 2 ^ off := Nat.mul_le_mul_right _ (Nat.mod_le _ _)
      have e := varint_acc x (n % 128) off ho hx (by omega) (by omega)
      have hpow : 2 ^ (off + 7) = 128 * 2 ^ off := by rw [Nat.pow_add, Nat.mul_comm]
      have hn : n * 2 ^ off = n % 128 * 2 ^ off + n / 128 * (128 * 2 ^ off) := by
        conv => lhs; rw [← Nat.mod_add_div n 128]
        rw [Nat.add_mul]
        congr 1
        rw [Nat.mul_comm 128, Nat.mul_assoc]
      have hmo : n % 128 * 2 ^ off ≤ 127 * 2 ^ off := Nat.mul_le_mul_right _ (by omega)
      have hoff : off + 7 < 64 := by
        apply Classical.byContradiction
        intro hge
        have : 2 ^ 64 ≤ 2 ^ (off + 7) := Nat.pow_le_pow_right (by decide) (by omega)
        have h1 : 1 * (128 * 2 ^ off) ≤ n / 128 * (128 * 2 ^ off) := Nat.mul_le_mul_right _ (by omega)
        omega
      refine .more ho (cont_flag _ hm) ?_
      rw [cont_low _ hm]
      have := ih (n / 128) (by omega) (off + 7)
        (x ||| ((UInt8.ofNat (n % 128)).toUInt64 <<< UInt64.ofNat off)) hoff (by rw [e]; omega)
        (by rw [e, hpow]; omega) ⟨.create (leb (n / 128)) .big, by simp [rest, create]⟩
      rw [e, hpow] at this
      rwa [hn, ← Nat.add_assoc]

theorem leb_varint (u : UInt64) : VarintAt 0 0 (leb u.toNat) u := by
  have hu := u.toNat_lt
  have := leb_varintAt 0 0 u.toNat (by decide) (by decide) (by simp; omega)
  simpa using this

theorem wire_i32 (v : UInt32) :
    Wire (8 :: leb (UInt64.ofBitVec ((zigzagEnc32 v.toBitVec).setWidth 64)).toNat) (.i32 v) := by
  have h := Wire.i32 _ _ (leb_varint (UInt64.ofBitVec ((zigzagEnc32 v.toBitVec).setWidth 64)))
  have e : ((zigzagEnc32 v.toBitVec).setWidth 64).setWidth 32 = zigzagEnc32 v.toBitVec := by
    apply BitVec.eq_of_getLsbD_eq
    intro i hi
    simp [hi]
  simp only [e, Props.zigzag32_roundtrip] at h
  exact h

theorem wire_i64 (v : UInt64) :
    Wire (9 :: leb (UInt64.ofBitVec (zigzagEnc64 v.toBitVec)).toNat) (.i64 v) := by
  have h := Wire.i64 _ _ (leb_varint (UInt64.ofBitVec (zigzagEnc64 v.toBitVec)))
  simp only [Props.zigzag64_roundtrip] at h
  exact h

theorem storeAll_nil_of_nodup {l : AMap Bytes Bytes} (h : l.NodupKeys) : AMap.storeAll [] l = l := by
  have key : ∀ (a b : AMap Bytes Bytes), AMap.NodupKeys (a ++ b) → AMap.storeAll a b = a ++ b := by
    intro a b
    induction b generalizing a with
    | nil => intro _; simp [AMap.storeAll]
    | cons p b ih =>
      intro hn
      have hst : ∀ (a : AMap Bytes Bytes), p.1 ∉ a.keys → a.store p.1 p.2 = a ++ [p] := by
        intro a ha
        induction a with
        | nil => rfl
        | cons q a iha =>
          simp only [AMap.keys, List.map_cons, List.mem_cons, not_or] at ha
          simp only [AMap.store, if_neg (fun h : q.1 = p.1 => ha.1 h.symm), List.cons_append]
          rw [iha ha.2]
      have hnot : p.1 ∉ a.keys := by
        simp only [AMap.NodupKeys, AMap.keys, List.map_append, List.map_cons, List.nodup_append] at hn
        intro hc
        exact hn.2.2 _ hc _ (List.mem_cons_self ..) rfl
      show AMap.storeAll (a.store p.1 p.2) b = _
      rw [hst a hnot, ih]
      · simp
      · simpa using hn
  exact key [] l h

theorem flat_wire {b b' : BytesBuffer} {v : Val} (hw : b.WF) (ho : b.order = .big)
    (h : encodeFlat b v = some b') :
    ∃ p, Ext b p b' ∧ (p.length < 2 ^ 32 → storable v = true → Wire p (norm v)) := by
  cases v with
  | str s =>
    simp only [encodeFlat, Option.some.injEq] at h
    subst h
    have h1 := ext_writeByte hw sString
    refine ⟨_, h1.trans (ext_strNoTag h1.wf (h1.order.trans ho) s), fun hl _ => .str s ?_⟩
    have := lp_length_le s
    simp at hl; omega
  | strMap m =>
    simp only [encodeFlat, Option.some.injEq] at h
    subst h
    obtain ⟨s1, s2⟩ := start_ok hw ho sStringMap
    have h1 := ext_container hw ho sStringMap (ext_strPairs s1 s2 m)
    refine ⟨_, h1, fun hl hs => ?_⟩
    have e : norm (.strMap m) = .strMap (AMap.storeAll [] m) := by
      rw [storeAll_nil_of_nodup (by simpa [storable] using hs)]; rfl
    rw [e]
    have := lp_length_le (m.map fun x => lp x.1 ++ lp x.2).flatten
    simp only [List.length_cons] at hl
    refine .strMap m ?_ _ rfl (by omega)
    intro x hx
    have hm := mem_flatten_le (List.mem_map_of_mem (f := fun x => lp x.1 ++ lp x.2) hx)
    have l1 := lp_length_le x.1
    have l2 := lp_length_le x.2
    simp only [List.length_append] at hm
    omega
  | bytes s =>
    simp only [encodeFlat, Option.some.injEq] at h
    subst h
    have h1 := ext_writeByte hw sByteArray
    refine ⟨_, h1.trans (ext_strNoTag h1.wf (h1.order.trans ho) s), fun hl _ => .bytes s ?_⟩
    have := lp_length_le s
    simp at hl; omega
  | strArr l =>
    simp only [encodeFlat, Option.some.injEq] at h
    subst h
    obtain ⟨s1, s2⟩ := start_ok hw ho sStringArray
    have h1 := ext_container hw ho sStringArray (ext_strs s1 s2 l)
    refine ⟨_, h1, fun hl _ => ?_⟩
    have := lp_length_le (l.map lp).flatten
    simp only [List.length_cons] at hl
    refine .strArr l ?_ _ rfl (by omega)
    intro x hx
    have hm := mem_flatten_le (List.mem_map_of_mem (f := lp) hx)
    have l1 := lp_length_le x
    omega
  | bool v =>
    simp only [encodeFlat, Option.some.injEq] at h
    subst h
    have h1 := ext_writeByte hw sBool
    refine ⟨_, h1.trans (ext_writeByte h1.wf _), fun _ _ => ?_⟩
    have := Wire.bool (if v then 1 else 0)
    have e : ((if v then 1 else 0 : UInt8) == 1) = v := by cases v <;> rfl
    rw [e] at this
    exact this
  | byte c =>
    simp only [encodeFlat, Option.some.injEq] at h
    subst h
    have h1 := ext_writeByte hw sByte
    exact ⟨_, h1.trans (ext_writeByte h1.wf _), fun _ _ => .byte c⟩
  | i16 v =>
    simp only [encodeFlat, Option.some.injEq] at h
    subst h
    have h1 := ext_writeByte hw sInt16
    exact ⟨_, h1.trans (ext_writeUint16 h1.wf (h1.order.trans ho) v), fun _ _ => .i16 v⟩
  | i32 v =>
    simp only [encodeFlat, Option.some.injEq] at h
    subst h
    have h1 := ext_writeByte hw sInt32
    exact ⟨_, h1.trans (ext_writeVarint h1.wf _), fun _ _ => wire_i32 v⟩
  | i64 v =>
    simp only [encodeFlat, Option.some.injEq] at h
    subst h
    have h1 := ext_writeByte hw sInt64
    exact ⟨_, h1.trans (ext_writeVarint h1.wf _), fun _ _ => wire_i64 v⟩
  | int v =>
    simp only [encodeFlat, Option.some.injEq] at h
    subst h
    have h1 := ext_writeByte hw sInt64
    exact ⟨_, h1.trans (ext_writeVarint h1.wf _), fun _ _ => wire_i64 v⟩
  | f32 v =>
    simp only [encodeFlat, Option.some.injEq] at h
    subst h
    have h1 := ext_writeByte hw sFloat32
    exact ⟨_, h1.trans (ext_writeUint32 h1.wf (h1.order.trans ho) v), fun _ _ => .f32 v⟩
  | f64 v =>
    simp only [encodeFlat, Option.some.injEq] at h
    subst h
    have h1 := ext_writeByte hw sFloat64
    exact ⟨_, h1.trans (ext_writeUint64 h1.wf (h1.order.trans ho) v), fun _ _ => .f64 v⟩
  | null => simp [encodeFlat] at h
  | map _ => simp [encodeFlat] at h
  | arr _ => simp [encodeFlat] at h
  | other => simp [encodeFlat] at h

end Motan.Simple
