import Verif.Model.Motan2
import Verif.Proof.BytesBuffer

/-! Helper lemmas for motan2 encoding and decoding. -/

namespace Motan.Motan2

open BytesBuffer

/-- The kept pairs, each followed by newlines. -/
def metaFull (m : Meta) : Bytes :=
  ((m.filter fun p => keepPair p.1 p.2).map fun p => p.1 ++ [nl] ++ p.2 ++ [nl]).flatten

/-- The metadata section: `k\nv\n...k\nv` without the last newline. -/
def metaBytes (m : Meta) : Bytes := (metaFull m).dropLast

/-- The 13 header bytes. -/
def headerBytes (h : Header) : Bytes :=
  beBytes 2 MotanMagic.toNat ++ [h.msgType, h.versionStatus, h.serialize] ++ beBytes 8 h.requestID.toNat

/-- The encoded frame as a flat list. -/
def frame (msg : Message) : Bytes :=
  headerBytes msg.header ++ beBytes 4 (metaBytes msg.metadata).length ++ metaBytes msg.metadata ++
    beBytes 4 msg.body.length ++ msg.body

/-- A buffer that can be reused for encoding: big endian and not smaller than the fixed part. -/
def Reusable : Option BytesBuffer → Prop
  | none => True
  | some b => b.order = .big ∧ MetaStartOffset ≤ b.buf.length

@[simp] theorem length_headerBytes (h : Header) : (headerBytes h).length = 13 := by
  simp [headerBytes]

theorem put_length_ge (b : BytesBuffer) (d : Bytes) (h : b.WF) :
    b.buf.length ≤ (b.put d).buf.length := by
  simp only [put]
  split
  · have hg := grow_wf b d.length h
    rw [length_copyAt _ _ _ hg, grow_buf_length]; omega
  · rw [length_copyAt _ _ _ h]; exact Nat.le_refl _

/-- What the encoder maintains about its buffer. -/
structure Enc (b : BytesBuffer) (content : Bytes) : Prop where
  wf : b.WF
  big : b.order = .big
  len : MetaStartOffset ≤ b.buf.length
  bytes_eq : b.bytes = content

theorem Enc.put {b : BytesBuffer} {c : Bytes} (h : Enc b c) (d : Bytes) : Enc (b.put d) (c ++ d) := by
  obtain ⟨h1, h2, _, h4, _⟩ := put_bytes_wf b d h.wf
  exact ⟨h2, h4.trans h.big, Nat.le_trans h.len (put_length_ge b d h.wf), by rw [h1, h.bytes_eq]⟩

theorem bytes_length {b : BytesBuffer} (h : b.WF) : b.bytes.length = b.wpos := by
  simp only [bytes, List.length_take]; exact Nat.min_eq_left h

theorem encodeMeta_spec (m : Meta) (b : BytesBuffer) (c : Bytes) (h : Enc b c) :
    Enc (encodeMeta b m) (c ++ metaFull m) := by
  induction m generalizing b c with
  | nil => simpa [encodeMeta, metaFull] using h
  | cons p m ih =>
    obtain ⟨k, v⟩ := p
    have hcons : metaFull ((k, v) :: m)
        = (if keepPair k v then k ++ [nl] ++ v ++ [nl] else []) ++ metaFull m := by
      simp only [metaFull, List.filter_cons]
      split <;> simp
    rw [hcons, encodeMeta]
    by_cases h1 : k = [] ∨ v = []
    · have : keepPair k v = false := by
        rcases h1 with h1 | h1 <;> simp [keepPair, h1]
      simpa [h1, this] using ih b c h
    · by_cases h2 : (k.contains nl || v.contains nl) = true
      · have : keepPair k v = false := by simp only [keepPair, h2]; simp
        rw [if_neg h1, if_pos h2, this]
        simpa using ih b c h
      · have : keepPair k v = true := by
          rw [not_or] at h1
          simp only [Bool.not_eq_true] at h2
          simp [keepPair, h1.1, h1.2, -List.contains_eq_mem]
          simpa [-List.contains_eq_mem] using h2
        rw [if_neg h1, if_neg h2, this]
        rw [write_eq_put, writeByte_eq_put, write_eq_put, writeByte_eq_put]
        have := ih _ _ ((((h.put k).put [nl]).put v).put [nl])
        simpa using this

theorem length_dropLast_metaFull (m : Meta) : (metaBytes m).length = (metaFull m).length - 1 := by
  simp [metaBytes]

theorem setWPos_le {b : BytesBuffer} {pos : Nat} (h : pos ≤ b.buf.length) :
    b.setWPos pos = { b with wpos := pos } := by
  simp only [setWPos]; rw [if_neg (by omega)]

theorem Enc.u16 {b : BytesBuffer} {c : Bytes} (h : Enc b c) (u : UInt16) :
    Enc (b.writeUint16 u) (c ++ beBytes 2 u.toNat) := by
  have := h.put (b.order.put 2 u.toNat)
  rw [writeUint16_eq_put]; rwa [h.big] at this ⊢

theorem Enc.u32 {b : BytesBuffer} {c : Bytes} (h : Enc b c) (u : UInt32) :
    Enc (b.writeUint32 u) (c ++ beBytes 4 u.toNat) := by
  have := h.put (b.order.put 4 u.toNat)
  rw [writeUint32_eq_put]; rwa [h.big] at this ⊢

theorem Enc.u64 {b : BytesBuffer} {c : Bytes} (h : Enc b c) (u : UInt64) :
    Enc (b.writeUint64 u) (c ++ beBytes 8 u.toNat) := by
  have := h.put (b.order.put 8 u.toNat)
  rw [writeUint64_eq_put]; rwa [h.big] at this ⊢

theorem startBuf_spec (buf : Option BytesBuffer) (hr : Reusable buf) : Enc (startBuf buf) [] := by
  cases buf with
  | none =>
    exact ⟨new_wf _ _, rfl,
      by simp only [startBuf, BytesBuffer.new, List.length_replicate]; decide,
      by simp [startBuf, BytesBuffer.new, bytes]⟩
  | some b => exact ⟨by simp [WF, startBuf, reset], hr.1, hr.2, by simp [startBuf, reset, bytes]⟩

theorem encodeHeader_spec {b : BytesBuffer} (h : Enc b []) (hd : Header) :
    Enc (encodeHeader b hd) (headerBytes hd) := by
  have := ((((h.u16 MotanMagic).put [hd.msgType]).put [hd.versionStatus]).put [hd.serialize]).u64 hd.requestID
  simpa [headerBytes, encodeHeader, writeByte_eq_put] using this

theorem beBytes_mod (k n : Nat) : beBytes k (n % 256 ^ k) = beBytes k n := by
  have h1 := beBytes_beVal (beBytes k n)
  rw [length_beBytes, beVal_beBytes_mod] at h1
  exact h1

theorem encodeSizes_spec {b : BytesBuffer} {pre pad m : Bytes} (h : Enc b (pre ++ pad ++ m))
    (hpre : pre.length = 13) (hpad : pad.length = 4) (n : Nat) :
    Enc (encodeSizes b n)
      (pre ++ beBytes 4 m.dropLast.length ++ m.dropLast ++ beBytes 4 n) := by
  have hw : b.wpos = 17 + m.length := by
    have := bytes_length h.wf; rw [h.bytes_eq] at this
    simp only [List.length_append] at this; omega
  have hwf : b.wpos ≤ b.buf.length := h.wf
  have hlen : 17 ≤ b.buf.length := h.len
  have hbuf : ∃ junk, b.buf = pre ++ pad ++ m ++ junk := by
    refine ⟨b.buf.drop b.wpos, ?_⟩
    have := h.bytes_eq
    rw [← this]; simp [bytes]
  obtain ⟨junk, hbuf⟩ := hbuf
  -- the two cases of the size computation
  have hsz : (if b.wpos ≠ MetaStartOffset then
      (if b.wpos ≠ MetaStartOffset then b.wpos - 1 else b.wpos) - MetaStartOffset else 0)
      = m.dropLast.length := by
    have hM : MetaStartOffset = 17 := rfl
    by_cases h17 : b.wpos = 17
    · simp [hM, h17]; omega
    · simp [hM, h17]; omega
  have hend : (if b.wpos ≠ MetaStartOffset then b.wpos - 1 else b.wpos) = 17 + m.dropLast.length := by
    have hM : MetaStartOffset = 17 := rfl
    by_cases h17 : b.wpos = 17
    · simp [hM, h17]; omega
    · simp [hM, h17]; omega
  simp only [encodeSizes]
  rw [hsz, hend]
  have hdl : m.dropLast.length ≤ m.length := by simp
  rw [setWPos_le (pos := HeaderLength) (by simp only [HeaderLength]; omega)]
  have ebig : ({ b with wpos := HeaderLength } : BytesBuffer).order = .big := h.big
  have hput : ({ b with wpos := HeaderLength } : BytesBuffer).writeUint32 (UInt32.ofNat m.dropLast.length)
      = { b with buf := pre ++ beBytes 4 m.dropLast.length ++ m ++ junk, wpos := 17 } := by
    rw [writeUint32_eq_put, ebig]
    simp only [BytesBuffer.put, ByteOrder.put, length_beBytes]
    rw [if_neg (by simp only [HeaderLength]; omega)]
    rw [copyAt_fit _ _ _ (by simp only [HeaderLength, length_beBytes]; omega)]
    simp only [HeaderLength, length_beBytes]
    have e1 : b.buf.take 13 = pre := by
      rw [hbuf, List.append_assoc, List.append_assoc, ← hpre]; simp
    have e2 : b.buf.drop (13 + 4) = m ++ junk := by
      rw [hbuf, List.append_assoc]
      have : 13 + 4 = (pre ++ pad).length := by simp [hpre, hpad]
      rw [this]; simp
    rw [e1, e2]
    congr 1
    rw [UInt32.toNat_ofNat', show (2 : Nat) ^ 32 = 256 ^ 4 by decide, beBytes_mod]
    simp
  rw [hput]
  have hl2 : 17 + m.dropLast.length ≤ (pre ++ beBytes 4 m.dropLast.length ++ m ++ junk).length := by
    simp only [List.length_append, length_beBytes]; omega
  rw [setWPos_le (by exact hl2)]
  have e9 : Enc { b with buf := pre ++ beBytes 4 m.dropLast.length ++ m ++ junk, wpos := 17 + m.dropLast.length }
      (pre ++ beBytes 4 m.dropLast.length ++ m.dropLast) := by
    refine ⟨hl2, h.big, ?_, ?_⟩
    · simp only [MetaStartOffset, HeaderLength]
      exact Nat.le_trans (by omega) hl2
    · simp only [bytes]
      rw [List.append_assoc _ m junk]
      have h17 : (pre ++ beBytes 4 m.dropLast.length).length = 17 := by simp [hpre]
      rw [List.take_append, h17]
      rw [List.take_of_length_le (by omega)]
      congr 1
      rw [show 17 + m.dropLast.length - 17 = m.dropLast.length by omega]
      rw [List.take_append_of_le_length (by omega), List.length_dropLast, ← List.dropLast_eq_take]
  have := e9.u32 (UInt32.ofNat n)
  rw [UInt32.toNat_ofNat', show (2 : Nat) ^ 32 = 256 ^ 4 by decide, beBytes_mod] at this
  exact this

theorem encode0_spec (buf : Option BytesBuffer) (hr : Reusable buf) (msg : Message) :
    Enc (encode0 buf msg) (headerBytes msg.header ++ beBytes 4 (metaBytes msg.metadata).length ++
      metaBytes msg.metadata ++ beBytes 4 msg.body.length) := by
  simp only [encode0]
  have e5 := encodeHeader_spec (startBuf_spec buf hr) msg.header
  generalize encodeHeader (startBuf buf) msg.header = b5 at e5 ⊢
  have hw5 : b5.wpos = 13 := by
    have := bytes_length e5.wf; rw [e5.bytes_eq] at this; simpa using this.symm
  have ht5 : b5.buf.take 13 = headerBytes msg.header := by
    have := e5.bytes_eq; simpa [bytes, hw5] using this
  have hl5 : 17 ≤ b5.buf.length := e5.len
  rw [setWPos_le e5.len]
  have e6 : Enc { b5 with wpos := MetaStartOffset } (headerBytes msg.header ++ (b5.buf.drop 13).take 4) := by
    refine ⟨e5.len, e5.big, e5.len, ?_⟩
    simp only [bytes]
    rw [← ht5]
    have : MetaStartOffset = 13 + 4 := rfl
    rw [this, List.take_add]
  have e7 := encodeMeta_spec msg.metadata _ _ e6
  exact encodeSizes_spec e7 (by simp) (by simp; omega) msg.body.length

theorem encode_eq_frame (buf : Option BytesBuffer) (hr : Reusable buf) (msg : Message) :
    encode buf msg = frame msg := by
  have e := encode0_spec buf hr msg
  simp only [encode]
  split
  · rw [write_eq_put, (e.put msg.body).bytes_eq, frame]
  · have : msg.body = [] := List.length_eq_zero_iff.mp (by omega)
    rw [e.bytes_eq, frame, this]; simp

theorem getEncodedBytes_eq_frame (buf : Option BytesBuffer) (hr : Reusable buf) (msg : Message) :
    getEncodedBytes buf msg = frame msg := by
  rw [getEncodedBytes, (encode0_spec buf hr msg).bytes_eq, frame]

theorem encode0_reusable (buf : Option BytesBuffer) (hr : Reusable buf) (msg : Message) :
    Reusable (some (encode0 buf msg)) :=
  ⟨(encode0_spec buf hr msg).big, (encode0_spec buf hr msg).len⟩

/-! ### The metadata parser -/

/-- Reading a newline-free segment up to a newline. -/
theorem parseMeta_seg (seg : Bytes) (hseg : nl ∉ seg) (cur k : Bytes) (m : Meta) (tl : Bytes) :
    parseMeta cur k m (seg ++ nl :: tl) = parseMeta [] (if k = [] then cur ++ seg else [])
      (if k = [] then m else m.store k (cur ++ seg)) tl := by
  induction seg generalizing cur with
  | nil =>
    simp only [List.nil_append, parseMeta, if_true, List.append_nil]
    split <;> rfl
  | cons c cs ih =>
    simp only [List.mem_cons, not_or] at hseg
    have hc : ¬ c = nl := fun e => hseg.1 e.symm
    simp only [List.cons_append, parseMeta, hc, if_false]
    rw [ih hseg.2]; simp

theorem parseMeta_end (seg : Bytes) (hseg : nl ∉ seg) (cur k : Bytes) (m : Meta) :
    parseMeta cur k m seg = if k = [] then (cur ++ seg, m) else ([], m.store k (cur ++ seg)) := by
  induction seg generalizing cur with
  | nil => simp [parseMeta]
  | cons c cs ih =>
    simp only [List.mem_cons, not_or] at hseg
    have hc : ¬ c = nl := fun e => hseg.1 e.symm
    simp only [parseMeta, hc, if_false]
    rw [ih hseg.2]; simp

theorem keepPair_iff (k v : Bytes) : keepPair k v = true ↔ k ≠ [] ∧ v ≠ [] ∧ nl ∉ k ∧ nl ∉ v := by
  simp [keepPair]; constructor <;> (intro h; simp_all)

theorem parseMeta_full (ps : Meta) (hps : ∀ p ∈ ps, keepPair p.1 p.2 = true) (hne : ps ≠ []) (m : Meta) :
    parseMeta [] [] m ((ps.map fun p => p.1 ++ [nl] ++ p.2 ++ [nl]).flatten.dropLast)
      = ([], m.storeAll ps) := by
  induction ps generalizing m with
  | nil => exact absurd rfl hne
  | cons p ps ih =>
    obtain ⟨k, v⟩ := p
    have hkv := (keepPair_iff k v).mp (hps (k, v) (List.mem_cons_self ..))
    by_cases hnil : ps = []
    · subst hnil
      simp only [List.map_cons, List.map_nil, List.flatten_cons, List.flatten_nil, List.append_nil]
      rw [List.dropLast_concat]
      have := parseMeta_seg k hkv.2.2.1 [] [] m v
      rw [show k ++ [nl] ++ v = k ++ nl :: v by simp, this]
      simp only [List.nil_append, if_true]
      rw [parseMeta_end v hkv.2.2.2]
      simp [hkv.1, AMap.storeAll]
    · have hne2 : (ps.map fun p => p.1 ++ [nl] ++ p.2 ++ [nl]).flatten ≠ [] := by
        cases ps with
        | nil => exact absurd rfl hnil
        | cons q qs => simp
      simp only [List.map_cons, List.flatten_cons]
      rw [List.dropLast_append_of_ne_nil hne2]
      rw [show k ++ [nl] ++ v ++ [nl] ++ (ps.map fun p => p.1 ++ [nl] ++ p.2 ++ [nl]).flatten.dropLast
        = k ++ nl :: (v ++ nl :: (ps.map fun p => p.1 ++ [nl] ++ p.2 ++ [nl]).flatten.dropLast) by simp]
      rw [parseMeta_seg k hkv.2.2.1]
      simp only [List.nil_append, if_true]
      rw [parseMeta_seg v hkv.2.2.2]
      simp only [hkv.1, if_false, List.nil_append]
      rw [ih (fun p hp => hps p (List.mem_cons_of_mem _ hp)) hnil]
      simp [AMap.storeAll]

/-- The metadata a peer sees. -/
def sentMeta (m : Meta) : Meta := AMap.storeAll [] (m.filter fun p => keepPair p.1 p.2)

theorem metaFull_eq_nil (m : Meta) (h : (m.filter fun p => keepPair p.1 p.2) = []) : metaBytes m = [] := by
  simp [metaBytes, metaFull, h]

theorem parseMeta_metaBytes (m : Meta) : parseMeta [] [] [] (metaBytes m) = ([], sentMeta m) := by
  by_cases h : (m.filter fun p => keepPair p.1 p.2) = []
  · rw [metaFull_eq_nil m h]; simp [parseMeta, sentMeta, h, AMap.storeAll]
  · exact parseMeta_full _ (fun p hp => (List.mem_filter.mp hp).2) h []

theorem metaBytes_eq_nil (m : Meta) (h : metaBytes m = []) : sentMeta m = [] := by
  have := parseMeta_metaBytes m
  rw [h] at this
  simpa [parseMeta] using (congrArg Prod.snd this).symm

theorem readAtLeast_append {n : Nat} {a s : Bytes} (h : a.length = n) :
    readAtLeast n (a ++ s) = (.ok a, s) := by
  subst h; simp [readAtLeast]

theorem readBytes_append {n : Nat} {a s : Bytes} (h : a.length = n) :
    readBytes n (a ++ s) = (.ok a, s) := by
  subst h; simp [readBytes]

theorem decodeBody_frame (maxLen bodyCap : Nat) (msg : Message) (body s : Bytes) (allocs : List Nat)
    (hb : body.length ≤ maxLen) (hb32 : body.length < 2 ^ 32) :
    ∃ al, decodeBody maxLen bodyCap msg (beBytes 4 body.length ++ body ++ s) allocs
      = ⟨.ok { msg with body := body }, s, al⟩ := by
  have hv : beVal (beBytes 4 body.length) = body.length := beVal_beBytes (by omega)
  simp only [decodeBody]
  rw [List.append_assoc, readAtLeast_append (by simp)]
  simp only [hv]
  rw [if_neg (by omega)]
  by_cases h0 : body.length > 0
  · simp only [h0, if_true, readBytes_append (rfl : body.length = body.length)]
    exact ⟨_, rfl⟩
  · have : body = [] := List.length_eq_zero_iff.mp (by omega)
    subst this
    simp

theorem decodeMeta_frame (maxLen bufCap bodyCap : Nat) (h : Header) (m : Meta) (body s : Bytes)
    (hm : (metaBytes m).length ≤ maxLen) (hb : body.length ≤ maxLen) (h32 : maxLen < 2 ^ 32) :
    ∃ al, decodeMeta maxLen bufCap bodyCap { Message.fresh with header := h }
        (beBytes 4 (metaBytes m).length ++ (metaBytes m ++ (beBytes 4 body.length ++ body ++ s)))
      = ⟨.ok { header := h, metadata := sentMeta m, body := body, type := 0 }, s, al⟩ := by
  have hmv : beVal (beBytes 4 (metaBytes m).length) = (metaBytes m).length :=
    beVal_beBytes (by omega)
  have hfm : Message.fresh.metadata = [] := rfl
  have hpm := parseMeta_metaBytes m
  rw [decodeMeta, readAtLeast_append (by simp)]
  simp only [hmv]
  rw [if_neg (by omega)]
  by_cases h0 : (metaBytes m).length > 0
  · rw [if_pos h0, readBytes_append rfl]
    simp only [hfm, hpm, ne_eq, not_true_eq_false, if_false]
    exact decodeBody_frame maxLen bodyCap ⟨h, sentMeta m, [], 0⟩ body s _ hb (by omega)
  · have hnil : metaBytes m = [] := List.length_eq_zero_iff.mp (by omega)
    have hsm := metaBytes_eq_nil _ hnil
    rw [if_neg h0, hnil, hsm]
    exact decodeBody_frame maxLen bodyCap ⟨h, [], [], 0⟩ body s _ hb (by omega)

theorem headerBytes_cons (h : Header) : headerBytes h
      = [0xf1, 0xf1, h.msgType, h.versionStatus, h.serialize] ++ beBytes 8 h.requestID.toNat := by
  have : beBytes 2 MotanMagic.toNat = [0xf1, 0xf1] := by decide
  simp [headerBytes, this]

theorem parseHeader_headerBytes (h : Header) : parseHeader (headerBytes h) = { h with magic := MotanMagic } := by
  have t5 : UInt64.ofNat (beVal (((headerBytes h).drop 5).take 8)) = h.requestID := by
    have h8 : ((headerBytes h).drop 5).take 8 = beBytes 8 h.requestID.toNat := by
      rw [headerBytes_cons]
      simp only [List.cons_append, List.nil_append, List.drop_succ_cons, List.drop_zero]
      exact List.take_of_length_le (by simp)
    rw [h8, beVal_beBytes h.requestID.toNat_lt]; simp
  rw [parseHeader, t5, headerBytes_cons]
  rfl

theorem magic_headerBytes (h : Header) : beVal ((headerBytes h).take 2) = MotanMagic.toNat := by
  rw [headerBytes_cons]
  show beVal [0xf1, 0xf1] = _
  decide

theorem decode_frame (maxLen bufCap bodyCap : Nat) (msg : Message) (s : Bytes)
    (hver : msg.header.getVersion = 1)
    (hm : (metaBytes msg.metadata).length ≤ maxLen) (hb : msg.body.length ≤ maxLen)
    (h32 : maxLen < 2 ^ 32) :
    ∃ al, decode maxLen bufCap bodyCap (frame msg ++ s)
      = ⟨.ok { header := { msg.header with magic := MotanMagic }, metadata := sentMeta msg.metadata,
               body := msg.body, type := 0 }, s, al⟩ := by
  rw [show frame msg ++ s = headerBytes msg.header ++ (beBytes 4 (metaBytes msg.metadata).length ++
    (metaBytes msg.metadata ++ (beBytes 4 msg.body.length ++ msg.body ++ s))) by simp [frame]]
  rw [decode, readAtLeast_append (n := HeaderLength) (length_headerBytes _)]
  have hver' : ({ msg.header with magic := MotanMagic } : Header).getVersion = Version2 := hver
  simp only [magic_headerBytes, parseHeader_headerBytes, hver', ne_eq, not_true_eq_false, if_false]
  exact decodeMeta_frame maxLen bufCap bodyCap _ _ _ _ hm hb h32

end Motan.Motan2
