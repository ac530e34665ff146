import Verif.Proof.Motan1Req

/-!
# C12–C14, C49: motan1 object streams and frames
-/

namespace Motan.Props

open Motan1
open Motan2 (Meta)
open Convert (Lib)
open Spec.Motan1 (blocks utf Arg frame)

/-! ## C12: blocks -/

/-- C12. Whatever the split over the arguments, the writer writes the content in blocks of 1024 bytes. -/
theorem block_writer_spec (bs : List Bytes) : writeBlock bs = blocks bs.flatten := writeBlock_eq bs

/-- C12. Reading the blocks back returns the content and stops exactly behind them: for contents that are no
multiple of 1024 whatever follows, for 1024 bytes if no other block follows, for all if nothing follows. -/
theorem block_roundtrip (bs : List Bytes) (rest : Bytes) (hne : bs.flatten ≠ [])
    (h : bs.flatten.length % 1024 ≠ 0 ∨ rest = [] ∨
      (bs.flatten.length = 1024 ∧ ∀ t ∈ rest.head?, t ≠ 0x77 ∧ t ≠ 0x7A)) :
    getBlock (writeBlock bs ++ rest) = .ok (bs.flatten, rest) := by
  rw [writeBlock_eq]
  refine getBlock_blocks _ _ hne ?_
  rcases h with h | h | ⟨h1, h2⟩
  · exact .inl h
  · exact .inr (.inl h)
  · cases rest with
    | nil => exact .inr (.inl rfl)
    | cons t r =>
      have := h2 t rfl
      exact .inr (.inr ⟨h1, t, r, rfl, not_or.mpr this⟩)

theorem appendBlockBytes_overrun (c acc : Bytes) (t : UInt8) (r : Bytes) (hm : c.length % 1024 = 0)
    (ht : ¬ (t = TC_BLOCKDATA ∨ t = TC_BLOCKDATALONG)) :
    c ≠ [] → appendBlockBytes acc (blocks c ++ t :: r) = .ok (acc ++ c, r) := by
  intro hc
  have hpos : 0 < c.length := List.length_pos_iff.mpr hc
  rw [blocks_cons hc, List.append_assoc, List.append_assoc]
  obtain ⟨t', r', h1, h2, _⟩ := blockLen_header (min c.length 1024) (by omega)
    (c.take 1024 ++ (blocks (c.drop 1024) ++ t :: r))
  rw [h1, appendBlockBytes.eq_def]
  simp only
  split
  · rename_i h; rw [h2] at h; simp at h
  · rename_i h; rw [h2] at h; simp at h
  · rename_i l s h
    rw [h2] at h
    simp only [Option.some.injEq, Except.ok.injEq, Prod.mk.injEq] at h
    obtain ⟨hl, hsr⟩ := h
    subst hl; subst hsr
    have hlen : (c.take 1024).length = min c.length 1024 := by simp [Nat.min_comm]
    rw [if_neg (by simp only [List.length_append]; omega), List.take_left' hlen, List.drop_left' hlen]
    rw [if_neg (by have : MAX_BLOCK_SIZE = 1024 := rfl; omega)]
    by_cases hd : c.drop 1024 = []
    · have hle : c.length ≤ 1024 := List.drop_eq_nil_iff.mp hd
      rw [hd, blocks_nil, List.nil_append, appendBlockBytes.eq_def, List.take_of_length_le hle]
      simp only
      rw [not_or] at ht
      have hn : blockLen t r = none := by
        rw [blockLen.eq_def, if_neg ht.1, if_neg ht.2]
      split
      · rfl
      · rename_i h; rw [hn] at h; simp at h
      · rename_i h; rw [hn] at h; simp at h
    · rw [appendBlockBytes_overrun (c.drop 1024) _ t r (by rw [List.length_drop]; omega) ht hd,
        List.append_assoc, List.take_append_drop]
termination_by c.length
decreasing_by simp only [List.length_drop]; omega

/-- C12, the exception: behind a content of 2048, 3072, ... bytes the reader swallows one byte of what follows
if that is no block. -/
theorem block_reader_overrun_violated (bs : List Bytes) (t : UInt8) (r : Bytes)
    (hm : bs.flatten.length % 1024 = 0) (h2 : 2048 ≤ bs.flatten.length) (ht : t ≠ 0x77 ∧ t ≠ 0x7A) :
    getBlock (writeBlock bs ++ t :: r) = .ok (bs.flatten, r) := by
  rw [writeBlock_eq]
  generalize bs.flatten = c at *
  have hc : c ≠ [] := by intro h; subst h; simp at h2
  rw [blocks_cons hc, List.append_assoc, List.append_assoc]
  obtain ⟨t', r', h1, hb, ht'⟩ := blockLen_header (min c.length 1024) (by omega)
    (c.take 1024 ++ (blocks (c.drop 1024) ++ t :: r))
  rw [h1, getBlock.eq_def]
  have hr : ¬ (t' :: r').length < 2 := by
    have := blockLen_le hb
    simp only [List.length_append, List.length_take, List.length_cons] at *; omega
  rw [if_neg hr]
  simp only [hb]
  have hlen : (c.take 1024).length = min c.length 1024 := by simp [Nat.min_comm]
  rw [if_neg (by simp only [List.length_append]; omega), List.take_left' hlen, List.drop_left' hlen]
  rw [if_pos (by have : MAX_BLOCK_SIZE = 1024 := rfl; omega)]
  have hd : c.drop 1024 ≠ [] := by
    intro h; have := List.drop_eq_nil_iff.mp h; omega
  obtain ⟨t2, r2, e, h3⟩ := blocks_head hd (t :: r)
  have key := appendBlockBytes_overrun (c.drop 1024) (c.take 1024) t r (by rw [List.length_drop]; omega)
    (not_or.mpr ht) hd
  rw [e] at key ⊢
  simp only [h3, if_true]
  rw [key, List.take_append_drop]

example : getBlock (writeBlock [[1, 2], [], [3]] ++ [0x70, 9]) = .ok ([1, 2, 3], [0x70, 9]) := by decide +kernel
example : (getBlock (writeBlock [List.replicate 700 7, List.replicate 700 8] ++ [0x70])).map Prod.snd = .ok [0x70] := by
  decide +kernel
example : (getBlock (writeBlock [List.replicate 2048 7] ++ [0x70, 5])).map Prod.snd = .ok [5] := by
  decide +kernel

/-! ## C13: frames -/

/-- C13. A stream yields a message exactly when it starts with a frame (both lengths and the inner magic right)
that lies within the limit; the message has the fields of the frame and exactly the frame is consumed. -/
theorem frame_accepted_iff (max : Nat) (s rest : Bytes) (m : Msg) :
    readV1Message max s = (.ok m, rest) ↔
      ∃ pre r1 body, pre.length = 4 ∧ r1 < 2 ^ 64 ∧ body.length + 16 < 2 ^ 32 ∧ body.length + 16 ≤ max ∧
        m.origin = frame pre r1 m.rid.toNat m.innerVersion m.flag body ∧ m.innerLength = body.length ∧
        s = m.origin ++ rest := by
  constructor
  · exact readV1Message_sound
  · rintro ⟨pre, r1, body, hp, h1, hb, hmax, ho, hl, hs⟩
    rw [hs, ho, readV1Message_frame max pre r1 m.rid.toNat m.innerVersion m.flag body rest hp m.rid.toNat_lt hb hmax,
      ← ho, UInt64.ofNat_toNat, ← hl]

/-- C13. A stream that cannot be read loses at most what it announced: the bytes left are a suffix. -/
theorem frame_reader_contained (max : Nat) (s : Bytes) : ∃ p, s = p ++ (readV1Message max s).2 := by
  rw [readV1Message]
  split
  · exact ⟨[], rfl⟩
  · simp only
    split
    · exact ⟨[], rfl⟩
    · rw [Motan2.readAtLeast]
      split
      · rename_i h
        split at h
        · simp at h
        · split at h <;> simp at h <;> exact ⟨s, by simp [h.2]⟩
      · rename_i h
        split at h
        · simp at h
          obtain ⟨_, h2⟩ := h
          split
          · exact ⟨_, by rw [← h2]; exact (List.take_append_drop _ s).symm⟩
          · split
            · exact ⟨_, by rw [← h2]; exact (List.take_append_drop _ s).symm⟩
            · exact ⟨_, by rw [← h2]; exact (List.take_append_drop _ s).symm⟩
        · split at h <;> simp at h

theorem encodeAttachment_spec (att : Meta) (v : UInt8) (hf : ∀ p ∈ att, Fits p) (hc : CountFits v att.length) :
    encodeAttachment att v = Spec.Motan1.attachments v att := by
  rw [encodeAttachment, Spec.Motan1.attachments]
  rw [CountFits] at hc
  have e : (att.map fun p => writeUtfStr p.1 ++ writeUtfStr p.2) = att.map fun p => utf p.1 ++ utf p.2 := by
    apply List.map_congr_left
    intro p hp
    obtain ⟨h1, h2⟩ := hf p hp
    rw [writeUtfStr_eq _ (by omega), writeUtfStr_eq _ (by omega)]
  rw [e]
  by_cases hv : v = versionV1Compress
  · have hv2 : v = 2 := hv
    rw [if_pos hv, if_pos hv2]
    rw [if_pos hv] at hc
    rw [UInt16.toNat_ofNat', Nat.mod_eq_of_lt (by omega)]
  · have hv2 : ¬ v = 2 := hv
    rw [if_neg hv, if_neg hv2]
    rw [if_neg hv] at hc
    rw [UInt32.toNat_ofNat', Nat.mod_eq_of_lt (by omega)]

/-- The limits of the string and map fields of the format: signed 16 bit string lengths, signed 16 bit
(compressed version) or 32 bit number of pairs. -/
def AttFits (version : UInt8) (att : Meta) : Prop :=
  (∀ p ∈ att, p.1.length < 32768 ∧ p.2.length < 32768) ∧ (if version = 2 then att.length < 32768 else att.length < 2 ^ 32)

/-- A message as read from a frame with the given body. -/
def IsFrameOf (m : Msg) (body : Bytes) : Prop :=
  ∃ pre r1, pre.length = 4 ∧ m.origin = frame pre r1 m.rid.toNat m.innerVersion m.flag body

theorem drop32 {m : Msg} {body : Bytes} (h : IsFrameOf m body) : m.origin.drop 32 = body ∧ m.origin.length = 32 + body.length := by
  obtain ⟨pre, r1, hp, e⟩ := h
  refine ⟨?_, by rw [e]; exact frame_length _ _ _ _ _ _ hp⟩
  rw [e, frame]
  exact List.drop_left' (by simp [hp])

theorem newObjectStream_plain (lib : Lib) (m : Msg) (body : Bytes) (h : IsFrameOf m (osHead ++ body)) :
    newObjectStream lib m = .ok (osHead ++ body, false) := by
  obtain ⟨hd, _⟩ := drop32 h
  rw [newObjectStream, hd, if_neg, show V1AllHeaderLength = 32 from rfl, hd]
  rintro ⟨_, _, h2⟩
  revert h2
  show ¬ beVal [0xac, 0xed] = GZIP_MAGIC
  decide

/-- C13. A frame with the body of a request, as the format prescribes it, decodes to exactly its service, method,
description, arguments and attachments. -/
theorem request_wire_decodes (lib : Lib) (m : Msg) (service method desc : Bytes) (args : List Bytes) (att : Meta)
    (hm : IsFrameOf m (Spec.Motan1.request m.innerVersion service method desc args att))
    (hs : service.length < 32768) (hme : method.length < 32768) (hd : desc.length < 32768) (h1 : service ≠ b!"1")
    (ha : ∀ a ∈ args, Arg a) (hatt : AttFits m.innerVersion att) (hn : att.NodupKeys)
    (hb : args = [] ∨ (service.length + method.length + desc.length + 6) % 1024 ≠ 0 ∨
      service.length + method.length + desc.length + 6 = 1024) :
    ∃ st, decodeRequest lib m = .ok st ∧ st.service = service ∧ st.method = method ∧ st.desc = desc ∧
      st.argSize = args.length ∧ st.argBytes = args.flatten ∧ ∀ k, st.attachment.load k = att.load k := by
  have hf : ∀ p ∈ att, Fits p := hatt.1
  have hc : CountFits m.innerVersion att.length := hatt.2
  have hinfo : ∀ z, readInfos (utf service ++ utf method ++ utf desc ++ z) = .ok (service, method, desc, z) := by
    intro z
    rw [List.append_assoc, List.append_assoc, readInfos, readUtf_utf _ hs]
    simp only [h1, if_false]
    rw [readUtf_utf _ hme]
    simp only
    rw [readUtf_utf _ hd]
  have hload : ∀ k, (AMap.storeAll ([] : Meta) att).load k = att.load k := by
    intro k
    rw [AMap.load_storeAll _ _ hn]
    cases att.load k <;> rfl
  rw [Spec.Motan1.request] at hm
  rw [← encodeAttachment_spec att _ hf hc] at hm
  by_cases hargs : args = []
  · subst hargs
    simp only [if_true] at hm
    have key := parseReq_noargs _ _ _ _ hinfo att m.innerVersion false hf hc
    refine ⟨_, (?_ : decodeRequest lib m = _).trans key, rfl, rfl, rfl, rfl, rfl, hload⟩
    rw [decodeRequest, newObjectStream_plain lib m _ hm]
  · simp only [hargs, if_false] at hm
    have hlen : (utf service ++ utf method ++ utf desc).length = service.length + method.length + desc.length + 6 := by
      simp only [utf, List.length_append, length_beBytes]; omega
    have hi := hinfo []
    rw [List.append_nil] at hi
    rw [List.append_assoc (blocks _)] at hm
    have key := parseReq_args _ _ _ _ hi args ha
      (by rw [hlen]; rcases hb with hb | hb | hb
          · exact absurd hb hargs
          · exact .inl hb
          · exact .inr ⟨hb, hargs⟩) att m.innerVersion false hf hc
    refine ⟨_, (?_ : decodeRequest lib m = _).trans key, rfl, rfl, rfl, rfl, rfl, hload⟩
    rw [decodeRequest, newObjectStream_plain lib m _ hm]

/-- C13. Re-encoding a decoded request with any (fitting) attachments and any id gives a frame that is accepted
again, has the id in both headers and the same version and flag, and decodes to the same service, method,
description and argument bytes and to the given attachments.

The two hypotheses on `st` exclude the cases exhibited below: a request without arguments whose attachments come
in a block of their own, and names that fill two or more blocks exactly. -/
theorem reencode_faithful (lib : Lib) (max : Nat) (s r : Bytes) (m : Msg) (st : ReqStream) (att : Meta) (rid : UInt64)
    (rest : Bytes) (hread : readV1Message max s = (.ok m, r)) (hdec : decodeRequest lib m = .ok st)
    (hatt : AttFits m.innerVersion att) (hn : att.NodupKeys)
    (h0 : st.argSize = 0 → 0 < st.attachmentPos)
    (hb : 0 < st.argSize → st.sBlock.length % 1024 ≠ 0 ∨ st.sBlock.length = 1024)
    (h32 : (encodeMotanV1 m st att rid).length < 2 ^ 32) (hmax : (encodeMotanV1 m st att rid).length ≤ max + 16) :
    ∃ m' st', readV1Message max (encodeMotanV1 m st att rid ++ rest) = (.ok m', rest) ∧
      m'.origin = encodeMotanV1 m st att rid ∧ m'.rid = rid ∧
      ((encodeMotanV1 m st att rid).drop 4).take 8 = beBytes 8 rid.toNat ∧
      ((encodeMotanV1 m st att rid).drop 20).take 8 = beBytes 8 rid.toNat ∧
      m'.innerVersion = m.innerVersion ∧ m'.flag = m.flag ∧
      decodeRequest lib m' = .ok st' ∧ st'.service = st.service ∧ st'.method = st.method ∧ st'.desc = st.desc ∧
      st'.argSize = st.argSize ∧ st'.argBytes = st.argBytes ∧ ∀ k, st'.attachment.load k = att.load k := by
  have hf : ∀ p ∈ att, Fits p := hatt.1
  have hc : CountFits m.innerVersion att.length := hatt.2
  have hload : ∀ k, (AMap.storeAll ([] : Meta) att).load k = att.load k := by
    intro k
    rw [AMap.load_storeAll _ _ hn]
    cases att.load k <;> rfl
  -- the original frame
  obtain ⟨pre, r1, body0, hp, hr1, hb32, hbm, ho, _, _⟩ := readV1Message_sound hread
  have holen : m.origin.length = 32 + body0.length := by rw [ho]; exact frame_length _ _ _ _ _ _ hp
  -- what the decoder found
  have hst : ∃ stream z, parseReq stream m.innerVersion z = .ok st := by
    rw [decodeRequest] at hdec
    split at hdec
    · simp at hdec
    · exact ⟨_, _, hdec⟩
  obtain ⟨stream, z, hparse⟩ := hst
  obtain ⟨h4, hbytes, hver, hcase⟩ := parseReq_sound hparse
  -- the head
  let hd := m.origin.take 32
  have hhd : hd.length = 32 := by show (m.origin.take 32).length = 32; rw [List.length_take]; omega
  have hdf : hd = pre ++ beBytes 8 r1 ++ beBytes 4 (body0.length + 16) ++
      [0xf0, 0xf0, m.innerVersion, m.flag] ++ beBytes 8 m.rid.toNat ++ beBytes 4 body0.length := by
    show m.origin.take 32 = _
    rw [ho, frame]
    exact List.take_left' (by simp [hp])
  have hmg : beVal ((hd.drop 16).take 2) = InnerMotanMagic := by
    have : hd = (pre ++ beBytes 8 r1 ++ beBytes 4 (body0.length + 16)) ++ ([0xf0, 0xf0] ++ ([m.innerVersion, m.flag] ++
      beBytes 8 m.rid.toNat ++ beBytes 4 body0.length)) := by rw [hdf]; simp
    rw [this, List.drop_left' (by simp [hp]), List.take_left' (by simp)]; decide
  have d18 : hd = (pre ++ beBytes 8 r1 ++ beBytes 4 (body0.length + 16) ++ [0xf0, 0xf0]) ++
      (m.innerVersion :: m.flag :: (beBytes 8 m.rid.toNat ++ beBytes 4 body0.length)) := by rw [hdf]; simp
  have v18 : hd.getD 18 0 = m.innerVersion := by
    rw [d18, List.getD_eq_getElem?_getD, List.getElem?_append_right (by simp [hp])]; simp [hp]
  have v19 : hd.getD 19 0 = m.flag := by
    rw [d18, List.getD_eq_getElem?_getD, List.getElem?_append_right (by simp [hp])]; simp [hp]
  have t4 : (hd.take 4).length = 4 := by rw [List.length_take]; omega
  -- the new body and what it parses to
  have hnew : ∃ body st', 
      encodeMotanV1 m st att rid = writeV1InnerLength (writeV1Rid (hd ++ (osHead ++ body)) rid)
        (UInt32.ofNat ((hd ++ (osHead ++ body)).length - V1AllHeaderLength)) ∧
      parseReq (osHead ++ body) m.innerVersion false = .ok st' ∧ st'.service = st.service ∧
      st'.method = st.method ∧ st'.desc = st.desc ∧ st'.argSize = st.argSize ∧ st'.argBytes = st.argBytes ∧
      ∀ k, st'.attachment.load k = att.load k := by
    have hb4 : st.bytes.take 4 = osHead := by rw [hbytes, h4]
    rcases hcase with ⟨hpos, hinfo, args, ha, hsz, hab⟩ | ⟨hpos, hsz, hab, hinfo⟩
    · have hargs : st.argSize ≠ 0 := by
        intro hz; have := h0 hz; omega
      have hne : args ≠ [] := by
        intro hz; subst hz; exact hargs hsz
      have key := parseReq_args st.sBlock st.service st.method st.desc hinfo args ha
        ((hb (by omega)).imp_right fun h => ⟨h, hne⟩) att m.innerVersion false hf hc
      refine ⟨blocks st.sBlock ++ (args.flatten ++ blocks (encodeAttachment att m.innerVersion)), _, ?_, key, rfl, rfl,
        rfl, hsz.symm, hab.symm, hload⟩
      rw [encodeMotanV1]
      simp only [hargs, if_false, writeBlock_eq, hb4, List.flatten_cons, List.flatten_nil, List.append_nil, hab]
      have e : m.origin.take V1AllHeaderLength ++ osHead ++
          (blocks st.sBlock ++ args.flatten ++ blocks (encodeAttachment att m.innerVersion)) =
          hd ++ (osHead ++ (blocks st.sBlock ++ (args.flatten ++ blocks (encodeAttachment att m.innerVersion)))) := by
        show hd ++ osHead ++ _ = _
        simp only [List.append_assoc]
      rw [e]
    · have key := parseReq_noargs (st.sBlock.take st.attachmentPos) st.service st.method st.desc hinfo att m.innerVersion
        false hf hc
      refine ⟨blocks (st.sBlock.take st.attachmentPos ++ encodeAttachment att m.innerVersion), _, ?_, key, rfl, rfl, rfl,
        hsz.symm, hab.symm, hload⟩
      rw [encodeMotanV1]
      simp only [hsz, if_true, writeBlock_eq, hb4, List.flatten_cons, List.flatten_nil, List.append_nil]
      have e : m.origin.take V1AllHeaderLength ++ osHead ++
          blocks (st.sBlock.take st.attachmentPos ++ encodeAttachment att m.innerVersion) =
          hd ++ (osHead ++ blocks (st.sBlock.take st.attachmentPos ++ encodeAttachment att m.innerVersion)) := by
        show hd ++ osHead ++ _ = _
        simp only [List.append_assoc]
      rw [e]
  obtain ⟨body, st', henc, hps, g1, g2, g3, g4, g5, g6⟩ := hnew
  -- its length
  have hlen : (encodeMotanV1 m st att rid).length = 32 + (osHead ++ body).length := by
    rw [henc, writeV1InnerLength, writeV1Rid]
    have hL : (hd ++ (osHead ++ body)).length = 32 + (osHead ++ body).length := by
      rw [List.length_append, hhd]
    have hge : (hd ++ (osHead ++ body)).length ≥ V1AllHeaderLength := by
      rw [hL]; show 32 + _ ≥ 32; omega
    have hc20 : (copyAt (copyAt (hd ++ (osHead ++ body)) 4 (beBytes 8 rid.toNat)) 20 (beBytes 8 rid.toNat)).length =
        32 + (osHead ++ body).length := by
      rw [length_copyAt _ _ _ (by rw [length_copyAt _ _ _ (by omega)]; omega), length_copyAt _ _ _ (by omega), hL]
    rw [if_pos hge]
    rw [if_pos (by rw [hc20]; show 32 + _ ≥ 32; omega)]
    rw [length_copyAt _ _ _ (by rw [length_copyAt _ _ _ (by omega)]; omega), length_copyAt _ _ _ (by omega), hc20]
  have hframe := patch_frame hd (osHead ++ body) hhd hmg (by omega) rid
  rw [← henc, v18, v19] at hframe
  have hrd := readV1Message_frame max (hd.take 4) rid.toNat rid.toNat m.innerVersion m.flag (osHead ++ body) rest t4
    rid.toNat_lt (by omega) (by omega)
  rw [← hframe] at hrd
  refine ⟨_, st', hrd, rfl, ?_, ?_, ?_, rfl, rfl, ?_, g1, g2, g3, g4, g5, g6⟩
  · simp
  · rw [hframe, frame]
    simp only [List.append_assoc]
    rw [List.drop_left' t4, List.take_left' (by simp)]
  · rw [hframe, frame]
    have e : hd.take 4 ++ beBytes 8 rid.toNat ++ beBytes 4 ((osHead ++ body).length + 16) ++
        [0xf0, 0xf0, m.innerVersion, m.flag] ++ beBytes 8 rid.toNat ++ beBytes 4 (osHead ++ body).length ++ (osHead ++ body) =
        (hd.take 4 ++ beBytes 8 rid.toNat ++ beBytes 4 ((osHead ++ body).length + 16) ++
        [0xf0, 0xf0, m.innerVersion, m.flag]) ++ (beBytes 8 rid.toNat ++ (beBytes 4 (osHead ++ body).length ++ (osHead ++ body))) := by
      simp only [List.append_assoc]
    rw [e, List.drop_left' (by simp [t4]), List.take_left' (by simp)]
  · rw [decodeRequest, newObjectStream_plain lib _ body ⟨hd.take 4, rid.toNat, t4, ?_⟩]
    · exact hps
    · rw [hframe]; simp

/-! ### Concrete cases and exceptions -/

/-- gzip is not used by the concrete cases. -/
def noLib : Lib := ⟨fun _ => none, fun _ => none, fun _ => [], fun _ => none⟩

/-- A request with two arguments (a byte array with class descriptor and `null`) and one attachment. -/
def v1SampleArgs : List Bytes :=
  [0x75 :: 0x72 :: [0, 2, 91, 66, 172, 243, 23, 248, 6, 8, 84, 224, 2, 0, 0, 120, 112] ++ [0, 0, 0, 3] ++ [7, 8, 9],
   [0x70]]

def v1SampleBody (args : List Bytes) : Bytes :=
  Spec.Motan1.request 1 b!"com.Svc" b!"hello" b!"java.lang.String" args [(b!"k", b!"v")]

def v1SampleFrame (args : List Bytes) : Bytes := frame [0xf1, 0xf1, 0, 0] 77 77 1 0 (v1SampleBody args)

def v1SampleMsg (args : List Bytes) : Msg := ⟨v1SampleFrame args, 1, 0, 77, (v1SampleBody args).length⟩

example : readV1Message 1000 (v1SampleFrame v1SampleArgs ++ [1, 2, 3]) = (.ok (v1SampleMsg v1SampleArgs), [1, 2, 3]) := by
  decide +kernel

/-- The hypotheses of `request_wire_decodes` hold of the sample, with and without arguments. -/
example : (∀ a ∈ v1SampleArgs, Arg a) ∧ AttFits 1 [(b!"k", b!"v")] ∧
    IsFrameOf (v1SampleMsg v1SampleArgs) (v1SampleBody v1SampleArgs) ∧ IsFrameOf (v1SampleMsg []) (v1SampleBody []) := by
  refine ⟨?_, ?_, ⟨[0xf1, 0xf1, 0, 0], 77, rfl, rfl⟩, ⟨[0xf1, 0xf1, 0, 0], 77, rfl, rfl⟩⟩
  · intro a ha
    rcases List.mem_cons.mp ha with rfl | ha
    · exact .desc _ [7, 8, 9] rfl (by decide)
    · rcases List.mem_cons.mp ha with rfl | ha
      · exact .null
      · simp at ha
  · unfold AttFits; decide

theorem ok_of_check {α : Type} {x : Except Err α} {p : α → Bool}
    (h : (match x with | .ok a => p a | .error _ => false) = true) : ∃ a, x = .ok a ∧ p a = true := by
  cases x with
  | error e => simp at h
  | ok a => exact ⟨a, rfl, h⟩

/-- The hypotheses of `reencode_faithful` hold of the sample, with and without arguments, for new attachments. -/
example : ∃ st, decodeRequest noLib (v1SampleMsg v1SampleArgs) = .ok st ∧ decide (st.argSize = 2 ∧ st.sBlock.length = 34 ∧
    (encodeMotanV1 (v1SampleMsg v1SampleArgs) st [(b!"a", b!"1"), (b!"b", b!"2")] 99).length = 117) = true :=
  ok_of_check (by decide +kernel)

example : ∃ st, decodeRequest noLib (v1SampleMsg []) = .ok st ∧ decide (st.argSize = 0 ∧ st.attachmentPos = 34) = true :=
  ok_of_check (by decide +kernel)

/-- C13, an exception: a request without arguments whose attachments come in a block of their own is decoded, but
its re-encoding has lost the service and cannot be decoded. -/
theorem reencode_separate_block_counterexample :
    ∃ (m : Msg) (st : ReqStream), readV1Message 1000 m.origin = (.ok m, []) ∧ decodeRequest noLib m = .ok st ∧
      st.service = b!"com.Svc" ∧ st.argSize = 0 ∧
      ∃ m', readV1Message 1000 (encodeMotanV1 m st [(b!"k", b!"v")] 5) = (.ok m', []) ∧
        decodeRequest noLib m' = .error .eof := by
  let body := osHead ++ blocks (utf b!"com.Svc" ++ utf b!"hello" ++ utf []) ++ blocks (Spec.Motan1.attachments 1 [(b!"k", b!"v")])
  let m : Msg := ⟨frame [0xf1, 0xf1, 0, 0] 77 77 1 0 body, 1, 0, 77, body.length⟩
  have h1 : readV1Message 1000 m.origin = (.ok m, []) := by decide +kernel
  obtain ⟨st, h2, h3⟩ : ∃ st, decodeRequest noLib m = .ok st ∧ (st.service == b!"com.Svc" && st.argSize == 0 &&
      (match readV1Message 1000 (encodeMotanV1 m st [(b!"k", b!"v")] 5) with
        | (.ok m', r) => r == [] && decide (decodeRequest noLib m' = .error .eof)
        | _ => false)) = true := ok_of_check (by decide +kernel)
  simp only [Bool.and_eq_true, beq_iff_eq] at h3
  obtain ⟨⟨h3, h4⟩, h5⟩ := h3
  refine ⟨m, st, h1, h2, h3, h4, ?_⟩
  split at h5
  · rename_i m' r hr
    simp only [Bool.and_eq_true, beq_iff_eq, decide_eq_true_eq] at h5
    exact ⟨m', by rw [hr, h5.1], h5.2⟩
  · simp at h5

theorem parseArgs_two_nulls (r : Bytes) (t : UInt8) (a r' : Bytes) (ht : t = TC_BLOCKDATA ∨ t = TC_BLOCKDATALONG)
    (hb : getBlock (t :: r) = .ok (a, r')) : parseArgs 0 (0x70 :: t :: r) = .ok (1, t :: r, a) :=
  parseArgs_of_args [[0x70]] (by intro a ha; simp at ha; subst ha; exact .null) 0 t r ht a r' hb

/-- C13, an exception: when the names fill 2048 bytes exactly, the first argument is lost. The witness has a
service name of 2042 bytes and two `null` arguments, and is decoded as a call with one argument. -/
theorem request_block_boundary_counterexample :
    ∃ (m : Msg) (st : ReqStream) (service : Bytes), service.length = 2042 ∧
      IsFrameOf m (Spec.Motan1.request m.innerVersion service [] [] [[0x70], [0x70]] []) ∧
      decodeRequest noLib m = .ok st ∧ st.service = service ∧ st.argSize = 1 := by
  let service : Bytes := List.replicate 2042 97
  let body := Spec.Motan1.request 1 service [] [] [[0x70], [0x70]] []
  let m : Msg := ⟨frame [0xf1, 0xf1, 0, 0] 77 77 1 0 body, 1, 0, 77, body.length⟩
  have hf : IsFrameOf m body := ⟨[0xf1, 0xf1, 0, 0], 77, rfl, rfl⟩
  have hsl : service.length = 2042 := List.length_replicate
  let names := utf service ++ utf [] ++ utf []
  have hnl : names.length = 2048 := by
    show (utf service ++ utf [] ++ utf []).length = 2048
    simp only [utf, List.length_append, length_beBytes, hsl, List.length_nil]
  have hb : body = osHead ++ (blocks names ++ (0x70 :: (0x70 :: blocks (encodeAttachment [] 1)))) := by
    show osHead ++ (blocks names ++ [[0x70], [0x70]].flatten ++ blocks (encodeAttachment [] 1)) = _
    simp
  have hinfo : readInfos names = .ok (service, [], [], []) := by
    have h1 : service ≠ b!"1" := by intro h; rw [h] at hsl; simp at hsl
    show readInfos (utf service ++ utf [] ++ utf []) = _
    rw [List.append_assoc, readInfos, readUtf_utf _ (by omega)]
    simp only [h1, if_false]
    rw [readUtf_utf _ (by simp)]
    simp only
    have := readUtf_utf [] (by simp) []
    rw [List.append_nil] at this
    rw [this]
  have hg := block_reader_overrun_violated [names] 0x70 (0x70 :: blocks (encodeAttachment [] 1))
    (by simp only [List.flatten_cons, List.flatten_nil, List.append_nil, hnl])
    (by simp only [List.flatten_cons, List.flatten_nil, List.append_nil, hnl]; omega) (by decide)
  rw [writeBlock_eq] at hg
  simp only [List.flatten_cons, List.flatten_nil, List.append_nil] at hg
  have hne := encodeAttachment_ne_nil [] 1
  obtain ⟨t, r, hbk, ht⟩ := blocks_head hne []
  rw [List.append_nil] at hbk
  have hatt := getBlock_blocks (encodeAttachment [] 1) [] hne (.inr (.inl rfl))
  rw [List.append_nil, hbk] at hatt
  have hpa := parseArgs_two_nulls r t _ _ ht hatt
  have hra := readAttachments_encode [] 1 (by simp) (by unfold CountFits; decide)
  have hpr : ∃ st, parseReq body 1 false = .ok st ∧ st.service = service ∧ st.argSize = 1 := by
    rw [parseReq, hb, checkObjectStream_head, hg]
    simp only [hinfo, List.length_nil, if_true]
    rw [hbk, hpa]
    simp only
    rw [hra]
    exact ⟨_, rfl, rfl, rfl⟩
  obtain ⟨st, h1, h2, h3⟩ := hpr
  refine ⟨m, st, service, hsl, hf, ?_, h2, h3⟩
  have hno := newObjectStream_plain noLib m _ (by rw [hb] at hf; exact hf)
  rw [decodeRequest, hno]
  simp only
  rw [← hb]
  exact h1

/-- C13, an exception: strings of 32768 bytes or more are written with an unsigned length but read with a signed
one: the reader returns the empty string and leaves the text where the next field is expected. -/
theorem long_string_violated (s z : Bytes) (h1 : 32768 ≤ s.length) (h2 : s.length < 65536) :
    readUtf (writeUtfStr s ++ z) = .ok ([], s ++ z) := by
  rw [writeUtfStr_eq _ h2, utf, List.append_assoc, readUtf, readInt16, if_neg (by simp), List.take_left' (by simp),
    List.drop_left' (by simp), beVal_beBytes (by omega)]
  simp only
  rw [if_neg (by rw [if_neg (by omega)]; omega)]

/-! ## C14: built-in answers -/

theorem frame_of_base (pre x x2 body : Bytes) (v f : UInt8) (rid : UInt64) (hp : pre.length = 4) (hx : x.length = 8)
    (hx2 : x2.length = 8) :
    writeV1Rid (pre ++ x ++ beBytes 4 (body.length + 16) ++ [0xf0, 0xf0, v, f] ++ x2 ++ beBytes 4 body.length ++ body) rid =
      frame pre rid.toNat rid.toNat v f body := by
  have e : pre ++ x ++ beBytes 4 (body.length + 16) ++ [0xf0, 0xf0, v, f] ++ x2 ++ beBytes 4 body.length ++ body =
      pre ++ x ++ (beBytes 4 (body.length + 16) ++ [0xf0, 0xf0, v, f]) ++ x2 ++ (beBytes 4 body.length ++ body) := by simp
  rw [e, writeV1Rid_shape _ _ _ _ _ hp hx (by simp) hx2 (by simp), frame]
  simp

theorem baseReq_split : baseV1HeartbeatReq = [241, 241, 0, 0] ++ [24, 44, 223, 176, 126, 80, 0, 96] ++ beBytes 4 ((baseV1HeartbeatReq.drop 32).length + 16) ++
    [0xf0, 0xf0, 1, 0] ++ [24, 44, 223, 176, 126, 80, 0, 96] ++ beBytes 4 (baseV1HeartbeatReq.drop 32).length ++ baseV1HeartbeatReq.drop 32 := by
  decide +kernel

theorem baseRes_split : baseV1HeartbeatRes = [241, 241, 0, 1] ++ [24, 44, 226, 160, 201, 25, 2, 108] ++ beBytes 4 ((baseV1HeartbeatRes.drop 32).length + 16) ++
    [0xf0, 0xf0, 1, 1] ++ [24, 44, 226, 160, 201, 25, 2, 108] ++ beBytes 4 (baseV1HeartbeatRes.drop 32).length ++ baseV1HeartbeatRes.drop 32 := by
  decide +kernel

/-- C14. For every id the heartbeat request is one frame with the id in both headers; read from any stream it is
recognised as a heartbeat. -/
theorem heartbeat_request_wellformed (lib : Lib) (rid : UInt64) (max : Nat) (hmax : 78 ≤ max) (rest : Bytes) :
    ∃ m st, readV1Message max (buildHeartbeatReq rid ++ rest) = (.ok m, rest) ∧ m.rid = rid ∧
      (∃ body, m.origin = frame [0xf1, 0xf1, 0, 0] rid.toNat rid.toNat 1 0 body) ∧
      decodeRequest lib m = .ok st ∧ st.service = b!"com.weibo.api.motan.rpc.heartbeat" ∧ st.method = b!"heartbeat" := by
  let body := baseV1HeartbeatReq.drop 32
  have hb : buildHeartbeatReq rid = frame [241, 241, 0, 0] rid.toNat rid.toNat 1 0 body := by
    rw [buildHeartbeatReq, baseReq_split]
    exact frame_of_base _ _ _ _ _ _ rid rfl rfl rfl
  have hrd := readV1Message_frame max [241, 241, 0, 0] rid.toNat rid.toNat 1 0 body rest rfl rid.toNat_lt (by decide)
    (by show 62 + 16 ≤ max; omega)
  rw [← hb] at hrd
  have hbody : body = osHead ++ body.drop 4 := by decide
  have hp : ∃ st, parseReq body 1 false = .ok st ∧
      decide (st.service = b!"com.weibo.api.motan.rpc.heartbeat" ∧ st.method = b!"heartbeat") = true :=
    ok_of_check (by decide +kernel)
  obtain ⟨st, h1, h2⟩ := hp
  refine ⟨_, st, hrd, by simp, ⟨body, hb⟩, ?_, of_decide_eq_true h2⟩
  rw [decodeRequest, newObjectStream_plain lib _ (body.drop 4) ⟨[241, 241, 0, 0], rid.toNat, rfl, ?_⟩]
  · rw [← hbody]; exact h1
  · rw [← hbody, hb]; simp

/-- C14. The heartbeat response likewise: one frame, decoded as a response with the id and the heartbeat value. -/
theorem heartbeat_response_wellformed (lib : Lib) (rid : UInt64) (max : Nat) (hmax : 81 ≤ max) (rest : Bytes) :
    ∃ m r, readV1Message max (buildHeartbeatRes rid ++ rest) = (.ok m, rest) ∧ m.rid = rid ∧
      (∃ body, m.origin = frame [0xf1, 0xf1, 0, 1] rid.toNat rid.toNat 1 1 body) ∧
      decodeResponse lib m = .ok r ∧ r.id = rid ∧ r.heartbeat = true ∧ r.exception = none := by
  let body := baseV1HeartbeatRes.drop 32
  have hb : buildHeartbeatRes rid = frame [241, 241, 0, 1] rid.toNat rid.toNat 1 1 body := by
    rw [buildHeartbeatRes, baseRes_split]
    exact frame_of_base _ _ _ _ _ _ rid rfl rfl rfl
  have hrd := readV1Message_frame max [241, 241, 0, 1] rid.toNat rid.toNat 1 1 body rest rfl rid.toNat_lt (by decide)
    (by show 65 + 16 ≤ max; omega)
  rw [← hb] at hrd
  have hbody : body = osHead ++ body.drop 4 := by decide
  have hp : parseRes body 1 = .ok ⟨0, false, b!"java.lang.String", true⟩ := by decide +kernel
  have hd : ∀ m : Msg, IsFrameOf m body → m.flag = 1 → decodeResponse lib m = .ok ⟨m.rid, 0, none, true⟩ := by
    intro m hm hf
    rw [decodeResponse, newObjectStream_plain lib m (body.drop 4) (by rw [← hbody]; exact hm), ← hbody]
    simp only [hf, hp]
    rfl
  exact ⟨_, _, hrd, by simp, ⟨body, hb⟩, hd _ ⟨[241, 241, 0, 1], rid.toNat, rfl, by rw [hb]; simp⟩ rfl, by simp, rfl, rfl⟩

/-- The class name of the exception that the answer announces. -/
def exceptionClass : Bytes := b!"com.weibo.api.motan.exception.MotanServiceException"

theorem base_split : baseV1ResObjectStream = osHead ++ (blocks (beBytes 8 2 ++ utf exceptionClass) ++
    [117, 114, 0, 2, 91, 66, 172, 243, 23, 248, 6, 8, 84, 224, 2, 0, 0, 120, 112]) := by decide +kernel

theorem buildExceptionResponse_frame (rid : UInt64) (msg : Bytes) (hne : msg ≠ [])
    (hlen : (buildExceptionResponse rid msg).length < 2 ^ 32) :
    buildExceptionResponse rid msg = frame [241, 241, 0, 1] rid.toNat rid.toNat 1 5
      (baseV1ResObjectStream ++ beBytes 4 (exceptionObject msg).length ++ exceptionObject msg) := by
  rw [buildExceptionResponse, if_pos hne] at hlen ⊢
  simp only at hlen ⊢
  generalize exceptionObject msg = obj at *
  have hw : writeV1Rid baseV1ExceptionRes rid =
      [241, 241, 0, 1] ++ beBytes 8 rid.toNat ++ [0, 0, 1, 70, 240, 240, 1, 5] ++ beBytes 8 rid.toNat ++ [0, 0, 1, 54] := by
    rw [← writeV1Rid_shape [241, 241, 0, 1] [24, 46, 120, 216, 224, 128, 0, 1] [0, 0, 1, 70, 240, 240, 1, 5]
      [24, 46, 120, 216, 224, 128, 0, 1] [0, 0, 1, 54] rfl rfl rfl rfl (by decide)]
    rfl
  have hwl : (writeV1Rid baseV1ExceptionRes rid).length = 32 := by rw [hw]; simp
  have hbl : baseV1ResObjectStream.length = 86 := by decide
  generalize hhead : writeV1Rid baseV1ExceptionRes rid ++ baseV1ResObjectStream = head at hlen ⊢
  have hhl : head.length = 118 := by rw [← hhead, List.length_append, hwl, hbl]
  have hal : (head ++ [0, 0, 0, 0] ++ obj).length = 122 + obj.length := by
    simp only [List.length_append, hhl, List.length_cons, List.length_nil]
  rw [hal] at hlen ⊢
  rw [length_copyAt _ _ _ (by rw [length_copyAt _ _ _ (by rw [length_copyAt _ _ _ (by rw [hal]; omega), hal]; omega),
      length_copyAt _ _ _ (by rw [hal]; omega), hal]; omega),
    length_copyAt _ _ _ (by rw [length_copyAt _ _ _ (by rw [hal]; omega), hal]; omega),
    length_copyAt _ _ _ (by rw [hal]; omega), hal] at hlen
  have n1 : (UInt32.ofNat (122 + obj.length - head.length - 4)).toNat = obj.length := by
    rw [UInt32.toNat_ofNat', hhl, Nat.mod_eq_of_lt (by omega)]; omega
  have n2 : (UInt32.ofNat (122 + obj.length - 32)).toNat = 90 + obj.length := by
    rw [UInt32.toNat_ofNat', Nat.mod_eq_of_lt (by omega)]; omega
  have n3 : (UInt32.ofNat (122 + obj.length - 16)).toNat = 106 + obj.length := by
    rw [UInt32.toNat_ofNat', Nat.mod_eq_of_lt (by omega)]; omega
  rw [n1, n2, n3, copyAt_mid head [0, 0, 0, 0] obj _ (by simp) rfl, ← hhead, hw]
  have e1 : [241, 241, 0, 1] ++ beBytes 8 rid.toNat ++ [0, 0, 1, 70, 240, 240, 1, 5] ++ beBytes 8 rid.toNat ++ [0, 0, 1, 54] ++
      baseV1ResObjectStream ++ beBytes 4 obj.length ++ obj =
      ([241, 241, 0, 1] ++ beBytes 8 rid.toNat ++ [0, 0, 1, 70, 240, 240, 1, 5] ++ beBytes 8 rid.toNat) ++ [0, 0, 1, 54] ++
      (baseV1ResObjectStream ++ beBytes 4 obj.length ++ obj) := by simp only [List.append_assoc]
  rw [e1, copyAt_mid _ _ _ _ (by simp) (by simp)]
  have e2 : [241, 241, 0, 1] ++ beBytes 8 rid.toNat ++ [0, 0, 1, 70, 240, 240, 1, 5] ++ beBytes 8 rid.toNat ++
      beBytes 4 (90 + obj.length) ++ (baseV1ResObjectStream ++ beBytes 4 obj.length ++ obj) =
      ([241, 241, 0, 1] ++ beBytes 8 rid.toNat) ++ [0, 0, 1, 70] ++ ([240, 240, 1, 5] ++ beBytes 8 rid.toNat ++
      beBytes 4 (90 + obj.length) ++ (baseV1ResObjectStream ++ beBytes 4 obj.length ++ obj)) := by simp
  rw [e2, copyAt_mid _ _ _ _ (by simp) (by simp), frame]
  have hbody : (baseV1ResObjectStream ++ beBytes 4 obj.length ++ obj).length = 90 + obj.length := by
    simp only [List.length_append, length_beBytes, hbl]
  rw [hbody, show 90 + obj.length + 16 = 106 + obj.length by omega]
  simp only [List.append_assoc]

/-- C14. For every id and every non-empty message (that fits a frame) the exception answer is one frame with the
id in both headers, which the frame reader accepts and the response decoder reads as a service exception of the
announced class. -/
theorem exception_response_wellformed (lib : Lib) (rid : UInt64) (msg : Bytes) (hne : msg ≠ []) (max : Nat) (rest : Bytes)
    (hlen : (buildExceptionResponse rid msg).length < 2 ^ 32) (hmax : (buildExceptionResponse rid msg).length ≤ max + 16) :
    ∃ m r body, readV1Message max (buildExceptionResponse rid msg ++ rest) = (.ok m, rest) ∧ m.rid = rid ∧
      m.origin = frame [0xf1, 0xf1, 0, 1] rid.toNat rid.toNat 1 5 body ∧
      decodeResponse lib m = .ok r ∧ r.id = rid ∧ r.heartbeat = false ∧
      r.exception = some (.service, b!"v1: has exception, class:" ++ exceptionClass) := by
  have hb := buildExceptionResponse_frame rid msg hne hlen
  generalize hB : baseV1ResObjectStream ++ beBytes 4 (exceptionObject msg).length ++ exceptionObject msg = body at hb
  have hfl : (buildExceptionResponse rid msg).length = 32 + body.length := by rw [hb]; exact frame_length _ _ _ _ _ _ rfl
  have hrd := readV1Message_frame max [241, 241, 0, 1] rid.toNat rid.toNat 1 5 body rest rfl rid.toNat_lt (by omega) (by omega)
  rw [← hb] at hrd
  let r0 := [117, 114, 0, 2, 91, 66, 172, 243, 23, 248, 6, 8, 84, 224, 2, 0, 0, 120, 112] ++
      (beBytes 4 (exceptionObject msg).length ++ exceptionObject msg)
  have hbody : body = osHead ++ (blocks (beBytes 8 2 ++ utf exceptionClass) ++ r0) := by
    rw [← hB, base_split]; simp only [r0, List.append_assoc]
  have hp : parseRes body 5 = .ok ⟨2, true, exceptionClass, false⟩ := by
    rw [parseRes, hbody, checkObjectStream_head, getBlock_blocks _ _ (by decide) (.inl (by decide))]
    have hl : readLong (beBytes 8 2 ++ utf exceptionClass) = .ok (2, utf exceptionClass) := by decide +kernel
    have hu : readUtf (utf exceptionClass) = .ok (exceptionClass, []) := by decide +kernel
    simp only [hl, hu]
    rfl
  have hd : ∀ m : Msg, IsFrameOf m body → m.flag = 5 → decodeResponse lib m = .ok ⟨m.rid, 2,
      some (.service, b!"v1: has exception, class:" ++ exceptionClass), false⟩ := by
    intro m hm hf
    rw [decodeResponse, newObjectStream_plain lib m _ (by rw [← hbody]; exact hm), ← hbody]
    simp only [hf, hp]
    rfl
  exact ⟨_, _, body, hrd, by simp, hb, hd _ ⟨[241, 241, 0, 1], rid.toNat, rfl, by rw [hb]; simp⟩ rfl, by simp, rfl, rfl⟩

/-- A short string in Hessian: one length byte below 32, two below 1024. -/
def Spec.hessianShort (s : Bytes) : Bytes :=
  if s.length < 32 then UInt8.ofNat s.length :: s else [48 + UInt8.ofNat (s.length / 256), UInt8.ofNat (s.length % 256)] ++ s

/-- A class with its fields in Hessian, then the beginning of an object of the class with the given number. -/
def Spec.hessianClass (name : Bytes) (fields : List Bytes) (number : Nat) : Bytes :=
  b!"C" ++ hessianShort name ++ [0x90 + UInt8.ofNat fields.length] ++ (fields.map hessianShort).flatten ++
    [0x60 + UInt8.ofNat number]

/-- C14. The object in an error answer: a MotanServiceException whose motanErrorMsg is a MotanErrorMsg with status 503, error
code 10001 and the given text. (Hessian's integers of two and three bytes begin with C8 and D4 plus the high part.) -/
theorem exception_object_form (msg : Bytes) :
    exceptionObject msg =
      Spec.hessianClass b!"com.weibo.api.motan.exception.MotanServiceException"
        [b!"errorMsg", b!"detailMessage", b!"cause", b!"motanErrorMsg", b!"stackTrace", b!"suppressedExceptions"] 0 ++
      b!"NNN" ++
      (Spec.hessianClass b!"com.weibo.api.motan.exception.MotanErrorMsg" [b!"status", b!"errorcode", b!"message"] 1 ++
        [UInt8.ofNat (0xC8 + 503 / 256), UInt8.ofNat (503 % 256)] ++
        [0xD4, UInt8.ofNat (10001 / 256), UInt8.ofNat (10001 % 256)] ++ hessianString msg) ++ b!"NN" := by
  have h1 : Spec.hessianClass b!"com.weibo.api.motan.exception.MotanServiceException"
      [b!"errorMsg", b!"detailMessage", b!"cause", b!"motanErrorMsg", b!"stackTrace", b!"suppressedExceptions"] 0 =
      hExceptionDesc := by decide +kernel
  have h2 : Spec.hessianClass b!"com.weibo.api.motan.exception.MotanErrorMsg"
      [b!"status", b!"errorcode", b!"message"] 1 = hMotanErrorMsgDesc := by decide +kernel
  rw [h1, h2, exceptionObject]
  have h3 : ([UInt8.ofNat (0xC8 + 503 / 256), UInt8.ofNat (503 % 256)] : Bytes) ++
      [0xD4, UInt8.ofNat (10001 / 256), UInt8.ofNat (10001 % 256)] = [201, 247, 212, 39, 17] := by
    decide +kernel
  rw [← h3]
  simp only [List.append_assoc]

/-- C14. The error text can be read back from the answer: it is the Hessian string behind the fixed part of the
object, for messages of less than 65536 bytes. -/
theorem exception_text_readable (msg : Bytes) (h : msg.length < 65536) :
    ∃ fixed, (∀ m, exceptionObject m = fixed ++ hessianString m ++ b!"NN") ∧
      Spec.Motan1.readHessian (hessianString msg ++ b!"NN") = some (msg, b!"NN") := by
  refine ⟨hExceptionDesc ++ b!"NNN" ++ hMotanErrorMsgDesc ++ [201, 247, 212, 39, 17], fun m => rfl, ?_⟩
  rw [hessianString]
  by_cases h1 : msg.length ≤ 0x1f
  · rw [if_pos h1]
    have hn : (UInt8.ofNat msg.length).toNat = msg.length := by
      rw [UInt8.toNat_ofNat', Nat.mod_eq_of_lt (by omega)]
    show Spec.Motan1.readHessian (UInt8.ofNat msg.length :: (msg ++ b!"NN")) = _
    rw [Spec.Motan1.readHessian.eq_def]
    simp only
    rw [if_pos (by rw [UInt8.le_iff_toNat_le, hn]; exact h1), hn,
      if_pos (by rw [List.length_append]; omega), List.take_left, List.drop_left]
  · rw [if_neg h1]
    by_cases h2 : msg.length ≤ 0x3ff
    · rw [if_pos h2]
      have hn : (UInt8.ofNat (0x30 + msg.length / 256)).toNat = 0x30 + msg.length / 256 := by
        rw [UInt8.toNat_ofNat', Nat.mod_eq_of_lt (by omega)]
      have hl : (UInt8.ofNat msg.length).toNat = msg.length % 256 := UInt8.toNat_ofNat' ..
      show Spec.Motan1.readHessian (UInt8.ofNat (0x30 + msg.length / 256) :: UInt8.ofNat msg.length :: (msg ++ b!"NN")) = _
      have a1 : (0x1f : UInt8).toNat = 0x1f := rfl
      have a2 : (0x30 : UInt8).toNat = 0x30 := rfl
      have a3 : (0x33 : UInt8).toNat = 0x33 := rfl
      rw [Spec.Motan1.readHessian.eq_def]
      simp only
      rw [if_neg (by rw [UInt8.le_iff_toNat_le, hn, a1]; omega),
        if_pos (by rw [UInt8.le_iff_toNat_le, UInt8.le_iff_toNat_le, hn, a2, a3]; omega)]
      rw [hn, hl, show (0x30 + msg.length / 256 - 0x30) * 256 + msg.length % 256 = msg.length by omega,
        if_pos (by rw [List.length_append]; omega), List.take_left, List.drop_left]
    · rw [if_neg h2]
      have hl : (UInt8.ofNat msg.length).toNat = msg.length % 256 := UInt8.toNat_ofNat' ..
      have hh : (UInt8.ofNat (msg.length / 256)).toNat = msg.length / 256 := by
        rw [UInt8.toNat_ofNat', Nat.mod_eq_of_lt (by omega)]
      show Spec.Motan1.readHessian (83 :: UInt8.ofNat (msg.length / 256) :: UInt8.ofNat msg.length :: (msg ++ b!"NN")) = _
      rw [Spec.Motan1.readHessian.eq_def]
      simp only
      rw [if_neg (by decide), if_neg (by decide), if_pos trivial]
      rw [hl, hh, show msg.length / 256 * 256 + msg.length % 256 = msg.length by omega,
        if_pos (by rw [List.length_append]; omega), List.take_left, List.drop_left]

/-- C14, an exception: a message of 65536 bytes is announced with length 0. -/
theorem exception_text_too_long_counterexample :
    ∃ msg : Bytes, msg ≠ [] ∧ Spec.Motan1.readHessian (hessianString msg) = some ([], msg) := by
  have hl : (List.replicate 65536 (97 : UInt8)).length = 65536 := List.length_replicate
  generalize List.replicate 65536 (97 : UInt8) = m at hl
  refine ⟨m, by intro h; subst h; simp at hl, ?_⟩
  rw [hessianString]
  rw [hl, if_neg (by decide), if_neg (by decide)]
  have e1 : UInt8.ofNat (65536 / 256) = 0 := by decide
  have e2 : UInt8.ofNat 65536 = 0 := by decide
  rw [e1, e2]
  show Spec.Motan1.readHessian (83 :: 0 :: 0 :: m) = _
  rw [Spec.Motan1.readHessian.eq_def]
  simp only
  rw [if_neg (by decide), if_neg (by decide), if_pos trivial]
  have e0 : UInt8.toNat 0 * 256 + UInt8.toNat 0 = 0 := rfl
  rw [e0, if_pos (Nat.zero_le _), List.take_zero, List.drop_zero]

/-- C14, an exception: the empty message yields no frame at all. -/
theorem exception_response_empty_counterexample (rid : UInt64) : buildExceptionResponse rid [] = [] := rfl

example : (buildExceptionResponse 7 b!"timeout").length = 344 ∧
    (readV1Message 1000 (buildExceptionResponse 7 b!"timeout" ++ [5])).2 = [5] := by decide +kernel

/-! ## C49: decoding of arbitrary bytes -/

theorem getLast?_append_ne (a : Bytes) {b : Bytes} (h : b ≠ []) : (a ++ b).getLast? = b.getLast? := by
  rw [List.getLast?_append]
  cases e : b.getLast? with
  | none => exact absurd (List.getLast?_eq_none_iff.mp e) h
  | some x => rfl

theorem blockLen_panic {t : UInt8} {s : Bytes} (h : blockLen t s = some (.error .panic)) : t = 0x77 ∧ s = [] := by
  rw [blockLen.eq_def] at h
  split at h
  · rename_i ht
    split at h
    · exact ⟨ht, rfl⟩
    · simp at h
  · split at h
    · split at h <;> simp at h
    · simp at h

theorem appendBlockBytes_panic (acc s : Bytes) (h : appendBlockBytes acc s = .error .panic) :
    s.getLast? = some 0x77 := by
  fun_induction appendBlockBytes acc s with
  | case1 => simp at h
  | case2 => simp at h
  | case3 acc t s e hb =>
    simp only [Except.error.injEq] at h
    subst h
    obtain ⟨rfl, rfl⟩ := blockLen_panic hb
    rfl
  | case4 => simp at h
  | case5 => simp at h
  | case6 acc t s l s' hb hl hM ih =>
    have h1 := ih h
    have hsuf : ∃ p, s = p ++ s' := by
      rw [blockLen.eq_def] at hb
      split at hb
      · split at hb <;> simp at hb
        exact ⟨[_], by rw [← hb.2]; rfl⟩
      · split at hb
        · split at hb <;> simp at hb
          exact ⟨s.take 4, by rw [← hb.2, List.take_append_drop]⟩
        · simp at hb
    obtain ⟨p, rfl⟩ := hsuf
    have hne : s'.drop l ≠ [] := by intro hh; rw [hh] at h1; simp at h1
    have : t :: (p ++ s') = (t :: (p ++ s'.take l)) ++ s'.drop l := by
      simp [List.take_append_drop]
    rw [this, getLast?_append_ne _ hne]
    exact h1

theorem getBlock_panic {s : Bytes} (h : getBlock s = .error .panic) : s.getLast? = some 0x77 ∧ 1024 < s.length := by
  rw [getBlock.eq_def] at h
  by_cases h2 : s.length < 2
  · rw [if_pos h2] at h; simp at h
  rw [if_neg h2] at h
  split at h
  · simp at h
  · rename_i t s0
    split at h
    · simp at h
    · rename_i e hb
      simp only [Except.error.injEq] at h
      subst h
      obtain ⟨_, rfl⟩ := blockLen_panic hb
      simp at h2
    · rename_i l s1 hb
      have hle := blockLen_le hb
      by_cases hl : s1.length < l
      · rw [if_pos hl] at h; simp at h
      rw [if_neg hl] at h
      simp only at h
      by_cases hM : l = MAX_BLOCK_SIZE
      · rw [if_pos hM] at h
        split at h
        · simp at h
        · rename_i nt r heq
          split at h
          · have h1 := appendBlockBytes_panic _ _ h
            have hsuf : ∃ p, t :: s0 = p ++ (nt :: r) := by
              have : ∃ p, s0 = p ++ s1 := by
                rw [blockLen.eq_def] at hb
                split at hb
                · split at hb <;> simp at hb
                  exact ⟨[_], by rw [← hb.2]; rfl⟩
                · split at hb
                  · split at hb <;> simp at hb
                    exact ⟨s0.take 4, by rw [← hb.2, List.take_append_drop]⟩
                  · simp at hb
              obtain ⟨p, rfl⟩ := this
              exact ⟨t :: (p ++ s1.take l), by rw [← heq]; simp [List.take_append_drop]⟩
            obtain ⟨p, e⟩ := hsuf
            refine ⟨?_, ?_⟩
            · rw [e, getLast?_append_ne _ (by simp)]; rw [← heq]; exact h1
            · have : MAX_BLOCK_SIZE = 1024 := rfl
              rw [List.length_cons]; omega
          · simp at h
      · rw [if_neg hM] at h; simp at h

theorem readInt16_no_panic (b : Bytes) : readInt16 b ≠ .error .panic := by
  rw [readInt16]; split <;> simp

theorem readUtf_no_panic (b : Bytes) : readUtf b ≠ .error .panic := by
  rw [readUtf]
  split
  · rename_i e h
    intro hh
    simp only [Except.error.injEq] at hh
    subst hh
    exact readInt16_no_panic _ h
  · split
    · split <;> simp
    · simp

theorem readPairs_no_panic (n : Nat) (m : Meta) (b : Bytes) : readPairs n m b ≠ .error .panic := by
  induction n generalizing m b with
  | zero => simp [readPairs]
  | succ n ih =>
    rw [readPairs]
    split
    · rename_i e h
      intro hh
      simp only [Except.error.injEq] at hh
      subst hh
      exact readUtf_no_panic _ h
    · split
      · rename_i e h
        intro hh
        simp only [Except.error.injEq] at hh
        subst hh
        exact readUtf_no_panic _ h
      · exact ih _ _

theorem readAttachments_no_panic (v : UInt8) (b : Bytes) : readAttachments v b ≠ .error .panic := by
  rw [readAttachments]
  simp only
  split
  · rename_i e h
    intro hh
    simp only [Except.error.injEq] at hh
    subst hh
    split at h
    · exact readInt16_no_panic _ h
    · rw [readInt] at h
      split at h <;> simp [Except.map] at h
  · exact readPairs_no_panic _ _ _

theorem readInfos_no_panic (b : Bytes) : readInfos b ≠ .error .panic := by
  intro hh
  rw [readInfos] at hh
  split at hh
  · rename_i e h
    simp only [Except.error.injEq] at hh; subst hh; exact readUtf_no_panic _ h
  · split at hh
    · split at hh
      · rename_i e h
        simp only [Except.error.injEq] at hh; subst hh; exact readUtf_no_panic _ h
      · simp at hh
    · split at hh
      · rename_i e h
        simp only [Except.error.injEq] at hh; subst hh; exact readUtf_no_panic _ h
      · split at hh
        · rename_i e h
          simp only [Except.error.injEq] at hh; subst hh; exact readUtf_no_panic _ h
        · simp at hh

theorem skipByteArray_no_panic (s : Bytes) : skipByteArray false s ≠ .error .panic := by
  intro h
  rw [skipByteArray] at h
  split at h
  · simp at h
  · simp only at h
    split at h
    · rename_i e h1
      simp only [Except.error.injEq] at h
      subst h
      split at h1
      · split at h1 <;> simp at h1
      · split at h1 <;> simp at h1
    · split at h <;> simp at h

theorem getBlock_suffix {s c r : Bytes} (h : getBlock s = .ok (c, r)) : ∃ p, s = p ++ r := by
  have hsuf : ∀ {t : UInt8} {s0 s1 : Bytes} {l : Nat}, blockLen t s0 = some (.ok (l, s1)) → ∃ p, s0 = p ++ s1 := by
    intro t s0 s1 l hb
    rw [blockLen.eq_def] at hb
    split at hb
    · split at hb <;> simp at hb
      exact ⟨[_], by rw [← hb.2]; rfl⟩
    · split at hb
      · split at hb <;> simp at hb
        exact ⟨s0.take 4, by rw [← hb.2, List.take_append_drop]⟩
      · simp at hb
  have happ : ∀ (acc s : Bytes) (c r : Bytes), appendBlockBytes acc s = .ok (c, r) → ∃ p, s = p ++ r := by
    intro acc s c r h
    fun_induction appendBlockBytes acc s with
    | case1 => simp at h; exact ⟨[], by simp [h]⟩
    | case2 acc t s hb =>
      simp at h
      exact ⟨[t], by rw [← h.2]; rfl⟩
    | case3 => simp at h
    | case4 => simp at h
    | case5 acc t s l s' hb hl hM =>
      simp at h
      obtain ⟨p, rfl⟩ := hsuf hb
      exact ⟨t :: (p ++ s'.take l), by rw [← h.2]; simp [List.take_append_drop]⟩
    | case6 acc t s l s' hb hl hM ih =>
      obtain ⟨p, rfl⟩ := hsuf hb
      obtain ⟨q, hq⟩ := ih h
      refine ⟨t :: (p ++ (s'.take l ++ q)), ?_⟩
      simp only [List.cons_append, List.append_assoc]
      rw [← hq, List.take_append_drop]
  rw [getBlock.eq_def] at h
  split at h
  · simp at h
  split at h
  · simp at h
  rename_i t s0 _
  split at h
  · simp at h
  · simp at h
  · rename_i l s1 hb
    obtain ⟨p, rfl⟩ := hsuf hb
    split at h
    · simp at h
    · simp only at h
      have base : ∃ q, t :: (p ++ s1) = q ++ s1.drop l := ⟨t :: (p ++ s1.take l), by simp [List.take_append_drop]⟩
      split at h
      · split at h
        · rename_i heq
          simp at h
          rw [← h.2]; exact base
        · rename_i nt r0 heq
          split at h
          · obtain ⟨q, hq⟩ := happ _ _ _ _ h
            obtain ⟨q', hq'⟩ := base
            exact ⟨q' ++ q, by rw [hq', List.append_assoc, ← hq, heq]⟩
          · simp at h
            rw [← h.2]; exact base
      · simp at h
        rw [← h.2]; exact base

theorem parseArgs_panic (n : Nat) (s : Bytes) (h : parseArgs n s = .error .panic) :
    s.getLast? = some 0x77 ∧ 1024 < s.length := by
  fun_induction parseArgs n s with
  | case1 => simp at h
  | case2 n r ih =>
    obtain ⟨h1, h2⟩ := ih h
    refine ⟨?_, by rw [List.length_cons]; omega⟩
    have hne : r ≠ [] := by intro hh; rw [hh] at h1; simp at h1
    rw [show TC_NULL :: r = [TC_NULL] ++ r from rfl, getLast?_append_ne _ hne]
    exact h1
  | case3 n r _ e hsk =>
    simp only [Except.error.injEq] at h; subst h
    exact absurd hsk (skipByteArray_no_panic _)
  | case4 n r c r' _ hsk ih =>
    obtain ⟨h1, h2⟩ := ih h
    have hne : r' ≠ [] := by intro hh; rw [hh] at h1; simp at h1
    obtain ⟨x, e1, _⟩ := skipByteArray_arg rfl hsk hne
    rw [e1]
    exact ⟨by rw [getLast?_append_ne _ hne]; exact h1, by rw [List.length_append]; omega⟩
  | case5 n t r _ _ ht e hb =>
    simp only [Except.error.injEq] at h; subst h
    exact getBlock_panic hb
  | case6 => simp at h
  | case7 => simp at h

/-- C49, for requests: decoding any accepted frame without compression ends with a request or an error; the one way
to a panic is a frame of more than 1024 bytes of body that ends with a bare block marker. -/
theorem request_decode_contained_partial (lib : Lib) (m : Msg) (hz : m.innerVersion ≠ 2)
    (h : decodeRequest lib m = .error .panic) : m.origin.getLast? = some 0x77 ∧ 1056 < m.origin.length := by
  rw [decodeRequest, newObjectStream, if_neg (fun hh => hz hh.1)] at h
  simp only at h
  have key : (m.origin.drop 32).getLast? = some 0x77 ∧ 1024 < (m.origin.drop 32).length := by
    rw [parseReq] at h
    split at h
    · rename_i e hc
      simp only [Except.error.injEq] at h; subst h
      rw [checkObjectStream] at hc
      split at hc
      · simp at hc
      · split at hc
        · simp at hc
        · obtain ⟨h1, h2⟩ := getBlock_panic hc
          rw [show V1AllHeaderLength = 32 from rfl] at *
          have hne : (m.origin.drop 32).drop 4 ≠ [] := by intro hh; rw [hh] at h1; simp at h1
          refine ⟨?_, by rw [List.length_drop] at h2; omega⟩
          rw [← List.take_append_drop 4 (m.origin.drop 32), getLast?_append_ne _ hne]
          exact h1
    · rename_i sb rest hc
      obtain ⟨hs, _, hg⟩ := checkObjectStream_sound hc
      obtain ⟨p, hp⟩ := getBlock_suffix hg
      split at h
      · rename_i e hi
        simp only [Except.error.injEq] at h; subst h
        exact absurd hi (readInfos_no_panic _)
      · split at h
        · split at h
          · rename_i e hpa
            simp only [Except.error.injEq] at h; subst h
            obtain ⟨h1, h2⟩ := parseArgs_panic _ _ hpa
            have hne : rest ≠ [] := by intro hh; rw [hh] at h1; simp at h1
            rw [show V1AllHeaderLength = 32 from rfl] at hs hp
            rw [hs, hp, ← List.append_assoc]
            exact ⟨by rw [getLast?_append_ne _ hne]; exact h1, by rw [List.length_append]; omega⟩
          · split at h
            · rename_i e hra
              simp only [Except.error.injEq] at h; subst h
              exact absurd hra (readAttachments_no_panic _ _)
            · simp at h
        · split at h
          · rename_i e hra
            simp only [Except.error.injEq] at h; subst h
            exact absurd hra (readAttachments_no_panic _ _)
          · simp at h
  obtain ⟨h1, h2⟩ := key
  have hne : m.origin.drop 32 ≠ [] := by intro hh; rw [hh] at h1; simp at h1
  refine ⟨?_, by rw [List.length_drop] at h2; omega⟩
  rw [← List.take_append_drop 32 m.origin, getLast?_append_ne _ hne]
  exact h1

/-- C49, what is missing, for requests: such a frame does make the decoder panic. -/
theorem request_decode_panic_counterexample :
    ∃ m : Msg, readV1Message 2000 m.origin = (.ok m, []) ∧ decodeRequest noLib m = .error .panic := by
  let body := osHead ++ (0x7A :: beBytes 4 1024 ++ List.replicate 1024 0) ++ [0x77]
  exact ⟨⟨frame [0xf1, 0xf1, 0, 0] 77 77 1 0 body, 1, 0, 77, body.length⟩, by decide +kernel, by decide +kernel⟩

/-- C49, what is missing, for responses: a string response that announces more bytes than there are makes the
decoder panic. -/
theorem response_decode_panic_counterexample :
    ∃ m : Msg, readV1Message 1000 m.origin = (.ok m, []) ∧ decodeResponse noLib m = .error .panic := by
  let body := osHead ++ blocks (beBytes 8 0 ++ utf b!"java.lang.String") ++ [0x75, 0x71, 0, 0, 0, 0, 0, 0, 0, 9, 1]
  exact ⟨⟨frame [0xf1, 0xf1, 0, 1] 77 77 1 1 body, 1, 1, 77, body.length⟩, by decide +kernel, by decide +kernel⟩

end Motan.Props
