import Verif.Proof.Motan2

/-!
# C05, C06, C07: motan2 framing, decoding safety and metadata integrity
-/

namespace Motan.Props

open Motan Motan.Motan2

/-! ## Specification vocabulary -/

/-- A metadata pair that the wire format can carry: both parts non-empty and free of newlines. -/
def Carriable (k v : Bytes) : Prop := k ≠ [] ∧ v ≠ [] ∧ (10 : UInt8) ∉ k ∧ (10 : UInt8) ∉ v

/-- The size of the metadata section: for each carried pair its two strings and two separators,
minus the last separator. -/
def metaSize (m : Meta) : Nat := (metaBytes m).length

/-- Two metadata maps with the same content, up to what the wire can carry: the receiver's map `r`
maps `k` to `v` exactly when the sender's map `m` does and the pair is carriable. -/
def SameCarriable (m r : Meta) : Prop :=
  ∀ k v, r.load k = some v ↔ (m.load k = some v ∧ Carriable k v)

theorem sentMeta_same (m : Meta) (hn : m.NodupKeys) : SameCarriable m (sentMeta m) := by
  intro k v
  have hf := AMap.nodupKeys_filter hn (fun p => keepPair p.1 p.2)
  have hl := AMap.load_storeAll ([] : Meta) (m.filter fun p => keepPair p.1 p.2) hf k
  have e : (sentMeta m).load k = AMap.load (m.filter fun p => keepPair p.1 p.2) k := by
    rw [sentMeta, hl]
    cases AMap.load (m.filter fun p => keepPair p.1 p.2) k <;> rfl
  rw [e, ← AMap.mem_iff_load hf, List.mem_filter, AMap.mem_iff_load hn]
  have := keepPair_iff k v
  simp only [Carriable]
  constructor
  · rintro ⟨h1, h2⟩; exact ⟨h1, this.mp h2⟩
  · rintro ⟨h1, h2⟩; exact ⟨h1, this.mpr h2⟩

/-- The metadata size is what the pairs need: an explicit formula. -/
theorem metaSize_formula (m : Meta) :
    metaSize m = (((m.filter fun p => keepPair p.1 p.2).map fun p => p.1.length + p.2.length + 2).sum) - 1 := by
  rw [metaSize, length_dropLast_metaFull]
  congr 1
  rw [metaFull, List.length_flatten]
  congr 1
  rw [List.map_map]
  apply List.map_congr_left
  intro p _
  simp; omega

/-! ## C05 framing round-trip -/

/-- **C05.** For every motan2 message (protocol version 1) whose metadata and body sizes are within
the limit, whatever the state of the reused encode buffer and the receiver's buffers: decoding the
encoded bytes followed by anything succeeds, gives the same header and body and the same carriable
metadata, and leaves exactly what followed. -/
theorem motan2_roundtrip (buf : Option BytesBuffer) (hr : Reusable buf) (maxLen bufCap bodyCap : Nat)
    (msg : Message) (follow : Bytes)
    (hver : msg.header.getVersion = 1) (hmagic : msg.header.magic = MotanMagic)
    (hn : msg.metadata.NodupKeys)
    (hm : metaSize msg.metadata ≤ maxLen) (hb : msg.body.length ≤ maxLen) (h32 : maxLen < 2 ^ 32) :
    ∃ out, decode maxLen bufCap bodyCap (encode buf msg ++ follow) = out ∧ out.rest = follow ∧
      ∃ got, out.res = .ok got ∧ got.header = msg.header ∧ got.body = msg.body ∧
        got.metadata.NodupKeys ∧ SameCarriable msg.metadata got.metadata := by
  obtain ⟨al, hal⟩ := decode_frame maxLen bufCap bodyCap msg follow hver hm hb h32
  refine ⟨_, rfl, ?_⟩
  rw [encode_eq_frame buf hr, hal]
  refine ⟨rfl, _, rfl, ?_, rfl, ?_, sentMeta_same _ hn⟩
  · cases h : msg.header; simp_all
  · exact AMap.nodupKeys_storeAll AMap.nodupKeys_nil _

/-- The bytes written to the connection by the scatter-gather path (`Encode0` + `GetEncodedBytes`)
are those of `Encode`, and the buffer left behind can be used for the next message. -/
theorem encode_paths_agree (buf : Option BytesBuffer) (hr : Reusable buf) (msg : Message) :
    getEncodedBytes buf msg = encode buf msg ∧ Reusable (some (encode0 buf msg)) :=
  ⟨by rw [getEncodedBytes_eq_frame buf hr, encode_eq_frame buf hr], encode0_reusable buf hr msg⟩

/-- Decode messages one after the other until the stream is exhausted or an error occurs.
`n` bounds the number of messages. -/
def decodeMany (maxLen bufCap bodyCap : Nat) : Nat → Bytes → List Message × Bytes
  | 0, s => ([], s)
  | n + 1, s =>
    match decode maxLen bufCap bodyCap s with
    | ⟨.error _, r, _⟩ => ([], r)
    | ⟨.ok m, r, _⟩ => let (ms, r') := decodeMany maxLen bufCap bodyCap n r; (m :: ms, r')

/-- Message equality as seen by the application. -/
def SameMessage (sent got : Message) : Prop :=
  got.header = sent.header ∧ got.body = sent.body ∧ SameCarriable sent.metadata got.metadata

/-- A message within the limits. -/
structure WithinLimits (maxLen : Nat) (msg : Message) : Prop where
  version : msg.header.getVersion = 1
  magic : msg.header.magic = MotanMagic
  nodup : msg.metadata.NodupKeys
  metaFits : metaSize msg.metadata ≤ maxLen
  bodyFits : msg.body.length ≤ maxLen

/-- **C05.** Any list of messages written back to back, each with the encode buffer left by the
previous one or a new one, is read back as the same list. -/
theorem motan2_stream_roundtrip (maxLen bufCap bodyCap : Nat) (h32 : maxLen < 2 ^ 32)
    (msgs : List (Option BytesBuffer × Message))
    (hr : ∀ p ∈ msgs, Reusable p.1) (hl : ∀ p ∈ msgs, WithinLimits maxLen p.2) (follow : Bytes) :
    ∃ got, decodeMany maxLen bufCap bodyCap msgs.length
        ((msgs.map fun p => encode p.1 p.2).flatten ++ follow) = (got, follow) ∧
      got.length = msgs.length ∧
      ∀ i (h1 : i < msgs.length) (h2 : i < got.length), SameMessage msgs[i].2 got[i] := by
  induction msgs with
  | nil => exact ⟨[], by simp [decodeMany], rfl, by simp⟩
  | cons p ps ih =>
    obtain ⟨b, m⟩ := p
    have w := hl (b, m) (List.mem_cons_self ..)
    obtain ⟨got, g1, g2, g3⟩ := ih (fun p hp => hr p (List.mem_cons_of_mem _ hp))
      (fun p hp => hl p (List.mem_cons_of_mem _ hp))
    obtain ⟨out, o1, o2, got1, o3, o4, o5, _, o6⟩ := motan2_roundtrip b (hr _ (List.mem_cons_self ..)) maxLen
      bufCap bodyCap m ((ps.map fun p => encode p.1 p.2).flatten ++ follow) w.version w.magic w.nodup w.metaFits
      w.bodyFits h32
    refine ⟨got1 :: got, ?_, by simp [g2], ?_⟩
    · simp only [List.map_cons, List.flatten_cons, List.append_assoc, List.length_cons, decodeMany]
      rw [o1]
      obtain ⟨r, rest, al⟩ := out
      simp only at o2 o3
      subst o2 o3
      simp only [g1]
    · intro i h1 h2
      cases i with
      | zero => exact ⟨o4, o5, o6⟩
      | succ i =>
        simp only [List.getElem_cons_succ]
        exact g3 i (by simpa using h1) (by simpa using h2)

/-- Two concrete messages (one with a newline in an attachment) meet the hypotheses. -/
example :
    let m1 : Message := ⟨buildHeader Req true 6 77 Normal, [(b!"M_p", b!"svc"), (b!"x", b!"a\nb"), (b!"M_m", b!"f")], [1, 2, 3], 0⟩
    let m2 : Message := ⟨buildHeader Res false 6 78 Exception, [], [], 0⟩
    WithinLimits 100 m1 ∧ WithinLimits 100 m2 ∧ Reusable none ∧
    decodeMany 100 13 0 2 (encode none m1 ++ encode (some (encode0 none m1)) m2) =
      ([{ m1 with metadata := [(b!"M_p", b!"svc"), (b!"M_m", b!"f")] }, m2], []) := by
  refine ⟨⟨by decide, by decide, by decide, by decide, by decide⟩,
    ⟨by decide, by decide, by decide, by decide, by decide⟩, trivial, by decide +kernel⟩

/-! ## C06 decoding arbitrary bytes -/

theorem readAtLeast_inv {n : Nat} {s a r : Bytes} (h : readAtLeast n s = (.ok a, r)) :
    s = a ++ r ∧ a.length = n := by
  simp only [readAtLeast] at h
  split at h
  · simp only [Prod.mk.injEq, Except.ok.injEq] at h
    obtain ⟨rfl, rfl⟩ := h
    exact ⟨by simp, by simp; omega⟩
  · split at h <;> simp at h

theorem readBytes_inv {n : Nat} {s a r : Bytes} (h : readBytes n s = (.ok a, r)) :
    s = a ++ r ∧ a.length = n := by
  simp only [readBytes] at h
  split at h
  · simp only [Prod.mk.injEq, Except.ok.injEq] at h
    obtain ⟨rfl, rfl⟩ := h
    exact ⟨by simp, by simp; omega⟩
  · simp at h

theorem readAtLeast_suffix (n : Nat) (s : Bytes) : (readAtLeast n s).2 <:+ s := by
  simp only [readAtLeast]
  split
  · exact List.drop_suffix _ _
  · split <;> exact List.nil_suffix

theorem readBytes_suffix (n : Nat) (s : Bytes) : (readBytes n s).2 <:+ s := by
  simp only [readBytes]
  split
  · exact List.drop_suffix _ _
  · exact List.nil_suffix

theorem readAtLeast_err {n : Nat} {s r : Bytes} {e : Err} (h : readAtLeast n s = (.error e, r)) :
    r = [] ∧ s.length < n := by
  simp only [readAtLeast] at h
  split at h
  · simp at h
  · split at h <;> (simp only [Prod.mk.injEq] at h; exact ⟨h.2.symm, by omega⟩)

theorem readBytes_err {n : Nat} {s r : Bytes} {e : Err} (h : readBytes n s = (.error e, r)) :
    r = [] ∧ s.length < n := by
  simp only [readBytes] at h
  split at h
  · simp at h
  · simp only [Prod.mk.injEq] at h; exact ⟨h.2.symm, by omega⟩

/-- What an accepted stream looks like: the complete characterisation of success. -/
structure Accepted (maxLen : Nat) (s : Bytes) (msg : Message) (rest : Bytes) : Prop where
  intro ::
  frame : ∃ hd raw : Bytes, hd.length = 13 ∧
    s = hd ++ beBytes 4 raw.length ++ raw ++ beBytes 4 msg.body.length ++ msg.body ++ rest ∧
    hd.take 2 = [0xf1, 0xf1] ∧ msg.header = parseHeader hd ∧ msg.header.getVersion = 1 ∧
    raw.length ≤ maxLen ∧ msg.body.length ≤ maxLen ∧ parseMeta [] [] [] raw = ([], msg.metadata)

theorem decodeBody_inv {maxLen bodyCap : Nat} {msg : Message} {s : Bytes} {al : List Nat} {got : Message}
    (h : (decodeBody maxLen bodyCap msg s al).res = .ok got) :
    s = beBytes 4 got.body.length ++ got.body ++ (decodeBody maxLen bodyCap msg s al).rest ∧
      got.body.length ≤ maxLen ∧ got.header = msg.header ∧ got.metadata = msg.metadata := by
  simp only [decodeBody] at h ⊢
  split at h
  · simp at h
  · rename_i sz s1 hr
    obtain ⟨hs, hl⟩ := readAtLeast_inv hr
    have hsz : beBytes 4 (beVal sz) = sz := by rw [← hl]; exact beBytes_beVal sz
    try simp only [hr]
    split at h
    · simp at h
    · rename_i hle
      split at h
      · rename_i hpos
        split at h
        · simp at h
        · rename_i body s2 hr2
          obtain ⟨hs2, hl2⟩ := readBytes_inv hr2
          simp only [Except.ok.injEq] at h
          subst h
          try simp only [hle, hpos, if_false, if_true, hr2]
          refine ⟨?_, by omega, by simp, by simp⟩
          rw [hl2, hsz, hs, hs2]; simp
      · rename_i hpos
        simp only [Except.ok.injEq] at h
        subst h
        try simp only [hle, hpos, if_false]
        refine ⟨?_, by simp, by simp, by simp⟩
        have hz : beVal sz = 0 := by omega
        rw [hs, ← hsz, hz]; simp

/-- **C06.** Soundness of decoding: a message is returned only for a stream of exactly the announced
shape, and exactly the announced bytes have been consumed. -/
theorem decode_sound {maxLen bufCap bodyCap : Nat} {s : Bytes} {msg : Message}
    (h : (decode maxLen bufCap bodyCap s).res = .ok msg) :
    Accepted maxLen s msg (decode maxLen bufCap bodyCap s).rest := by
  simp only [decode] at h ⊢
  split at h
  · simp at h
  · rename_i hd s1 hr
    obtain ⟨hs, hl⟩ := readAtLeast_inv hr
    try simp only [hr]
    split at h
    · simp at h
    · rename_i hmag
      split at h
      · simp at h
      · rename_i hver
        try simp only [hmag, hver, if_false]
        simp only [ne_eq, Decidable.not_not] at hmag hver
        have hm2 : hd.take 2 = [0xf1, 0xf1] := by
          have := beBytes_beVal (hd.take 2)
          rw [hmag, List.length_take, hl] at this
          rw [← this]; decide
        simp only [decodeMeta] at h ⊢
        split at h
        · simp at h
        · rename_i sz s2 hr2
          obtain ⟨hs2, hl2⟩ := readAtLeast_inv hr2
          have hsz : beBytes 4 (beVal sz) = sz := by rw [← hl2]; exact beBytes_beVal sz
          try simp only [hr2]
          split at h
          · simp at h
          · rename_i hle
            split at h
            · rename_i hpos
              split at h
              · simp at h
              · rename_i raw s3 hr3
                obtain ⟨hs3, hl3⟩ := readBytes_inv hr3
                split at h
                · simp at h
                · rename_i hk
                  try simp only [hle, hpos, if_false, if_true, hr3, hk]
                  obtain ⟨b1, b2, b3, b4⟩ := decodeBody_inv h
                  simp only [ne_eq, Decidable.not_not] at hk
                  refine ⟨⟨hd, raw, hl, ?_, hm2, b3, by rw [b3]; exact hver, by omega, b2, ?_⟩⟩
                  · rw [hs, hs2, hs3, hl3, hsz]
                    have := b1
                    simp only [List.append_assoc] at this ⊢
                    rw [← this]
                  · rw [b4]
                    have : Message.fresh.metadata = [] := rfl
                    simp only [this] at hk ⊢
                    exact Prod.ext hk rfl
            · rename_i hpos
              try simp only [hle, hpos, if_false]
              obtain ⟨b1, b2, b3, b4⟩ := decodeBody_inv h
              refine ⟨⟨hd, [], hl, ?_, hm2, b3, by rw [b3]; exact hver, by simp, b2, ?_⟩⟩
              · have hz : beVal sz = 0 := by omega
                rw [hs, hs2, ← hsz, hz]
                simp only [List.append_assoc, List.length_nil, List.nil_append] at b1 ⊢
                rw [← b1]
              · rw [b4]; rfl

theorem decodeBody_rest (maxLen bodyCap : Nat) (msg : Message) (s : Bytes) (al : List Nat) :
    (decodeBody maxLen bodyCap msg s al).rest <:+ s := by
  simp only [decodeBody]
  split
  · rename_i h; rw [(readAtLeast_err h).1]; exact List.nil_suffix
  · rename_i h
    obtain ⟨hs, _⟩ := readAtLeast_inv h
    split
    · exact ⟨_, hs.symm⟩
    · split
      · split
        · rename_i h2; rw [(readBytes_err h2).1]; exact List.nil_suffix
        · rename_i h2
          obtain ⟨hs2, _⟩ := readBytes_inv h2
          exact ⟨_, by rw [hs, hs2, ← List.append_assoc]⟩
      · exact ⟨_, hs.symm⟩

theorem decodeBody_allocs (maxLen bodyCap : Nat) (msg : Message) (s : Bytes) (al : List Nat)
    (h : ∀ a ∈ al, a ≤ maxLen) : ∀ a ∈ (decodeBody maxLen bodyCap msg s al).allocs, a ≤ maxLen := by
  simp only [decodeBody]
  split
  · exact h
  · split
    · exact h
    · rename_i hle
      have h' : ∀ n ≤ maxLen, ∀ a ∈ (if bodyCap < n then al ++ [n] else al), a ≤ maxLen := by
        intro n hn a ha
        split at ha
        · rcases List.mem_append.mp ha with ha | ha
          · exact h a ha
          · simp at ha; omega
        · exact h a ha
      split
      · split <;> exact h' _ (by omega)
      · exact h

/-- **C06.** Whatever the stream, decoding only ever consumes a prefix of it, and every slice it
allocates for announced content has a size within the configured maximum. -/
theorem decode_contained (maxLen bufCap bodyCap : Nat) (s : Bytes) :
    (decode maxLen bufCap bodyCap s).rest <:+ s ∧
      ∀ a ∈ (decode maxLen bufCap bodyCap s).allocs, a ≤ maxLen := by
  simp only [decode]
  split
  · rename_i h; rw [(readAtLeast_err h).1]; exact ⟨List.nil_suffix, by simp⟩
  · rename_i hd s1 h
    obtain ⟨hs, _⟩ := readAtLeast_inv h
    have hsuf : s1 <:+ s := ⟨_, hs.symm⟩
    split
    · exact ⟨hsuf, by simp⟩
    · split
      · exact ⟨hsuf, by simp⟩
      · simp only [decodeMeta]
        split
        · rename_i h2; rw [(readAtLeast_err h2).1]; exact ⟨List.nil_suffix, by simp⟩
        · rename_i sz s2 h2
          obtain ⟨hs2, _⟩ := readAtLeast_inv h2
          have hsuf2 : s2 <:+ s := List.IsSuffix.trans ⟨_, hs2.symm⟩ hsuf
          split
          · exact ⟨hsuf2, by simp⟩
          · rename_i hle
            have hal : ∀ a ∈ (if bufCap < beVal sz then [beVal sz] else []), a ≤ maxLen := by
              intro a ha
              split at ha
              · simp at ha; omega
              · simp at ha
            split
            · split
              · rename_i h3; rw [(readBytes_err h3).1]; exact ⟨List.nil_suffix, hal⟩
              · rename_i raw s3 h3
                obtain ⟨hs3, _⟩ := readBytes_inv h3
                have hsuf3 : s3 <:+ s := List.IsSuffix.trans ⟨_, hs3.symm⟩ hsuf2
                split
                · exact ⟨hsuf3, hal⟩
                · exact ⟨(decodeBody_rest ..).trans hsuf3, decodeBody_allocs _ _ _ _ _ hal⟩
            · exact ⟨(decodeBody_rest ..).trans hsuf2, decodeBody_allocs _ _ _ _ _ (by simp)⟩

/-- **C06.** A frame announcing more metadata than allowed is refused as over-size having consumed only
the 17 bytes up to the size field, and with no allocation. -/
theorem decode_oversize_meta (maxLen bufCap bodyCap : Nat) (h : Header) (hver : h.getVersion = 1)
    (n : Nat) (hn : n < 2 ^ 32) (hbig : maxLen < n) (s : Bytes) :
    decode maxLen bufCap bodyCap (headerBytes h ++ beBytes 4 n ++ s) = ⟨.error .overSize, s, []⟩ := by
  rw [decode, List.append_assoc, readAtLeast_append (n := HeaderLength) (length_headerBytes _)]
  have hver' : ({ h with magic := MotanMagic } : Header).getVersion = Version2 := hver
  simp only [magic_headerBytes, parseHeader_headerBytes, hver', ne_eq, not_true_eq_false, if_false]
  rw [decodeMeta, readAtLeast_append (by simp)]
  have : beVal (beBytes 4 n) = n := beVal_beBytes (by omega)
  simp only [this]
  rw [if_pos hbig]

/-- The end of a stream that was cut: success does not depend on what follows. -/
theorem decode_extend {maxLen bufCap bodyCap : Nat} {s : Bytes} {msg : Message} (t : Bytes)
    (hmax : maxLen < 2 ^ 32)
    (h : (decode maxLen bufCap bodyCap s).res = .ok msg) :
    ∃ al, decode maxLen bufCap bodyCap (s ++ t)
      = ⟨.ok msg, (decode maxLen bufCap bodyCap s).rest ++ t, al⟩ := by
  obtain ⟨hd, raw, h1, h2, h3, h4, h5, h6, h7, h8⟩ := (decode_sound h).frame
  have htype : msg.type = 0 := by
    have hb : ∀ m : Message, ∀ s al, (decodeBody maxLen bodyCap m s al).res = .ok msg → msg.type = m.type := by
      intro m s al hb
      simp only [decodeBody] at hb
      split at hb
      · simp at hb
      · split at hb
        · simp at hb
        · split at hb
          · split at hb
            · simp at hb
            · simp only [Except.ok.injEq] at hb; subst hb; rfl
          · simp only [Except.ok.injEq] at hb; subst hb; rfl
    simp only [decode, decodeMeta] at h
    split at h
    · simp at h
    · split at h
      · simp at h
      · split at h
        · simp at h
        · split at h
          · simp at h
          · split at h
            · simp at h
            · split at h
              · split at h
                · simp at h
                · split at h
                  · simp at h
                  · exact hb _ _ _ h
              · exact hb _ _ _ h
  generalize (decode maxLen bufCap bodyCap s).rest = rest at h2
  have e : s ++ t = hd ++ (beBytes 4 raw.length ++ (raw ++ (beBytes 4 msg.body.length ++ msg.body ++ (rest ++ t)))) := by
    rw [h2]; simp
  rw [e, decode, readAtLeast_append (n := HeaderLength) h1]
  have hmag : beVal (hd.take 2) = MotanMagic.toNat := by rw [h3]; decide
  have hver : (parseHeader hd).getVersion = Version2 := by rw [← h4]; exact h5
  simp only [hmag, hver, ne_eq, not_true_eq_false, if_false]
  have hrv : beVal (beBytes 4 raw.length) = raw.length := beVal_beBytes (by omega)
  have hfm : Message.fresh.metadata = [] := rfl
  rw [decodeMeta, readAtLeast_append (by simp)]
  simp only [hrv]
  rw [if_neg (by omega)]
  by_cases h0 : raw.length > 0
  · rw [if_pos h0, readBytes_append rfl]
    simp only [hfm, h8, ne_eq, not_true_eq_false, if_false]
    obtain ⟨al, hal⟩ := decodeBody_frame maxLen bodyCap ⟨parseHeader hd, msg.metadata, [], 0⟩ msg.body (rest ++ t)
      (if bufCap < raw.length then [raw.length] else []) h7 (by omega)
    refine ⟨al, hal.trans ?_⟩
    rw [← h4, ← htype]
  · have hnil : raw = [] := List.length_eq_zero_iff.mp (by omega)
    rw [if_neg h0, hnil]
    rw [hnil] at h8
    have hmd : msg.metadata = [] := (congrArg Prod.snd h8).symm
    obtain ⟨al, hal⟩ := decodeBody_frame maxLen bodyCap ⟨parseHeader hd, [], [], 0⟩ msg.body (rest ++ t) [] h7 (by omega)
    refine ⟨al, hal.trans ?_⟩
    rw [← h4, ← htype, ← hmd]

/-- **C06.** No strict prefix of an encoded message decodes to a message, whatever the size limit. -/
theorem decode_prefix_error (buf : Option BytesBuffer) (hr : Reusable buf) (maxLen bufCap bodyCap : Nat)
    (hmax : maxLen < 2 ^ 32) (msg : Message)
    (hm : metaSize msg.metadata < 2 ^ 32) (hb : msg.body.length < 2 ^ 32)
    (p t : Bytes) (hp : p ++ t = encode buf msg) (ht : t ≠ []) :
    ∃ e, (decode maxLen bufCap bodyCap p).res = .error e := by
  cases hres : (decode maxLen bufCap bodyCap p).res with
  | error e => exact ⟨e, rfl⟩
  | ok got =>
    exfalso
    obtain ⟨al, hal⟩ := decode_extend t hmax hres
    rw [hp, encode_eq_frame buf hr] at hal
    -- the frame, read with this limit, is accepted with a non-empty rest: its sizes are the announced ones
    have hs := decode_sound (s := frame msg) (maxLen := maxLen) (bufCap := bufCap) (bodyCap := bodyCap)
      (msg := got) (by rw [hal])
    obtain ⟨hd, raw, h1, h2, h3, h4, h5, h6, h7, h8⟩ := hs.frame
    have hrest : (decode maxLen bufCap bodyCap (frame msg)).rest = (decode maxLen bufCap bodyCap p).rest ++ t := by
      rw [hal]
    rw [hrest] at h2
    have e1 : frame msg = headerBytes msg.header ++ (beBytes 4 (metaBytes msg.metadata).length ++
        (metaBytes msg.metadata ++ (beBytes 4 msg.body.length ++ msg.body))) := by simp [frame]
    have e2 : frame msg = hd ++ (beBytes 4 raw.length ++ (raw ++ (beBytes 4 got.body.length ++
        (got.body ++ ((decode maxLen bufCap bodyCap p).rest ++ t))))) := by rw [h2]; simp
    rw [e1] at e2
    obtain ⟨_, e3⟩ := List.append_inj e2 (by rw [length_headerBytes, h1])
    obtain ⟨e4, e5⟩ := List.append_inj e3 (by simp)
    have hlen : (metaBytes msg.metadata).length = raw.length := by
      have := congrArg beVal e4
      rwa [beVal_beBytes (by simp only [metaSize] at hm; omega), beVal_beBytes (by omega)] at this
    obtain ⟨_, e6⟩ := List.append_inj e5 hlen
    obtain ⟨e7, e8⟩ := List.append_inj e6 (by simp)
    have hlen2 : msg.body.length = got.body.length := by
      have := congrArg beVal e7
      rwa [beVal_beBytes (by omega), beVal_beBytes (by omega)] at this
    have := congrArg List.length e8
    simp only [List.length_append] at this
    have htl : 0 < t.length := List.length_pos_iff.mpr ht
    omega

/-- The hypotheses of `decode_prefix_error` and `decode_oversize_meta` are met by ordinary data. -/
example :
    let m : Message := ⟨buildHeader Req false 6 1 Normal, [(b!"M_p", b!"s")], [9], 0⟩
    (decode 1000 13 0 ((encode none m).take 26)).res = .error .eof ∧
    (decode 1000 13 0 ((encode none m).take 10)).res = .error .unexpectedEOF ∧
    (decode 1000 13 0 (encode none m)).res = .ok m ∧
    (decode 4 13 0 (encode none m)).res = .error .overSize := by decide +kernel

/-- `CheckMotanVersion` accepts every stream that starts with an encoded message and reports the
message's version. -/
theorem checkVersion_encode (buf : Option BytesBuffer) (hr : Reusable buf) (msg : Message) (s : Bytes) :
    checkMotanVersion (encode buf msg ++ s) = .ok msg.header.getVersion := by
  rw [encode_eq_frame buf hr]
  have e : frame msg ++ s = 0xf1 :: 0xf1 :: msg.header.msgType :: msg.header.versionStatus :: msg.header.serialize ::
      (beBytes 8 msg.header.requestID.toNat ++ (beBytes 4 (metaBytes msg.metadata).length ++ metaBytes msg.metadata ++
        beBytes 4 msg.body.length ++ msg.body ++ s)) := by
    simp [frame, headerBytes_cons]
  rw [e, checkMotanVersion]
  have h2 : beVal (List.take 2 (0xf1 :: 0xf1 :: msg.header.msgType :: msg.header.versionStatus :: msg.header.serialize ::
      (beBytes 8 msg.header.requestID.toNat ++ (beBytes 4 (metaBytes msg.metadata).length ++ metaBytes msg.metadata ++
        beBytes 4 msg.body.length ++ msg.body ++ s)))) = MotanMagic.toNat := by
    show beVal [0xf1, 0xf1] = _
    decide
  rw [if_neg (by simp only [List.length_cons]; omega), h2]
  simp [Header.getVersion]

/-! ## C07 metadata integrity -/

/-- **C07.** Whatever byte strings an application puts into the attachments, and in whatever order the
map is iterated, the peer sees a key with a value exactly when the sender set that key to that value
and both are non-empty and newline-free. In particular no attachment can introduce or change
another key. -/
theorem metadata_integrity (m : Meta) (hn : m.NodupKeys) :
    (parseMeta [] [] [] (metaBytes m)).1 = [] ∧
    SameCarriable m (parseMeta [] [] [] (metaBytes m)).2 := by
  rw [parseMeta_metaBytes]; exact ⟨rfl, sentMeta_same m hn⟩

/-- **C07.** The same for two different iteration orders of one map: the peer sees the same map. -/
theorem metadata_order_irrelevant (m m' : Meta) (hn : m.NodupKeys) (hn' : m'.NodupKeys)
    (hsame : ∀ k, m.load k = m'.load k) (k : Bytes) :
    (sentMeta m).load k = (sentMeta m').load k := by
  apply Option.ext
  intro v
  have h1 := sentMeta_same m hn k v
  have h2 := sentMeta_same m' hn' k v
  rw [hsame k] at h1
  exact h1.trans h2.symm

/-- An attempted injection: the value `"x\nM_g\nevil"` is dropped and `M_g` is untouched. -/
example : sentMeta [(b!"a", b!"x\nM_g\nevil"), (b!"M_g", b!"good"), (b!"e", b!"")]
    = [(b!"M_g", b!"good")] := by decide

end Motan.Props
