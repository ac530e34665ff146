import Verif.Props.Motan2

/-!
# Which bytes are a motan2 message (C06)

The specification below says what a message looks like on the wire, without the functions of the model: thirteen bytes of
header, the length of the metadata in four bytes, the metadata, the length of the body in four bytes, the body. The theorems say
that decoding accepts exactly these streams, and gives exactly what they say.
-/

namespace Motan.Props

open Motan.Motan2

/-- How lines are taken as names and values: an empty line where a name is due is passed over, any other line there is a name
and the line after it its value. -/
inductive Spec.Pairs : List Bytes → List (Bytes × Bytes) → Prop
  | none : Spec.Pairs [] []
  | skip {fs ps} : Spec.Pairs fs ps → Spec.Pairs ([] :: fs) ps
  | pair {k v fs ps} : k ≠ [] → Spec.Pairs fs ps → Spec.Pairs (k :: v :: fs) ((k, v) :: ps)

/-- The metadata: lines separated by newlines, taken as names and values. -/
def Spec.MetaText (raw : Bytes) (ps : List (Bytes × Bytes)) : Prop :=
  ∃ fs : List Bytes, fs ≠ [] ∧ (∀ f ∈ fs, (10 : UInt8) ∉ f) ∧ raw = List.intercalate [10] fs ∧ Spec.Pairs fs ps

/-- A stream that starts with a message of version 1 with this header, these names and values of the metadata, this body, none of
the two longer than `maxLen`, and goes on with `rest`. -/
structure Spec.IsFrame (maxLen : Nat) (s : Bytes) (h : Header) (ps : List (Bytes × Bytes)) (body rest : Bytes) : Prop where
  magic : h.magic = 0xf1f1
  version : h.versionStatus.toNat / 8 = 1
  sizes : body.length ≤ maxLen
  bytes : ∃ raw, raw.length ≤ maxLen ∧ Spec.MetaText raw ps ∧
    s = [0xf1, 0xf1, h.msgType, h.versionStatus, h.serialize] ++ beBytes 8 h.requestID.toNat ++
      beBytes 4 raw.length ++ raw ++ beBytes 4 body.length ++ body ++ rest

theorem intercalate_two (f g : Bytes) (fs : List Bytes) :
    List.intercalate [10] (f :: g :: fs) = f ++ nl :: List.intercalate [10] (g :: fs) := by
  simp [List.intercalate, nl]

theorem intercalate_one (f : Bytes) : List.intercalate [(10 : UInt8)] [f] = f := by simp [List.intercalate]

theorem parseMeta_pairs {fs : List Bytes} {ps : List (Bytes × Bytes)} (h : Spec.Pairs fs ps) :
    ∀ m : Meta, fs ≠ [] → (∀ f ∈ fs, (10 : UInt8) ∉ f) →
      parseMeta [] [] m (List.intercalate [10] fs) = ([], m.storeAll ps) := by
  induction h with
  | none => intro m hne; exact absurd rfl hne
  | @skip fs ps h ih =>
    intro m _ hnl
    cases fs with
    | nil =>
      cases h
      rw [intercalate_one]; simp [parseMeta, AMap.storeAll]
    | cons g fs =>
      rw [intercalate_two]
      have := parseMeta_seg [] (by simp) [] [] m (List.intercalate [10] (g :: fs))
      rw [this]
      simpa using ih m (by simp) (fun f hf => hnl f (List.mem_cons_of_mem _ hf))
  | @pair k v fs ps hk h ih =>
    intro m _ hnl
    have hkn : nl ∉ k := hnl k (by simp)
    have hvn : nl ∉ v := hnl v (by simp)
    rw [intercalate_two, parseMeta_seg k hkn]
    cases fs with
    | nil =>
      cases h
      rw [intercalate_one, parseMeta_end v hvn]
      simp [hk, AMap.storeAll]
    | cons g fs =>
      rw [intercalate_two, parseMeta_seg v hvn]
      have := ih (m.store k v) (by simp) (fun f hf => hnl f (List.mem_cons_of_mem _ (List.mem_cons_of_mem _ hf)))
      simpa [hk, AMap.storeAll] using this

theorem pairs_of_parseMeta (n : Nat) : ∀ (fs : List Bytes) (m : Meta), fs.length ≤ n → fs ≠ [] → (∀ f ∈ fs, (10 : UInt8) ∉ f) →
    (parseMeta [] [] m (List.intercalate [10] fs)).1 = [] → ∃ ps, Spec.Pairs fs ps := by
  induction n with
  | zero => intro fs m hl hne; exact absurd (List.length_eq_zero_iff.1 (by omega)) hne
  | succ n ih =>
    intro fs m hl hne hnl h
    match fs with
    | [] => exact absurd rfl hne
    | [f] =>
      rw [intercalate_one, parseMeta_end f (hnl f (by simp))] at h
      have : f = [] := by simpa using h
      subst this; exact ⟨[], .skip .none⟩
    | f :: g :: fs =>
      rw [intercalate_two, parseMeta_seg f (hnl f (by simp))] at h
      by_cases hf : f = []
      · subst hf
        obtain ⟨ps, hps⟩ := ih (g :: fs) m (by simp only [List.length_cons] at hl ⊢; omega) (by simp)
          (fun x hx => hnl x (List.mem_cons_of_mem _ hx)) (by simpa using h)
        exact ⟨ps, .skip hps⟩
      · cases fs with
        | nil => exact ⟨[(f, g)], .pair hf .none⟩
        | cons x xs =>
          rw [intercalate_two, 
            parseMeta_seg g (hnl g (by simp))] at h
          obtain ⟨ps, hps⟩ := ih (x :: xs) (m.store f g) (by simp only [List.length_cons] at hl ⊢; omega) (by simp)
            (fun y hy => hnl y (List.mem_cons_of_mem _ (List.mem_cons_of_mem _ hy))) (by simpa [hf] using h)
          exact ⟨(f, g) :: ps, .pair hf hps⟩

theorem lines_of (raw : Bytes) : ∃ fs : List Bytes, fs ≠ [] ∧ (∀ f ∈ fs, (10 : UInt8) ∉ f) ∧ raw = List.intercalate [10] fs := by
  induction raw with
  | nil => exact ⟨[[]], by simp, by simp, by simp [List.intercalate]⟩
  | cons c cs ih =>
    obtain ⟨fs, hne, hnl, rfl⟩ := ih
    cases fs with
    | nil => exact absurd rfl hne
    | cons f fs =>
      by_cases hc : c = 10
      · refine ⟨[] :: f :: fs, by simp, ?_, by rw [intercalate_two, hc]; rfl⟩
        intro x hx
        rcases List.mem_cons.1 hx with rfl | hx
        · simp
        · exact hnl x hx
      · refine ⟨(c :: f) :: fs, by simp, ?_, ?_⟩
        · intro x hx
          rcases List.mem_cons.1 hx with rfl | hx
          · simp only [List.mem_cons, not_or]; exact ⟨fun h => hc h.symm, hnl f (by simp)⟩
          · exact hnl x (List.mem_cons_of_mem _ hx)
        · cases fs with
          | nil => simp [List.intercalate]
          | cons g fs => rw [intercalate_two, intercalate_two]; rfl

theorem parseMeta_iff (raw : Bytes) (md : Meta) :
    parseMeta [] [] [] raw = ([], md) ↔ ∃ ps, Spec.MetaText raw ps ∧ md = AMap.storeAll [] ps := by
  constructor
  · intro h
    obtain ⟨fs, hne, hnl, rfl⟩ := lines_of raw
    obtain ⟨ps, hps⟩ := pairs_of_parseMeta _ fs [] (Nat.le_refl _) hne hnl (by rw [h])
    refine ⟨ps, ⟨fs, hne, hnl, rfl, hps⟩, ?_⟩
    rw [parseMeta_pairs hps [] hne hnl] at h
    exact (congrArg Prod.snd h).symm
  · rintro ⟨ps, ⟨fs, hne, hnl, rfl, hps⟩, rfl⟩
    exact parseMeta_pairs hps [] hne hnl

theorem load_storeAll_last (m : AMap Bytes Bytes) (ps : List (Bytes × Bytes)) (k : Bytes) :
    (m.storeAll ps).load k = match ps.reverse.lookup k with | some v => some v | none => m.load k := by
  induction ps generalizing m with
  | nil => rfl
  | cons p ps ih =>
    obtain ⟨a, b⟩ := p
    have e : AMap.storeAll m ((a, b) :: ps) = AMap.storeAll (m.store a b) ps := rfl
    rw [e, ih, List.reverse_cons, List.lookup_append]
    cases h : ps.reverse.lookup k with
    | some v => rfl
    | none =>
      by_cases hk : k = a
      · subst hk; simp [AMap.load_store_self]
      · simp [List.lookup, hk, AMap.load_store_ne _ _ (Ne.symm hk), beq_false_of_ne hk]

/-- The version of a header is the upper five bits of the byte it shares with the status. -/
theorem getVersion_div (h : Header) : h.getVersion = h.versionStatus.toNat / 8 := by
  simp only [Header.getVersion]
  have : ∀ v : Fin 256, ((UInt8.ofFin v >>> 3) &&& 0x1f).toNat = (UInt8.ofFin v).toNat / 8 := by decide +kernel
  exact this h.versionStatus.toFin

/-- **C06.** A stream that starts with a message is decoded to that message: its header, for every name of the metadata its last
value, its body, and what follows is left in the stream. -/
theorem decode_accepts (maxLen bufCap bodyCap : Nat) (hmax : maxLen < 2 ^ 32) {s : Bytes} {h : Header}
    {ps : List (Bytes × Bytes)} {body rest : Bytes} (hf : Spec.IsFrame maxLen s h ps body rest) :
    ∃ msg, (decode maxLen bufCap bodyCap s).res = .ok msg ∧ (decode maxLen bufCap bodyCap s).rest = rest ∧
      msg.header = h ∧ msg.body = body ∧ ∀ k, msg.metadata.load k = ps.reverse.lookup k := by
  obtain ⟨hm, hv, hb, raw, hraw, hmt, rfl⟩ := hf
  have hpm : parseMeta [] [] [] raw = ([], AMap.storeAll [] ps) := (parseMeta_iff _ _).2 ⟨ps, hmt, rfl⟩
  have hh : ({ h with magic := MotanMagic } : Header) = h := by rw [show MotanMagic = h.magic from hm.symm]
  have hver : h.getVersion = Version2 := by rw [getVersion_div]; exact hv
  rw [← headerBytes_cons]
  rw [show headerBytes h ++ beBytes 4 raw.length ++ raw ++ beBytes 4 body.length ++ body ++ rest
    = headerBytes h ++ (beBytes 4 raw.length ++ (raw ++ (beBytes 4 body.length ++ body ++ rest))) by simp]
  refine ⟨⟨h, AMap.storeAll [] ps, body, 0⟩, ?_⟩
  have key : ∃ al, decode maxLen bufCap bodyCap
      (headerBytes h ++ (beBytes 4 raw.length ++ (raw ++ (beBytes 4 body.length ++ body ++ rest))))
      = ⟨.ok ⟨h, AMap.storeAll [] ps, body, 0⟩, rest, al⟩ := by
    rw [decode, readAtLeast_append (n := HeaderLength) (length_headerBytes _)]
    simp only [magic_headerBytes, parseHeader_headerBytes, hh, hver, ne_eq, not_true_eq_false, if_false]
    have hrv : beVal (beBytes 4 raw.length) = raw.length := beVal_beBytes (by omega)
    have hfm : Message.fresh.metadata = [] := rfl
    rw [decodeMeta, readAtLeast_append (by simp)]
    simp only [hrv]
    rw [if_neg (by omega)]
    by_cases h0 : raw.length > 0
    · rw [if_pos h0, readBytes_append rfl]
      simp only [hfm, hpm, ne_eq, not_true_eq_false, if_false]
      exact decodeBody_frame maxLen bodyCap ⟨h, AMap.storeAll [] ps, [], 0⟩ body rest _ hb (by omega)
    · have hnil : raw = [] := List.length_eq_zero_iff.mp (by omega)
      rw [if_neg h0, hnil]
      rw [hnil] at hpm
      have hmd : AMap.storeAll [] ps = [] := (congrArg Prod.snd hpm).symm
      rw [hmd]
      exact decodeBody_frame maxLen bodyCap ⟨h, [], [], 0⟩ body rest _ hb (by omega)
  obtain ⟨al, hal⟩ := key
  rw [hal]
  refine ⟨rfl, rfl, rfl, rfl, fun k => ?_⟩
  rw [load_storeAll_last]
  cases ps.reverse.lookup k <;> rfl

/-- **C06.** Only a stream that starts with a message is decoded to one, and what is returned is what the stream says. -/
theorem decode_only (maxLen bufCap bodyCap : Nat) {s : Bytes} {msg : Message}
    (h : (decode maxLen bufCap bodyCap s).res = .ok msg) :
    ∃ ps, Spec.IsFrame maxLen s msg.header ps msg.body (decode maxLen bufCap bodyCap s).rest ∧
      ∀ k, msg.metadata.load k = ps.reverse.lookup k := by
  obtain ⟨hd, raw, h1, h2, h3, h4, h5, h6, h7, h8⟩ := (decode_sound h).frame
  obtain ⟨ps, hmt, hmd⟩ := (parseMeta_iff _ _).1 h8
  refine ⟨ps, ⟨by rw [h4]; rfl, by rw [← getVersion_div]; exact h5, h7, raw, h6, hmt, ?_⟩, fun k => ?_⟩
  · have e : hd = [0xf1, 0xf1, msg.header.msgType, msg.header.versionStatus, msg.header.serialize] ++
        beBytes 8 msg.header.requestID.toNat := by
      match hd, h1 with
      | [a, b, c, d, e, i1, i2, i3, i4, i5, i6, i7, i8], _ =>
        simp only [List.take_succ_cons, List.take_zero, List.cons.injEq, and_true] at h3
        obtain ⟨rfl, rfl⟩ := h3
        rw [h4]
        have hlt := beVal_lt [i1, i2, i3, i4, i5, i6, i7, i8]
        have hb := beBytes_beVal [i1, i2, i3, i4, i5, i6, i7, i8]
        simp only [List.length_cons, List.length_nil] at hlt hb
        have : (UInt64.ofNat (beVal [i1, i2, i3, i4, i5, i6, i7, i8])).toNat = beVal [i1, i2, i3, i4, i5, i6, i7, i8] := by
          rw [UInt64.toNat_ofNat']
          exact Nat.mod_eq_of_lt hlt
        simp only [parseHeader, List.getD_cons_succ, List.getD_cons_zero, List.drop_succ_cons, List.drop_zero,
          List.take_succ_cons, List.take_zero, this, hb, List.cons_append, List.nil_append]
    rw [← e]
    exact h2
  · rw [hmd, load_storeAll_last]
    cases ps.reverse.lookup k <;> rfl

/-- **C06.** A stream is refused exactly if it does not start with a message. -/
theorem decode_refused_iff (maxLen bufCap bodyCap : Nat) (hmax : maxLen < 2 ^ 32) (s : Bytes) :
    (∃ e, (decode maxLen bufCap bodyCap s).res = .error e) ↔ ¬∃ h ps body rest, Spec.IsFrame maxLen s h ps body rest := by
  constructor
  · rintro ⟨e, he⟩ ⟨h, ps, body, rest, hf⟩
    obtain ⟨msg, hr, _⟩ := decode_accepts maxLen bufCap bodyCap hmax hf
    rw [he] at hr; cases hr
  · intro hn
    cases hr : (decode maxLen bufCap bodyCap s).res with
    | error e => exact ⟨e, rfl⟩
    | ok msg =>
      obtain ⟨ps, hf, _⟩ := decode_only maxLen bufCap bodyCap hr
      exact absurd ⟨_, _, _, _, hf⟩ hn

/-- A message with two values of one name, an empty line and a body of two bytes, followed by one more byte. -/
example : Spec.IsFrame 10
    ([0xf1, 0xf1, 2, 8, 48, 0, 0, 0, 0, 0, 0, 1, 44, 0, 0, 0, 8] ++ b!"a\nb\n\na\nc" ++ [0, 0, 0, 2] ++ b!"xy" ++ b!"z")
    ⟨0xf1f1, 2, 8, 48, 300⟩ [(b!"a", b!"b"), (b!"a", b!"c")] b!"xy" b!"z" :=
  ⟨rfl, by decide, by decide, b!"a\nb\n\na\nc", by decide,
    ⟨[b!"a", b!"b", [], b!"a", b!"c"], by decide, by decide, by decide +kernel,
      .pair (by decide) (.skip (.pair (by decide) .none))⟩, by decide +kernel⟩

/-- A name without a value is no metadata. -/
example : ¬∃ ps, Spec.Pairs [b!"a"] ps := by rintro ⟨ps, h⟩; cases h

end Motan.Props
