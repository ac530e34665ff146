import Verif.Proof.Motan1

/-!
# Lemmas about the motan1 model: reading and re-encoding requests
-/

namespace Motan.Motan1

open Motan2 (Meta)
open Convert (Lib)
open Spec.Motan1 (blocks utf Arg frame)

/-- A frame that is read has the shape of a frame and lies within the limit. -/
theorem readV1Message_sound {max : Nat} {s rest : Bytes} {m : Msg} (h : readV1Message max s = (.ok m, rest)) :
    ∃ pre r1 body, pre.length = 4 ∧ r1 < 2 ^ 64 ∧ body.length + 16 < 2 ^ 32 ∧ body.length + 16 ≤ max ∧
      m.origin = frame pre r1 m.rid.toNat m.innerVersion m.flag body ∧ m.innerLength = body.length ∧
      s = m.origin ++ rest := by
  rw [readV1Message] at h
  by_cases h1 : s.length < V1L1HeaderLength
  · rw [if_pos h1] at h; simp at h
  rw [if_neg h1] at h
  simp only at h
  by_cases h2 : V1L1HeaderLength + beVal ((s.drop 12).take 4) < V1AllHeaderLength ∨
      V1L1HeaderLength + beVal ((s.drop 12).take 4) > V1L1HeaderLength + max
  · rw [if_pos h2] at h; simp at h
  rw [if_neg h2] at h
  rw [not_or] at h2
  let L := beVal ((s.drop 12).take 4)
  have hL : beVal ((s.drop 12).take 4) = L := rfl
  rw [hL] at h h2
  have hL32 : L < 2 ^ 32 := by
    have := beVal_lt ((s.drop 12).take 4)
    rw [hL] at this
    have h4 : ((s.drop 12).take 4).length ≤ 4 := by rw [List.length_take]; omega
    calc L < _ := this
      _ ≤ 256 ^ 4 := Nat.pow_le_pow_right (by decide) h4
      _ = 2 ^ 32 := by decide
  rw [Motan2.readAtLeast] at h
  by_cases h3 : V1L1HeaderLength + L ≤ s.length
  · rw [if_pos h3] at h
    simp only at h
    let ori := s.take (V1L1HeaderLength + L)
    have hori : s.take (V1L1HeaderLength + L) = ori := rfl
    rw [hori] at h
    by_cases h4 : beVal ((ori.drop 16).take 2) ≠ InnerMotanMagic
    · rw [if_pos h4] at h; simp at h
    rw [if_neg h4] at h
    by_cases h5 : beVal ((ori.drop 28).take 4) + V1AllHeaderLength ≠ V1L1HeaderLength + L
    · rw [if_pos h5] at h; simp at h
    rw [if_neg h5] at h
    simp only [Prod.mk.injEq, Except.ok.injEq] at h
    obtain ⟨hm, hrest⟩ := h
    rw [Decidable.not_not] at h4 h5
    have hlen : ori.length = V1L1HeaderLength + L := by
      rw [← hori, List.length_take]; omega
    replace hlen : ori.length = 16 + L := hlen
    replace h2 : ¬ 16 + L < 32 ∧ ¬ 16 + L > 16 + max := h2
    replace h5 : beVal ((ori.drop 28).take 4) + 32 = 16 + L := h5
    obtain ⟨pre, r1, l1, mg, v, f, r2, l2, body, e, hp, hr1, hl1, hmg, hr2, hl2⟩ := split32 ori (by omega)
    have hel := congrArg List.length e
    simp only [List.length_append, hp, hr1, hl1, hmg, hr2, hl2, List.length_cons, List.length_nil] at hel
    have hs : s = ori ++ rest := by rw [← hrest, ← hori, List.take_append_drop]
    have e12 : (s.drop 12).take 4 = l1 := by
      rw [hs, e]
      have : pre ++ r1 ++ l1 ++ mg ++ [v, f] ++ r2 ++ l2 ++ body ++ rest =
        (pre ++ r1) ++ (l1 ++ (mg ++ [v, f] ++ r2 ++ l2 ++ body ++ rest)) := by simp
      rw [this, List.drop_left' (by simp [hp, hr1]), List.take_left' hl1]
    have e16 : (ori.drop 16).take 2 = mg := by
      have : ori = (pre ++ r1 ++ l1) ++ (mg ++ ([v, f] ++ r2 ++ l2 ++ body)) := by rw [e]; simp
      rw [this, List.drop_left' (by simp [hp, hr1, hl1]), List.take_left' hmg]
    have d18 : ori = (pre ++ r1 ++ l1 ++ mg) ++ (v :: f :: (r2 ++ l2 ++ body)) := by rw [e]; simp
    have e18 : ori.getD 18 0 = v := by
      rw [d18, List.getD_eq_getElem?_getD, List.getElem?_append_right (by simp [hp, hr1, hl1, hmg])]
      simp [hp, hr1, hl1, hmg]
    have e19 : ori.getD 19 0 = f := by
      rw [d18, List.getD_eq_getElem?_getD, List.getElem?_append_right (by simp [hp, hr1, hl1, hmg])]
      simp [hp, hr1, hl1, hmg]
    have e20 : (ori.drop 20).take 8 = r2 := by
      have : ori = (pre ++ r1 ++ l1 ++ mg ++ [v, f]) ++ (r2 ++ (l2 ++ body)) := by rw [e]; simp
      rw [this, List.drop_left' (by simp [hp, hr1, hl1, hmg]), List.take_left' hr2]
    have e28 : (ori.drop 28).take 4 = l2 := by
      have : ori = (pre ++ r1 ++ l1 ++ mg ++ [v, f] ++ r2) ++ (l2 ++ body) := by rw [e]; simp
      rw [this, List.drop_left' (by simp [hp, hr1, hl1, hmg, hr2]), List.take_left' hl2]
    rw [e12] at hL
    rw [e16] at h4
    rw [e28] at h5
    have m1 : mg = [0xf0, 0xf0] := by
      have := beBytes_beVal mg
      rw [h4, hmg] at this
      rw [← this]; decide
    have b1 : beBytes 4 (body.length + 16) = l1 := by
      have := beBytes_beVal l1
      rw [hl1, hL] at this
      rw [← this]; congr 1; omega
    have b2 : beBytes 4 body.length = l2 := by
      have := beBytes_beVal l2
      rw [hl2] at this
      rw [← this]; congr 1; omega
    have b3 : beBytes 8 (beVal r1) = r1 := by
      have := beBytes_beVal r1
      rwa [hr1] at this
    have hr2lt : beVal r2 < 2 ^ 64 := by
      have := beVal_lt r2
      rw [hr2] at this; exact this
    have hr1lt : beVal r1 < 2 ^ 64 := by
      have := beVal_lt r1
      rw [hr1] at this; exact this
    have b4 : beBytes 8 (beVal r2) = r2 := by
      have := beBytes_beVal r2
      rwa [hr2] at this
    refine ⟨pre, beVal r1, body, hp, hr1lt, by omega, by omega, ?_, ?_, ?_⟩
    · rw [← hm]
      simp only [e18, e19, e20]
      rw [UInt64.toNat_ofNat', Nat.mod_eq_of_lt hr2lt, frame, b1, b2, b3, b4, e, m1]
      simp
    · rw [← hm]; simp only [e28]; omega
    · rw [← hm]; exact hs
  · rw [if_neg h3] at h
    split at h
    · simp at h
    · rename_i heq
      split at heq <;> simp at heq

/-! ### Prefix locality of the readers -/

/-- A reader that succeeds has read a prefix, and reads the same from that prefix whatever follows. -/
def Local {α : Type} (f : Bytes → Except Err (α × Bytes)) (s : Bytes) (a : α) (r : Bytes) : Prop :=
  ∃ p, s = p ++ r ∧ ∀ z, f (p ++ z) = .ok (a, z)

theorem readInt16_local {b r : Bytes} {i : Int} (h : readInt16 b = .ok (i, r)) : Local readInt16 b i r := by
  rw [readInt16] at h
  by_cases hl : b.length < 2
  · rw [if_pos hl] at h; simp at h
  · rw [if_neg hl] at h
    simp only [Except.ok.injEq, Prod.mk.injEq] at h
    refine ⟨b.take 2, by rw [← h.2, List.take_append_drop], fun z => ?_⟩
    have h2 : (b.take 2).length = 2 := by rw [List.length_take]; omega
    rw [readInt16, if_neg (by rw [List.length_append]; omega), List.take_left' h2, List.drop_left' h2]
    simp only [h.1]

theorem readUtf_local {b r : Bytes} {i : Bytes} (h : readUtf b = .ok (i, r)) : Local readUtf b i r := by
  rw [readUtf] at h
  split at h
  · simp at h
  · rename_i l b' h1
    obtain ⟨p, e, hp⟩ := readInt16_local h1
    by_cases hl : l > 0
    · rw [if_pos hl] at h
      by_cases hb : b'.length < l.toNat
      · rw [if_pos hb] at h; simp at h
      · rw [if_neg hb] at h
        simp only [Except.ok.injEq, Prod.mk.injEq] at h
        have hlt : (b'.take l.toNat).length = l.toNat := by rw [List.length_take]; omega
        refine ⟨p ++ b'.take l.toNat, by rw [e, ← h.2, List.append_assoc, List.take_append_drop], fun z => ?_⟩
        rw [readUtf, List.append_assoc, hp]
        simp only
        rw [if_pos hl, if_neg (by rw [List.length_append]; omega), List.take_left' hlt, List.drop_left' hlt, h.1]
    · rw [if_neg hl] at h
      simp only [Except.ok.injEq, Prod.mk.injEq] at h
      refine ⟨p, by rw [e, h.2], fun z => ?_⟩
      rw [readUtf, hp]
      simp only
      rw [if_neg hl, h.1]

theorem readInfos_local {b : Bytes} {x y w r : Bytes} (h : readInfos b = .ok (x, y, w, r)) :
    ∃ p, b = p ++ r ∧ ∀ z, readInfos (p ++ z) = .ok (x, y, w, z) := by
  rw [readInfos] at h
  split at h
  · simp at h
  · rename_i i0 b0 h0
    obtain ⟨p0, e0, hp0⟩ := readUtf_local h0
    by_cases h1 : i0 = b!"1"
    · rw [if_pos h1] at h
      split at h
      · simp at h
      · rename_i sg b1 hs
        obtain ⟨p1, e1, hp1⟩ := readUtf_local hs
        simp only [Except.ok.injEq, Prod.mk.injEq] at h
        obtain ⟨rfl, rfl, rfl, rfl⟩ := h
        refine ⟨p0 ++ p1, by rw [e0, e1, List.append_assoc], fun z => ?_⟩
        rw [readInfos, List.append_assoc, hp0]
        simp only
        rw [if_pos h1, hp1]
    · rw [if_neg h1] at h
      split at h
      · simp at h
      · rename_i i1 b1 hs
        obtain ⟨p1, e1, hp1⟩ := readUtf_local hs
        split at h
        · simp at h
        · rename_i i2 b2 hs2
          obtain ⟨p2, e2, hp2⟩ := readUtf_local hs2
          simp only [Except.ok.injEq, Prod.mk.injEq] at h
          obtain ⟨rfl, rfl, rfl, rfl⟩ := h
          refine ⟨p0 ++ (p1 ++ p2), by rw [e0, e1, e2]; simp, fun z => ?_⟩
          rw [readInfos, List.append_assoc, hp0]
          simp only
          rw [if_neg h1, List.append_assoc, hp1]
          simp only
          rw [hp2]

theorem drop_nonempty {s : Bytes} {n : Nat} {r : Bytes} (h : s.drop n = r) (hr : r ≠ []) :
    s = s.take n ++ r ∧ (s.take n).length = n := by
  refine ⟨by rw [← h, List.take_append_drop], ?_⟩
  rw [List.length_take]
  rcases Nat.lt_or_ge s.length n with hlt | hge
  · exact absurd (by rw [← h]; exact List.drop_eq_nil_of_le (by omega)) hr
  · omega

/-- Skipping an argument that something follows reads exactly one serialized argument. -/
theorem skipByteArray_arg {s c r : Bytes} {r0 : Bytes} (hs : s = TC_ARRAY :: r0)
    (h : skipByteArray false s = .ok (c, r)) (hr : r ≠ []) : ∃ a, s = a ++ r ∧ Arg a := by
  rw [skipByteArray] at h
  by_cases h10 : s.length < 10
  · rw [if_pos h10] at h; simp at h
  rw [if_neg h10] at h
  simp only at h
  match r0, hs with
  | [], hs => rw [hs] at h10; simp at h10
  | t :: r1, hs =>
    have ht : s.getD 1 0 = t := by rw [hs]; rfl
    rw [ht] at h
    have key : ∀ (k : Nat) (s1 : Bytes), s1 = s.drop (k + 2) → s.length ≥ k + 2 →
        (if s1.length < 4 then (Except.error Err.eof : Except Err (Bytes × Bytes))
          else .ok ([], (s1.drop 4).drop (beVal (s1.take 4)))) = .ok (c, r) →
        ∃ d content, s = (TC_ARRAY :: t :: d ++ beBytes 4 content.length ++ content) ++ r ∧ d.length = k ∧
          content.length < 2 ^ 32 := by
      intro k s1 hs1 hk hh
      by_cases h4 : s1.length < 4
      · rw [if_pos h4] at hh; simp at hh
      rw [if_neg h4] at hh
      simp only [Except.ok.injEq, Prod.mk.injEq] at hh
      obtain ⟨e, hl⟩ := drop_nonempty hh.2 hr
      refine ⟨(s.take (k + 2)).drop 2, (s1.drop 4).take (beVal (s1.take 4)), ?_, ?_, ?_⟩
      · rw [hl]
        have b4 : beBytes 4 (beVal (s1.take 4)) = s1.take 4 := by
          have := beBytes_beVal (s1.take 4)
          rwa [show (s1.take 4).length = 4 by rw [List.length_take]; omega] at this
        rw [b4]
        have e1 : TC_ARRAY :: t :: (s.take (k + 2)).drop 2 = s.take (k + 2) := by
          rw [hs]; simp
        rw [e1, List.append_assoc, List.append_assoc, ← e, List.take_append_drop, hs1, List.take_append_drop]
      · rw [List.length_drop, List.length_take]; omega
      · rw [hl]
        have := beVal_lt (s1.take 4)
        rw [show (s1.take 4).length = 4 by rw [List.length_take]; omega] at this
        exact this
    by_cases hc : t = TC_CLASSDESC
    · subst hc
      rw [if_pos rfl] at h
      by_cases h23 : s.length < 23
      · rw [if_pos h23] at h; simp at h
      rw [if_neg h23] at h
      simp only [Bool.false_eq_true, if_false] at h
      obtain ⟨d, content, e, hd, hcl⟩ := key 17 _ rfl (by omega) h
      exact ⟨_, e, .desc d content hd hcl⟩
    · rw [if_neg hc] at h
      by_cases hf : t = TC_REFERENCE
      · subst hf
        rw [if_pos rfl] at h
        simp only [Bool.false_eq_true, if_false] at h
        obtain ⟨d, content, e, hd, hcl⟩ := key 4 _ rfl (by omega) h
        exact ⟨_, e, .ref d content hd hcl⟩
      · rw [if_neg hf] at h; simp at h

theorem skip_common (pre content z : Bytes) (k : Nat) (hk : pre.length = k) (hc : content.length < 2 ^ 32) :
    (pre ++ beBytes 4 content.length ++ content ++ z).drop k = beBytes 4 content.length ++ (content ++ z) := by
  rw [List.append_assoc, List.append_assoc, List.drop_left' hk]

/-- The argument reader reads any serialized argument. -/
theorem skipByteArray_of_arg {a : Bytes} (h : Arg a) (z : Bytes) (ha : a ≠ [0x70]) :
    (∃ r0, a = TC_ARRAY :: r0) ∧ skipByteArray false (a ++ z) = .ok ([], z) ∧ 10 ≤ a.length := by
  cases h with
  | null => exact absurd rfl ha
  | desc d content hd hc =>
    refine ⟨⟨_, rfl⟩, ?_, by simp [hd]; omega⟩
    rw [skipByteArray, if_neg (by simp [hd]; omega)]
    have ht : ((0x75 :: 0x72 :: d ++ beBytes 4 content.length ++ content ++ z : Bytes)).getD 1 0 = 0x72 := rfl
    simp only [ht]
    rw [if_pos (by decide), if_neg (by simp [hd]; omega)]
    simp only
    rw [skip_common (0x75 :: 0x72 :: d) content z 19 (by simp [hd]) hc, if_neg (by simp), List.take_left' (by simp),
      List.drop_left' (by simp), beVal_beBytes (by omega), if_neg (by decide), List.drop_left]
  | ref d content hd hc =>
    refine ⟨⟨_, rfl⟩, ?_, by simp [hd]; omega⟩
    rw [skipByteArray, if_neg (by simp [hd]; omega)]
    have ht : ((0x75 :: 0x71 :: d ++ beBytes 4 content.length ++ content ++ z : Bytes)).getD 1 0 = 0x71 := rfl
    simp only [ht]
    rw [if_neg (by decide), if_pos (by decide)]
    simp only
    rw [skip_common (0x75 :: 0x71 :: d) content z 6 (by simp [hd]) hc, if_neg (by simp), List.take_left' (by simp),
      List.drop_left' (by simp), beVal_beBytes (by omega), if_neg (by decide), List.drop_left]

theorem arg_ne_nil {a : Bytes} (h : Arg a) : a ≠ [] := by cases h <;> simp

/-- Reading serialized arguments up to the attachment block. -/
theorem parseArgs_of_args (args : List Bytes) (h : ∀ a ∈ args, Arg a) (n : Nat) (t : UInt8) (r : Bytes)
    (ht : t = TC_BLOCKDATA ∨ t = TC_BLOCKDATALONG) (a r' : Bytes) (hb : getBlock (t :: r) = .ok (a, r')) :
    parseArgs n (args.flatten ++ t :: r) = .ok (n + args.length, t :: r, a) := by
  induction args generalizing n with
  | nil =>
    rw [List.flatten_nil, List.nil_append, parseArgs.eq_def]
    simp only
    rw [if_neg (by rcases ht with rfl | rfl <;> decide), if_neg (by rcases ht with rfl | rfl <;> decide), if_pos ht, hb]
    rfl
  | cons x xs ih =>
    have hx := h x (by simp)
    have ihx := fun n => ih (fun a ha => h a (by simp [ha])) n
    rw [List.flatten_cons, List.append_assoc]
    by_cases hn : x = [0x70]
    · subst hn
      show parseArgs n (0x70 :: (xs.flatten ++ t :: r)) = _
      rw [parseArgs.eq_def]
      simp only
      rw [if_pos (by decide), ihx, List.length_cons]
      congr 2; omega
    · obtain ⟨⟨r0, e⟩, hsk, _⟩ := skipByteArray_of_arg hx (xs.flatten ++ t :: r) hn
      rw [e] at hsk ⊢
      rw [List.cons_append] at hsk ⊢
      rw [parseArgs.eq_def]
      simp only
      rw [if_neg (by decide), if_pos (by decide)]
      split
      · rename_i hh; rw [hsk] at hh; simp at hh
      · rename_i hh
        rw [hsk] at hh
        simp only [Except.ok.injEq, Prod.mk.injEq] at hh
        rw [← hh.2, ihx, List.length_cons]
        congr 2; omega

/-- The argument loop, when it succeeds, has read serialized arguments. -/
theorem parseArgs_sound (n : Nat) (s : Bytes) {m : Nat} {e a : Bytes} (h : parseArgs n s = .ok (m, e, a)) :
    ∃ args : List Bytes, (∀ x ∈ args, Arg x) ∧ m = n + args.length ∧ s = args.flatten ++ e ∧
      (∃ t r, e = t :: r ∧ (t = TC_BLOCKDATA ∨ t = TC_BLOCKDATALONG)) ∧ ∃ r, getBlock e = .ok (a, r) := by
  fun_induction parseArgs n s with
  | case1 => simp at h
  | case2 n r ih =>
    obtain ⟨args, h1, h2, h3, h4⟩ := ih h
    refine ⟨[0x70] :: args, ?_, by rw [h2, List.length_cons]; omega, by rw [h3]; rfl, h4⟩
    intro x hx
    rcases List.mem_cons.mp hx with rfl | hx
    · exact .null
    · exact h1 x hx
  | case3 => simp at h
  | case4 n r c r' _ hsk ih =>
    have hne : r' ≠ [] := by
      intro hh; subst hh
      rw [parseArgs.eq_def] at h; simp at h
    obtain ⟨args, h1, h2, h3, h4⟩ := ih h
    obtain ⟨x, e1, hx⟩ := skipByteArray_arg rfl hsk hne
    refine ⟨x :: args, ?_, by rw [h2, List.length_cons]; omega, by rw [e1, h3]; simp, h4⟩
    intro y hy
    rcases List.mem_cons.mp hy with rfl | hy
    · exact hx
    · exact h1 y hy
  | case5 => simp at h
  | case6 n t r _ _ ht a' r'' hb =>
    simp only [Except.ok.injEq, Prod.mk.injEq] at h
    obtain ⟨rfl, rfl, rfl⟩ := h
    exact ⟨[], by simp, by simp, rfl, ⟨_, _, rfl, ht⟩, _, hb⟩
  | case7 => simp at h

/-! ### Attachments -/

theorem beVal_take2 (n : Nat) (h : n < 32768) (z : Bytes) : beVal ((beBytes 2 n ++ z).take 2) = n := by
  rw [List.take_left' (by simp), beVal_beBytes (by omega)]

theorem readInt16_be (n : Nat) (h : n < 32768) (z : Bytes) : readInt16 (beBytes 2 n ++ z) = .ok ((n : Int), z) := by
  rw [readInt16, if_neg (by simp)]
  simp only [beVal_take2 n h]
  rw [if_pos h, List.drop_left' (by simp)]

theorem readUtf_utf (s : Bytes) (h : s.length < 32768) (z : Bytes) : readUtf (utf s ++ z) = .ok (s, z) := by
  rw [utf, List.append_assoc, readUtf, readInt16_be _ h]
  simp only
  by_cases h0 : s.length = 0
  · rw [if_neg (by omega), List.eq_nil_of_length_eq_zero h0]; rfl
  · rw [if_pos (by omega), Int.toNat_natCast, if_neg (by rw [List.length_append]; omega), List.take_left, List.drop_left]

theorem writeUtfStr_eq (s : Bytes) (h : s.length < 65536) : writeUtfStr s = utf s := by
  rw [writeUtfStr, utf, UInt16.toNat_ofNat', Nat.mod_eq_of_lt h]

/-- A pair fits: both strings are shorter than 32768 bytes. -/
def Fits (p : Bytes × Bytes) : Prop := p.1.length < 32768 ∧ p.2.length < 32768

theorem readPairs_pairs (ps : List (Bytes × Bytes)) (h : ∀ p ∈ ps, Fits p) (m : Meta) (z : Bytes) :
    readPairs ps.length m ((ps.map fun p => writeUtfStr p.1 ++ writeUtfStr p.2).flatten ++ z) =
      .ok (AMap.storeAll m ps) := by
  induction ps generalizing m with
  | nil => rfl
  | cons p ps ih =>
    obtain ⟨h1, h2⟩ := h p (by simp)
    rw [List.map_cons, List.flatten_cons, List.length_cons, readPairs, writeUtfStr_eq _ (by omega),
      writeUtfStr_eq _ (by omega), List.append_assoc, List.append_assoc, readUtf_utf _ h1]
    simp only
    rw [readUtf_utf _ h2]
    simp only
    rw [ih (fun q hq => h q (by simp [hq]))]
    rfl

/-- The number of attachments fits its field. -/
def CountFits (version : UInt8) (n : Nat) : Prop :=
  if version = versionV1Compress then n < 32768 else n < 2 ^ 32

theorem readAttachments_encode (att : Meta) (v : UInt8) (hf : ∀ p ∈ att, Fits p) (hc : CountFits v att.length) :
    readAttachments v (encodeAttachment att v) = .ok (AMap.storeAll [] att) := by
  rw [readAttachments, encodeAttachment]
  rw [CountFits] at hc
  by_cases hv : v = versionV1Compress
  · simp only [hv, if_true] at hc ⊢
    rw [UInt16.toNat_ofNat', Nat.mod_eq_of_lt (by omega), readInt16_be _ hc]
    simp only
    have := readPairs_pairs att hf [] []
    rw [List.append_nil] at this
    rw [Int.toNat_natCast, this]
  · simp only [hv, if_false] at hc ⊢
    rw [UInt32.toNat_ofNat', Nat.mod_eq_of_lt (by omega), readInt, if_neg (by simp), List.take_left' (by simp),
      List.drop_left' (by simp), beVal_beBytes (by omega)]
    simp only [Except.map]
    have := readPairs_pairs att hf [] []
    rw [List.append_nil] at this
    rw [Int.toNat_natCast, this]

theorem encodeAttachment_ne_nil (att : Meta) (v : UInt8) : encodeAttachment att v ≠ [] := by
  intro h
  have := congrArg List.length h
  rw [encodeAttachment, List.length_append] at this
  split at this <;> simp at this

/-! ### Requests -/

theorem blocks_head {c : Bytes} (h : c ≠ []) (z : Bytes) :
    ∃ t r, blocks c ++ z = t :: r ∧ (t = TC_BLOCKDATA ∨ t = TC_BLOCKDATALONG) := by
  rw [blocks_cons h, List.append_assoc, List.append_assoc]
  obtain ⟨t, r, h1, _, h3⟩ := blockLen_header (min c.length 1024) (by omega)
    (c.take 1024 ++ (blocks (c.drop 1024) ++ z))
  exact ⟨t, r, h1, h3⟩

/-- The magic number and version an object stream starts with. -/
def osHead : Bytes := [0xac, 0xed, 0x00, 0x05]

theorem checkObjectStream_head (s : Bytes) : checkObjectStream (osHead ++ s) = getBlock s := by
  rw [checkObjectStream, if_neg (by simp [osHead])]
  have h1 : (osHead ++ s).take 2 = [0xac, 0xed] := rfl
  have h2 : ((osHead ++ s).drop 2).take 2 = [0x00, 0x05] := rfl
  rw [h1, h2, if_neg (by decide)]
  rfl

theorem checkObjectStream_sound {s b r : Bytes} (h : checkObjectStream s = .ok (b, r)) :
    s = osHead ++ s.drop 4 ∧ s.take 4 = osHead ∧ getBlock (s.drop 4) = .ok (b, r) := by
  rw [checkObjectStream] at h
  by_cases h4 : s.length < 4
  · rw [if_pos h4] at h; simp at h
  rw [if_neg h4] at h
  by_cases hm : beVal (s.take 2) ≠ OS_MAGIC ∨ beVal ((s.drop 2).take 2) ≠ OS_VERSION
  · rw [if_pos hm] at h; simp at h
  rw [if_neg hm] at h
  rw [not_or, Decidable.not_not, Decidable.not_not] at hm
  have e : s.take 4 = osHead := by
    have e1 := beBytes_beVal (s.take 2)
    have e2 := beBytes_beVal ((s.drop 2).take 2)
    rw [hm.1, show (s.take 2).length = 2 by rw [List.length_take]; omega] at e1
    rw [hm.2, show ((s.drop 2).take 2).length = 2 by rw [List.length_take, List.length_drop]; omega] at e2
    have e3 : s.take 4 = s.take 2 ++ (s.drop 2).take 2 := by
      rw [show 4 = 2 + 2 from rfl, List.take_add]
    rw [e3, ← e1, ← e2]; decide
  exact ⟨by rw [← e, List.take_append_drop], e, h⟩

/-- The body written for a request without arguments. -/
theorem parseReq_noargs (info : Bytes) (x y w : Bytes) (hinfo : ∀ z, readInfos (info ++ z) = .ok (x, y, w, z))
    (att : Meta) (v : UInt8) (z : Bool) (hf : ∀ p ∈ att, Fits p) (hc : CountFits v att.length) :
    parseReq (osHead ++ blocks (info ++ encodeAttachment att v)) v z =
      .ok { bytes := osHead ++ blocks (info ++ encodeAttachment att v), version := v, isGzip := z,
            sBlock := info ++ encodeAttachment att v, attachmentPos := info.length, argSize := 0, argBytes := [],
            service := x, method := y, desc := w, attachment := AMap.storeAll [] att } := by
  have hne : info ++ encodeAttachment att v ≠ [] := by simp [encodeAttachment_ne_nil]
  have hg := getBlock_blocks (info ++ encodeAttachment att v) [] hne (.inr (.inl rfl))
  rw [List.append_nil] at hg
  rw [parseReq, checkObjectStream_head, hg]
  simp only [hinfo]
  have h0 : ¬ (encodeAttachment att v).length = 0 := fun h =>
    encodeAttachment_ne_nil att v (List.eq_nil_of_length_eq_zero h)
  simp only [h0, if_false]
  rw [readAttachments_encode att v hf hc]
  simp

/-- The body written for a request with arguments. -/
theorem parseReq_args (info : Bytes) (x y w : Bytes) (hinfo : readInfos info = .ok (x, y, w, []))
    (args : List Bytes) (ha : ∀ a ∈ args, Arg a)
    (hs : info.length % 1024 ≠ 0 ∨ (info.length = 1024 ∧ args ≠ []))
    (att : Meta) (v : UInt8) (z : Bool) (hf : ∀ p ∈ att, Fits p) (hc : CountFits v att.length) :
    parseReq (osHead ++ (blocks info ++ (args.flatten ++ blocks (encodeAttachment att v)))) v z =
      .ok { bytes := osHead ++ (blocks info ++ (args.flatten ++ blocks (encodeAttachment att v))), version := v,
            isGzip := z, sBlock := info, attachmentPos := 0, argSize := args.length, argBytes := args.flatten,
            service := x, method := y, desc := w, attachment := AMap.storeAll [] att } := by
  have hni : info ≠ [] := by
    intro h; subst h
    rcases hs with hs | hs
    · exact absurd rfl hs
    · simp at hs
  have hne := encodeAttachment_ne_nil att v
  obtain ⟨t, r, hb, ht⟩ := blocks_head hne []
  rw [List.append_nil] at hb
  have hstop : stops info.length (args.flatten ++ blocks (encodeAttachment att v)) := by
    rcases hs with hs | ⟨hs, hna⟩
    · exact .inl hs
    · refine .inr (.inr ⟨hs, ?_⟩)
      match args, hna with
      | a :: as, _ =>
        have hca := ha a (by simp)
        by_cases hn : a = [0x70]
        · subst hn
          exact ⟨0x70, _, rfl, by decide⟩
        · obtain ⟨⟨r0, e⟩, _⟩ := skipByteArray_of_arg hca [] hn
          subst e
          exact ⟨TC_ARRAY, _, rfl, by decide⟩
  have hg := getBlock_blocks info _ hni hstop
  have hatt := getBlock_blocks (encodeAttachment att v) [] hne (.inr (.inl rfl))
  rw [List.append_nil, hb] at hatt
  have hp := parseArgs_of_args args ha 0 t r ht _ _ hatt
  rw [← hb, Nat.zero_add] at hp
  rw [parseReq, checkObjectStream_head, hg]
  simp only [hinfo, List.length_nil, if_true]
  rw [hp]
  simp only
  rw [readAttachments_encode att v hf hc]
  simp

/-- What a successful `parseReq` says about the stream. -/
theorem parseReq_sound {s : Bytes} {v : UInt8} {z : Bool} {st : ReqStream} (h : parseReq s v z = .ok st) :
    s.take 4 = osHead ∧ st.bytes = s ∧ st.version = v ∧
    ((st.attachmentPos = 0 ∧ readInfos st.sBlock = .ok (st.service, st.method, st.desc, []) ∧
        ∃ args : List Bytes, (∀ a ∈ args, Arg a) ∧ st.argSize = args.length ∧ st.argBytes = args.flatten) ∨
     (0 < st.attachmentPos ∧ st.argSize = 0 ∧ st.argBytes = [] ∧
        ∀ z, readInfos (st.sBlock.take st.attachmentPos ++ z) = .ok (st.service, st.method, st.desc, z))) := by
  rw [parseReq] at h
  split at h
  · simp at h
  rename_i sb rest hco
  obtain ⟨_, h4, hg⟩ := checkObjectStream_sound hco
  split at h
  · simp at h
  rename_i x y w b hi
  by_cases hb : b.length = 0
  · rw [if_pos hb] at h
    split at h
    · simp at h
    rename_i n argEnd aB hpa
    split at h
    · simp at h
    rename_i att hra
    simp only [Except.ok.injEq] at h
    subst h
    have hb0 : b = [] := List.eq_nil_of_length_eq_zero hb
    subst hb0
    obtain ⟨args, h1, h2, h3, _⟩ := parseArgs_sound 0 rest hpa
    refine ⟨h4, rfl, rfl, .inl ⟨rfl, hi, args, h1, by show n = _; rw [h2]; omega, ?_⟩⟩
    show rest.take (rest.length - argEnd.length) = _
    rw [h3]; simp
  · rw [if_neg hb] at h
    split at h
    · simp at h
    rename_i att hra
    simp only [Except.ok.injEq] at h
    subst h
    obtain ⟨p, e, hp⟩ := readInfos_local hi
    refine ⟨h4, rfl, rfl, .inr ⟨?_, rfl, rfl, ?_⟩⟩
    · show 0 < sb.length - b.length
      have hpne : p ≠ [] := by
        intro hh; subst hh
        have := hp []
        rw [readInfos] at this
        simp [readUtf, readInt16] at this
      have := List.length_pos_iff.mpr hpne
      rw [e, List.length_append]; omega
    · intro z
      show readInfos (sb.take (sb.length - b.length) ++ z) = _
      have : sb.take (sb.length - b.length) = p := by rw [e]; simp
      rw [this, hp]

end Motan.Motan1
