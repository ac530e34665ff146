import Verif.Model.Motan1
import Verif.Spec.Motan1

/-!
# Lemmas about the motan1 model: blocks
-/

namespace Motan.Motan1

open Spec.Motan1 (blockHeader blocks)

theorem blocks_nil : blocks [] = [] := by rw [blocks]; rfl

theorem blocks_cons {c : Bytes} (h : c ≠ []) :
    blocks c = blockHeader (min c.length 1024) ++ c.take 1024 ++ blocks (c.drop 1024) := by
  rw [blocks, dif_neg h]

theorem writeBlockHeader_eq (l : Nat) : writeBlockHeader l = blockHeader l := by
  rw [writeBlockHeader, blockHeader]
  by_cases h : l ≤ 0xff
  · rw [if_pos h, if_pos (by omega)]; rfl
  · rw [if_neg h, if_neg (by omega)]; rfl

/-- What is still to be written of the content `R` after `p` bytes of the current block. -/
def pend (first : Bool) (p : Nat) (R : Bytes) : Bytes :=
  if first then blocks R else R.take (1024 - p) ++ blocks (R.drop (1024 - p))

theorem pend_false (p : Nat) (R : Bytes) :
    pend false p R = R.take (1024 - p) ++ blocks (R.drop (1024 - p)) := rfl

structure WInv (st : WB) (R : Bytes) : Prop where
  rem : st.tRemain = R.length
  last : st.last = true → st.first = false ∧ st.blockPos + R.length ≤ 1024
  pos : st.blockPos ≤ 1024

theorem newBlock_inv {st : WB} {R : Bytes} (hi : WInv st R) (hR : R ≠ []) :
    WInv (newBlock st) R ∧ (newBlock st).first = false ∧
      (newBlock st).out ++ pend false (newBlock st).blockPos R = st.out ++ pend st.first st.blockPos R := by
  rw [newBlock]
  by_cases hc : (st.first || decide (st.blockPos ≥ MAX_BLOCK_SIZE)) = true
  · rw [if_pos hc]
    refine ⟨⟨hi.rem, ?_, Nat.zero_le _⟩, rfl, ?_⟩
    · intro hl
      refine ⟨rfl, ?_⟩
      show 0 + R.length ≤ 1024
      by_cases h : st.tRemain ≤ MAX_BLOCK_SIZE
      · rw [hi.rem] at h; have : MAX_BLOCK_SIZE = 1024 := rfl; omega
      · simp only [h, if_false] at hl
        have := hi.last hl; omega
    · have hp : pend st.first st.blockPos R = blocks R := by
        rw [pend]
        cases hf : st.first
        · rw [hf] at hc
          simp only [ge_iff_le, Bool.false_or, decide_eq_true_eq] at hc
          have h1 : st.blockPos = 1024 := by have := hi.pos; have : MAX_BLOCK_SIZE = 1024 := rfl; omega
          simp [h1]
        · simp
      rw [hp, blocks_cons hR, pend_false, writeBlockHeader_eq, hi.rem]
      simp [MAX_BLOCK_SIZE]
  · rw [if_neg hc]
    have hf : st.first = false := by
      cases h : st.first
      · rfl
      · rw [h] at hc; simp at hc
    exact ⟨hi, hf, by rw [hf]⟩

theorem writeChunk_inv (b : Bytes) (st : WB) (tail : Bytes) (hi : WInv st (b ++ tail)) :
    WInv (writeChunk b st) tail ∧
      (writeChunk b st).out ++ pend (writeChunk b st).first (writeChunk b st).blockPos tail =
        st.out ++ pend st.first st.blockPos (b ++ tail) := by
  fun_induction writeChunk b st with
  | case1 st => exact ⟨hi, rfl⟩
  | case2 b st hb st1 ws ih =>
    have hR : b ++ tail ≠ [] := by simp [hb]
    obtain ⟨h1, hf, h2⟩ := newBlock_inv hi hR
    have hpos := newBlock_pos st
    rw [show MAX_BLOCK_SIZE = 1024 from rfl] at hpos
    have hws : ws = min b.length (1024 - st1.blockPos) := rfl
    have hwb : ws ≤ b.length := by omega
    have hst1 : st1 = newBlock st := rfl
    have hi' : WInv { st1 with out := st1.out ++ b.take ws, blockPos := st1.blockPos + ws,
                               tRemain := st1.tRemain - ws } (b.drop ws ++ tail) := by
      refine ⟨?_, ?_, ?_⟩
      · show st1.tRemain - ws = _
        rw [show st1.tRemain = (b ++ tail).length from h1.rem]; simp only [List.length_append, List.length_drop]; omega
      · intro hl
        refine ⟨hf, ?_⟩
        show st1.blockPos + ws + _ ≤ 1024
        have := (h1.last hl).2
        rw [← hst1] at this
        simp only [List.length_append, List.length_drop] at this ⊢; omega
      · show st1.blockPos + ws ≤ 1024
        rw [← hst1] at hpos; omega
    obtain ⟨h3, h4⟩ := ih hi'
    refine ⟨h3, ?_⟩
    rw [h4, ← h2]
    show st1.out ++ b.take ws ++ pend st1.first (st1.blockPos + ws) (b.drop ws ++ tail) = st1.out ++ _
    have hf1 : st1.first = false := hf
    rw [hf1, ← hst1, pend_false, pend_false, List.append_assoc]
    congr 1
    rw [← hst1] at hpos
    have e1 : (b ++ tail).take (1024 - st1.blockPos)
        = b.take ws ++ (b.drop ws ++ tail).take (1024 - (st1.blockPos + ws)) := by
      have : b ++ tail = b.take ws ++ (b.drop ws ++ tail) := by
        rw [← List.append_assoc, List.take_append_drop]
      rw [this, List.take_append, List.length_take, Nat.min_eq_left hwb]
      congr 1
      · rw [List.take_of_length_le]; rw [List.length_take]; omega
      · congr 1; omega
    have e2 : (b ++ tail).drop (1024 - st1.blockPos)
        = (b.drop ws ++ tail).drop (1024 - (st1.blockPos + ws)) := by
      have : b ++ tail = b.take ws ++ (b.drop ws ++ tail) := by
        rw [← List.append_assoc, List.take_append_drop]
      rw [this, List.drop_append, List.length_take, Nat.min_eq_left hwb]
      rw [List.drop_eq_nil_of_le (by rw [List.length_take]; omega), List.nil_append]
      congr 1; omega
    rw [e1, e2]
    simp only [List.append_assoc]

theorem writeChunks_inv (bs : List Bytes) (st : WB) (hi : WInv st bs.flatten) :
    (writeChunks st bs).out = st.out ++ pend st.first st.blockPos bs.flatten := by
  induction bs generalizing st with
  | nil => 
    rw [writeChunks, pend]; simp [blocks_nil]
  | cons b bs ih =>
    rw [writeChunks]
    rw [List.flatten_cons] at hi
    by_cases hl : st.last = true
    · rw [if_pos hl]
      obtain ⟨hf, hp⟩ := hi.last hl
      rw [List.length_append] at hp
      rw [ih]
      · show st.out ++ b ++ pend st.first st.blockPos bs.flatten = _
        rw [hf, pend_false, pend_false, List.flatten_cons]
        rw [List.take_of_length_le (by omega), List.drop_eq_nil_of_le (by omega),
          List.take_of_length_le (by rw [List.length_append]; omega),
          List.drop_eq_nil_of_le (by rw [List.length_append]; omega)]
        simp
      · refine ⟨?_, ?_, hi.pos⟩
        · show st.tRemain - b.length = _
          rw [hi.rem, List.length_append]; omega
        · intro _
          refine ⟨hf, ?_⟩
          show st.blockPos + _ ≤ _
          omega
    · rw [if_neg hl]
      obtain ⟨h1, h2⟩ := writeChunk_inv b st bs.flatten hi
      rw [ih _ h1, h2, List.flatten_cons]

/-- The block writer writes the concatenation of its arguments in blocks of 1024. -/
theorem writeBlock_eq (bs : List Bytes) : writeBlock bs = blocks bs.flatten := by
  rw [writeBlock, writeChunks_inv]
  · simp [pend]
  · refine ⟨?_, ?_, ?_⟩
    · simp [List.length_flatten]
    · simp
    · simp

theorem blockLen_header (n : Nat) (h : n < 2 ^ 32) (s : Bytes) :
    ∃ t r, blockHeader n ++ s = t :: r ∧ blockLen t r = some (.ok (n, s)) ∧ (t = TC_BLOCKDATA ∨ t = TC_BLOCKDATALONG) := by
  rw [blockHeader]
  by_cases hn : n < 256
  · rw [if_pos hn]
    refine ⟨_, _, rfl, ?_, .inl rfl⟩
    rw [blockLen.eq_def, if_pos (by decide)]
    show some (Except.ok ((UInt8.ofNat n).toNat, s)) = _
    rw [UInt8.toNat_ofNat', Nat.mod_eq_of_lt (by omega)]
  · rw [if_neg hn]
    refine ⟨_, _, rfl, ?_, .inr rfl⟩
    show blockLen 0x7A (beBytes 4 n ++ s) = _
    rw [blockLen.eq_def, if_neg (by decide), if_pos (by decide), if_neg (by simp)]
    rw [List.take_left' (by simp), List.drop_left' (by simp), beVal_beBytes (by omega)]

/-- What may follow a content of `n` bytes for the reader to stop at the right place. -/
def stops (n : Nat) (rest : Bytes) : Prop :=
  n % 1024 ≠ 0 ∨ rest = [] ∨ (n = 1024 ∧ ∃ t r, rest = t :: r ∧ ¬ (t = TC_BLOCKDATA ∨ t = TC_BLOCKDATALONG))

theorem appendBlockBytes_blocks (c acc rest : Bytes) (hs : c.length % 1024 ≠ 0 ∨ rest = []) :
    c ≠ [] → appendBlockBytes acc (blocks c ++ rest) = .ok (acc ++ c, rest) := by
  intro hc
  have hpos : 0 < c.length := List.length_pos_iff.mpr hc
  rw [blocks_cons hc, List.append_assoc, List.append_assoc]
  obtain ⟨t, r, h1, h2, _⟩ := blockLen_header (min c.length 1024) (by omega)
    (c.take 1024 ++ (blocks (c.drop 1024) ++ rest))
  rw [h1, appendBlockBytes.eq_def]
  simp only
  split
  · rename_i h; rw [h2] at h; simp at h
  · rename_i h; rw [h2] at h; simp at h
  · rename_i l s h
    rw [h2] at h
    simp only [Option.some.injEq, Except.ok.injEq, Prod.mk.injEq] at h
    obtain ⟨hl, hsr⟩ := h
    subst hl; subst hsr
    have hlen : (c.take 1024).length = min c.length 1024 := by simp [Nat.min_comm]
    rw [if_neg (by simp only [List.length_append]; omega), List.take_left' hlen, List.drop_left' hlen]
    by_cases hM : min c.length 1024 ≠ MAX_BLOCK_SIZE
    · rw [if_pos hM]
      have hlt : c.length < 1024 := by have : MAX_BLOCK_SIZE = 1024 := rfl; omega
      rw [List.take_of_length_le (by omega), List.drop_eq_nil_of_le (by omega), blocks_nil]
      rfl
    · rw [if_neg hM]
      have hge : 1024 ≤ c.length := by have : MAX_BLOCK_SIZE = 1024 := rfl; omega
      by_cases hd : c.drop 1024 = []
      · have : c.length ≤ 1024 := List.drop_eq_nil_iff.mp hd
        have h3 : rest = [] := by
          rcases hs with hs | hs
          · exact absurd (by omega) hs
          · exact hs
        rw [hd, h3, blocks_nil]
        show appendBlockBytes _ [] = _
        rw [appendBlockBytes.eq_def, List.take_of_length_le (by omega)]
      · rw [appendBlockBytes_blocks (c.drop 1024) _ rest (hs.imp_left fun h => by rw [List.length_drop]; omega) hd,
          List.append_assoc, List.take_append_drop]
termination_by c.length
decreasing_by simp only [List.length_drop]; omega

/-- Reading blocks written for `c`. -/
theorem getBlock_blocks (c rest : Bytes) (hc : c ≠ []) (hs : stops c.length rest) :
    getBlock (blocks c ++ rest) = .ok (c, rest) := by
  have hpos : 0 < c.length := List.length_pos_iff.mpr hc
  rw [blocks_cons hc, List.append_assoc, List.append_assoc]
  obtain ⟨t, r, h1, h2, ht⟩ := blockLen_header (min c.length 1024) (by omega)
    (c.take 1024 ++ (blocks (c.drop 1024) ++ rest))
  rw [h1, getBlock.eq_def]
  have hr : ¬ (t :: r).length < 2 := by
    have := blockLen_le h2
    simp only [List.length_append, List.length_take, List.length_cons] at *; omega
  rw [if_neg hr]
  simp only [h2]
  have hlen : (c.take 1024).length = min c.length 1024 := by simp [Nat.min_comm]
  rw [if_neg (by simp only [List.length_append]; omega), List.take_left' hlen, List.drop_left' hlen]
  by_cases hM : min c.length 1024 = MAX_BLOCK_SIZE
  · rw [if_pos hM]
    have hge : 1024 ≤ c.length := by have : MAX_BLOCK_SIZE = 1024 := rfl; omega
    by_cases hd : c.drop 1024 = []
    · have hle : c.length ≤ 1024 := List.drop_eq_nil_iff.mp hd
      rw [hd, blocks_nil, List.take_of_length_le hle, List.nil_append]
      rcases hs with hs | hs | ⟨_, t', r', hs, hnt⟩
      · exact absurd (by omega) hs
      · subst hs; rfl
      · subst hs; simp only [hnt, if_false]
    · have hgt : 1024 < c.length := by
        rcases Nat.lt_or_ge 1024 c.length with h | h
        · exact h
        · exact absurd (List.drop_eq_nil_of_le h) hd
      obtain ⟨t', r', h1', _, ht'⟩ := blockLen_header (min (c.drop 1024).length 1024) (by omega)
        ((c.drop 1024).take 1024 ++ (blocks ((c.drop 1024).drop 1024) ++ rest))
      have e : blocks (c.drop 1024) ++ rest = t' :: r' := by
        rw [blocks_cons hd, List.append_assoc, List.append_assoc]; exact h1'
      have key := appendBlockBytes_blocks (c.drop 1024) (c.take 1024) rest (by
        rcases hs with hs | hs | ⟨hs, _⟩
        · exact .inl (by rw [List.length_drop]; omega)
        · exact .inr hs
        · omega) hd
      rw [e] at key ⊢
      simp only [ht', if_true]
      rw [key, List.take_append_drop]
  · rw [if_neg hM]
    have hlt : c.length < 1024 := by have : MAX_BLOCK_SIZE = 1024 := rfl; omega
    rw [List.take_of_length_le (by omega), List.drop_eq_nil_of_le (by omega), blocks_nil]
    rfl


/-! ### Frames -/

theorem copyAt_mid (a x c y : Bytes) (h : x.length = y.length) {n : Nat} (hn : a.length = n) :
    copyAt (a ++ x ++ c) n y = a ++ y ++ c := by
  subst hn
  rw [copyAt_fit _ _ _ (by simp only [List.length_append]; omega), ← h]
  rw [List.append_assoc a x c, List.take_left, ← List.append_assoc a x c,
    List.drop_left' (by simp)]

theorem frame_length (pre : Bytes) (r1 r2 : Nat) (v f : UInt8) (body : Bytes) (hp : pre.length = 4) :
    (Spec.Motan1.frame pre r1 r2 v f body).length = 32 + body.length := by
  simp only [Spec.Motan1.frame, List.length_append, length_beBytes, hp, List.length_cons, List.length_nil]

theorem split_at (s : Bytes) (n : Nat) (h : n ≤ s.length) :
    ∃ a b, s = a ++ b ∧ a.length = n :=
  ⟨s.take n, s.drop n, (List.take_append_drop n s).symm, by simp [h]⟩

/-- Any 32 bytes have the shape of two headers. -/
theorem split32 (s : Bytes) (h : 32 ≤ s.length) :
    ∃ pre r1 l1 mg v f r2 l2 body, s = pre ++ r1 ++ l1 ++ mg ++ [v, f] ++ r2 ++ l2 ++ body ∧ pre.length = 4 ∧
      r1.length = 8 ∧ l1.length = 4 ∧ mg.length = 2 ∧ r2.length = 8 ∧ l2.length = 4 := by
  obtain ⟨pre, s1, e1, h1⟩ := split_at s 4 (by omega)
  have g1 := congrArg List.length e1; rw [List.length_append] at g1
  obtain ⟨r1, s2, e2, h2⟩ := split_at s1 8 (by omega)
  have g2 := congrArg List.length e2; rw [List.length_append] at g2
  obtain ⟨l1, s3, e3, h3⟩ := split_at s2 4 (by omega)
  have g3 := congrArg List.length e3; rw [List.length_append] at g3
  obtain ⟨mg, s4, e4, h4⟩ := split_at s3 2 (by omega)
  have g4 := congrArg List.length e4; rw [List.length_append] at g4
  obtain ⟨vf, s5, e5, h5⟩ := split_at s4 2 (by omega)
  have g5 := congrArg List.length e5; rw [List.length_append] at g5
  obtain ⟨r2, s6, e6, h6⟩ := split_at s5 8 (by omega)
  have g6 := congrArg List.length e6; rw [List.length_append] at g6
  obtain ⟨l2, s7, e7, h7⟩ := split_at s6 4 (by omega)
  match vf, h5 with
  | [v, f], _ =>
    refine ⟨pre, r1, l1, mg, v, f, r2, l2, s7, ?_, h1, h2, h3, h4, h6, h7⟩
    rw [e1, e2, e3, e4, e5, e6, e7]; simp only [List.append_assoc]

theorem writeV1Rid_shape (pre r1 x r2 rest : Bytes) (hp : pre.length = 4) (h1 : r1.length = 8)
    (hx : x.length = 8) (h2 : r2.length = 8) (hr : 4 ≤ rest.length) (rid : UInt64) :
    writeV1Rid (pre ++ r1 ++ x ++ r2 ++ rest) rid =
      pre ++ beBytes 8 rid.toNat ++ x ++ beBytes 8 rid.toNat ++ rest := by
  rw [writeV1Rid, if_pos (by
    simp only [List.length_append, hp, h1, hx, h2, V1AllHeaderLength]; omega)]
  have e : pre ++ r1 ++ x ++ r2 ++ rest = pre ++ r1 ++ (x ++ r2 ++ rest) := by simp
  rw [e, copyAt_mid _ _ _ _ (by simp [h1]) hp]
  have e2 : pre ++ beBytes 8 rid.toNat ++ (x ++ r2 ++ rest) = (pre ++ beBytes 8 rid.toNat ++ x) ++ r2 ++ rest := by simp
  rw [e2, copyAt_mid _ _ _ _ (by simp [h2]) (by simp [hp, hx])]

theorem writeV1InnerLength_shape (a l1 x l2 rest : Bytes) (ha : a.length = 12) (h1 : l1.length = 4)
    (hx : x.length = 12) (h2 : l2.length = 4) (n : UInt32) :
    writeV1InnerLength (a ++ l1 ++ x ++ l2 ++ rest) n =
      a ++ beBytes 4 (n + 16).toNat ++ x ++ beBytes 4 n.toNat ++ rest := by
  rw [writeV1InnerLength, if_pos (by
    simp only [List.length_append, ha, h1, hx, h2, V1AllHeaderLength]; omega)]
  have e : a ++ l1 ++ x ++ l2 ++ rest = a ++ l1 ++ (x ++ l2 ++ rest) := by simp
  rw [e, copyAt_mid _ _ _ _ (by simp [h1]) ha]
  have e2 : a ++ beBytes 4 (n + 16).toNat ++ (x ++ l2 ++ rest) = (a ++ beBytes 4 (n + 16).toNat ++ x) ++ l2 ++ rest := by
    simp
  rw [e2, copyAt_mid _ _ _ _ (by simp [h2]) (by simp [ha, hx])]

/-- Patching id and length turns any 32 bytes with the inner magic, and a body, into a frame. -/
theorem patch_frame (hd body : Bytes) (hl : hd.length = 32) (hm : beVal ((hd.drop 16).take 2) = InnerMotanMagic)
    (hb : body.length + 16 < 2 ^ 32) (rid : UInt64) :
    writeV1InnerLength (writeV1Rid (hd ++ body) rid) (UInt32.ofNat ((hd ++ body).length - V1AllHeaderLength)) =
      Spec.Motan1.frame (hd.take 4) rid.toNat rid.toNat (hd.getD 18 0) (hd.getD 19 0) body := by
  obtain ⟨pre, r1, l1, mg, v, f, r2, l2, b, e, hp, h1, h3, h4, h6, h7⟩ := split32 hd (by omega)
  have hb0 : b = [] := by
    have := congrArg List.length e
    simp only [List.length_append, hp, h1, h3, h4, h6, h7, hl, List.length_cons, List.length_nil] at this
    exact List.eq_nil_of_length_eq_zero (by omega)
  subst hb0
  rw [List.append_nil] at e
  have hmg : mg = [0xf0, 0xf0] := by
    have e1 : hd = (pre ++ r1 ++ l1) ++ mg ++ ([v, f] ++ r2 ++ l2) := by rw [e]; simp
    rw [e1, List.append_assoc, List.drop_left' (by simp [hp, h1, h3]), List.take_left' h4] at hm
    have := beBytes_beVal mg
    rw [hm, h4] at this
    rw [← this]; decide
  have e2 : hd ++ body = pre ++ r1 ++ (l1 ++ mg ++ [v, f]) ++ r2 ++ (l2 ++ body) := by rw [e]; simp
  have hlen : (hd ++ body).length - V1AllHeaderLength = body.length := by
    rw [List.length_append, hl]; simp [V1AllHeaderLength]
  rw [hlen, e2, writeV1Rid_shape _ _ _ _ _ hp h1 (by simp [h3, h4]) h6 (by simp [h7])]
  have e3 : pre ++ beBytes 8 rid.toNat ++ (l1 ++ mg ++ [v, f]) ++ beBytes 8 rid.toNat ++ (l2 ++ body) =
      (pre ++ beBytes 8 rid.toNat) ++ l1 ++ (mg ++ [v, f] ++ beBytes 8 rid.toNat) ++ l2 ++ body := by simp
  rw [e3, writeV1InnerLength_shape _ _ _ _ _ (by simp [hp]) h3 (by simp [h4]) h7]
  have hn : (UInt32.ofNat body.length).toNat = body.length := by
    rw [UInt32.toNat_ofNat', Nat.mod_eq_of_lt (by omega)]
  have hn16 : (UInt32.ofNat body.length + 16).toNat = body.length + 16 := by
    rw [UInt32.toNat_add, hn]; exact Nat.mod_eq_of_lt hb
  have ht : hd.take 4 = pre := by
    rw [e]; simp only [List.append_assoc]; exact List.take_left' hp
  have e4 : hd = (pre ++ r1 ++ l1 ++ mg) ++ (v :: f :: (r2 ++ l2)) := by rw [e]; simp
  have hl4 : (pre ++ r1 ++ l1 ++ mg).length = 18 := by simp [hp, h1, h3, h4]
  have hv : hd.getD 18 0 = v := by
    rw [e4, List.getD_eq_getElem?_getD, List.getElem?_append_right (by omega), hl4]; rfl
  have hf : hd.getD 19 0 = f := by
    rw [e4, List.getD_eq_getElem?_getD, List.getElem?_append_right (by omega), hl4]; rfl
  rw [hn, hn16, ht, hv, hf, hmg, Spec.Motan1.frame]
  simp

/-- A frame within the limit is read, and exactly it. -/
theorem readV1Message_frame (max : Nat) (pre : Bytes) (r1 r2 : Nat) (v f : UInt8) (body rest : Bytes)
    (hp : pre.length = 4) (hr2 : r2 < 2 ^ 64) (hb : body.length + 16 < 2 ^ 32) (hmax : body.length + 16 ≤ max) :
    readV1Message max (Spec.Motan1.frame pre r1 r2 v f body ++ rest) =
      (.ok { origin := Spec.Motan1.frame pre r1 r2 v f body, innerVersion := v, flag := f, rid := UInt64.ofNat r2,
             innerLength := body.length }, rest) := by
  have hlen := frame_length pre r1 r2 v f body hp
  let F := Spec.Motan1.frame pre r1 r2 v f body
  have hF : Spec.Motan1.frame pre r1 r2 v f body = F := rfl
  rw [hF] at hlen ⊢
  have d12 : F = (pre ++ beBytes 8 r1) ++ (beBytes 4 (body.length + 16) ++ ([0xf0, 0xf0, v, f] ++ beBytes 8 r2 ++
    beBytes 4 body.length ++ body)) := by rw [← hF, Spec.Motan1.frame]; simp
  have d16 : F = (pre ++ beBytes 8 r1 ++ beBytes 4 (body.length + 16)) ++ ([0xf0, 0xf0] ++ ([v, f] ++ beBytes 8 r2 ++
    beBytes 4 body.length ++ body)) := by rw [← hF, Spec.Motan1.frame]; simp
  have d18 : F = (pre ++ beBytes 8 r1 ++ beBytes 4 (body.length + 16) ++ [0xf0, 0xf0]) ++ (v :: f :: (beBytes 8 r2 ++
    beBytes 4 body.length ++ body)) := by rw [← hF, Spec.Motan1.frame]; simp
  have d20 : F = (pre ++ beBytes 8 r1 ++ beBytes 4 (body.length + 16) ++ [0xf0, 0xf0, v, f]) ++ (beBytes 8 r2 ++
    (beBytes 4 body.length ++ body)) := by rw [← hF, Spec.Motan1.frame]; simp
  have d28 : F = (pre ++ beBytes 8 r1 ++ beBytes 4 (body.length + 16) ++ [0xf0, 0xf0, v, f] ++ beBytes 8 r2) ++
    (beBytes 4 body.length ++ body) := by rw [← hF, Spec.Motan1.frame]; simp
  have v12 : beVal (((F ++ rest).drop 12).take 4) = body.length + 16 := by
    rw [d12, List.append_assoc, List.drop_left' (by simp [hp]), List.append_assoc, List.take_left' (by simp),
      beVal_beBytes (by omega)]
  have v16 : beVal ((F.drop 16).take 2) = InnerMotanMagic := by
    rw [d16, List.drop_left' (by simp [hp]), List.take_left' (by simp)]; decide
  have v18 : F.getD 18 0 = v := by
    rw [d18, List.getD_eq_getElem?_getD, List.getElem?_append_right (by simp [hp])]; simp [hp]
  have v19 : F.getD 19 0 = f := by
    rw [d18, List.getD_eq_getElem?_getD, List.getElem?_append_right (by simp [hp])]; simp [hp]
  have v20 : beVal ((F.drop 20).take 8) = r2 := by
    rw [d20, List.drop_left' (by simp [hp]), List.take_left' (by simp), beVal_beBytes (by omega)]
  have v28 : beVal ((F.drop 28).take 4) = body.length := by
    rw [d28, List.drop_left' (by simp [hp]), List.take_left' (by simp), beVal_beBytes (by omega)]
  have hread : Motan2.readAtLeast (V1L1HeaderLength + (body.length + 16)) (F ++ rest) = (.ok F, rest) := by
    have : V1L1HeaderLength + (body.length + 16) = F.length := by rw [hlen, V1L1HeaderLength]; omega
    rw [this, Motan2.readAtLeast]
    simp
  rw [readV1Message, if_neg (by rw [List.length_append, hlen, V1L1HeaderLength]; omega), v12]
  simp only
  rw [if_neg (by rw [V1L1HeaderLength, V1AllHeaderLength]; omega), hread]
  simp only [v16, v18, v19, v20, v28, ne_eq, not_true_eq_false, if_false]
  rw [if_neg (by rw [V1L1HeaderLength, V1AllHeaderLength]; omega)]

end Motan.Motan1
