import Verif.Props.Motan1

/-!
# C49: which motan1 frames make the decoder panic

The shapes are given as relations between byte strings, without reference to the decoder.
-/

namespace Motan.Props

open Motan1
open Convert (Lib)
open Spec.Motan1 (Arg)

/-! ## The shapes -/

/-- One block of data with its header. -/
inductive Spec.Block : Bytes → Bytes → Prop
  | short (c : Bytes) (h : c.length < 256) : Spec.Block c (0x77 :: UInt8.ofNat c.length :: c)
  | long (c : Bytes) (h : c.length < 2 ^ 32) : Spec.Block c (0x7A :: (beBytes 4 c.length ++ c))

/-- What is read behind full blocks (1024 bytes): the content, the text and what is left. A byte that starts no block
is skipped. -/
inductive Spec.Tail : Bytes → Bytes → Bytes → Prop
  | done : Spec.Tail [] [] []
  | other (x : UInt8) (r : Bytes) (h : x ≠ 0x77 ∧ x ≠ 0x7A) : Spec.Tail [] (x :: r) r
  | last {c b : Bytes} (r : Bytes) (hb : Spec.Block c b) (h : c.length ≠ 1024) : Spec.Tail c (b ++ r) r
  | more {c b c' s r : Bytes} (hb : Spec.Block c b) (h : c.length = 1024) (ht : Spec.Tail c' s r) : Spec.Tail (c ++ c') (b ++ s) r

/-- A run of blocks: the content, the text and what is left. -/
inductive Spec.Run : Bytes → Bytes → Bytes → Prop
  | one {c b r : Bytes} (hb : Spec.Block c b) (h : c.length = 1024 → ∀ x s, r = x :: s → x ≠ 0x77 ∧ x ≠ 0x7A) : Spec.Run c (b ++ r) r
  | more {c b c' s r : Bytes} {x : UInt8} (hb : Spec.Block c b) (h : c.length = 1024) (hx : x = 0x77 ∨ x = 0x7A)
    (ht : Spec.Tail c' (x :: s) r) : Spec.Run (c ++ c') (b ++ x :: s) r

/-- Full blocks, at least one, and then a text that ends behind the first byte of a block. -/
def Spec.Cut (s : Bytes) : Prop :=
  ∃ chunks : List Bytes, chunks ≠ [] ∧ (∀ c ∈ chunks, c.length = 1024) ∧
    s = (chunks.map fun c => 0x7A :: (beBytes 4 1024 ++ c)).flatten ++ [0x77]

/-- A string with its length before it, which is a signed number; if it is negative the string is empty. -/
inductive Spec.Str : Bytes → Bytes → Prop
  | pos (s : Bytes) (h : s.length < 32768) : Spec.Str s (beBytes 2 s.length ++ s)
  | neg (n : Nat) (h : 32768 ≤ n) (h' : n < 65536) : Spec.Str [] (beBytes 2 n)

/-- The names of a request, and nothing behind them: a method signature, or service, method and description. -/
def Spec.Names (c : Bytes) : Prop :=
  (∃ p x q, Spec.Str b!"1" p ∧ Spec.Str x q ∧ c = p ++ q) ∨
  (∃ a p b q d w, a ≠ b!"1" ∧ Spec.Str a p ∧ Spec.Str b q ∧ Spec.Str d w ∧ c = p ++ q ++ w)

/-- The object stream of a frame: what is behind the headers, unpacked if it is packed. -/
def Spec.stream (lib : Lib) (m : Msg) : Option Bytes :=
  if m.innerVersion = 2 ∧ 34 < m.origin.length ∧ (m.origin.drop 32).take 2 = [0x1f, 0x8b] then lib.gunzip (m.origin.drop 32)
  else some (m.origin.drop 32)

/-! ## Blocks -/

theorem blockLen_sound {t : UInt8} {s s1 : Bytes} {l : Nat} (h : blockLen t s = some (.ok (l, s1))) (hl : ¬ s1.length < l) :
    (s1.take l).length = l ∧ ∃ b, Spec.Block (s1.take l) b ∧ t :: s = b ++ s1.drop l := by
  have hlen : (s1.take l).length = l := by rw [List.length_take]; omega
  refine ⟨hlen, ?_⟩
  rw [blockLen.eq_def] at h
  split at h
  · rename_i ht
    split at h
    · simp at h
    · rename_i c s0
      simp only [Option.some.injEq, Except.ok.injEq, Prod.mk.injEq] at h
      obtain ⟨h1, rfl⟩ := h
      refine ⟨_, .short _ (by rw [hlen, ← h1]; exact c.toNat_lt), ?_⟩
      rw [hlen, ht, ← h1, UInt8.ofNat_toNat]
      simp [TC_BLOCKDATA]
  · split at h
    · rename_i ht
      split at h
      · simp at h
      · rename_i h4
        simp only [Option.some.injEq, Except.ok.injEq, Prod.mk.injEq] at h
        obtain ⟨h1, rfl⟩ := h
        have h4' : (s.take 4).length = 4 := by rw [List.length_take]; omega
        have hlt := beVal_lt (s.take 4)
        rw [h4'] at hlt
        refine ⟨_, .long _ (by rw [hlen, ← h1]; exact hlt), ?_⟩
        rw [hlen, ← h1, ht]
        have := beBytes_beVal (s.take 4)
        rw [h4'] at this
        rw [this, List.cons_append, List.append_assoc, List.take_append_drop, List.take_append_drop]; rfl
    · simp at h

theorem blockLen_block {c b : Bytes} (h : Spec.Block c b) (r : Bytes) :
    ∃ t s, b ++ r = t :: s ∧ (t = 0x77 ∨ t = 0x7A) ∧ s ≠ [] ∧ blockLen t s = some (.ok (c.length, c ++ r)) := by
  cases h with
  | short h =>
    refine ⟨_, _, rfl, .inl rfl, by simp, ?_⟩
    simp only [blockLen, TC_BLOCKDATA, if_true, List.append_eq, List.cons_append]
    rw [UInt8.toNat_ofNat_of_lt' (by simpa using h)]
  | long h =>
    refine ⟨0x7A, beBytes 4 c.length ++ c ++ r, rfl, .inr rfl, by
      intro e; have := congrArg List.length e; simp at this, ?_⟩
    rw [blockLen.eq_def, if_neg (by decide), if_pos (by decide), if_neg (by simp), List.append_assoc, List.take_left' (by simp),
      List.drop_left' (by simp), beVal_beBytes (by simpa using h)]

theorem append_ok (acc s x r : Bytes) : appendBlockBytes acc s = .ok (x, r) ↔ ∃ c, x = acc ++ c ∧ Spec.Tail c s r := by
  constructor
  · intro h
    fun_induction appendBlockBytes acc s with
    | case1 =>
      simp only [Except.ok.injEq, Prod.mk.injEq] at h
      exact ⟨[], by simp [h.1], by rw [← h.2]; exact .done⟩
    | case2 acc t s hb =>
      simp only [Except.ok.injEq, Prod.mk.injEq] at h
      refine ⟨[], by simp [h.1], ?_⟩
      rw [← h.2]
      refine .other _ _ ⟨fun e => ?_, fun e => ?_⟩
      · subst e; rw [blockLen.eq_def, if_pos (by decide)] at hb; split at hb <;> simp at hb
      · subst e; rw [blockLen.eq_def, if_neg (by decide), if_pos (by decide)] at hb; split at hb <;> simp at hb
    | case3 => simp at h
    | case4 => simp at h
    | case5 acc t s l s1 hb hl hM =>
      simp only [Except.ok.injEq, Prod.mk.injEq] at h
      obtain ⟨h1, b, h2, h3⟩ := blockLen_sound hb hl
      exact ⟨_, h.1.symm, by rw [h3, ← h.2]; exact .last _ h2 (by rw [h1]; exact hM)⟩
    | case6 acc t s l s1 hb hl hM ih =>
      obtain ⟨c, e, ht⟩ := ih h
      obtain ⟨h1, b, h2, h3⟩ := blockLen_sound hb hl
      have : l = 1024 := by
        rcases Nat.decEq l MAX_BLOCK_SIZE with h | h
        · exact absurd h hM
        · exact h
      exact ⟨_, by rw [e, List.append_assoc], by rw [h3]; exact .more h2 (by omega) ht⟩
  · rintro ⟨c, rfl, h⟩
    induction h generalizing acc with
    | done => rw [appendBlockBytes.eq_def]; simp
    | other x r h =>
      have hb : blockLen x r = none := by
        rw [blockLen.eq_def, if_neg (show ¬ x = TC_BLOCKDATA from h.1), if_neg (show ¬ x = TC_BLOCKDATALONG from h.2)]
      rw [appendBlockBytes.eq_def]; simp only; split
      · simp
      · rename_i h'; rw [hb] at h'; simp at h'
      · rename_i h'; rw [hb] at h'; simp at h'
    | last r hb h =>
      obtain ⟨t, s, e, -, -, hl⟩ := blockLen_block hb r
      rw [e, appendBlockBytes.eq_def]; simp only; split
      · rename_i h'; rw [hl] at h'; simp at h'
      · rename_i h'; rw [hl] at h'; simp at h'
      · rename_i h'; rw [hl] at h'
        simp only [Option.some.injEq, Except.ok.injEq, Prod.mk.injEq] at h'
        obtain ⟨rfl, rfl⟩ := h'
        rw [if_neg (by simp), if_pos (show _ ≠ MAX_BLOCK_SIZE from h), List.take_left' rfl, List.drop_left' rfl]
    | @more c b c' s0 r hb h ht ih =>
      obtain ⟨t, s, e, -, -, hl⟩ := blockLen_block hb s0
      rw [e, appendBlockBytes.eq_def]; simp only; split
      · rename_i h'; rw [hl] at h'; simp at h'
      · rename_i h'; rw [hl] at h'; simp at h'
      · rename_i h'; rw [hl] at h'
        simp only [Option.some.injEq, Except.ok.injEq, Prod.mk.injEq] at h'
        obtain ⟨rfl, rfl⟩ := h'
        rw [if_neg (by simp), if_neg (by rw [h]; decide), List.take_left' rfl, List.drop_left' rfl, ih, List.append_assoc]

/-- A cut text behind full blocks, or at once. -/
theorem append_panic_iff (acc s : Bytes) : appendBlockBytes acc s = .error .panic ↔ s = [0x77] ∨ Spec.Cut s := by
  constructor
  · intro h
    fun_induction appendBlockBytes acc s with
    | case1 => simp at h
    | case2 => simp at h
    | case3 acc t s e hb =>
      simp only [Except.error.injEq] at h
      subst h
      obtain ⟨rfl, rfl⟩ := blockLen_panic hb
      exact .inl rfl
    | case4 => simp at h
    | case5 => simp at h
    | case6 acc t s l s1 hb hl hM ih =>
      have hL : l = 1024 := by
        rcases Nat.decEq l MAX_BLOCK_SIZE with h | h
        · exact absurd h hM
        · exact h
      obtain ⟨h1, b, h2, h3⟩ := blockLen_sound hb hl
      have hb' : b = 0x7A :: (beBytes 4 1024 ++ s1.take l) := by
        generalize s1.take l = c at h1 h2
        rw [hL] at h1
        cases h2 with
        | short h => omega
        | long h => rw [h1]
      refine .inr ?_
      rw [h3, hb']
      rcases ih h with e | ⟨chunks, c1, c2, c3⟩
      · exact ⟨[s1.take l], by simp, by simpa [h1] using hL, by rw [e]; simp⟩
      · exact ⟨s1.take l :: chunks, by simp, by
          intro x hx
          rcases List.mem_cons.mp hx with rfl | hx
          · rw [h1, hL]
          · exact c2 x hx, by rw [c3]; simp⟩
  · have key : ∀ (chunks : List Bytes) (acc : Bytes), (∀ c ∈ chunks, c.length = 1024) →
        appendBlockBytes acc ((chunks.map fun c => 0x7A :: (beBytes 4 1024 ++ c)).flatten ++ [0x77]) = .error .panic := by
      intro chunks
      induction chunks with
      | nil =>
        intro acc _
        rw [appendBlockBytes.eq_def]; simp only [List.map_nil, List.flatten_nil, List.nil_append]; rfl
      | cons c chunks ih =>
        intro acc hc
        have h1 := hc c (by simp)
        have hB : Spec.Block c (0x7A :: (beBytes 4 1024 ++ c)) := by
          have := Spec.Block.long c (by rw [h1]; decide)
          rwa [h1] at this
        rw [List.map_cons, List.flatten_cons, List.append_assoc]
        obtain ⟨t, s, e, -, -, hl⟩ := blockLen_block hB ((chunks.map fun c => 0x7A :: (beBytes 4 1024 ++ c)).flatten ++ [0x77])
        rw [e, appendBlockBytes.eq_def]; simp only; split
        · rename_i h'; rw [hl] at h'; simp at h'
        · rename_i h'; rw [hl] at h'; simp at h'
        · rename_i h'; rw [hl] at h'
          simp only [Option.some.injEq, Except.ok.injEq, Prod.mk.injEq] at h'
          obtain ⟨rfl, rfl⟩ := h'
          rw [if_neg (by simp), if_neg (by rw [h1]; decide), List.take_left' rfl, List.drop_left' rfl,
            ih _ fun x hx => hc x (by simp [hx])]
    rintro (rfl | ⟨chunks, -, h, rfl⟩)
    · exact key [] acc (by simp)
    · exact key chunks acc h

theorem getBlock_block {c b : Bytes} (hb : Spec.Block c b) (r : Bytes) :
    getBlock (b ++ r) = if c.length = 1024 then
      match r with
      | [] => .ok (c, r)
      | x :: _ => if x = TC_BLOCKDATA ∨ x = TC_BLOCKDATALONG then appendBlockBytes c r else .ok (c, r)
      else .ok (c, r) := by
  obtain ⟨t, s, e, -, hs, hl⟩ := blockLen_block hb r
  have h2 : ¬ (t :: s).length < 2 := by
    have := List.length_pos_iff.mpr hs
    rw [List.length_cons]; omega
  rw [e, getBlock.eq_def, if_neg h2]
  simp only [hl]
  rw [if_neg (by simp), List.take_left' rfl, List.drop_left' rfl]
  rfl

theorem getBlock_cases (s : Bytes) :
    (∃ e, getBlock s = .error e ∧ e ≠ .panic ∧ ∀ c b r, Spec.Block c b → s ≠ b ++ r) ∨ ∃ c b r, Spec.Block c b ∧ s = b ++ r := by
  by_cases hE : ∃ c b r, Spec.Block c b ∧ s = b ++ r
  · exact .inr hE
  · left
    have hno : ∀ c b r, Spec.Block c b → s ≠ b ++ r := fun c b r h e => hE ⟨c, b, r, h, e⟩
    rw [getBlock.eq_def]
    by_cases h2 : s.length < 2
    · exact ⟨.eof, by rw [if_pos h2], by decide, hno⟩
    rw [if_neg h2]
    cases s with
    | nil => exact ⟨_, rfl, by decide, hno⟩
    | cons t s =>
      simp only
      cases hb : blockLen t s with
      | none => exact ⟨_, rfl, by decide, hno⟩
      | some x =>
        cases x with
        | error e =>
          refine ⟨_, rfl, ?_, hno⟩
          rintro rfl
          obtain ⟨-, rfl⟩ := blockLen_panic hb
          simp at h2
        | ok x =>
          obtain ⟨l, s1⟩ := x
          simp only
          by_cases hl : s1.length < l
          · exact ⟨.eof, by rw [if_pos hl], by decide, hno⟩
          · obtain ⟨-, b, h1, h2⟩ := blockLen_sound hb hl
            exact absurd h2 (hno _ _ _ h1)

theorem getBlock_ok (s c r : Bytes) : getBlock s = .ok (c, r) ↔ Spec.Run c s r := by
  constructor
  · intro h
    rcases getBlock_cases s with ⟨e, h', -⟩ | ⟨c0, b, r0, hb, rfl⟩
    · rw [h] at h'; cases h'
    · rw [getBlock_block hb] at h
      split at h
      · rename_i hM
        split at h
        · simp only [Except.ok.injEq, Prod.mk.injEq] at h
          obtain ⟨rfl, rfl⟩ := h
          exact .one hb (fun _ x s e => by cases e)
        · rename_i x s
          split at h
          · rename_i hx
            obtain ⟨c', rfl, ht⟩ := (append_ok _ _ _ _).mp h
            exact .more hb hM hx ht
          · rename_i hx
            simp only [Except.ok.injEq, Prod.mk.injEq] at h
            obtain ⟨rfl, rfl⟩ := h
            refine .one hb fun _ y s' e => ?_
            cases e
            exact ⟨fun e => hx (.inl e), fun e => hx (.inr e)⟩
      · rename_i hM
        simp only [Except.ok.injEq, Prod.mk.injEq] at h
        obtain ⟨rfl, rfl⟩ := h
        exact .one hb (fun e => absurd e hM)
  · intro h
    cases h with
    | one hb h =>
      rw [getBlock_block hb]
      split
      · rename_i hM
        split
        · rfl
        · rename_i x s
          have := h hM x s rfl
          rw [if_neg (show ¬ (x = TC_BLOCKDATA ∨ x = TC_BLOCKDATALONG) from not_or.mpr ⟨this.1, this.2⟩)]
      · rfl
    | more hb h hx ht =>
      rw [getBlock_block hb, if_pos h]
      simp only
      rw [if_pos (show _ = TC_BLOCKDATA ∨ _ = TC_BLOCKDATALONG from hx)]
      exact (append_ok _ _ _ _).mpr ⟨_, rfl, ht⟩

theorem getBlock_panic_iff (s : Bytes) : getBlock s = .error .panic ↔ Spec.Cut s := by
  constructor
  · intro h
    rcases getBlock_cases s with ⟨e, h', hne, -⟩ | ⟨c, b, r, hb, rfl⟩
    · rw [h] at h'; simp only [Except.error.injEq] at h'; exact absurd h'.symm hne
    · rw [getBlock_block hb] at h
      split at h
      · rename_i hM
        have hb' : b = 0x7A :: (beBytes 4 1024 ++ c) := by
          cases hb with
          | short h => omega
          | long h => rw [hM]
        split at h
        · simp at h
        · split at h
          · rcases (append_panic_iff _ _).mp h with e | ⟨chunks, c1, c2, c3⟩
            · exact ⟨[c], by simp, by simpa using hM, by rw [e, hb']; simp⟩
            · exact ⟨c :: chunks, by simp, by simpa [hM] using c2, by rw [c3, hb']; simp⟩
          · simp at h
      · simp at h
  · rintro ⟨chunks, hne, hc, rfl⟩
    cases chunks with
    | nil => exact absurd rfl hne
    | cons c chunks =>
      have h1 := hc c (by simp)
      have hB : Spec.Block c (0x7A :: (beBytes 4 1024 ++ c)) := by
        have := Spec.Block.long c (by rw [h1]; decide)
        rwa [h1] at this
      rw [List.map_cons, List.flatten_cons, List.append_assoc, getBlock_block hB, if_pos h1]
      cases chunks with
      | nil =>
        simp only [List.map_nil, List.flatten_nil, List.nil_append]
        rw [if_pos (by decide)]
        exact (append_panic_iff _ _).mpr (.inl rfl)
      | cons c' chunks =>
        have hp := (append_panic_iff c (((c' :: chunks).map fun c => 0x7A :: (beBytes 4 1024 ++ c)).flatten ++ [0x77])).mpr
          (.inr ⟨c' :: chunks, by simp, fun x hx => hc x (by simp [hx]), rfl⟩)
        simp only [List.map_cons, List.flatten_cons, List.cons_append] at hp ⊢
        rw [if_pos (by decide)]
        exact hp

/-! ## Names -/

theorem readInt16_ok (b : Bytes) (n : Int) (r : Bytes) :
    readInt16 b = .ok (n, r) ↔ ∃ u, u < 65536 ∧ b = beBytes 2 u ++ r ∧ n = if u < 32768 then (u : Int) else (u : Int) - 65536 := by
  constructor
  · intro h
    rw [readInt16] at h
    split at h
    · simp at h
    · rename_i h2
      simp only [Except.ok.injEq, Prod.mk.injEq] at h
      have hl : (b.take 2).length = 2 := by rw [List.length_take]; omega
      have := beVal_lt (b.take 2)
      have e := beBytes_beVal (b.take 2)
      rw [hl] at this e
      exact ⟨beVal (b.take 2), this, by rw [e, ← h.2, List.take_append_drop], h.1.symm⟩
  · rintro ⟨u, hu, rfl, rfl⟩
    rw [readInt16, if_neg (by simp)]
    rw [List.take_left' (by simp), List.drop_left' (by simp), beVal_beBytes (by simpa using hu)]

theorem readUtf_ok (b s r : Bytes) : readUtf b = .ok (s, r) ↔ ∃ p, Spec.Str s p ∧ b = p ++ r := by
  constructor
  · intro h
    rw [readUtf] at h
    split at h
    · simp at h
    · rename_i l b' hi
      obtain ⟨u, hu, rfl, rfl⟩ := (readInt16_ok _ _ _).mp hi
      by_cases h3 : u < 32768
      · rw [if_pos h3] at h
        split at h
        · split at h
          · simp at h
          · rename_i h0 h4
            simp only [Int.toNat_natCast, Except.ok.injEq, Prod.mk.injEq] at h h4
            have hl : s.length = u := by rw [← h.1, List.length_take]; omega
            refine ⟨beBytes 2 u ++ s, ?_, by rw [List.append_assoc, ← h.1, ← h.2, List.take_append_drop]⟩
            rw [← hl]; exact .pos s (by omega)
        · simp only [Except.ok.injEq, Prod.mk.injEq] at h
          have : u = 0 := by omega
          subst this
          refine ⟨beBytes 2 0 ++ [], by rw [← h.1]; exact .pos [] (by decide), by rw [← h.2]; rfl⟩
      · rw [if_neg h3, if_neg (by omega)] at h
        simp only [Except.ok.injEq, Prod.mk.injEq] at h
        exact ⟨beBytes 2 u, by rw [← h.1]; exact .neg u (by omega) hu, by rw [h.2]⟩
  · rintro ⟨p, hp, rfl⟩
    rw [readUtf]
    cases hp with
    | pos h =>
      rw [(readInt16_ok _ s.length (s ++ r)).mpr ⟨s.length, by omega, by rw [List.append_assoc], by rw [if_pos (by assumption)]⟩]
      simp only [Int.toNat_natCast]
      split
      · rw [if_neg (by simp), List.take_left' rfl, List.drop_left' rfl]
      · rename_i h0
        have : s = [] := List.length_eq_zero_iff.mp (by omega)
        subst this; rfl
    | neg n h h' =>
      rw [(readInt16_ok _ ((n : Int) - 65536) r).mpr ⟨n, h', rfl, by rw [if_neg (by omega)]⟩]
      simp only
      rw [if_neg (by omega)]

theorem readInfos_names (c : Bytes) : (∃ s m d, readInfos c = .ok (s, m, d, [])) ↔ Spec.Names c := by
  constructor
  · rintro ⟨s, m, d, h⟩
    rw [readInfos] at h
    split at h
    · simp at h
    rename_i i0 b0 h0
    obtain ⟨p, hp, rfl⟩ := (readUtf_ok _ _ _).mp h0
    split at h
    · rename_i he
      split at h
      · simp at h
      · rename_i i1 b1 h1
        obtain ⟨q, hq, rfl⟩ := (readUtf_ok _ _ _).mp h1
        simp only [Except.ok.injEq, Prod.mk.injEq] at h
        obtain ⟨-, -, -, rfl⟩ := h
        exact .inl ⟨p, _, q, he ▸ hp, hq, by simp⟩
    · rename_i he
      split at h
      · simp at h
      rename_i i1 b1 h1
      obtain ⟨q, hq, rfl⟩ := (readUtf_ok _ _ _).mp h1
      split at h
      · simp at h
      rename_i i2 b2 h2
      obtain ⟨w, hw, rfl⟩ := (readUtf_ok _ _ _).mp h2
      simp only [Except.ok.injEq, Prod.mk.injEq] at h
      obtain ⟨-, -, -, rfl⟩ := h
      exact .inr ⟨_, p, _, q, _, w, he, hp, hq, hw, by simp⟩
  · rintro (⟨p, x, q, hp, hq, rfl⟩ | ⟨a, p, b, q, d, w, ha, hp, hq, hw, rfl⟩)
    · refine ⟨b!"v1compressMethodSign", x, [], ?_⟩
      rw [readInfos, (readUtf_ok _ _ _).mpr ⟨p, hp, rfl⟩]
      simp only
      rw [if_pos trivial, (readUtf_ok q x []).mpr ⟨q, hq, by simp⟩]
    · refine ⟨a, b, d, ?_⟩
      rw [readInfos, List.append_assoc, (readUtf_ok _ _ _).mpr ⟨p, hp, rfl⟩]
      simp only
      rw [if_neg ha, (readUtf_ok _ _ _).mpr ⟨q, hq, rfl⟩]
      simp only
      rw [(readUtf_ok w d []).mpr ⟨w, hw, by simp⟩]

/-! ## Arguments -/

theorem cut_head {s : Bytes} (h : Spec.Cut s) : ∃ r, s = 0x7A :: r := by
  obtain ⟨chunks, hne, -, rfl⟩ := h
  cases chunks with
  | nil => exact absurd rfl hne
  | cons c chunks => exact ⟨_, rfl⟩

theorem parseArgs_panic_iff (n : Nat) (s : Bytes) : parseArgs n s = .error .panic ↔
    ∃ (args : List Bytes) (t : Bytes), (∀ a ∈ args, Arg a) ∧ s = args.flatten ++ t ∧ Spec.Cut t := by
  constructor
  · intro h
    fun_induction parseArgs n s with
    | case1 => simp at h
    | case2 n r ih =>
      obtain ⟨args, t, h1, h2, h3⟩ := ih h
      refine ⟨[0x70] :: args, t, ?_, by rw [h2]; rfl, h3⟩
      intro x hx
      rcases List.mem_cons.mp hx with rfl | hx
      · exact .null
      · exact h1 x hx
    | case3 n r _ e hsk =>
      simp only [Except.error.injEq] at h; subst h
      exact absurd hsk (skipByteArray_no_panic _)
    | case4 n r c r' _ hsk ih =>
      obtain ⟨args, t, h1, h2, h3⟩ := ih h
      have hne : r' ≠ [] := by
        obtain ⟨x, e⟩ := cut_head h3
        rw [h2, e]; simp
      obtain ⟨x, e1, hx⟩ := skipByteArray_arg rfl hsk hne
      refine ⟨x :: args, t, ?_, by rw [e1, h2]; simp, h3⟩
      intro y hy
      rcases List.mem_cons.mp hy with rfl | hy
      · exact hx
      · exact h1 y hy
    | case5 n t r _ _ ht e hb =>
      simp only [Except.error.injEq] at h; subst h
      exact ⟨[], _, by simp, rfl, (getBlock_panic_iff _).mp hb⟩
    | case6 => simp at h
    | case7 => simp at h
  · rintro ⟨args, t, h1, rfl, h3⟩
    induction args generalizing n with
    | nil =>
      obtain ⟨r, e⟩ := cut_head h3
      rw [List.flatten_nil, List.nil_append, e, parseArgs.eq_def]
      simp only
      rw [if_neg (by decide), if_neg (by decide), if_pos (by decide), ← e, (getBlock_panic_iff _).mpr h3]
    | cons x xs ih =>
      have hx := h1 x (by simp)
      have ihx := fun n => ih n (fun a ha => h1 a (by simp [ha]))
      rw [List.flatten_cons, List.append_assoc]
      by_cases hn : x = [0x70]
      · subst hn
        show parseArgs n (0x70 :: (xs.flatten ++ t)) = _
        rw [parseArgs.eq_def]
        simp only
        rw [if_pos (by decide), ihx]
      · obtain ⟨⟨r0, e⟩, hsk, _⟩ := skipByteArray_of_arg hx (xs.flatten ++ t) hn
        rw [e] at hsk ⊢
        rw [List.cons_append] at hsk ⊢
        rw [parseArgs.eq_def]
        simp only
        rw [if_neg (by decide), if_pos (by decide)]
        split
        · rename_i hh; rw [hsk] at hh; simp at hh
        · rename_i hh
          rw [hsk] at hh
          simp only [Except.ok.injEq, Prod.mk.injEq] at hh
          rw [← hh.2, ihx]

/-! ## Frames -/

theorem stream_eq (lib : Lib) (m : Msg) :
    (∃ z, newObjectStream lib m = .ok (s, z)) ↔ Spec.stream lib m = some s := by
  have hM : ∀ l : Bytes, (l.take 2).length = 2 → (beVal (l.take 2) = GZIP_MAGIC ↔ l.take 2 = [0x1f, 0x8b]) := by
    intro l hl
    constructor
    · intro e
      have := beBytes_beVal (l.take 2)
      rw [hl, e] at this
      rw [← this]; decide
    · intro e; rw [e]; decide
  rw [newObjectStream, Spec.stream]
  have hiff : (m.innerVersion = 0x02 ∧ m.origin.length > 34 ∧ beVal ((m.origin.drop 32).take 2) = GZIP_MAGIC) ↔
      (m.innerVersion = 2 ∧ 34 < m.origin.length ∧ (m.origin.drop 32).take 2 = [0x1f, 0x8b]) := by
    constructor
    · rintro ⟨h1, h2, h3⟩
      exact ⟨h1, h2, (hM _ (by rw [List.length_take, List.length_drop]; omega)).mp h3⟩
    · rintro ⟨h1, h2, h3⟩
      exact ⟨h1, h2, (hM _ (by rw [List.length_take, List.length_drop]; omega)).mpr h3⟩
  by_cases hc : m.innerVersion = 2 ∧ 34 < m.origin.length ∧ (m.origin.drop 32).take 2 = [0x1f, 0x8b]
  · rw [if_pos hc, if_pos (hiff.mpr hc)]
    cases lib.gunzip (m.origin.drop 32) <;> simp
  · rw [if_neg hc, if_neg (fun h => hc (hiff.mp h))]
    simp [V1AllHeaderLength]

theorem newObjectStream_no_panic (lib : Lib) (m : Msg) : newObjectStream lib m ≠ .error .panic := by
  rw [newObjectStream]
  split
  · split <;> simp
  · simp

theorem checkObjectStream_panic (s : Bytes) : checkObjectStream s = .error .panic ↔ ∃ t, s = osHead ++ t ∧ Spec.Cut t := by
  constructor
  · intro h
    have h' := h
    rw [checkObjectStream] at h'
    split at h'
    · simp at h'
    · rename_i h4
      split at h'
      · simp at h'
      · rename_i hm
        rw [not_or, Decidable.not_not, Decidable.not_not] at hm
        have e : s.take 4 = osHead := by
          have e1 := beBytes_beVal (s.take 2)
          have e2 := beBytes_beVal ((s.drop 2).take 2)
          rw [hm.1, show (s.take 2).length = 2 by rw [List.length_take]; omega] at e1
          rw [hm.2, show ((s.drop 2).take 2).length = 2 by rw [List.length_take, List.length_drop]; omega] at e2
          have : s.take 4 = s.take 2 ++ (s.drop 2).take 2 := by
            rw [show (4 : Nat) = 2 + 2 from rfl, List.take_add]
          rw [this, ← e1, ← e2]; decide
        exact ⟨s.drop 4, by rw [← e, List.take_append_drop], (getBlock_panic_iff _).mp h'⟩
  · rintro ⟨t, rfl, h⟩
    rw [checkObjectStream_head]
    exact (getBlock_panic_iff _).mpr h

theorem checkObjectStream_ok (s c r : Bytes) : checkObjectStream s = .ok (c, r) ↔ ∃ t, s = osHead ++ t ∧ Spec.Run c t r := by
  constructor
  · intro h
    obtain ⟨h1, -, h2⟩ := checkObjectStream_sound h
    exact ⟨_, h1, (getBlock_ok _ _ _).mp h2⟩
  · rintro ⟨t, rfl, h⟩
    rw [checkObjectStream_head]
    exact (getBlock_ok _ _ _).mpr h

/-- **C49 (requests).** Decoding a frame as a request ends with a request or an error, except for exactly these frames:
the object stream begins with full blocks and ends behind the first byte of the next; or it has names, with nothing
behind them in their blocks, any number of arguments, and then full blocks and the first byte of the next. -/
theorem request_panics_exactly (lib : Lib) (m : Msg) :
    decodeRequest lib m = .error .panic ↔
      ∃ t, Spec.stream lib m = some ([0xac, 0xed, 0, 5] ++ t) ∧
        (Spec.Cut t ∨ ∃ (names : Bytes) (args : List Bytes) (cut : Bytes),
          Spec.Run names t (args.flatten ++ cut) ∧ Spec.Names names ∧ (∀ a ∈ args, Arg a) ∧ Spec.Cut cut) := by
  have hparse : ∀ s v z, parseReq s v z = .error .panic ↔ ∃ t, s = osHead ++ t ∧
      (Spec.Cut t ∨ ∃ (names : Bytes) (args : List Bytes) (cut : Bytes),
        Spec.Run names t (args.flatten ++ cut) ∧ Spec.Names names ∧ (∀ a ∈ args, Arg a) ∧ Spec.Cut cut) := by
    intro s v z
    constructor
    · intro h
      rw [parseReq] at h
      split at h
      · rename_i e hc
        simp only [Except.error.injEq] at h; subst h
        obtain ⟨t, h1, h2⟩ := (checkObjectStream_panic _).mp hc
        exact ⟨t, h1, .inl h2⟩
      · rename_i sb rest hc
        obtain ⟨t, h1, h2⟩ := (checkObjectStream_ok _ _ _).mp hc
        split at h
        · rename_i e hi
          simp only [Except.error.injEq] at h; subst h
          exact absurd hi (readInfos_no_panic _)
        · rename_i i0 i1 i2 b hi
          split at h
          · rename_i hb
            have hb := List.length_eq_zero_iff.mp hb
            subst hb
            split at h
            · rename_i e hpa
              simp only [Except.error.injEq] at h; subst h
              obtain ⟨args, cut, a1, rfl, a3⟩ := (parseArgs_panic_iff _ _).mp hpa
              exact ⟨t, h1, .inr ⟨sb, args, cut, h2, (readInfos_names _).mp ⟨_, _, _, hi⟩, a1, a3⟩⟩
            · split at h
              · rename_i e hra
                simp only [Except.error.injEq] at h; subst h
                exact absurd hra (readAttachments_no_panic _ _)
              · simp at h
          · split at h
            · rename_i e hra
              simp only [Except.error.injEq] at h; subst h
              exact absurd hra (readAttachments_no_panic _ _)
            · simp at h
    · rintro ⟨t, rfl, h | ⟨names, args, cut, h1, h2, h3, h4⟩⟩
      · rw [parseReq, (checkObjectStream_panic _).mpr ⟨t, rfl, h⟩]
      · obtain ⟨s, mm, d, hi⟩ := (readInfos_names _).mpr h2
        rw [parseReq, (checkObjectStream_ok _ _ _).mpr ⟨t, rfl, h1⟩]
        simp only [hi]
        rw [if_pos (by simp), (parseArgs_panic_iff _ _).mpr ⟨args, cut, h3, rfl, h4⟩]
  constructor
  · intro h
    rw [decodeRequest] at h
    split at h
    · rename_i e hs
      simp only [Except.error.injEq] at h; subst h
      exact absurd hs (newObjectStream_no_panic _ _)
    · rename_i s z hs
      obtain ⟨t, rfl, h2⟩ := (hparse _ _ _).mp h
      exact ⟨t, (stream_eq lib m).mp ⟨z, hs⟩, h2⟩
  · rintro ⟨t, hs, h⟩
    obtain ⟨z, hz⟩ := (stream_eq lib m).mpr hs
    rw [decodeRequest, hz]
    exact (hparse _ _ _).mpr ⟨t, rfl, h⟩

/-- A byte array that says that it is longer than it is (the first byte is not looked at). -/
inductive Spec.Short : Bytes → Prop
  | desc (x : UInt8) (d content : Bytes) (n : Nat) (hd : d.length = 17) (hn : n < 2 ^ 32) (hc : content.length < n) :
      Spec.Short (x :: 0x72 :: d ++ beBytes 4 n ++ content)
  | ref (x : UInt8) (d content : Bytes) (n : Nat) (hd : d.length = 4) (hn : n < 2 ^ 32) (hc : content.length < n) :
      Spec.Short (x :: 0x71 :: d ++ beBytes 4 n ++ content)

theorem skipByteArray_panic (s : Bytes) : skipByteArray true s = .error .panic ↔ Spec.Short s := by
  have hsplit : ∀ (k : Nat) (u : Bytes), k + 4 ≤ u.length →
      u = u.take k ++ beBytes 4 (beVal ((u.drop k).take 4)) ++ (u.drop k).drop 4 := by
    intro k u hu
    have hl : ((u.drop k).take 4).length = 4 := by rw [List.length_take, List.length_drop]; omega
    have := beBytes_beVal ((u.drop k).take 4)
    rw [hl] at this
    rw [this, List.append_assoc, List.take_append_drop, List.take_append_drop]
  have hlt : ∀ (u : Bytes), 4 ≤ u.length → beVal (u.take 4) < 2 ^ 32 := by
    intro u hu
    have := beVal_lt (u.take 4)
    rw [show (u.take 4).length = 4 by rw [List.length_take]; omega] at this
    exact this
  constructor
  · intro h
    rw [skipByteArray] at h
    split at h
    · simp at h
    rename_i h10
    simp only at h
    match s, h10 with
    | [], h10 => simp at h10
    | [_], h10 => simp at h10
    | x :: t :: u, h10 =>
      simp only [List.length_cons] at h10
      have ht : (x :: t :: u).getD 1 0 = t := rfl
      rw [ht] at h
      by_cases hc : t = TC_CLASSDESC
      · subst hc
        rw [if_pos rfl] at h
        by_cases h23 : (x :: TC_CLASSDESC :: u).length < 23
        · rw [if_pos h23] at h; simp at h
        rw [if_neg h23] at h
        simp only [List.length_cons] at h23
        rw [show (x :: TC_CLASSDESC :: u).drop 19 = u.drop 17 from rfl] at h
        simp only [if_true] at h
        rw [if_neg (by rw [List.length_drop]; omega)] at h
        split at h
        · rename_i hgt
          have := Spec.Short.desc x (u.take 17) ((u.drop 17).drop 4) (beVal ((u.drop 17).take 4))
            (by rw [List.length_take]; omega) (hlt _ (by rw [List.length_drop]; omega)) hgt
          rw [List.cons_append, List.cons_append, List.cons_append, List.cons_append, ← hsplit 17 u (by omega)] at this
          exact this
        · simp at h
      · rw [if_neg hc] at h
        by_cases hf : t = TC_REFERENCE
        · subst hf
          rw [if_pos rfl] at h
          rw [show (x :: TC_REFERENCE :: u).drop 6 = u.drop 4 from rfl] at h
          simp only [if_true] at h
          rw [if_neg (by rw [List.length_drop]; omega)] at h
          split at h
          · rename_i hgt
            have := Spec.Short.ref x (u.take 4) ((u.drop 4).drop 4) (beVal ((u.drop 4).take 4))
              (by rw [List.length_take]; omega) (hlt _ (by rw [List.length_drop]; omega)) hgt
            rw [List.cons_append, List.cons_append, List.cons_append, List.cons_append, ← hsplit 4 u (by omega)] at this
            exact this
          · simp at h
        · rw [if_neg hf] at h; simp at h
  · intro h
    cases h with
    | desc x d content n hd hn hc =>
      rw [skipByteArray, if_neg (by simp [hd]; omega)]
      have ht : ((x :: 0x72 :: d ++ beBytes 4 n ++ content : Bytes)).getD 1 0 = 0x72 := rfl
      simp only [ht]
      rw [if_pos (by decide), if_neg (by simp [hd]; omega)]
      simp only
      rw [show (x :: 0x72 :: d ++ beBytes 4 n ++ content : Bytes).drop 19 = beBytes 4 n ++ content by
        rw [List.append_assoc, List.drop_left' (by simp [hd])]]
      rw [if_neg (by simp), if_pos trivial, List.take_left' (by simp), List.drop_left' (by simp), beVal_beBytes (by simpa using hn),
        if_pos hc]
    | ref x d content n hd hn hc =>
      rw [skipByteArray, if_neg (by simp [hd]; omega)]
      have ht : ((x :: 0x71 :: d ++ beBytes 4 n ++ content : Bytes)).getD 1 0 = 0x71 := rfl
      simp only [ht]
      rw [if_neg (by decide), if_pos (by decide)]
      simp only
      rw [show (x :: 0x71 :: d ++ beBytes 4 n ++ content : Bytes).drop 6 = beBytes 4 n ++ content by
        rw [List.append_assoc, List.drop_left' (by simp [hd])]]
      rw [if_neg (by simp), if_pos trivial, List.take_left' (by simp), List.drop_left' (by simp), beVal_beBytes (by simpa using hn),
        if_pos hc]

/-- **C49 (responses).** Decoding a frame as a response ends with a response or an error, except for exactly these frames:
the object stream begins with full blocks and ends behind the first byte of the next; or the frame is a response (flag 1)
with a process time and the class name `java.lang.String`, and its value says that it is longer than it is. -/
theorem response_panics_exactly (lib : Lib) (m : Msg) :
    decodeResponse lib m = .error .panic ↔
      ∃ t, Spec.stream lib m = some ([0xac, 0xed, 0, 5] ++ t) ∧
        (Spec.Cut t ∨ m.flag = 1 ∧ ∃ time name more value : Bytes,
          Spec.Run (time ++ name ++ more) t value ∧ time.length = 8 ∧ Spec.Str b!"java.lang.String" name ∧ Spec.Short value) := by
  have hparse : ∀ s f, parseRes s f = .error .panic ↔ ∃ t, s = osHead ++ t ∧
      (Spec.Cut t ∨ f = 1 ∧ ∃ time name more value : Bytes,
        Spec.Run (time ++ name ++ more) t value ∧ time.length = 8 ∧ Spec.Str b!"java.lang.String" name ∧ Spec.Short value) := by
    intro s f
    constructor
    · intro h
      rw [parseRes] at h
      split at h
      · rename_i e hc
        simp only [Except.error.injEq] at h; subst h
        obtain ⟨t, h1, h2⟩ := (checkObjectStream_panic _).mp hc
        exact ⟨t, h1, .inl h2⟩
      · rename_i sb rest hc
        obtain ⟨t, h1, h2⟩ := (checkObjectStream_ok _ _ _).mp hc
        split at h
        · rename_i e hl
          simp only [Except.error.injEq] at h; subst h
          rw [readLong] at hl
          split at hl <;> simp at hl
        · rename_i pt b hl
          have h8 : 8 ≤ sb.length ∧ sb.drop 8 = b := by
            rw [readLong] at hl
            split at hl
            · simp at hl
            · rename_i h8
              simp only [Except.ok.injEq, Prod.mk.injEq] at hl
              exact ⟨by omega, hl.2⟩
          split at h
          · simp at h
          · split at h
            · rename_i hf
              split at h
              · simp at h
              · rename_i c r hu
                obtain ⟨p, hp, hb⟩ := (readUtf_ok _ _ _).mp hu
                split at h
                · rename_i hcn
                  have hsk : skipByteArray true rest = .error .panic := by
                    split at h
                    · rename_i hs; exact hs
                    · simp at h
                    · simp at h
                  refine ⟨t, h1, .inr ⟨hf, sb.take 8, p, r, rest, ?_, by rw [List.length_take]; omega, hcn ▸ hp,
                    (skipByteArray_panic _).mp hsk⟩⟩
                  rw [List.append_assoc, ← hb, ← h8.2, List.take_append_drop]
                  exact h2
                · simp at h
            · simp at h
    · rintro ⟨t, rfl, h | ⟨rfl, time, name, more, value, h1, h2, h3, h4⟩⟩
      · rw [parseRes, (checkObjectStream_panic _).mpr ⟨t, rfl, h⟩]
      · rw [parseRes, (checkObjectStream_ok _ _ _).mpr ⟨t, rfl, h1⟩]
        simp only
        have hl : ∃ pt, readLong (time ++ name ++ more) = .ok (pt, name ++ more) := by
          rw [readLong, if_neg (by simp [h2]), List.append_assoc, List.drop_left' h2]
          exact ⟨_, rfl⟩
        obtain ⟨pt, hl⟩ := hl
        rw [hl]
        simp only
        rw [if_neg (by decide), if_pos (by decide), (readUtf_ok _ _ _).mpr ⟨name, h3, rfl⟩]
        simp only [if_true]
        rw [(skipByteArray_panic _).mpr h4]
  constructor
  · intro h
    rw [decodeResponse] at h
    split at h
    · rename_i e hs
      simp only [Except.error.injEq] at h; subst h
      exact absurd hs (newObjectStream_no_panic _ _)
    · rename_i s z hs
      split at h
      · rename_i e hp
        simp only [Except.error.injEq] at h; subst h
        obtain ⟨t, rfl, h2⟩ := (hparse _ _).mp hp
        exact ⟨t, (stream_eq lib m).mp ⟨z, hs⟩, h2⟩
      · simp at h
  · rintro ⟨t, hs, h⟩
    obtain ⟨z, hz⟩ := (stream_eq lib m).mpr hs
    rw [decodeResponse, hz]
    simp only
    rw [(hparse ([0xac, 0xed, 0, 5] ++ t) _).mpr ⟨t, rfl, h⟩]

/-- A request that does not end with the first byte of a block does not make the decoder panic; nor does a response whose
value is no string. -/
theorem decode_panics_not (lib : Lib) (m : Msg) (s : Bytes) (hs : Spec.stream lib m = some s) (h : s.getLast? ≠ some 0x77) :
    decodeRequest lib m ≠ .error .panic ∧ (m.flag ≠ 1 → decodeResponse lib m ≠ .error .panic) := by
  have hcut : ∀ p c, s = p ++ c → Spec.Cut c → False := by
    rintro p c rfl ⟨chunks, -, -, rfl⟩
    apply h
    rw [← List.append_assoc, List.getLast?_append]; rfl
  have hrun : ∀ {c t r : Bytes}, Spec.Run c t r → ∃ p, t = p ++ r := fun hr => getBlock_suffix ((getBlock_ok _ _ _).mpr hr)
  constructor
  · intro hp
    obtain ⟨t, ht, hc | ⟨names, args, cut, hr, -, -, hc⟩⟩ := (request_panics_exactly lib m).mp hp
    · rw [hs] at ht
      exact hcut _ t (Option.some.inj ht) hc
    · rw [hs] at ht
      obtain ⟨p, rfl⟩ := hrun hr
      exact hcut ([0xac, 0xed, 0, 5] ++ p ++ args.flatten) cut (by rw [Option.some.inj ht]; simp) hc
  · intro hf hp
    obtain ⟨t, ht, hc | ⟨hf', -⟩⟩ := (response_panics_exactly lib m).mp hp
    · rw [hs] at ht
      exact hcut _ t (Option.some.inj ht) hc
    · exact hf hf'

/-! ## Concrete cases -/

/-- Two arguments, a full block and a marker behind the names. -/
theorem cut_of (c : Bytes) (h : c.length = 1024) : Spec.Cut (0x7A :: (beBytes 4 1024 ++ c) ++ [0x77]) :=
  ⟨[c], by simp, by simpa using h, by simp only [List.map_cons, List.map_nil, List.flatten_cons, List.flatten_nil, List.append_nil]⟩

example (lib : Lib) (c : Bytes) (h : c.length = 1024) (m : Msg) (hv : m.innerVersion = 1)
    (ho : m.origin.drop 32 = [0xac, 0xed, 0, 5] ++ (0x77 :: 8 :: [0, 1, 97, 0, 1, 98, 0, 0] ++
      ([[0x70], [0x70]].flatten ++ (0x7A :: (beBytes 4 1024 ++ c) ++ [0x77])))) :
    decodeRequest lib m = .error .panic := by
  refine (request_panics_exactly lib m).mpr ⟨_, by
      rw [Spec.stream, if_neg (fun hh => absurd (hv.symm.trans hh.1) (by decide)), ho]; rfl,
    .inr ⟨[0, 1, 97, 0, 1, 98, 0, 0], [[0x70], [0x70]], _, .one (.short _ (by decide)) (fun h => absurd h (by decide)), ?_, ?_, cut_of c h⟩⟩
  · exact .inr ⟨b!"a", [0, 1, 97], b!"b", [0, 1, 98], [], [0, 0], by decide, .pos b!"a" (by decide), .pos b!"b" (by decide),
      .pos [] (by decide), rfl⟩
  · intro a ha
    simp only [List.mem_cons, List.not_mem_nil, or_false, or_self] at ha
    rw [ha]; exact .null

example : Spec.Short ([0x75, 0x71, 0, 0, 0, 0] ++ beBytes 4 9 ++ [1]) := .ref 0x75 [0, 0, 0, 0] [1] 9 rfl (by decide) (by decide)

/-- The heartbeat frames are decoded. -/
example : ∀ m, readV1Message 1000 (buildHeartbeatReq 5) = (.ok m, []) → decodeRequest noLib m ≠ .error .panic := by
  intro m hm
  refine (decode_panics_not noLib m (m.origin.drop 32) ?_ ?_).1
  all_goals
    have : m = ⟨buildHeartbeatReq 5, 1, 0, 5, 62⟩ := by
      have h : readV1Message 1000 (buildHeartbeatReq 5) = (.ok ⟨buildHeartbeatReq 5, 1, 0, 5, 62⟩, []) := by decide +kernel
      rw [h] at hm
      simpa using hm.symm
    subst this
    decide +kernel

end Motan.Props
