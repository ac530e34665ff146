import Verif.Props.Buffer

/-!
# C02, continued: what every byte string means as a varint
-/

namespace Motan.Props

open Motan BytesBuffer

/-! ## Specification -/

/-- The number that groups of seven bits stand for, the least significant group first. -/
def Spec.groups : Bytes → Nat
  | [] => 0
  | c :: cs => c.toNat % 128 + 128 * Spec.groups cs

/-- A varint: every byte but the last has its highest bit set. -/
def Spec.Varint (code : Bytes) : Prop :=
  ∃ init last, code = init ++ [last] ∧ last.toNat < 128 ∧ ∀ c ∈ init, 128 ≤ c.toNat

/-! ## Proofs -/

theorem flag_iff (c : UInt8) : c &&& 0x80 = 0x80 ↔ 128 ≤ c.toNat := by
  have : ∀ c : Fin 256, (UInt8.ofNat c.val &&& 0x80 = 0x80) ↔ 128 ≤ c.val := by decide +kernel
  have h := this ⟨c.toNat, c.toNat_lt⟩
  simpa using h

theorem low_bits (c : UInt8) : (c &&& 0x7f).toNat = c.toNat % 128 := by
  rw [UInt8.toNat_and]
  exact Nat.and_two_pow_sub_one_eq_mod c.toNat 7

theorem varint_acc_mod (x : UInt64) (c : UInt8) (t : Nat) (hc : c.toNat = t) (offset : Nat) (ho : offset < 64)
    (hx : x.toNat < 2 ^ offset) :
    x ||| (c.toUInt64 <<< UInt64.ofNat offset) = UInt64.ofNat (x.toNat + t * 2 ^ offset) := by
  apply UInt64.toNat_inj.mp
  simp only [UInt64.toNat_or, UInt64.toNat_shiftLeft, UInt8.toNat_toUInt64, UInt64.toNat_ofNat', hc]
  have e1 : offset % 2 ^ 64 % 64 = offset := by omega
  rw [e1, Nat.shiftLeft_eq]
  have hp : 2 ^ 64 = 2 ^ offset * 2 ^ (64 - offset) := by rw [← Nat.pow_add]; congr 1; omega
  have em : t * 2 ^ offset % 2 ^ 64 = 2 ^ offset * (t % 2 ^ (64 - offset)) := by
    rw [Nat.mul_comm, hp, Nat.mul_mod_mul_left]
  have hlt : x.toNat + 2 ^ offset * (t % 2 ^ (64 - offset)) < 2 ^ 64 := by
    have h1 : t % 2 ^ (64 - offset) + 1 ≤ 2 ^ (64 - offset) := Nat.mod_lt _ (Nat.pow_pos (by decide))
    have h2 := Nat.mul_le_mul_left (2 ^ offset) h1
    rw [← hp, Nat.mul_add, Nat.mul_one] at h2
    omega
  rw [em, Nat.or_comm, ← Nat.two_pow_add_eq_or_of_lt hx, Nat.add_comm]
  have hx64 : x.toNat % 2 ^ 64 = x.toNat := Nat.mod_eq_of_lt x.toNat_lt
  rw [Nat.add_mod, em, hx64, Nat.mod_eq_of_lt hlt]

theorem loop_reads (init : Bytes) (last : UInt8) (hl : last.toNat < 128) (tl : Bytes) :
    ∀ (b : BytesBuffer) (offset : Nat) (x : UInt64), (∀ c ∈ init, 128 ≤ c.toNat) → offset + 7 * (init.length + 1) ≤ 70 →
      x.toNat < 2 ^ offset → b.rest = init ++ [last] ++ tl →
      readVarintLoop b offset x =
        .ok (UInt64.ofNat (x.toNat + Spec.groups (init ++ [last]) * 2 ^ offset), b.skip (init.length + 1)) := by
  induction init with
  | nil =>
    intro b offset x _ ho hx hr
    have ho' : offset < 64 := by simp at ho; omega
    rw [readVarintLoop]
    have hf : ¬ (last &&& 0x80 = 0x80) := fun h => by have := (flag_iff last).1 h; omega
    simp only [ho', if_true, readByte_rest (show b.rest = last :: tl from hr), ne_eq, hf, not_false_eq_true]
    rw [varint_acc_mod x last last.toNat rfl offset ho' hx]
    have hg : Spec.groups ([] ++ [last]) = last.toNat := by simp [Spec.groups]; omega
    rw [hg]
    rfl
  | cons c init ih =>
    intro b offset x hc ho hx hr
    rw [List.length_cons] at ho
    have ho' : offset < 64 := by omega
    have hf : c &&& 0x80 = 0x80 := (flag_iff c).2 (hc c (List.mem_cons_self ..))
    rw [readVarintLoop]
    simp only [ho', if_true, readByte_rest (show b.rest = c :: (init ++ [last] ++ tl) from hr), ne_eq, hf, not_true_eq_false, if_false]
    rw [varint_acc_mod x _ _ (low_bits c) offset ho' hx]
    have hm : c.toNat % 128 < 128 := Nat.mod_lt _ (by decide)
    have hpow7 : 2 ^ (offset + 7) = 128 * 2 ^ offset := by rw [Nat.pow_add]; omega
    have hle : c.toNat % 128 * 2 ^ offset ≤ 127 * 2 ^ offset := Nat.mul_le_mul_right _ (by omega)
    have hp63 : 2 ^ (offset + 7) ≤ 2 ^ 63 := Nat.pow_le_pow_right (by decide) (by omega)
    have hfit : x.toNat + c.toNat % 128 * 2 ^ offset < 2 ^ 64 := by omega
    have hn : (UInt64.ofNat (x.toNat + c.toNat % 128 * 2 ^ offset)).toNat = x.toNat + c.toNat % 128 * 2 ^ offset := by
      rw [UInt64.toNat_ofNat', Nat.mod_eq_of_lt hfit]
    rw [ih (b.skip 1) (offset + 7) _ (fun d hd => hc d (List.mem_cons_of_mem _ hd)) (by omega) (by rw [hn]; omega)
      (by rw [skip_rest, hr]; simp)]
    rw [hn, skip_skip, hpow7]
    show Except.ok (UInt64.ofNat _, _) = Except.ok (UInt64.ofNat (x.toNat + (c.toNat % 128 + 128 * Spec.groups (init ++ [last])) * 2 ^ offset), _)
    congr 2
    · congr 1
      rw [Nat.add_mul, Nat.mul_assoc, Nat.mul_left_comm]
      have : 128 * Spec.groups (init ++ [last]) * 2 ^ offset = 128 * (Spec.groups (init ++ [last]) * 2 ^ offset) := Nat.mul_assoc ..
      omega
    · congr 1
      simp; omega

theorem loop_overflow (code tl : Bytes) :
    ∀ (b : BytesBuffer) (offset : Nat) (x : UInt64), (∀ c ∈ code, 128 ≤ c.toNat) → offset + 7 * code.length = 70 →
      b.rest = code ++ tl → readVarintLoop b offset x = .error .overflow := by
  induction code with
  | nil =>
    intro b offset x _ ho _
    have : ¬ offset < 64 := by simp at ho; omega
    rw [readVarintLoop, if_neg this]
  | cons c code ih =>
    intro b offset x hc ho hr
    rw [List.length_cons] at ho
    have ho' : offset < 64 := by omega
    have hf : c &&& 0x80 = 0x80 := (flag_iff c).2 (hc c (List.mem_cons_self ..))
    rw [readVarintLoop]
    simp only [ho', if_true, readByte_rest (show b.rest = c :: (code ++ tl) from hr), ne_eq, hf, not_true_eq_false, if_false]
    exact ih _ _ _ (fun d hd => hc d (List.mem_cons_of_mem _ hd)) (by omega) (by rw [skip_rest, hr]; simp)

theorem loop_eof (code : Bytes) :
    ∀ (b : BytesBuffer) (offset : Nat) (x : UInt64), (∀ c ∈ code, 128 ≤ c.toNat) → offset + 7 * code.length < 64 →
      b.rest = code → readVarintLoop b offset x = .error .eof := by
  induction code with
  | nil =>
    intro b offset x _ ho hr
    have ho' : offset < 64 := by simpa using ho
    rw [readVarintLoop, if_pos ho']
    have : b.buf[b.rpos]? = none := by
      rw [List.getElem?_eq_none_iff]
      have := congrArg List.length hr
      simp only [rest, List.length_drop, List.length_nil] at this
      omega
    simp only [readByte, this]
  | cons c code ih =>
    intro b offset x hc ho hr
    rw [List.length_cons] at ho
    have ho' : offset < 64 := by omega
    have hf : c &&& 0x80 = 0x80 := (flag_iff c).2 (hc c (List.mem_cons_self ..))
    rw [readVarintLoop]
    simp only [ho', if_true, readByte_rest (show b.rest = c :: code from hr), ne_eq, hf, not_true_eq_false, if_false]
    exact ih _ _ _ (fun d hd => hc d (List.mem_cons_of_mem _ hd)) (by omega) (by rw [skip_rest, hr]; simp)

/-- The three kinds of byte strings, for at most `n` bytes. -/
theorem varint_cases (l : Bytes) : ∀ n, (∃ code tl, l = code ++ tl ∧ Spec.Varint code ∧ code.length ≤ n) ∨
    (∃ code tl, l = code ++ tl ∧ code.length = n ∧ ∀ c ∈ code, 128 ≤ c.toNat) ∨
    (l.length < n ∧ ∀ c ∈ l, 128 ≤ c.toNat) := by
  induction l with
  | nil =>
    intro n
    cases n with
    | zero => exact .inr (.inl ⟨[], [], rfl, rfl, by simp⟩)
    | succ n => exact .inr (.inr ⟨by simp, by simp⟩)
  | cons c l ih =>
    intro n
    cases n with
    | zero => exact .inr (.inl ⟨[], c :: l, rfl, rfl, by simp⟩)
    | succ n =>
      by_cases hc : c.toNat < 128
      · exact .inl ⟨[c], l, rfl, ⟨[], c, rfl, hc, by simp⟩, by simp⟩
      · have hc : 128 ≤ c.toNat := by omega
        rcases ih n with ⟨_, tl, rfl, ⟨init, last, rfl, h1, h2⟩, h3⟩ | ⟨code, tl, rfl, h1, h2⟩ | ⟨h1, h2⟩
        · refine .inl ⟨c :: init ++ [last], tl, by simp, ⟨c :: init, last, rfl, h1, ?_⟩, by simpa using h3⟩
          intro d hd
          rcases List.mem_cons.1 hd with rfl | hd
          · exact hc
          · exact h2 d hd
        · refine .inr (.inl ⟨c :: code, tl, rfl, by simp [h1], ?_⟩)
          intro d hd
          rcases List.mem_cons.1 hd with rfl | hd
          · exact hc
          · exact h2 d hd
        · refine .inr (.inr ⟨by simp; omega, ?_⟩)
          intro d hd
          rcases List.mem_cons.1 hd with rfl | hd
          · exact hc
          · exact h2 d hd

theorem reads_code {b : BytesBuffer} {code tl : Bytes} (hr : b.buf.drop b.rpos = code ++ tl) (hv : Spec.Varint code)
    (hl : code.length ≤ 10) : b.readVarint = .ok (UInt64.ofNat (Spec.groups code), { b with rpos := b.rpos + code.length }) := by
  obtain ⟨init, last, rfl, h1, h2⟩ := hv
  have := loop_reads init last h1 tl b 0 0 h2 (by simp at hl; omega) (by decide) hr
  rw [readVarint, this]
  simp [skip]

theorem reads_overflow {b : BytesBuffer} {code tl : Bytes} (hr : b.buf.drop b.rpos = code ++ tl) (hl : code.length = 10)
    (h : ∀ c ∈ code, 128 ≤ c.toNat) : b.readVarint = .error .overflow :=
  loop_overflow code tl b 0 0 h (by omega) hr

theorem reads_eof {b : BytesBuffer} (hl : (b.buf.drop b.rpos).length < 10) (h : ∀ c ∈ b.buf.drop b.rpos, 128 ≤ c.toNat) :
    b.readVarint = .error .eof :=
  loop_eof _ b 0 0 h (by omega) rfl

/-! ## Properties -/

/-- **C02, what is read.** Reading succeeds exactly if the bytes left begin with a varint of at most ten bytes; it consumes just
this varint and gives the number its groups of seven bits stand for, without the bits beyond the 64th. -/
theorem varint_read (b b' : BytesBuffer) (x : UInt64) : b.readVarint = .ok (x, b') ↔
    ∃ code tl, b.buf.drop b.rpos = code ++ tl ∧ Spec.Varint code ∧ code.length ≤ 10 ∧ x.toNat = Spec.groups code % 2 ^ 64 ∧
      b' = { b with rpos := b.rpos + code.length } := by
  constructor
  · intro h
    rcases varint_cases (b.buf.drop b.rpos) 10 with ⟨code, tl, hr, hv, hl⟩ | ⟨code, tl, hr, hl, hc⟩ | ⟨hl, hc⟩
    · rw [reads_code hr hv hl] at h
      cases h
      exact ⟨code, tl, hr, hv, hl, UInt64.toNat_ofNat' , rfl⟩
    · rw [reads_overflow hr hl hc] at h; cases h
    · rw [reads_eof hl hc] at h; cases h
  · rintro ⟨code, tl, hr, hv, hl, hx, rfl⟩
    rw [reads_code hr hv hl]
    congr 2
    apply UInt64.toNat_inj.mp
    rw [UInt64.toNat_ofNat', hx]

/-- **C02, what is too long.** Reading ends with an overflow exactly if the next ten bytes all have their highest bit set. -/
theorem varint_overflow (b : BytesBuffer) : b.readVarint = .error .overflow ↔
    ∃ code tl, b.buf.drop b.rpos = code ++ tl ∧ code.length = 10 ∧ ∀ c ∈ code, 128 ≤ c.toNat := by
  constructor
  · intro h
    rcases varint_cases (b.buf.drop b.rpos) 10 with ⟨code, tl, hr, hv, hl⟩ | ⟨code, tl, hr, hl, hc⟩ | ⟨hl, hc⟩
    · rw [reads_code hr hv hl] at h; cases h
    · exact ⟨code, tl, hr, hl, hc⟩
    · rw [reads_eof hl hc] at h; cases h
  · rintro ⟨code, tl, hr, hl, hc⟩
    exact reads_overflow hr hl hc

/-- **C02, what is too short.** Reading finds the end exactly if fewer than ten bytes are left and all of them have their highest
bit set; there is no other error. -/
theorem varint_short (b : BytesBuffer) (e : BufErr) : b.readVarint = .error e ∧ e ≠ .overflow ↔
    e = .eof ∧ (b.buf.drop b.rpos).length < 10 ∧ ∀ c ∈ b.buf.drop b.rpos, 128 ≤ c.toNat := by
  constructor
  · rintro ⟨h, he⟩
    rcases varint_cases (b.buf.drop b.rpos) 10 with ⟨code, tl, hr, hv, hl⟩ | ⟨code, tl, hr, hl, hc⟩ | ⟨hl, hc⟩
    · rw [reads_code hr hv hl] at h; cases h
    · rw [reads_overflow hr hl hc] at h; cases h; exact absurd rfl he
    · rw [reads_eof hl hc] at h; cases h; exact ⟨rfl, hl, hc⟩
  · rintro ⟨rfl, hl, hc⟩
    exact ⟨reads_eof hl hc, by decide⟩

theorem leb_varint (n : Nat) : Spec.Varint (leb n) ∧ Spec.groups (leb n) = n ∧
    ((leb n).length = 1 ∨ ∃ i l, leb n = i ++ [l] ∧ l ≠ 0) := by
  induction n using Nat.strongRecOn with
  | _ n ih =>
    by_cases hn : n < 128
    · rw [leb_small hn]
      have e : (UInt8.ofNat n).toNat = n := by rw [UInt8.toNat_ofNat']; omega
      refine ⟨⟨[], _, rfl, by rw [e]; exact hn, by simp⟩, ?_, .inl rfl⟩
      simp only [Spec.groups, e]; omega
    · rw [leb_big hn]
      obtain ⟨⟨init, last, e1, e2, e3⟩, h2, h3⟩ := ih (n / 128) (by omega)
      have e : (UInt8.ofNat (n % 128 + 128)).toNat = n % 128 + 128 := by rw [UInt8.toNat_ofNat']; omega
      refine ⟨⟨UInt8.ofNat (n % 128 + 128) :: init, last, by rw [e1]; rfl, e2, ?_⟩, ?_, .inr ?_⟩
      · intro d hd
        rcases List.mem_cons.1 hd with rfl | hd
        · omega
        · exact e3 d hd
      · simp only [Spec.groups, e, h2]; omega
      · rcases h3 with h3 | ⟨i, l, h3, h4⟩
        · have h5 : init = [] := by
            rw [e1] at h3
            simpa using h3
          subst h5
          refine ⟨[_], last, by rw [e1]; rfl, ?_⟩
          rintro rfl
          rw [e1] at h2
          simp [Spec.groups] at h2
          omega
        · exact ⟨_ :: i, l, by rw [h3]; rfl, h4⟩

/-- A varint that does not end in an empty group is determined by its number, and no other one for the number is as short. -/
theorem varint_unique {code : Bytes} (hv : Spec.Varint code) :
    (leb (Spec.groups code)).length ≤ code.length ∧
    ((code.length = 1 ∨ ∃ i l, code = i ++ [l] ∧ l ≠ 0) → code = leb (Spec.groups code)) := by
  obtain ⟨init, last, rfl, hl, hc⟩ := hv
  induction init with
  | nil =>
    have e : Spec.groups ([] ++ [last]) = last.toNat := by simp [Spec.groups]; omega
    rw [e, leb_small hl]
    exact ⟨by simp, fun _ => by simp⟩
  | cons c init ih =>
    have hc1 := hc c (List.mem_cons_self ..)
    have hc2 := c.toNat_lt
    obtain ⟨i1, i2⟩ := ih fun d hd => hc d (List.mem_cons_of_mem _ hd)
    have e : Spec.groups (c :: init ++ [last]) = c.toNat % 128 + 128 * Spec.groups (init ++ [last]) := rfl
    constructor
    · rw [e]
      by_cases hs : c.toNat % 128 + 128 * Spec.groups (init ++ [last]) < 128
      · rw [leb_small hs]; simp
      · rw [leb_big hs]
        have : (c.toNat % 128 + 128 * Spec.groups (init ++ [last])) / 128 = Spec.groups (init ++ [last]) := by omega
        rw [this]
        simpa using i1
    · intro h
      have hne : ∃ i l, init ++ [last] = i ++ [l] ∧ l ≠ 0 := by
        rcases h with h | ⟨i, l, h, h0⟩
        · simp at h
        · have := (List.append_inj' (s₁ := c :: init) (t₁ := [last]) h (by simp)).2
          cases this
          exact ⟨init, last, rfl, h0⟩
      have e2 := i2 (.inr hne)
      have hpos : Spec.groups (init ++ [last]) ≠ 0 := by
        intro h0
        rw [h0] at e2
        obtain ⟨i, l, h1, h2⟩ := hne
        rw [h1, leb_small (by decide)] at e2
        have := (List.append_inj' (s₁ := i) (s₂ := []) (t₁ := [l]) (by simpa using e2) (by simp)).2
        cases this
        exact h2 rfl
      have hs : ¬ c.toNat % 128 + 128 * Spec.groups (init ++ [last]) < 128 := by omega
      rw [e, leb_big hs]
      have h1 : (c.toNat % 128 + 128 * Spec.groups (init ++ [last])) / 128 = Spec.groups (init ++ [last]) := by omega
      have h2 : (c.toNat % 128 + 128 * Spec.groups (init ++ [last])) % 128 + 128 = c.toNat := by omega
      rw [h1, h2, ← e2]
      simp

/-- **C02, what is written.** The bytes written for a number are a varint for it that does not end in an empty group; no varint
for the number is shorter, and no other one ends without an empty group. -/
theorem varint_written (b : BytesBuffer) (hb : b.wpos ≤ b.buf.length) (u : UInt64) :
    ∃ code, (b.writeVarint u).1.bytes = b.bytes ++ code ∧ Spec.Varint code ∧ Spec.groups code = u.toNat ∧
      (code.length = 1 ∨ ∃ i l, code = i ++ [l] ∧ l ≠ 0) ∧
      ∀ other, Spec.Varint other → Spec.groups other = u.toNat → code.length ≤ other.length ∧
        ((other.length = 1 ∨ ∃ i l, other = i ++ [l] ∧ l ≠ 0) → other = code) := by
  obtain ⟨h1, h2, h3⟩ := leb_varint u.toNat
  refine ⟨leb u.toNat, (writeVarint_spec b u hb).1, h1, h2, h3, ?_⟩
  intro other ho hg
  have := varint_unique ho
  rw [hg] at this
  exact this

/-! ## Cases -/

example : Spec.Varint [172, 2] ∧ Spec.groups [172, 2] = 300 := ⟨⟨[172], 2, rfl, by decide, by decide⟩, by decide⟩

/-- A varint that ends in an empty group is read as well: the number 300 in three bytes. -/
example : (BytesBuffer.create [172, 130, 0] .big).readVarint.toOption.map Prod.fst = some 300 := by decide +kernel

/-- Bits beyond the 64th are dropped: this is read as 2^63 like a last byte of 1. -/
example : (BytesBuffer.create [128, 128, 128, 128, 128, 128, 128, 128, 128, 127] .big).readVarint.toOption.map Prod.fst =
    some 0x8000000000000000 := by decide +kernel

end Motan.Props
