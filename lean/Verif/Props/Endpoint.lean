import Verif.Model.Endpoint
import Verif.Props.Url

/-!
# C31, C34: request timeouts and request ids
-/

namespace Motan.Props

open Motan.Endpoint
open Motan.Url (URL)

/-! ## C31 -/

/-- The timeout configured for a method: its own, or else the service's, or else 1000; only positive ones count. -/
def Spec.configuredTimeout (u : URL) (h : List Spec.UrlOp) (m d : Bytes) : Int :=
  Spec.positive (Spec.setting u h m d b!"requestTimeout")
    (Spec.positive (Spec.intOf (Spec.current (u.param b!"requestTimeout") b!"requestTimeout" h)) 1000)

/-- The least timeout a request may ask for: as configured, or half of the timeout. -/
def Spec.leastTimeout (u : URL) (h : List Spec.UrlOp) (m d : Bytes) : Int :=
  match Spec.intOf (Spec.current (u.param b!"minRequestTimeout") b!"minRequestTimeout" h) with
  | none => Spec.configuredTimeout u h m d / 2
  | some n => if n = 0 then Spec.configuredTimeout u h m d / 2 else n

/-- The greatest timeout a request may ask for: as configured, or double the timeout. -/
def Spec.greatestTimeout (u : URL) (h : List Spec.UrlOp) (m d : Bytes) : Int :=
  match Spec.intOf (Spec.current (u.param b!"maxRequestTimeout") b!"maxRequestTimeout" h) with
  | none => 2 * Spec.configuredTimeout u h m d
  | some n => if n = 0 then 2 * Spec.configuredTimeout u h m d else n

/-- The number a text stands for, if it is one of 64 bits. -/
def Spec.number (s : Bytes) : Option Int := match parseInt64 s with
  | (n, none) => some n
  | _ => none

private theorem wrap64_id (n : Int) (h : -2 ^ 63 ≤ n) (h' : n < 2 ^ 63) : wrap64 n = n := by
  unfold wrap64; omega

private theorem positive_pos (o : Option Int) (d : Int) (hd : 0 < d) : 0 < Spec.positive o d := by
  unfold Spec.positive
  split
  · split <;> omega
  · exact hd

theorem configuredTimeout_pos (u : URL) (h : List Spec.UrlOp) (m d : Bytes) : 0 < Spec.configuredTimeout u h m d :=
  positive_pos _ _ (positive_pos _ _ (by decide))

private theorem bounds_eq (u : URL) (hu : Spec.Fresh u) (h : List Spec.UrlOp) (m d : Bytes)
    (hT : Spec.configuredTimeout u h m d < 2 ^ 62) :
    bounds (initTimeouts (Spec.runAll u h)) m d =
      (Spec.configuredTimeout u h m d, Spec.leastTimeout u h m d, Spec.greatestTimeout u h m d) := by
  have s0 := settings_run u hu h
  generalize Spec.runAll u h = v0 at s0
  unfold initTimeouts
  obtain ⟨e1, s1⟩ := settings_getPositiveInt s0 b!"requestTimeout" 1000
  generalize Url.getPositiveIntValue v0 b!"requestTimeout" 1000 = g1 at e1 s1
  obtain ⟨r1, v1⟩ := g1
  obtain ⟨e2, s2⟩ := settings_getInt s1 b!"minRequestTimeout"
  simp only at e1 e2 s2 ⊢
  generalize Url.getInt v1 b!"minRequestTimeout" = g2 at e2 s2
  obtain ⟨r2, v2⟩ := g2
  obtain ⟨e3, s3⟩ := settings_getInt s2 b!"maxRequestTimeout"
  simp only at e2 e3 s3 ⊢
  generalize Url.getInt v2 b!"maxRequestTimeout" = g3 at e3 s3
  obtain ⟨r3, v3⟩ := g3
  simp only at e3 s3 ⊢
  have e4 := (settings_getMethodPositiveInt s3 m d b!"requestTimeout" r1).1
  unfold bounds
  simp only
  rw [e4]
  have hc : Spec.positive (Spec.setting u h m d b!"requestTimeout") r1 = Spec.configuredTimeout u h m d := by
    rw [Spec.configuredTimeout, e1]
  rw [hc, e2, e3]
  have hp := configuredTimeout_pos u h m d
  unfold Spec.leastTimeout Spec.greatestTimeout
  generalize Spec.configuredTimeout u h m d = T at hT hp
  congr 1
  congr 1
  · cases Spec.intOf (Spec.current (u.param b!"minRequestTimeout") b!"minRequestTimeout" h) with
    | none => simp
    | some n => simp
  · have hw : wrap64 (T * 2) = 2 * T := by rw [wrap64_id] <;> omega
    cases Spec.intOf (Spec.current (u.param b!"maxRequestTimeout") b!"maxRequestTimeout" h) with
    | none => simp [hw]
    | some n => simp [hw]

private theorem parse_failed (s : Bytes) (h : (parseInt64 s).2 ≠ none) :
    (parseInt64 s).1 = 0 ∨ (parseInt64 s).1 = -2 ^ 63 ∨ (parseInt64 s).1 = 2 ^ 63 - 1 := by
  rw [parseInt64] at h ⊢
  by_cases h0 : s = []
  · rw [if_pos h0]; exact .inl rfl
  rw [if_neg h0] at h ⊢
  generalize splitSign s = g at h
  obtain ⟨neg, ds⟩ := g
  simp only at h ⊢
  cases hx : parseUint64 ds with
  | error e =>
    cases e with
    | «syntax» => exact .inl rfl
    | range => cases neg <;> simp
  | ok n =>
    rw [hx] at h
    simp only at h ⊢
    split
    · exact .inr (.inr rfl)
    · rename_i h1
      rw [if_neg h1] at h
      split
      · exact .inr (.inl rfl)
      · rename_i h2; rw [if_neg h2] at h; simp at h

/-- **C31.** A request's own timeout is used exactly when it is a number between the least and the greatest allowed;
otherwise the configured one. (A text that is not a number is never used, provided the least timeout is positive: see
the counterexample. Timeouts are taken to be below 2^62 milliseconds.) -/
theorem request_timeout_spec (u : URL) (hu : Spec.Fresh u) (h : List Spec.UrlOp) (m d own : Bytes)
    (hT : Spec.configuredTimeout u h m d < 2 ^ 62) :
    let t := requestTimeout (initTimeouts (Spec.runAll u h)) m d own
    let lo := Spec.leastTimeout u h m d
    let hi := Spec.greatestTimeout u h m d
    (∀ n, Spec.number own = some n → lo ≤ n → n ≤ hi → t = n) ∧
    (∀ n, Spec.number own = some n → ¬ (lo ≤ n ∧ n ≤ hi) → t = Spec.configuredTimeout u h m d) ∧
    (own = [] → t = Spec.configuredTimeout u h m d) ∧
    (Spec.number own = none → 0 < lo → hi < 2 ^ 63 - 1 → t = Spec.configuredTimeout u h m d) := by
  intro t lo hi
  have ht : t = requestTimeout (initTimeouts (Spec.runAll u h)) m d own := rfl
  rw [requestTimeout, bounds_eq u hu h m d hT] at ht
  simp only at ht
  change t = if own ≠ [] then (if (parseInt64 own).1 ≥ lo ∧ (parseInt64 own).1 ≤ hi then (parseInt64 own).1
    else Spec.configuredTimeout u h m d) else Spec.configuredTimeout u h m d at ht
  have hne : ∀ n, Spec.number own = some n → own ≠ [] ∧ (parseInt64 own).1 = n := by
    intro n hn
    unfold Spec.number at hn
    split at hn
    · rename_i n' heq
      cases hn
      refine ⟨fun h0 => ?_, by rw [heq]⟩
      rw [h0] at heq; cases heq
    · cases hn
  refine ⟨fun n hn h1 h2 => ?_, fun n hn h1 => ?_, fun h0 => ?_, fun hn hlo hhi => ?_⟩
  · obtain ⟨h3, h4⟩ := hne n hn
    rw [ht, if_pos h3, h4, if_pos ⟨h1, h2⟩]
  · obtain ⟨h3, h4⟩ := hne n hn
    rw [ht, if_pos h3, h4, if_neg h1]
  · rw [ht, if_neg (by simpa using h0)]
  · rw [ht]
    split
    · rw [if_neg]
      intro hc
      have hv : (parseInt64 own).1 = 0 ∨ (parseInt64 own).1 = -2 ^ 63 ∨ (parseInt64 own).1 = 2 ^ 63 - 1 := by
        apply parse_failed
        intro he
        unfold Spec.number at hn
        generalize parseInt64 own = g at hn he
        obtain ⟨n, e⟩ := g
        simp only at he
        subst he
        simp at hn
      omega
    · rfl

/-- **C31.** The timeout is positive (also after the conversion to nanoseconds) when the least one is, as long as the
numbers stay below 2^63 nanoseconds, about 292 years. -/
theorem request_timeout_positive (u : URL) (hu : Spec.Fresh u) (h : List Spec.UrlOp) (m d own : Bytes)
    (hT : Spec.configuredTimeout u h m d < 2 ^ 43) (hlo : 0 < Spec.leastTimeout u h m d)
    (hhi : Spec.greatestTimeout u h m d < 2 ^ 43) :
    0 < requestTimeout (initTimeouts (Spec.runAll u h)) m d own ∧
    toDuration (requestTimeout (initTimeouts (Spec.runAll u h)) m d own) =
      1000000 * requestTimeout (initTimeouts (Spec.runAll u h)) m d own := by
  have hp := configuredTimeout_pos u h m d
  rw [requestTimeout, bounds_eq u hu h m d (by omega)]
  simp only
  have key : ∀ x : Int, 0 < x → x < 2 ^ 43 → 0 < x ∧ toDuration x = 1000000 * x := by
    intro x h1 h2
    refine ⟨h1, ?_⟩
    rw [toDuration, wrap64_id] <;> omega
  split
  · split
    · rename_i hc; exact key _ (by omega) (by omega)
    · exact key _ hp hT
  · exact key _ hp hT

/-- What goes wrong with a configured timeout of one millisecond: half of it is zero, so that a request whose own timeout
cannot be read as a number gets the timeout zero. -/
theorem request_timeout_zero_counterexample :
    let u : URL := { params := some [(b!"requestTimeout", b!"1")] }
    Spec.Fresh u ∧ Spec.configuredTimeout u [] b!"m" [] = 1 ∧ requestTimeout (initTimeouts u) b!"m" [] b!"soon" = 0 := by
  refine ⟨⟨rfl, rfl, rfl, rfl, rfl⟩, ?_, ?_⟩ <;> decide +kernel

/-- The older endpoint type even does this to a request that asks for nothing. -/
theorem request_timeout_v2_zero_counterexample :
    let u : URL := { params := some [(b!"requestTimeout", b!"1")] }
    requestTimeoutV2 (initTimeouts u) b!"m" [] [] = 0 := by decide +kernel

/-- **C31.** Apart from that the older endpoint type agrees with the common one. -/
theorem request_timeout_v2_spec (u : URL) (hu : Spec.Fresh u) (h : List Spec.UrlOp) (m d own : Bytes)
    (hT : Spec.configuredTimeout u h m d < 2 ^ 62) (hlo : 0 < Spec.leastTimeout u h m d) :
    requestTimeoutV2 (initTimeouts (Spec.runAll u h)) m d own =
      requestTimeout (initTimeouts (Spec.runAll u h)) m d own := by
  rw [requestTimeout, requestTimeoutV2, bounds_eq u hu h m d hT]
  simp only
  by_cases h0 : own = []
  · subst h0
    have h0 : (parseInt64 []).1 = 0 := rfl
    rw [if_neg (by omega)]
    simp
  · rw [if_pos h0]

/-- A method with its own timeout and a request asking for less. -/
example : Spec.configuredTimeout { params := some [(b!"m().requestTimeout", b!"500"), (b!"minRequestTimeout", b!"100")] } [] b!"m" [] = 500 ∧
    Spec.leastTimeout { params := some [(b!"m().requestTimeout", b!"500"), (b!"minRequestTimeout", b!"100")] } [] b!"m" [] = 100 ∧
    requestTimeout (initTimeouts { params := some [(b!"m().requestTimeout", b!"500"), (b!"minRequestTimeout", b!"100")] })
      b!"m" [] b!"120" = 120 := by decide +kernel

/-! ## C34 -/

private theorem low_bits (t o : UInt64) :
    ((t &&& 0xfffffffffff00000) ||| (o &&& 0x000fffff)).toNat % 2 ^ 20 = o.toNat % 2 ^ 20 := by
  have h1 : ((t &&& 0xfffffffffff00000) ||| (o &&& 0x000fffff)) &&& 0x000fffff = o &&& 0x000fffff := by
    apply UInt64.eq_of_toBitVec_eq
    apply BitVec.eq_of_getLsbD_eq
    intro i hi
    simp only [UInt64.toBitVec_and, UInt64.toBitVec_or, BitVec.getLsbD_and, BitVec.getLsbD_or]
    have : ∀ i, i < 64 → ((0xfffffffffff00000 : UInt64).toBitVec.getLsbD i && (0x000fffff : UInt64).toBitVec.getLsbD i) = false := by
      decide +kernel
    have := this i hi
    revert this
    cases (0xfffffffffff00000 : UInt64).toBitVec.getLsbD i <;> cases (0x000fffff : UInt64).toBitVec.getLsbD i <;>
      cases t.toBitVec.getLsbD i <;> cases o.toBitVec.getLsbD i <;> simp
  have h2 : ∀ x : UInt64, (x &&& 0x000fffff).toNat = x.toNat % 2 ^ 20 := by
    intro x
    rw [UInt64.toNat_and]
    exact Nat.and_two_pow_sub_one_eq_mod x.toNat 20
  have := congrArg UInt64.toNat h1
  rw [h2, h2] at this
  exact this

private theorem high_bits (t o : UInt64) :
    ((t &&& 0xfffffffffff00000) ||| (o &&& 0x000fffff)).toNat / 2 ^ 20 = t.toNat / 2 ^ 20 := by
  rw [UInt64.toNat_or, UInt64.toNat_and, UInt64.toNat_and, ← Nat.shiftRight_eq_div_pow, ← Nat.shiftRight_eq_div_pow]
  apply Nat.eq_of_testBit_eq
  intro i
  simp only [Nat.testBit_shiftRight, Nat.testBit_or, Nat.testBit_and]
  have h1 : (0x000fffff : UInt64).toNat.testBit (20 + i) = false := by
    show (2 ^ 20 - 1).testBit (20 + i) = false
    rw [Nat.testBit_two_pow_sub_one]; simp
  rw [h1]
  by_cases hi : 20 + i < 64
  · have : ∀ j, j < 44 → (0xfffffffffff00000 : UInt64).toNat.testBit (20 + j) = true := by decide +kernel
    rw [this i (by omega)]; simp
  · have : t.toNat.testBit (20 + i) = false := by
      apply Nat.testBit_lt_two_pow
      exact Nat.lt_of_lt_of_le t.toNat_lt (Nat.pow_le_pow_right (by decide) (by omega))
    rw [this]; simp

private theorem generateAll_get (o : UInt64) (ts : List UInt64) (i : Nat) :
    (generateAll o ts)[i]? = (ts[i]?).map fun t =>
      (t &&& 0xfffffffffff00000) ||| ((o + UInt64.ofNat (i + 1)) &&& 0x000fffff) := by
  induction ts generalizing o i with
  | nil => simp [generateAll]
  | cons t ts ih =>
    rw [generateAll]
    cases i with
    | zero => simp [generateRequestID]
    | succ i =>
      rw [List.getElem?_cons_succ, List.getElem?_cons_succ, ih]
      simp only [generateRequestID]
      congr 1
      funext t'
      have : o + 1 + UInt64.ofNat (i + 1) = o + UInt64.ofNat (i + 1 + 1) := by
        rw [UInt64.ofNat_add (i + 1) 1, UInt64.add_assoc, UInt64.add_comm 1]; rfl
      rw [this]

private theorem offset_mod (o : UInt64) (i : Nat) : (o + UInt64.ofNat i).toNat % 2 ^ 20 = (o.toNat + i) % 2 ^ 20 := by
  rw [UInt64.toNat_add, UInt64.toNat_ofNat']
  omega

/-- **C34.** Whatever the clock shows to each goroutine and wherever the counter stands, two of the ids generated are
equal exactly when their numbers differ by a multiple of 2^20 and their clocks agree except for the last 2^20 nanoseconds
(about a millisecond). -/
theorem request_ids_equal_iff (start : UInt64) (clocks : List UInt64) (i j : Nat) (a b ta tb : UInt64)
    (ha : (generateAll start clocks)[i]? = some a) (hb : (generateAll start clocks)[j]? = some b)
    (hta : clocks[i]? = some ta) (htb : clocks[j]? = some tb) :
    a = b ↔ i % 2 ^ 20 = j % 2 ^ 20 ∧ ta.toNat / 2 ^ 20 = tb.toNat / 2 ^ 20 := by
  rw [generateAll_get, hta] at ha
  rw [generateAll_get, htb] at hb
  simp only [Option.map_some, Option.some.injEq] at ha hb
  subst ha; subst hb
  rw [← UInt64.toNat_inj]
  have e1 := low_bits ta (start + UInt64.ofNat (i + 1))
  have e2 := low_bits tb (start + UInt64.ofNat (j + 1))
  have e3 := high_bits ta (start + UInt64.ofNat (i + 1))
  have e4 := high_bits tb (start + UInt64.ofNat (j + 1))
  rw [offset_mod] at e1 e2
  omega

/-- **C34.** Any 2^20 ids generated one after the other are different. -/
theorem request_ids_distinct (start : UInt64) (clocks : List UInt64) (i j : Nat) (a b : UInt64) (hij : i < j)
    (hw : j < i + 2 ^ 20) (ha : (generateAll start clocks)[i]? = some a) (hb : (generateAll start clocks)[j]? = some b) :
    a ≠ b := by
  have h1 : ∃ ta, clocks[i]? = some ta := by
    rw [generateAll_get] at ha
    cases h : clocks[i]? with
    | none => rw [h] at ha; cases ha
    | some t => exact ⟨t, rfl⟩
  have h2 : ∃ tb, clocks[j]? = some tb := by
    rw [generateAll_get] at hb
    cases h : clocks[j]? with
    | none => rw [h] at hb; cases hb
    | some t => exact ⟨t, rfl⟩
  obtain ⟨ta, hta⟩ := h1
  obtain ⟨tb, htb⟩ := h2
  intro he
  have := (request_ids_equal_iff start clocks i j a b ta tb ha hb hta htb).mp he
  omega

/-- A clock standing still, the counter about to overflow: all different. -/
example : generateAll 0xffffffffffffffff [0x500007, 0x500007, 0x500008] = [0x500000, 0x500001, 0x500002] := by
  decide +kernel

end Motan.Props
