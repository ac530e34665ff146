import Verif.Basic.Bytes

/-!
# Decimal numbers as byte strings

Go's `strconv.FormatInt(n, 10)`, `strconv.ParseInt(s, 10, 64)` and `strconv.Atoi`, which are library
functions the modelled code calls. The definitions follow the documented behaviour of Go's standard
library (64-bit `int`).
-/

namespace Motan

/-- The decimal digits of `n`, most significant first, without leading zeros. -/
def natDigits (n : Nat) : Bytes :=
  if n < 10 then [UInt8.ofNat (48 + n)] else natDigits (n / 10) ++ [UInt8.ofNat (48 + n % 10)]
termination_by n

/-- `strconv.FormatInt(n, 10)` / `strconv.Itoa`. -/
def formatInt (n : Int) : Bytes :=
  if n < 0 then 45 :: natDigits n.natAbs else natDigits n.natAbs

/-- The two error kinds of `strconv`. -/
inductive NumErr where
  | syntax
  | range
  deriving DecidableEq, Repr

/-- The digit loop of `strconv.ParseUint(s, 10, 64)`: the accumulated value, a syntax error at the first
byte that is not a digit, or a range error at the first digit that takes the value past `2^64-1`. -/
def parseDigits : Nat → Bytes → Except NumErr Nat
  | acc, [] => .ok acc
  | acc, c :: cs =>
    if 48 ≤ c ∧ c ≤ 57 then
      let n := acc * 10 + (c.toNat - 48)
      if n ≥ 2 ^ 64 then .error .range else parseDigits n cs
    else .error .syntax

/-- `strconv.ParseUint(s, 10, 64)`. -/
def parseUint64 (s : Bytes) : Except NumErr Nat :=
  if s = [] then .error .syntax else parseDigits 0 s

/-- The sign and the rest. -/
def splitSign : Bytes → Bool × Bytes
  | 43 :: s => (false, s)
  | 45 :: s => (true, s)
  | s => (false, s)

/-- `strconv.ParseInt(s, 10, 64)`: the returned number and the returned error. On a syntax error the
number is 0; on a range error it is the nearest 64-bit number. `strconv.Atoi` gives the same results. -/
def parseInt64 (s : Bytes) : Int × Option NumErr :=
  if s = [] then (0, some .syntax)
  else
    let (neg, ds) := splitSign s
    match parseUint64 ds with
    | .error .syntax => (0, some .syntax)
    | .error .range => if neg then (-2 ^ 63, some .range) else (2 ^ 63 - 1, some .range)
    | .ok un =>
      if !neg && un ≥ 2 ^ 63 then (2 ^ 63 - 1, some .range)
      else if neg && un > 2 ^ 63 then (-2 ^ 63, some .range)
      else (if neg then -(un : Int) else un, none)

/-! ### Formatting and parsing agree -/

theorem natDigits_ne_nil (n : Nat) : natDigits n ≠ [] := by
  rw [natDigits]; split <;> simp

theorem natDigits_digit (n : Nat) : ∀ c ∈ natDigits n, 48 ≤ c ∧ c ≤ 57 := by
  induction n using natDigits.induct with
  | case1 n h =>
    rw [natDigits, if_pos h]
    intro c hc
    simp only [List.mem_singleton] at hc
    subst hc
    simp only [UInt8.le_iff_toNat_le, UInt8.toNat_ofNat', UInt8.reduceToNat]
    omega
  | case2 n h ih =>
    rw [natDigits, if_neg h]
    intro c hc
    rcases List.mem_append.mp hc with hc | hc
    · exact ih c hc
    · simp only [List.mem_singleton] at hc
      subst hc
      simp only [UInt8.le_iff_toNat_le, UInt8.toNat_ofNat', UInt8.reduceToNat]
      omega

theorem parseDigits_append (a : Nat) (s t : Bytes) :
    parseDigits a (s ++ t) = (parseDigits a s).bind fun b => parseDigits b t := by
  induction s generalizing a with
  | nil => rfl
  | cons c s ih =>
    simp only [List.cons_append, parseDigits]
    split
    · split
      · rfl
      · exact ih _
    · rfl

theorem parseDigits_digit (a d : Nat) (hd : d < 10) (h : a * 10 + d < 2 ^ 64) :
    parseDigits a [UInt8.ofNat (48 + d)] = .ok (a * 10 + d) := by
  have h1 : (UInt8.ofNat (48 + d)).toNat = 48 + d := by simp; omega
  have h2 : 48 ≤ UInt8.ofNat (48 + d) ∧ UInt8.ofNat (48 + d) ≤ 57 := by
    simp only [UInt8.le_iff_toNat_le, h1, UInt8.reduceToNat]; omega
  simp only [parseDigits, h2, and_self, if_true, h1]
  rw [if_neg (by omega)]
  congr 1; omega

theorem parseDigits_natDigits (n : Nat) (h : n < 2 ^ 64) : parseDigits 0 (natDigits n) = .ok n := by
  induction n using natDigits.induct with
  | case1 n h' =>
    rw [natDigits, if_pos h', parseDigits_digit 0 n h' (by omega)]; simp
  | case2 n h' ih =>
    rw [natDigits, if_neg h', parseDigits_append, ih (by omega)]
    show parseDigits (n / 10) _ = _
    rw [parseDigits_digit _ _ (by omega) (by omega)]
    congr 1; omega

theorem splitSign_of_digits {s : Bytes} (h : ∀ c ∈ s, 48 ≤ c ∧ c ≤ 57) : splitSign s = (false, s) := by
  match s with
  | [] => rfl
  | c :: s =>
    have hc := h c (by simp)
    rw [splitSign]
    · intro s' h'; simp only [List.cons.injEq] at h'; rw [h'.1] at hc; exact absurd hc (by decide)
    · intro s' h'; simp only [List.cons.injEq] at h'; rw [h'.1] at hc; exact absurd hc (by decide)

theorem parseUint64_natDigits (n : Nat) (h : n < 2 ^ 64) : parseUint64 (natDigits n) = .ok n := by
  rw [parseUint64, if_neg (natDigits_ne_nil n), parseDigits_natDigits n h]

/-- Parsing what `FormatInt` wrote gives the number back. -/
theorem parseInt64_formatInt (n : Int) (hlo : -2 ^ 63 ≤ n) (hhi : n < 2 ^ 63) :
    parseInt64 (formatInt n) = (n, none) := by
  have hp : parseUint64 (natDigits n.natAbs) = .ok n.natAbs := parseUint64_natDigits _ (by omega)
  by_cases hneg : n < 0
  · rw [formatInt, if_pos hneg, parseInt64, if_neg (by simp)]
    simp only [splitSign, hp, Bool.not_true, Bool.false_and, Bool.false_eq_true, if_false, Bool.true_and,
      decide_eq_true_eq, if_true]
    rw [if_neg (by omega)]
    congr 1; omega
  · rw [formatInt, if_neg hneg, parseInt64, if_neg (natDigits_ne_nil _),
      splitSign_of_digits (natDigits_digit _)]
    simp only [hp, Bool.not_false, Bool.true_and, decide_eq_true_eq, Bool.false_and, Bool.false_eq_true,
      if_false]
    rw [if_neg (by omega)]
    congr 1; omega

theorem formatInt_ne_nil (n : Int) : formatInt n ≠ [] := by
  rw [formatInt]; split
  · simp
  · exact natDigits_ne_nil _

theorem formatInt_mem (n : Int) : ∀ c ∈ formatInt n, c = 45 ∨ (48 ≤ c ∧ c ≤ 57) := by
  rw [formatInt]; split
  · intro c hc
    rcases List.mem_cons.mp hc with rfl | hc
    · exact .inl rfl
    · exact .inr (natDigits_digit _ c hc)
  · exact fun c hc => .inr (natDigits_digit _ c hc)

theorem formatInt_injective {a b : Int} (ha : -2 ^ 63 ≤ a) (ha' : a < 2 ^ 63) (hb : -2 ^ 63 ≤ b)
    (hb' : b < 2 ^ 63) (h : formatInt a = formatInt b) : a = b := by
  have h1 := parseInt64_formatInt a ha ha'
  rw [h, parseInt64_formatInt b hb hb'] at h1
  exact (congrArg Prod.fst h1).symm

/-- The parsed number always fits in 64 bits. -/
theorem parseInt64_range (s : Bytes) : -2 ^ 63 ≤ (parseInt64 s).1 ∧ (parseInt64 s).1 < 2 ^ 63 := by
  rw [parseInt64]
  split
  · decide
  · generalize splitSign s = p
    obtain ⟨neg, ds⟩ := p
    simp only
    split
    · decide
    · split <;> decide
    · rename_i un _
      split
      · decide
      · split
        · decide
        · rename_i h1 h2
          cases neg <;> simp at h1 h2 ⊢ <;> omega

end Motan
