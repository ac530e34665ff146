import Verif.Basic.Strings

/-!
# Go's `net/url` query strings

The parts of the standard library the HTTP provider relies on: `url.QueryEscape`, `url.QueryUnescape`
and `url.ParseQuery`, written out. They are library code, not code of /repo.
-/

namespace Motan.Query

open Strings

/-- The bytes `url.QueryEscape` copies: letters, digits and `-`, `_`, `.`, `~`. -/
def keep (c : UInt8) : Bool :=
  (97 ≤ c && c ≤ 122) || (65 ≤ c && c ≤ 90) || (48 ≤ c && c ≤ 57) || c == 45 || c == 95 || c == 46 || c == 126

/-- `"0123456789ABCDEF"[n]`. -/
def upperHex (n : UInt8) : UInt8 := if n < 10 then 48 + n else 55 + n

/-- One byte of `url.QueryEscape`. -/
def escapeByte (c : UInt8) : Bytes :=
  if keep c then [c] else if c = 32 then [43] else [37, upperHex (c / 16), upperHex (c % 16)]

/-- `url.QueryEscape`. -/
def escape (s : Bytes) : Bytes := s.flatMap escapeByte

/-- The value of a hexadecimal digit. -/
def unhex (c : UInt8) : Option UInt8 :=
  if 48 ≤ c && c ≤ 57 then some (c - 48)
  else if 97 ≤ c && c ≤ 102 then some (c - 87)
  else if 65 ≤ c && c ≤ 70 then some (c - 55)
  else none

/-- `url.QueryUnescape`; none: an error. -/
def unescape : Bytes → Option Bytes
  | [] => some []
  | c :: s =>
    if c = 37 then
      match s with
      | a :: b :: s' =>
        match unhex a, unhex b, unescape s' with
        | some x, some y, some r => some ((x * 16 + y) :: r)
        | _, _, _ => none
      | _ => none
    else if c = 43 then (unescape s).map (32 :: ·)
    else (unescape s).map (c :: ·)

/-- One piece of a query string between two `&`: what precedes the first `=` is the name, the rest the
value; none: skipped (empty, with a semicolon, or not decodable). -/
def parsePiece (s : Bytes) : Option (Bytes × Bytes) :=
  if s = [] ∨ (59 : UInt8) ∈ s then none
  else
    match index b!"=" s with
    | some i =>
      match unescape (s.take i), unescape (s.drop (i + 1)) with
      | some k, some v => some (k, v)
      | _, _ => none
    | none => (unescape s).map (·, [])

/-- `url.ParseQuery`: the parameters, in order (`url.Values` groups them by name). -/
def parse (s : Bytes) : List (Bytes × Bytes) := (split b!"&" s).filterMap parsePiece

/-- `url.Values[name]`: the values of a parameter, in order. -/
def values (l : List (Bytes × Bytes)) (name : Bytes) : List Bytes :=
  (l.filter (·.1 = name)).map Prod.snd

/-- The distinct names, in order of first occurrence. -/
def names : List (Bytes × Bytes) → List Bytes
  | [] => []
  | (k, _) :: l => k :: (names l).filter (· ≠ k)

/-- `url.Values.Encode`: sorted by name, `name=value` with both escaped, joined by `&`. -/
def encode (l : List (Bytes × Bytes)) : Bytes :=
  join b!"&" ((sort (names l)).flatMap fun k => (values l k).map fun v => escape k ++ b!"=" ++ escape v)

theorem unescape_other {c : UInt8} (s : Bytes) (h1 : c ≠ 37) (h2 : c ≠ 43) :
    unescape (c :: s) = (unescape s).map (c :: ·) := by
  rw [unescape.eq_def]; simp only [if_neg h1, if_neg h2]

theorem unescape_plus (s : Bytes) : unescape (43 :: s) = (unescape s).map (32 :: ·) := by
  rw [unescape.eq_def]; rfl

theorem unescape_percent (a b : UInt8) (s : Bytes) : unescape (37 :: a :: b :: s) =
    match unhex a, unhex b, unescape s with
        | some x, some y, some r => some ((x * 16 + y) :: r)
        | _, _, _ => none := by
  rw [unescape.eq_def]; rfl

/-! ### Escaping is undone by unescaping -/

theorem unescape_byte (c : UInt8) (s r : Bytes) (h : unescape s = some r) :
    unescape (escapeByte c ++ s) = some (c :: r) := by
  unfold escapeByte
  split
  · rename_i hk
    have h1 : c ≠ 37 := by rintro rfl; revert hk; decide
    have h2 : c ≠ 43 := by rintro rfl; revert hk; decide
    simp only [List.cons_append, List.nil_append, unescape_other _ h1 h2, h, Option.map_some]
  · rename_i hk
    split
    · rename_i e; subst e
      simp only [List.cons_append, List.nil_append, unescape_plus, h, Option.map_some]
    · have key : ∀ n : Fin 256, let c : UInt8 := UInt8.ofNat n.val;
          unhex (upperHex (c / 16)) = some (c / 16) ∧ unhex (upperHex (c % 16)) = some (c % 16)
            ∧ (c / 16) * 16 + c % 16 = c := by decide +kernel
      have hc := key ⟨c.toNat, c.toNat_lt⟩
      simp only [UInt8.ofNat_toNat] at hc
      obtain ⟨h1, h2, h3⟩ := hc
      simp only [List.cons_append, List.nil_append, unescape_percent, h1, h2, h, h3]

/-- `url.QueryUnescape(url.QueryEscape(s)) = s`. -/
theorem unescape_escape (s : Bytes) : unescape (escape s) = some s := by
  induction s with
  | nil => rfl
  | cons c s ih =>
    show unescape (escapeByte c ++ escape s) = _
    exact unescape_byte c _ _ ih

/-- The bytes of an escaped string. -/
def plain (c : UInt8) : Bool := keep c || c == 43 || c == 37

theorem escape_plain (s : Bytes) : ∀ c ∈ escape s, plain c = true := by
  intro c hc
  simp only [escape, List.mem_flatMap] at hc
  obtain ⟨d, _, hd⟩ := hc
  have key : ∀ n : Fin 256, ∀ e ∈ escapeByte (UInt8.ofNat n.val), plain e = true := by decide +kernel
  have := key ⟨d.toNat, d.toNat_lt⟩
  simp only [UInt8.ofNat_toNat] at this
  exact this c hd

theorem plain_ne {c : UInt8} (h : plain c = true) : c ≠ 38 ∧ c ≠ 59 ∧ c ≠ 61 := by
  refine ⟨?_, ?_, ?_⟩ <;> (rintro rfl; revert h; decide)

theorem not_mem_escape (s : Bytes) : (38 : UInt8) ∉ escape s ∧ (59 : UInt8) ∉ escape s ∧ (61 : UInt8) ∉ escape s :=
  ⟨fun h => (plain_ne (escape_plain s _ h)).1 rfl, fun h => (plain_ne (escape_plain s _ h)).2.1 rfl,
    fun h => (plain_ne (escape_plain s _ h)).2.2 rfl⟩

/-- Bytes that stand for themselves in the name of a parameter: everything but `&`, `;`, `=`, `%` and `+`. -/
def nameByte (c : UInt8) : Bool := !(c == 38 || c == 59 || c == 61 || c == 37 || c == 43)

theorem unescape_name {s : Bytes} (h : ∀ c ∈ s, nameByte c = true) : unescape s = some s := by
  induction s with
  | nil => rfl
  | cons c s ih =>
    have hc := h c (by simp)
    have h1 : c ≠ 37 := by rintro rfl; revert hc; decide
    have h2 : c ≠ 43 := by rintro rfl; revert hc; decide
    simp only [unescape_other _ h1 h2, ih fun d hd => h d (by simp [hd]), Option.map_some]

/-- A piece `name=value` whose name, as it stands, decodes to `k`. -/
theorem parsePiece_pair {n k : Bytes} (v : Bytes) (h59 : (59 : UInt8) ∉ n) (h61 : (61 : UInt8) ∉ n)
    (hk : unescape n = some k) : parsePiece (n ++ b!"=" ++ escape v) = some (k, v) := by
  have hne : n ++ b!"=" ++ escape v ≠ [] := by simp
  have hsemi : (59 : UInt8) ∉ n ++ b!"=" ++ escape v := by
    simp only [List.mem_append, not_or]
    exact ⟨⟨h59, by decide⟩, (not_mem_escape v).2.1⟩
  unfold parsePiece
  rw [if_neg (fun h => h.elim hne hsemi)]
  have hi : index b!"=" (n ++ b!"=" ++ escape v) = some n.length := by
    have := index_append_of_not_mem (sep := []) (r := b!"=" ++ escape v) h61
    rw [List.append_assoc, this, index_self]
    simp
  rw [hi]
  have h1 : (n ++ b!"=" ++ escape v).take n.length = n := by
    rw [List.append_assoc, List.take_left']; rfl
  have h2 : (n ++ b!"=" ++ escape v).drop (n.length + 1) = escape v := by
    rw [List.drop_left']; simp
  simp only [h1, h2, hk, unescape_escape]

/-- Parsing the pieces of a query string written one by one. -/
theorem parse_join {pieces : List Bytes} {l : List (Bytes × Bytes)} (h38 : ∀ p ∈ pieces, (38 : UInt8) ∉ p)
    (h : pieces.map parsePiece = l.map some) : parse (join b!"&" pieces) = l := by
  unfold parse
  cases pieces with
  | nil =>
    cases l with
    | nil => rw [show join [38] [] = [] from rfl, split_single (by simp)]; rfl
    | cons _ _ => simp at h
  | cons p ps =>
    show (split [38] (join [38] (p :: ps))).filterMap parsePiece = l
    rw [split_join (c := 38) (p :: ps) (by simp) h38]
    have : ∀ (ps : List Bytes) (l : List (Bytes × Bytes)), ps.map parsePiece = l.map some → ps.filterMap parsePiece = l := by
      intro ps
      induction ps with
      | nil => intro l h; cases l with
        | nil => rfl
        | cons _ _ => simp at h
      | cons p ps ih =>
        intro l h
        cases l with
        | nil => simp at h
        | cons x l =>
          simp only [List.map_cons, List.cons.injEq] at h
          simp only [List.filterMap_cons, h.1, ih l h.2]
    exact this _ _ h

/-! ### `Values.Encode` is undone by `ParseQuery` -/

theorem mem_names {l : List (Bytes × Bytes)} {k : Bytes} : k ∈ names l ↔ ∃ v, (k, v) ∈ l := by
  induction l with
  | nil => simp [names]
  | cons p l ih =>
    obtain ⟨a, b⟩ := p
    simp only [names, List.mem_cons, List.mem_filter, ih, Prod.mk.injEq]
    constructor
    · rintro (rfl | ⟨⟨v, hv⟩, _⟩)
      · exact ⟨b, .inl ⟨rfl, rfl⟩⟩
      · exact ⟨v, .inr hv⟩
    · rintro ⟨v, (⟨rfl, _⟩ | hv)⟩
      · exact .inl rfl
      · by_cases e : k = a
        · exact .inl e
        · exact .inr ⟨⟨v, hv⟩, by simp [e]⟩

theorem names_nodup (l : List (Bytes × Bytes)) : (names l).Nodup := by
  induction l with
  | nil => simp [names]
  | cons p l ih =>
    obtain ⟨a, b⟩ := p
    simp only [names, List.nodup_cons]
    exact ⟨by simp, ih.filter _⟩

theorem values_nil_of_not_mem {l : List (Bytes × Bytes)} {k : Bytes} (h : k ∉ names l) : values l k = [] := by
  unfold values
  rw [List.map_eq_nil_iff, List.filter_eq_nil_iff]
  rintro ⟨a, v⟩ hm
  simp only [decide_eq_true_eq]
  rintro rfl
  exact h (mem_names.2 ⟨v, hm⟩)

theorem parse_encode (l : List (Bytes × Bytes)) :
    parse (encode l) = (sort (names l)).flatMap fun k => (values l k).map (k, ·) := by
  refine parse_join ?_ ?_
  · intro p hp
    simp only [List.mem_flatMap, List.mem_map] at hp
    obtain ⟨k, _, v, _, rfl⟩ := hp
    simp only [List.mem_append, not_or]
    exact ⟨⟨(not_mem_escape k).1, by decide⟩, (not_mem_escape v).1⟩
  · rw [List.map_flatMap, List.map_flatMap]
    congr 1
    funext k
    rw [List.map_map, List.map_map]
    refine List.map_congr_left fun v _ => ?_
    exact parsePiece_pair v (not_mem_escape k).2.1 (not_mem_escape k).2.2 (unescape_escape k)

theorem values_flatMap (f : Bytes → List Bytes) (k : Bytes) : ∀ ks : List Bytes, ks.Nodup →
    values (ks.flatMap fun k => (f k).map (k, ·)) k = if k ∈ ks then f k else [] := by
  intro ks
  induction ks with
  | nil => intro _; simp [values]
  | cons a ks ih =>
    intro hn
    rw [List.nodup_cons] at hn
    have ih := ih hn.2
    simp only [values, List.flatMap_cons, List.filter_append, List.map_append] at ih ⊢
    rw [ih]
    by_cases e : a = k
    · subst e
      simp only [hn.1, if_false, List.append_nil, List.mem_cons, true_or, if_true]
      rw [List.filter_eq_self.2]
      · simp [Function.comp_def]
      · intro p hp
        simp only [List.mem_map] at hp
        obtain ⟨v, _, rfl⟩ := hp
        simp
    · have : List.filter (fun x => decide (x.1 = k)) ((f a).map (a, ·)) = [] := by
        rw [List.filter_eq_nil_iff]
        intro p hp
        simp only [List.mem_map] at hp
        obtain ⟨v, _, rfl⟩ := hp
        simp [e]
      rw [this]
      have e' : ¬ k = a := fun h => e h.symm
      simp [e']

/-- Encoding parameters and parsing them back keeps the values of every parameter, in order. -/
theorem values_parse_encode (l : List (Bytes × Bytes)) (k : Bytes) :
    values (parse (encode l)) k = values l k := by
  rw [parse_encode, values_flatMap _ _ _ ((sort_perm _).nodup_iff.2 (names_nodup l))]
  split
  · rfl
  · rename_i h
    rw [(sort_perm _).mem_iff] at h
    exact (values_nil_of_not_mem h).symm

end Motan.Query
