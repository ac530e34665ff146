import Verif.Model.Cgi
import Verif.Props.HttpProvider

/-!
# C77: the CGI provider hands a request to a program and its answer back
-/

namespace Motan.Props

open Motan.Cgi Motan.HttpProvider Strings

/-! ## Specification -/

/-- What a program writes: header lines, an empty line, the body. -/
def Spec.cgiText (lines : List Bytes) (body : Bytes) : Bytes := (lines.map (· ++ b!"\r\n")).flatten ++ b!"\r\n" ++ body

/-- A line of the header: not empty and without carriage returns. -/
def Spec.CgiLine (l : Bytes) : Prop := l ≠ [] ∧ (13 : UInt8) ∉ l

/-- White space. -/
def Spec.WhiteSpace (s : Bytes) : Prop := ∀ c ∈ s, c ∈ [(9 : UInt8), 10, 11, 12, 13, 32]

/-- `v` is `s` without the white space around it. -/
def Spec.Stripped (s v : Bytes) : Prop :=
  ∃ a b, s = a ++ v ++ b ∧ Spec.WhiteSpace a ∧ Spec.WhiteSpace b ∧ (∀ c, v.head? = some c → ¬ Spec.WhiteSpace [c]) ∧ (∀ c, v.getLast? = some c → ¬ Spec.WhiteSpace [c])

/-- The line says that the header `k` is `v`. -/
def Spec.LineSays (l k v : Bytes) : Prop := ∃ s, l = k ++ b!":" ++ s ∧ (58 : UInt8) ∉ k ∧ Spec.Stripped s v

/-- The last line about `k` says `v`. -/
def Spec.LastSays (lines : List Bytes) (k v : Bytes) : Prop :=
  ∃ pre l post, lines = pre ++ l :: post ∧ Spec.LineSays l k v ∧ ∀ l' ∈ post, ∀ v', ¬ Spec.LineSays l' k v'

/-- The first line of a text. -/
def Spec.FirstLine (text line : Bytes) : Prop :=
  (∃ rest, text = line ++ b!"\r\n" ++ rest) ∧ ¬ ∃ a b, line = a ++ b!"\r\n" ++ b

/-! ## Strings -/

theorem index_first (sep x r : Bytes) {i : Nat} (h : index sep (x ++ sep ++ r) = some i) : i ≤ x.length := by
  induction x generalizing i with
  | nil =>
    rw [List.nil_append, index_self] at h
    injection h with h; omega
  | cons c x ih =>
    rw [List.cons_append, List.cons_append, index] at h
    split at h
    · injection h with h; omega
    · cases hi : index sep (x ++ sep ++ r) with
      | none => rw [hi] at h; cases h
      | some j =>
        rw [hi] at h
        simp only [Option.map_some, Option.some.injEq] at h
        have := ih hi
        simp only [List.length_cons]; omega

theorem cut_spec {sep s a b : Bytes} (h : cut sep s = some (a, b)) :
    s = a ++ sep ++ b ∧ (sep ≠ [] → ¬ ∃ x y, a = x ++ sep ++ y) := by
  unfold cut at h
  cases hi : index sep s with
  | none => rw [hi] at h; cases h
  | some i =>
    rw [hi] at h
    simp only [Option.map_some, Option.some.injEq, Prod.mk.injEq] at h
    obtain ⟨p, q, e, hl⟩ := index_spec hi
    have h1 : s.take i = p := by rw [e, ← hl, List.append_assoc, List.take_left]
    have h2 : s.drop (i + sep.length) = q := by rw [e, ← hl, ← List.length_append, List.drop_left]
    rw [h1, h2] at h
    obtain ⟨rfl, rfl⟩ := h
    refine ⟨e, ?_⟩
    rintro hs ⟨x, y, rfl⟩
    have e' : s = x ++ sep ++ (y ++ sep ++ q) := by rw [e]; simp only [List.append_assoc]
    rw [e'] at hi
    have h3 := index_first _ _ _ hi
    have h4 : 0 < sep.length := List.length_pos_iff.mpr hs
    simp only [List.length_append] at hl
    omega

theorem cut_none {sep s : Bytes} : cut sep s = none ↔ ¬ ∃ a b, s = a ++ sep ++ b := by
  unfold cut
  rw [Option.map_eq_none_iff]
  constructor
  · rintro h ⟨a, b, rfl⟩
    have := index_isSome sep a b
    rw [h] at this; cases this
  · intro h
    cases hi : index sep s with
    | none => rfl
    | some i =>
      obtain ⟨a, b, e, _⟩ := index_spec hi
      exact absurd ⟨a, b, e⟩ h

theorem cut_byte {c : UInt8} {a b : Bytes} (h : c ∉ a) : cut [c] (a ++ [c] ++ b) = some (a, b) := by
  unfold cut
  rw [List.append_assoc, index_append_of_not_mem h, index_self]
  simp

/-- Where the header ends. -/
theorem index_blank (lines : List Bytes) (body : Bytes) (hne : lines ≠ []) (h : ∀ l ∈ lines, Spec.CgiLine l) :
    index b!"\r\n\r\n" (Spec.cgiText lines body) = some (join b!"\r\n" lines).length := by
  have hsep : b!"\r\n\r\n" = (13 : UInt8) :: [10, 13, 10] := by decide
  have hcr : b!"\r\n" = [(13 : UInt8), 10] := by decide
  induction lines with
  | nil => exact absurd rfl hne
  | cons l lines ih =>
    obtain ⟨hl, hl'⟩ := h l (.head _)
    cases lines with
    | nil =>
      have e : Spec.cgiText [l] body = l ++ (b!"\r\n\r\n" ++ body) := by
        simp [Spec.cgiText]
      rw [e, hsep, index_append_of_not_mem hl', index_self]
      simp [join]
    | cons l2 lines =>
      have ih := ih (by simp) (fun x hx => h x (.tail _ hx))
      obtain ⟨h2, h2'⟩ := h l2 (.tail _ (.head _))
      have e : Spec.cgiText (l :: l2 :: lines) body = l ++ (13 :: 10 :: Spec.cgiText (l2 :: lines) body) := by
        simp [Spec.cgiText, hcr]
      obtain ⟨c, t, hc⟩ : ∃ c t, Spec.cgiText (l2 :: lines) body = c :: t ∧ c ≠ 13 := by
        cases l2 with
        | nil => exact absurd rfl h2
        | cons c l2 =>
          refine ⟨c, _, rfl, ?_⟩
          rintro rfl
          exact h2' (.head _)
      rw [e, hsep, index_append_of_not_mem hl', ← hsep, index, if_neg, index, if_neg, ih]
      · simp [join, hcr]; omega
      · rw [hsep]; simp
      · rw [hsep, hc.1]; simp [List.isPrefixOf]; exact fun h => absurd h.symm hc.2

theorem cgiText_join (lines : List Bytes) (body : Bytes) (hne : lines ≠ []) :
    Spec.cgiText lines body = join b!"\r\n" lines ++ b!"\r\n\r\n" ++ body := by
  induction lines with
  | nil => exact absurd rfl hne
  | cons l lines ih =>
    cases lines with
    | nil => simp [Spec.cgiText, join]
    | cons l2 lines =>
      have ih := ih (by simp)
      have e : Spec.cgiText (l :: l2 :: lines) body = l ++ b!"\r\n" ++ Spec.cgiText (l2 :: lines) body := by
        simp [Spec.cgiText]
      rw [e, ih]
      simp only [join, List.append_assoc]

theorem split_lines (lines : List Bytes) (hne : lines ≠ []) (h : ∀ l ∈ lines, (13 : UInt8) ∉ l) :
    split b!"\r\n" (join b!"\r\n" lines) = lines := by
  have hcr : b!"\r\n" = (13 : UInt8) :: [10] := by decide
  rw [hcr]
  induction lines with
  | nil => exact absurd rfl hne
  | cons l lines ih =>
    cases lines with
    | nil => exact split_single (h l (.head _))
    | cons l2 lines =>
      show split (13 :: [10]) (l ++ (13 :: [10]) ++ join (13 :: [10]) (l2 :: lines)) = _
      rw [split_cons (h l (.head _)), ih (by simp) (fun x hx => h x (.tail _ hx))]

theorem cut_text (lines : List Bytes) (body : Bytes) (hne : lines ≠ []) (h : ∀ l ∈ lines, Spec.CgiLine l) :
    cut b!"\r\n\r\n" (Spec.cgiText lines body) = some (join b!"\r\n" lines, body) := by
  unfold cut
  rw [index_blank lines body hne h, Option.map_some, cgiText_join lines body hne]
  congr 2
  · rw [List.append_assoc, List.take_left]
  · rw [← List.length_append, List.drop_left]

/-! ## Trimming -/

theorem isSpace_iff (c : UInt8) : isSpace c = true ↔ c ∈ [(9 : UInt8), 10, 11, 12, 13, 32] := by
  simp [isSpace]

theorem dropWhile_split (s : Bytes) : ∃ a, s = a ++ s.dropWhile isSpace ∧ Spec.WhiteSpace a ∧
    ∀ c, (s.dropWhile isSpace).head? = some c → ¬ Spec.WhiteSpace [c] := by
  induction s with
  | nil => exact ⟨[], rfl, by simp [Spec.WhiteSpace], by simp⟩
  | cons c s ih =>
    rw [List.dropWhile_cons]
    by_cases h : isSpace c = true
    · rw [if_pos h]
      obtain ⟨a, h1, h2, h3⟩ := ih
      refine ⟨c :: a, by rw [List.cons_append, ← h1], ?_, h3⟩
      intro d hd
      rcases List.mem_cons.mp hd with rfl | hd
      · exact (isSpace_iff d).mp h
      · exact h2 d hd
    · rw [if_neg h]
      refine ⟨[], rfl, by simp [Spec.WhiteSpace], ?_⟩
      intro d hd hb
      injection hd with hd
      subst hd
      exact h ((isSpace_iff c).mpr (hb c (.head _)))

theorem stripped_trim (s : Bytes) : Spec.Stripped s (trimSpace s) := by
  obtain ⟨a, h1, h2, h3⟩ := dropWhile_split s
  obtain ⟨b, g1, g2, g3⟩ := dropWhile_split (s.dropWhile isSpace).reverse
  have e : s.dropWhile isSpace = trimSpace s ++ b.reverse := by
    have := congrArg List.reverse g1
    rw [List.reverse_reverse, List.reverse_append] at this
    exact this
  refine ⟨a, b.reverse, by rw [List.append_assoc, ← e]; exact h1, h2, fun c hc => g2 c (List.mem_reverse.mp hc), ?_, ?_⟩
  · intro c hc
    refine h3 c ?_
    rw [e, List.head?_append, hc]; rfl
  · intro c hc
    refine g3 c ?_
    rw [List.getLast?_eq_head?_reverse] at hc
    rw [trimSpace, List.reverse_reverse] at hc
    exact hc

theorem drop_blank {a s : Bytes} (h : Spec.WhiteSpace a) : (a ++ s).dropWhile isSpace = s.dropWhile isSpace := by
  induction a with
  | nil => rfl
  | cons c a ih =>
    rw [List.cons_append, List.dropWhile_cons, if_pos ((isSpace_iff c).mpr (h c (.head _))), ih fun d hd => h d (.tail _ hd)]

theorem drop_solid {v : Bytes} (h : ∀ c, v.head? = some c → ¬ Spec.WhiteSpace [c]) : v.dropWhile isSpace = v := by
  cases v with
  | nil => rfl
  | cons c v =>
    rw [List.dropWhile_cons, if_neg]
    intro hc
    exact h c rfl (by intro d hd; rw [List.mem_singleton.mp hd]; exact (isSpace_iff c).mp hc)

theorem trim_stripped {s v : Bytes} (h : Spec.Stripped s v) : trimSpace s = v := by
  obtain ⟨a, b, rfl, h1, h2, h3, h4⟩ := h
  have hrev : Spec.WhiteSpace b.reverse := fun c hc => h2 c (List.mem_reverse.mp hc)
  unfold trimSpace
  rw [List.append_assoc, drop_blank h1]
  cases v with
  | nil =>
    have : b.dropWhile isSpace = [] := by have := drop_blank (s := []) h2; simpa using this
    simp [this]
  | cons c v =>
    rw [drop_solid (v := (c :: v) ++ b) (by intro d hd; exact h3 d hd), List.reverse_append, drop_blank hrev, drop_solid, List.reverse_reverse]
    intro d hd
    rw [← List.getLast?_eq_head?_reverse] at hd
    exact h4 d hd

/-! ## The header -/

theorem cut_says {l k v : Bytes} : Spec.LineSays l k v ↔ ∃ s, cut b!":" l = some (k, s) ∧ trimSpace s = v := by
  have hc : b!":" = [(58 : UInt8)] := by decide
  constructor
  · rintro ⟨s, rfl, hk, hs⟩
    exact ⟨s, by rw [hc]; exact cut_byte hk, trim_stripped hs⟩
  · rintro ⟨s, h, rfl⟩
    obtain ⟨h1, h2⟩ := cut_spec h
    refine ⟨s, h1, ?_, stripped_trim s⟩
    intro hk
    obtain ⟨x, y, e⟩ := List.append_of_mem hk
    exact h2 (by decide) ⟨x, y, by rw [e, hc]; simp⟩

theorem headers_load (lines : List Bytes) (h0 : AMap Bytes Bytes) (k v : Bytes) :
    (lines.foldl header h0).load k = some v ↔
      (k ≠ b!"Status" ∧ Spec.LastSays lines k v) ∨ ((k = b!"Status" ∨ ∀ l ∈ lines, ∀ v', ¬ Spec.LineSays l k v') ∧ h0.load k = some v) := by
  induction lines generalizing h0 with
  | nil =>
    constructor
    · intro h; exact .inr ⟨.inr (by simp), h⟩
    · rintro (⟨_, pre, l, post, e, _⟩ | ⟨_, h⟩)
      · cases pre <;> cases e
      · exact h
  | cons l lines ih =>
    rw [List.foldl_cons, ih]
    have hlast : Spec.LastSays (l :: lines) k v ↔ Spec.LastSays lines k v ∨ (Spec.LineSays l k v ∧ ∀ l' ∈ lines, ∀ v', ¬ Spec.LineSays l' k v') := by
      constructor
      · rintro ⟨pre, l', post, e, h1, h2⟩
        cases pre with
        | nil => injection e with e1 e2; subst e1; subst e2; exact .inr ⟨h1, h2⟩
        | cons p pre => injection e with e1 e2; subst e1; exact .inl ⟨pre, l', post, e2, h1, h2⟩
      · rintro (⟨pre, l', post, e, h1, h2⟩ | ⟨h1, h2⟩)
        · exact ⟨l :: pre, l', post, by rw [e]; rfl, h1, h2⟩
        · exact ⟨[], l, lines, rfl, h1, h2⟩
    rw [hlast]
    have hh : (header h0 l).load k = some v ↔ (k ≠ b!"Status" ∧ Spec.LineSays l k v) ∨ ((k = b!"Status" ∨ ∀ v', ¬ Spec.LineSays l k v') ∧ h0.load k = some v) := by
      unfold header
      cases hcut : cut b!":" l with
      | none =>
        have hno : ∀ v', ¬ Spec.LineSays l k v' := by
          intro v' hv
          obtain ⟨s, h1, _⟩ := cut_says.mp hv
          rw [hcut] at h1; cases h1
        simp [hno]
      | some x =>
        obtain ⟨name, s⟩ := x
        simp only
        by_cases hn : name = b!"Status"
        · rw [if_pos hn]
          by_cases hk : k = b!"Status"
          · simp [hk]
          · have hno : ∀ v', ¬ Spec.LineSays l k v' := by
              intro v' hv
              obtain ⟨s', h1, _⟩ := cut_says.mp hv
              rw [hcut] at h1; injection h1 with h1; injection h1 with h1 _
              exact hk (h1.symm.trans hn)
            simp [hno]
        · rw [if_neg hn, AMap.load_store]
          by_cases hk : name = k
          · subst hk
            rw [if_pos rfl]
            have hy : ∀ v', Spec.LineSays l name v' ↔ trimSpace s = v' := by
              intro v'
              rw [cut_says, hcut]
              constructor
              · rintro ⟨s', h1, h2⟩; injection h1 with h1; injection h1 with _ h1; rw [h1]; exact h2
              · intro h; exact ⟨s, rfl, h⟩
            simp only [hy]
            simp
            exact ⟨fun h => .inl ⟨hn, h⟩, fun h => h.elim (·.2) fun h => absurd h.1 hn⟩
          · have hno : ∀ v', ¬ Spec.LineSays l k v' := by
              intro v' hv
              obtain ⟨s', h1, _⟩ := cut_says.mp hv
              rw [hcut] at h1; injection h1 with h1; injection h1 with h1 _
              exact hk h1
            rw [if_neg hk]
            simp [hno]
    rw [hh]
    constructor
    · rintro (⟨h1, h2⟩ | ⟨h1, ⟨h2, h3⟩ | ⟨h2, h3⟩⟩)
      · exact .inl ⟨h1, .inl h2⟩
      · exact .inl ⟨h2, .inr ⟨h3, h1.resolve_left h2⟩⟩
      · refine .inr ⟨?_, h3⟩
        rcases h1 with h1 | h1
        · exact .inl h1
        · rcases h2 with h2 | h2
          · exact .inl h2
          · right
            intro l' hl'
            rcases List.mem_cons.mp hl' with rfl | hl'
            · exact h2
            · exact h1 l' hl'
    · rintro (⟨h1, h2 | ⟨h2, h3⟩⟩ | ⟨h1, h2⟩)
      · exact .inl ⟨h1, h2⟩
      · exact .inr ⟨.inr h3, .inl ⟨h1, h2⟩⟩
      · rcases h1 with h1 | h1
        · exact .inr ⟨.inl h1, .inr ⟨.inl h1, h2⟩⟩
        · exact .inr ⟨.inr fun l' hl' => h1 l' (.tail _ hl'), .inr ⟨.inr (h1 l (.head _)), h2⟩⟩

theorem load_storeAll_or (m ps : AMap Bytes Bytes) (hn : ps.NodupKeys) (k : Bytes) : (m.storeAll ps).load k = (ps.load k).or (m.load k) := by
  rw [AMap.load_storeAll _ _ hn]
  cases ps.load k <;> rfl

/-- The attachments of the answer are what the last line about each name says. -/
theorem cgi_headers {lines : List Bytes} {k v : Bytes} :
    (AMap.storeAll [] (lines.foldl header [])).load k = some v ↔ k ≠ b!"Status" ∧ Spec.LastSays lines k v := by
  have hn : AMap.NodupKeys (lines.foldl header []) := by
    suffices ∀ (lines : List Bytes) (h : AMap Bytes Bytes), h.NodupKeys → AMap.NodupKeys (lines.foldl header h) from
      this lines [] AMap.nodupKeys_nil
    intro lines
    induction lines with
    | nil => exact fun h hn => hn
    | cons l lines ih =>
      intro h hn
      refine ih _ ?_
      unfold header
      split
      · exact hn
      · split
        · exact hn
        · exact AMap.nodupKeys_store hn _ _
  have h1 := headers_load lines [] k v
  rw [load_storeAll_or _ _ hn, AMap.load_nil, Option.or_none, h1]
  simp

/-! ## The request -/

theorem cgi_settings (params atts : AMap Bytes Bytes) (hn : atts.NodupKeys) : ∀ env, withAttachments (settings params) atts = env →
    (∀ n ∈ [b!"REQUEST_METHOD", b!"SCRIPT_FILENAME", b!"DOCUMENT_ROOT"], env.load n = params.load (b!"CGI_" ++ n)) ∧
    env.load b!"SERVER_SOFTWARE" = some b!"Motan / CGI" ∧
    (∀ n, n ∉ [b!"SERVER_SOFTWARE", b!"REQUEST_METHOD", b!"SCRIPT_FILENAME", b!"DOCUMENT_ROOT"] → (∀ k, n ≠ b!"MOTAN_" ++ k) → env.load n = none) ∧
    (∀ k, env.load (b!"MOTAN_" ++ k) = atts.load k) := by
  intro env henv
  have hs : ∀ n, (settings params).load n =
      if n = b!"SERVER_SOFTWARE" then some b!"Motan / CGI"
      else if n ∈ [b!"REQUEST_METHOD", b!"SCRIPT_FILENAME", b!"DOCUMENT_ROOT"] then params.load (b!"CGI_" ++ n) else none := by
    intro n
    have hstep : ∀ (env : AMap Bytes Bytes) (key n : Bytes), (setting params env key).load n =
        if n = key then (params.load (b!"CGI_" ++ key)).or (env.load n) else env.load n := by
      intro env key n
      unfold setting
      cases hp : params.load (b!"CGI_" ++ key) with
      | none => simp
      | some v =>
        simp only [AMap.load_store, Option.some_or]
        by_cases e : key = n
        · rw [if_pos e, if_pos e.symm]
        · rw [if_neg e, if_neg fun h => e h.symm]
    unfold settings needed
    simp only [List.foldl_cons, List.foldl_nil]
    rw [hstep, hstep, hstep, AMap.load_store, AMap.load_nil]
    by_cases h1 : n = b!"SERVER_SOFTWARE"
    · subst h1; simp
    · by_cases h2 : n = b!"REQUEST_METHOD"
      · subst h2; simp
      · by_cases h3 : n = b!"SCRIPT_FILENAME"
        · subst h3; simp
        · by_cases h4 : n = b!"DOCUMENT_ROOT"
          · subst h4; simp
          · rw [if_neg h4, if_neg h3, if_neg h2, if_neg fun h => h1 h.symm, if_neg h1, if_neg]
            simp only [List.mem_cons, List.not_mem_nil, or_false]
            rintro (h | h | h)
            · exact h2 h
            · exact h3 h
            · exact h4 h
  have ha : ∀ n, (withAttachments (settings params) atts).load n =
      (AMap.load (atts.map fun p => (b!"MOTAN_" ++ p.1, p.2)) n).or ((settings params).load n) := by
    intro n
    refine load_storeAll_or _ _ ?_ n
    have : AMap.keys (atts.map fun p => (b!"MOTAN_" ++ p.1, p.2)) = (AMap.keys atts).map (b!"MOTAN_" ++ ·) := by
      simp [AMap.keys]
    rw [AMap.NodupKeys, this]
    exact List.Pairwise.map _ (fun a b hab h => hab (List.append_cancel_left h)) hn
  have hpre : ∀ (atts : AMap Bytes Bytes) k, AMap.load (atts.map fun p => (b!"MOTAN_" ++ p.1, p.2)) (b!"MOTAN_" ++ k) = atts.load k := by
    intro atts k
    induction atts with
    | nil => rfl
    | cons p atts ih =>
      obtain ⟨a, v⟩ := p
      rw [List.map_cons, AMap.load_cons, AMap.load_cons, ih]
      by_cases e : a = k
      · subst e; simp
      · rw [if_neg e, if_neg]; exact fun h => e (List.append_cancel_left h)
  have hnone : ∀ n, (∀ k, n ≠ b!"MOTAN_" ++ k) → AMap.load (atts.map fun p => (b!"MOTAN_" ++ p.1, p.2)) n = none := by
    intro n hk
    rw [AMap.load_eq_none]
    intro hm
    simp only [AMap.keys, List.map_map] at hm
    obtain ⟨p, _, e⟩ := List.mem_map.mp hm
    exact hk p.1 e.symm
  have ha' : ∀ n, (∀ k, n ≠ b!"MOTAN_" ++ k) → (withAttachments (settings params) atts).load n = (settings params).load n := by
    intro n hk; rw [ha, hnone n hk]; rfl
  have hm : ∀ k, (withAttachments (settings params) atts).load (b!"MOTAN_" ++ k) = atts.load k := by
    intro k
    rw [ha, hpre, hs, if_neg (by simp), if_neg (by simp)]
    cases atts.load k <;> rfl
  rw [henv] at ha' hm
  have hsettings : ∀ n ∈ [b!"REQUEST_METHOD", b!"SCRIPT_FILENAME", b!"DOCUMENT_ROOT"], env.load n = params.load (b!"CGI_" ++ n) := by
    intro n hn
    rw [ha' n, hs, if_neg, if_pos hn]
    · rintro rfl; revert hn; decide
    · rintro k rfl; revert hn; simp
  have hsoft : env.load b!"SERVER_SOFTWARE" = some b!"Motan / CGI" := by rw [ha' _ (by simp), hs]; simp
  have hrest : ∀ n, n ∉ [b!"SERVER_SOFTWARE", b!"REQUEST_METHOD", b!"SCRIPT_FILENAME", b!"DOCUMENT_ROOT"] → (∀ k, n ≠ b!"MOTAN_" ++ k) → env.load n = none := by
    intro n hn hk
    rw [List.mem_cons, not_or] at hn
    rw [ha' n hk, hs, if_neg hn.1, if_neg hn.2]
  exact ⟨hsettings, hsoft, hrest, hm⟩

/-- What the program sees: its settings, the attachments under their names with `MOTAN_` before, the query string of a GET,
type and length of the body of a POST, and nothing else; attachments cannot pass for settings. -/
theorem cgi_environment {params : AMap Bytes Bytes} {r : Req} {args : List Arg} {q : CgiReq} (hn : r.attachments.NodupKeys)
    (h : build params r args = some q) :
    q.env.load b!"SERVER_SOFTWARE" = some b!"Motan / CGI" ∧
    (∀ n ∈ [b!"REQUEST_METHOD", b!"SCRIPT_FILENAME", b!"DOCUMENT_ROOT"], q.env.load n = params.load (b!"CGI_" ++ n)) ∧
    (∀ k, q.env.load (b!"MOTAN_" ++ k) = r.attachments.load k) ∧
    (q.env.load b!"QUERY_STRING" = if params.load b!"CGI_REQUEST_METHOD" = some b!"GET" then buildQuery r args [] else none) ∧
    (q.env.load b!"CONTENT_LENGTH" = if params.load b!"CGI_REQUEST_METHOD" = some b!"POST" then some (natDigits q.body.length) else none) ∧
    (q.env.load b!"CONTENT_TYPE" = if params.load b!"CGI_REQUEST_METHOD" = some b!"POST" then some b!"application/x-www-form-urlencoded" else none) ∧
    (if params.load b!"CGI_REQUEST_METHOD" = some b!"POST" then buildQuery r args [] = some q.body else q.body = []) ∧
    (∀ n, n ∉ [b!"SERVER_SOFTWARE", b!"REQUEST_METHOD", b!"SCRIPT_FILENAME", b!"DOCUMENT_ROOT", b!"QUERY_STRING", b!"CONTENT_LENGTH",
      b!"CONTENT_TYPE"] → (∀ k, n ≠ b!"MOTAN_" ++ k) → q.env.load n = none) := by
  unfold build at h
  generalize henv : withAttachments (settings params) r.attachments = env at h
  obtain ⟨hsettings, hsoft, hrest, hm⟩ := cgi_settings params r.attachments hn env henv
  have hmethod : env.load b!"REQUEST_METHOD" = params.load b!"CGI_REQUEST_METHOD" := hsettings _ (.head _)
  generalize hw : withArguments r args env = w at h
  cases w with
  | none => cases h
  | some x =>
    obtain ⟨e, body⟩ := x
    simp only [Option.map_some, Option.some.injEq] at h
    subst h
    simp only
    unfold withArguments at hw
    rw [hmethod] at hw
    by_cases hg : params.load b!"CGI_REQUEST_METHOD" = some b!"GET"
    · rw [if_pos hg] at hw
      have hp : ¬ params.load b!"CGI_REQUEST_METHOD" = some b!"POST" := by rw [hg]; decide
      cases hq : buildQuery r args [] with
      | none => rw [hq] at hw; cases hw
      | some q =>
        rw [hq] at hw
        simp only [Option.map_some, Option.some.injEq, Prod.mk.injEq] at hw
        obtain ⟨rfl, rfl⟩ := hw
        simp only [if_pos hg, if_neg hp]
        refine ⟨?_, ?_, ?_, ?_, ?_, ?_, trivial, ?_⟩
        · rw [AMap.load_store_ne _ _ (by decide)]; exact hsoft
        · intro n hn
          rw [AMap.load_store_ne _ _ (by rintro rfl; revert hn; decide)]; exact hsettings n hn
        · intro k
          rw [AMap.load_store_ne _ _ (by simp)]; exact hm k
        · exact AMap.load_store_self _ _ _
        · rw [AMap.load_store_ne _ _ (by decide)]; exact hrest _ (by decide) (by simp)
        · rw [AMap.load_store_ne _ _ (by decide)]; exact hrest _ (by decide) (by simp)
        · intro n hn hk
          rw [AMap.load_store_ne _ _ (by rintro rfl; revert hn; decide)]
          exact hrest n (fun h => hn (by simp only [List.mem_cons, List.not_mem_nil, or_false] at h ⊢; rcases h with h | h | h | h <;> simp [h])) hk
    · rw [if_neg hg] at hw
      by_cases hp : params.load b!"CGI_REQUEST_METHOD" = some b!"POST"
      · rw [if_pos hp] at hw
        cases hq : buildQuery r args [] with
        | none => rw [hq] at hw; cases hw
        | some q =>
          rw [hq] at hw
          simp only [Option.map_some, Option.some.injEq, Prod.mk.injEq] at hw
          obtain ⟨rfl, rfl⟩ := hw
          simp only [if_neg hg, if_pos hp]
          refine ⟨?_, ?_, ?_, ?_, ?_, ?_, trivial, ?_⟩
          · rw [AMap.load_store_ne _ _ (by decide), AMap.load_store_ne _ _ (by decide)]; exact hsoft
          · intro n hn
            rw [AMap.load_store_ne _ _ (by rintro rfl; revert hn; decide), AMap.load_store_ne _ _ (by rintro rfl; revert hn; decide)]
            exact hsettings n hn
          · intro k
            rw [AMap.load_store_ne _ _ (by simp), AMap.load_store_ne _ _ (by simp)]; exact hm k
          · rw [AMap.load_store_ne _ _ (by decide), AMap.load_store_ne _ _ (by decide)]; exact hrest _ (by decide) (by simp)
          · exact AMap.load_store_self _ _ _
          · rw [AMap.load_store_ne _ _ (by decide)]; exact AMap.load_store_self _ _ _
          · intro n hn hk
            rw [AMap.load_store_ne _ _ (by rintro rfl; revert hn; decide), AMap.load_store_ne _ _ (by rintro rfl; revert hn; decide)]
            exact hrest n (fun h => hn (by simp only [List.mem_cons, List.not_mem_nil, or_false] at h ⊢; rcases h with h | h | h | h <;> simp [h])) hk
      · rw [if_neg hp] at hw
        simp only [Option.some.injEq, Prod.mk.injEq] at hw
        obtain ⟨rfl, rfl⟩ := hw
        simp only [if_neg hg, if_neg hp]
        refine ⟨hsoft, hsettings, hm, hrest _ (by decide) (by simp), hrest _ (by decide) (by simp), hrest _ (by decide) (by simp), trivial, ?_⟩
        intro n hn hk
        exact hrest n (fun h => hn (by simp only [List.mem_cons, List.not_mem_nil, or_false] at h ⊢; rcases h with h | h | h | h <;> simp [h])) hk

/-- Where the request goes. -/
theorem cgi_address {params : AMap Bytes Bytes} {r : Req} {args : List Arg} {q : CgiReq} (h : build params r args = some q) :
    q.host = (params.load b!"CGI_HOST").getD b!"127.0.0.1" ∧
    q.port = match params.load b!"CGI_PORT" with | some p => (parseInt64 p).1 | none => 9000 := by
  unfold build at h
  obtain ⟨x, _, rfl⟩ := Option.map_eq_some_iff.mp h
  exact ⟨rfl, rfl⟩

/-- What a program reads from the query string of a GET or the body of a POST when the argument is a map of strings: the
identifier of the request and the entries. -/
theorem cgi_parameters {params : AMap Bytes Bytes} {r : Req} {m : AMap Bytes Bytes} {rest : List Arg} {q : CgiReq}
    (hn : r.attachments.NodupKeys) (hm : m.NodupKeys) (hp : ∀ p ∈ m, Spec.plainName p.1) (h : build params r (.strMap m :: rest) = some q) :
    (params.load b!"CGI_REQUEST_METHOD" = some b!"POST" →
      ∃ p, Spec.formParams q.body = (b!"requestIdFromClient", natDigits r.requestID) :: p ∧ AMap.NodupKeys p ∧ ∀ k, AMap.load p k = m.load k) ∧
    (params.load b!"CGI_REQUEST_METHOD" = some b!"GET" →
      ∃ s p, q.env.load b!"QUERY_STRING" = some s ∧
        Spec.formParams s = (b!"requestIdFromClient", natDigits r.requestID) :: p ∧ AMap.NodupKeys p ∧ ∀ k, AMap.load p k = m.load k) := by
  obtain ⟨_, _, _, h4, _, _, h7, _⟩ := cgi_environment hn h
  obtain ⟨s, p, e1, e2, e3, e4⟩ := http_query (r := r) (rest := rest) (vars := []) hm hp (by simp)
  have e4 : ∀ k, AMap.load p k = m.load k := by
    intro k; rw [e4]; cases m.load k <;> simp
  constructor
  · intro hpost
    rw [if_pos hpost, e1] at h7
    injection h7 with h7
    exact ⟨p, by rw [← h7]; exact e2, e3, e4⟩
  · intro hget
    rw [if_pos hget] at h4
    exact ⟨s, p, by rw [h4]; exact e1, e2, e3, e4⟩

/-! ## The answer -/

/-- What a program that writes a header, an empty line and a body has answered: the caller gets the body, byte by byte, and
the header as attachments. (Except that a first line `Status:` without a space makes the provider panic.) -/
theorem cgi_answer {params : AMap Bytes Bytes} {r : Req} {args : List Arg} {q : CgiReq} {up : CgiReq → Option Bytes}
    {first body : Bytes} {lines : List Bytes} (ha : r.args = some args) (hb : build params r args = some q)
    (hl : ∀ l ∈ first :: lines, Spec.CgiLine l) (hs : (∃ s, first = b!"Status:" ++ s) → (32 : UInt8) ∈ first)
    (hup : up q = some (Spec.cgiText (first :: lines) body)) :
    ∃ resp, Cgi.call params r up = ([q], some resp) ∧ resp.requestID = r.requestID ∧ resp.value = some (.str body) ∧ resp.exception = none ∧
      ∀ k v, resp.attachments.load k = some v ↔ k ≠ b!"Status" ∧ Spec.LastSays (first :: lines) k v := by
  have hst : ∃ st, statusOf first = some st := by
    unfold statusOf
    split
    · rename_i hp
      have hm := hs (by
        obtain ⟨s, e⟩ := List.isPrefixOf_iff_prefix.mp hp
        exact ⟨s, e.symm⟩)
      split
      · rename_i hc
        obtain ⟨x, y, e⟩ := List.append_of_mem hm
        exact absurd ⟨x, y, by rw [e]; simp⟩ (cut_none.mp hc)
      · split
        · exact ⟨_, rfl⟩
        · exact ⟨_, rfl⟩
    · exact ⟨_, rfl⟩
  obtain ⟨st, hst⟩ := hst
  have hp : parse (Spec.cgiText (first :: lines) body) = some (some { status := st, headers := (first :: lines).foldl header [], body := body }) := by
    unfold parse
    rw [cut_text _ _ (by simp) hl]
    simp only
    rw [split_lines _ (by simp) fun l h => (hl l h).2]
    simp only [List.headD_cons, hst, Option.map_some]
  refine ⟨{ requestID := r.requestID, value := some (.str body), attachments := AMap.storeAll [] ((first :: lines).foldl header []) }, ?_, rfl, rfl, rfl,
    fun k v => cgi_headers⟩
  unfold Cgi.call
  simp only [ha, hb, hup, hp]

/-- The status a text is read with: the number in the first line, if that begins with `Status:`, else 200. -/
theorem cgi_status {first body : Bytes} {lines : List Bytes} (hl : ∀ l ∈ first :: lines, Spec.CgiLine l) :
    (∀ (n : Nat) (reason : Bytes), n < 1000 → first = b!"Status: " ++ natDigits n ++ reason → (reason = [] ∨ reason.head? = some 32) →
      ∃ a, parse (Spec.cgiText (first :: lines) body) = some (some a) ∧ a.status = n ∧ a.body = body) ∧
    ((∀ s, first ≠ b!"Status:" ++ s) → ∃ a, parse (Spec.cgiText (first :: lines) body) = some (some a) ∧ a.status = 200 ∧ a.body = body) := by
  have hp : ∀ st, statusOf first = some st → parse (Spec.cgiText (first :: lines) body) =
      some (some { status := st, headers := (first :: lines).foldl header [], body := body }) := by
    intro st hst
    unfold parse
    rw [cut_text _ _ (by simp) hl]
    simp only
    rw [split_lines _ (by simp) fun l h => (hl l h).2]
    simp only [List.headD_cons, hst, Option.map_some]
  constructor
  · rintro n reason hn rfl hr
    refine ⟨_, hp n ?_, rfl, rfl⟩
    have hd : (parseInt64 (natDigits n)).1 = (n : Int) := by
      have := parseInt64_formatInt (n : Int) (by omega) (by omega)
      rw [formatInt, if_neg (by omega)] at this
      rw [show natDigits n = natDigits (n : Int).natAbs from rfl, this]
    have hns : (32 : UInt8) ∉ natDigits n := by
      intro hm
      have := (natDigits_digit n 32 hm).1
      revert this; decide
    unfold statusOf
    rw [if_pos (show hasPrefix _ b!"Status:" = true from List.isPrefixOf_iff_prefix.mpr ⟨b!" " ++ natDigits n ++ reason, by simp⟩)]
    have h1 : cut b!" " (b!"Status: " ++ natDigits n ++ reason) = some (b!"Status:", natDigits n ++ reason) := by
      have : b!"Status: " ++ natDigits n ++ reason = b!"Status:" ++ [32] ++ (natDigits n ++ reason) := by simp
      rw [this]; exact cut_byte (by decide)
    rw [h1]
    simp only
    rcases hr with rfl | hr
    · rw [List.append_nil, cut_none.mpr]
      · simp only [hd]
      · rintro ⟨a, b, e⟩
        rw [e] at hns
        simp at hns
    · cases reason with
      | nil => cases hr
      | cons c reason =>
        injection hr with hr
        subst hr
        have h2 : cut b!" " (natDigits n ++ 32 :: reason) = some (natDigits n, reason) := by
          have : natDigits n ++ 32 :: reason = natDigits n ++ [32] ++ reason := by simp
          rw [this]; exact cut_byte hns
        rw [h2]
        simp only [hd]
  · intro hs
    refine ⟨_, hp 200 ?_, rfl, rfl⟩
    unfold statusOf
    rw [if_neg]
    intro h
    obtain ⟨s, e⟩ := List.isPrefixOf_iff_prefix.mp h
    exact hs s e.symm

/-- The other answers: what cannot be read as an answer is reported as 502, a failed exchange or a request that cannot be
read as 503 (with 0 for the identifier of the request). -/
theorem cgi_failed {params : AMap Bytes Bytes} {r : Req} {up : CgiReq → Option Bytes} :
    (r.args = none → ∃ resp, Cgi.call params r up = ([], some resp) ∧ resp.value = none ∧ resp.exception = some ⟨503, 503⟩ ∧ resp.requestID = 0) ∧
    (∀ args q, r.args = some args → build params r args = some q → up q = none →
      ∃ resp, Cgi.call params r up = ([q], some resp) ∧ resp.value = none ∧ resp.exception = some ⟨503, 503⟩ ∧ resp.requestID = 0) ∧
    (∀ args q content, r.args = some args → build params r args = some q → up q = some content → (¬ ∃ a b, content = a ++ b!"\r\n\r\n" ++ b) →
      ∃ resp, Cgi.call params r up = ([q], some resp) ∧ resp.value = none ∧ resp.exception = some ⟨502, 502⟩ ∧ resp.requestID = r.requestID) := by
  refine ⟨?_, ?_, ?_⟩
  · intro h; unfold Cgi.call; simp only [h]; exact ⟨_, rfl, rfl, rfl, rfl⟩
  · intro args q h1 h2 h3; unfold Cgi.call; simp only [h1, h2, h3]; exact ⟨_, rfl, rfl, rfl, rfl⟩
  · intro args q content h1 h2 h3 h4
    have hp : parse content = none := by
      unfold parse; rw [cut_none.mpr h4]
    unfold Cgi.call; simp only [h1, h2, h3, hp]; exact ⟨_, rfl, rfl, rfl, rfl⟩

/-! ## Panics -/

theorem firstLine_unique {c x y : Bytes} (hx : Spec.FirstLine c x) (hy : Spec.FirstLine c y) : x = y := by
  suffices key : ∀ x y : Bytes, Spec.FirstLine c x → Spec.FirstLine c y → ∀ t, y = x ++ t → t = [] by
    obtain ⟨⟨p, hp⟩, _⟩ := id hx
    obtain ⟨⟨q, hq⟩, _⟩ := id hy
    have : x ++ (b!"\r\n" ++ p) = y ++ (b!"\r\n" ++ q) := by rw [← List.append_assoc, ← List.append_assoc, ← hp, ← hq]
    rcases List.append_eq_append_iff.mp this with ⟨t, h1, _⟩ | ⟨t, h1, _⟩
    · have := key x y hx hy t h1
      rw [h1, this, List.append_nil]
    · have := key y x hy hx t h1
      rw [h1, this, List.append_nil]
  rintro x y ⟨⟨p, hp⟩, _⟩ ⟨⟨q, hq⟩, hn⟩ t rfl
  have : b!"\r\n" ++ p = t ++ (b!"\r\n" ++ q) := by
    rw [hp, List.append_assoc, List.append_assoc, List.append_assoc] at hq
    exact List.append_cancel_left hq
  match t with
  | [] => rfl
  | [c] => simp at this
  | c :: d :: t =>
    exfalso
    simp at this
    exact hn ⟨x, t, by rw [← this.1, ← this.2.1]; simp⟩

theorem split_first {c head body : Bytes} (h : cut b!"\r\n\r\n" c = some (head, body)) :
    Spec.FirstLine c ((split b!"\r\n" head).headD []) := by
  obtain ⟨e, _⟩ := cut_spec h
  rw [split]
  rw [dif_neg (by decide)]
  cases hi : index b!"\r\n" head with
  | none =>
    refine ⟨⟨b!"\r\n" ++ body, by rw [e]; simp⟩, ?_⟩
    simp only [List.headD_cons]
    exact cut_none.mp (by unfold cut; rw [hi]; rfl)
  | some i =>
    simp only [List.headD_cons]
    have hc : cut b!"\r\n" head = some (head.take i, head.drop (i + 2)) := by unfold cut; rw [hi]; rfl
    obtain ⟨e1, e2⟩ := cut_spec hc
    refine ⟨⟨head.drop (i + 2) ++ b!"\r\n\r\n" ++ body, ?_⟩, e2 (by decide)⟩
    conv => lhs; rw [e, e1]
    simp only [List.append_assoc]

/-- When the provider panics (the server then answers with an exception): for want of an argument, or on an answer whose first
line begins with `Status:` and has no space. -/
theorem cgi_panics_exactly {params : AMap Bytes Bytes} {r : Req} {up : CgiReq → Option Bytes} :
    (Cgi.call params r up).2 = none ↔
      (∃ args, r.args = some args ∧ build params r args = none) ∨
      (∃ args q content line, r.args = some args ∧ build params r args = some q ∧ up q = some content ∧
        (∃ a b, content = a ++ b!"\r\n\r\n" ++ b) ∧ Spec.FirstLine content line ∧ (∃ s, line = b!"Status:" ++ s) ∧ (32 : UInt8) ∉ line) := by
  have hst : ∀ line, statusOf line = none ↔ (∃ s, line = b!"Status:" ++ s) ∧ (32 : UInt8) ∉ line := by
    intro line
    unfold statusOf
    constructor
    · intro h
      split at h
      · rename_i hp
        obtain ⟨s, e⟩ := List.isPrefixOf_iff_prefix.mp hp
        refine ⟨⟨s, e.symm⟩, ?_⟩
        split at h
        · rename_i hc
          intro hm
          obtain ⟨x, y, e⟩ := List.append_of_mem hm
          exact absurd ⟨x, y, by rw [e]; simp⟩ (cut_none.mp hc)
        · split at h <;> cases h
      · cases h
    · rintro ⟨⟨s, e⟩, hm⟩
      rw [if_pos (show hasPrefix line b!"Status:" = true from List.isPrefixOf_iff_prefix.mpr ⟨s, e.symm⟩), cut_none.mpr]
      rintro ⟨a, b, h⟩
      rw [h] at hm
      simp at hm
  have hparse : ∀ c, parse c = some none ↔ (∃ a b, c = a ++ b!"\r\n\r\n" ++ b) ∧ ∃ line, Spec.FirstLine c line ∧ (∃ s, line = b!"Status:" ++ s) ∧ (32 : UInt8) ∉ line := by
    intro c
    unfold parse
    cases hc : cut b!"\r\n\r\n" c with
    | none =>
      simp only [reduceCtorEq, false_iff]
      rintro ⟨h, _⟩
      exact cut_none.mp hc h
    | some x =>
      obtain ⟨head, body⟩ := x
      simp only [Option.some.injEq, Option.map_eq_none_iff, hst]
      have hf := split_first hc
      constructor
      · intro h
        exact ⟨⟨head, body, (cut_spec hc).1⟩, _, hf, h⟩
      · rintro ⟨_, line, h1, h2⟩
        rw [firstLine_unique hf h1]; exact h2
  unfold Cgi.call
  cases ha : r.args with
  | none => simp
  | some args =>
    cases hb : build params r args with
    | none => simp [hb]
    | some q =>
      simp only
      cases hu : up q with
      | none => simp [hb, hu]
      | some content =>
        have := hparse content
        simp only [hb, hu]
        constructor
        · intro h
          right
          cases hp : parse content with
          | none => rw [hp] at h; cases h
          | some o =>
            cases o with
            | some a => rw [hp] at h; cases h
            | none =>
              obtain ⟨h1, line, h2, h3, h4⟩ := this.mp hp
              exact ⟨args, q, content, line, rfl, hb, hu, h1, h2, h3, h4⟩
        · rintro (⟨args', h1, h2⟩ | ⟨args', q', c', line, h1, h2, h3, h4, h5, h6, h7⟩)
          · injection h1 with h1; subst h1; rw [hb] at h2; cases h2
          · injection h1 with h1; subst h1; rw [hb] at h2; injection h2 with h2; subst h2
            rw [hu] at h3; injection h3 with h3; subst h3
            rw [this.mpr ⟨h4, line, h5, h6, h7⟩]

/-- A request cannot be made of no arguments, exactly if the program is to get them. -/
theorem cgi_no_argument {params : AMap Bytes Bytes} {r : Req} {args : List Arg} (hn : r.attachments.NodupKeys) :
    build params r args = none ↔ args = [] ∧ (params.load b!"CGI_REQUEST_METHOD" = some b!"GET" ∨ params.load b!"CGI_REQUEST_METHOD" = some b!"POST") := by
  obtain ⟨hs, _⟩ := cgi_settings params r.attachments hn _ rfl
  have hm : (withAttachments (settings params) r.attachments).load b!"REQUEST_METHOD" = params.load b!"CGI_REQUEST_METHOD" := hs _ (.head _)
  have hq : buildQuery r args [] = none ↔ args = [] := by
    unfold buildQuery
    match args with
    | [] => simp
    | a :: rest => cases a <;> simp
  unfold build
  rw [Option.map_eq_none_iff]
  unfold withArguments
  rw [hm]
  by_cases hg : params.load b!"CGI_REQUEST_METHOD" = some b!"GET"
  · rw [if_pos hg, Option.map_eq_none_iff, hq]; simp [hg]
  · rw [if_neg hg]
    by_cases hp : params.load b!"CGI_REQUEST_METHOD" = some b!"POST"
    · rw [if_pos hp, Option.map_eq_none_iff, hq]; simp [hp]
    · rw [if_neg hp]; simp [hg, hp]

/-! ## Examples -/

/-- A service with a script, a request with two parameters and an attachment. -/
def Spec.cgiParams : AMap Bytes Bytes := [(b!"CGI_REQUEST_METHOD", b!"POST"), (b!"CGI_SCRIPT_FILENAME", b!"/a.php"), (b!"CGI_PORT", b!"9001")]

def Spec.cgiReq : Req :=
  { requestID := 7, method := b!"m", attachments := [(b!"M_s", b!"x")], args := some [.strMap [(b!"a", b!"1 2"), (b!"b", b!"&")]], raw := none }

def Spec.cgiAnswer : Bytes := Spec.cgiText [b!"Status: 200 OK", b!"A:  b ", b!"A: c"] b!"x\r\n\r\ny"

example : Spec.cgiReq.attachments.NodupKeys ∧ (∀ p ∈ [(b!"a", b!"1 2"), (b!"b", b!"&")], Spec.plainName p.1) ∧
    build Spec.cgiParams Spec.cgiReq [.strMap [(b!"a", b!"1 2"), (b!"b", b!"&")]] = some
      { host := b!"127.0.0.1", port := 9001, body := b!"requestIdFromClient=7&a=1+2&b=%26"
        env := [(b!"SERVER_SOFTWARE", b!"Motan / CGI"), (b!"REQUEST_METHOD", b!"POST"), (b!"SCRIPT_FILENAME", b!"/a.php"), (b!"MOTAN_M_s", b!"x"),
          (b!"CONTENT_TYPE", b!"application/x-www-form-urlencoded"), (b!"CONTENT_LENGTH", b!"33")] } := by decide +kernel

example : (∀ l ∈ [b!"Status: 200 OK", b!"A:  b ", b!"A: c"], Spec.CgiLine l) ∧
    (Cgi.call Spec.cgiParams Spec.cgiReq fun _ => some Spec.cgiAnswer).2 =
      some { requestID := 7, value := some (.str b!"x\r\n\r\ny"), attachments := [(b!"A", b!"c")] } := by
  refine ⟨by simp [Spec.CgiLine], by decide +kernel⟩

/-! ## Where it does not hold -/

/-- A program that fails is reported as a success: nothing of the response depends on the status it gave. -/
theorem cgi_status_lost_violated {params : AMap Bytes Bytes} {r : Req} {up up' : CgiReq → Option Bytes} {args : List Arg} {q : CgiReq}
    {lines : List Bytes} {body : Bytes} (ha : r.args = some args) (hb : build params r args = some q) (hl : ∀ l ∈ lines, Spec.CgiLine l)
    (h1 : up q = some (Spec.cgiText (b!"Status: 200 OK" :: lines) body))
    (h2 : up' q = some (Spec.cgiText (b!"Status: 500 Internal Server Error" :: lines) body)) :
    Cgi.call params r up = Cgi.call params r up' ∧ ∃ resp, Cgi.call params r up' = ([q], some resp) ∧ resp.exception = none := by
  have hp : ∀ first st, Spec.CgiLine first → statusOf first = some st → cut b!":" first = some (b!"Status", first.drop 7) →
      parse (Spec.cgiText (first :: lines) body) = some (some { status := st, headers := lines.foldl header [], body := body }) := by
    intro first st hf hst hc
    have hl' : ∀ l ∈ first :: lines, Spec.CgiLine l := by
      intro l hm
      rcases List.mem_cons.mp hm with rfl | hm
      · exact hf
      · exact hl l hm
    unfold parse
    rw [cut_text _ _ (by simp) hl']
    simp only
    rw [split_lines _ (by simp) fun l h => (hl' l h).2]
    simp only [List.headD_cons, hst, Option.map_some, List.foldl_cons]
    have : header [] first = [] := by unfold header; rw [hc]; rfl
    rw [this]
  have p1 := hp b!"Status: 200 OK" 200 (by simp [Spec.CgiLine]) (by decide +kernel) (by decide +kernel)
  have p2 := hp b!"Status: 500 Internal Server Error" 500 (by simp [Spec.CgiLine]) (by decide +kernel) (by decide +kernel)
  unfold Cgi.call
  simp only [ha, hb, h1, h2, p1, p2]
  exact ⟨trivial, _, rfl, rfl⟩

/-- An answer without a space in `Status:200` makes the provider panic. -/
theorem cgi_status_panics_violated :
    ∃ params r content, (Cgi.call params r fun _ => some content).2 = none ∧ content = Spec.cgiText [b!"Status:200", b!"A: b"] b!"body" :=
  ⟨Spec.cgiParams, Spec.cgiReq, _, by
    refine cgi_panics_exactly.mpr (.inr ⟨_, _, _, b!"Status:200", rfl, rfl, rfl, ⟨b!"Status:200\r\nA: b", b!"body", rfl⟩, ⟨⟨_, rfl⟩, ?_⟩, ⟨_, rfl⟩, by decide⟩)
    exact cut_none.mp (by decide +kernel), rfl⟩

end Motan.Props
