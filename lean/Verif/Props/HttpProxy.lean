import Verif.Model.HttpProxy
import Verif.Props.Url

/-!
# C44, C55: HTTP locations and rewriting

Which location a path belongs to, and which path is sent to the server behind it.
-/

namespace Motan.Props

open Strings
open HttpProxy (Lib Rule Cond Location Matcher)

variable {R I : Type}

/-! ## Specification of the locations -/

/-- The type of a location, `start` if not configured. -/
def Spec.locType (c : HttpProxy.Config) : Bytes := if c.type = [] then b!"start" else c.type

/-- An exact location for the path. -/
def Spec.LocExact (path : Bytes) (c : HttpProxy.Config) : Prop := Spec.locType c = b!"exact" ∧ c.match = path

/-- A location whose regular expression matches the path. -/
def Spec.LocRegexp (lib : Lib R I) (path : Bytes) (c : HttpProxy.Config) : Prop :=
  ∃ r, ((Spec.locType c = b!"regexp" ∧ lib.compile c.match = some r) ∨
    (Spec.locType c = b!"iregexp" ∧ lib.compile (b!"(?i)" ++ c.match) = some r)) ∧ lib.isMatch r path = true

/-- A location for a prefix of the path. -/
def Spec.LocPrefix (path : Bytes) (c : HttpProxy.Config) : Prop :=
  Spec.locType c = b!"start" ∧ c.match <+: path ∧ c.match ≠ []

/-- The location of a path: the first exact one, else the first whose expression matches, else the longest prefix,
the first of several equal ones. -/
def Spec.LocPicks (lib : Lib R I) (cs : List HttpProxy.Config) (path : Bytes) (c : HttpProxy.Config) : Prop :=
  ∃ pre post, cs = pre ++ c :: post ∧
    ((Spec.LocExact path c ∧ ∀ d ∈ pre, ¬ Spec.LocExact path d) ∨
     ((∀ d ∈ cs, ¬ Spec.LocExact path d) ∧ Spec.LocRegexp lib path c ∧ ∀ d ∈ pre, ¬ Spec.LocRegexp lib path d) ∨
     ((∀ d ∈ cs, ¬ Spec.LocExact path d) ∧ (∀ d ∈ cs, ¬ Spec.LocRegexp lib path d) ∧ Spec.LocPrefix path c ∧
       (∀ d ∈ pre, Spec.LocPrefix path d → d.match.length < c.match.length) ∧
       ∀ d ∈ post, Spec.LocPrefix path d → d.match.length ≤ c.match.length))

/-! ## The matcher as lists of configurations -/

/-- The compiled location. -/
def locOf (lib : Lib R I) (c : HttpProxy.Config) : Location R :=
  { upstream := c.upstream, «match» := c.match, rules := HttpProxy.compileRules lib c.rules, length := c.match.length }

/-- The expression of a regexp location. -/
def reOf (lib : Lib R I) (c : HttpProxy.Config) : Option R :=
  if Spec.locType c = b!"regexp" then lib.compile c.match
  else if Spec.locType c = b!"iregexp" then lib.compile (b!"(?i)" ++ c.match)
  else none

theorem addLocation_eq (lib : Lib R I) (m : Matcher R) (c : HttpProxy.Config) :
    HttpProxy.addLocation lib m c =
      { exact := m.exact ++ (if Spec.locType c = b!"exact" then [locOf lib c] else [])
        start := m.start ++ (if Spec.locType c = b!"start" then [locOf lib c] else [])
        regexp := m.regexp ++ (reOf lib c).toList.map fun r => (locOf lib c, r)
        needQuery := m.needQuery || (HttpProxy.compileRules lib c.rules).any fun r => HttpProxy.isRegexpVar r.cond } := by
  rw [HttpProxy.addLocation]
  simp only [← Spec.locType.eq_def]
  have hne : ∀ {a b : Bytes}, Spec.locType c = a → a ≠ b → Spec.locType c ≠ b := by
    intro a b h hab h'
    exact hab (h.symm.trans h')
  by_cases h1 : Spec.locType c = b!"exact"
  · rw [if_pos h1, if_pos h1, if_neg (hne h1 (by decide)), reOf, if_neg (hne h1 (by decide)), if_neg (hne h1 (by decide))]
    simp [locOf]
  · rw [if_neg h1, if_neg h1]
    by_cases h2 : Spec.locType c = b!"start"
    · rw [if_pos h2, if_pos h2, reOf, if_neg (hne h2 (by decide)), if_neg (hne h2 (by decide))]
      simp [locOf]
    · rw [if_neg h2, if_neg h2, reOf]
      by_cases h3 : Spec.locType c = b!"regexp"
      · rw [if_pos h3, if_pos h3]
        cases lib.compile c.match <;> simp [locOf]
      · rw [if_neg h3, if_neg h3]
        by_cases h4 : Spec.locType c = b!"iregexp"
        · rw [if_pos h4, if_pos h4]
          cases lib.compile (b!"(?i)" ++ c.match) <;> simp [locOf]
        · rw [if_neg h4, if_neg h4]
          simp

theorem foldl_addLocation (lib : Lib R I) (m : Matcher R) (cs : List HttpProxy.Config) :
    cs.foldl (HttpProxy.addLocation lib) m =
      { exact := m.exact ++ cs.flatMap fun c => if Spec.locType c = b!"exact" then [locOf lib c] else []
        start := m.start ++ cs.flatMap fun c => if Spec.locType c = b!"start" then [locOf lib c] else []
        regexp := m.regexp ++ cs.flatMap fun c => (reOf lib c).toList.map fun r => (locOf lib c, r)
        needQuery := m.needQuery ||
          cs.any fun c => (HttpProxy.compileRules lib c.rules).any fun r => HttpProxy.isRegexpVar r.cond } := by
  induction cs generalizing m with
  | nil => simp
  | cons c cs ih =>
    rw [List.foldl_cons, ih, addLocation_eq]
    simp [List.append_assoc, Bool.or_assoc]

theorem newMatcher_eq (lib : Lib R I) (cs : List HttpProxy.Config) :
    HttpProxy.newMatcher lib cs =
      { exact := cs.flatMap fun c => if Spec.locType c = b!"exact" then [locOf lib c] else []
        start := cs.flatMap fun c => if Spec.locType c = b!"start" then [locOf lib c] else []
        regexp := cs.flatMap fun c => (reOf lib c).toList.map fun r => (locOf lib c, r)
        needQuery := cs.any fun c => (HttpProxy.compileRules lib c.rules).any fun r => HttpProxy.isRegexpVar r.cond } := by
  rw [HttpProxy.newMatcher, foldl_addLocation]
  simp

theorem exact_none (lib : Lib R I) {path : Bytes} {cs : List HttpProxy.Config} (h : ∀ d ∈ cs, ¬ Spec.LocExact path d) :
    (cs.flatMap fun c => if Spec.locType c = b!"exact" then [locOf lib c] else []).find? (fun l => path = l.match) = none := by
  rw [List.find?_eq_none]
  intro l hl
  obtain ⟨c, hc, hlc⟩ := List.mem_flatMap.mp hl
  split at hlc
  · rename_i ht
    rw [List.mem_singleton] at hlc
    subst hlc
    intro he
    exact h c hc ⟨ht, (of_decide_eq_true he).symm⟩
  · cases hlc

theorem reOf_iff (lib : Lib R I) {path : Bytes} {c : HttpProxy.Config} :
    Spec.LocRegexp lib path c ↔ ∃ r, reOf lib c = some r ∧ lib.isMatch r path = true := by
  unfold Spec.LocRegexp reOf
  constructor
  · rintro ⟨r, h, hm⟩
    refine ⟨r, ?_, hm⟩
    rcases h with ⟨h1, h2⟩ | ⟨h1, h2⟩
    · rw [if_pos h1, h2]
    · rw [if_neg (by rw [h1]; decide), if_pos h1, h2]
  · rintro ⟨r, h, hm⟩
    refine ⟨r, ?_, hm⟩
    split at h
    · rename_i h1; exact .inl ⟨h1, h⟩
    · split at h
      · rename_i h1; exact .inr ⟨h1, h⟩
      · cases h

theorem regexp_none (lib : Lib R I) {path : Bytes} {cs : List HttpProxy.Config}
    (h : ∀ d ∈ cs, ¬ Spec.LocRegexp lib path d) :
    (cs.flatMap fun c => (reOf lib c).toList.map fun r => (locOf lib c, r)).find? (fun l => lib.isMatch l.2 path) = none := by
  rw [List.find?_eq_none]
  intro l hl
  obtain ⟨c, hc, hlc⟩ := List.mem_flatMap.mp hl
  obtain ⟨r, hr, rfl⟩ := List.mem_map.mp hlc
  intro hm
  exact h c hc ((reOf_iff lib).mpr ⟨r, Option.mem_toList.mp hr, hm⟩)

/-- A location that takes part in the search for the longest prefix. -/
theorem longest_lt (lib : Lib R I) {path : Bytes} {N : Nat} (cs : List HttpProxy.Config)
    (h : ∀ d ∈ cs, Spec.LocPrefix path d → d.match.length < N) (o : Option (Location R)) {n : Nat} (hn : n < N) :
    ((cs.flatMap fun c => if Spec.locType c = b!"start" then [locOf lib c] else []).foldl (HttpProxy.longest path) (o, n)).2 < N := by
  induction cs generalizing o n with
  | nil => exact hn
  | cons c cs ih =>
    rw [List.flatMap_cons, List.foldl_append]
    have ih' := fun o n hn => ih (fun d hd => h d (List.mem_cons_of_mem _ hd)) (o := o) (n := n) hn
    split
    · rename_i ht
      rw [List.foldl_cons, List.foldl_nil, HttpProxy.longest]
      split
      · rename_i hp
        split
        · rename_i hl
          refine ih' _ _ (h c List.mem_cons_self ⟨ht, List.isPrefixOf_iff_prefix.mp hp, ?_⟩)
          intro he
          simp only [locOf, he, List.length_nil] at hl
          exact absurd hl (Nat.not_lt_zero _)
        · exact ih' _ _ hn
      · exact ih' _ _ hn
    · exact ih' _ _ hn

theorem longest_same (lib : Lib R I) {path : Bytes} (cs : List HttpProxy.Config) {n : Nat}
    (h : ∀ d ∈ cs, Spec.LocPrefix path d → d.match.length ≤ n) (o : Option (Location R)) :
    (cs.flatMap fun c => if Spec.locType c = b!"start" then [locOf lib c] else []).foldl (HttpProxy.longest path) (o, n) = (o, n) := by
  induction cs with
  | nil => rfl
  | cons c cs ih =>
    rw [List.flatMap_cons, List.foldl_append]
    have ih' := ih (fun d hd => h d (List.mem_cons_of_mem _ hd))
    split
    · rename_i ht
      rw [List.foldl_cons, List.foldl_nil, HttpProxy.longest]
      split
      · rename_i hp
        rw [if_neg]
        · exact ih'
        · intro hl
          have hl : n < c.match.length := hl
          have := h c List.mem_cons_self ⟨ht, List.isPrefixOf_iff_prefix.mp hp, fun he => by simp [he] at hl⟩
          omega
      · exact ih'
    · exact ih'

/-- C44: the location of a path, with the path its rules determine. -/
theorem location_picked (lib : Lib R I) {cs : List HttpProxy.Config} {path : Bytes} {c : HttpProxy.Config}
    (h : Spec.LocPicks lib cs path c) (query : Bytes) (rewrite : Bool) :
    HttpProxy.pick lib (HttpProxy.newMatcher lib cs) path query rewrite =
      some (c.upstream, HttpProxy.determinePath lib (HttpProxy.compileRules lib c.rules) path query rewrite) := by
  obtain ⟨pre, post, rfl, h⟩ := h
  rw [HttpProxy.pick, newMatcher_eq]
  rcases h with ⟨h1, h2⟩ | ⟨h1, h2, h3⟩ | ⟨h1, h2, h3, h4, h5⟩
  · simp only [List.flatMap_append, List.flatMap_cons, List.find?_append, exact_none lib h2, if_pos h1.1]
    rw [List.find?_cons_of_pos (by exact decide_eq_true h1.2.symm)]
    rfl
  · simp only [exact_none lib h1]
    obtain ⟨r, hr, hm⟩ := (reOf_iff lib).mp h2
    simp only [List.flatMap_append, List.flatMap_cons, List.find?_append, regexp_none lib h3, hr, Option.toList_some,
      List.map_cons, List.map_nil]
    rw [List.find?_cons_of_pos (by exact hm)]
    rfl
  · simp only [exact_none lib h1, regexp_none lib h2]
    have hl : (((pre ++ c :: post).flatMap fun c => if Spec.locType c = b!"start" then [locOf lib c] else []).foldl
        (HttpProxy.longest path) (none, 0)).1 = some (locOf lib c) := by
      rw [List.flatMap_append, List.foldl_append, List.flatMap_cons, List.foldl_append, if_pos h3.1]
      have hlt := longest_lt lib pre h4 none (n := 0) (List.length_pos_iff.mpr h3.2.2)
      generalize (pre.flatMap fun c => if Spec.locType c = b!"start" then [locOf lib c] else []).foldl
        (HttpProxy.longest path) (none, 0) = st at hlt ⊢
      have : [locOf lib c].foldl (HttpProxy.longest path) st = (some (locOf lib c), c.match.length) := by
        rw [List.foldl_cons, List.foldl_nil, HttpProxy.longest]
        rw [if_pos (by exact List.isPrefixOf_iff_prefix.mpr h3.2.1), if_pos (by exact hlt)]
        rfl
      rw [this, longest_same lib post h5]
    rw [hl]
    rfl

/-- C44: no location. -/
theorem location_none (lib : Lib R I) {cs : List HttpProxy.Config} {path : Bytes}
    (h : ∀ c ∈ cs, ¬ Spec.LocExact path c ∧ ¬ Spec.LocRegexp lib path c ∧ ¬ Spec.LocPrefix path c)
    (query : Bytes) (rewrite : Bool) :
    HttpProxy.pick lib (HttpProxy.newMatcher lib cs) path query rewrite = none := by
  rw [HttpProxy.pick, newMatcher_eq]
  simp only [exact_none lib fun d hd => (h d hd).1, regexp_none lib fun d hd => (h d hd).2.1]
  rw [longest_same lib cs fun d hd hp => absurd hp (h d hd).2.2]

/-- Some first element. -/
theorem exists_first {α : Type} (p : α → Prop) {l : List α} (h : ∃ a ∈ l, p a) :
    ∃ pre a post, l = pre ++ a :: post ∧ p a ∧ ∀ b ∈ pre, ¬ p b := by
  induction l with
  | nil => obtain ⟨_, h, _⟩ := h; cases h
  | cons x l ih =>
    by_cases hx : p x
    · exact ⟨[], x, l, rfl, hx, fun _ h => by cases h⟩
    · obtain ⟨a, ha, hp⟩ := h
      rcases List.mem_cons.mp ha with rfl | ha
      · exact absurd hp hx
      · obtain ⟨pre, a, post, rfl, h1, h2⟩ := ih ⟨a, ha, hp⟩
        refine ⟨x :: pre, a, post, rfl, h1, fun b hb => ?_⟩
        rcases List.mem_cons.mp hb with rfl | hb
        · exact hx
        · exact h2 b hb

/-- The first of the elements with the greatest measure. -/
theorem exists_first_max {α : Type} (p : α → Prop) (f : α → Nat) {l : List α} (h : ∃ a ∈ l, p a) :
    ∃ pre a post, l = pre ++ a :: post ∧ p a ∧ (∀ b ∈ pre, p b → f b < f a) ∧ ∀ b ∈ post, p b → f b ≤ f a := by
  induction l with
  | nil => obtain ⟨_, h, _⟩ := h; cases h
  | cons x l ih =>
    by_cases hl : ∃ a ∈ l, p a
    · obtain ⟨pre, a, post, rfl, h1, h2, h3⟩ := ih hl
      by_cases hx : p x ∧ f a ≤ f x
      · refine ⟨[], x, pre ++ a :: post, rfl, hx.1, (fun _ h => by cases h), fun b hb hpb => ?_⟩
        rcases List.mem_append.mp hb with hb | hb
        · exact Nat.le_trans (Nat.le_of_lt (h2 b hb hpb)) hx.2
        · rcases List.mem_cons.mp hb with rfl | hb
          · exact hx.2
          · exact Nat.le_trans (h3 b hb hpb) hx.2
      · refine ⟨x :: pre, a, post, rfl, h1, fun b hb hpb => ?_, h3⟩
        rcases List.mem_cons.mp hb with rfl | hb
        · exact Nat.lt_of_not_le fun hle => hx ⟨hpb, hle⟩
        · exact h2 b hb hpb
    · obtain ⟨a, ha, hp⟩ := h
      rcases List.mem_cons.mp ha with rfl | ha
      · exact ⟨[], a, l, rfl, hp, (fun _ h => by cases h), fun b hb hpb => absurd ⟨b, hb, hpb⟩ hl⟩
      · exact absurd ⟨a, ha, hp⟩ hl

/-- C44: there is always a location by this rule, or none matches. -/
theorem location_total (lib : Lib R I) (cs : List HttpProxy.Config) (path : Bytes) :
    (∃ c, Spec.LocPicks lib cs path c) ∨
    ∀ c ∈ cs, ¬ Spec.LocExact path c ∧ ¬ Spec.LocRegexp lib path c ∧ ¬ Spec.LocPrefix path c := by
  by_cases h1 : ∃ c ∈ cs, Spec.LocExact path c
  · obtain ⟨pre, c, post, e, h, h'⟩ := exists_first _ h1
    exact .inl ⟨c, pre, post, e, .inl ⟨h, h'⟩⟩
  · have h1' : ∀ d ∈ cs, ¬ Spec.LocExact path d := fun d hd h => h1 ⟨d, hd, h⟩
    by_cases h2 : ∃ c ∈ cs, Spec.LocRegexp lib path c
    · obtain ⟨pre, c, post, e, h, h'⟩ := exists_first _ h2
      exact .inl ⟨c, pre, post, e, .inr (.inl ⟨h1', h, h'⟩)⟩
    · have h2' : ∀ d ∈ cs, ¬ Spec.LocRegexp lib path d := fun d hd h => h2 ⟨d, hd, h⟩
      by_cases h3 : ∃ c ∈ cs, Spec.LocPrefix path c
      · obtain ⟨pre, c, post, e, h, h4, h5⟩ := exists_first_max (Spec.LocPrefix path) (·.match.length) h3
        exact .inl ⟨c, pre, post, e, .inr (.inr ⟨h1', h2', h, h4, h5⟩)⟩
      · exact .inr fun c hc => ⟨h1' c hc, h2' c hc, fun h => h3 ⟨c, hc, h⟩⟩

/-- C44: the service a path belongs to, which does not depend on the query. -/
theorem service_of_path (lib : Lib R I) {cs : List HttpProxy.Config} {path : Bytes} {c : HttpProxy.Config}
    (h : Spec.LocPicks lib cs path c) (query : Bytes) :
    HttpProxy.uriToServiceName lib (HttpProxy.newMatcher lib cs) path query = c.upstream := by
  rw [HttpProxy.uriToServiceName, location_picked lib h]

/-- C44, exhibited: the empty prefix, which matches every path, is never picked. -/
theorem empty_prefix_counterexample (lib : Lib R I) (path query : Bytes) (rewrite : Bool) :
    HttpProxy.pick lib (HttpProxy.newMatcher lib [{ upstream := b!"all", «match» := [] }]) path query rewrite = none := by
  apply location_none
  intro c hc
  rw [List.mem_singleton] at hc
  subst hc
  refine ⟨fun h => ?_, fun ⟨r, h, _⟩ => ?_, fun h => h.2.2 rfl⟩
  · exact absurd h.1 (by show Spec.locType { upstream := b!"all", «match» := [] } ≠ b!"exact"; decide)
  · rcases h with h | h
    · exact absurd h.1 (by show Spec.locType { upstream := b!"all", «match» := [] } ≠ b!"regexp"; decide)
    · exact absurd h.1 (by show Spec.locType { upstream := b!"all", «match» := [] } ≠ b!"iregexp"; decide)

/-! ## Specification of the rules -/

/-- The fields of a line: what stands between the stretches of white space. -/
def Spec.fields (s : Bytes) : List Bytes :=
  if h : s.dropWhile (fun c => !HttpProxy.isWs c) = [] then [s.takeWhile fun c => !HttpProxy.isWs c]
  else (s.takeWhile fun c => !HttpProxy.isWs c) ::
    Spec.fields ((s.dropWhile fun c => !HttpProxy.isWs c).dropWhile HttpProxy.isWs)
termination_by s.length
decreasing_by
  have h1 : (s.dropWhile fun c => !HttpProxy.isWs c).length ≤ s.length := (List.dropWhile_sublist _).length_le
  cases hd : s.dropWhile fun c => !HttpProxy.isWs c with
  | nil => exact absurd hd h
  | cons x r =>
    have hx : HttpProxy.isWs x = true := by
      have := List.head?_dropWhile_not (p := fun c => !HttpProxy.isWs c) (l := s)
      rw [hd] at this
      simpa using this
    rw [List.dropWhile_cons_of_pos hx]
    have h2 : (r.dropWhile HttpProxy.isWs).length ≤ r.length := (List.dropWhile_sublist _).length_le
    rw [hd, List.length_cons] at h1
    omega

/-- The condition of a rule of this kind on the path. -/
def Spec.CondHolds (lib : Lib R I) (kind cond path : Bytes) : Prop :=
  (kind = b!"exact" ∧ cond = path) ∨ (kind = b!"start" ∧ cond <+: path) ∨
  ((kind = b!"regexp" ∨ kind = b!"regexpVar") ∧ ∃ r, lib.compile cond = some r ∧ lib.isMatch r path = true) ∨
  (kind = b!"iregexp" ∧ ∃ r, lib.compile (b!"(?i)" ++ cond) = some r ∧ lib.isMatch r path = true)

/-- The condition makes sense. -/
def Spec.CondValid (lib : Lib R I) (kind cond : Bytes) : Prop :=
  kind = b!"exact" ∨ kind = b!"start" ∨ ((kind = b!"regexp" ∨ kind = b!"regexpVar") ∧ (lib.compile cond).isSome) ∨
  (kind = b!"iregexp" ∧ (lib.compile (b!"(?i)" ++ cond)).isSome)

/-- The line is a rule (kind, condition, expression, template) that applies to the path: its condition holds, or does
not for a kind with `!`, and its expression matches; `out` is the expanded template. -/
def Spec.Applies (lib : Lib R I) (line path kind out : Bytes) : Prop :=
  ∃ neg cond expr tmpl r i,
    Spec.fields line = [(if neg then b!"!" else []) ++ kind, cond, expr, tmpl] ∧ Spec.CondValid lib kind cond ∧
    (Spec.CondHolds lib kind cond path ↔ neg = false) ∧
    lib.compile expr = some r ∧ lib.find r path = some i ∧ out = lib.expand r tmpl path i

/-! ## Splitting a rule -/

theorem fields_text {cur : Bytes} (hcur : ∀ c ∈ cur, HttpProxy.isWs c = false) : Spec.fields cur = [cur] := by
  have h1 : cur.dropWhile (fun c => !HttpProxy.isWs c) = [] := by
    have := List.dropWhile_append_of_pos (p := fun c => !HttpProxy.isWs c) (l₁ := cur) (l₂ := [])
      (fun c hc => by rw [hcur c hc]; rfl)
    simpa using this
  have h2 : cur.takeWhile (fun c => !HttpProxy.isWs c) = cur := by
    have := List.takeWhile_append_dropWhile (p := fun c => !HttpProxy.isWs c) (l := cur)
    rwa [h1, List.append_nil] at this
  rw [Spec.fields, dif_pos h1, h2]

theorem fields_ws {cur : Bytes} (hcur : ∀ c ∈ cur, HttpProxy.isWs c = false) {c : UInt8} (hc : HttpProxy.isWs c = true)
    (s : Bytes) : Spec.fields (cur ++ c :: s) = cur :: Spec.fields (s.dropWhile HttpProxy.isWs) := by
  have h1 : (cur ++ c :: s).dropWhile (fun c => !HttpProxy.isWs c) = c :: s := by
    rw [List.dropWhile_append_of_pos (fun a ha => by rw [hcur a ha]; rfl), List.dropWhile_cons_of_neg (by simp [hc])]
  have h2 : (cur ++ c :: s).takeWhile (fun c => !HttpProxy.isWs c) = cur := by
    rw [List.takeWhile_append_of_pos (fun a ha => by rw [hcur a ha]; rfl), List.takeWhile_cons_of_neg (by simp [hc]),
      List.append_nil]
  rw [Spec.fields, dif_neg (by rw [h1]; simp), h2, h1, List.dropWhile_cons_of_pos hc]

theorem splitLoop_spec (S s : Bytes) :
    (∀ p0 cur e, S = p0 ++ cur ++ s → (∀ c ∈ cur, HttpProxy.isWs c = false) → e < S.length →
      HttpProxy.splitLoop S (HttpProxy.wsRuns (p0 ++ cur).length none s) p0.length e = Spec.fields (cur ++ s)) ∧
    (∀ p0 cur w e, S = p0 ++ cur ++ w ++ s → (∀ c ∈ cur, HttpProxy.isWs c = false) → w ≠ [] →
      HttpProxy.splitLoop S (HttpProxy.wsRuns (p0 ++ cur ++ w).length (some (p0 ++ cur).length) s) p0.length e =
        cur :: Spec.fields (s.dropWhile HttpProxy.isWs)) := by
  induction s with
  | nil =>
    refine ⟨fun p0 cur e hS hcur he => ?_, fun p0 cur w e hS hcur hw => ?_⟩
    · rw [HttpProxy.wsRuns, HttpProxy.splitLoop, if_pos (Nat.ne_of_lt he), List.append_nil, fields_text hcur, hS,
        List.append_nil, List.drop_left]
    · have hwl : 0 < w.length := List.length_pos_iff.mpr hw
      rw [HttpProxy.wsRuns, HttpProxy.splitLoop, HttpProxy.splitLoop]
      simp only
      rw [if_pos (by simp only [List.length_append]; omega), if_pos (by rw [hS]; simp only [List.length_append]; simp; omega)]
      rw [hS, List.append_nil, List.drop_length, show (p0 ++ cur ++ w).take (p0 ++ cur).length = p0 ++ cur by rw [List.take_left],
        List.drop_left, List.dropWhile_nil, fields_text (fun _ h => by cases h)]
  | cons c s ih =>
    obtain ⟨ih1, ih2⟩ := ih
    refine ⟨fun p0 cur e hS hcur he => ?_, fun p0 cur w e hS hcur hw => ?_⟩
    · rw [HttpProxy.wsRuns]
      by_cases hc : HttpProxy.isWs c = true
      · rw [if_pos hc, fields_ws hcur hc]
        have := ih2 p0 cur [c] e (by rw [hS]; simp) hcur (by simp)
        rw [show (p0 ++ cur ++ [c]).length = (p0 ++ cur).length + 1 by simp [Nat.add_assoc]] at this
        exact this
      · rw [if_neg hc]
        have := ih1 p0 (cur ++ [c]) e (by rw [hS]; simp) (by
          intro d hd
          rcases List.mem_append.mp hd with hd | hd
          · exact hcur d hd
          · rw [List.mem_singleton.mp hd]; simpa using hc) he
        rw [show (p0 ++ (cur ++ [c])).length = (p0 ++ cur).length + 1 by simp [Nat.add_assoc]] at this
        rw [this]
        simp
    · have hwl : 0 < w.length := List.length_pos_iff.mpr hw
      rw [HttpProxy.wsRuns]
      by_cases hc : HttpProxy.isWs c = true
      · rw [if_pos hc, List.dropWhile_cons_of_pos hc]
        have := ih2 p0 cur (w ++ [c]) e (by rw [hS]; simp) hcur (by simp)
        rw [show (p0 ++ cur ++ (w ++ [c])).length = (p0 ++ cur ++ w).length + 1 by simp [Nat.add_assoc]] at this
        exact this
      · rw [if_neg hc, List.dropWhile_cons_of_neg hc, HttpProxy.splitLoop]
        simp only
        rw [if_pos (by simp only [List.length_append]; omega)]
        have := ih1 (p0 ++ cur ++ w) [c] (p0 ++ cur).length (by rw [hS]; simp)
          (by intro d hd; rw [List.mem_singleton.mp hd]; simpa using hc) (by rw [hS]; simp only [List.length_append]; omega)
        rw [show (p0 ++ cur ++ w ++ [c]).length = (p0 ++ cur ++ w).length + 1 by simp [Nat.add_assoc]] at this
        rw [this, hS]
        congr 1
        rw [List.append_assoc (p0 ++ cur), List.take_left, List.drop_left]

/-- C55: a rule is split at its white space. -/
theorem rule_fields (s : Bytes) (h : s ≠ []) : HttpProxy.patternSplit s = Spec.fields s := by
  rw [HttpProxy.patternSplit]
  exact (splitLoop_spec s s).1 [] [] 0 rfl (fun _ h => by cases h) (List.length_pos_iff.mpr h)

theorem fields_four {s : Bytes} {a b c d : Bytes} (h : Spec.fields s = [a, b, c, d]) :
    HttpProxy.patternSplit s = [a, b, c, d] := by
  rw [rule_fields s, h]
  rintro rfl
  rw [fields_text (fun _ h => by cases h)] at h
  cases h

/-! ## Rules -/

/-- What a compiled condition stands for. -/
theorem newCond_spec (lib : Lib R I) (kind cond path : Bytes) :
    (Spec.CondValid lib kind cond → ∃ c, HttpProxy.newCond lib kind cond = some c ∧
      (c.holds lib path = true ↔ Spec.CondHolds lib kind cond path) ∧ (HttpProxy.isRegexpVar c = true ↔ kind = b!"regexpVar")) ∧
    (¬ Spec.CondValid lib kind cond → HttpProxy.newCond lib kind cond = none) := by
  unfold Spec.CondValid Spec.CondHolds
  rw [HttpProxy.newCond]
  by_cases h1 : kind = b!"regexp"
  · subst h1
    rw [if_pos rfl]
    cases hc : lib.compile cond with
    | none => simp
    | some r =>
      refine ⟨fun _ => ⟨.regexp r, rfl, ?_, ?_⟩, fun h => absurd ?_ h⟩ <;> simp [Cond.holds, HttpProxy.isRegexpVar]
  rw [if_neg h1]
  by_cases h2 : kind = b!"iregexp"
  · subst h2
    rw [if_pos rfl]
    cases hc : lib.compile (b!"(?i)" ++ cond) with
    | none => simp
    | some r =>
      refine ⟨fun _ => ⟨.iregexp r, rfl, ?_, ?_⟩, fun h => absurd ?_ h⟩ <;> simp [Cond.holds, HttpProxy.isRegexpVar]
  rw [if_neg h2]
  by_cases h3 : kind = b!"start"
  · subst h3
    rw [if_pos rfl]
    refine ⟨fun _ => ⟨.start cond, rfl, ?_, ?_⟩, fun h => absurd ?_ h⟩ <;>
      simp [Cond.holds, HttpProxy.isRegexpVar, hasPrefix]
  rw [if_neg h3]
  by_cases h4 : kind = b!"exact"
  · subst h4
    rw [if_pos rfl]
    refine ⟨fun _ => ⟨.exact cond, rfl, ?_, ?_⟩, fun h => absurd ?_ h⟩ <;> simp [Cond.holds, HttpProxy.isRegexpVar]
  rw [if_neg h4]
  by_cases h5 : kind = b!"regexpVar"
  · subst h5
    rw [if_pos rfl]
    cases hc : lib.compile cond with
    | none => simp
    | some r =>
      refine ⟨fun _ => ⟨.regexpVar r, rfl, ?_, ?_⟩, fun h => absurd ?_ h⟩ <;> simp [Cond.holds, HttpProxy.isRegexpVar]
  rw [if_neg h5]
  simp [h1, h2, h3, h4, h5]

theorem valid_no_bang {lib : Lib R I} {kind cond : Bytes} (h : Spec.CondValid lib kind cond) :
    hasPrefix kind b!"!" = false := by
  rcases h with h | h | ⟨h | h, _⟩ | ⟨h, _⟩ <;> subst h <;> decide

/-- A rule that applies is compiled and rewrites. -/
theorem applies_rewrite {lib : Lib R I} {line path kind out : Bytes} (h : Spec.Applies lib line path kind out)
    (query : Bytes) :
    ∃ r, HttpProxy.newRewriteRule lib line = some r ∧ r.rewrite lib path query =
      (if kind = b!"regexpVar" ∧ query ≠ [] then HttpProxy.substVars (lib.query query) out else out, true) := by
  obtain ⟨neg, cond, expr, tmpl, r, i, hf, hv, hh, hc, hi, rfl⟩ := h
  obtain ⟨c, c1, c2, c3⟩ := (newCond_spec lib kind cond path).1 hv
  refine ⟨{ neg, cond := c, pattern := r, replace := tmpl }, ?_, ?_⟩
  · rw [HttpProxy.newRewriteRule, fields_four hf]
    cases neg with
    | false =>
      simp only [Bool.false_eq_true, if_false, List.nil_append, valid_no_bang hv, c1, hc]
    | true =>
      have : hasPrefix (b!"!" ++ kind) b!"!" = true := List.isPrefixOf_iff_prefix.mpr (List.prefix_append _ _)
      simp only [if_true, this]
      rw [show (b!"!" ++ kind).drop 1 = kind from rfl, c1]
      simp only [hc]
  · have hvar : ∀ u, HttpProxy.rewriteVar lib c u query =
        if kind = b!"regexpVar" ∧ query ≠ [] then HttpProxy.substVars (lib.query query) u else u := by
      intro u
      cases c with
      | regexpVar r =>
        have hk := c3.mp rfl
        rw [HttpProxy.rewriteVar]
        by_cases hq : query = []
        · simp [hq]
        · rw [if_neg hq, if_pos ⟨hk, hq⟩]
      | _ =>
        show u = _
        rw [if_neg]
        rintro ⟨hk, _⟩
        exact absurd (c3.mpr hk) (by simp [HttpProxy.isRegexpVar])
    rw [Rule.rewrite]
    have hm : (if neg = true then !(c.holds lib path) else c.holds lib path) = true := by
      cases neg with
      | false => simpa [c2] using hh
      | true =>
        have : ¬ Spec.CondHolds lib kind cond path := fun h => by simp at hh; exact hh h
        rw [if_pos rfl]
        cases hb : c.holds lib path with
        | true => exact absurd (c2.mp hb) this
        | false => rfl
    simp only [hm, if_true, hi, hvar]

/-- A rule that rewrites applies. -/
theorem rewrite_applies {lib : Lib R I} {line path query : Bytes} {r : Rule R}
    (h : HttpProxy.newRewriteRule lib line = some r) (hr : (r.rewrite lib path query).2 = true) :
    ∃ kind out, Spec.Applies lib line path kind out := by
  rw [HttpProxy.newRewriteRule] at h
  split at h
  · rename_i t c p tmpl hs
    have hne : line ≠ [] := by rintro rfl; cases hs
    rw [rule_fields line hne] at hs
    have key : ∃ neg kind, t = (if neg then b!"!" else []) ++ kind ∧ hasPrefix t b!"!" = neg ∧
        (if hasPrefix t b!"!" = true then t.drop 1 else t) = kind := by
      cases hb : hasPrefix t b!"!" with
      | false => exact ⟨false, t, rfl, rfl, rfl⟩
      | true =>
        obtain ⟨k, rfl⟩ := List.isPrefixOf_iff_prefix.mp hb
        exact ⟨true, k, rfl, rfl, rfl⟩
    obtain ⟨neg, kind, ht, hn, hk⟩ := key
    simp only [hk] at h
    cases hc : HttpProxy.newCond lib kind c with
    | none => rw [hc] at h; cases h
    | some cond =>
      rw [hc] at h
      simp only at h
      cases hp : lib.compile p with
      | none => rw [hp] at h; cases h
      | some pat =>
        rw [hp] at h
        simp only [hn, Option.some.injEq] at h
        subst h
        have hv : Spec.CondValid lib kind c := Classical.byContradiction fun hv => by
          rw [(newCond_spec lib kind c path).2 hv] at hc; cases hc
        obtain ⟨c', c1, c2, c3⟩ := (newCond_spec lib kind c path).1 hv
        rw [hc] at c1
        cases c1
        rw [Rule.rewrite] at hr
        simp only at hr
        by_cases hm : (if neg = true then !(cond.holds lib path) else cond.holds lib path) = true
        · rw [if_pos hm] at hr
          cases hi : lib.find pat path with
          | none => rw [hi] at hr; cases hr
          | some i =>
            refine ⟨kind, _, neg, c, p, tmpl, pat, i, by rw [hs, ht], hv, ?_, hp, hi, rfl⟩
            rw [← c2]
            cases neg <;> simp at hm ⊢ <;> exact hm
        · rw [if_neg hm] at hr; cases hr
  · cases h

theorem compileRules_cons (lib : Lib R I) (line : Bytes) (rules : List Bytes) :
    HttpProxy.compileRules lib (line :: rules) = (HttpProxy.newRewriteRule lib line).toList ++ HttpProxy.compileRules lib rules := by
  rw [HttpProxy.compileRules, List.filterMap_cons]
  by_cases h : line = []
  · subst h
    have : HttpProxy.newRewriteRule lib [] = none := rfl
    rw [this]
    rfl
  · rw [if_neg h]
    cases HttpProxy.newRewriteRule lib line <;> rfl

/-- C55: the path is rewritten by the first rule, in the order of the configuration, that applies to it; lines that
are no rules are ignored. -/
theorem path_rewritten (lib : Lib R I) {pre post : List Bytes} {line path kind out : Bytes}
    (hpre : ∀ l ∈ pre, ∀ k o, ¬ Spec.Applies lib l path k o) (h : Spec.Applies lib line path kind out) (query : Bytes) :
    HttpProxy.determinePath lib (HttpProxy.compileRules lib (pre ++ line :: post)) path query true =
      if kind = b!"regexpVar" ∧ query ≠ [] then HttpProxy.substVars (lib.query query) out else out := by
  rw [HttpProxy.determinePath]
  simp only [Bool.not_true, Bool.false_eq_true, if_false]
  induction pre with
  | nil =>
    obtain ⟨r, h1, h2⟩ := applies_rewrite h query
    rw [List.nil_append, compileRules_cons, h1, Option.toList_some, List.singleton_append, HttpProxy.determinePath.loop, h2]
    rfl
  | cons l pre ih =>
    rw [List.cons_append, compileRules_cons]
    cases hl : HttpProxy.newRewriteRule lib l with
    | none => exact ih fun m hm => hpre m (List.mem_cons_of_mem _ hm)
    | some r =>
      rw [Option.toList_some, List.singleton_append, HttpProxy.determinePath.loop, if_neg]
      · exact ih fun m hm => hpre m (List.mem_cons_of_mem _ hm)
      · intro hr
        obtain ⟨k, o, ho⟩ := rewrite_applies hl hr
        exact hpre l List.mem_cons_self k o ho

/-- C55: a path no rule applies to is left alone, and so is any path if rewriting is not asked for. -/
theorem path_kept (lib : Lib R I) {rules : List Bytes} {path query : Bytes} {rewrite : Bool}
    (h : rewrite = true → ∀ l ∈ rules, ∀ k o, ¬ Spec.Applies lib l path k o) :
    HttpProxy.determinePath lib (HttpProxy.compileRules lib rules) path query rewrite = path := by
  rw [HttpProxy.determinePath]
  cases rewrite with
  | false => rfl
  | true =>
    simp only [Bool.not_true, Bool.false_eq_true, if_false]
    replace h := h rfl
    induction rules with
    | nil => rfl
    | cons l rules ih =>
      rw [compileRules_cons]
      cases hl : HttpProxy.newRewriteRule lib l with
      | none => exact ih fun m hm => h m (List.mem_cons_of_mem _ hm)
      | some r =>
        rw [Option.toList_some, List.singleton_append, HttpProxy.determinePath.loop, if_neg]
        · exact ih fun m hm => h m (List.mem_cons_of_mem _ hm)
        · intro hr
          obtain ⟨k, o, ho⟩ := rewrite_applies hl hr
          exact h l List.mem_cons_self k o ho

/-! ## Variables -/

/-- A path with variables. -/
inductive Spec.Piece
  | text (s : Bytes)
  | var (k : Bytes)

/-- How it is written. -/
def Spec.Piece.show : Spec.Piece → Bytes
  | .text s => s
  | .var k => b!"{" ++ k ++ b!"}"

/-- What it stands for. -/
def Spec.Piece.fill (q : Bytes → Bytes) : Spec.Piece → Bytes
  | .text s => s
  | .var k => q k

/-- The bytes names are made of. -/
def Spec.nameBytes : Bytes := b!"0123456789abcdefghijklmnopqrstuvwxyzABCDEFGHIJKLMNOPQRSTUVWXYZ_-"

/-- Text without braces that could be mistaken, and proper names. -/
def Spec.Piece.Ok : Spec.Piece → Prop
  | .text s => (123 : UInt8) ∉ s
  | .var k => k ≠ [] ∧ ∀ c ∈ k, c ∈ Spec.nameBytes

theorem nameByte_var {c : UInt8} (h : c ∈ Spec.nameBytes) : HttpProxy.isVarByte c = true :=
  (by decide : ∀ c ∈ Spec.nameBytes, HttpProxy.isVarByte c = true) c h

theorem isVarByte_brace : HttpProxy.isVarByte 123 = false ∧ HttpProxy.isVarByte 125 = false := by decide

theorem findVars_skip (s r : Bytes) : HttpProxy.findVars s.length (s ++ r) = HttpProxy.findVars 0 r := by
  induction s with
  | nil => rfl
  | cons c s ih => rw [List.length_cons, List.cons_append, HttpProxy.findVars, ih]

theorem findVars_text {s : Bytes} (h : (123 : UInt8) ∉ s) (r : Bytes) :
    HttpProxy.findVars 0 (s ++ r) = HttpProxy.findVars 0 r := by
  induction s with
  | nil => rfl
  | cons c s ih =>
    rw [List.cons_append, HttpProxy.findVars, if_neg (fun e => h (by rw [e]; exact List.mem_cons_self))]
    exact ih fun hm => h (List.mem_cons_of_mem _ hm)

theorem findVars_var {k : Bytes} (hne : k ≠ []) (hk : ∀ c ∈ k, HttpProxy.isVarByte c = true) (r : Bytes) :
    HttpProxy.findVars 0 (b!"{" ++ k ++ b!"}" ++ r) = k :: HttpProxy.findVars 0 r := by
  have h1 : (k ++ 125 :: r).takeWhile HttpProxy.isVarByte = k := by
    rw [List.takeWhile_append_of_pos hk, List.takeWhile_cons_of_neg (by decide), List.append_nil]
  have h2 : (k ++ 125 :: r).dropWhile HttpProxy.isVarByte = 125 :: r := by
    rw [List.dropWhile_append_of_pos hk, List.dropWhile_cons_of_neg (by decide)]
  have h3 : HttpProxy.varAt (k ++ 125 :: r) = some k := by
    rw [HttpProxy.varAt, h1, h2, if_pos ⟨hne, rfl⟩]
  have he : b!"{" ++ k ++ b!"}" ++ r = 123 :: (k ++ 125 :: r) := by simp
  rw [he, HttpProxy.findVars, if_pos rfl, h3]
  have := findVars_skip (k ++ [125]) r
  simp only [List.length_append, List.length_cons, List.length_nil, List.append_assoc, List.singleton_append] at this
  simp only
  rw [this]

theorem replaceAll_skip (old new s r : Bytes) :
    HttpProxy.replaceAll old new s.length (s ++ r) = HttpProxy.replaceAll old new 0 r := by
  induction s with
  | nil => rfl
  | cons c s ih => rw [List.length_cons, List.cons_append, HttpProxy.replaceAll, ih]

theorem replaceAll_text {k v s : Bytes} (h : (123 : UInt8) ∉ s) (r : Bytes) :
    HttpProxy.replaceAll (b!"{" ++ k ++ b!"}") v 0 (s ++ r) = s ++ HttpProxy.replaceAll (b!"{" ++ k ++ b!"}") v 0 r := by
  induction s with
  | nil => rfl
  | cons c s ih =>
    show HttpProxy.replaceAll _ v 0 (c :: (s ++ r)) = c :: (s ++ _)
    rw [HttpProxy.replaceAll, if_neg]
    · rw [ih fun hm => h (List.mem_cons_of_mem _ hm)]
    · intro hp
      obtain ⟨t, ht⟩ := List.isPrefixOf_iff_prefix.mp hp
      simp only [List.cons_append, List.cons.injEq] at ht
      exact h (by rw [← ht.1]; exact List.mem_cons_self)

theorem replaceAll_same (k v r : Bytes) :
    HttpProxy.replaceAll (b!"{" ++ k ++ b!"}") v 0 (b!"{" ++ k ++ b!"}" ++ r) =
      v ++ HttpProxy.replaceAll (b!"{" ++ k ++ b!"}") v 0 r := by
  have hp : (b!"{" ++ k ++ b!"}").isPrefixOf (b!"{" ++ k ++ b!"}" ++ r) = true :=
    List.isPrefixOf_iff_prefix.mpr (List.prefix_append _ _)
  have he : b!"{" ++ k ++ b!"}" ++ r = 123 :: ((k ++ b!"}") ++ r) := by simp
  rw [he] at hp ⊢
  rw [HttpProxy.replaceAll, if_pos hp, show (b!"{" ++ k ++ b!"}").length - 1 = (k ++ b!"}").length by simp [Nat.add_comm],
    replaceAll_skip]

theorem replaceAll_other {k k' : Bytes} (hne : k ≠ k') (hk : ∀ c ∈ k, HttpProxy.isVarByte c = true)
    (hk' : ∀ c ∈ k', HttpProxy.isVarByte c = true) (v r : Bytes) :
    HttpProxy.replaceAll (b!"{" ++ k ++ b!"}") v 0 (b!"{" ++ k' ++ b!"}" ++ r) =
      b!"{" ++ k' ++ b!"}" ++ HttpProxy.replaceAll (b!"{" ++ k ++ b!"}") v 0 r := by
  have he : b!"{" ++ k' ++ b!"}" ++ r = 123 :: ((k' ++ b!"}") ++ r) := by simp
  have hno : ∀ {k : Bytes}, (∀ c ∈ k, HttpProxy.isVarByte c = true) → (123 : UInt8) ∉ k ∧ (125 : UInt8) ∉ k := by
    intro k hk
    exact ⟨fun h => by simpa [isVarByte_brace.1] using hk _ h, fun h => by simpa [isVarByte_brace.2] using hk _ h⟩
  rw [he, HttpProxy.replaceAll, if_neg]
  · rw [replaceAll_text]
    · simp
    · simp only [List.mem_append, List.mem_singleton, not_or]
      exact ⟨(hno hk').1, by decide⟩
  · intro hp
    obtain ⟨t, ht⟩ := List.isPrefixOf_iff_prefix.mp hp
    have ht' : k ++ 125 :: t = k' ++ 125 :: r := by simpa using ht
    exact hne (append_sep_inj ht' (hno hk).2 (hno hk').2).1

/-- Replacing one variable. -/
def replaceVar (q : Bytes → Bytes) (k : Bytes) : Spec.Piece → Spec.Piece
  | .text s => .text s
  | .var k' => if k = k' then .text (q k) else .var k'

theorem replaceAll_pieces {q : Bytes → Bytes} {k : Bytes} (hk : ∀ c ∈ k, HttpProxy.isVarByte c = true)
    (ps : List Spec.Piece) (hps : ∀ p ∈ ps, p.Ok) :
    HttpProxy.replaceAll (b!"{" ++ k ++ b!"}") (q k) 0 (ps.flatMap Spec.Piece.show) =
      (ps.map (replaceVar q k)).flatMap Spec.Piece.show := by
  induction ps with
  | nil => rfl
  | cons p ps ih =>
    have ih := ih fun p hp => hps p (List.mem_cons_of_mem _ hp)
    have hp := hps p List.mem_cons_self
    rw [List.flatMap_cons, List.map_cons, List.flatMap_cons, ← ih]
    cases p with
    | text s => exact replaceAll_text hp _
    | var k' =>
      by_cases he : k = k'
      · subst he
        rw [replaceVar, if_pos rfl]
        exact replaceAll_same k (q k) _
      · rw [replaceVar, if_neg he]
        exact replaceAll_other he hk (fun c hc => nameByte_var (hp.2 c hc)) _ _

theorem replaceVar_ok {q : Bytes → Bytes} (hq : ∀ k, (123 : UInt8) ∉ q k) (k : Bytes) {p : Spec.Piece} (h : p.Ok) :
    (replaceVar q k p).Ok := by
  cases p with
  | text s => exact h
  | var k' =>
    rw [replaceVar]
    split
    · exact hq k
    · exact h

theorem findVars_pieces (ps : List Spec.Piece) (hps : ∀ p ∈ ps, p.Ok) :
    HttpProxy.findVars 0 (ps.flatMap Spec.Piece.show) = ps.filterMap fun | .var k => some k | .text _ => none := by
  induction ps with
  | nil => rfl
  | cons p ps ih =>
    have ih := ih fun p hp => hps p (List.mem_cons_of_mem _ hp)
    have hp := hps p List.mem_cons_self
    rw [List.flatMap_cons, List.filterMap_cons]
    cases p with
    | text s => simp only; rw [← ih]; exact findVars_text hp _
    | var k => simp only; rw [← ih]; exact findVars_var hp.1 (fun c hc => nameByte_var (hp.2 c hc)) _

theorem foldl_replace {q : Bytes → Bytes} (hq : ∀ k, (123 : UInt8) ∉ q k) (ks : List Bytes)
    (hks : ∀ k ∈ ks, ∀ c ∈ k, HttpProxy.isVarByte c = true) (ps : List Spec.Piece) (hps : ∀ p ∈ ps, p.Ok) :
    ks.foldl (fun uri k => HttpProxy.replaceAll (b!"{" ++ k ++ b!"}") (q k) 0 uri) (ps.flatMap Spec.Piece.show) =
      (ps.map fun p => ks.foldl (fun p k => replaceVar q k p) p).flatMap Spec.Piece.show := by
  induction ks generalizing ps with
  | nil => simp
  | cons k ks ih =>
    rw [List.foldl_cons, replaceAll_pieces (hks k List.mem_cons_self) ps hps,
      ih (fun k hk => hks k (List.mem_cons_of_mem _ hk))]
    · rw [List.map_map]; rfl
    · intro p hp
      obtain ⟨p', hp', rfl⟩ := List.mem_map.mp hp
      exact replaceVar_ok hq k (hps p' hp')

/-- C55: every variable of the rewritten path is replaced by its value in the query, and nothing else is changed, when
neither the text of the path nor the values have opening braces. -/
theorem variables_filled {q : Bytes → Bytes} (hq : ∀ k, (123 : UInt8) ∉ q k) (ps : List Spec.Piece)
    (hps : ∀ p ∈ ps, p.Ok) :
    HttpProxy.substVars q (ps.flatMap Spec.Piece.show) = ps.flatMap (Spec.Piece.fill q) := by
  have hmem : ∀ k, Spec.Piece.var k ∈ ps ↔ k ∈ ps.filterMap fun | .var k => some k | .text _ => none := by
    intro k
    rw [List.mem_filterMap]
    constructor
    · intro h; exact ⟨.var k, h, rfl⟩
    · rintro ⟨p, hp, he⟩
      cases p with
      | text s => cases he
      | var k' => cases he; exact hp
  rw [HttpProxy.substVars, findVars_pieces ps hps, foldl_replace hq _ (fun k hk c hc => nameByte_var ((hps _ ((hmem k).mpr hk)).2 c hc)) ps hps]
  generalize hks : (ps.filterMap fun | .var k => some k | .text _ => none) = ks at hmem
  have htext : ∀ (ks : List Bytes) s, ks.foldl (fun p k => replaceVar q k p) (Spec.Piece.text s) = .text s := by
    intro ks s
    induction ks with
    | nil => rfl
    | cons k ks ih => rw [List.foldl_cons]; exact ih
  have hvar : ∀ (ks : List Bytes) k, k ∈ ks → ks.foldl (fun p k => replaceVar q k p) (Spec.Piece.var k) = .text (q k) := by
    intro ks k
    induction ks with
    | nil => intro h; cases h
    | cons k' ks ih =>
      intro h
      rw [List.foldl_cons, replaceVar]
      split
      · rename_i e; subst e; exact htext ks _
      · rename_i e
        exact ih ((List.mem_cons.mp h).resolve_left (Ne.symm e))
  rw [List.flatMap_map]
  have : ∀ ps' : List Spec.Piece, (∀ p ∈ ps', p ∈ ps) →
      (ps'.flatMap fun p => (ks.foldl (fun p k => replaceVar q k p) p).show) = ps'.flatMap (Spec.Piece.fill q) := by
    intro ps' h
    induction ps' with
    | nil => rfl
    | cons p ps' ih =>
      rw [List.flatMap_cons, List.flatMap_cons, ih fun p hp => h p (List.mem_cons_of_mem _ hp)]
      congr 1
      cases p with
      | text s => rw [htext]; rfl
      | var k => rw [hvar ks k ((hmem k).mp (h _ List.mem_cons_self))]; rfl
  exact this ps fun _ h => h

/-- C55, exhibited: a value that looks like a variable of the path is replaced in turn. -/
theorem variable_in_value_counterexample :
    let q : Bytes → Bytes := fun k => if k = b!"a" then b!"{b}" else b!"x"
    let ps : List Spec.Piece := [.text b!"/", .var b!"a", .text b!"/", .var b!"b"]
    HttpProxy.substVars q (ps.flatMap Spec.Piece.show) = b!"/x/x" ∧ ps.flatMap (Spec.Piece.fill q) = b!"/{b}/x" := by
  decide +kernel

/-! ## The provider -/

theorem rewriteVar_query (lib : Lib R I) {c : Cond R} (h : HttpProxy.isRegexpVar c = false) (u q : Bytes) :
    HttpProxy.rewriteVar lib c u q = u := by
  cases c <;> first | rfl | cases h

theorem determinePath_query (lib : Lib R I) {rules : List (Rule R)}
    (h : rules.any (fun r => HttpProxy.isRegexpVar r.cond) = false) (path q q' : Bytes) (b : Bool) :
    HttpProxy.determinePath lib rules path q b = HttpProxy.determinePath lib rules path q' b := by
  rw [HttpProxy.determinePath, HttpProxy.determinePath]
  cases b with
  | false => rfl
  | true =>
    simp only [Bool.not_true, Bool.false_eq_true, if_false]
    induction rules with
    | nil => rfl
    | cons r rules ih =>
      rw [List.any_cons, Bool.or_eq_false_iff] at h
      have hr : r.rewrite lib path q = r.rewrite lib path q' := by
        rw [Rule.rewrite, Rule.rewrite]
        simp only [rewriteVar_query lib h.1]
      rw [HttpProxy.determinePath.loop, HttpProxy.determinePath.loop, hr, ih h.2]

/-- C55: the path the provider sends a request to: the request's method as it is if rewriting is off, otherwise by the
rules of its location and the request's query, and no request is sent if it has no location. -/
theorem provider_path (lib : Lib R I) (cs : List HttpProxy.Config) (method queryString : Bytes) :
    HttpProxy.providerRewrite lib false (HttpProxy.newMatcher lib cs) method queryString = some method ∧
    (∀ c, Spec.LocPicks lib cs method c →
      HttpProxy.providerRewrite lib true (HttpProxy.newMatcher lib cs) method queryString =
        some (HttpProxy.determinePath lib (HttpProxy.compileRules lib c.rules) method queryString true)) ∧
    ((∀ c ∈ cs, ¬ Spec.LocExact method c ∧ ¬ Spec.LocRegexp lib method c ∧ ¬ Spec.LocPrefix method c) →
      HttpProxy.providerRewrite lib true (HttpProxy.newMatcher lib cs) method queryString = none) := by
  refine ⟨rfl, fun c hc => ?_, fun h => ?_⟩
  · rw [HttpProxy.providerRewrite, if_pos rfl]
    simp only [location_picked lib hc, Option.map_some, Option.some.injEq]
    by_cases hn : (HttpProxy.newMatcher lib cs).needQuery = true
    · rw [if_pos hn]
    · rw [if_neg hn]
      apply determinePath_query
      rw [newMatcher_eq] at hn
      simp only [List.any_eq_true, not_exists, not_and] at hn
      obtain ⟨pre, post, rfl, _⟩ := hc
      rw [List.any_eq_false]
      intro r hr hv
      exact hn c (List.mem_append_right _ List.mem_cons_self) r hr hv
  · rw [HttpProxy.providerRewrite, if_pos rfl]
    simp only [location_none lib h, Option.map_none]

/-! ## Examples -/

/-- Expressions that are prefixes; what follows the prefix replaces a `$`. -/
def prefixLib : Lib Bytes Bytes where
  compile s := if (40 : UInt8) ∈ s ∧ ¬ b!"(?i)" <+: s then none else some s
  isMatch r s := hasPrefix s r
  find r s := if hasPrefix s r then some (s.drop r.length) else none
  expand _ t _ i := t.flatMap fun c => if c = 36 then i else [c]
  query q _ := q

def exLocations : List HttpProxy.Config :=
  [{ upstream := b!"short", «match» := b!"/2", type := b!"start" },
   { upstream := b!"users", «match» := b!"/2/users", rules := [b!"bad rule", b!"!start /3  /2/\t/new/$"] },
   { upstream := b!"other", «match» := b!"/2/users" },
   { upstream := b!"one", «match» := b!"/2/users/1", type := b!"exact" },
   { upstream := b!"v3", «match» := b!"/3", type := b!"regexp" }]

example : HttpProxy.pick prefixLib (HttpProxy.newMatcher prefixLib exLocations) b!"/2/users/1" [] true =
    some (b!"one", b!"/2/users/1") := by decide +kernel
example : HttpProxy.pick prefixLib (HttpProxy.newMatcher prefixLib exLocations) b!"/2/users/22" [] true =
    some (b!"users", b!"/new/users/22") := by decide +kernel
example : HttpProxy.pick prefixLib (HttpProxy.newMatcher prefixLib exLocations) b!"/3/x" [] true =
    some (b!"v3", b!"/3/x") := by decide +kernel
example : HttpProxy.pick prefixLib (HttpProxy.newMatcher prefixLib exLocations) b!"/4" [] true = none := by decide +kernel

/-- C55, exhibited: a rule with white space at its end has a fifth field and is ignored. -/
theorem rule_trailing_space_counterexample :
    Spec.fields b!"start /2 /2/ /new/$" = [b!"start", b!"/2", b!"/2/", b!"/new/$"] ∧
    HttpProxy.newRewriteRule prefixLib b!"start /2 /2/ /new/$" ≠ none ∧
    HttpProxy.newRewriteRule prefixLib b!"start /2 /2/ /new/$ " = none := by
  refine ⟨?_, ?_, Option.isNone_iff_eq_none.mp (by decide +kernel)⟩
  · rw [← rule_fields _ (by decide)]; decide +kernel
  · intro h
    have : (HttpProxy.newRewriteRule prefixLib b!"start /2 /2/ /new/$").isSome = true := by decide +kernel
    rw [h] at this
    cases this

/-- The hypotheses of `path_rewritten` hold of a line of these. -/
example : Spec.Applies prefixLib b!"!start /3  /2/\t/new/$" b!"/2/users/22" b!"start" b!"/new/users/22" := by
  refine ⟨true, b!"/3", b!"/2/", b!"/new/$", b!"/2/", b!"users/22", ?_, .inr (.inl rfl), ?_, by decide, by decide, by decide⟩
  · rw [← rule_fields _ (by decide)]; decide +kernel
  · unfold Spec.CondHolds
    simp only [Bool.true_eq_false, iff_false]
    rintro (⟨h, _⟩ | ⟨_, h⟩ | ⟨h | h, _⟩ | ⟨h, _⟩)
    · revert h; decide
    · revert h; decide
    · revert h; decide
    · revert h; decide
    · revert h; decide

end Motan.Props
