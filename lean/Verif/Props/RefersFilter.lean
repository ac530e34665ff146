import Verif.Model.RefersFilter

/-!
# C36: the refers filter

The specification says when a configured rule matches a host, when a rule is addressed to a cluster, and when an
endpoint passes; it does not mention the parsed filter.
-/

namespace Motan.Props

open Motan.Strings Motan.Url Motan.RefersFilter

/-- The items of a rule: the comma separated pieces, trimmed, without the empty ones. -/
def Spec.items (rule : Bytes) : List Bytes := ((split b!"," rule).map trimSpace).filter (· ≠ [])

/-- A rule matches a host: an item without a slash (47) is a prefix of it, or an item with a slash is a valid network
containing the address the host denotes. -/
def Spec.ruleMatches (N : Net) (rule host : Bytes) : Prop :=
  ∃ item ∈ Spec.items rule,
    ((47 : UInt8) ∉ item ∧ item <+: host) ∨
    ((47 : UInt8) ∈ item ∧ ∃ net ip, N.parseCIDR item = some net ∧ N.parseIP host = some ip ∧ N.contains net ip = true)

/-- A rule is addressed to a cluster: it names the cluster's group and service, or none. -/
def Spec.addressed (c : Config) (cluster : URL) : Prop :=
  (c.group = [] ∨ c.group = cluster.group) ∧ (c.service = [] ∨ c.service = cluster.path)

/-- An endpoint passes: no addressed exclude rule matches its host, and some addressed include rule does or there
is none. -/
def Spec.passes (N : Net) (l : List Config) (cluster : URL) (host : Bytes) : Prop :=
  (∀ c ∈ l, Spec.addressed c cluster → c.mode = b!"exclude" → ¬ Spec.ruleMatches N c.rule host) ∧
  ((¬ ∃ c ∈ l, Spec.addressed c cluster ∧ c.mode = b!"include") ∨
    ∃ c ∈ l, Spec.addressed c cluster ∧ c.mode = b!"include" ∧ Spec.ruleMatches N c.rule host)

theorem slash_iff (s : Bytes) : Strings.contains s b!"/" = true ↔ (47 : UInt8) ∈ s := by
  rw [contains_iff]
  constructor
  · rintro ⟨a, b, rfl⟩; simp
  · intro h
    obtain ⟨a, b, rfl⟩ := List.append_of_mem h
    exact ⟨a, b, by simp⟩

theorem foldl_addItem (N : Net) (items : List Bytes) (r : Rule N) :
    (items.foldl (addItem N) r).prefixes = r.prefixes ++ items.filter (fun i => ¬ (47 : UInt8) ∈ i) ∧
    (items.foldl (addItem N) r).subnets =
      r.subnets ++ (items.filter (fun i => (47 : UInt8) ∈ i)).filterMap N.parseCIDR := by
  induction items generalizing r with
  | nil => simp
  | cons i items ih =>
    rw [List.foldl_cons]
    have h := ih (addItem N r i)
    by_cases hs : (47 : UInt8) ∈ i
    · have hc := (slash_iff i).mpr hs
      have e : addItem N r i = match N.parseCIDR i with
          | none => r | some s => { r with subnets := r.subnets ++ [s] } := by
        rw [addItem, if_pos hc]; rfl
      rw [h.1, h.2, e]
      rw [List.filter_cons, List.filter_cons, if_neg (by simpa using hs), if_pos (by simpa using hs)]
      cases hp : N.parseCIDR i <;> simp [List.filterMap_cons, hp]
    · have hc : ¬ Strings.contains i b!"/" = true := fun h => hs ((slash_iff i).mp h)
      have e : addItem N r i = { r with prefixes := r.prefixes ++ [i] } := by rw [addItem, if_neg hc]
      rw [h.1, h.2, e]
      rw [List.filter_cons, List.filter_cons, if_pos (by simpa using hs), if_neg (by simpa using hs)]
      simp

theorem parseRule_match (N : Net) (rule host : Bytes) :
    (parseRule N rule).isMatch host = true ↔ Spec.ruleMatches N rule host := by
  have h := foldl_addItem N (trimSplit rule b!",") {}
  have e : trimSplit rule b!"," = Spec.items rule := trimSplit_eq rule b!"," (by decide)
  rw [e] at h
  simp only [List.nil_append] at h
  rw [Rule.isMatch, parseRule, e, h.1, h.2]
  unfold Spec.ruleMatches
  constructor
  · intro hm
    split at hm
    · rename_i ha
      obtain ⟨i, hi, hpre⟩ := List.any_eq_true.mp ha
      obtain ⟨hi1, hi2⟩ := List.mem_filter.mp hi
      exact ⟨i, hi1, Or.inl ⟨by simpa using hi2, by simpa [hasPrefix] using hpre⟩⟩
    · split at hm
      · exact absurd hm (by simp)
      · split at hm
        · exact absurd hm (by simp)
        · rename_i ip hip
          obtain ⟨n, hn, hc⟩ := List.any_eq_true.mp hm
          obtain ⟨i, hi, hcidr⟩ := List.mem_filterMap.mp hn
          obtain ⟨hi1, hi2⟩ := List.mem_filter.mp hi
          exact ⟨i, hi1, Or.inr ⟨by simpa using hi2, n, ip, hcidr, hip, hc⟩⟩
  · rintro ⟨i, hi, (⟨hn, hpre⟩ | ⟨hsl, n, ip, hcidr, hip, hc⟩)⟩
    · rw [if_pos]
      exact List.any_eq_true.mpr ⟨i, List.mem_filter.mpr ⟨hi, by simpa using hn⟩, by simpa [hasPrefix] using hpre⟩
    · split
      · rfl
      · have hmem : n ∈ (List.filter (fun i => decide ((47 : UInt8) ∈ i)) (Spec.items rule)).filterMap N.parseCIDR :=
          List.mem_filterMap.mpr ⟨i, List.mem_filter.mpr ⟨hi, by simpa using hsl⟩, hcidr⟩
        rw [if_neg (by
          intro h0
          rw [List.length_eq_zero_iff] at h0
          rw [h0] at hmem
          exact absurd hmem (by simp))]
        simp only [hip]
        exact List.any_eq_true.mpr ⟨n, hmem, hc⟩

theorem tryRules_true {N : Net} (host : Bytes) (acc : Bool) (rs : List (Rule N)) :
    tryRules host acc rs = true ↔ (rs = [] ∧ acc = true) ∨ ∃ r ∈ rs, r.isMatch host = true := by
  induction rs generalizing acc with
  | nil => simp [tryRules]
  | cons r rs ih =>
    rw [tryRules]
    by_cases hm : r.isMatch host = true
    · simp [hm]
    · rw [if_neg hm, ih]
      simp [hm]

theorem newFilter_fold (N : Net) (l : List Config) (f : Filter N) :
    (l.foldl (fun f c =>
      if c.mode = b!"exclude" then { f with excludeRules := f.excludeRules ++ [parseRule N c.rule] }
      else { f with includeRules := f.includeRules ++ [parseRule N c.rule] }) f : Filter N) =
    { excludeRules := f.excludeRules ++ (l.filter fun c => c.mode = b!"exclude").map fun c => parseRule N c.rule,
      includeRules := f.includeRules ++ (l.filter fun c => ¬ c.mode = b!"exclude").map fun c => parseRule N c.rule } := by
  induction l generalizing f with
  | nil => simp
  | cons c l ih =>
    rw [List.foldl_cons, ih]
    by_cases h : c.mode = b!"exclude"
    · rw [List.filter_cons, List.filter_cons, if_pos h, if_pos (by simpa using h), if_neg (by simpa using h)]; simp
    · rw [List.filter_cons, List.filter_cons, if_neg h, if_neg (by simpa using h), if_pos (by simpa using h)]; simp

theorem addressed_filter (l : List Config) (cluster : URL) (c : Config) :
    c ∈ l.filter (fun c =>
      if c.group ≠ [] ∧ c.group ≠ cluster.group then false
      else if c.service ≠ [] ∧ c.service ≠ cluster.path then false
      else true) ↔ c ∈ l ∧ Spec.addressed c cluster := by
  rw [List.mem_filter]
  refine and_congr_right fun _ => ?_
  unfold Spec.addressed
  by_cases h1 : c.group = [] <;> by_cases h2 : c.group = cluster.group <;> by_cases h3 : c.service = [] <;>
    by_cases h4 : c.service = cluster.path <;> simp_all

/-- There is a filter for a cluster exactly when some configured rule is addressed to it. -/
theorem refers_filter_exists (N : Net) (l : List Config) (cluster : URL) :
    (∃ f, parseRefersFilters N l cluster = some f) ↔ ∃ c ∈ l, Spec.addressed c cluster := by
  unfold parseRefersFilters
  constructor
  · rintro ⟨f, hf⟩
    simp only at hf
    split at hf
    · exact absurd hf (by simp)
    · rename_i hne
      rw [List.length_eq_zero_iff] at hne
      obtain ⟨c, hc⟩ := List.exists_mem_of_ne_nil _ hne
      exact ⟨c, (addressed_filter l cluster c).mp hc⟩
  · rintro ⟨c, hc⟩
    have hm := (addressed_filter l cluster c).mpr hc
    simp only
    rw [if_neg (by intro h0; rw [List.length_eq_zero_iff] at h0; rw [h0] at hm; exact absurd hm (by simp))]
    exact ⟨_, rfl⟩

open Classical in
/-- An endpoint passes the filter made from a valid configuration exactly when no exclude rule addressed to the
cluster matches it and some include rule does or there is none; the endpoints that pass stay in order. -/
theorem refers_filter_exact (N : Net) (l : List Config) (hv : verify l = true) (cluster : URL) {f : Filter N}
    (hf : parseRefersFilters N l cluster = some f) {α : Type} (urlOf : α → URL) (eps : List α) :
    f.filter urlOf eps = eps.filter fun e => Spec.passes N l cluster (urlOf e).host := by
  unfold parseRefersFilters at hf
  simp only at hf
  split at hf
  · exact absurd hf (by simp)
  · have hf := Option.some.inj hf
    rw [newFilter, newFilter_fold] at hf
    simp only [List.nil_append] at hf
    have mode : ∀ c ∈ l, (¬ c.mode = b!"exclude") ↔ c.mode = b!"include" := by
      intro c hc
      have := List.all_eq_true.mp hv c hc
      simp only [decide_eq_true_eq] at this
      constructor
      · intro h; rcases this.2 with h' | h'
        · exact h'
        · exact absurd h' h
      · intro h h'; rw [h] at h'; exact absurd h' (by decide)
    have key : ∀ host, Spec.passes N l cluster host ↔
        (¬ tryRules host false f.excludeRules = true ∧
          tryRules host (f.includeRules.length = 0) f.includeRules = true) := by
      intro host
      rw [tryRules_true, tryRules_true, ← hf]
      simp only [List.mem_map, decide_eq_true_eq, List.map_eq_nil_iff, List.length_map, List.length_eq_zero_iff,
        and_self]
      refine and_congr ?_ (or_congr ?_ ?_)
      · constructor
        · rintro h (⟨-, h0⟩ | ⟨r, ⟨c, hc, rfl⟩, hm⟩)
          · exact absurd h0 (by simp)
          · obtain ⟨hc1, hc2⟩ := List.mem_filter.mp hc
            obtain ⟨hl, ha⟩ := (addressed_filter l cluster c).mp hc1
            exact h c hl ha (by simpa using hc2) ((parseRule_match N c.rule host).mp hm)
        · intro h c hl ha hex hm
          exact h (Or.inr ⟨_, ⟨c, List.mem_filter.mpr ⟨(addressed_filter l cluster c).mpr ⟨hl, ha⟩, by simpa using hex⟩,
            rfl⟩, (parseRule_match N c.rule host).mpr hm⟩)
      · rw [List.filter_eq_nil_iff]
        constructor
        · intro h c hc hne
          obtain ⟨hl, ha⟩ := (addressed_filter l cluster c).mp hc
          exact h ⟨c, hl, ha, (mode c hl).mp (by simpa using hne)⟩
        · rintro h ⟨c, hl, ha, hi⟩
          exact h c ((addressed_filter l cluster c).mpr ⟨hl, ha⟩) (by simpa using (mode c hl).mpr hi)
      · constructor
        · rintro ⟨c, hl, ha, hi, hm⟩
          exact ⟨_, ⟨c, List.mem_filter.mpr ⟨(addressed_filter l cluster c).mpr ⟨hl, ha⟩,
            by simpa using (mode c hl).mpr hi⟩, rfl⟩, (parseRule_match N c.rule host).mpr hm⟩
        · rintro ⟨r, ⟨c, hc, rfl⟩, hm⟩
          obtain ⟨hc1, hc2⟩ := List.mem_filter.mp hc
          obtain ⟨hl, ha⟩ := (addressed_filter l cluster c).mp hc1
          exact ⟨c, hl, ha, (mode c hl).mp (by simpa using hc2), (parseRule_match N c.rule host).mp hm⟩
    induction eps with
    | nil => rfl
    | cons e eps ih =>
      rw [Filter.filter, List.filter_cons, ih]
      have hk := key (urlOf e).host
      by_cases h1 : tryRules (urlOf e).host false f.excludeRules = true
      · rw [if_pos h1, if_neg (by simp [hk, h1])]
      · rw [if_neg h1]
        by_cases h2 : tryRules (urlOf e).host (f.includeRules.length = 0) f.includeRules = true
        · rw [if_pos h2, if_pos (by simp only [decide_eq_true_eq]; exact hk.mpr ⟨h1, h2⟩)]
        · rw [if_neg h2, if_neg (by simp only [decide_eq_true_eq]; exact fun h => h2 (hk.mp h).2)]

open Classical in
/-- What a cluster uses of its endpoints under a valid configuration: those that pass, or all of them if none
passes. -/
theorem refers_filter_use (N : Net) (l : List Config) (hv : verify l = true) (cluster : URL) {α : Type}
    (urlOf : α → URL) (eps : List α) :
    filterRefers (parseRefersFilters N l cluster) urlOf eps =
      if ∃ e ∈ eps, Spec.passes N l cluster (urlOf e).host then
        eps.filter fun e => Spec.passes N l cluster (urlOf e).host
      else eps := by
  cases hf : parseRefersFilters N l cluster with
  | none =>
    have hn : ¬ ∃ c ∈ l, Spec.addressed c cluster := by
      intro h
      obtain ⟨f, h'⟩ := (refers_filter_exists N l cluster).mpr h
      rw [hf] at h'; exact absurd h' (by simp)
    have hp : ∀ host, Spec.passes N l cluster host := fun host =>
      ⟨fun c hc ha => absurd ⟨c, hc, ha⟩ hn, Or.inl fun ⟨c, hc, ha, _⟩ => hn ⟨c, hc, ha⟩⟩
    show eps = _
    split
    · exact (List.filter_eq_self.mpr fun e _ => by simpa using hp _).symm
    · rfl
  | some f =>
    show (if (f.filter urlOf eps).length > 0 then f.filter urlOf eps else eps) = _
    rw [refers_filter_exact N l hv cluster hf urlOf eps]
    by_cases h : ∃ e ∈ eps, Spec.passes N l cluster (urlOf e).host
    · rw [if_pos h, if_pos]
      obtain ⟨e, he, hp⟩ := h
      exact List.length_pos_of_mem (List.mem_filter.mpr ⟨he, by simpa using hp⟩)
    · rw [if_neg h, if_neg]
      intro hl
      obtain ⟨e, he⟩ := List.exists_mem_of_length_pos hl
      obtain ⟨h1, h2⟩ := List.mem_filter.mp he
      exact h ⟨e, h1, by simpa using h2⟩

/-- Filtering never empties a list of endpoints, whatever the rules (valid or not). -/
theorem refers_filter_nonempty {N : Net} (f : Option (Filter N)) {α : Type} (urlOf : α → URL) (eps : List α)
    (h : eps ≠ []) : filterRefers f urlOf eps ≠ [] := by
  cases f with
  | none => exact h
  | some f =>
    show (if (f.filter urlOf eps).length > 0 then f.filter urlOf eps else eps) ≠ []
    split
    · rename_i hl; exact List.ne_nil_of_length_pos hl
    · exact h

/-- An empty filter list leaves every endpoint in use, and withdrawing all rules addressed to a cluster does too. -/
theorem refers_filter_withdrawn (N : Net) (l : List Config) (cluster : URL)
    (h : ∀ c ∈ l, ¬ Spec.addressed c cluster) {α : Type} (urlOf : α → URL) (eps : List α) :
    filterRefers (parseRefersFilters N l cluster) urlOf eps = eps := by
  cases hf : parseRefersFilters N l cluster with
  | none => rfl
  | some f =>
    obtain ⟨c, hc, ha⟩ := (refers_filter_exists N l cluster).mp ⟨f, hf⟩
    exact absurd ha (h c hc)

/-- A toy address family for the examples: hosts and networks are byte strings, containment is being a prefix up to
the slash. -/
def exNet : Net where
  IP := Bytes
  Subnet := Bytes
  parseIP h := if h = [] then none else some h
  parseCIDR s := if s = b!"/" then none else some (s.takeWhile (· ≠ 47))
  contains n ip := hasPrefix ip n

def exRules : List Config :=
  [{ mode := b!"include", rule := b!"10.1, 10.2." }, { mode := b!"exclude", rule := b!"10.1.9/24,/" },
   { group := b!"other", mode := b!"exclude", rule := b!"10" }]

def exHosts : List URL := [{ host := b!"10.1.2.3" }, { host := b!"10.1.9.1" }, { host := b!"10.3.0.1" }]

/-- The rules are valid, one is addressed elsewhere, and of three endpoints one is excluded, one not included and
one used. -/
example : verify exRules = true ∧
    filterRefers (parseRefersFilters exNet exRules { group := b!"g" }) id exHosts = [{ host := b!"10.1.2.3" }] ∧
    filterRefers (parseRefersFilters exNet exRules { group := b!"other" }) id exHosts = exHosts := by
  decide +kernel

end Motan.Props
