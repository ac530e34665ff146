import Verif.Model.IdcGroup

/-!
# C83: the group a cluster subscribes to
-/

namespace Motan.Props

open Motan.Strings Motan.IdcGroup

namespace Spec

/-- `g` is `group` with its first placeholder replaced by `v`. -/
def Filled (group v g : Bytes) : Prop :=
  ∃ a b, group = a ++ b!"${idc}" ++ b ∧ contains (a ++ b!"${idc") b!"${idc}" = false ∧ g = a ++ v ++ b

/-- The registry has a node for the group. -/
def OffersNode (r : Reg) (g : Bytes) : Prop := ∃ n, n ∈ r.discover g

end Spec

/-! ## The placeholder -/

theorem contains_holder_iff (s : Bytes) : contains s holder = true ↔ ∃ a b, s = a ++ holder ++ b := contains_iff s holder

theorem idc_index_first {sep s : Bytes} {i : Nat} (hs : sep ≠ []) (h : index sep s = some i) :
    index sep (s.take (i + sep.length - 1)) = none := by
  induction s generalizing i with
  | nil =>
    simp only [index] at h
    split at h
    · exact absurd ‹_› hs
    · cases h
  | cons c s ih =>
    simp only [index] at h
    by_cases hp : sep.isPrefixOf (c :: s) = true
    · rw [if_pos hp] at h
      cases h
      have hl : 0 < sep.length := List.length_pos_iff.mpr hs
      have : ∀ t : Bytes, t.length < sep.length → index sep t = none := by
        intro t
        induction t with
        | nil => intro _; simp [index, hs]
        | cons d t iht =>
          intro ht
          simp only [index]
          have hn : sep.isPrefixOf (d :: t) ≠ true := by
            intro h'
            have := (List.isPrefixOf_iff_prefix.mp h').length_le
            omega
          rw [if_neg hn, iht (by simp only [List.length_cons] at ht; omega)]
          rfl
      apply this
      simp only [List.length_take]; omega
    · rw [if_neg hp] at h
      cases hi : index sep s with
      | none => rw [hi] at h; cases h
      | some j =>
        rw [hi] at h
        simp only [Option.map_some, Option.some.injEq] at h
        subst h
        have hl : 0 < sep.length := List.length_pos_iff.mpr hs
        have he : j + 1 + sep.length - 1 = (j + sep.length - 1) + 1 := by omega
        rw [he, List.take_succ_cons]
        simp only [index]
        have hn : sep.isPrefixOf (c :: List.take (j + sep.length - 1) s) ≠ true := by
          intro h'
          apply hp
          have h1 := List.isPrefixOf_iff_prefix.mp h'
          apply List.isPrefixOf_iff_prefix.mpr
          exact h1.trans (List.prefix_cons_inj c |>.mpr (List.take_prefix _ _))
        rw [if_neg hn, ih hi]
        rfl

/-- Replacing the placeholder does what `Filled` says. -/
theorem idc_fill {group : Bytes} (h : contains group holder = true) (v : Bytes) :
    Spec.Filled group v (replaceFirst group holder v) := by
  unfold contains at h
  cases hi : index holder group with
  | none => rw [hi] at h; cases h
  | some i =>
    obtain ⟨a, b, e, hl⟩ := index_spec hi
    have hf := idc_index_first (by decide) hi
    refine ⟨a, b, e, ?_, ?_⟩
    · have : group.take (i + holder.length - 1) = a ++ b!"${idc" := by
        rw [e, ← hl, List.append_assoc]
        have : a.length + holder.length - 1 = a.length + 5 := by simp [holder]
        rw [this, List.take_length_add_append]
        simp [holder]
      rw [this] at hf
      unfold contains
      rw [show (b!"${idc}" : Bytes) = holder from rfl, hf]
      rfl
    · simp only [replaceFirst, hi]
      rw [e, ← hl]
      have h1 : (a ++ holder ++ b).take a.length = a := by rw [List.append_assoc, List.take_left]
      have h2 : (a ++ holder ++ b).drop (a.length + holder.length) = b := by rw [← List.length_append, List.drop_left]
      rw [h1, h2]

/-- There is only one way to fill a placeholder. -/
theorem filled_unique {group v g g' : Bytes} (h : Spec.Filled group v g) (h' : Spec.Filled group v g') : g = g' := by
  obtain ⟨a, b, e, hf, rfl⟩ := h
  obtain ⟨a', b', e', hf', rfl⟩ := h'
  have key : ∀ {a b a' b' : Bytes}, a ++ b!"${idc}" ++ b = a' ++ b!"${idc}" ++ b' →
      contains (a' ++ b!"${idc") b!"${idc}" = false → a'.length ≤ a.length := by
    intro a b a' b' h hf
    apply Nat.le_of_not_lt
    intro hlt
    have : contains (a' ++ b!"${idc") b!"${idc}" = true := by
      apply (contains_iff _ _).mpr
      refine ⟨a, (a' ++ b!"${idc").drop (a.length + 6), ?_⟩
      have ht : (a' ++ b!"${idc").take (a.length + 6) = a ++ b!"${idc}" := by
        have h1 : (a' ++ b!"${idc}" ++ b').take (a.length + 6) = a ++ b!"${idc}" := by
          rw [← h]
          have : a.length + 6 = (a ++ b!"${idc}").length := by simp
          rw [this, List.take_left]
        rw [← h1]
        have h2 : a' ++ b!"${idc}" ++ b' = (a' ++ b!"${idc") ++ (b!"}" ++ b') := by simp
        rw [h2, List.take_append_of_le_length (l₁ := a' ++ b!"${idc") (by simp; omega)]
      rw [← ht, List.take_append_drop]
    rw [this] at hf; cases hf
  have h1 := key (e.symm.trans e') hf'
  have h2 := key (e'.symm.trans e) hf
  have hl : a.length = a'.length := by omega
  have he := e.symm.trans e'
  simp only [List.append_assoc] at he
  obtain ⟨ha, hb⟩ := List.append_inj he hl
  subst ha
  have hb := List.append_cancel_left hb
  rw [hb]

/-- C83: a group without a placeholder is subscribed to as it is, whatever the registry says. -/
theorem idc_plain (e : Env) (r : Reg) (group : Bytes) (h : ∀ a b, group ≠ a ++ b!"${idc}" ++ b) :
    subscribeGroup e group r = group := by
  have : contains group holder = false := by
    cases hc : contains group holder with
    | false => rfl
    | true =>
      obtain ⟨a, b, e⟩ := (contains_iff _ _).mp hc
      exact absurd e (h a b)
  simp [subscribeGroup, this]

/-! ## The name of the data centre -/

theorem hasNode_iff (r : Reg) (g : Bytes) : 0 < (r.discover g).length ↔ Spec.OffersNode r g := by
  unfold Spec.OffersNode
  cases r.discover g with
  | nil => simp
  | cons a l => simp

theorem tryKnown_iff (r : Reg) (g : Bytes) (all : List Bytes) :
    tryKnown r g all = true ↔ g ∈ all ∧ Spec.OffersNode r g := by
  rw [← hasNode_iff]
  induction all with
  | nil => simp [tryKnown]
  | cons x xs ih =>
    rw [tryKnown]
    by_cases hx : x = g
    · subst hx
      by_cases hn : 0 < (r.discover x).length
      · simp [hn]
      · simp [hn, ih]
    · have hx' : g ≠ x := fun h => hx h.symm
      simp [hx, hx', ih]

/-- Whether a prepared group is taken: with a list of groups, only one of the list. -/
def Spec.Offered (r : Reg) (g : Bytes) : Prop := (∀ all, r.groups = some all → g ∈ all) ∧ Spec.OffersNode r g

theorem trySimple_cases (r : Reg) (hr : r.groups = none) (l : List Bytes) :
    (∃ g pre post, trySimple r l = some g ∧ l = pre ++ g :: post ∧ Spec.Offered r g ∧ ∀ x ∈ pre, ¬ Spec.Offered r x) ∨
    (trySimple r l = none ∧ ∀ x ∈ l, ¬ Spec.Offered r x) := by
  have ho : ∀ g, Spec.Offered r g ↔ Spec.OffersNode r g := by
    intro g; simp [Spec.Offered, hr]
  induction l with
  | nil => exact Or.inr ⟨rfl, by simp⟩
  | cons x l ih =>
    rw [trySimple]
    by_cases hx : Spec.Offered r x
    · rw [if_pos ((hasNode_iff r x).mpr ((ho x).mp hx))]
      exact Or.inl ⟨x, [], l, rfl, rfl, hx, by simp⟩
    · rw [if_neg (fun h => hx ((ho x).mpr ((hasNode_iff r x).mp h)))]
      rcases ih with ⟨g, pre, post, h1, h2, h3, h4⟩ | ⟨h1, h2⟩
      · refine Or.inl ⟨g, x :: pre, post, h1, by rw [h2]; rfl, h3, ?_⟩
        intro y hy
        rcases List.mem_cons.mp hy with rfl | hy
        · exact hx
        · exact h4 y hy
      · refine Or.inr ⟨h1, ?_⟩
        intro y hy
        rcases List.mem_cons.mp hy with rfl | hy
        · exact hx
        · exact h2 y hy

theorem tryPrepared_cases (r : Reg) {all : List Bytes} (hr : r.groups = some all) (l : List Bytes) :
    (∃ g pre post, tryPrepared r all l = some g ∧ l = pre ++ g :: post ∧ Spec.Offered r g ∧
      ∀ x ∈ pre, ¬ Spec.Offered r x) ∨
    (tryPrepared r all l = none ∧ ∀ x ∈ l, ¬ Spec.Offered r x) := by
  have ho : ∀ g, Spec.Offered r g ↔ tryKnown r g all = true := by
    intro g
    rw [tryKnown_iff]
    simp [Spec.Offered, hr]
  induction l with
  | nil => exact Or.inr ⟨rfl, by simp⟩
  | cons x l ih =>
    rw [tryPrepared]
    by_cases hx : Spec.Offered r x
    · rw [if_pos ((ho x).mp hx)]
      exact Or.inl ⟨x, [], l, rfl, rfl, hx, by simp⟩
    · rw [if_neg (fun h => hx ((ho x).mpr h))]
      rcases ih with ⟨g, pre, post, h1, h2, h3, h4⟩ | ⟨h1, h2⟩
      · refine Or.inl ⟨g, x :: pre, post, h1, by rw [h2]; rfl, h3, ?_⟩
        intro y hy
        rcases List.mem_cons.mp hy with rfl | hy
        · exact hx
        · exact h4 y hy
      · refine Or.inr ⟨h1, ?_⟩
        intro y hy
        rcases List.mem_cons.mp hy with rfl | hy
        · exact hx
        · exact h2 y hy

/-- The prepared group that is taken, if any. -/
def taken (e : Env) (group : Bytes) (r : Reg) : Option Bytes :=
  match r.groups with
  | none => trySimple r (prepared e.lower e.upper e.idc group)
  | some all => tryPrepared r all (prepared e.lower e.upper e.idc group)

theorem taken_cases (e : Env) (group : Bytes) (r : Reg) :
    (∃ g pre post, taken e group r = some g ∧ prepared e.lower e.upper e.idc group = pre ++ g :: post ∧
      Spec.Offered r g ∧ ∀ x ∈ pre, ¬ Spec.Offered r x) ∨
    (taken e group r = none ∧ ∀ x ∈ prepared e.lower e.upper e.idc group, ¬ Spec.Offered r x) := by
  cases hr : r.groups with
  | none => simp only [taken, hr]; exact trySimple_cases r hr _
  | some all => simp only [taken, hr]; exact tryPrepared_cases r hr _

theorem subscribe_taken {e : Env} {group : Bytes} {r : Reg} {g : Bytes} (hc : contains group holder = true)
    (h : taken e group r = some g) : subscribeGroup e group r = g := by
  unfold subscribeGroup
  rw [if_neg (by rw [hc]; decide)]
  unfold taken at h
  cases hr : r.groups with
  | none => rw [hr] at h; simp only at h ⊢; rw [h]; rfl
  | some all => rw [hr] at h; simp only at h ⊢; rw [h]

theorem filled_contains {group v g : Bytes} (h : Spec.Filled group v g) : contains group holder = true := by
  obtain ⟨a, b, e, _, _⟩ := h
  exact (contains_iff _ _).mpr ⟨a, b, e⟩

theorem filled_eq {group v g : Bytes} (h : Spec.Filled group v g) : replaceFirst group holder v = g :=
  filled_unique (idc_fill (filled_contains h) v) h

theorem first_of_three {P : Bytes → Prop} {o l u g : Bytes} {pre post : List Bytes}
    (h : addGroup (addGroup [o] l) u = pre ++ g :: post) (hg : P g) (hpre : ∀ x ∈ pre, ¬ P x) :
    (P o → g = o) ∧ (¬ P o → P l → g = l) ∧ (¬ P o → ¬ P l → P u → g = u) := by
  have key : ∀ (L : List Bytes), L = pre ++ g :: post → (∀ x, P x → x ∈ L → x = g ∨ x ∈ post) := by
    intro L hL x hx hm
    rw [hL] at hm
    rcases List.mem_append.mp hm with hm | hm
    · exact absurd hx (hpre x hm)
    · exact List.mem_cons.mp hm
  simp only [addGroup, List.mem_singleton] at h
  (repeat' split at h)
  all_goals (rcases pre with _ | ⟨x1, _ | ⟨x2, _ | ⟨x3, pre⟩⟩⟩)
  all_goals simp_all

/-- C83: a prepared group is the configured one with the placeholder replaced by the name of the data centre as given, in
small letters or in capitals. The first of these three for which there is a node (and which is in the registry's list of
groups, if the registry can tell) is subscribed to. -/
theorem idc_first (e : Env) (r : Reg) {group o l u : Bytes} (hidc : e.idc ≠ [])
    (ho : Spec.Filled group e.idc o) (hl : Spec.Filled group (e.lower e.idc) l)
    (hu : Spec.Filled group (e.upper e.idc) u) :
    (Spec.Offered r o → subscribeGroup e group r = o) ∧
    (¬ Spec.Offered r o → Spec.Offered r l → subscribeGroup e group r = l) ∧
    (¬ Spec.Offered r o → ¬ Spec.Offered r l → Spec.Offered r u → subscribeGroup e group r = u) := by
  have hp : prepared e.lower e.upper e.idc group = addGroup (addGroup [o] l) u := by
    simp only [prepared, if_neg hidc, filled_eq ho, filled_eq hl, filled_eq hu]
  rcases taken_cases e group r with ⟨g, pre, post, h1, h2, h3, h4⟩ | ⟨h1, h2⟩
  · rw [subscribe_taken (filled_contains ho) h1]
    rw [hp] at h2
    exact first_of_three h2 h3 h4
  · rw [hp] at h2
    have hm : ∀ x, x = o ∨ x = l ∨ x = u → x ∈ addGroup (addGroup [o] l) u := by
      intro x hx
      simp only [addGroup, List.mem_singleton]
      (repeat' split) <;> simp_all
      all_goals grind
    exact ⟨fun h => absurd h (h2 _ (hm _ (Or.inl rfl))), fun _ h => absurd h (h2 _ (hm _ (Or.inr (Or.inl rfl)))),
      fun _ _ h => absurd h (h2 _ (hm _ (Or.inr (Or.inr rfl))))⟩

/-! ## Matching groups -/

theorem gather_fst (r : Reg) (m : Bytes → Bool) (all : List Bytes) (acc : List Bytes × AMap Bytes (List Bytes)) :
    (gather r m all acc).1 = acc.1 ++ all.filter m := by
  induction all generalizing acc with
  | nil => simp [gather]
  | cons g gs ih =>
    rw [gather]
    by_cases h : m g = true
    · rw [if_pos h, ih]
      simp [h]
    · rw [if_neg h, ih]
      simp [h]

theorem idc_mem_store {m : AMap Bytes (List Bytes)} {k : Bytes} {v : List Bytes} {x : Bytes × List Bytes}
    (h : x ∈ m.store k v) : x = (k, v) ∨ x ∈ m := by
  induction m with
  | nil => simpa [AMap.store] using h
  | cons p m ih =>
    obtain ⟨a, b⟩ := p
    simp only [AMap.store] at h
    split at h
    · rcases List.mem_cons.mp h with rfl | h
      · exact Or.inl rfl
      · exact Or.inr (List.mem_cons_of_mem _ h)
    · rcases List.mem_cons.mp h with rfl | h
      · exact Or.inr (List.mem_cons_self)
      · rcases ih h with h | h
        · exact Or.inl h
        · exact Or.inr (List.mem_cons_of_mem _ h)

theorem gather_sound (r : Reg) (m : Bytes → Bool) (all : List Bytes) (acc : List Bytes × AMap Bytes (List Bytes))
    {x : Bytes × List Bytes} (h : x ∈ (gather r m all acc).2) :
    x ∈ acc.2 ∨ (x.1 ∈ all ∧ m x.1 = true ∧ Spec.OffersNode r x.1 ∧ x.2 = r.discover x.1) := by
  induction all generalizing acc with
  | nil => exact Or.inl h
  | cons g gs ih =>
    rw [gather] at h
    by_cases hm : m g = true
    · rw [if_pos hm] at h
      rcases ih _ h with h | ⟨h1, h2⟩
      · by_cases hn : 0 < (r.discover g).length
        · simp only [if_pos hn] at h
          rcases idc_mem_store h with rfl | h
          · exact Or.inr ⟨List.mem_cons_self, hm, (hasNode_iff r g).mp hn, rfl⟩
          · exact Or.inl h
        · simp only [if_neg hn] at h
          exact Or.inl h
      · exact Or.inr ⟨List.mem_cons_of_mem _ h1, h2⟩
    · rw [if_neg hm] at h
      rcases ih _ h with h | ⟨h1, h2⟩
      · exact Or.inl h
      · exact Or.inr ⟨List.mem_cons_of_mem _ h1, h2⟩

theorem gather_load (r : Reg) (m : Bytes → Bool) (all : List Bytes) (acc : List Bytes × AMap Bytes (List Bytes))
    (g : Bytes) (h : acc.2.load g = some (r.discover g) ∨ (g ∈ all ∧ m g = true ∧ Spec.OffersNode r g)) :
    (gather r m all acc).2.load g = some (r.discover g) := by
  induction all generalizing acc with
  | nil =>
    rcases h with h | ⟨h, _⟩
    · exact h
    · cases h
  | cons x gs ih =>
    rw [gather]
    by_cases hm : m x = true
    · rw [if_pos hm]
      apply ih
      rcases h with h | ⟨h1, h2, h3⟩
      · left
        simp only
        split
        · rw [AMap.load_store]
          split
          · rename_i e; rw [e]
          · exact h
        · exact h
      · rcases List.mem_cons.mp h1 with rfl | h1
        · left
          simp only [if_pos ((hasNode_iff r g).mpr h3), AMap.load_store_self]
        · exact Or.inr ⟨h1, h2, h3⟩
    · rw [if_neg hm]
      apply ih
      rcases h with h | ⟨h1, h2, h3⟩
      · exact Or.inl h
      · rcases List.mem_cons.mp h1 with rfl | h1
        · exact absurd h2 hm
        · exact Or.inr ⟨h1, h2, h3⟩

theorem mem_measured (ping : Bytes → List Bytes → Option (List Int)) (visit : List (Bytes × List Bytes)) (g : Bytes)
    (v : Int) : (g, v) ∈ measured ping visit ↔ ∃ ns, (g, ns) ∈ visit ∧ (ping g ns).bind mean = some v := by
  induction visit with
  | nil => simp [measured]
  | cons x r ih =>
    obtain ⟨g', ns'⟩ := x
    rw [measured]
    cases hp : (ping g' ns').bind mean with
    | none =>
      simp only
      rw [ih]
      constructor
      · rintro ⟨ns, h1, h2⟩; exact ⟨ns, List.mem_cons_of_mem _ h1, h2⟩
      · rintro ⟨ns, h1, h2⟩
        rcases List.mem_cons.mp h1 with h1 | h1
        · cases h1; rw [hp] at h2; cases h2
        · exact ⟨ns, h1, h2⟩
    | some w =>
      simp only [List.mem_cons]
      rw [ih]
      constructor
      · rintro (h | ⟨ns, h1, h2⟩)
        · cases h; exact ⟨ns', Or.inl rfl, hp⟩
        · exact ⟨ns, Or.inr h1, h2⟩
      · rintro ⟨ns, h1 | h1, h2⟩
        · cases h1; rw [hp] at h2; cases h2; exact Or.inl rfl
        · exact Or.inr ⟨ns, h1, h2⟩

theorem least_mem (l : List (Bytes × Int)) (acc : Int × Bytes) :
    least l acc = acc ∨ ((least l acc).2, (least l acc).1) ∈ l := by
  induction l generalizing acc with
  | nil => exact Or.inl rfl
  | cons x l ih =>
    obtain ⟨g, v⟩ := x
    rw [least]
    rcases ih (if acc.1 = 0 ∨ acc.1 > v then (v, g) else acc) with h | h
    · rw [h]
      split
      · exact Or.inr List.mem_cons_self
      · exact Or.inl rfl
    · exact Or.inr (List.mem_cons_of_mem _ h)

theorem least_le (l : List (Bytes × Int)) (acc : Int × Bytes) (hacc : acc.1 ≠ 0) (hl : ∀ x ∈ l, x.2 ≠ 0) :
    (least l acc).1 ≤ acc.1 ∧ ∀ x ∈ l, (least l acc).1 ≤ x.2 := by
  induction l generalizing acc with
  | nil => exact ⟨Int.le_refl _, by simp⟩
  | cons x l ih =>
    obtain ⟨g, v⟩ := x
    rw [least]
    have hv : v ≠ 0 := hl (g, v) List.mem_cons_self
    have hl' : ∀ x ∈ l, x.2 ≠ 0 := fun x hx => hl x (List.mem_cons_of_mem _ hx)
    by_cases h : acc.1 = 0 ∨ acc.1 > v
    · rw [if_pos h]
      obtain ⟨h1, h2⟩ := ih (v, g) hv hl'
      simp only at h1
      refine ⟨by omega, ?_⟩
      intro x hx
      rcases List.mem_cons.mp hx with rfl | hx
      · exact h1
      · exact h2 x hx
    · rw [if_neg h]
      obtain ⟨h1, h2⟩ := ih acc hacc hl'
      refine ⟨h1, ?_⟩
      intro x hx
      rcases List.mem_cons.mp hx with rfl | hx
      · simp only; omega
      · exact h2 x hx

/-- The orders of the maps are orders of what is in them. -/
structure Spec.Orders (e : Env) : Prop where
  visit : ∀ m, (e.visit m).Perm m
  order : ∀ l, (e.order l).Perm l

theorem bestGroup_mem {e : Env} (he : Spec.Orders e) {m : AMap Bytes (List Bytes)} (hm : m ≠ [])
    (hne : ∀ x ∈ m, x.1 ≠ []) :
    ∃ ns, (bestGroup e.ping e.order (e.visit m), ns) ∈ m := by
  have hlast : ∃ ns, (((e.visit m).map (·.1)).getLastD [], ns) ∈ m := by
    have hv : e.visit m ≠ [] := by
      intro h
      have := (he.visit m).length_eq
      rw [h] at this
      exact hm (List.length_eq_zero_iff.mp this.symm)
    have hmem : ((e.visit m).map (·.1)).getLastD [] ∈ (e.visit m).map (·.1) := by
      cases hq : (e.visit m).map (·.1) with
      | nil => exact absurd (List.map_eq_nil_iff.mp hq) hv
      | cons a l => rw [List.getLastD_cons]; exact List.getLastD_mem_cons ..
    obtain ⟨x, hx, he'⟩ := List.mem_map.mp hmem
    exact ⟨x.2, by rw [← he']; exact (he.visit m).mem_iff.mp hx⟩
  unfold bestGroup
  simp only
  split
  · exact hlast
  · rename_i h
    rcases least_mem (e.order (measured e.ping (e.visit m))) (0, []) with h' | h'
    · rw [h'] at h; exact absurd rfl h
    · have := (he.order _).mem_iff.mp h'
      obtain ⟨ns, h1, _⟩ := (mem_measured _ _ _ _).mp this
      exact ⟨ns, (he.visit m).mem_iff.mp h1⟩

/-- None of the prepared groups is taken (or there is none, the data centre having no name). -/
def Spec.NonePrepared (e : Env) (r : Reg) (group : Bytes) : Prop :=
  e.idc ≠ [] → ∀ v, v = e.idc ∨ v = e.lower e.idc ∨ v = e.upper e.idc → ∀ g, Spec.Filled group v g → ¬ Spec.Offered r g

theorem prepared_filled {e : Env} {group g : Bytes} (hc : contains group holder = true)
    (h : g ∈ prepared e.lower e.upper e.idc group) :
    e.idc ≠ [] ∧ ∃ v, (v = e.idc ∨ v = e.lower e.idc ∨ v = e.upper e.idc) ∧ Spec.Filled group v g := by
  unfold prepared at h
  split at h
  · cases h
  · rename_i hi
    refine ⟨hi, ?_⟩
    have key : ∀ (L : List Bytes) (a x : Bytes), x ∈ addGroup L a → x ∈ L ∨ x = a := by
      intro L a x hx
      unfold addGroup at hx
      split at hx
      · exact Or.inl hx
      · rcases List.mem_append.mp hx with hx | hx
        · exact Or.inl hx
        · exact Or.inr (List.mem_singleton.mp hx)
    rcases key _ _ _ h with h | h
    · rcases key _ _ _ h with h | h
      · exact ⟨_, Or.inl rfl, by rw [List.mem_singleton.mp h]; exact idc_fill hc _⟩
      · exact ⟨_, Or.inr (Or.inl rfl), by rw [h]; exact idc_fill hc _⟩
    · exact ⟨_, Or.inr (Or.inr rfl), by rw [h]; exact idc_fill hc _⟩

theorem taken_none {e : Env} {group : Bytes} {r : Reg} (hc : contains group holder = true)
    (h : Spec.NonePrepared e r group) : taken e group r = none := by
  rcases taken_cases e group r with ⟨g, pre, post, _, h2, h3, _⟩ | ⟨h1, _⟩
  · obtain ⟨hi, v, hv, hf⟩ := prepared_filled hc (g := g) (by rw [h2]; simp)
    exact absurd h3 (h hi v hv g hf)
  · exact h1

/-- C83: with a registry that cannot tell its groups and has no nodes for a prepared group, the group stays as it is. -/
theorem idc_unlisted (e : Env) (r : Reg) {group : Bytes} (hr : r.groups = none) (h : Spec.NonePrepared e r group) :
    subscribeGroup e group r = group := by
  unfold subscribeGroup
  split
  · rfl
  · rename_i hc
    have hc : contains group holder = true := by simpa using hc
    have := taken_none hc h
    simp only [taken, hr] at this
    simp only [hr, this]
    rfl

theorem subscribe_match {e : Env} {r : Reg} {group : Bytes} {all : List Bytes} {m : Bytes → Bool}
    (hc : contains group holder = true) (hr : r.groups = some all) (h : Spec.NonePrepared e r group)
    (hm : e.compile (b!"^" ++ replaceFirst group holder b!"(.*)" ++ b!"$") = some m) :
    subscribeGroup e group r =
      if (gather r m all ([], [])).2 ≠ [] then bestGroup e.ping e.order (e.visit (gather r m all ([], [])).2)
      else if (gather r m all ([], [])).1 = [] then group else (gather r m all ([], [])).1.getLastD [] := by
  unfold subscribeGroup
  rw [if_neg (by rw [hc]; decide)]
  have := taken_none hc h
  simp only [taken, hr] at this
  simp only [hr, this, hm]

/-- C83: if no prepared group is taken, the registry's list of groups is searched for those that match the configured one with
the placeholder standing for anything. If one of them has nodes, a group of the list that matches and has nodes is subscribed
to. -/
theorem idc_match (e : Env) (r : Reg) {group f : Bytes} {all : List Bytes} {m : Bytes → Bool} (he : Spec.Orders e)
    (hr : r.groups = some all) (h : Spec.NonePrepared e r group) (hf : Spec.Filled group b!"(.*)" f)
    (hm : e.compile (b!"^" ++ f ++ b!"$") = some m) (hne : [] ∉ all)
    (hx : ∃ g ∈ all, m g = true ∧ Spec.OffersNode r g) :
    subscribeGroup e group r ∈ all ∧ m (subscribeGroup e group r) = true ∧
    Spec.OffersNode r (subscribeGroup e group r) := by
  rw [← filled_eq hf] at hm
  rw [subscribe_match (filled_contains hf) hr h hm]
  obtain ⟨g, hg, hmg, hn⟩ := hx
  have hl := AMap.mem_of_load (gather_load r m all ([], []) g (Or.inr ⟨hg, hmg, hn⟩))
  have hnil : (gather r m all ([], [])).2 ≠ [] := List.ne_nil_of_mem hl
  rw [if_pos hnil]
  have hs : ∀ x ∈ (gather r m all ([], [])).2,
      x.1 ∈ all ∧ m x.1 = true ∧ Spec.OffersNode r x.1 ∧ x.2 = r.discover x.1 := by
    intro x hx
    rcases gather_sound r m all ([], []) hx with h | h
    · cases h
    · exact h
  obtain ⟨ns, hb⟩ := bestGroup_mem he hnil (fun x hx h => hne (h ▸ (hs x hx).1))
  have := hs _ hb
  exact ⟨this.1, this.2.1, this.2.2.1⟩

/-- C83: among the matching groups with nodes the one with the least figure is taken, if at least one could be measured and
no figure is zero. -/
theorem idc_best (e : Env) (r : Reg) {group f : Bytes} {all : List Bytes} {m : Bytes → Bool} (he : Spec.Orders e)
    (hr : r.groups = some all) (h : Spec.NonePrepared e r group) (hf : Spec.Filled group b!"(.*)" f)
    (hm : e.compile (b!"^" ++ f ++ b!"$") = some m) (hne : [] ∉ all)
    (hz : ∀ g ∈ all, (e.ping g (r.discover g)).bind mean ≠ some 0)
    {g : Bytes} {v : Int} (hg : g ∈ all) (hmg : m g = true) (hn : Spec.OffersNode r g)
    (hv : (e.ping g (r.discover g)).bind mean = some v) :
    ∃ w, (e.ping (subscribeGroup e group r) (r.discover (subscribeGroup e group r))).bind mean = some w ∧ w ≤ v := by
  rw [← filled_eq hf] at hm
  rw [subscribe_match (filled_contains hf) hr h hm]
  have hl := AMap.mem_of_load (gather_load r m all ([], []) g (Or.inr ⟨hg, hmg, hn⟩))
  have hnil : (gather r m all ([], [])).2 ≠ [] := List.ne_nil_of_mem hl
  rw [if_pos hnil]
  have hs : ∀ x ∈ (gather r m all ([], [])).2,
      x.1 ∈ all ∧ m x.1 = true ∧ Spec.OffersNode r x.1 ∧ x.2 = r.discover x.1 := by
    intro x hx
    rcases gather_sound r m all ([], []) hx with h | h
    · cases h
    · exact h
  generalize (gather r m all ([], [])).2 = M at hl hnil hs
  have hL : ∀ x ∈ e.order (measured e.ping (e.visit M)),
      x.1 ∈ all ∧ (e.ping x.1 (r.discover x.1)).bind mean = some x.2 := by
    intro x hx
    obtain ⟨ns, h1, h2⟩ := (mem_measured _ _ x.1 x.2).mp ((he.order _).mem_iff.mp hx)
    have := hs _ ((he.visit M).mem_iff.mp h1)
    simp only at this
    rw [this.2.2.2] at h2
    exact ⟨this.1, h2⟩
  have hin : (g, v) ∈ e.order (measured e.ping (e.visit M)) :=
    (he.order _).mem_iff.mpr ((mem_measured _ _ _ _).mpr ⟨_, (he.visit M).mem_iff.mpr hl, hv⟩)
  have hzero : ∀ x ∈ e.order (measured e.ping (e.visit M)), x.2 ≠ 0 := by
    intro x hx h0
    obtain ⟨h1, h2⟩ := hL x hx
    exact hz _ h1 (by rw [h2, h0])
  unfold bestGroup
  simp only
  generalize e.order (measured e.ping (e.visit M)) = L at hL hin hzero
  cases L with
  | nil => cases hin
  | cons x L =>
    obtain ⟨g0, v0⟩ := x
    rw [least, if_pos (Or.inl rfl)]
    have h0 : v0 ≠ 0 := hzero (g0, v0) List.mem_cons_self
    obtain ⟨h1, h2⟩ := least_le L (v0, g0) h0 (fun x hx => hzero x (List.mem_cons_of_mem _ hx))
    have hmem : ((least L (v0, g0)).2, (least L (v0, g0)).1) ∈ (g0, v0) :: L := by
      rcases least_mem L (v0, g0) with h | h
      · rw [h]; exact List.mem_cons_self
      · exact List.mem_cons_of_mem _ h
    obtain ⟨h3, h4⟩ := hL _ hmem
    have hb : (least L (v0, g0)).2 ≠ [] := by
      intro hb; rw [hb] at h3; exact hne h3
    rw [if_neg hb]
    refine ⟨_, h4, ?_⟩
    rcases List.mem_cons.mp hin with h | h
    · cases h; exact h1
    · exact h2 _ h

/-- C83: if matching groups exist but none has nodes, the last of them in the list is subscribed to. -/
theorem idc_fallback (e : Env) (r : Reg) {group f g : Bytes} {pre post : List Bytes} {m : Bytes → Bool}
    (hr : r.groups = some (pre ++ g :: post)) (h : Spec.NonePrepared e r group) (hf : Spec.Filled group b!"(.*)" f)
    (hm : e.compile (b!"^" ++ f ++ b!"$") = some m) (hg : m g = true) (hpost : ∀ x ∈ post, m x = false)
    (hx : ∀ x ∈ pre ++ g :: post, m x = true → ¬ Spec.OffersNode r x) :
    subscribeGroup e group r = g := by
  rw [← filled_eq hf] at hm
  rw [subscribe_match (filled_contains hf) hr h hm, gather_fst]
  have h2 : (gather r m (pre ++ g :: post) ([], [])).2 = [] := by
    apply List.eq_nil_iff_forall_not_mem.mpr
    intro x hxm
    rcases gather_sound r m _ ([], []) hxm with h | ⟨h1, h2, h3, _⟩
    · cases h
    · exact hx _ h1 h2 h3
  rw [if_neg (by simp [h2])]
  have h3 : (pre ++ g :: post).filter m = pre.filter m ++ [g] := by
    rw [List.filter_append, List.filter_cons, if_pos hg]
    have : post.filter m = [] := by
      apply List.filter_eq_nil_iff.mpr
      intro x hx; simp [hpost x hx]
    rw [this]
  simp [h3]

/-- C83: if no group of the list matches, or the configured group makes no regular expression, it stays as it is. -/
theorem idc_unmatched (e : Env) (r : Reg) {group f : Bytes} {all : List Bytes}
    (hr : r.groups = some all) (h : Spec.NonePrepared e r group) (hf : Spec.Filled group b!"(.*)" f)
    (hx : ∀ m, e.compile (b!"^" ++ f ++ b!"$") = some m → ∀ x ∈ all, m x = false) :
    subscribeGroup e group r = group := by
  rw [← filled_eq hf] at hx
  cases hm : e.compile (b!"^" ++ replaceFirst group holder b!"(.*)" ++ b!"$") with
  | none =>
    unfold subscribeGroup
    rw [if_neg (by rw [filled_contains hf]; decide)]
    have := taken_none (filled_contains hf) h
    simp only [taken, hr] at this
    simp only [hr, this, hm]
  | some m =>
    rw [subscribe_match (filled_contains hf) hr h hm, gather_fst]
    have h1 : all.filter m = [] := by
      apply List.filter_eq_nil_iff.mpr
      intro x hxm; simp [hx m hm x hxm]
    have h2 : (gather r m all ([], [])).2 = [] := by
      apply List.eq_nil_iff_forall_not_mem.mpr
      intro x hxm
      rcases gather_sound r m _ ([], []) hxm with h | ⟨h1, h2, h3, _⟩
      · cases h
      · rw [hx m hm _ h1] at h2; cases h2
    simp [h1, h2]

/-- C83: whatever the registry says, the group subscribed to is the configured one or the configured one with the placeholder
replaced by something, provided that the regular expression matches nothing else (which is so if the rest of the configured
group has no special characters). -/
theorem idc_form (e : Env) (r : Reg) (group : Bytes) (he : Spec.Orders e) (hne : ∀ all, r.groups = some all → [] ∉ all)
    (hm : ∀ f m g, Spec.Filled group b!"(.*)" f → e.compile (b!"^" ++ f ++ b!"$") = some m → m g = true →
      ∃ v, Spec.Filled group v g) :
    subscribeGroup e group r = group ∨ ∃ v, Spec.Filled group v (subscribeGroup e group r) := by
  cases hc : contains group holder with
  | false => left; simp [subscribeGroup, hc]
  | true =>
    rcases taken_cases e group r with ⟨g, pre, post, h1, h2, _, _⟩ | ⟨h1, h2⟩
    · obtain ⟨_, v, _, hf⟩ := prepared_filled hc (g := g) (by rw [h2]; simp)
      right
      rw [subscribe_taken hc h1]
      exact ⟨v, hf⟩
    · have hnp : Spec.NonePrepared e r group := by
        intro hi v hv g hf
        apply h2
        rw [prepared, if_neg hi, ← filled_eq hf]
        have hin : ∀ (L : List Bytes) (a x : Bytes), x ∈ L ∨ x = a → x ∈ addGroup L a := by
          intro L a x hx
          unfold addGroup
          split
          · rcases hx with hx | rfl
            · exact hx
            · assumption
          · rcases hx with hx | rfl <;> simp [*]
        rcases hv with rfl | rfl | rfl
        · exact hin _ _ _ (Or.inl (hin _ _ _ (Or.inl (by simp))))
        · exact hin _ _ _ (Or.inl (hin _ _ _ (Or.inr rfl)))
        · exact hin _ _ _ (Or.inr rfl)
      cases hr : r.groups with
      | none => exact Or.inl (idc_unlisted e r hr hnp)
      | some all =>
        have hf := idc_fill hc b!"(.*)"
        cases hq : e.compile (b!"^" ++ replaceFirst group holder b!"(.*)" ++ b!"$") with
        | none => exact Or.inl (idc_unmatched e r hr hnp hf (by rw [hq]; intro m h; cases h))
        | some m =>
          have hmm := hm _ m (subscribeGroup e group r) hf hq
          by_cases hx : ∃ g ∈ all, m g = true ∧ Spec.OffersNode r g
          · exact Or.inr (hmm (idc_match e r he hr hnp hf hq (hne all hr) hx).2.1)
          · rw [subscribe_match hc hr hnp hq, gather_fst] at hmm ⊢
            have h2 : (gather r m all ([], [])).2 = [] := by
              apply List.eq_nil_iff_forall_not_mem.mpr
              intro x hxm
              rcases gather_sound r m _ ([], []) hxm with h | ⟨h1, h2, h3, _⟩
              · cases h
              · exact hx ⟨_, h1, h2, h3⟩
            rw [if_neg (by simp [h2])] at hmm ⊢
            by_cases hnil : ([] : List Bytes) ++ all.filter m = []
            · rw [if_pos hnil]; exact Or.inl rfl
            · rw [if_neg hnil] at hmm ⊢
              right
              apply hmm
              simp only [List.nil_append] at hnil ⊢
              have : (all.filter m).getLastD [] ∈ all.filter m := by
                cases hq : all.filter m with
                | nil => exact absurd hq hnil
                | cons a l => rw [List.getLastD_cons]; exact List.getLastD_mem_cons ..
              exact (List.mem_filter.mp this).2

/-! ## The figure of a group -/

theorem minMaxSum_spec (l : List Int) (a : Int × Int × Int) :
    let b := l.foldl (fun a r => (if r < a.1 then r else a.1, if r > a.2.1 then r else a.2.1, a.2.2 + r)) a
    b.2.2 = a.2.2 + l.sum ∧ (b.1 = a.1 ∨ b.1 ∈ l) ∧ b.1 ≤ a.1 ∧ (∀ x ∈ l, b.1 ≤ x) ∧
    (b.2.1 = a.2.1 ∨ b.2.1 ∈ l) ∧ a.2.1 ≤ b.2.1 ∧ ∀ x ∈ l, x ≤ b.2.1 := by
  induction l generalizing a with
  | nil => simp
  | cons x l ih =>
    simp only [List.foldl_cons]
    have := ih (if x < a.1 then x else a.1, if x > a.2.1 then x else a.2.1, a.2.2 + x)
    simp only at this
    obtain ⟨h1, h2, h3, h4, h5, h6, h7⟩ := this
    have m1 : (if x < a.1 then x else a.1) ≤ a.1 := by split <;> omega
    have m2 : (if x < a.1 then x else a.1) ≤ x := by split <;> omega
    have m3 : a.2.1 ≤ (if x > a.2.1 then x else a.2.1) := by split <;> omega
    have m4 : x ≤ (if x > a.2.1 then x else a.2.1) := by split <;> omega
    refine ⟨?_, ?_, ?_, ?_, ?_, ?_, ?_⟩
    · rw [h1, List.sum_cons]; omega
    · rcases h2 with h2 | h2
      · rw [h2]; split
        · exact Or.inr List.mem_cons_self
        · exact Or.inl rfl
      · exact Or.inr (List.mem_cons_of_mem _ h2)
    · exact Int.le_trans h3 m1
    · intro y hy
      rcases List.mem_cons.mp hy with rfl | hy
      · exact Int.le_trans h3 m2
      · exact h4 y hy
    · rcases h5 with h5 | h5
      · rw [h5]; split
        · exact Or.inr List.mem_cons_self
        · exact Or.inl rfl
      · exact Or.inr (List.mem_cons_of_mem _ h5)
    · exact Int.le_trans m3 h6
    · intro y hy
      rcases List.mem_cons.mp hy with rfl | hy
      · exact Int.le_trans m4 h6
      · exact h7 y hy

theorem idc_sum_perm {l l' : List Int} (h : l.Perm l') : l.sum = l'.sum := by
  induction h with
  | nil => rfl
  | cons x _ ih => simp [ih]
  | swap x y l => simp only [List.sum_cons]; omega
  | trans _ _ h1 h2 => rw [h1, h2]

/-- C83: the figure of a group is the mean (towards zero) of the round-trip times without a least and a greatest one; with
fewer than three replies there is none. -/
theorem mean_trimmed (rtts : List Int) :
    (rtts.length < 3 → mean rtts = none) ∧
    ∀ lo hi rest, rtts.Perm (lo :: hi :: rest) → rest ≠ [] → (∀ x ∈ rtts, lo ≤ x) → (∀ x ∈ rtts, x ≤ hi) →
      mean rtts = some (rest.sum.tdiv rest.length) := by
  constructor
  · intro h; simp [mean, h]
  · intro lo hi rest hp hr hlo hhi
    have hlen := hp.length_eq
    simp only [List.length_cons] at hlen
    have hpos : 0 < rest.length := List.length_pos_iff.mpr hr
    have hsum := idc_sum_perm hp
    simp only [List.sum_cons] at hsum
    have hlom : lo ∈ rtts := hp.mem_iff.mpr (by simp)
    have hhim : hi ∈ rtts := hp.mem_iff.mpr (by simp)
    unfold mean
    rw [if_neg (by omega)]
    have hd : rtts.headD 0 ∈ rtts := by
      cases rtts with
      | nil => cases hlom
      | cons a l => simp
    have := minMaxSum_spec rtts (rtts.headD 0, rtts.headD 0, 0)
    simp only at this
    obtain ⟨h1, h2, h3, h4, h5, h6, h7⟩ := this
    have e1 : (minMaxSum rtts).1 = lo := by
      apply Int.le_antisymm (h4 lo hlom)
      rcases h2 with h2 | h2
      · rw [h2]; exact hlo _ hd
      · exact hlo _ h2
    have e2 : (minMaxSum rtts).2.1 = hi := by
      apply Int.le_antisymm _ (h7 hi hhim)
      rcases h5 with h5 | h5
      · rw [h5]; exact hhi _ hd
      · exact hhi _ h5
    have e3 : (minMaxSum rtts).2.2 = rtts.sum := by unfold minMaxSum; rw [h1]; omega
    simp only [e1, e2, e3]
    congr 1
    congr 1 <;> omega

/-! ## Several registries -/

theorem parse_subs (e : Env) (find : Bytes → Option (Option Reg)) (ns : List Bytes) (p : Parsed) :
    ∃ l : List (Bytes × Bytes), (parseRegistry e find ns p).subs = p.subs ++ l ∧
      l.map (·.1) = (ns.filter fun n => ((find n).bind id).isSome) ∧
      ∀ pre x post, l = pre ++ x :: post →
        ∃ r, find x.1 = some (some r) ∧ x.2 = subscribeGroup e ((pre.map (·.2)).getLastD p.group) r := by
  induction ns generalizing p with
  | nil =>
    exact ⟨[], by simp [parseRegistry], rfl, by intro pre x post h; simp at h⟩
  | cons n ns ih =>
    rw [parseRegistry]
    cases hf : find n with
    | none =>
      obtain ⟨l, h1, h2, h3⟩ := ih { p with bad := some n }
      exact ⟨l, h1, by rw [h2]; simp [hf], h3⟩
    | some o =>
      cases o with
      | none =>
        obtain ⟨l, h1, h2, h3⟩ := ih p
        exact ⟨l, h1, by rw [h2]; simp [hf], h3⟩
      | some r =>
        obtain ⟨l, h1, h2, h3⟩ :=
          ih { p with group := subscribeGroup e p.group r, subs := p.subs ++ [(n, subscribeGroup e p.group r)] }
        refine ⟨(n, subscribeGroup e p.group r) :: l, by rw [h1]; simp, by simp [hf, h2], ?_⟩
        intro pre x post h
        cases pre with
        | nil => cases h; exact ⟨r, hf, rfl⟩
        | cons y pre =>
          simp only [List.cons_append, List.cons.injEq] at h
          obtain ⟨rfl, h⟩ := h
          obtain ⟨r', hr', hx⟩ := h3 pre x post h
          refine ⟨r', hr', ?_⟩
          rw [hx, List.map_cons, List.getLastD_cons]

/-- C83: the subscriptions of a cluster with several registries: one with each registry that is configured and can be made, in
the order of the names. The first is made with the group picked with that registry, each later one with what that registry
picks for the group of the one before. -/
theorem idc_registries (e : Env) (find : Bytes → Option (Option Reg)) (group : Bytes) (ns : List Bytes) :
    let subs := (parseRegistry e find ns { group := group }).subs
    subs.map (·.1) = (ns.filter fun n => ((find n).bind id).isSome) ∧
    ∀ pre x post, subs = pre ++ x :: post →
      ∃ r, find x.1 = some (some r) ∧ x.2 = subscribeGroup e ((pre.map (·.2)).getLastD group) r := by
  obtain ⟨l, h1, h2, h3⟩ := parse_subs e find ns { group := group }
  simp only [List.nil_append] at h1
  simp only [h1]
  exact ⟨h2, h3⟩

/-- C83: a name that is not in the configuration is reported; the registries after it are still subscribed to. -/
theorem idc_unknown_name (e : Env) (find : Bytes → Option (Option Reg)) (group : Bytes) (ns : List Bytes) :
    (parseRegistry e find ns { group := group }).bad.isSome ↔ ∃ n ∈ ns, find n = none := by
  suffices H : ∀ (ns : List Bytes) (p : Parsed),
      (parseRegistry e find ns p).bad.isSome ↔ (p.bad.isSome ∨ ∃ n ∈ ns, find n = none) by
    simpa using H ns { group := group }
  intro ns
  induction ns with
  | nil => intro p; simp [parseRegistry]
  | cons n ns ih =>
    intro p
    rw [parseRegistry]
    cases hf : find n with
    | none => simp [ih, hf]
    | some o =>
      cases o with
      | none => simp [ih, hf]
      | some r => simp [ih, hf]

/-- C83: once a group without placeholder has been picked, all later registries are subscribed to with it. -/
theorem idc_first_pick (e : Env) (find : Bytes → Option (Option Reg)) (group : Bytes) (ns : List Bytes)
    {pre post : List (Bytes × Bytes)} {x : Bytes × Bytes}
    (h : (parseRegistry e find ns { group := group }).subs = pre ++ x :: post)
    (hx : ∀ a b, x.2 ≠ a ++ b!"${idc}" ++ b) : ∀ y ∈ post, y.2 = x.2 := by
  have key := (idc_registries e find group ns).2
  suffices H : ∀ (q post : List (Bytes × Bytes)),
      (parseRegistry e find ns { group := group }).subs = pre ++ x :: q ++ post → (∀ y ∈ q, y.2 = x.2) →
      ∀ y ∈ post, y.2 = x.2 from
    H [] post (by rw [h]; simp) (by simp)
  intro q post
  induction post generalizing q with
  | nil => intro _ _ y hy; cases hy
  | cons z post ih =>
    intro h hq
    obtain ⟨r, _, hz⟩ := key (pre ++ x :: q) z post h
    have hlast : ((pre ++ x :: q).map (·.2)).getLastD group = x.2 := by
      rw [List.map_append, List.map_cons]
      rcases List.eq_nil_or_concat q with rfl | ⟨q', w, rfl⟩
      · simp
      · have := hq w (by simp)
        have e1 : (pre.map (·.2)) ++ (x.2 :: (q'.concat w).map (·.2)) = (pre.map (·.2) ++ x.2 :: q'.map (·.2)) ++ [x.2] := by
          simp [this]
        rw [e1, List.getLastD_concat]
    rw [hlast, idc_plain e r x.2 hx] at hz
    intro y hy
    rcases List.mem_cons.mp hy with rfl | hy
    · exact hz
    · apply ih (q ++ [z]) (by rw [h]; simp) _ y hy
      intro w hw
      rcases List.mem_append.mp hw with hw | hw
      · exact hq w hw
      · rw [List.mem_singleton.mp hw]; exact hz

/-! ## All groups of a registry -/

/-- A call of `GetAllGroups`: the identity of the registry, the clock before and after, what the registry answers if asked. -/
structure GroupCall where
  key : Bytes
  now : Int
  now' : Int
  found : Option (List Bytes)

/-- The cache after some calls. -/
def groupCache (cs : List GroupCall) : AMap Bytes Entry :=
  cs.foldl (fun m c => (allGroups m c.key c.now c.now' c.found).1) []

/-- What a call gives out after some calls, and whether the registry is asked. -/
def groupCall (cs : List GroupCall) (c : GroupCall) : List Bytes × Bool :=
  (allGroups (groupCache cs) c.key c.now c.now' c.found).2

theorem groupCache_snoc (cs : List GroupCall) (c : GroupCall) :
    groupCache (cs ++ [c]) = (allGroups (groupCache cs) c.key c.now c.now' c.found).1 := by
  simp [groupCache]

/-- What the cache holds for a registry: nothing before the first answer, else what was answered when it was last asked with
success. -/
def GroupsHeld (cs : List GroupCall) (key : Bytes) (en : Entry) : Prop :=
  match en.upd with
  | none => en.groups = [] ∧ ∀ pre c post, cs = pre ++ c :: post → c.key = key → c.found = none
  | some t => ∃ pre c post, cs = pre ++ c :: post ∧ c.key = key ∧ c.now' = t ∧ c.found = some en.groups ∧
      (groupCall pre c).2 = true ∧
      ∀ pre' d post', post = pre' ++ d :: post' → d.key = key → (groupCall (pre ++ c :: pre') d).2 = true → d.found = none

theorem held_cache (cs : List GroupCall) (key : Bytes) : GroupsHeld cs key (((groupCache cs).load key).getD {}) := by
  rcases h : cs.length with _ | n
  · have : cs = [] := List.length_eq_zero_iff.mp h
    subst this
    exact ⟨rfl, by intro pre c post h; simp at h⟩
  · clear h n
    suffices H : ∀ rs : List GroupCall, GroupsHeld rs.reverse key (((groupCache rs.reverse).load key).getD {}) by
      simpa using H cs.reverse
    intro rs
    induction rs with
    | nil => exact ⟨rfl, by intro pre c post h; simp at h⟩
    | cons c rs ih =>
      rw [List.reverse_cons]
      generalize rs.reverse = cs at ih
      rw [groupCache_snoc]
      have hcall : (groupCall cs c).2 = ((((groupCache cs).load c.key).getD {}).get c.now c.now' c.found).2.2 := rfl
      simp only [allGroups]
      rw [AMap.load_store]
      by_cases hk : c.key = key
      · rw [if_pos hk]
        rw [hk] at hcall ⊢
        generalize ((groupCache cs).load key).getD {} = en at ih hcall
        simp only [Option.getD_some]
        unfold Entry.get at hcall ⊢
        split at hcall
        · rename_i hold
          rw [if_pos hold]
          cases hf : c.found with
          | some gs =>
            rw [hf] at hcall
            exact ⟨cs, c, [], rfl, hk, rfl, hf, hcall, by intro pre' d post' h; simp at h⟩
          | none =>
            simp only
            unfold GroupsHeld at ih ⊢
            cases hu : en.upd with
            | none =>
              rw [hu] at ih
              refine ⟨ih.1, ?_⟩
              intro pre d post hd hdk
              rcases List.eq_nil_or_concat post with rfl | ⟨post', w, rfl⟩
              · obtain ⟨_, h2⟩ := List.append_inj' (t₂ := [d]) hd rfl
                cases h2; exact hf
              · have hd' : cs ++ [c] = (pre ++ d :: post') ++ [w] := by rw [hd]; simp
                obtain ⟨h1, h2⟩ := List.append_inj' hd' rfl
                exact ih.2 pre d post' h1 hdk
            | some t =>
              rw [hu] at ih
              obtain ⟨pre, d, post, h1, h2, h3, h4, h5, h6⟩ := ih
              refine ⟨pre, d, post ++ [c], by rw [h1]; simp, h2, h3, h4, h5, ?_⟩
              intro pre' w post' hw hwk ha
              rcases List.eq_nil_or_concat post' with rfl | ⟨post'', z, rfl⟩
              · obtain ⟨_, h2⟩ := List.append_inj' (t₂ := [w]) hw rfl
                cases h2; exact hf
              · have hd' : post ++ [c] = (pre' ++ w :: post'') ++ [z] := by rw [hw]; simp
                obtain ⟨h1, h2⟩ := List.append_inj' hd' rfl
                exact h6 pre' w post'' h1 hwk ha
        · rename_i hold
          rw [if_neg hold]
          unfold GroupsHeld at ih ⊢
          cases hu : en.upd with
          | none => rw [hu] at hold; simp at hold
          | some t =>
            simp only [hu] at ih ⊢
            obtain ⟨pre, d, post, h1, h2, h3, h4, h5, h6⟩ := ih
            refine ⟨pre, d, post ++ [c], by rw [h1]; simp, h2, h3, h4, h5, ?_⟩
            intro pre' w post' hw hwk ha
            rcases List.eq_nil_or_concat post' with rfl | ⟨post'', z, rfl⟩
            · obtain ⟨h8, h9⟩ := List.append_inj' (t₂ := [w]) hw rfl
              cases h9
              subst h8
              rw [← h1, hcall] at ha
              cases ha
            · have hd' : post ++ [c] = (pre' ++ w :: post'') ++ [z] := by rw [hw]; simp
              obtain ⟨h1, h2⟩ := List.append_inj' hd' rfl
              exact h6 pre' w post'' h1 hwk ha
      · rw [if_neg hk]
        unfold GroupsHeld at ih ⊢
        generalize ((groupCache cs).load key).getD {} = en at ih
        cases hu : en.upd with
        | none =>
          rw [hu] at ih
          refine ⟨ih.1, ?_⟩
          intro pre d post hd hdk
          rcases List.eq_nil_or_concat post with rfl | ⟨post', w, rfl⟩
          · obtain ⟨_, h2⟩ := List.append_inj' (t₂ := [d]) hd rfl
            cases h2; exact absurd hdk hk
          · have hd' : cs ++ [c] = (pre ++ d :: post') ++ [w] := by rw [hd]; simp
            obtain ⟨h1, h2⟩ := List.append_inj' hd' rfl
            exact ih.2 pre d post' h1 hdk
        | some t =>
          rw [hu] at ih
          obtain ⟨pre, d, post, h1, h2, h3, h4, h5, h6⟩ := ih
          refine ⟨pre, d, post ++ [c], by rw [h1]; simp, h2, h3, h4, h5, ?_⟩
          intro pre' w post' hw hwk ha
          rcases List.eq_nil_or_concat post' with rfl | ⟨post'', z, rfl⟩
          · obtain ⟨_, h2⟩ := List.append_inj' (t₂ := [w]) hw rfl
            cases h2; exact absurd hwk hk
          · have hd' : post ++ [c] = (pre' ++ w :: post'') ++ [z] := by rw [hw]; simp
            obtain ⟨h1, h2⟩ := List.append_inj' hd' rfl
            exact h6 pre' w post'' h1 hwk ha

/-- C83: the groups of a registry, after any calls for any registries. If the registry is asked and answers, its answer is
given out. Otherwise what it answered when it was last asked with success is given out, and nothing if it never was. It is
not asked only if that is at most an hour ago. -/
theorem groups_cache (cs : List GroupCall) (c : GroupCall) :
    (∀ gs, (groupCall cs c).2 = true → c.found = some gs → (groupCall cs c).1 = gs) ∧
    (((groupCall cs c).2 = false ∨ c.found = none) →
      ((∀ pre d post, cs = pre ++ d :: post → d.key = c.key → d.found = none) ∧ (groupCall cs c).1 = [] ∧
        (groupCall cs c).2 = true) ∨
      ∃ pre d post, cs = pre ++ d :: post ∧ d.key = c.key ∧ (groupCall pre d).2 = true ∧
        d.found = some (groupCall cs c).1 ∧ ((groupCall cs c).2 = false ↔ c.now - d.now' ≤ 3600000000000) ∧
        ∀ pre' x post', post = pre' ++ x :: post' → x.key = c.key → (groupCall (pre ++ d :: pre') x).2 = true →
          x.found = none) := by
  have hh := held_cache cs c.key
  have h1 : (groupCall cs c) = ((((groupCache cs).load c.key).getD {}).get c.now c.now' c.found).2 := rfl
  generalize ((groupCache cs).load c.key).getD {} = en at hh h1
  rw [h1]
  unfold Entry.get
  unfold GroupsHeld at hh
  constructor
  · intro gs
    split
    · intro _ hf; rw [hf]
    · intro h; cases h
  · intro h
    cases hu : en.upd with
    | none =>
      rw [hu] at hh
      left
      simp only [Entry.get, hu, Option.all_none, if_true] at h ⊢
      rcases h with h | h
      · cases hf : c.found with
        | none => exact ⟨hh.2, hh.1, rfl⟩
        | some gs => rw [hf] at h; cases h
      · rw [h]; exact ⟨hh.2, hh.1, rfl⟩
    | some t =>
      rw [hu] at hh
      right
      obtain ⟨pre, d, post, h1, h2, h3, h4, h5, h6⟩ := hh
      refine ⟨pre, d, post, h1, h2, h5, ?_, ?_, h6⟩
      · rw [h4]
        simp only [Entry.get, hu, Option.all_some] at h ⊢
        split at h
        · rename_i hold
          rw [if_pos hold]
          cases hf : c.found with
          | none => rfl
          | some gs => rw [hf] at h; simp at h
        · rename_i hold
          rw [if_neg hold]
      · rw [h3]
        simp only [Option.all_some]
        have hmax : maxCache = 3600000000000 := rfl
        by_cases hold : c.now - t > maxCache
        · rw [if_pos (by simpa using hold)]
          cases c.found <;> simp <;> omega
        · rw [if_neg (by simpa using hold)]
          simp; omega

/-! ## Cases -/

namespace IdcCase

/-- Groups are `yf-rpc`, `tc-rpc` and `other`; the list has all three. -/
def reg : Reg where
  discover := fun g => if g = b!"yf-rpc" then [b!"n1"] else if g = b!"tc-rpc" then [b!"n2", b!"n3"] else []
  groups := some [b!"yf-rpc", b!"tc-rpc", b!"other"]

/-- A registry that has nodes for `tc-rpc` only. -/
def reg2 : Reg where
  discover := fun g => if g = b!"tc-rpc" then [b!"n2"] else []
  groups := none

/-- A registry that has nodes for `yf-rpc` only. -/
def reg3 : Reg where
  discover := fun g => if g = b!"yf-rpc" then [b!"n1"] else []
  groups := none

/-- `^(.*)-rpc$` matches what ends in `-rpc`; no other expression compiles. Round-trip times are as given. -/
def env (idc : Bytes) (yf tc : List Int) : Env where
  idc := idc
  lower := fun s => if s = b!"YF" then b!"yf" else s
  upper := fun s => if s = b!"yf" then b!"YF" else s
  compile := fun p => if p = b!"^(.*)-rpc$" then some fun g => b!"cpr-".isPrefixOf g.reverse else none
  ping := fun g _ => if g = b!"yf-rpc" then some yf else if g = b!"tc-rpc" then some tc else none
  visit := id
  order := id

theorem orders (idc : Bytes) (yf tc : List Int) : Spec.Orders (env idc yf tc) := ⟨fun _ => .refl _, fun _ => .refl _⟩

theorem filled (v : Bytes) : Spec.Filled b!"${idc}-rpc" v (v ++ b!"-rpc") := ⟨[], b!"-rpc", rfl, by decide, rfl⟩

end IdcCase

open IdcCase

-- `idc_plain`
example : subscribeGroup (env b!"yf" [] []) b!"fixed" reg = b!"fixed" :=
  idc_plain _ _ _ (by
    intro a b h
    have : contains b!"fixed" b!"${idc}" = true := (contains_iff _ _).mpr ⟨a, b, h⟩
    exact absurd this (by decide))

-- `idc_first`: the name is given in capitals, the group has small letters
example : subscribeGroup (env b!"YF" [] []) b!"${idc}-rpc" reg = b!"yf-rpc" :=
  (idc_first (env b!"YF" [] []) reg (by decide) (filled _) (filled _) (filled _)).2.1
    (by rintro ⟨h, _⟩; exact absurd (h _ rfl) (by decide))
    ⟨by intro all h; cases h; decide, ⟨b!"n1", by decide⟩⟩

theorem case_none (yf tc : List Int) (r : Reg) : Spec.NonePrepared (env [] yf tc) r b!"${idc}-rpc" :=
  fun h => absurd rfl h

-- `idc_unlisted`
example : subscribeGroup (env [] [] []) b!"${idc}-rpc" reg2 = b!"${idc}-rpc" :=
  idc_unlisted _ reg2 rfl (case_none _ _ _)

-- `idc_match`, `idc_best`: the nearer group is taken
example : subscribeGroup (env [] [5, 6, 7] [2, 3, 4]) b!"${idc}-rpc" reg = b!"tc-rpc" := by decide +kernel

example : ∃ w, (((env [] [5, 6, 7] [2, 3, 4]).ping (subscribeGroup (env [] [5, 6, 7] [2, 3, 4]) b!"${idc}-rpc" reg)
    (reg.discover (subscribeGroup (env [] [5, 6, 7] [2, 3, 4]) b!"${idc}-rpc" reg))).bind mean) = some w ∧ w ≤ 6 :=
  idc_best (env [] [5, 6, 7] [2, 3, 4]) reg (orders _ _ _) rfl (case_none _ _ _) (filled _) (m := _)
    (by rfl) (by decide) (by decide) (g := b!"yf-rpc") (by decide) (by decide) ⟨b!"n1", by decide⟩ (by decide)

-- `idc_fallback`, `idc_unmatched`
example : subscribeGroup (env [] [] []) b!"${idc}-rpc" { reg with discover := fun _ => [] } = b!"tc-rpc" :=
  idc_fallback (env [] [] []) { reg with discover := fun _ => [] } (pre := [b!"yf-rpc"]) (post := [b!"other"]) rfl
    (case_none _ _ _) (filled _) (m := _) (by rfl) (by decide) (by decide)
    (by rintro x _ _ ⟨n, hn⟩; cases hn)

example : subscribeGroup (env [] [] []) b!"${idc}-rpc" { reg with groups := some [b!"other"] } = b!"${idc}-rpc" :=
  idc_unmatched (env [] [] []) { reg with groups := some [b!"other"] } rfl (case_none _ _ _) (filled _)
    (by intro m h; cases h; decide)

-- `mean_trimmed`
example : mean [7, 100, 5, 1] = some 6 :=
  (mean_trimmed [7, 100, 5, 1]).2 1 100 [7, 5] (by decide) (by decide) (by decide) (by decide)

/-- C83, violated: a group whose figure is zero is not taken if another measured group is visited after it. -/
theorem idc_zero_violated :
    let e := env [] [0, 0, 0] [2, 3, 4]
    Spec.Orders e ∧ Spec.NonePrepared e reg b!"${idc}-rpc" ∧
    (e.ping b!"yf-rpc" (reg.discover b!"yf-rpc")).bind mean = some 0 ∧
    (e.ping b!"tc-rpc" (reg.discover b!"tc-rpc")).bind mean = some 3 ∧
    subscribeGroup e b!"${idc}-rpc" reg = b!"tc-rpc" :=
  ⟨orders _ _ _, case_none _ _ _, by decide, by decide, by decide +kernel⟩

/-- C83, violated: the second registry is subscribed to with the group picked for the first, though it has no nodes for it and
would pick another group, for which it has a node. -/
theorem idc_second_registry_violated :
    let e := env b!"yf" [] []
    let second := { reg2 with groups := some [b!"tc-rpc"] }
    let find : Bytes → Option (Option Reg) := fun n => if n = b!"r3" then some (some reg3) else some (some second)
    (parseRegistry e find [b!"r3", b!"r2"] { group := b!"${idc}-rpc" }).subs =
      [(b!"r3", b!"yf-rpc"), (b!"r2", b!"yf-rpc")] ∧
    second.discover b!"yf-rpc" = [] ∧ subscribeGroup e b!"${idc}-rpc" second = b!"tc-rpc" ∧
    Spec.OffersNode second b!"tc-rpc" :=
  ⟨by decide +kernel, by decide, by decide +kernel, ⟨b!"n2", by decide⟩⟩

-- `groups_cache`: asked, kept for an hour, kept on an error
example : groupCall [⟨b!"k", 0, 1, some [b!"g"]⟩, ⟨b!"j", 5, 6, some [b!"h"]⟩] ⟨b!"k", 7, 8, some []⟩ = ([b!"g"], false) ∧
    groupCall [⟨b!"k", 0, 1, some [b!"g"]⟩] ⟨b!"k", 3600000000002, 3600000000003, none⟩ = ([b!"g"], true) ∧
    groupCall [⟨b!"k", 0, 1, some [b!"g"]⟩] ⟨b!"k", 3600000000002, 3600000000003, some [b!"x"]⟩ = ([b!"x"], true) := by
  decide +kernel

end Motan.Props
