import Verif.Props.Reload

/-!
# C61: a subscription stays as it was first made

dynamicConfig.go:148-160 and agent.go:497-571, 600-620, 1295-1311. Model: `Verif/Model/Reload.lean`.
-/

namespace Motan.Props

open Motan.Strings Motan.Url Motan.Routing Motan.Reload

/-- The reference is still the one that was subscribed to: same protocol and service, same group unless it had a
placeholder, and the same settings (but for the list of filters and the type of the node, which clusters write). -/
def Spec.AsSubscribed (E : Reload.Env) (u v : URL) : Prop :=
  v.protocol = u.protocol ∧ v.path = u.path ∧ (contains u.group b!"${idc}" = false → v.group = u.group) ∧
    ∀ k, k ≠ b!"filter" → k ≠ b!"nodeType" → Spec.referenceSetting E v k = Spec.referenceSetting E u k

private theorem as_trans {E : Reload.Env} {u v w : URL} (h1 : Spec.AsSubscribed E u v) (h2 : Spec.AsSubscribed E v w) :
    Spec.AsSubscribed E u w := by
  obtain ⟨a1, a2, a3, a4⟩ := h1
  obtain ⟨b1, b2, b3, b4⟩ := h2
  refine ⟨b1.trans a1, b2.trans a2, fun h => ?_, fun k x y => (b4 k x y).trans (a4 k x y)⟩
  have := a3 h
  rw [b3 (by rw [this]; exact h), this]

private theorem setting_of_param {E : Reload.Env} {u v : URL} {k : Bytes} (h : v.param k = u.param k) :
    Spec.referenceSetting E v k = Spec.referenceSetting E u k := by
  unfold Spec.referenceSetting; rw [h]

private theorem setting_idem {E : Reload.Env} {u v : URL} {k : Bytes} (h : v.param k = Spec.referenceSetting E u k) :
    Spec.referenceSetting E v k = Spec.referenceSetting E u k := by
  unfold Spec.referenceSetting at h ⊢
  rw [h]
  by_cases hk : k = b!"application" ∧ (u.param k = none ∨ u.param k = some [])
  · rw [if_pos hk]
    split <;> rfl
  · rw [if_neg hk, if_neg hk]

private theorem as_fill (E : Reload.Env) (u : URL) : Spec.AsSubscribed E u (fill E u) := by
  refine ⟨?_, fill_path E u, fun _ => ?_, fun k _ _ => setting_idem (fill_param E u k)⟩
  · rw [fill]; split <;> rfl
  · rw [fill]; split <;> rfl

private theorem made_rest (E : Reload.Env) (u : URL) :
    (made E u).protocol = u.protocol ∧ (contains u.group b!"${idc}" = false → (made E u).group = u.group) := by
  have hh : (haEffect u).protocol = u.protocol ∧ (haEffect u).group = u.group := by
    rw [haEffect]; repeat' split
    all_goals exact ⟨rfl, rfl⟩
  have hs : ∀ (kd : RegKind) (v : URL), (subscribeEffect E kd v).protocol = v.protocol ∧
      (subscribeEffect E kd v).group = v.group := by
    intro kd v
    cases kd with
    | zookeeper => rw [subscribeEffect]; split <;> exact ⟨rfl, rfl⟩
    | other => exact ⟨rfl, rfl⟩
  have hr : ∀ (v : URL) (r : Bytes), (registryEffect E v r).protocol = v.protocol ∧
      (contains v.group b!"${idc}" = false → (registryEffect E v r).group = v.group) := by
    intro v r
    rw [registryEffect]; split
    · refine ⟨by rw [(hs _ _).1]; rfl, fun h => ?_⟩
      rw [(hs _ _).2]
      show (if contains v.group b!"${idc}" then E.resolve v.group else v.group) = v.group
      rw [h]; rfl
    · exact ⟨rfl, fun _ => rfl⟩
  have hf : ∀ (l : List Bytes) (v : URL), (l.foldl (registryEffect E) v).protocol = v.protocol ∧
      (contains v.group b!"${idc}" = false → (l.foldl (registryEffect E) v).group = v.group) := by
    intro l
    induction l with
    | nil => intro v; exact ⟨rfl, fun _ => rfl⟩
    | cons r l ih =>
      intro v
      rw [List.foldl_cons]
      refine ⟨(ih _).1.trans (hr v r).1, fun h => ?_⟩
      have e := (hr v r).2 h
      rw [(ih _).2 (by rw [e]; exact h), e]
  rw [made]
  split
  · exact ⟨(hf _ _).1.trans hh.1, fun h => ((hf _ _).2 (by rw [hh.2]; exact h)).trans hh.2⟩
  · exact ⟨hh.1, fun _ => hh.2⟩

private theorem as_made (E : Reload.Env) (u : URL) : Spec.AsSubscribed E u (made E u) :=
  ⟨(made_rest E u).1, made_path E u, (made_rest E u).2, fun k a b => setting_of_param (made_param E u k a b)⟩

private theorem as_identity (E : Reload.Env) (u : URL) : Spec.AsSubscribed E u (getIdentity u).2 := by
  have hp : ∀ v : URL, (getPortStr v).2.protocol = v.protocol ∧ (getPortStr v).2.path = v.path ∧
      (getPortStr v).2.group = v.group ∧ (getPortStr v).2.params = v.params := by
    intro v
    rw [getPortStr]; split <;> exact ⟨rfl, rfl, rfl, rfl⟩
  rw [getIdentity]
  split
  · exact ⟨rfl, rfl, fun _ => rfl, fun _ _ _ => rfl⟩
  · obtain ⟨a, b, c, d⟩ := hp u
    refine ⟨a, b, fun _ => c, fun k _ _ => setting_of_param ?_⟩
    show (getPortStr u).2.param k = u.param k
    rw [URL.param, URL.param, d]

/-- What is kept of the subscription, in the map and in a reload under way. -/
private def Holds (E : Reload.Env) (id : Bytes) (u : URL) (s : Reload.St) : Prop :=
  (∃ v, AMap.load s.subs id = some v ∧ Spec.AsSubscribed E u v) ∧
    ∀ p, s.pending = some p → ∀ w, (some id, w) ∈ p.todo → Spec.AsSubscribed E u w

/-- A reload under way knows the subscriptions it looks at. -/
private def Known (s : Reload.St) : Prop :=
  ∀ p, s.pending = some p → ∀ id w, (some id, w) ∈ p.todo → (AMap.load s.subs id).isSome

private theorem load_writeBack (subs : AMap Bytes URL) (i : Option Bytes) (u : URL) (id : Bytes) :
    AMap.load (writeBack subs i u) id = if i = some id then some u else AMap.load subs id := by
  cases i with
  | none => simp [writeBack]
  | some j =>
    rw [writeBack, AMap.load_store]
    by_cases h : j = id <;> simp [h]

private theorem mem_begin {s : Reload.St} {ids : List Bytes} {refs : List URL} {id : Bytes} {w : URL}
    (h : (some id, w) ∈ (ids.filterMap fun id => (AMap.load s.subs id).map fun u => (some id, u)) ++
      refs.map fun u => ((none : Option Bytes), u)) : AMap.load s.subs id = some w := by
  rcases List.mem_append.mp h with h | h
  · obtain ⟨j, _, hj⟩ := List.mem_filterMap.mp h
    cases hl : AMap.load s.subs j with
    | none => rw [hl] at hj; cases hj
    | some v => rw [hl] at hj; cases hj; exact hl
  · obtain ⟨v, _, hv⟩ := List.mem_map.mp h
    cases hv

private theorem known_step (E : Reload.Env) (s : Reload.St) (o : Reload.Op) (h : Known s) : Known (Reload.step E s o) := by
  cases o with
  | init u => exact h
  | note u =>
    intro p hp id w hw
    simp only [Reload.step, note] at hp ⊢
    split at hp
    · next c => rw [if_pos c]; exact h p hp id w hw
    · next c =>
      rw [if_neg c, AMap.load_store]
      split
      · rfl
      · exact h p hp id w hw
  | attach j =>
    intro p hp id w hw
    simp only [Reload.step, attach] at hp ⊢
    cases hl : AMap.load s.subs j with
    | none => rw [hl] at hp; exact h p hp id w hw
    | some u =>
      rw [hl] at hp
      simp only [AMap.load_store]
      split
      · rfl
      · exact h p hp id w hw
  | begin ids refs =>
    intro p hp id w hw
    simp only [Reload.step, begin] at hp ⊢
    cases hq : s.pending with
    | some q => rw [hq] at hp; simp only at hp ⊢; exact h p hp id w hw
    | none =>
      rw [hq] at hp
      simp only at hp ⊢
      cases hp
      rw [mem_begin hw]; rfl
  | next =>
    intro p hp id w hw
    simp only [Reload.step, next] at hp ⊢
    cases hq : s.pending with
    | none => rw [hq] at hp; simp only at hp; rw [hq] at hp; cases hp
    | some q =>
      rw [hq] at hp
      simp only at hp ⊢
      cases ht : q.todo with
      | nil => rw [ht] at hp; simp only at hp ⊢; exact h p hp id w hw
      | cons x rest =>
        obtain ⟨i, u⟩ := x
        rw [ht] at hp
        simp only at hp ⊢
        have hk : ∀ w, (some id, w) ∈ rest → (AMap.load s.subs id).isSome := fun w hw =>
          h q hq id w (by rw [ht]; exact List.mem_cons_of_mem _ hw)
        cases hl : lookup s.table (fill E u) with
        | some it =>
          rw [hl] at hp; simp only at hp ⊢; cases hp
          rw [load_writeBack]; split
          · rfl
          · exact hk w hw
        | none =>
          rw [hl] at hp; simp only at hp ⊢; cases hp
          rw [load_writeBack]; split
          · rfl
          · exact hk w hw
  | swap =>
    intro p hp id w hw
    simp only [Reload.step, swap] at hp ⊢
    cases hq : s.pending with
    | none => rw [hq] at hp; simp only at hp; rw [hq] at hp; cases hp
    | some q =>
      rw [hq] at hp
      simp only at hp ⊢
      cases ht : q.todo with
      | nil => rw [ht] at hp; cases hp
      | cons x rest => rw [ht] at hp; simp only at hp ⊢; exact h p hp id w hw

private theorem holds_step (E : Reload.Env) (id : Bytes) (u : URL) (s : Reload.St) (o : Reload.Op) (h : Holds E id u s) :
    Holds E id u (Reload.step E s o) := by
  obtain ⟨⟨v, hv, hav⟩, hp⟩ := h
  cases o with
  | init x => exact ⟨⟨v, hv, hav⟩, hp⟩
  | note x =>
    simp only [Reload.step, note]
    split
    · exact ⟨⟨v, hv, hav⟩, hp⟩
    · next c =>
      refine ⟨⟨v, ?_, hav⟩, hp⟩
      rw [AMap.load_store, if_neg ?_, hv]
      intro e
      apply c
      first | rw [e, hv] | rw [← e, hv]
      rfl
  | attach j =>
    simp only [Reload.step, attach]
    cases hl : AMap.load s.subs j with
    | none => exact ⟨⟨v, hv, hav⟩, hp⟩
    | some x =>
      refine ⟨?_, hp⟩
      simp only [AMap.load_store]
      by_cases e : j = id
      · subst e
        rw [hv] at hl; cases hl
        exact ⟨_, if_pos rfl, as_trans hav (as_trans (as_fill E _) (as_made E _))⟩
      · first
        | exact ⟨v, by rw [if_neg e]; exact hv, hav⟩
        | exact ⟨v, by rw [if_neg (Ne.symm e)]; exact hv, hav⟩
  | begin ids refs =>
    simp only [Reload.step, begin]
    cases hq : s.pending with
    | some q => exact ⟨⟨v, hv, hav⟩, hp⟩
    | none =>
      refine ⟨⟨v, hv, hav⟩, fun p e w hw => ?_⟩
      cases e
      have := mem_begin hw
      rw [hv] at this; cases this
      exact hav
  | next =>
    simp only [Reload.step, next]
    cases hq : s.pending with
    | none => exact ⟨⟨v, hv, hav⟩, hp⟩
    | some q =>
      simp only
      cases ht : q.todo with
      | nil => exact ⟨⟨v, hv, hav⟩, hp⟩
      | cons x rest =>
        obtain ⟨i, x⟩ := x
        have hr : ∀ w, (some id, w) ∈ rest → Spec.AsSubscribed E u w := fun w hw =>
          hp q hq w (by rw [ht]; exact List.mem_cons_of_mem _ hw)
        have hx : i = some id → Spec.AsSubscribed E u x := fun e =>
          hp q hq x (by rw [ht, e]; exact List.mem_cons_self)
        simp only
        cases hl : lookup s.table (fill E x) with
        | some it =>
          refine ⟨?_, fun p e w hw => by cases e; exact hr w hw⟩
          simp only [load_writeBack]
          by_cases e : i = some id
          · exact ⟨_, if_pos e, as_trans (hx e) (as_fill E x)⟩
          · exact ⟨v, by rw [if_neg e]; exact hv, hav⟩
        | none =>
          refine ⟨?_, fun p e w hw => by cases e; exact hr w hw⟩
          simp only [load_writeBack]
          by_cases e : i = some id
          · exact ⟨_, if_pos e, as_trans (hx e) (as_trans (as_fill E x) (as_made E _))⟩
          · exact ⟨v, by rw [if_neg e]; exact hv, hav⟩
  | swap =>
    simp only [Reload.step, swap]
    cases hq : s.pending with
    | none => exact ⟨⟨v, hv, hav⟩, hp⟩
    | some q =>
      simp only
      cases ht : q.todo with
      | nil => exact ⟨⟨v, hv, hav⟩, fun p e => by cases e⟩
      | cons x rest => exact ⟨⟨v, hv, hav⟩, hp⟩

private theorem known_run (E : Reload.Env) (os : List Reload.Op) (s : Reload.St) (h : Known s) : Known (Reload.run E s os) := by
  induction os generalizing s with
  | nil => exact h
  | cons o os ih => exact ih _ (known_step E s o h)

private theorem holds_run (E : Reload.Env) (id : Bytes) (u : URL) (os : List Reload.Op) (s : Reload.St) (h : Holds E id u s) :
    Holds E id u (Reload.run E s os) := by
  induction os generalizing s with
  | nil => exact h
  | cons o os ih => exact ih _ (holds_step E id u s o h)

/-- C61: a subscription that is new is written down and is never forgotten: whatever starts, subscriptions (to the same
reference with other settings too) and reloads follow, it is there, as it was first made. -/
theorem subscription_stays (E : Reload.Env) (before after : List Reload.Op) (u : URL)
    (hnew : AMap.load (Reload.run E {} before).subs (getIdentity u).1 = none) :
    ∃ v, AMap.load (Reload.run E {} (before ++ .note u :: after)).subs (getIdentity u).1 = some v ∧
      Spec.AsSubscribed E u v := by
  have hk : Known (Reload.run E {} before) := known_run E before {} (fun p e => by cases e)
  have e : Reload.run E {} (before ++ .note u :: after) = Reload.run E (Reload.step E (Reload.run E {} before) (.note u)) after := by
    rw [Reload.run, List.foldl_append]; rfl
  rw [e]
  refine (holds_run E _ u after _ ⟨?_, ?_⟩).1
  · simp only [Reload.step, note, hnew]
    exact ⟨_, AMap.load_store_self _ _ _, as_identity E u⟩
  · intro p hp w hw
    have hp' : (Reload.run E {} before).pending = some p := by
      simp only [Reload.step, note, hnew] at hp
      exact hp
    have := hk p hp' _ w hw
    rw [hnew] at this
    cases this

/-- C61: so after any reload that nothing interrupts the service of a subscription is among the references served, with
the settings it was first subscribed with. -/
theorem subscription_served (E : Reload.Env) (before after : List Reload.Op) (u : URL) (ids : List Bytes) (refs : List URL)
    (hnew : AMap.load (Reload.run E {} before).subs (getIdentity u).1 = none) (hid : (getIdentity u).1 ∈ ids) :
    ∃ v ∈ Spec.references (Reload.run E {} (before ++ .note u :: after)) ids refs, Spec.AsSubscribed E u v := by
  obtain ⟨v, hv, ha⟩ := subscription_stays E before after u hnew
  exact ⟨v, List.mem_append_left _ (List.mem_filterMap.mpr ⟨_, hid, hv⟩), ha⟩

/-- A subscription made again with another setting, a reload and a subscription elsewhere: the first setting stays. -/
example : let u := exRef b!"a" b!"g"
    let u' := putParam u b!"requestTimeout" b!"9"
    (getIdentity u').1 = (getIdentity u).1 ∧
    AMap.load (Reload.run exReloadEnv {} exOps).subs (getIdentity u).1 = none ∧
    ((AMap.load (Reload.run exReloadEnv {} (exOps ++ .note u ::
      [.attach (getIdentity u).1, .note u', .begin [(getIdentity u).1] [], .next, .swap, .note (exRef b!"c" b!"g")])).subs
        (getIdentity u).1).bind fun v => v.param b!"requestTimeout") = none := by decide +kernel

end Motan.Props
