import Verif.Props.ReloadSubscription

/-!
# C61: a reload that others interrupt

agent.go:497-571, 600-620, 1295-1311, dynamicConfig.go:148-160. Model: `Verif/Model/Reload.lean`.
-/

namespace Motan.Props

open Motan.Strings Motan.Url Motan.Routing Motan.Reload

/-- How many references are looked at in a history. -/
def Spec.looks : List Reload.Op → Nat
  | [] => 0
  | .next :: os => Spec.looks os + 1
  | _ :: os => Spec.looks os

/-- The reload is not brought to its end in the history. -/
def Spec.Unswapped (os : List Reload.Op) : Prop := Reload.Op.swap ∉ os

/-- Where a reload is: the references it has looked at, those it has not, and what it has found so far. -/
private structure Half (E : Reload.Env) (all : List URL) (first : Nat) (s : Reload.St) (p : Pending) (seen : List URL) : Prop where
  pend : s.pending = some p
  split : all = seen ++ p.todo.map (·.2)
  known : ∀ q, (AMap.load p.table q).isSome ↔ ∃ u ∈ seen, u.path = q
  count : ∀ q, (Spec.itemsOf p.table q).length = seen.countP (·.path = q)
  items : ∀ q, ∀ i ∈ Spec.itemsOf p.table q, ∃ u ∈ seen, u.path = q ∧
    ((i ∈ Spec.itemsOf s.table q ∧ ext i.url = ext (fill E u)) ∨ (i.url = made E (fill E u) ∧ first ≤ i.cluster))
  fresh : first ≤ s.next

/-- Something else happens: the reload stays where it is, and the table only grows. -/
private theorem Half.other {E : Reload.Env} {all : List URL} {first : Nat} {s s' : Reload.St} {p : Pending} {seen : List URL}
    (h : Half E all first s p seen) (hp : s'.pending = s.pending) (hn : s.next ≤ s'.next)
    (ht : ∀ q, ∀ i ∈ Spec.itemsOf s.table q, i ∈ Spec.itemsOf s'.table q) : Half E all first s' p seen :=
  ⟨hp.trans h.pend, h.split, h.known, h.count,
    fun q i hi => by
      obtain ⟨u, hu, e, hh⟩ := h.items q i hi
      exact ⟨u, hu, e, hh.imp (fun ⟨a, b⟩ => ⟨ht q i a, b⟩) id⟩,
    Nat.le_trans h.fresh hn⟩

private theorem init_grows (E : Reload.Env) (s : Reload.St) (u : URL) (q : Bytes) (i : Item Nat)
    (h : i ∈ Spec.itemsOf s.table q) : i ∈ Spec.itemsOf (initCluster E s u).1.table q := by
  show i ∈ Spec.itemsOf (s.table.add _ _) q
  rw [itemsOf_add]
  exact List.mem_append_left _ h

/-- The reload looks at the next reference. -/
private theorem Half.look {E : Reload.Env} {all : List URL} {first : Nat} {s s' : Reload.St} {p : Pending} {seen : List URL}
    (h : Half E all first s p seen) {id : Option Bytes} {u : URL} {rest : List (Option Bytes × URL)}
    (ht : p.todo = (id, u) :: rest) {i : Item Nat} {keep : List Bytes} (hs : s'.pending = some { todo := rest, table := p.table.add u.path i, keep := keep })
    (htab : s'.table = s.table) (hn : s.next ≤ s'.next)
    (hi : (i ∈ Spec.itemsOf s.table u.path ∧ ext i.url = ext (fill E u)) ∨ (i.url = made E (fill E u) ∧ first ≤ i.cluster)) :
    Half E all first s' { todo := rest, table := p.table.add u.path i, keep := keep } (seen ++ [u]) := by
  refine ⟨hs, ?_, fun q => ?_, fun q => ?_, fun q j hj => ?_, Nat.le_trans h.fresh hn⟩
  · rw [h.split, ht]; simp
  · show (AMap.load (p.table.add u.path i) q).isSome ↔ _
    rw [known_add, h.known]
    simp [List.mem_append, or_and_right, exists_or]
  · show (Spec.itemsOf (p.table.add u.path i) q).length = _
    rw [itemsOf_add, List.length_append, h.count, List.countP_append]
    by_cases e : u.path = q <;> simp [e]
  · rw [show (Pending.mk rest (p.table.add u.path i) keep).table = p.table.add u.path i from rfl, itemsOf_add] at hj
    rw [htab]
    rcases List.mem_append.mp hj with hj | hj
    · obtain ⟨v, hv, e, hh⟩ := h.items q j hj
      exact ⟨v, List.mem_append_left _ hv, e, hh⟩
    · by_cases e : u.path = q
      · rw [if_pos e] at hj
        have : j = i := by simpa using hj
        subst this
        exact ⟨u, by simp, e, by rw [← e]; exact hi⟩
      · rw [if_neg e] at hj; cases hj

private theorem half_step {E : Reload.Env} {all : List URL} {first : Nat} {s : Reload.St} {p : Pending} {seen : List URL}
    (h : Half E all first s p seen) (o : Reload.Op) (ho : o ≠ .swap) :
    ∃ p' seen', Half E all first (Reload.step E s o) p' seen' ∧ p'.todo.length = p.todo.length - Spec.looks [o] := by
  cases o with
  | init u => exact ⟨p, seen, h.other rfl (Nat.le_succ _) (init_grows E s u), rfl⟩
  | note u =>
    refine ⟨p, seen, ?_, rfl⟩
    simp only [Reload.step, note]
    split
    · exact h
    · exact h.other rfl (Nat.le_refl _) (fun _ _ h => h)
  | attach id =>
    refine ⟨p, seen, ?_, rfl⟩
    simp only [Reload.step, attach]
    cases hl : AMap.load s.subs id with
    | none => exact h
    | some u => exact h.other rfl (Nat.le_succ _) (init_grows E s u)
  | begin ids refs =>
    refine ⟨p, seen, ?_, rfl⟩
    simp only [Reload.step, begin, h.pend]
    exact h
  | next =>
    simp only [Reload.step, next, h.pend]
    cases ht : p.todo with
    | nil => exact ⟨p, seen, h, by rw [ht]; rfl⟩
    | cons x rest =>
      obtain ⟨id, u⟩ := x
      simp only
      cases hl : lookup s.table (fill E u) with
      | some i =>
        obtain ⟨h1, h2⟩ := lookup_some hl
        rw [fill_path] at h1
        refine ⟨_, _, h.look ht (i := i) (keep := ext (fill E u) :: p.keep) ?_ rfl (Nat.le_refl _) (.inl ⟨h1, h2.symm⟩), rfl⟩
        simp only [fill_path]
      | none =>
        refine ⟨_, _, h.look ht (i := ⟨made E (fill E u), s.next⟩) (keep := p.keep) ?_ rfl (Nat.le_succ _) (.inr ⟨rfl, h.fresh⟩), rfl⟩
        simp only [fill_path]
  | swap => exact absurd rfl ho

private theorem half_run {E : Reload.Env} {all : List URL} {first : Nat} (os : List Reload.Op) (hos : Spec.Unswapped os)
    {s : Reload.St} {p : Pending} {seen : List URL} (h : Half E all first s p seen) :
    ∃ p' seen', Half E all first (Reload.run E s os) p' seen' ∧ p'.todo.length = p.todo.length - Spec.looks os := by
  induction os generalizing s p seen with
  | nil => exact ⟨p, seen, h, rfl⟩
  | cons o os ih =>
    obtain ⟨p1, seen1, h1, e1⟩ := half_step h o (fun e => hos (by rw [e]; exact List.mem_cons_self))
    obtain ⟨p2, seen2, h2, e2⟩ := ih (fun hm => hos (List.mem_cons_of_mem _ hm)) h1
    refine ⟨p2, seen2, h2, ?_⟩
    rw [e2, e1]
    cases o <;> simp only [Spec.looks] <;> omega

/-- C61: starts and subscriptions may interrupt a reload at any point. When it has looked at all its references and ends, a
service is known exactly if one of the references it began with is to it, with one item for each; and every item is the one
such a reference had when the reload ended, recognised by its string, or a new cluster for it. -/
theorem reload_interrupted (E : Reload.Env) (s : Reload.St) (hp : s.pending = none) (ids : List Bytes) (refs : List URL)
    (os : List Reload.Op) (hos : Spec.Unswapped os) (hall : (Spec.references s ids refs).length ≤ Spec.looks os) (q : Bytes) :
    let last := Reload.run E s (.begin ids refs :: os)
    let done := Reload.run E s (.begin ids refs :: os ++ [.swap])
    done.pending = none ∧
    ((AMap.load done.table q).isSome ↔ ∃ u ∈ Spec.references s ids refs, u.path = q) ∧
    (Spec.itemsOf done.table q).length = (Spec.references s ids refs).countP (·.path = q) ∧
    ∀ i ∈ Spec.itemsOf done.table q, ∃ u ∈ Spec.references s ids refs, u.path = q ∧
      ((i ∈ Spec.itemsOf last.table q ∧ ext i.url = ext (fill E u)) ∨ (i.url = made E (fill E u) ∧ s.next ≤ i.cluster)) := by
  intro last done
  have hmap : (((ids.filterMap fun id => (AMap.load s.subs id).map fun u => (some id, u)) ++
      refs.map fun u => ((none : Option Bytes), u)).map (·.2)) = Spec.references s ids refs := by
    rw [List.map_append, List.map_filterMap, List.map_map, Spec.references]
    congr 1
    · congr 1
      funext id
      cases AMap.load s.subs id <;> rfl
    · exact (List.map_congr_left (fun _ _ => rfl)).trans (List.map_id _)
  have h0 : Half E (Spec.references s ids refs) s.next (Reload.step E s (.begin ids refs))
      { todo := (ids.filterMap fun id => (AMap.load s.subs id).map fun u => (some id, u)) ++
          refs.map fun u => ((none : Option Bytes), u) } [] := by
    refine ⟨by simp only [Reload.step, begin, hp], by rw [hmap]; rfl, fun q => ?_, fun q => rfl, fun q i hi => (by cases hi), ?_⟩
    · simp [AMap.load]
    · simp only [Reload.step, begin, hp]; exact Nat.le_refl _
  obtain ⟨p, seen, h, e⟩ := half_run os hos h0
  have hlen := congrArg List.length hmap
  rw [List.length_map] at hlen
  have hnil : p.todo = [] := List.length_eq_zero_iff.mp (by rw [e]; simp only; omega)
  have hseen : Spec.references s ids refs = seen := by rw [h.split, hnil]; simp
  have hlast : last = Reload.run E (Reload.step E s (.begin ids refs)) os := rfl
  have hdone : done = swap last := by
    show Reload.run E s ((.begin ids refs :: os) ++ [.swap]) = _
    rw [Reload.run, List.foldl_append]; rfl
  have hpl : last.pending = some p := h.pend
  have htab : done.table = p.table ∧ done.pending = none := by
    rw [hdone, swap, hpl]
    simp only [hnil]
    exact ⟨trivial, trivial⟩
  refine ⟨htab.2, ?_⟩
  rw [htab.1, hseen]
  exact ⟨h.known q, h.count q, h.items q⟩

/-- A service is started and another one subscribed to while a reload is at work. -/
example : let os := [.next, .init (exRef b!"d" b!"g"), .note (exRef b!"e" b!"g"), .next, .attach (getIdentity (exRef b!"e" b!"g")).1]
    let s := Reload.run exReloadEnv {} exOps
    s.pending.isNone ∧ Spec.Unswapped os ∧
    (Spec.references s [] [exRef b!"a" b!"g", exRef b!"c" b!"g"]).length ≤ Spec.looks os ∧
    (Reload.run exReloadEnv s (.begin [] [exRef b!"a" b!"g", exRef b!"c" b!"g"] :: os ++ [.swap])).table.items.map (·.cluster) = [0, 4] := by
  refine ⟨by decide +kernel, ?_, by decide +kernel, by decide +kernel⟩
  unfold Spec.Unswapped
  simp

end Motan.Props
