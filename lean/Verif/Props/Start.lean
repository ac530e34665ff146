import Verif.Model.Start
import Verif.Props.Reload

/-!
# C98: the start of the agent's clusters, and what reaches them

At its start the agent builds the clusters of all references at the same time and waits for them, but not longer than
a given time. Whatever the order in which they end or fail, each that does not fail is routed to, once. Commands for
the agent, filters of servers and the information pages go by a second table: it has the same clusters, each once, if
the references differ in group, version, protocol or service.
-/

namespace Motan.Props

open Motan.Url Motan.Reload Motan.Routing Motan.Start

/-! ## Specification -/

/-- The URL of the cluster of a reference. -/
def Spec.settled (E : Reload.Env) (u : URL) : URL := made E (fill E u)

/-- Requests can be sent to this cluster. -/
def Spec.Routed (s : Start.St) (c : Nat) : Prop := ∃ i, Spec.InTable s.core.table i ∧ i.cluster = c

/-- The cluster of this reference has been put into the table of requests. -/
def Spec.built (t : Task) : Bool := t.phase ≠ .building ∧ t.phase ≠ .failed

/-- The action is none of a reload. -/
def Spec.NoReload : Start.Op → Prop
  | .begin _ _ | .next | .swap => False
  | _ => True

/-- Commands, filters and pages have the clusters that requests are sent to, each once. -/
def Spec.Agree (s : Start.St) : Prop :=
  (told s).Nodup ∧ ∀ c, c ∈ told s ↔ Spec.Routed s c

/-! ## Waiting -/

def startEnded (s : Start.St) : Prop := ∀ t ∈ s.tasks, t.ended = true

theorem ended_tasks (E : Reload.Env) (s : Start.St) (h : startEnded s) (o : Start.Op) : (Start.step E s o).tasks = s.tasks := by
  have hm : ∀ (i : Nat) (t : Task), s.tasks[i]? = some t → t.ended = true := fun i t hi => h t (List.mem_of_getElem? hi)
  cases o with
  | build i =>
    simp only [Start.step, Start.build]
    split
    · rename_i u hu; have := hm _ _ hu; simp [Task.ended] at this
    · rfl
  | crash i =>
    simp only [Start.step, Start.crash]
    split
    · rename_i u hu; have := hm _ _ hu; simp [Task.ended] at this
    · rfl
  | store i =>
    simp only [Start.step, Start.store]
    split
    · rename_i u k c hu _; have := hm _ _ hu; simp [Task.ended] at this
    · rfl
  | timer => simp only [Start.step]; split <;> rfl
  | wait => simp only [Start.step]; split <;> rfl
  | join => simp only [Start.step]; split <;> rfl
  | begin ids refs => simp only [Start.step, Start.begin]; split <;> rfl
  | next => simp only [Start.step, Start.next]; split <;> rfl
  | swap => simp only [Start.step, Start.swap]; split <;> rfl

structure StartWait (os : List Start.Op) (s : Start.St) : Prop where
  complete : s.main = .complete → startEnded s
  waiter : s.waiter ≠ .waiting → startEnded s
  timeout : s.main = .timeout → Start.Op.timer ∈ os
  ended : s.waiter = .ended ↔ s.main = .complete

theorem main_step (E : Reload.Env) (s : Start.St) (o : Start.Op) (h : o ≠ .timer ∧ o ≠ .wait ∧ o ≠ .join) :
    (Start.step E s o).main = s.main ∧ (Start.step E s o).waiter = s.waiter := by
  cases o with
  | build i => simp only [Start.step, Start.build]; split <;> exact ⟨rfl, rfl⟩
  | crash i => simp only [Start.step, Start.crash]; split <;> exact ⟨rfl, rfl⟩
  | store i => simp only [Start.step, Start.store]; split <;> exact ⟨rfl, rfl⟩
  | timer => exact absurd rfl h.1
  | wait => exact absurd rfl h.2.1
  | join => exact absurd rfl h.2.2
  | begin ids refs => simp only [Start.step, Start.begin]; split <;> exact ⟨rfl, rfl⟩
  | next => simp only [Start.step, Start.next]; split <;> exact ⟨rfl, rfl⟩
  | swap => simp only [Start.step, Start.swap]; split <;> exact ⟨rfl, rfl⟩

theorem StartWait.step {os : List Start.Op} {s : Start.St} (h : StartWait os s) (E : Reload.Env) (o : Start.Op) :
    StartWait (os ++ [o]) (Start.step E s o) := by
  have hk : startEnded s → startEnded (Start.step E s o) := by
    intro hs; rw [startEnded, ended_tasks E s hs o]; exact hs
  by_cases ho : o ≠ .timer ∧ o ≠ .wait ∧ o ≠ .join
  · obtain ⟨h1, h2⟩ := main_step E s o ho
    exact ⟨fun e => hk (h.complete (h1 ▸ e)), fun e => hk (h.waiter (h2 ▸ e)),
      fun e => List.mem_append_left _ (h.timeout (h1 ▸ e)), by rw [h1, h2]; exact h.ended⟩
  · cases o with
    | timer =>
      simp only [Start.step]
      split
      · rename_i hw
        refine ⟨by simp, h.waiter, by simp, ?_⟩
        have := h.ended
        simp only [hw] at this
        simpa using this
      · exact ⟨h.complete, h.waiter, fun e => List.mem_append_left _ (h.timeout e), h.ended⟩
    | wait =>
      simp only [Start.step]
      split
      · rename_i hw
        have he : startEnded s := fun t ht => List.all_eq_true.mp hw.2 t ht
        refine ⟨fun _ => he, fun _ => he, fun e => List.mem_append_left _ (h.timeout e), ?_⟩
        have := h.ended
        rw [hw.1] at this
        simpa using this
      · exact ⟨h.complete, h.waiter, fun e => List.mem_append_left _ (h.timeout e), h.ended⟩
    | join =>
      simp only [Start.step]
      split
      · rename_i hw
        have he : startEnded s := h.waiter (by rw [hw.1]; decide)
        exact ⟨fun _ => he, fun _ => he, by simp, by simp⟩
      · exact ⟨h.complete, h.waiter, fun e => List.mem_append_left _ (h.timeout e), h.ended⟩
    | _ => exact absurd ⟨by simp, by simp, by simp⟩ ho

theorem start_snoc {P : List Start.Op → Prop} (h0 : P []) (h1 : ∀ os o, P os → P (os ++ [o])) : ∀ os, P os := by
  intro os
  have : ∀ l : List Start.Op, P l.reverse := by
    intro l
    induction l with
    | nil => exact h0
    | cons o l ih => rw [List.reverse_cons]; exact h1 _ _ ih
  simpa using this os.reverse

theorem start_run_snoc (E : Reload.Env) (s : Start.St) (os : List Start.Op) (o : Start.Op) :
    Start.run E s (os ++ [o]) = Start.step E (Start.run E s os) o := by simp [Start.run]

theorem waitInv_run (E : Reload.Env) (s : Start.St) (refs : List URL) (os : List Start.Op) :
    StartWait os (Start.run E (launch s refs) os) := by
  refine start_snoc (P := fun os => StartWait os (Start.run E (launch s refs) os)) ?_ (fun os o ih => ?_) os
  · exact ⟨by simp [Start.run, launch], by simp [Start.run, launch], by simp [Start.run, launch], by simp [Start.run, launch]⟩
  · rw [start_run_snoc]; exact ih.step E o

/-- **C98 (how long the start waits).** In every history the agent goes on with its start only if the time is over or
every cluster has been built or has failed. It does go on: as soon as the time is over, and also as soon as the last
one has ended, whatever became of it. -/
theorem start_waits (E : Reload.Env) (s0 : Start.St) (refs : List URL) (os : List Start.Op) :
    let s := Start.run E (launch s0 refs) os
    (s.main ≠ .waiting → Start.Op.timer ∈ os ∨ ∀ t ∈ s.tasks, t.phase = .done ∨ t.phase = .failed) ∧
    (s.main = .complete → ∀ t ∈ s.tasks, t.phase = .done ∨ t.phase = .failed) ∧
    (s.main = .waiting → (Start.step E s .timer).main = .timeout) ∧
    (s.main = .waiting → (∀ t ∈ s.tasks, t.phase = .done ∨ t.phase = .failed) →
      (Start.run E s [.wait, .join]).main = .complete) := by
  intro s
  have h : StartWait os s := waitInv_run E s0 refs os
  have he : startEnded s → ∀ t ∈ s.tasks, t.phase = .done ∨ t.phase = .failed := by
    intro h t ht
    have := h t ht
    rw [Task.ended] at this
    cases hp : t.phase <;> simp_all
  refine ⟨?_, fun e => he (h.complete e), fun e => by simp [Start.step, e], ?_⟩
  · intro hm
    cases hp : s.main with
    | waiting => exact absurd hp hm
    | timeout => exact .inl (h.timeout hp)
    | complete => exact .inr (he (h.complete hp))
  · intro hm hd
    have hall : s.tasks.all Task.ended = true := by
      rw [List.all_eq_true]
      intro t ht
      rcases hd t ht with e | e <;> simp [Task.ended, e]
    have hw : s.waiter ≠ .ended := fun e => by rw [h.ended.mp e] at hm; cases hm
    cases hp : s.waiter with
    | waiting => simp [Start.run, Start.step, hp, hall, hm]
    | sending => simp [Start.run, Start.step, hp, hm]
    | ended => exact absurd hp hw

/-! ## What the clusters come to -/

theorem filterMap_set_none {α β : Type} (g : α → Option β) (l : List α) (i : Nat) (x y : α) (h : l[i]? = some x)
    (hx : g x = none) : ((l.set i y).filterMap g).Perm ((g y).toList ++ l.filterMap g) := by
  induction l generalizing i with
  | nil => simp at h
  | cons a l ih =>
    cases i with
    | zero =>
      simp only [List.getElem?_cons_zero, Option.some.injEq] at h
      subst h
      rw [List.set_cons_zero, List.filterMap_cons, List.filterMap_cons, hx]
      cases g y <;> simp
    | succ i =>
      rw [List.getElem?_cons_succ] at h
      have := ih i h
      rw [List.set_cons_succ, List.filterMap_cons, List.filterMap_cons]
      cases hg : g a with
      | none => exact this
      | some b => exact (this.cons b).trans List.perm_middle.symm

theorem filterMap_set_same {α β : Type} (g : α → Option β) (l : List α) (i : Nat) (x y : α) (h : l[i]? = some x)
    (hx : g x = g y) : (l.set i y).filterMap g = l.filterMap g := by
  induction l generalizing i with
  | nil => simp at h
  | cons a l ih =>
    cases i with
    | zero =>
      simp only [List.getElem?_cons_zero, Option.some.injEq] at h
      subst h
      rw [List.set_cons_zero, List.filterMap_cons, List.filterMap_cons, hx]
    | succ i =>
      rw [List.getElem?_cons_succ] at h
      rw [List.set_cons_succ, List.filterMap_cons, List.filterMap_cons, ih i h]

/-- The URL of the cluster, if the reference is to this service and its cluster is built. -/
def shown (E : Reload.Env) (p : Bytes) (t : Task) : Option URL :=
  if Spec.built t = true ∧ t.url.path = p then some (Spec.settled E t.url) else none

structure TableInv (E : Reload.Env) (s0 : Start.St) (refs : List URL) (os : List Start.Op) (s : Start.St) : Prop where
  pending : s.core.pending = none
  urls : s.tasks.map (·.url) = refs
  failed : ∀ i t, s.tasks[i]? = some t → t.phase = .failed → Start.Op.crash i ∈ os
  items : ∀ p, ∃ L, Spec.itemsOf s.core.table p = Spec.itemsOf s0.core.table p ++ L ∧
    (L.map (·.url)).Perm (s.tasks.filterMap (shown E p))

theorem TableInv.other {E : Reload.Env} {s0 : Start.St} {refs : List URL} {os : List Start.Op} {s s' : Start.St} {o : Start.Op}
    (h : TableInv E s0 refs os s) (hc : s'.core = s.core) (ht : s'.tasks = s.tasks) : TableInv E s0 refs (os ++ [o]) s' :=
  ⟨hc ▸ h.pending, ht ▸ h.urls, fun i t a b => List.mem_append_left _ (h.failed i t (ht ▸ a) b), by rw [hc, ht]; exact h.items⟩

theorem urls_set {l : List Task} {i : Nat} {t t' : Task} (h : l[i]? = some t) (e : t'.url = t.url) :
    (l.set i t').map (·.url) = l.map (·.url) := by
  have := filterMap_set_same (fun t : Task => some t.url) l i t t' h (by simp [e])
  simpa [List.filterMap_eq_map, Function.comp_def] using this

theorem TableInv.step {E : Reload.Env} {s0 : Start.St} {refs : List URL} {os : List Start.Op} {s : Start.St}
    (h : TableInv E s0 refs os s) (o : Start.Op) (ho : Spec.NoReload o) : TableInv E s0 refs (os ++ [o]) (Start.step E s o) := by
  cases o with
  | build i =>
    simp only [Start.step, Start.build]
    split
    · rename_i u hu
      refine ⟨h.pending, ?_, ?_, ?_⟩
      · rw [← h.urls]; exact urls_set hu rfl
      · intro j t hj hf
        rw [List.getElem?_set] at hj
        split at hj
        · split at hj
          · cases hj; cases hf
          · cases hj
        · exact List.mem_append_left _ (h.failed j t hj hf)
      · intro p
        obtain ⟨L, h1, h2⟩ := h.items p
        have hs := filterMap_set_none (shown E p) s.tasks i _ ⟨u, .listed (clusterKey (Spec.settled E u)) s.core.next⟩ hu
          (by simp [shown, Spec.built])
        simp only [initCluster, itemsOf_add, h1, List.append_assoc]
        refine ⟨_, rfl, ?_⟩
        rw [List.map_append]
        refine List.Perm.trans ?_ hs.symm
        have hp : (made E (fill E u)).path = u.path := by rw [made_path, fill_path]
        by_cases e : u.path = p
        · simp only [hp, e, if_pos, List.map_cons, List.map_nil, shown, Spec.built]
          simp only [ne_eq, reduceCtorEq, not_false_eq_true, and_self, decide_true, if_pos, Option.toList_some]
          exact (List.perm_append_comm).trans (h2.cons _)
        · simp only [hp, if_neg e, List.map_nil, List.append_nil, shown]
          simpa [e] using h2
    · exact h.other rfl rfl
  | crash i =>
    simp only [Start.step, Start.crash]
    split
    · rename_i u hu
      refine ⟨h.pending, ?_, ?_, ?_⟩
      · rw [← h.urls]; exact urls_set hu rfl
      · intro j t hj hf
        rw [List.getElem?_set] at hj
        split at hj
        · rename_i e; subst e; simp
        · exact List.mem_append_left _ (h.failed j t hj hf)
      · intro p
        obtain ⟨L, h1, h2⟩ := h.items p
        exact ⟨L, h1, by
          rw [filterMap_set_same (shown E p) s.tasks i _ ⟨u, .failed⟩ hu (by simp [shown, Spec.built])]; exact h2⟩
    · exact h.other rfl rfl
  | store i =>
    simp only [Start.step, Start.store]
    split
    · rename_i u k c hu hn
      refine ⟨hn, ?_, ?_, ?_⟩
      · rw [← h.urls]; exact urls_set hu rfl
      · intro j t hj hf
        rw [List.getElem?_set] at hj
        split at hj
        · split at hj
          · cases hj; cases hf
          · cases hj
        · exact List.mem_append_left _ (h.failed j t hj hf)
      · intro p
        obtain ⟨L, h1, h2⟩ := h.items p
        exact ⟨L, h1, by
          rw [filterMap_set_same (shown E p) s.tasks i _ ⟨u, .done⟩ hu (by simp [shown, Spec.built])]; exact h2⟩
    · exact h.other rfl rfl
  | timer => simp only [Start.step]; split <;> exact h.other rfl rfl
  | wait => simp only [Start.step]; split <;> exact h.other rfl rfl
  | join => simp only [Start.step]; split <;> exact h.other rfl rfl
  | begin ids refs => exact absurd ho (by simp [Spec.NoReload])
  | next => exact absurd ho (by simp [Spec.NoReload])
  | swap => exact absurd ho (by simp [Spec.NoReload])

theorem tableInv_run (E : Reload.Env) (s0 : Start.St) (h0 : s0.core.pending = none) (refs : List URL) (os : List Start.Op)
    (hos : ∀ o ∈ os, Spec.NoReload o) : TableInv E s0 refs os (Start.run E (launch s0 refs) os) := by
  revert hos
  refine start_snoc (P := fun os => (∀ o ∈ os, Spec.NoReload o) → TableInv E s0 refs os (Start.run E (launch s0 refs) os))
    ?_ (fun os o ih => ?_) os
  · intro _
    refine ⟨h0, ?_, ?_, fun p => ⟨[], by simp [Start.run, launch], ?_⟩⟩
    · simp [Start.run, launch, Function.comp_def]
    · intro i t hi hf
      have := List.mem_of_getElem? hi
      simp only [Start.run, launch, List.foldl_nil, List.mem_map] at this
      obtain ⟨u, _, rfl⟩ := this
      cases hf
    · simp [Start.run, launch, shown, Spec.built]
  · intro hos
    rw [start_run_snoc]
    exact (ih fun o ho => hos o (by simp [ho])).step o (hos o (by simp))

/-- **C98 (every reference is served).** In every history of a start, or of subscriptions later, that no reload comes
into, the clusters of a service are those there were before, followed by one for each of its references whose cluster
has been built, in the order in which they were. One that was not is still being built, or building it has failed; this
hinders no other. -/
theorem start_serves (E : Reload.Env) (s0 : Start.St) (h0 : s0.core.pending = none) (refs : List URL) (os : List Start.Op)
    (hos : ∀ o ∈ os, Spec.NoReload o) :
    let s := Start.run E (launch s0 refs) os
    s.tasks.map (·.url) = refs ∧
    (∀ p, ∃ L, Spec.itemsOf s.core.table p = Spec.itemsOf s0.core.table p ++ L ∧
      (L.map (·.url)).Perm (((s.tasks.filter Spec.built).filter (·.url.path = p)).map fun t => Spec.settled E t.url)) ∧
    (∀ i t, s.tasks[i]? = some t → t.phase = .failed → Start.Op.crash i ∈ os) := by
  intro s
  have h := tableInv_run E s0 h0 refs os hos
  refine ⟨h.urls, fun p => ?_, h.failed⟩
  obtain ⟨L, h1, h2⟩ := h.items p
  refine ⟨L, h1, h2.trans (.of_eq ?_)⟩
  have : shown E p = fun t => (if Spec.built t = true ∧ t.url.path = p then some t else none).map fun t => Spec.settled E t.url := by
    funext t; rw [shown]; split <;> rfl
  rw [this, ← List.map_filterMap, List.filter_filter]
  congr 1
  rw [← List.filterMap_eq_filter]
  congr 1
  funext t
  by_cases a : Spec.built t = true <;> by_cases b : t.url.path = p <;> simp [a, b, Option.guard]

/-! ## The keys -/

/-- The parts of a key, and that they can be told apart. -/
def Spec.keyParts (u : URL) : Bytes × Bytes × Bytes × Bytes :=
  (u.group, if (u.param b!"version").getD [] = [] then b!"1.0" else (u.param b!"version").getD [],
    if u.protocol = b!"cedrus" then b!"motan2" else u.protocol, u.path)

def Spec.PlainParts (u : URL) : Prop :=
  (95 : UInt8) ∉ u.group ∧ (95 : UInt8) ∉ (u.param b!"version").getD [] ∧ (95 : UInt8) ∉ u.protocol

/-- **C98 (the keys).** Without underscores in groups, versions and protocols, two references have one key exactly if
they agree in group, version (1.0 if none is given), protocol (where cedrus counts as motan2) and service. -/
theorem cluster_key_iff {u v : URL} (hu : Spec.PlainParts u) (hv : Spec.PlainParts v) :
    clusterKey u = clusterKey v ↔ Spec.keyParts u = Spec.keyParts v := by
  have form : ∀ w : URL, clusterKey w = (Spec.keyParts w).1 ++ 95 :: ((Spec.keyParts w).2.1 ++ 95 :: ((Spec.keyParts w).2.2.1 ++
      95 :: (Spec.keyParts w).2.2.2)) := by
    intro w
    simp only [clusterKey, Spec.keyParts, getStringParamsWithDefault, List.append_assoc]
    rfl
  have plain : ∀ w : URL, Spec.PlainParts w → (95 : UInt8) ∉ (Spec.keyParts w).1 ∧ (95 : UInt8) ∉ (Spec.keyParts w).2.1 ∧
      (95 : UInt8) ∉ (Spec.keyParts w).2.2.1 := by
    rintro w ⟨h1, h2, h3⟩
    refine ⟨h1, ?_, ?_⟩
    · simp only [Spec.keyParts]; split
      · decide
      · exact h2
    · simp only [Spec.keyParts]; split
      · decide
      · exact h3
  obtain ⟨a1, a2, a3⟩ := plain u hu
  obtain ⟨b1, b2, b3⟩ := plain v hv
  rw [form u, form v]
  refine ⟨fun h => ?_, fun h => by rw [h]⟩
  obtain ⟨e1, h⟩ := append_sep_inj h a1 b1
  obtain ⟨e2, h⟩ := append_sep_inj h a2 b2
  obtain ⟨e3, e4⟩ := append_sep_inj h a3 b3
  exact Prod.ext e1 (Prod.ext e2 (Prod.ext e3 e4))

/-! ## The second table -/

theorem store_new_key {m : AMap Bytes Nat} {k : Bytes} {c : Nat} (h : AMap.load m k = none) : AMap.store m k c = m ++ [(k, c)] := by
  induction m with
  | nil => rfl
  | cons p m ih =>
    obtain ⟨a, b⟩ := p
    rw [AMap.load] at h
    split at h
    · cases h
    · rename_i e; rw [AMap.store, if_neg e, ih h]; rfl

structure AgreeInv (E : Reload.Env) (s0 : Start.St) (s : Start.St) : Prop where
  pending : s.core.pending = none
  nodup : (told s).Nodup
  told_lt : ∀ c ∈ told s, c < s.core.next
  told_routed : ∀ c ∈ told s, Spec.Routed s c
  listed : ∀ t ∈ s.tasks, ∀ k c, t.phase = .listed k c → k = clusterKey (Spec.settled E t.url) ∧ c ∉ told s ∧ c < s.core.next ∧
    Spec.Routed s c
  apart : ∀ (i j : Nat) (t t' : Task) (k k' : Bytes) (c : Nat), s.tasks[i]? = some t → s.tasks[j]? = some t' → t.phase = .listed k c → t'.phase = .listed k' c → i = j
  routed : ∀ c, Spec.Routed s c → c ∈ told s ∨ ∃ t ∈ s.tasks, ∃ k, t.phase = .listed k c
  keys : ∀ k, (AMap.load s.clusterMap k).isSome = true → (AMap.load s0.clusterMap k).isSome = true ∨
    ∃ (i : Nat) (t : Task), s.tasks[i]? = some t ∧ t.phase = .done ∧ clusterKey (Spec.settled E t.url) = k

theorem routed_add {s s' : Start.St} {p : Bytes} {i : Item Nat} (h : s'.core.table = s.core.table.add p i) (c : Nat) :
    Spec.Routed s' c ↔ Spec.Routed s c ∨ c = i.cluster := by
  simp only [Spec.Routed, h]
  constructor
  · rintro ⟨j, hj, rfl⟩
    rcases inTable_add.mp hj with hj | rfl
    · exact .inl ⟨j, hj, rfl⟩
    · exact .inr rfl
  · rintro (⟨j, hj, rfl⟩ | rfl)
    · exact ⟨j, inTable_add.mpr (.inl hj), rfl⟩
    · exact ⟨i, inTable_add.mpr (.inr rfl), rfl⟩

theorem mem_set_task {l : List Task} {i : Nat} {t x : Task} (h : x ∈ l.set i t) : x = t ∨ x ∈ l := by
  rcases List.mem_or_eq_of_mem_set h with h | h
  · exact .inr h
  · exact .inl h

theorem AgreeInv.step {E : Reload.Env} {s0 s : Start.St} (h : AgreeInv E s0 s) (o : Start.Op) (ho : Spec.NoReload o)
    (hk : (s.tasks.map fun t => clusterKey (Spec.settled E t.url)).Nodup)
    (hf : ∀ t ∈ s.tasks, AMap.load s0.clusterMap (clusterKey (Spec.settled E t.url)) = none) :
    AgreeInv E s0 (Start.step E s o) := by
  cases o with
  | build i =>
    simp only [Start.step, Start.build]
    split
    · rename_i u hu
      have hi : i < s.tasks.length := by
        rcases Nat.lt_or_ge i s.tasks.length with h | h
        · exact h
        · rw [List.getElem?_eq_none h] at hu; cases hu
      have hadd := fun c => routed_add (s := s) (s' := { s with
          core := (initCluster E s.core u).1
          tasks := s.tasks.set i ⟨u, .listed (clusterKey (initCluster E s.core u).2) s.core.next⟩ }) rfl c
      refine ⟨h.pending, h.nodup, fun c hc => Nat.lt_succ_of_lt (h.told_lt c hc), fun c hc => (hadd c).mpr (.inl (h.told_routed c hc)),
        ?_, ?_, ?_, ?_⟩
      · intro t ht k c hp
        rcases mem_set_task ht with rfl | ht
        · cases hp
          exact ⟨rfl, fun hc => Nat.lt_irrefl _ (h.told_lt _ hc), Nat.lt_succ_self _, (hadd _).mpr (.inr rfl)⟩
        · obtain ⟨h1, h2, h3, h4⟩ := h.listed t ht k c hp
          exact ⟨h1, h2, Nat.lt_succ_of_lt h3, (hadd c).mpr (.inl h4)⟩
      · intro a b t t' k k' c ha hb hp hp'
        have hlt : ∀ (j : Nat) (t : Task) (k : Bytes) (c : Nat), s.tasks[j]? = some t → t.phase = .listed k c → c < s.core.next :=
          fun j t k c hj hp => (h.listed t (List.mem_of_getElem? hj) k c hp).2.2.1
        simp only [List.getElem?_set] at ha hb
        split at ha <;> split at hb
        · rename_i e e'; exact e.symm.trans e'
        · cases ha; cases hp
          exact absurd (hlt b t' k' _ hb hp') (Nat.lt_irrefl _)
        · cases hb; cases hp'
          exact absurd (hlt a t k _ ha hp) (Nat.lt_irrefl _)
        · exact h.apart a b t t' k k' c ha hb hp hp'
      · intro c hc
        rcases (hadd c).mp hc with hc | rfl
        · rcases h.routed c hc with hc | ⟨t, ht, k, hp⟩
          · exact .inl hc
          · obtain ⟨j, hj, ej⟩ := List.getElem_of_mem ht
            refine .inr ⟨t, ?_, k, hp⟩
            refine List.mem_of_getElem? (i := j) ?_
            rw [List.getElem?_set, if_neg]
            · rw [List.getElem?_eq_getElem hj, ej]
            · rintro rfl
              rw [List.getElem?_eq_getElem hj, ej] at hu
              cases hu; cases hp
        · exact .inr ⟨_, List.mem_of_getElem? (i := i) (by rw [List.getElem?_set, if_pos rfl, if_pos hi]), _, rfl⟩
      · intro k hk
        rcases h.keys k hk with h | ⟨j, t, hj, hd, e⟩
        · exact .inl h
        · refine .inr ⟨j, t, ?_, hd, e⟩
          rw [List.getElem?_set, if_neg]
          · exact hj
          · rintro rfl; rw [hu] at hj; cases hj; cases hd
    · exact h
  | crash i =>
    simp only [Start.step, Start.crash]
    split
    · rename_i u hu
      have hne : ∀ (j : Nat) (t : Task), s.tasks[j]? = some t → t.phase ≠ .building → (s.tasks.set i ⟨u, .failed⟩)[j]? = some t := by
        intro j t hj hp
        rw [List.getElem?_set, if_neg]
        · exact hj
        · rintro rfl; rw [hu] at hj; cases hj; exact hp rfl
      have hback : ∀ (j : Nat) (t : Task), (s.tasks.set i ⟨u, .failed⟩)[j]? = some t → t.phase ≠ .failed → s.tasks[j]? = some t := by
        intro j t hj hp
        rw [List.getElem?_set] at hj
        split at hj
        · split at hj
          · cases hj; exact absurd rfl hp
          · cases hj
        · exact hj
      refine ⟨h.pending, h.nodup, h.told_lt, h.told_routed, ?_, ?_, ?_, ?_⟩
      · intro t ht k c hp
        rcases mem_set_task ht with rfl | ht
        · cases hp
        · exact h.listed t ht k c hp
      · intro a b t t' k k' c ha hb hp hp'
        exact h.apart a b t t' k k' c (hback a t ha (by rw [hp]; simp)) (hback b t' hb (by rw [hp']; simp)) hp hp'
      · intro c hc
        rcases h.routed c hc with hc | ⟨t, ht, k, hp⟩
        · exact .inl hc
        · obtain ⟨j, hj, ej⟩ := List.getElem_of_mem ht
          exact .inr ⟨t, List.mem_of_getElem? (hne j t (by rw [List.getElem?_eq_getElem hj, ej]) (by rw [hp]; simp)), k, hp⟩
      · intro k hk
        rcases h.keys k hk with h | ⟨j, t, hj, hd, e⟩
        · exact .inl h
        · exact .inr ⟨j, t, hne j t hj (by rw [hd]; simp), hd, e⟩
    · exact h
  | store i =>
    simp only [Start.step, Start.store]
    split
    · rename_i u k c hu hn
      have hi : i < s.tasks.length := by
        rcases Nat.lt_or_ge i s.tasks.length with h | h
        · exact h
        · rw [List.getElem?_eq_none h] at hu; cases hu
      obtain ⟨hkey, hct, hclt, hcr⟩ := h.listed _ (List.mem_of_getElem? hu) k c rfl
      have hfree : AMap.load s.clusterMap k = none := by
        cases hl : AMap.load s.clusterMap k with
        | none => rfl
        | some d =>
          rcases h.keys k (by rw [hl]; rfl) with h0 | ⟨j, t, hj, hd, e⟩
          · rw [hkey, hf _ (List.mem_of_getElem? hu)] at h0; cases h0
          · exfalso
            have hij : i ≠ j := by rintro rfl; rw [hu] at hj; cases hj; cases hd
            have hj' : j < s.tasks.length := by
              rcases Nat.lt_or_ge j s.tasks.length with h | h
              · exact h
              · rw [List.getElem?_eq_none h] at hj; cases hj
            have e1 : (s.tasks.map fun t => clusterKey (Spec.settled E t.url))[i]'(by simpa using hi) = k := by
              rw [List.getElem_map, (List.getElem?_eq_some_iff.mp hu).2]; exact hkey.symm
            have e2 : (s.tasks.map fun t => clusterKey (Spec.settled E t.url))[j]'(by simpa using hj') = k := by
              rw [List.getElem_map, (List.getElem?_eq_some_iff.mp hj).2]; exact e
            exact hij ((List.getElem_inj hk).mp (e1.trans e2.symm))
      have hst : told { s with clusterMap := AMap.store s.clusterMap k c, tasks := s.tasks.set i ⟨u, .done⟩ } = told s ++ [c] := by
        simp [told, store_new_key hfree]
      have hback : ∀ (j : Nat) (t : Task), (s.tasks.set i ⟨u, .done⟩)[j]? = some t → t.phase ≠ .done → s.tasks[j]? = some t ∧ j ≠ i := by
        intro j t hj hp
        rw [List.getElem?_set] at hj
        split at hj
        · cases hj; exact absurd rfl hp
        · rename_i e; exact ⟨hj, fun e' => e e'.symm⟩
      refine ⟨hn, ?_, ?_, ?_, ?_, ?_, ?_, ?_⟩
      · rw [hst, List.nodup_append]
        exact ⟨h.nodup, by simp, by simp; intro a ha e; exact hct (e ▸ ha)⟩
      · intro d hd
        rw [hst] at hd
        rcases List.mem_append.mp hd with hd | hd
        · exact h.told_lt d hd
        · simp at hd; subst hd; exact hclt
      · intro d hd
        rw [hst] at hd
        rcases List.mem_append.mp hd with hd | hd
        · exact h.told_routed d hd
        · simp at hd; subst hd; exact hcr
      · intro t ht k' c' hp
        obtain ⟨j, hj, ej⟩ := List.getElem_of_mem ht
        obtain ⟨hj', hji⟩ := hback j t (by rw [List.getElem?_eq_getElem hj, ej]) (by rw [hp]; simp)
        obtain ⟨h1, h2, h3, h4⟩ := h.listed t (List.mem_of_getElem? hj') k' c' hp
        refine ⟨h1, ?_, h3, h4⟩
        rw [hst, List.mem_append]
        rintro (h | h)
        · exact h2 h
        · simp at h; subst h
          exact hji (h.apart j i t _ k' k _ hj' hu hp rfl)
      · intro a b t t' k1 k2 c' ha hb hp hp'
        exact h.apart a b t t' k1 k2 c' (hback a t ha (by rw [hp]; simp)).1 (hback b t' hb (by rw [hp']; simp)).1 hp hp'
      · intro d hd
        rw [hst]
        rcases h.routed d hd with hd | ⟨t, ht, k', hp⟩
        · exact .inl (List.mem_append_left _ hd)
        · obtain ⟨j, hj, ej⟩ := List.getElem_of_mem ht
          by_cases e : i = j
          · subst e
            rw [List.getElem?_eq_getElem hj, ej] at hu
            cases hu; cases hp
            exact .inl (by simp)
          · refine .inr ⟨t, List.mem_of_getElem? (i := j) ?_, k', hp⟩
            rw [List.getElem?_set, if_neg e, List.getElem?_eq_getElem hj, ej]
      · intro k' hk'
        rw [AMap.load_store] at hk'
        split at hk'
        · rename_i e; subst e
          exact .inr ⟨i, ⟨u, .done⟩, by rw [List.getElem?_set, if_pos rfl, if_pos hi], rfl, hkey.symm⟩
        · rcases h.keys k' hk' with h | ⟨j, t, hj, hd, e⟩
          · exact .inl h
          · refine .inr ⟨j, t, ?_, hd, e⟩
            rw [List.getElem?_set, if_neg]
            · exact hj
            · rintro rfl; rw [hu] at hj; cases hj; cases hd
    · exact h
  | timer => simp only [Start.step]; split <;> exact ⟨h.1, h.2, h.3, h.4, h.5, h.6, h.7, h.8⟩
  | wait => simp only [Start.step]; split <;> exact ⟨h.1, h.2, h.3, h.4, h.5, h.6, h.7, h.8⟩
  | join => simp only [Start.step]; split <;> exact ⟨h.1, h.2, h.3, h.4, h.5, h.6, h.7, h.8⟩
  | begin ids refs => exact absurd ho (by simp [Spec.NoReload])
  | next => exact absurd ho (by simp [Spec.NoReload])
  | swap => exact absurd ho (by simp [Spec.NoReload])

/-- **C98 (who is told).** Take references with keys that are distinct, and new to the agent. When none of their
goroutines is under way any more, whatever the order of events, commands for the agent, filters of servers and pages
have exactly the clusters that requests are sent to, each once, if this was so before. -/
theorem start_told (E : Reload.Env) (s0 : Start.St) (h0 : s0.core.pending = none) (ha : Spec.Agree s0)
    (hlt : ∀ c ∈ told s0, c < s0.core.next) (refs : List URL) (hk : (refs.map fun u => clusterKey (Spec.settled E u)).Nodup)
    (hf : ∀ u ∈ refs, AMap.load s0.clusterMap (clusterKey (Spec.settled E u)) = none) (os : List Start.Op)
    (hos : ∀ o ∈ os, Spec.NoReload o) :
    let s := Start.run E (launch s0 refs) os
    (∀ t ∈ s.tasks, t.phase = .done ∨ t.phase = .failed) → Spec.Agree s := by
  intro s hd
  have key : AgreeInv E s0 s := by
    revert hos
    refine start_snoc (P := fun os => (∀ o ∈ os, Spec.NoReload o) → AgreeInv E s0 (Start.run E (launch s0 refs) os))
      ?_ (fun os o ih => ?_) os
    · intro _
      have hb : ∀ t ∈ (launch s0 refs).tasks, t.phase = .building := by
        intro t ht
        simp only [launch, List.mem_map] at ht
        obtain ⟨u, _, rfl⟩ := ht
        rfl
      refine ⟨h0, ha.1, hlt, fun c hc => (ha.2 c).mp hc, ?_, ?_, fun c hc => .inl ((ha.2 c).mpr hc), fun k hk => .inl hk⟩
      · intro t ht k c hp; rw [hb t ht] at hp; cases hp
      · intro i j t t' k k' c hi _ hp _; rw [hb t (List.mem_of_getElem? hi)] at hp; cases hp
    · intro hos
      have hos' : ∀ o ∈ os, Spec.NoReload o := fun o ho => hos o (by simp [ho])
      have hu := (tableInv_run E s0 h0 refs os hos').urls
      rw [start_run_snoc]
      refine (ih hos').step o (hos o (by simp)) ?_ ?_
      · rw [← hu, List.map_map] at hk; exact hk
      · intro t ht; exact hf _ (hu ▸ List.mem_map_of_mem (f := fun t : Task => t.url) ht)
  refine ⟨key.nodup, fun c => ⟨key.told_routed c, fun hc => ?_⟩⟩
  rcases key.routed c hc with h | ⟨t, ht, k, hp⟩
  · exact h
  · rcases hd t ht with e | e <;> rw [e] at hp <;> cases hp

/-! ## After a reload -/

/-- The entries of the second table that a reload makes. -/
def keyed (E : Reload.Env) (t : Table) : Nat → List URL → List (Bytes × Nat)
  | _, [] => []
  | n, u :: us =>
    match lookup t (fill E u) with
    | some i => (clusterKey (fill E u), i.cluster) :: keyed E t n us
    | none => (clusterKey (fill E u), n) :: keyed E t (n + 1) us

theorem keyed_clusters (E : Reload.Env) (t : Table) (n : Nat) (us : List URL) :
    (keyed E t n us).map (·.2) = (planned E t n us).map (·.2.cluster) := by
  induction us generalizing n with
  | nil => rfl
  | cons u us ih => rw [keyed, planned]; split <;> rename_i e <;> simp [e, ih]

theorem keyed_keys (E : Reload.Env) (t : Table) (n : Nat) (us : List URL) :
    (keyed E t n us).map (·.1) = us.map fun u => clusterKey (fill E u) := by
  induction us generalizing n with
  | nil => rfl
  | cons u us ih => rw [keyed]; split <;> simp [ih]

theorem start_run_next (E : Reload.Env) (todo : List (Option Bytes × URL)) (s : Start.St) (t : Table) (k : List Bytes)
    (hp : s.core.pending = some ⟨todo, t, k⟩) :
    let s' := (List.replicate todo.length ()).foldl (fun s _ => Start.next E s) s
    s'.core = (List.replicate todo.length ()).foldl (fun s _ => Reload.next E s) s.core ∧
    s'.newMap = AMap.storeAll s.newMap (keyed E s.core.table s.core.next (todo.map (·.2))) := by
  induction todo generalizing s t k with
  | nil => exact ⟨rfl, rfl⟩
  | cons x todo ih =>
    obtain ⟨id, u⟩ := x
    rw [List.length_cons, List.replicate_succ]
    simp only [List.foldl_cons, List.map_cons]
    cases hl : lookup s.core.table (fill E u) with
    | some i =>
      have hs : Start.next E s = { s with
          core := Reload.next E s.core, newMap := AMap.store s.newMap (clusterKey (fill E u)) i.cluster } := by
        rw [Start.next, hp]; simp only [hl]
      have hn : Reload.next E s.core = { s.core with
          subs := writeBack s.core.subs id (fill E u)
          pending := some { todo := todo, table := t.add (fill E u).path i, keep := ext (fill E u) :: k } } := by
        rw [Reload.next, hp]; simp only [hl]
      have h := ih (Start.next E s) _ _ (by rw [hs]; simp only; rw [hn])
      rw [hs] at h ⊢
      simp only at h
      have e1 : (Reload.next E s.core).table = s.core.table := by rw [hn]
      have e2 : (Reload.next E s.core).next = s.core.next := by rw [hn]
      refine ⟨h.1, h.2.trans ?_⟩
      simp only [keyed, hl, e1, e2]; rfl
    | none =>
      have hs : Start.next E s = { s with
          core := Reload.next E s.core, newMap := AMap.store s.newMap (clusterKey (fill E u)) s.core.next } := by
        rw [Start.next, hp]; simp only [hl]
      have hn : Reload.next E s.core = { s.core with
          subs := writeBack s.core.subs id (made E (fill E u))
          next := s.core.next + 1
          pending := some { todo := todo, table := t.add (fill E u).path ⟨made E (fill E u), s.core.next⟩, keep := k } } := by
        rw [Reload.next, hp]; simp only [hl]
      have h := ih (Start.next E s) _ _ (by rw [hs]; simp only; rw [hn])
      rw [hs] at h ⊢
      simp only at h
      have e1 : (Reload.next E s.core).table = s.core.table := by rw [hn]
      have e2 : (Reload.next E s.core).next = s.core.next + 1 := by rw [hn]
      refine ⟨h.1, h.2.trans ?_⟩
      simp only [keyed, hl, e1, e2]; rfl

theorem start_reload_eq (E : Reload.Env) (s : Start.St) (hp : s.core.pending = none) (ids : List Bytes) (refs : List URL) :
    (Start.reload E s ids refs).core = Reload.reload E s.core ids refs ∧
    (Start.reload E s ids refs).clusterMap =
      AMap.storeAll [] (keyed E s.core.table s.core.next (Spec.references s.core ids refs)) := by
  generalize ht : (ids.filterMap fun id => (AMap.load s.core.subs id).map fun u => (some id, u)) ++
      refs.map (fun u => ((none : Option Bytes), u)) = todo
  have hb : Reload.begin s.core ids refs = { s.core with pending := some ⟨todo, [], []⟩ } := by
    rw [Reload.begin, hp, ← ht]
  have hus : todo.map (·.2) = Spec.references s.core ids refs := by
    rw [← ht, List.map_append, List.map_filterMap, List.map_map]
    simp [Spec.references, Function.comp_def]
  have hb' : Start.begin s ids refs = { s with core := { s.core with pending := some ⟨todo, [], []⟩ }, newMap := [] } := by
    rw [Start.begin, hp]; simp only; rw [hb]
  have h := start_run_next E todo { s with core := { s.core with pending := some ⟨todo, [], []⟩ }, newMap := [] } _ _ rfl
  obtain ⟨r, h1, _, _, _, h5⟩ := run_next E todo { s.core with pending := some ⟨todo, [], []⟩ } _ _ rfl
  rw [Start.reload, hb']
  simp only [Option.map_some, Option.getD_some] at h ⊢
  have hp' := congrArg Reload.St.pending (h.1.trans h1)
  rw [h5] at hp'
  rw [Start.swap, hp']
  simp only
  refine ⟨?_, by rw [h.2, hus]⟩
  rw [h.1, Reload.reload, hb]
  simp only [Option.map_some, Option.getD_some]

/-- **C98 (after a reload).** A reload that nothing comes into makes the two tables agree, whatever they were before, if
the keys of the references are distinct: what requests are sent to is told, and what is told has requests sent to it. -/
theorem reload_agree (E : Reload.Env) (s : Start.St) (hp : s.core.pending = none) (ids : List Bytes) (refs : List URL)
    (hk : ((Spec.references s.core ids refs).map fun u => clusterKey (fill E u)).Nodup) (c : Nat) :
    c ∈ told (Start.reload E s ids refs) ↔ Spec.Routed (Start.reload E s ids refs) c := by
  obtain ⟨h1, h2⟩ := start_reload_eq E s hp ids refs
  have hn : AMap.NodupKeys (keyed E s.core.table s.core.next (Spec.references s.core ids refs)) := by
    rw [AMap.NodupKeys, AMap.keys, show (keyed E s.core.table s.core.next (Spec.references s.core ids refs)).map Prod.fst = _ from
      keyed_keys _ _ _ _]
    exact hk
  have hm : ∀ k c, (k, c) ∈ (Start.reload E s ids refs).clusterMap ↔
      (k, c) ∈ keyed E s.core.table s.core.next (Spec.references s.core ids refs) := by
    intro k c
    rw [h2, AMap.mem_iff_load (AMap.nodupKeys_storeAll AMap.nodupKeys_nil _), AMap.load_storeAll _ _ hn, AMap.mem_iff_load hn]
    cases AMap.load (keyed E s.core.table s.core.next (Spec.references s.core ids refs)) k <;> simp
  have ht : c ∈ told (Start.reload E s ids refs) ↔
      c ∈ (keyed E s.core.table s.core.next (Spec.references s.core ids refs)).map (·.2) := by
    simp only [told, List.mem_map, Prod.exists]
    exact ⟨fun ⟨k, d, h, e⟩ => ⟨k, d, (hm k d).mp h, e⟩, fun ⟨k, d, h, e⟩ => ⟨k, d, (hm k d).mpr h, e⟩⟩
  rw [ht, keyed_clusters, Spec.Routed, h1]
  simp only [List.mem_map, Prod.exists, Spec.InTable]
  constructor
  · rintro ⟨p, i, h, rfl⟩
    exact ⟨i, ⟨p, (mem_itemsOf_reload hp).mpr h⟩, rfl⟩
  · rintro ⟨i, ⟨p, h⟩, rfl⟩
    exact ⟨p, i, (mem_itemsOf_reload hp).mp h, rfl⟩

/-! ## The page of the references -/

structure PageInv (E : Reload.Env) (s : Start.St) : Prop where
  pending : s.core.pending = none
  nodup : AMap.NodupKeys s.clusterMap
  entry : ∀ k c, AMap.load s.clusterMap k = some c → ∃ i, Spec.InTable s.core.table i ∧ i.cluster = c ∧ clusterKey i.url = k
  listed : ∀ t ∈ s.tasks, ∀ k c, t.phase = .listed k c → k = clusterKey (Spec.settled E t.url) ∧
    ∃ i, Spec.InTable s.core.table i ∧ i.cluster = c ∧ clusterKey i.url = k
  keys : ∀ k, (AMap.load s.clusterMap k).isSome = true ↔ ∃ t ∈ s.tasks, t.phase = .done ∧ clusterKey (Spec.settled E t.url) = k

theorem mem_set_done {l : List Task} {i : Nat} {x y : Task} (h : l[i]? = some x) (t : Task) :
    t ∈ l.set i y ∧ t.phase = .done ↔ (t = y ∧ y.phase = .done) ∨ (∃ j, j ≠ i ∧ l[j]? = some t ∧ t.phase = .done) := by
  have hi : i < l.length := by
    rcases Nat.lt_or_ge i l.length with h' | h'
    · exact h'
    · rw [List.getElem?_eq_none h'] at h; cases h
  constructor
  · rintro ⟨ht, hd⟩
    obtain ⟨j, hj⟩ := List.getElem?_of_mem ht
    rw [List.getElem?_set] at hj
    split at hj
    · cases hj; exact .inl ⟨rfl, hd⟩
    · rename_i e; exact .inr ⟨j, fun e' => e e'.symm, hj, hd⟩
  · rintro (⟨rfl, hd⟩ | ⟨j, hj, ht, hd⟩)
    · exact ⟨List.mem_of_getElem? (i := i) (by rw [List.getElem?_set, if_pos rfl, if_pos hi]), hd⟩
    · exact ⟨List.mem_of_getElem? (i := j) (by rw [List.getElem?_set, if_neg (fun e => hj e.symm)]; exact ht), hd⟩

theorem done_set {l : List Task} {i : Nat} {x y : Task} (h : l[i]? = some x) (hx : x.phase ≠ .done) (P : Task → Prop) :
    (∃ t ∈ l.set i y, t.phase = .done ∧ P t) ↔ (y.phase = .done ∧ P y) ∨ ∃ t ∈ l, t.phase = .done ∧ P t := by
  constructor
  · rintro ⟨t, ht, hd, hp⟩
    rcases (mem_set_done h t).mp ⟨ht, hd⟩ with ⟨rfl, hd⟩ | ⟨j, _, hj, hd⟩
    · exact .inl ⟨hd, hp⟩
    · exact .inr ⟨t, List.mem_of_getElem? hj, hd, hp⟩
  · rintro (⟨hd, hp⟩ | ⟨t, ht, hd, hp⟩)
    · exact ⟨y, ((mem_set_done h y).mpr (.inl ⟨rfl, hd⟩)).1, hd, hp⟩
    · obtain ⟨j, hj⟩ := List.getElem?_of_mem ht
      refine ⟨t, ((mem_set_done h t).mpr (.inr ⟨j, ?_, hj, hd⟩)).1, hd, hp⟩
      rintro rfl; rw [h] at hj; cases hj; exact hx hd

theorem PageInv.step {E : Reload.Env} {s : Start.St} (h : PageInv E s) (o : Start.Op) (ho : Spec.NoReload o) :
    PageInv E (Start.step E s o) := by
  cases o with
  | build i =>
    simp only [Start.step, Start.build]
    split
    · rename_i u hu
      refine ⟨h.pending, h.nodup, ?_, ?_, fun k => ?_⟩
      · intro k c hl
        obtain ⟨j, h1, h2⟩ := h.entry k c hl
        exact ⟨j, inTable_add.mpr (.inl h1), h2⟩
      · intro t ht k c hp
        rcases mem_set_task ht with rfl | ht
        · cases hp
          exact ⟨rfl, _, inTable_add.mpr (.inr rfl), rfl, rfl⟩
        · obtain ⟨h0, j, h1, h2⟩ := h.listed t ht k c hp
          exact ⟨h0, j, inTable_add.mpr (.inl h1), h2⟩
      · rw [done_set hu (by simp)]
        simpa using h.keys k
    · exact h
  | crash i =>
    simp only [Start.step, Start.crash]
    split
    · rename_i u hu
      refine ⟨h.pending, h.nodup, h.entry, ?_, fun k => ?_⟩
      · intro t ht k c hp
        rcases mem_set_task ht with rfl | ht
        · cases hp
        · exact h.listed t ht k c hp
      · rw [done_set hu (by simp)]
        simpa using h.keys k
    · exact h
  | store i =>
    simp only [Start.step, Start.store]
    split
    · rename_i u k c hu hn
      obtain ⟨hkey, j, h1, h2⟩ := h.listed _ (List.mem_of_getElem? hu) k c rfl
      refine ⟨hn, AMap.nodupKeys_store h.nodup _ _, ?_, ?_, fun k' => ?_⟩
      · intro k' c' hl
        rw [AMap.load_store] at hl
        split at hl
        · rename_i e; subst e; cases hl; exact ⟨j, h1, h2⟩
        · exact h.entry k' c' hl
      · intro t ht k' c' hp
        rcases mem_set_task ht with rfl | ht
        · cases hp
        · exact h.listed t ht k' c' hp
      · rw [done_set hu (by simp), AMap.load_store, ← h.keys k', ← hkey]
        split <;> rename_i e <;> simp [e]
    · exact h
  | timer => simp only [Start.step]; split <;> exact ⟨h.1, h.2, h.3, h.4, h.5⟩
  | wait => simp only [Start.step]; split <;> exact ⟨h.1, h.2, h.3, h.4, h.5⟩
  | join => simp only [Start.step]; split <;> exact ⟨h.1, h.2, h.3, h.4, h.5⟩
  | begin ids refs => exact absurd ho (by simp [Spec.NoReload])
  | next => exact absurd ho (by simp [Spec.NoReload])
  | swap => exact absurd ho (by simp [Spec.NoReload])

/-- **C98 (the page of the references).** At every moment of the start, the page has one entry for each key of a
reference whose goroutine has ended well; its status is that of a cluster with this key that requests are sent to. -/
theorem start_page (E : Reload.Env) (subs : AMap Bytes URL) (refs : List URL) (os : List Start.Op)
    (hos : ∀ o ∈ os, Spec.NoReload o) (avail : Nat → Bool) :
    let s := Start.run E (launch { core := { subs := subs } } refs) os
    ((referPage avail s).map (·.1)).Nodup ∧
    (∀ k, k ∈ (referPage avail s).map (·.1) ↔ ∃ t ∈ s.tasks, t.phase = .done ∧ clusterKey (Spec.settled E t.url) = k) ∧
    ∀ k b, (k, b) ∈ referPage avail s → ∃ i, Spec.InTable s.core.table i ∧ clusterKey i.url = k ∧ b = avail i.cluster := by
  intro s
  have key : PageInv E s := by
    revert hos
    refine start_snoc (P := fun os => (∀ o ∈ os, Spec.NoReload o) → PageInv E (Start.run E (launch { core := { subs := subs } } refs) os))
      ?_ (fun os o ih hos => ?_) os
    · intro _
      have hb : ∀ t ∈ (launch { core := { subs := subs } } refs).tasks, t.phase = .building := by
        intro t ht
        simp only [launch, List.mem_map] at ht
        obtain ⟨u, _, rfl⟩ := ht
        rfl
      refine ⟨rfl, AMap.nodupKeys_nil, fun k c h => (by cases h), ?_, fun k => ⟨fun h => (by cases h), ?_⟩⟩
      · intro t ht k c hp; rw [hb t ht] at hp; cases hp
      · rintro ⟨t, ht, hd, _⟩; rw [hb t ht] at hd; cases hd
    · rw [start_run_snoc]
      exact (ih fun o ho => hos o (by simp [ho])).step o (hos o (by simp))
  have hk : (referPage avail s).map (·.1) = AMap.keys s.clusterMap := by simp [referPage, AMap.keys, Function.comp_def]
  refine ⟨hk ▸ key.nodup, fun k => ?_, fun k b h => ?_⟩
  · rw [hk, ← AMap.load_isSome, key.keys]
  · simp only [referPage, List.mem_map, Prod.exists, Prod.mk.injEq] at h
    obtain ⟨k', c, h, rfl, rfl⟩ := h
    obtain ⟨i, h1, rfl, h2⟩ := key.entry _ _ (AMap.load_of_mem key.nodup h)
    exact ⟨i, h1, h2, rfl⟩

/-! ## Where the agent falls short -/

/-- A reference by protocol. -/
def exRefBy (protocol path group : Bytes) : URL := { exRef path group with protocol := protocol }

/-- **C98 fails** for references that share a key. A cluster by cedrus and one by motan2, for one service and group, both
have requests sent to them, but only the one that was built last is told commands and filters and is on the page. -/
theorem start_shared_key_violated : ∃ (E : Reload.Env) (refs : List URL) (os : List Start.Op) (r : Routing.Req) (c : Nat),
    let s := Start.run E (launch {} refs) os
    (∀ o ∈ os, Spec.NoReload o) ∧ s.main = .complete ∧ findCluster s.core.table r = .ok c ∧ c ∉ told s :=
  ⟨exReloadEnv, [exRefBy b!"cedrus" b!"a" b!"g", exRefBy b!"motan2" b!"a" b!"g"],
    [.build 0, .store 0, .build 1, .store 1, .wait, .join],
    { service := b!"a", group := b!"g", version := [], protocol := b!"cedrus" }, 0,
    by simp [Spec.NoReload], by decide +kernel, by decide +kernel, by decide +kernel⟩

/-- **C98 fails** for names with underscores: different references have one key. -/
theorem cluster_key_underscore_violated : ∃ u v : URL,
    u.group ≠ v.group ∧ u.protocol = v.protocol ∧ u.path = v.path ∧ clusterKey u = clusterKey v :=
  ⟨{ protocol := b!"m", path := b!"a", group := b!"g_1", params := some [(b!"version", b!"2")] },
    { protocol := b!"m", path := b!"a", group := b!"g", params := some [(b!"version", b!"1_2")] },
    by decide +kernel, rfl, rfl, by decide +kernel⟩

/-- **C98 fails** if a reload comes into the last step of a subscription: in the end commands, filters and the page have
a cluster that was destroyed. -/
theorem start_reload_violated : ∃ (E : Reload.Env) (refs : List URL) (os : List Start.Op) (c : Nat),
    let s := Start.run E (launch {} refs) os
    (∀ t ∈ s.tasks, t.phase = .done) ∧ s.core.pending = none ∧ c ∈ told s ∧ c ∈ s.core.destroyed ∧ ¬ Spec.Routed s c := by
  refine ⟨exReloadEnv, [exRef b!"a" b!"g"], [.build 0, .begin [] [], .swap, .store 0], 0, ?_, by decide +kernel, by decide +kernel,
    by decide +kernel, ?_⟩
  · decide +kernel
  · rintro ⟨i, ⟨p, h⟩, _⟩
    simp [Spec.itemsOf, Start.run, Start.step, Start.build, Start.begin, Start.swap, Start.store, launch, initCluster, Reload.begin,
      Reload.swap] at h

/-- **C98 fails** once the time is over: the goroutine that waits for the others never ends, whatever happens
afterwards. -/
theorem start_leak_violated (E : Reload.Env) (s : Start.St) (h : s.main = .timeout) (hw : s.waiter ≠ .ended) (os : List Start.Op) :
    (Start.run E s os).waiter ≠ .ended := by
  have : ∀ os, (Start.run E s os).main = .timeout ∧ (Start.run E s os).waiter ≠ .ended := by
    refine start_snoc ⟨h, hw⟩ (fun os o ih => ?_)
    rw [start_run_snoc]
    by_cases ho : o ≠ .timer ∧ o ≠ .wait ∧ o ≠ .join
    · obtain ⟨h1, h2⟩ := main_step E (Start.run E s os) o ho
      rw [h1, h2]; exact ih
    · cases o with
      | timer => simpa [Start.step, ih.1] using ih
      | wait =>
        simp only [Start.step]
        split
        · exact ⟨ih.1, by simp⟩
        · exact ih
      | join => simpa [Start.step, ih.1] using ih
      | _ => exact absurd ⟨by simp, by simp, by simp⟩ ho
  exact (this os).2

/-- **C98 fails** for a service in two groups if the time is over before both clusters are built: a request for the one
group is sent to the other group's servers. It stays so if the second cluster fails. -/
theorem start_wrong_group_violated : ∃ (E : Reload.Env) (refs : List URL) (os : List Start.Op) (r : Routing.Req),
    let s := Start.run E (launch {} refs) os
    let s' := Start.run E s [.crash 1]
    let s'' := Start.run E s [.build 1]
    (∀ o ∈ os, Spec.NoReload o) ∧ s.main = .timeout ∧ r.group = b!"h" ∧
    findCluster s.core.table r = .ok 0 ∧ findCluster s'.core.table r = .ok 0 ∧ findCluster s''.core.table r = .ok 1 ∧
    s''.core.table.items.map (fun i => (i.cluster, i.url.group)) = [(0, b!"g"), (1, b!"h")] :=
  ⟨exReloadEnv, [exRef b!"a" b!"g", exRef b!"a" b!"h"], [.build 0, .timer],
    { service := b!"a", group := b!"h", version := [], protocol := [] },
    by simp [Spec.NoReload], by decide +kernel, rfl, by decide +kernel, by decide +kernel, by decide +kernel, by decide +kernel⟩

/-- **C98 fails** for a request that fits two references: which one it is sent to is a matter of which cluster is built
first, so that it can change from start to start. -/
theorem start_order_violated : ∃ (E : Reload.Env) (refs : List URL) (os os' : List Start.Op) (r : Routing.Req),
    let s := Start.run E (launch {} refs) os
    let s' := Start.run E (launch {} refs) os'
    let target := fun s : Start.St => (findCluster s.core.table r).toOption.map fun c =>
      (s.core.table.items.filter (·.cluster = c)).map (·.url.protocol)
    s.main = .complete ∧ s'.main = .complete ∧ target s = some [b!"motan2"] ∧ target s' = some [b!"motan"] :=
  ⟨exReloadEnv, [exRefBy b!"motan2" b!"a" b!"g", exRefBy b!"motan" b!"a" b!"g"],
    [.build 0, .build 1, .store 0, .store 1, .wait, .join], [.build 1, .build 0, .store 0, .store 1, .wait, .join],
    { service := b!"a", group := b!"g", version := [], protocol := b!"motan" },
    by decide +kernel, by decide +kernel, by decide +kernel, by decide +kernel⟩

/-! ## A concrete start -/

namespace StartEx

def refs : List URL := [exRef b!"a" b!"g", exRef b!"b" b!"g", exRef b!"b" b!"h", exRef b!"c" b!"g"]

/-- The second one fails, the others end in another order than they began; the time is over in between. -/
def ops : List Start.Op := [.build 2, .crash 1, .build 0, .timer, .store 0, .store 2, .build 3, .store 3, .wait]

def final : Start.St := Start.run exReloadEnv (launch {} refs) ops

example : final.main = .timeout ∧ final.waiter = .sending := by decide +kernel

theorem final_ended : ∀ t ∈ final.tasks, t.phase = .done ∨ t.phase = .failed := by decide +kernel

example : final.core.table.items.map (fun i => (i.cluster, i.url.path, i.url.group)) =
    [(0, b!"b", b!"h"), (1, b!"a", b!"g"), (2, b!"c", b!"g")] := by decide +kernel

theorem agree : Spec.Agree final :=
  start_told exReloadEnv {} rfl
    ⟨by decide, fun c => ⟨fun h => by simp [told] at h, fun ⟨i, ⟨p, h⟩, _⟩ => by simp [Spec.itemsOf] at h⟩⟩
    (by simp [told]) refs (by decide +kernel) (by decide +kernel) ops (by simp [ops, Spec.NoReload]) final_ended

example : told final = [1, 0, 2] := by decide +kernel

example : referPage (· = 1) final = [(b!"g_1.0_motan2_a", true), (b!"h_1.0_motan2_b", false), (b!"g_1.0_motan2_c", false)] := by
  decide +kernel

/-- A start in time. -/
example : (Start.run exReloadEnv (launch {} refs)
    [.build 2, .crash 1, .store 2, .build 0, .build 3, .store 3, .store 0, .wait, .join]).main = .complete := by decide +kernel

/-- A reload afterwards: one reference stays, one is new. -/
example : final.core.pending = none ∧
    ((Spec.references final.core [] [exRef b!"a" b!"g", exRef b!"d" b!"g"]).map fun u => clusterKey (fill exReloadEnv u)).Nodup ∧
    told (Start.reload exReloadEnv final [] [exRef b!"a" b!"g", exRef b!"d" b!"g"]) = [1, 3] ∧
    (Start.reload exReloadEnv final [] [exRef b!"a" b!"g", exRef b!"d" b!"g"]).core.destroyed = [0, 2] := by decide +kernel

example : Spec.PlainParts (exRef b!"a" b!"g") := by refine ⟨?_, ?_, ?_⟩ <;> decide +kernel

end StartEx

end Motan.Props
