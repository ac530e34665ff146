import Verif.Model.Metrics
import Verif.Props.Url

/-!
# C45: metric events are neither lost nor counted twice
-/

namespace Motan.Props

open Metrics (Event Kind Metric Item Snap Worker Act)

/-! ## What is counted -/

/-- What an event says: the statistic item and the metric it is for, its kind and its value. -/
abbrev Spec.Reading := Bytes × Bytes × Kind × Int

/-- What an event says. -/
def Spec.reading (runes : Bytes → List UInt32) (e : Event) : Spec.Reading :=
  (e.group ++ e.groupSuffix ++ e.service, Metrics.metricKey runes e, e.kind, e.value)

/-- What the metric objects of a registry got, for the item with key `k`. -/
def Spec.registryReadings (k : Bytes) (r : Metrics.Registry) : List Spec.Reading :=
  r.flatMap fun (key, m) => m.updates.map fun v => (k, key, m.kind, v)

/-- The event a worker is busy with. -/
def Spec.workerEvent : Worker → Option Event
  | .idle => none
  | .got e | .absent e | .item e _ | .reg e _ _ | .missing e _ | .reg2 e _ | .ready e _ => some e

/-- What the live items got since their last snapshot. -/
def Spec.liveReadings (s : Metrics.St) : List Spec.Reading :=
  s.itemList.flatMap fun it => Spec.registryReadings (it.group ++ it.groupSuffix ++ it.service) (s.registry it.holder)

/-- What all snapshots ever taken got. -/
def Spec.snapReadings (s : Metrics.St) : List Spec.Reading :=
  s.snaps.flatMap fun sn => Spec.registryReadings (sn.group ++ sn.groupSuffix ++ sn.service) (s.registry sn.holder)

/-- What an event adds to the `Count` of its metric. -/
def Spec.amount : Kind → Int → Int
  | .counter, v => v
  | .histogram, _ => 1
  | .gauge, _ => 0

/-- The sum of what events add to the `Count` of metric `key` of item `k`. -/
def Spec.total (runes : Bytes → List UInt32) (k key : Bytes) (l : List Event) : Int :=
  (l.map fun e => if e.group ++ e.groupSuffix ++ e.service = k ∧ Metrics.metricKey runes e = key then Spec.amount e.kind e.value else 0).sum

/-- The `Count` a registry shows for a key. -/
def Spec.registryCount (r : Metrics.Registry) (key : Bytes) : Int := ((AMap.load r key).map Metric.count).getD 0

/-! ## Counting lemmas -/

def itemName (it : Item) : Bytes := it.group ++ it.groupSuffix ++ it.service
def snapName (sn : Snap) : Bytes := sn.group ++ sn.groupSuffix ++ sn.service

/-- All registries with their items' keys. -/
def owners (s : Metrics.St) : List (Bytes × Nat) :=
  s.itemList.map (fun it => (itemName it, it.holder)) ++ s.snaps.map fun sn => (snapName sn, sn.holder)

def storedIn (regs : List Metrics.Registry) (o : List (Bytes × Nat)) : List Spec.Reading :=
  o.flatMap fun p => Spec.registryReadings p.1 ((regs[p.2]?).getD [])

theorem stored_eq (s : Metrics.St) : Spec.liveReadings s ++ Spec.snapReadings s = storedIn s.regs (owners s) := by
  rw [storedIn, owners, List.flatMap_append, List.flatMap_map, List.flatMap_map]
  rfl

def evCnt (runes : Bytes → List UInt32) (t : Spec.Reading) (l : List Event) : Nat := (l.map (Spec.reading runes)).count t

theorem evCnt_append (runes) (t) (l l' : List Event) : evCnt runes t (l ++ l') = evCnt runes t l + evCnt runes t l' := by
  rw [evCnt, List.map_append, List.count_append]; rfl

theorem evCnt_cons (runes) (t) (e : Event) (l : List Event) : evCnt runes t (e :: l) = evCnt runes t [e] + evCnt runes t l :=
  evCnt_append runes t [e] l

def inFlight (ws : List Worker) : List Event := ws.flatMap fun w => (Spec.workerEvent w).toList

theorem evCnt_set (runes) (t) {ws : List Worker} {w : Nat} {a : Worker} (h : ws[w]? = some a) (b : Worker) :
    evCnt runes t (inFlight (ws.set w b)) + evCnt runes t (Spec.workerEvent a).toList =
      evCnt runes t (inFlight ws) + evCnt runes t (Spec.workerEvent b).toList := by
  induction ws generalizing w with
  | nil => simp at h
  | cons x ws ih =>
    cases w with
    | zero =>
      simp only [List.getElem?_cons_zero, Option.some.injEq] at h
      subst h
      simp only [List.set_cons_zero, inFlight, List.flatMap_cons, evCnt_append]; omega
    | succ w =>
      have := ih (by simpa using h)
      simp only [inFlight] at this
      simp only [List.set_cons_succ, inFlight, List.flatMap_cons, evCnt_append]; omega

theorem count_stored_congr {o : List (Bytes × Nat)} {regs regs' : List Metrics.Registry}
    (h : ∀ p ∈ o, Spec.registryReadings p.1 ((regs'[p.2]?).getD []) = Spec.registryReadings p.1 ((regs[p.2]?).getD [])) :
    storedIn regs' o = storedIn regs o := by
  induction o with
  | nil => rfl
  | cons p o ih =>
    have e1 := h p (List.mem_cons_self ..)
    have e2 := ih fun q hq => h q (List.mem_cons_of_mem _ hq)
    simp only [storedIn] at e2 ⊢
    rw [List.flatMap_cons, List.flatMap_cons, e1, e2]

theorem count_stored_one {o : List (Bytes × Nat)} {regs regs' : List Metrics.Registry} {k : Bytes} {r : Nat}
    (hm : (k, r) ∈ o) (hn : (o.map Prod.snd).Nodup) (hne : ∀ j, j ≠ r → (regs'[j]?).getD [] = (regs[j]?).getD [])
    {t x : Spec.Reading}
    (hr : (Spec.registryReadings k ((regs'[r]?).getD [])).count t = (Spec.registryReadings k ((regs[r]?).getD [])).count t + [x].count t) :
    (storedIn regs' o).count t = (storedIn regs o).count t + [x].count t := by
  induction o with
  | nil => cases hm
  | cons p o ih =>
    rw [List.map_cons, List.nodup_cons] at hn
    rcases List.mem_cons.mp hm with rfl | hm
    · have : storedIn regs' o = storedIn regs o := count_stored_congr fun q hq => by
        rw [hne q.2 fun e => hn.1 (List.mem_map.mpr ⟨q, hq, e⟩)]
      simp only [storedIn] at this ⊢
      rw [List.flatMap_cons, List.flatMap_cons, List.count_append, List.count_append, this]
      show (Spec.registryReadings k ((regs'[r]?).getD [])).count t + _ = (Spec.registryReadings k ((regs[r]?).getD [])).count t + _ + _
      omega
    · have e := ih hm hn.2
      have : p.2 ≠ r := fun e => hn.1 (e ▸ List.mem_map_of_mem (f := Prod.snd) hm)
      simp only [storedIn] at e ⊢
      rw [List.flatMap_cons, List.flatMap_cons, List.count_append, List.count_append, e, hne _ this]
      omega

theorem readings_register (k : Bytes) (r : Metrics.Registry) (key : Bytes) (kd : Kind) :
    Spec.registryReadings k (Metrics.getOrRegister r key kd) = Spec.registryReadings k r := by
  rw [Metrics.getOrRegister]
  cases h : AMap.load r key with
  | some m => rfl
  | none =>
    simp only
    have : ∀ r : Metrics.Registry, AMap.load r key = none →
        Spec.registryReadings k (AMap.store r key { kind := kd }) = Spec.registryReadings k r := by
      intro r hr
      induction r with
      | nil => rfl
      | cons p r ih =>
        obtain ⟨a, b⟩ := p
        rw [AMap.load_cons] at hr
        split at hr
        · cases hr
        · rename_i hne
          have e := ih hr
          simp only [Spec.registryReadings] at e ⊢
          rw [AMap.store, if_neg hne, List.flatMap_cons, e]
          rfl
    exact this r h

theorem readings_bump (k : Bytes) (r : Metrics.Registry) (key : Bytes) (v : Int) {m : Metric}
    (h : AMap.load r key = some m) (t : Spec.Reading) :
    (Spec.registryReadings k (Metrics.bump r key v)).count t =
      (Spec.registryReadings k r).count t + [((k, key, m.kind, v) : Spec.Reading)].count t := by
  rw [Metrics.bump, h]
  simp only
  induction r with
  | nil => cases h
  | cons p r ih =>
    obtain ⟨a, b⟩ := p
    rw [AMap.load_cons] at h
    split at h
    · rename_i e
      cases h
      subst e
      rw [AMap.store, if_pos rfl]
      simp only [Spec.registryReadings, List.flatMap_cons, List.map_append, List.map_cons, List.map_nil, List.count_append]
      omega
    · rename_i hne
      have e := ih h
      simp only [Spec.registryReadings] at e ⊢
      rw [AMap.store, if_neg hne, List.flatMap_cons, List.flatMap_cons, List.count_append, List.count_append, e]
      omega

theorem registry_modify {s : Metrics.St} {r : Nat} (h : r < s.regs.length) (j : Nat) (f : Metrics.Registry → Metrics.Registry) :
    ((s.regs.modify r f)[j]?).getD [] = if r = j then f (s.registry j) else s.registry j := by
  rw [List.getElem?_modify]
  by_cases hj : r = j
  · subst hj
    rw [if_pos rfl, Metrics.St.registry, List.getElem?_eq_getElem h]
    simp
  · rw [if_neg hj, Metrics.St.registry]
    simp [hj]

theorem perm_cons_middle {α : Type} (a : α) (l l' : List α) : (l ++ a :: l').Perm (a :: (l ++ l')) := List.perm_middle

/-! ## The invariant -/

/-- A worker holds what belongs to its event. -/
def WorkerOk (runes : Bytes → List UInt32) (s : Metrics.St) : Worker → Prop
  | .idle | .got _ | .absent _ => True
  | .item e n | .missing e n => ∃ it, s.itemList[n]? = some it ∧ itemName it = Metrics.itemKey e
  | .reg e n r => (∃ it, s.itemList[n]? = some it ∧ itemName it = Metrics.itemKey e) ∧ (Metrics.itemKey e, r) ∈ owners s
  | .reg2 e r => (Metrics.itemKey e, r) ∈ owners s
  | .ready e r => (Metrics.itemKey e, r) ∈ owners s ∧ ∃ m, AMap.load (s.registry r) (Metrics.metricKey runes e) = some m

structure MetricsInv (runes : Bytes → List UInt32) (s : Metrics.St) : Prop where
  nodup : ((owners s).map Prod.snd).Nodup
  bound : ∀ p ∈ owners s, p.2 < s.regs.length
  items : ∀ k n, AMap.load s.items k = some n → ∃ it, s.itemList[n]? = some it ∧ itemName it = k
  workers : ∀ (w : Nat) x, s.workers[w]? = some x → WorkerOk runes s x
  keys : ∀ (r : Nat) g, s.regs[r]? = some g → AMap.NodupKeys g
  counts : ∀ t, evCnt runes t s.submitted = evCnt runes t s.dropped + evCnt runes t s.queue + evCnt runes t (inFlight s.workers) +
    evCnt runes t s.failed + (storedIn s.regs (owners s)).count t

/-- What grows and never shrinks. -/
structure Grows (s s' : Metrics.St) : Prop where
  items : ∀ (n : Nat) it, s.itemList[n]? = some it → ∃ it', s'.itemList[n]? = some it' ∧ itemName it' = itemName it
  owners : ∀ p, p ∈ owners s → p ∈ Props.owners s'
  keys : ∀ (r : Nat) key m, AMap.load (s.registry r) key = some m → ∃ m', AMap.load (s'.registry r) key = some m' ∧ m'.kind = m.kind

theorem Grows.refl (s : Metrics.St) : Grows s s :=
  ⟨fun _ it h => ⟨it, h, rfl⟩, fun _ h => h, fun _ _ m h => ⟨m, h, rfl⟩⟩

theorem WorkerOk.mono {runes} {s s' : Metrics.St} (h : Grows s s') {x : Worker} (hx : WorkerOk runes s x) : WorkerOk runes s' x := by
  have hit : ∀ {n : Nat} {k : Bytes}, (∃ it, s.itemList[n]? = some it ∧ itemName it = k) →
      ∃ it, s'.itemList[n]? = some it ∧ itemName it = k := by
    rintro n k ⟨it, h1, h2⟩
    obtain ⟨it', h3, h4⟩ := h.items n it h1
    exact ⟨it', h3, h4.trans h2⟩
  cases x with
  | idle => trivial
  | got e => trivial
  | absent e => trivial
  | item e n => exact hit hx
  | missing e n => exact hit hx
  | reg e n r => exact ⟨hit hx.1, h.owners _ hx.2⟩
  | reg2 e r => exact h.owners _ hx
  | ready e r =>
    obtain ⟨h1, m, h2⟩ := hx
    obtain ⟨m', h3, _⟩ := h.keys _ _ _ h2
    exact ⟨h.owners _ h1, m', h3⟩

/-- All workers are all right after worker `w` became `x`. -/
theorem workers_set {runes} {s s' : Metrics.St} (hi : MetricsInv runes s) (hg : Grows s s') {w : Nat} {x : Worker}
    (hw : s'.workers = s.workers.set w x) (hx : WorkerOk runes s' x) :
    ∀ (v : Nat) y, s'.workers[v]? = some y → WorkerOk runes s' y := by
  intro v y hy
  rw [hw, List.getElem?_set] at hy
  split at hy
  · split at hy
    · cases hy; exact hx
    · cases hy
  · exact (hi.workers v y hy).mono hg

theorem registry_lt {s : Metrics.St} {r : Nat} {key : Bytes} {m : Metric} (h : AMap.load (s.registry r) key = some m) :
    r < s.regs.length := by
  refine Nat.lt_of_not_le fun hle => ?_
  rw [Metrics.St.registry, List.getElem?_eq_none_iff.mpr hle] at h
  cases h

/-- Only a worker's place changes. -/
theorem inv_worker {runes} {s : Metrics.St} (hi : MetricsInv runes s) {w : Nat} {a b : Worker} (hw : s.workers[w]? = some a)
    (he : Spec.workerEvent b = Spec.workerEvent a) (hb : WorkerOk runes s b) :
    MetricsInv runes { s with workers := s.workers.set w b } ∧ Grows s { s with workers := s.workers.set w b } := by
  have hg : Grows s { s with workers := s.workers.set w b } :=
    ⟨fun _ it h => ⟨it, h, rfl⟩, fun _ h => h, fun _ _ m h => ⟨m, h, rfl⟩⟩
  refine ⟨⟨hi.nodup, hi.bound, hi.items, workers_set hi hg rfl (hb.mono hg), hi.keys, fun t => ?_⟩, hg⟩
  have h1 := hi.counts t
  have h2 := evCnt_set runes t hw b
  show evCnt runes t s.submitted = evCnt runes t s.dropped + evCnt runes t s.queue + evCnt runes t (inFlight (s.workers.set w b)) +
    evCnt runes t s.failed + (storedIn s.regs (owners s)).count t
  rw [he] at h2
  omega

theorem work_inv {runes} {s : Metrics.St} (hi : MetricsInv runes s) (w : Nat) :
    MetricsInv runes (Metrics.work runes s w) ∧ Grows s (Metrics.work runes s w) := by
  rw [Metrics.work]
  split
  · exact ⟨hi, .refl s⟩
  · rename_i hw
    split
    · exact ⟨hi, .refl s⟩
    · rename_i e q hq
      have hg : Grows s { s with queue := q, workers := s.workers.set w (.got e) } :=
        ⟨fun _ it h => ⟨it, h, rfl⟩, fun _ h => h, fun _ _ m h => ⟨m, h, rfl⟩⟩
      refine ⟨⟨hi.nodup, hi.bound, hi.items, workers_set hi hg rfl trivial, hi.keys, fun t => ?_⟩, hg⟩
      have h1 := hi.counts t
      have h2 := evCnt_set runes t hw (.got e)
      rw [hq, evCnt_cons] at h1
      show evCnt runes t s.submitted = evCnt runes t s.dropped + evCnt runes t q + evCnt runes t (inFlight (s.workers.set w (.got e))) +
        evCnt runes t s.failed + (storedIn s.regs (owners s)).count t
      simp only [Spec.workerEvent, Option.toList_none, Option.toList_some, show evCnt runes t [] = 0 from rfl] at h2
      omega
  · rename_i e hw
    split
    · rename_i it hit
      exact inv_worker hi hw rfl (hi.items _ _ hit)
    · exact inv_worker hi hw rfl trivial
  · rename_i e hw
    rw [Metrics.putAbsent]
    cases hl : AMap.load s.items (Metrics.itemKey e) with
    | some n =>
      simp only
      exact inv_worker hi hw rfl (hi.items _ _ hl)
    | none =>
      simp only
      generalize hs' : ({ s with
        workers := s.workers.set w (.item e s.itemList.length)
        items := AMap.store s.items (Metrics.itemKey e) s.itemList.length
        itemList := s.itemList ++
          [({ group := e.group, groupSuffix := e.groupSuffix, service := e.service, holder := s.regs.length } : Item)]
        regs := s.regs ++ [[]] } : Metrics.St) = s'
      have ho : owners s' = s.itemList.map (fun it => (itemName it, it.holder)) ++
          (Metrics.itemKey e, s.regs.length) :: s.snaps.map (fun sn => (snapName sn, sn.holder)) := by
        subst hs'
        rw [owners, List.map_append, List.append_assoc]
        rfl
      have hreg : ∀ j : Nat, ((s.regs ++ [[]])[j]?).getD [] = (s.regs[j]?).getD [] := by
        intro j
        rw [List.getElem?_append]
        split
        · rfl
        · rename_i hj
          rw [List.getElem?_eq_none_iff.mpr (Nat.not_lt.mp hj), List.getElem?_singleton]
          split <;> rfl
      have hg : Grows s s' := by
        refine ⟨fun n it h => ⟨it, ?_, rfl⟩, fun p hp => ?_, fun r key m h => ⟨m, ?_, rfl⟩⟩
        · subst hs'
          rw [← h]
          exact List.getElem?_append_left (List.getElem?_eq_some_iff.mp h).1
        · rw [ho]
          rcases List.mem_append.mp hp with hp | hp
          · exact List.mem_append_left _ hp
          · exact List.mem_append_right _ (List.mem_cons_of_mem _ hp)
        · subst hs'
          rw [← h]
          show AMap.load (((s.regs ++ [[]])[r]?).getD []) key = _
          rw [hreg]; rfl
      have hnew : s'.itemList[s.itemList.length]? = some { group := e.group, groupSuffix := e.groupSuffix, service := e.service, holder := s.regs.length } := by
        subst hs'; simp
      refine ⟨⟨?_, ?_, ?_, ?_, ?_, fun t => ?_⟩, hg⟩
      · rw [ho, List.map_append, List.map_cons]
        have := hi.nodup
        rw [owners, List.map_append] at this
        refine (perm_cons_middle _ _ _).nodup_iff.mpr (List.nodup_cons.mpr ⟨fun hm => ?_, this⟩)
        rw [← List.map_append] at hm
        obtain ⟨p, hp, he⟩ := List.mem_map.mp hm
        exact absurd (hi.bound p hp) (he ▸ Nat.lt_irrefl _)
      · intro p hp
        have hl' : s'.regs.length = s.regs.length + 1 := by subst hs'; simp
        rw [hl']
        rw [ho] at hp
        rcases List.mem_append.mp hp with hp | hp
        · exact Nat.lt_succ_of_lt (hi.bound p (List.mem_append_left _ hp))
        · rcases List.mem_cons.mp hp with rfl | hp
          · exact Nat.lt_succ_self _
          · exact Nat.lt_succ_of_lt (hi.bound p (List.mem_append_right _ hp))
      · intro k n hk
        have hk : AMap.load (AMap.store s.items (Metrics.itemKey e) s.itemList.length) k = some n := by subst hs'; exact hk
        rw [AMap.load_store] at hk
        split at hk
        · rename_i hek
          cases hk
          exact ⟨_, hnew, hek⟩
        · obtain ⟨it, h1, h2⟩ := hi.items k n hk
          obtain ⟨it', h3, h4⟩ := hg.items n it h1
          exact ⟨it', h3, h4.trans h2⟩
      · exact workers_set hi hg (x := .item e s.itemList.length) (by subst hs'; rfl) ⟨_, hnew, rfl⟩
      · intro r g hr
        have hr : (s.regs ++ [[]])[r]? = some g := by subst hs'; exact hr
        rw [List.getElem?_append] at hr
        split at hr
        · exact hi.keys r g hr
        · rw [List.getElem?_singleton] at hr
          split at hr
          · cases hr; exact List.nodup_nil
          · cases hr
      · have h1 := hi.counts t
        have h2 := evCnt_set runes t hw (.item e s.itemList.length)
        simp only [Spec.workerEvent] at h2
        have h3 : (storedIn s'.regs (owners s')).count t = (storedIn s.regs (owners s)).count t := by
          rw [ho]
          have : s'.regs = s.regs ++ [[]] := by subst hs'; rfl
          rw [this, show storedIn (s.regs ++ [[]]) = storedIn s.regs from ?_]
          · rw [owners]
            simp only [storedIn, List.flatMap_append, List.flatMap_cons, List.count_append]
            rw [List.getElem?_eq_none_iff.mpr (Nat.le_refl _)]
            simp [Spec.registryReadings]
          · funext o
            exact count_stored_congr fun p _ => by rw [hreg]
        subst hs'
        show evCnt runes t s.submitted = evCnt runes t s.dropped + evCnt runes t s.queue + evCnt runes t (inFlight (s.workers.set w (.item e s.itemList.length))) + evCnt runes t s.failed + _
        rw [h3]
        omega
  · rename_i e n hw
    split
    · exact ⟨hi, .refl s⟩
    · rename_i it hit
      obtain ⟨it', h1, h2⟩ : ∃ it, s.itemList[n]? = some it ∧ itemName it = Metrics.itemKey e := hi.workers w _ hw
      have : it' = it := by rw [hit] at h1; exact (Option.some.inj h1).symm
      subst this
      have hm : (Metrics.itemKey e, it'.holder) ∈ owners s :=
      List.mem_append_left _ (List.mem_map.mpr ⟨it', List.mem_of_getElem? hit, by rw [h2]⟩)
      exact inv_worker hi hw rfl ⟨⟨it', hit, h2⟩, hm⟩
  · rename_i e n r hw
    have hok := hi.workers w _ hw
    split
    · rename_i m hm
      exact inv_worker hi hw rfl ⟨hok.2, m, hm⟩
    · exact inv_worker hi hw rfl hok.1
  · rename_i e n hw
    split
    · exact ⟨hi, .refl s⟩
    · rename_i it hit
      obtain ⟨it', h1, h2⟩ : ∃ it, s.itemList[n]? = some it ∧ itemName it = Metrics.itemKey e := hi.workers w _ hw
      have : it' = it := by rw [hit] at h1; exact (Option.some.inj h1).symm
      subst this
      have hm : (Metrics.itemKey e, it'.holder) ∈ owners s :=
      List.mem_append_left _ (List.mem_map.mpr ⟨it', List.mem_of_getElem? hit, by rw [h2]⟩)
      exact inv_worker hi hw rfl hm
  · rename_i e r hw
    have hok : (Metrics.itemKey e, r) ∈ owners s := hi.workers w _ hw
    have hlt := hi.bound _ hok
    generalize hs' : ({ s with
      regs := s.regs.modify r fun g => Metrics.getOrRegister g (Metrics.metricKey runes e) e.kind
      workers := s.workers.set w (.ready e r) } : Metrics.St) = s'
    have hreg : ∀ j, s'.registry j = if r = j then Metrics.getOrRegister (s.registry j) (Metrics.metricKey runes e) e.kind else s.registry j := by
      intro j
      subst hs'
      exact registry_modify hlt j _
    have hget : ∀ (g : Metrics.Registry) key m, AMap.load g key = some m →
        AMap.load (Metrics.getOrRegister g (Metrics.metricKey runes e) e.kind) key = some m := by
      intro g key m h
      rw [Metrics.getOrRegister]
      split
      · exact h
      · rename_i hn
        rw [AMap.load_store, if_neg (fun e => by rw [e, h] at hn; cases hn)]
        exact h
    have hg : Grows s s' := by
      refine ⟨fun n it h => ⟨it, by subst hs'; exact h, rfl⟩, fun p hp => by subst hs'; exact hp, fun j key m h => ⟨m, ?_, rfl⟩⟩
      rw [hreg]
      split
      · exact hget _ _ _ h
      · exact h
    have ho : owners s' = owners s := by subst hs'; rfl
    refine ⟨⟨ho ▸ hi.nodup, ?_, by subst hs'; exact hi.items, ?_, ?_, fun t => ?_⟩, hg⟩
    · rw [ho]
      subst hs'
      intro p hp
      rw [List.length_modify]
      exact hi.bound p hp
    · refine workers_set hi hg (x := .ready e r) (by subst hs'; rfl) ⟨ho ▸ hok, ?_⟩
      rw [hreg, if_pos rfl, Metrics.getOrRegister]
      cases h : AMap.load (s.registry r) (Metrics.metricKey runes e) with
      | some m => exact ⟨m, h⟩
      | none => exact ⟨_, AMap.load_store_self _ _ _⟩
    · intro j g hj
      have hj : (s.regs.modify r fun g => Metrics.getOrRegister g (Metrics.metricKey runes e) e.kind)[j]? = some g := by
        subst hs'; exact hj
      rw [List.getElem?_modify] at hj
      cases hs : s.regs[j]? with
      | none => rw [hs] at hj; cases hj
      | some g' =>
        rw [hs] at hj
        have := hi.keys j g' hs
        simp only [Option.map_eq_map, Option.map_some, Option.some.injEq] at hj
        split at hj
        · subst hj
          rw [Metrics.getOrRegister]
          split
          · exact this
          · exact AMap.nodupKeys_store this _ _
        · subst hj; exact this
    · have h1 := hi.counts t
      have h2 := evCnt_set runes t hw (.ready e r)
      simp only [Spec.workerEvent] at h2
      have h3 : storedIn s'.regs (owners s') = storedIn s.regs (owners s) := by
        rw [ho]
        refine count_stored_congr fun p _ => ?_
        show Spec.registryReadings p.1 (s'.registry p.2) = Spec.registryReadings p.1 (s.registry p.2)
        rw [hreg]
        split
        · exact readings_register ..
        · rfl
      rw [h3]
      subst hs'
      show evCnt runes t s.submitted = evCnt runes t s.dropped + evCnt runes t s.queue + evCnt runes t (inFlight (s.workers.set w (.ready e r))) + evCnt runes t s.failed + _
      omega
  · rename_i e r hw
    obtain ⟨hok, _⟩ : (Metrics.itemKey e, r) ∈ owners s ∧ ∃ m, AMap.load (s.registry r) (Metrics.metricKey runes e) = some m :=
      hi.workers w _ hw
    have hlt := hi.bound _ hok
    split
    · exact ⟨hi, .refl s⟩
    · rename_i m hm
      split
      · rename_i hk
        generalize hs' : ({ s with
          regs := s.regs.modify r fun g => Metrics.bump g (Metrics.metricKey runes e) e.value
          workers := s.workers.set w .idle } : Metrics.St) = s'
        have hreg : ∀ j, s'.registry j = if r = j then Metrics.bump (s.registry j) (Metrics.metricKey runes e) e.value else s.registry j := by
          intro j
          subst hs'
          exact registry_modify hlt j _
        have hg : Grows s s' := by
          refine ⟨fun n it h => ⟨it, by subst hs'; exact h, rfl⟩, fun p hp => by subst hs'; exact hp, fun j key m' h => ?_⟩
          rw [hreg]
          split
          · rename_i hj
            subst hj
            rw [Metrics.bump, hm]
            simp only
            rw [AMap.load_store]
            split
            · rename_i hkk; subst hkk; rw [hm] at h; cases h; exact ⟨_, rfl, rfl⟩
            · exact ⟨m', h, rfl⟩
          · exact ⟨m', h, rfl⟩
        have ho : owners s' = owners s := by subst hs'; rfl
        refine ⟨⟨ho ▸ hi.nodup, ?_, by subst hs'; exact hi.items, ?_, ?_, fun t => ?_⟩, hg⟩
        · rw [ho]
          subst hs'
          intro p hp
          rw [List.length_modify]
          exact hi.bound p hp
        · exact workers_set hi hg (x := .idle) (by subst hs'; rfl) trivial
        · intro j g hj
          have hj : (s.regs.modify r fun g => Metrics.bump g (Metrics.metricKey runes e) e.value)[j]? = some g := by
            subst hs'; exact hj
          rw [List.getElem?_modify] at hj
          cases hs : s.regs[j]? with
          | none => rw [hs] at hj; cases hj
          | some g' =>
            rw [hs] at hj
            have := hi.keys j g' hs
            simp only [Option.map_eq_map, Option.map_some, Option.some.injEq] at hj
            split at hj
            · subst hj
              rw [Metrics.bump]
              split
              · exact AMap.nodupKeys_store this _ _
              · exact this
            · subst hj; exact this
        · have h1 := hi.counts t
          have h2 := evCnt_set runes t hw .idle
          simp only [Spec.workerEvent, Option.toList_none, Option.toList_some, show evCnt runes t [] = 0 from rfl] at h2
          have h3 : (storedIn s'.regs (owners s')).count t = (storedIn s.regs (owners s)).count t + [Spec.reading runes e].count t := by
            rw [ho]
            refine count_stored_one hok hi.nodup (fun j hj => ?_) ?_
            · show s'.registry j = s.registry j
              rw [hreg, if_neg fun e => hj e.symm]
            · show (Spec.registryReadings _ (s'.registry r)).count t = (Spec.registryReadings _ (s.registry r)).count t + _
              rw [hreg, if_pos rfl, readings_bump _ _ _ _ hm, hk]
              rfl
          rw [h3]
          subst hs'
          have h4 : evCnt runes t [e] = [Spec.reading runes e].count t := rfl
          show evCnt runes t s.submitted = evCnt runes t s.dropped + evCnt runes t s.queue + evCnt runes t (inFlight (s.workers.set w .idle)) + evCnt runes t s.failed + _
          omega
      · have hg : Grows s { s with failed := s.failed ++ [e], workers := s.workers.set w .idle } :=
          ⟨fun _ it h => ⟨it, h, rfl⟩, fun _ h => h, fun _ _ m h => ⟨m, h, rfl⟩⟩
        refine ⟨⟨hi.nodup, hi.bound, hi.items, workers_set hi hg rfl trivial, hi.keys, fun t => ?_⟩, hg⟩
        have h1 := hi.counts t
        have h2 := evCnt_set runes t hw .idle
        simp only [Spec.workerEvent, Option.toList_none, Option.toList_some, show evCnt runes t [] = 0 from rfl] at h2
        show evCnt runes t s.submitted = evCnt runes t s.dropped + evCnt runes t s.queue + evCnt runes t (inFlight (s.workers.set w .idle)) + evCnt runes t (s.failed ++ [e]) + (storedIn s.regs (owners s)).count t
        rw [evCnt_append]
        omega

theorem submit_inv {runes} {s : Metrics.St} (hi : MetricsInv runes s) (cap : Nat) (e : Event) :
    MetricsInv runes (Metrics.submit cap s e) ∧ Grows s (Metrics.submit cap s e) := by
  rw [Metrics.submit]
  split
  · have hg : Grows s { s with queue := s.queue ++ [e], submitted := s.submitted ++ [e] } :=
      ⟨fun _ it h => ⟨it, h, rfl⟩, fun _ h => h, fun _ _ m h => ⟨m, h, rfl⟩⟩
    refine ⟨⟨hi.nodup, hi.bound, hi.items, fun w x hx => (hi.workers w x hx).mono hg, hi.keys, fun t => ?_⟩, hg⟩
    have h1 := hi.counts t
    show evCnt runes t (s.submitted ++ [e]) = evCnt runes t s.dropped + evCnt runes t (s.queue ++ [e]) + evCnt runes t (inFlight s.workers) +
      evCnt runes t s.failed + (storedIn s.regs (owners s)).count t
    rw [evCnt_append, evCnt_append]
    omega
  · have hg : Grows s { s with submitted := s.submitted ++ [e], dropped := s.dropped ++ [e] } :=
      ⟨fun _ it h => ⟨it, h, rfl⟩, fun _ h => h, fun _ _ m h => ⟨m, h, rfl⟩⟩
    refine ⟨⟨hi.nodup, hi.bound, hi.items, fun w x hx => (hi.workers w x hx).mono hg, hi.keys, fun t => ?_⟩, hg⟩
    have h1 := hi.counts t
    show evCnt runes t (s.submitted ++ [e]) = evCnt runes t (s.dropped ++ [e]) + evCnt runes t s.queue + evCnt runes t (inFlight s.workers) +
      evCnt runes t s.failed + (storedIn s.regs (owners s)).count t
    rw [evCnt_append, evCnt_append]
    omega

theorem read_inv {runes} {s : Metrics.St} (hi : MetricsInv runes s) (n : Nat) (key : Bytes) :
    MetricsInv runes (Metrics.read s n key) ∧ Grows s (Metrics.read s n key) := by
  rw [Metrics.read]
  split
  · exact ⟨hi, .refl s⟩
  · rename_i sn hsn
    split
    · exact ⟨hi, .refl s⟩
    · rename_i m _
      have ho : owners { s with snaps := s.snaps.set n { sn with cache := AMap.store sn.cache key m } } = owners s := by
        simp only [owners]
        congr 1
        apply List.ext_getElem?
        intro j
        rw [List.getElem?_map, List.getElem?_map, List.getElem?_set]
        split
        · rename_i hj
          subst hj
          have hlt := (List.getElem?_eq_some_iff.mp hsn).1
          rw [if_pos hlt, hsn]
          rfl
        · rfl
      have hg : Grows s { s with snaps := s.snaps.set n { sn with cache := AMap.store sn.cache key m } } :=
        ⟨fun _ it h => ⟨it, h, rfl⟩, fun _ h => ho ▸ h, fun _ _ m h => ⟨m, h, rfl⟩⟩
      refine ⟨⟨ho ▸ hi.nodup, ho ▸ hi.bound, hi.items, fun w x hx => (hi.workers w x hx).mono hg, hi.keys, fun t => ?_⟩, hg⟩
      rw [ho]
      exact hi.counts t

theorem snapshot_inv {runes} {s : Metrics.St} (hi : MetricsInv runes s) (n : Nat) :
    MetricsInv runes (Metrics.snapshot s n) ∧ Grows s (Metrics.snapshot s n) := by
  rw [Metrics.snapshot]
  split
  · exact ⟨hi, .refl s⟩
  · rename_i it hit
    generalize hs' : ({ s with
      regs := s.regs ++ [[]]
      itemList := s.itemList.set n { it with holder := s.regs.length, lastSnapshot := some s.snaps.length }
      snaps := s.snaps ++ [{ group := it.group, groupSuffix := it.groupSuffix, service := it.service, holder := it.holder }] }
      : Metrics.St) = s'
    have hlt := (List.getElem?_eq_some_iff.mp hit).1
    have hreg : ∀ j : Nat, ((s.regs ++ [[]])[j]?).getD [] = (s.regs[j]?).getD [] := by
      intro j
      rw [List.getElem?_append]
      split
      · rfl
      · rename_i hj
        rw [List.getElem?_eq_none_iff.mpr (Nat.not_lt.mp hj), List.getElem?_singleton]
        split <;> rfl
    have hperm : (owners s').Perm ((itemName it, s.regs.length) :: owners s) := by
      subst hs'
      have hsplit : s.itemList = s.itemList.take n ++ it :: s.itemList.drop (n + 1) := by
        rw [← (List.getElem?_eq_some_iff.mp hit).2, List.getElem_cons_drop, List.take_append_drop]
      simp only [owners]
      conv => lhs; rw [List.set_eq_take_append_cons_drop, if_pos hlt]
      conv => rhs; rw [hsplit]
      simp only [List.map_append, List.map_cons, List.map_nil, List.append_assoc, List.cons_append]
      have a1 : ∀ (x y : Bytes × Nat) (l1 l2 l3 : List (Bytes × Nat)), (l1 ++ x :: (l2 ++ (l3 ++ [y]))).Perm (x :: (l1 ++ y :: (l2 ++ l3))) := by
        intro x y l1 l2 l3
        refine List.perm_middle.trans (.cons _ (.append_left _ ?_))
        rw [← List.append_assoc]
        exact List.perm_append_comm
      exact a1 (itemName it, s.regs.length) (itemName it, it.holder) _ _ _
    have hg : Grows s s' := by
      refine ⟨fun j x h => ?_, fun p hp => hperm.mem_iff.mpr (List.mem_cons_of_mem _ hp), fun r key m h => ⟨m, ?_, rfl⟩⟩
      · subst hs'
        show ∃ it', (s.itemList.set n _)[j]? = some it' ∧ _
        rw [List.getElem?_set]
        split
        · rename_i hj
          subst hj
          rw [hit] at h
          cases h
          exact ⟨_, rfl, rfl⟩
        · exact ⟨x, h, rfl⟩
      · subst hs'
        rw [← h]
        show AMap.load (((s.regs ++ [[]])[r]?).getD []) key = _
        rw [hreg]; rfl
    refine ⟨⟨?_, ?_, ?_, ?_, ?_, fun t => ?_⟩, hg⟩
    · refine (hperm.map Prod.snd).nodup_iff.mpr ?_
      rw [List.map_cons]
      refine List.nodup_cons.mpr ⟨fun hm => ?_, hi.nodup⟩
      obtain ⟨p, hp, he⟩ := List.mem_map.mp hm
      exact absurd (hi.bound p hp) (he ▸ Nat.lt_irrefl _)
    · intro p hp
      have hl' : s'.regs.length = s.regs.length + 1 := by subst hs'; simp
      rw [hl']
      rcases List.mem_cons.mp (hperm.mem_iff.mp hp) with rfl | hp
      · exact Nat.lt_succ_self _
      · exact Nat.lt_succ_of_lt (hi.bound p hp)
    · intro k j hk
      have hk : AMap.load s.items k = some j := by subst hs'; exact hk
      obtain ⟨it, h1, h2⟩ := hi.items k j hk
      obtain ⟨it', h3, h4⟩ := hg.items j it h1
      exact ⟨it', h3, h4.trans h2⟩
    · intro w x hx
      have hx : s.workers[w]? = some x := by subst hs'; exact hx
      exact (hi.workers w x hx).mono hg
    · intro r g hr
      have hr : (s.regs ++ [[]])[r]? = some g := by subst hs'; exact hr
      rw [List.getElem?_append] at hr
      split at hr
      · exact hi.keys r g hr
      · rw [List.getElem?_singleton] at hr
        split at hr
        · cases hr; exact List.nodup_nil
        · cases hr
    · have h1 := hi.counts t
      have h3 : (storedIn s'.regs (owners s')).count t = (storedIn s.regs (owners s)).count t := by
        have : s'.regs = s.regs ++ [[]] := by subst hs'; rfl
        rw [this, show storedIn (s.regs ++ [[]]) = storedIn s.regs from ?_]
        · rw [List.Perm.count_eq (show (storedIn s.regs (owners s')).Perm (storedIn s.regs ((itemName it, s.regs.length) :: owners s)) from
            hperm.flatMap_right _)]
          simp only [storedIn, List.flatMap_cons, List.count_append]
          rw [List.getElem?_eq_none_iff.mpr (Nat.le_refl _)]
          simp [Spec.registryReadings]
        · funext o
          exact count_stored_congr fun p _ => by rw [hreg]
      rw [h3]
      subst hs'
      exact h1

theorem step_inv {runes} {s : Metrics.St} (hi : MetricsInv runes s) (cap : Nat) (a : Act) :
    MetricsInv runes (Metrics.step cap runes s a) ∧ Grows s (Metrics.step cap runes s a) := by
  cases a with
  | submit e => exact submit_inv hi cap e
  | work w => exact work_inv hi w
  | snapshot n => exact snapshot_inv hi n
  | read n key => exact read_inv hi n key

theorem start_inv (runes) (n : Nat) : MetricsInv runes (Metrics.start n) := by
  have hw : ∀ (w : Nat) x, (Metrics.start n).workers[w]? = some x → x = .idle := by
    intro w x h
    exact List.eq_of_mem_replicate (List.mem_of_getElem? h)
  refine ⟨List.nodup_nil, (fun p hp => by cases hp), (fun k m h => by cases h), fun w x h => ?_, (fun r g h => by cases h), fun t => ?_⟩
  · rw [hw w x h]; trivial
  · have : inFlight (Metrics.start n).workers = [] := by
      rw [inFlight, List.flatMap_eq_nil_iff]
      intro x hx
      rw [List.eq_of_mem_replicate hx]
      rfl
    rw [this]
    rfl

theorem run_metrics_inv {runes} {s : Metrics.St} (hi : MetricsInv runes s) (cap : Nat) (acts : List Act) :
    MetricsInv runes (Metrics.run cap runes s acts) := by
  induction acts generalizing s with
  | nil => exact hi
  | cons a acts ih => exact ih (step_inv hi cap a).1

/-! ## Conservation -/

theorem inv_perm {runes} {s : Metrics.St} (hi : MetricsInv runes s) :
    (s.submitted.map (Spec.reading runes)).Perm
      ((s.dropped ++ s.queue ++ s.workers.filterMap Spec.workerEvent ++ s.failed).map (Spec.reading runes) ++
        (Spec.liveReadings s ++ Spec.snapReadings s)) := by
  refine List.perm_iff_count.mpr fun t => ?_
  have h := hi.counts t
  rw [stored_eq, List.count_append, List.map_append, List.map_append, List.map_append, List.count_append, List.count_append,
    List.count_append]
  have e : s.workers.filterMap Spec.workerEvent = inFlight s.workers := by
    rw [inFlight]
    induction s.workers with
    | nil => rfl
    | cons x l ih => rw [List.filterMap_cons, List.flatMap_cons, ← ih]; cases Spec.workerEvent x <;> rfl
  rw [e]
  exact h

/-- C45: under any schedule of callers, workers, snapshots and readers, the events submitted are exactly those dropped,
those waiting, those being processed, those whose processing panicked, and those that reached a live item or a
snapshot, each once. -/
theorem events_conserved (cap : Nat) (runes : Bytes → List UInt32) (processors : Nat) (acts : List Act) :
    let s := Metrics.run cap runes (Metrics.start processors) acts
    (s.submitted.map (Spec.reading runes)).Perm
      ((s.dropped ++ s.queue ++ s.workers.filterMap Spec.workerEvent ++ s.failed).map (Spec.reading runes) ++
        (Spec.liveReadings s ++ Spec.snapReadings s)) := by
  exact inv_perm (run_metrics_inv (start_inv runes processors) cap acts)

theorem sum_perm {l l' : List Int} (h : l.Perm l') : l.sum = l'.sum := by
  induction h with
  | nil => rfl
  | cons x _ ih => rw [List.sum_cons, List.sum_cons, ih]
  | swap x y l => simp only [List.sum_cons]; omega
  | trans _ _ h1 h2 => exact h1.trans h2

/-- What a reading adds to the `Count` of metric `key` of item `k`. -/
def adds (k key : Bytes) (t : Spec.Reading) : Int := if t.1 = k ∧ t.2.1 = key then Spec.amount t.2.2.1 t.2.2.2 else 0

theorem total_eq (runes) (k key : Bytes) (l : List Event) :
    Spec.total runes k key l = ((l.map (Spec.reading runes)).map (adds k key)).sum := by
  rw [Spec.total, List.map_map]
  rfl

theorem total_append (runes) (k key : Bytes) (l l' : List Event) :
    Spec.total runes k key (l ++ l') = Spec.total runes k key l + Spec.total runes k key l' := by
  simp only [Spec.total, List.map_append, List.sum_append]

theorem amount_sum (m : Metric) : (m.updates.map (Spec.amount m.kind)).sum = m.count := by
  obtain ⟨k, l⟩ := m
  cases k <;> simp only [Metric.count]
  · rw [show Spec.amount .counter = id from rfl, List.map_id]
  · induction l with
    | nil => rfl
    | cons a l ih => simp only [List.map_cons, List.sum_cons, ih, Spec.amount, List.length_cons]; omega
  · induction l with
    | nil => rfl
    | cons a l ih => simp only [List.map_cons, List.sum_cons, ih, Spec.amount]; omega

theorem registry_sum {r : Metrics.Registry} (hr : AMap.NodupKeys r) (k' k key : Bytes) :
    ((Spec.registryReadings k' r).map (adds k key)).sum = if k' = k then Spec.registryCount r key else 0 := by
  induction r with
  | nil => simp [Spec.registryReadings, Spec.registryCount]
  | cons p r ih =>
    obtain ⟨a, m⟩ := p
    have hr' : a ∉ r.map Prod.fst ∧ AMap.NodupKeys r := by
      rw [AMap.NodupKeys, AMap.keys, List.map_cons, List.nodup_cons] at hr; exact hr
    have e := ih hr'.2
    simp only [Spec.registryReadings] at e ⊢
    rw [List.flatMap_cons, List.map_append, List.sum_append, e, List.map_map]
    have hfun : (adds k key ∘ fun v => (k', a, m.kind, v)) = fun v => if k' = k ∧ a = key then Spec.amount m.kind v else 0 := rfl
    rw [hfun]
    by_cases hk : k' = k
    · rw [if_pos hk, if_pos hk, Spec.registryCount, Spec.registryCount, AMap.load_cons]
      by_cases ha : a = key
      · rw [if_pos ha]
        simp only [hk, ha, and_self, if_true]
        rw [show (fun v => Spec.amount m.kind v) = Spec.amount m.kind from rfl, amount_sum, AMap.load_eq_none.mpr (ha ▸ hr'.1)]
        simp
      · rw [if_neg ha]
        simp only [ha, and_false, if_false]
        rw [sum_zero]; omega
    · rw [if_neg hk, if_neg hk]
      simp only [hk, false_and, if_false]
      rw [sum_zero]; omega
where
  sum_zero (l : List Int) : (l.map fun _ => (0 : Int)).sum = 0 := by
    induction l with
    | nil => rfl
    | cons a l ih => rw [List.map_cons, List.sum_cons, ih]; rfl

/-- C45: for every metric of every item, the sum of the counts submitted is the sum of the counts of all snapshots taken and
of the live item, plus what is waiting, in work, dropped or failed. -/
theorem counts_conserved (cap : Nat) (runes : Bytes → List UInt32) (processors : Nat) (acts : List Act) (k key : Bytes) :
    let s := Metrics.run cap runes (Metrics.start processors) acts
    Spec.total runes k key s.submitted =
      (s.snaps.map fun sn => if sn.group ++ sn.groupSuffix ++ sn.service = k then Spec.registryCount (s.registry sn.holder) key else 0).sum +
      (s.itemList.map fun it => if it.group ++ it.groupSuffix ++ it.service = k then Spec.registryCount (s.registry it.holder) key else 0).sum +
      Spec.total runes k key s.queue + Spec.total runes k key (s.workers.filterMap Spec.workerEvent) +
      Spec.total runes k key s.dropped + Spec.total runes k key s.failed := by
  intro s
  have hi : MetricsInv runes s := run_metrics_inv (start_inv runes processors) cap acts
  have h := sum_perm ((events_conserved cap runes processors acts).map (adds k key))
  have hreg : ∀ r, AMap.NodupKeys (s.registry r) := by
    intro r
    rw [Metrics.St.registry]
    cases hr : s.regs[r]? with
    | none => exact List.nodup_nil
    | some g => exact hi.keys r g hr
  have flat : ∀ {α : Type} (l : List α) (f : α → Bytes) (g : α → Nat),
      ((l.flatMap fun x => Spec.registryReadings (f x) (s.registry (g x))).map (adds k key)).sum =
        (l.map fun x => if f x = k then Spec.registryCount (s.registry (g x)) key else 0).sum := by
    intro α l f g
    induction l with
    | nil => rfl
    | cons x l ih =>
      rw [List.flatMap_cons, List.map_append, List.sum_append, ih, List.map_cons, List.sum_cons, registry_sum (hreg _)]
  rw [List.map_append, List.sum_append, ← total_eq, ← total_eq, total_append, total_append, total_append, List.map_append,
    List.sum_append] at h
  have h1 := flat s.itemList (fun it => it.group ++ it.groupSuffix ++ it.service) Item.holder
  have h2 := flat s.snaps (fun sn => sn.group ++ sn.groupSuffix ++ sn.service) Snap.holder
  change ((Spec.liveReadings s).map (adds k key)).sum = _ at h1
  change ((Spec.snapReadings s).map (adds k key)).sum = _ at h2
  rw [h1, h2] at h
  refine h.trans ?_
  show Spec.total runes k key s.dropped + Spec.total runes k key s.queue +
    Spec.total runes k key (s.workers.filterMap Spec.workerEvent) + Spec.total runes k key s.failed + _ = _
  omega

/-! ## Losses -/

theorem step_submitted {runes} (cap : Nat) (s : Metrics.St) (a : Act) :
    (Metrics.step cap runes s a).submitted = s.submitted ++ (match a with | .submit e => [e] | _ => []) := by
  cases a with
  | submit e => simp only [Metrics.step, Metrics.submit]; split <;> rfl
  | work w =>
    simp only [Metrics.step, Metrics.work, Metrics.putAbsent, List.append_nil]
    repeat' (first | rfl | split)
  | snapshot n => simp only [Metrics.step, Metrics.snapshot, List.append_nil]; split <;> rfl
  | read n key => simp only [Metrics.step, Metrics.read, List.append_nil]; repeat' (first | rfl | split)

/-- What was submitted in a schedule. -/
def Spec.submissions (acts : List Act) : List Event := acts.filterMap fun | .submit e => some e | _ => none

theorem run_submitted {runes} (cap : Nat) (s : Metrics.St) (acts : List Act) :
    (Metrics.run cap runes s acts).submitted = s.submitted ++ Spec.submissions acts := by
  induction acts generalizing s with
  | nil => simp [Metrics.run, Spec.submissions]
  | cons a acts ih =>
    have := ih (Metrics.step cap runes s a)
    rw [step_submitted] at this
    refine this.trans ?_
    rw [List.append_assoc]
    congr 1
    cases a <;> rfl

/-- C45: the record of submitted events is what the callers submitted. -/
theorem submitted_exact (cap : Nat) (runes : Bytes → List UInt32) (processors : Nat) (acts : List Act) :
    (Metrics.run cap runes (Metrics.start processors) acts).submitted = Spec.submissions acts := by
  rw [run_submitted]; rfl

/-- C45: no event is dropped as long as not more events were submitted than the bus has room for. -/
theorem drop_needs_full_bus (cap : Nat) (runes : Bytes → List UInt32) (processors : Nat) (acts : List Act)
    (h : (Spec.submissions acts).length ≤ cap) :
    (Metrics.run cap runes (Metrics.start processors) acts).dropped = [] := by
  have gen : ∀ (acts : List Act) (s : Metrics.St), MetricsInv runes s → s.dropped = [] →
      (s.submitted ++ Spec.submissions acts).length ≤ cap → (Metrics.run cap runes s acts).dropped = [] := by
    intro acts
    induction acts with
    | nil => intro s _ h _; exact h
    | cons a acts ih =>
      intro s hi hd hl
      have hl' : ((Metrics.step cap runes s a).submitted ++ Spec.submissions acts).length ≤ cap := by
        rw [step_submitted]
        refine Nat.le_trans (Nat.le_of_eq ?_) hl
        cases a <;> simp [Spec.submissions]
      refine ih _ (step_inv hi cap a).1 ?_ hl'
      cases a with
      | submit e =>
        rw [Metrics.step, Metrics.submit]
        split
        · exact hd
        · rename_i hq
          exfalso
          have := (inv_perm hi).length_eq
          simp only [List.length_map, List.length_append] at this
          simp only [Spec.submissions, List.filterMap_cons, List.length_append, List.length_cons] at hl
          omega
      | work w =>
        simp only [Metrics.step, Metrics.work, Metrics.putAbsent]
        repeat' (first | exact hd | split)
      | snapshot n => simp only [Metrics.step, Metrics.snapshot]; split <;> exact hd
      | read n key => simp only [Metrics.step, Metrics.read]; repeat' (first | exact hd | split)
  exact gen acts _ (start_inv runes processors) rfl (by simpa [Metrics.start] using h)

/-- There is a submitted event for the metric and the item, of the kind. -/
def Spec.SubmittedFor (runes : Bytes → List UInt32) (l : List Event) (k key : Bytes) (kd : Kind) : Prop :=
  ∃ e ∈ l, e.group ++ e.groupSuffix ++ e.service = k ∧ Metrics.metricKey runes e = key ∧ e.kind = kd

/-- The metric objects are of the kinds of submitted events. -/
structure KindInv (runes : Bytes → List UInt32) (s : Metrics.St) : Prop where
  kinds : ∀ k r key m, (k, r) ∈ owners s → AMap.load (s.registry r) key = some m →
    Spec.SubmittedFor runes s.submitted k key m.kind
  failed : ∀ e ∈ s.failed, ∃ kd, kd ≠ e.kind ∧
    Spec.SubmittedFor runes s.submitted (Metrics.itemKey e) (Metrics.metricKey runes e) e.kind ∧
    Spec.SubmittedFor runes s.submitted (Metrics.itemKey e) (Metrics.metricKey runes e) kd

theorem Spec.SubmittedFor.mono {runes} {l l' : List Event} (h : ∀ e ∈ l, e ∈ l') {k key kd} (hs : Spec.SubmittedFor runes l k key kd) :
    Spec.SubmittedFor runes l' k key kd := by
  obtain ⟨e, h1, h2⟩ := hs
  exact ⟨e, h e h1, h2⟩

theorem worker_submitted {runes} {s : Metrics.St} (hi : MetricsInv runes s) {w : Nat} {x : Worker} {e : Event}
    (hw : s.workers[w]? = some x) (he : Spec.workerEvent x = some e) :
    Spec.SubmittedFor runes s.submitted (Metrics.itemKey e) (Metrics.metricKey runes e) e.kind := by
  have hm : Spec.reading runes e ∈ s.submitted.map (Spec.reading runes) := by
    refine (inv_perm hi).mem_iff.mpr (List.mem_append_left _ (List.mem_map_of_mem (List.mem_append_left _ (List.mem_append_right _ ?_))))
    exact List.mem_filterMap.mpr ⟨x, List.mem_of_getElem? hw, he⟩
  obtain ⟨e', h1, h2⟩ := List.mem_map.mp hm
  simp only [Spec.reading, Prod.mk.injEq] at h2
  exact ⟨e', h1, h2.1, h2.2.1, h2.2.2.1⟩

/-- Nothing but `submitted` and places changes for kinds. -/
theorem kind_keep {runes} {s s' : Metrics.St} (hk : KindInv runes s) (hs : ∀ e ∈ s.submitted, e ∈ s'.submitted)
    (hf : s'.failed = s.failed)
    (hr : ∀ k r key m, (k, r) ∈ owners s' → AMap.load (s'.registry r) key = some m →
      (∃ m', (k, r) ∈ owners s ∧ AMap.load (s.registry r) key = some m' ∧ m'.kind = m.kind) ∨
      Spec.SubmittedFor runes s'.submitted k key m.kind) : KindInv runes s' := by
  constructor
  · intro k r key m ho hm
    rcases hr k r key m ho hm with ⟨m', h1, h2, h3⟩ | h
    · exact h3 ▸ (hk.kinds k r key m' h1 h2).mono hs
    · exact h
  · intro e he
    obtain ⟨kd, h1, h2, h3⟩ := hk.failed e (hf ▸ he)
    exact ⟨kd, h1, h2.mono hs, h3.mono hs⟩

theorem owners_inj {runes} {s : Metrics.St} (hi : MetricsInv runes s) {k k' : Bytes} {r : Nat} (h : (k, r) ∈ owners s)
    (h' : (k', r) ∈ owners s) : k = k' := by
  have hn := hi.nodup
  generalize owners s = l at h h' hn
  induction l with
  | nil => cases h
  | cons p l ih =>
    rw [List.map_cons, List.nodup_cons] at hn
    rcases List.mem_cons.mp h with rfl | h1 <;> rcases List.mem_cons.mp h' with h2 | h2
    · exact (congrArg Prod.fst h2).symm
    · exact absurd (List.mem_map.mpr ⟨_, h2, rfl⟩) hn.1
    · subst h2; exact absurd (List.mem_map.mpr ⟨_, h1, rfl⟩) hn.1
    · exact ih h1 h2 hn.2

theorem kind_step {runes} {s : Metrics.St} (hi : MetricsInv runes s) (hk : KindInv runes s) (cap : Nat) (a : Act) :
    KindInv runes (Metrics.step cap runes s a) := by
  have hsub : ∀ e ∈ s.submitted, e ∈ (Metrics.step cap runes s a).submitted := by
    intro e he; rw [step_submitted]; exact List.mem_append_left _ he
  have hnew : ∀ j : Nat, ((s.regs ++ [[]])[j]?).getD [] = (s.regs[j]?).getD [] := by
    intro j
    rw [List.getElem?_append]
    split
    · rfl
    · rename_i hj
      rw [List.getElem?_eq_none_iff.mpr (Nat.not_lt.mp hj), List.getElem?_singleton]
      split <;> rfl
  have hlast : ∀ key m, ¬ AMap.load (s.registry s.regs.length) key = some m := by
    intro key m h
    exact absurd (registry_lt h) (Nat.lt_irrefl _)
  cases a with
  | submit e =>
    refine kind_keep hk hsub ?_ fun k r key m ho hm => .inl ⟨m, ?_, ?_, rfl⟩
    · rw [Metrics.step, Metrics.submit]; split <;> rfl
    · rw [Metrics.step, Metrics.submit] at ho; split at ho <;> exact ho
    · rw [Metrics.step, Metrics.submit] at hm; split at hm <;> exact hm
  | read n key' =>
    have hg := (read_inv hi n key')
    rw [Metrics.step] at hsub ⊢
    have ho' : owners (Metrics.read s n key') = owners s := by
      rw [Metrics.read]
      split
      · rfl
      · rename_i sn hsn
        split
        · rfl
        · simp only [owners]
          congr 1
          apply List.ext_getElem?
          intro j
          rw [List.getElem?_map, List.getElem?_map, List.getElem?_set]
          split
          · rename_i hj
            subst hj
            rw [if_pos (List.getElem?_eq_some_iff.mp hsn).1, hsn]
            rfl
          · rfl
    have hr : (Metrics.read s n key').regs = s.regs ∧ (Metrics.read s n key').failed = s.failed := by
      rw [Metrics.read]; repeat' (first | exact ⟨rfl, rfl⟩ | split)
    refine kind_keep hk hsub hr.2 fun k r key m ho hm => .inl ⟨m, ho' ▸ ho, ?_, rfl⟩
    rw [← hm, Metrics.St.registry, Metrics.St.registry, hr.1]
  | snapshot n =>
    rw [Metrics.step] at hsub ⊢
    rw [Metrics.snapshot] at hsub ⊢
    split at hsub
    · exact hk
    · rename_i it hit
      refine kind_keep hk hsub rfl fun k r key m ho hm => .inl ⟨m, ?_, ?_, rfl⟩
      · have hm : AMap.load (s.registry r) key = some m := by
          rw [← hm]; show _ = AMap.load (((s.regs ++ [[]])[r]?).getD []) key; rw [hnew]; rfl
        have hne : r ≠ s.regs.length := fun e => hlast key m (e ▸ hm)
        rcases List.mem_append.mp ho with ho | ho
        · obtain ⟨x, hx, he⟩ := List.mem_map.mp ho
          rcases List.mem_or_eq_of_mem_set hx with hx | hx
          · exact List.mem_append_left _ (List.mem_map.mpr ⟨x, hx, he⟩)
          · subst hx
            exact absurd (congrArg Prod.snd he).symm hne
        · obtain ⟨x, hx, he⟩ := List.mem_map.mp ho
          rcases List.mem_append.mp hx with hx | hx
          · exact List.mem_append_right _ (List.mem_map.mpr ⟨x, hx, he⟩)
          · rw [List.mem_singleton] at hx
            subst hx
            exact List.mem_append_left _ (List.mem_map.mpr ⟨it, List.mem_of_getElem? hit, he⟩)
      · rw [← hm]; show _ = AMap.load (((s.regs ++ [[]])[r]?).getD []) key; rw [hnew]; rfl
  | work w =>
    rw [Metrics.step] at hsub ⊢
    rw [Metrics.work] at hsub ⊢
    split
    · exact hk
    · split
      · exact hk
      · exact ⟨hk.kinds, hk.failed⟩
    · split <;> exact ⟨hk.kinds, hk.failed⟩
    · rename_i e hw
      rw [Metrics.putAbsent]
      split
      · exact ⟨hk.kinds, hk.failed⟩
      · refine kind_keep (s := s) hk (fun _ h => h) rfl fun k r key m ho hm => .inl ⟨m, ?_, ?_, rfl⟩
        · have hm : AMap.load (s.registry r) key = some m := by
            rw [← hm]; show _ = AMap.load (((s.regs ++ [[]])[r]?).getD []) key; rw [hnew]; rfl
          have hne : r ≠ s.regs.length := fun e => hlast key m (e ▸ hm)
          rcases List.mem_append.mp ho with ho | ho
          · obtain ⟨x, hx, he⟩ := List.mem_map.mp ho
            rcases List.mem_append.mp hx with hx | hx
            · exact List.mem_append_left _ (List.mem_map.mpr ⟨x, hx, he⟩)
            · rw [List.mem_singleton] at hx
              subst hx
              exact absurd (congrArg Prod.snd he).symm hne
          · exact List.mem_append_right _ ho
        · rw [← hm]; show _ = AMap.load (((s.regs ++ [[]])[r]?).getD []) key; rw [hnew]; rfl
    · split
      · exact hk
      · exact ⟨hk.kinds, hk.failed⟩
    · split <;> exact ⟨hk.kinds, hk.failed⟩
    · split
      · exact hk
      · exact ⟨hk.kinds, hk.failed⟩
    · rename_i e r' hw
      have hok : (Metrics.itemKey e, r') ∈ owners s := hi.workers w _ hw
      have hlt := hi.bound _ hok
      refine kind_keep (s := s) hk (fun _ h => h) rfl fun k r key m ho hm => ?_
      have ho : (k, r) ∈ owners s := ho
      have hm : AMap.load (((s.regs.modify r' _)[r]?).getD []) key = some m := hm
      rw [registry_modify hlt] at hm
      by_cases hr : r' = r
      · rw [if_pos hr, Metrics.getOrRegister] at hm
        cases hl : AMap.load (s.registry r) (Metrics.metricKey runes e) with
        | some m' => rw [hl] at hm; exact .inl ⟨m, ho, hm, rfl⟩
        | none =>
          rw [hl] at hm
          simp only at hm
          rw [AMap.load_store] at hm
          split at hm
          · rename_i hkey
            cases hm
            right
            subst hr
            rw [owners_inj hi ho hok, ← hkey]
            exact worker_submitted hi hw rfl
          · exact .inl ⟨m, ho, hm, rfl⟩
      · rw [if_neg hr] at hm
        exact .inl ⟨m, ho, hm, rfl⟩
    · rename_i e r' hw
      obtain ⟨hok, _⟩ : (Metrics.itemKey e, r') ∈ owners s ∧ ∃ m, AMap.load (s.registry r') (Metrics.metricKey runes e) = some m :=
        hi.workers w _ hw
      have hlt := hi.bound _ hok
      split
      · exact hk
      · rename_i m0 hm0
        split
        · refine kind_keep (s := s) hk (fun _ h => h) rfl fun k r key m ho hm => ?_
          have ho : (k, r) ∈ owners s := ho
          have hm : AMap.load (((s.regs.modify r' _)[r]?).getD []) key = some m := hm
          rw [registry_modify hlt] at hm
          by_cases hr : r' = r
          · subst hr
            rw [if_pos rfl, Metrics.bump, hm0] at hm
            simp only at hm
            rw [AMap.load_store] at hm
            split at hm
            · rename_i hkey
              cases hm
              exact .inl ⟨m0, ho, hkey ▸ hm0, rfl⟩
            · exact .inl ⟨m, ho, hm, rfl⟩
          · rw [if_neg hr] at hm
            exact .inl ⟨m, ho, hm, rfl⟩
        · rename_i hne
          refine ⟨hk.kinds, fun e' he' => ?_⟩
          rcases List.mem_append.mp he' with he' | he'
          · exact hk.failed e' he'
          · rw [List.mem_singleton] at he'
            subst he'
            exact ⟨m0.kind, hne, worker_submitted hi hw rfl, hk.kinds _ _ _ _ hok hm0⟩

/-- C45: an event fails only if events of two kinds were submitted for its metric. -/
theorem failure_needs_clash (cap : Nat) (runes : Bytes → List UInt32) (processors : Nat) (acts : List Act) (e : Event)
    (he : e ∈ (Metrics.run cap runes (Metrics.start processors) acts).failed) :
    ∃ e1 ∈ Spec.submissions acts, ∃ e2 ∈ Spec.submissions acts, e1.kind ≠ e2.kind ∧
      Metrics.metricKey runes e1 = Metrics.metricKey runes e ∧ Metrics.metricKey runes e2 = Metrics.metricKey runes e ∧
      e1.group ++ e1.groupSuffix ++ e1.service = e.group ++ e.groupSuffix ++ e.service ∧
      e2.group ++ e2.groupSuffix ++ e2.service = e.group ++ e.groupSuffix ++ e.service := by
  have gen : ∀ (acts : List Act) (s : Metrics.St), MetricsInv runes s → KindInv runes s →
      KindInv runes (Metrics.run cap runes s acts) := by
    intro acts
    induction acts with
    | nil => intro s _ h; exact h
    | cons a acts ih => intro s hi hk; exact ih _ (step_inv hi cap a).1 (kind_step hi hk cap a)
  have hk := gen acts _ (start_inv runes processors) ⟨(fun k r key m h => by cases h), (fun e h => by cases h)⟩
  obtain ⟨kd, h1, ⟨e1, a1, a2, a3, a4⟩, ⟨e2, b1, b2, b3, b4⟩⟩ := hk.failed e he
  rw [submitted_exact] at a1 b1
  exact ⟨e1, a1, e2, b1, by rw [a4, b4]; exact h1.symm, a3, b3, a2, b2⟩

/-! ## The counters of the metrics filter -/

theorem escape_chars (runes) (s : Bytes) : ∀ b ∈ Metrics.escape runes s, b ≠ 46 ∧ b ≠ 58 := by
  intro b hb
  obtain ⟨c, _, rfl⟩ := List.mem_map.mp hb
  split
  · rename_i h
    have hc : (97 ≤ c.toNat ∧ c.toNat ≤ 122) ∨ (65 ≤ c.toNat ∧ c.toNat ≤ 90) ∨ (48 ≤ c.toNat ∧ c.toNat ≤ 57) ∨ c.toNat = 45 := by
      simp only [Metrics.kept, Bool.or_eq_true, Bool.and_eq_true, decide_eq_true_eq, beq_iff_eq, UInt32.le_iff_toNat_le,
        ← UInt32.toNat_inj] at h
      simpa [or_assoc] using h
    constructor <;> intro e <;> have := congrArg UInt8.toNat e <;> rw [UInt32.toNat_toUInt8] at this <;>
      simp only [UInt8.reduceToNat] at this <;> omega
  · decide

theorem join_no_dot (runes) (l : List Bytes) : (46 : UInt8) ∉ Strings.join b!":" (l.map (Metrics.escape runes)) := by
  have : ∀ l : List Bytes, (∀ a ∈ l, (46 : UInt8) ∉ a) → (46 : UInt8) ∉ Strings.join b!":" l := by
    intro l h
    fun_induction Strings.join b!":" l with
    | case1 => simp
    | case2 a => exact h a (by simp)
    | case3 a b r ih =>
      simp only [List.mem_append, not_or]
      exact ⟨⟨h a (by simp), by decide⟩, ih fun x hx => h x (List.mem_cons_of_mem _ hx)⟩
  refine this _ fun a ha => ?_
  obtain ⟨x, _, rfl⟩ := List.mem_map.mp ha
  intro h
  exact (escape_chars runes x 46 h).1 rfl

theorem join_keys_inj {l l' : List Bytes} (hl : ∀ a ∈ l, (58 : UInt8) ∉ a) (hl' : ∀ a ∈ l', (58 : UInt8) ∉ a)
    (hlen : l.length = l'.length) (h : Strings.join b!":" l = Strings.join b!":" l') : l = l' := by
  induction l generalizing l' with
  | nil => cases l' with | nil => rfl | cons => simp at hlen
  | cons a l ih =>
    cases l' with
    | nil => simp at hlen
    | cons a' l' =>
      cases l with
      | nil =>
        cases l' with
        | nil => simpa [Strings.join] using h
        | cons => simp at hlen
      | cons b l =>
        cases l' with
        | nil => simp at hlen
        | cons b' l' =>
          rw [Strings.join, Strings.join, List.append_assoc, List.append_assoc] at h
          obtain ⟨e1, e2⟩ := append_sep_inj (c := 58) h (hl a (by simp)) (hl' a' (by simp))
          rw [e1, ih (fun x hx => hl x (List.mem_cons_of_mem _ hx)) (fun x hx => hl' x (List.mem_cons_of_mem _ hx))
            (by simpa using hlen) e2]

/-- The names of the time ranges and where they end. -/
def Spec.timeRanges : List (Bytes × Option Int) :=
  [(b!".Less50ms", some 50), (b!".Less100ms", some 100), (b!".Less200ms", some 200), (b!".Less500ms", some 500),
   (b!".More500ms", none)]

/-- The name of the first range that ends after `t`. -/
def Spec.timeRange (t : Int) : List Bytes :=
  ((Spec.timeRanges.filter fun p => match p.2 with | some b => t < b | none => true).head?.map Prod.fst).toList

/-- C45: a finished call counts once in the total, once in the time range it took, once as an error of its kind if it is
one, once as slow if it took more than 200 ms, and gives its time once; all for its group, service and keys. -/
theorem call_counted_once (g gs sv : Bytes) (keys : List Bytes) (cost : Int) (out : Metrics.Outcome) :
    let evs := Metrics.callEvents g gs sv keys cost out
    let counters (suffix : Bytes) := (evs.filter fun e => e.kind = .counter ∧ e.keySuffix = suffix).map Event.value
    (∀ e ∈ evs, e.group = g ∧ e.groupSuffix = gs ∧ e.service = sv ∧ e.keys = keys) ∧
    counters b!".total_count" = [1] ∧
    counters b!".biz_error_count" = (if out = .bizError then [1] else []) ∧
    counters b!".other_error_count" = (if out = .otherError then [1] else []) ∧
    counters b!".slow_count" = (if cost > 200 then [1] else []) ∧
    (∀ p ∈ Spec.timeRanges, counters p.1 = if p.1 ∈ Spec.timeRange cost then [1] else []) ∧
    (evs.filter fun e => e.kind = .histogram).map (fun e => (e.keySuffix, e.value)) = [([], cost)] ∧
    evs.length = 3 + (if out = .ok then 0 else 1) + (if cost > 200 then 1 else 0) := by
  have hrange : Spec.timeRange cost = [Metrics.elapseSuffix cost] := by
    simp only [Spec.timeRange, Spec.timeRanges, Metrics.elapseSuffix, List.filter_cons, List.filter_nil, decide_eq_true_eq, if_true]
    repeat' (first | rfl | split | omega)
  simp only [hrange]
  simp only [Metrics.callEvents, Metrics.elapseSuffix]
  by_cases h1 : cost < 50
  · cases out <;> simp [h1, show ¬ cost > 200 by omega, Spec.timeRanges]
  · by_cases h2 : cost < 100
    · cases out <;> simp [h1, h2, show ¬ cost > 200 by omega, Spec.timeRanges]
    · by_cases h3 : cost < 200
      · cases out <;> simp [h1, h2, h3, show ¬ cost > 200 by omega, Spec.timeRanges]
      · by_cases h4 : cost < 500
        · by_cases h5 : cost > 200 <;> cases out <;> simp [h1, h2, h3, h4, h5, Spec.timeRanges]
        · cases out <;> simp [h1, h2, h3, h4, show cost > 200 by omega, Spec.timeRanges]

theorem call_suffix {g gs sv : Bytes} {keys : List Bytes} {cost : Int} {out : Metrics.Outcome} {e : Event}
    (h : e ∈ Metrics.callEvents g gs sv keys cost out) :
    e.keys = keys ∧ ((e.kind = .histogram ∧ e.keySuffix = []) ∨ (e.kind = .counter ∧ ∃ t, e.keySuffix = 46 :: t)) := by
  have hel : ∃ t, Metrics.elapseSuffix cost = 46 :: t := by
    rw [Metrics.elapseSuffix]
    repeat' (first | exact ⟨_, rfl⟩ | split)
  simp only [Metrics.callEvents, List.mem_append, List.mem_singleton] at h
  rcases h with (((h | h) | h) | h) | h
  · subst h; exact ⟨rfl, .inr ⟨rfl, _, rfl⟩⟩
  · cases out
    · cases h
    · rw [List.mem_singleton] at h; subst h; exact ⟨rfl, .inr ⟨rfl, _, rfl⟩⟩
    · rw [List.mem_singleton] at h; subst h; exact ⟨rfl, .inr ⟨rfl, _, rfl⟩⟩
  · subst h; exact ⟨rfl, .inr ⟨rfl, hel⟩⟩
  · split at h
    · rw [List.mem_singleton] at h; subst h; exact ⟨rfl, .inr ⟨rfl, _, rfl⟩⟩
    · cases h
  · subst h; exact ⟨rfl, .inl ⟨rfl, rfl⟩⟩

/-- C45: two events of calls with equally many keys are for the same metric only if their keys are written alike and they
are the same one of the call's events. -/
theorem call_metrics_apart (runes : Bytes → List UInt32) {g gs sv g' gs' sv' : Bytes} {keys keys' : List Bytes}
    {cost cost' : Int} {out out' : Metrics.Outcome} (hlen : keys.length = keys'.length) {e e' : Event}
    (he : e ∈ Metrics.callEvents g gs sv keys cost out) (he' : e' ∈ Metrics.callEvents g' gs' sv' keys' cost' out')
    (h : Metrics.metricKey runes e = Metrics.metricKey runes e') :
    e.kind = e'.kind ∧ e.keySuffix = e'.keySuffix ∧ keys.map (Metrics.escape runes) = keys'.map (Metrics.escape runes) := by
  obtain ⟨k1, c1⟩ := call_suffix he
  obtain ⟨k2, c2⟩ := call_suffix he'
  rw [Metrics.metricKey, Metrics.metricKey, k1, k2] at h
  have hcolon : ∀ l : List Bytes, ∀ a ∈ l.map (Metrics.escape runes), (58 : UInt8) ∉ a := by
    intro l a ha hm
    obtain ⟨x, _, rfl⟩ := List.mem_map.mp ha
    exact (escape_chars runes x 58 hm).2 rfl
  have inj : Strings.join b!":" (keys.map (Metrics.escape runes)) = Strings.join b!":" (keys'.map (Metrics.escape runes)) →
      keys.map (Metrics.escape runes) = keys'.map (Metrics.escape runes) :=
    join_keys_inj (hcolon keys) (hcolon keys') (by simpa using hlen)
  have nd := join_no_dot runes keys
  have nd' := join_no_dot runes keys'
  rcases c1 with ⟨a1, a2⟩ | ⟨a1, t, a2⟩ <;> rcases c2 with ⟨b1, b2⟩ | ⟨b1, t', b2⟩
  · rw [a2, b2, List.append_nil, List.append_nil] at h
    exact ⟨by rw [a1, b1], by rw [a2, b2], inj h⟩
  · rw [a2, b2, List.append_nil] at h
    exact absurd (h ▸ List.mem_append_right _ (List.mem_cons_self ..)) nd
  · rw [a2, b2, List.append_nil] at h
    exact absurd (h ▸ List.mem_append_right _ (List.mem_cons_self ..)) nd'
  · rw [a2, b2] at h
    obtain ⟨e1, e2⟩ := append_sep_inj h nd nd'
    exact ⟨by rw [a1, b1], by rw [a2, b2, e2], inj e1⟩

/-- C45: if only the metrics filter submits events, none of them fails. -/
theorem call_events_never_fail (cap : Nat) (runes : Bytes → List UInt32) (processors : Nat) (acts : List Act)
    (h : ∀ e ∈ Spec.submissions acts, ∃ g gs sv role app method cost out,
      e ∈ Metrics.callEvents g gs sv [role, app, method] cost out) :
    (Metrics.run cap runes (Metrics.start processors) acts).failed = [] := by
  refine List.eq_nil_iff_forall_not_mem.mpr fun e he => ?_
  obtain ⟨e1, h1, e2, h2, hne, k1, k2, _⟩ := failure_needs_clash cap runes processors acts e he
  obtain ⟨_, _, _, _, _, _, _, _, m1⟩ := h e1 h1
  obtain ⟨_, _, _, _, _, _, _, _, m2⟩ := h e2 h2
  exact hne (call_metrics_apart runes (by rfl) m1 m2 (k1.trans k2.symm)).1

/-! ## What a snapshot shows -/

/-- The worker can still reach registry `r`. -/
def Spec.reaches (r : Nat) : Worker → Prop
  | .reg _ _ r' | .reg2 _ r' | .ready _ r' => r' = r
  | _ => False

/-- Nothing reaches registry `r` any more. -/
structure Quiet (r : Nat) (s : Metrics.St) : Prop where
  lt : r < s.regs.length
  workers : ∀ w ∈ s.workers, ¬ Spec.reaches r w
  items : ∀ it ∈ s.itemList, it.holder ≠ r

theorem registry_append (s : Metrics.St) (r : Nat) : ((s.regs ++ [[]])[r]?).getD [] = s.registry r := by
  rw [List.getElem?_append, Metrics.St.registry]
  split
  · rfl
  · rename_i hj
    rw [List.getElem?_eq_none_iff.mpr (Nat.not_lt.mp hj), List.getElem?_singleton]
    split <;> rfl

theorem quiet_set {r : Nat} {s : Metrics.St} (hq : Quiet r s) {w : Nat} {x : Worker} (hx : ¬ Spec.reaches r x) :
    ∀ y ∈ s.workers.set w x, ¬ Spec.reaches r y := by
  intro y hy
  rcases List.mem_or_eq_of_mem_set hy with hy | rfl
  · exact hq.workers y hy
  · exact hx

theorem quiet_step {runes} (cap : Nat) {r : Nat} {s : Metrics.St} (hq : Quiet r s) (a : Act) :
    Quiet r (Metrics.step cap runes s a) ∧ (Metrics.step cap runes s a).registry r = s.registry r := by
  cases a with
  | submit e => rw [Metrics.step, Metrics.submit]; split <;> exact ⟨⟨hq.lt, hq.workers, hq.items⟩, rfl⟩
  | read n key =>
    rw [Metrics.step, Metrics.read]
    repeat' (first | exact ⟨⟨hq.lt, hq.workers, hq.items⟩, rfl⟩ | split)
  | snapshot n =>
    rw [Metrics.step, Metrics.snapshot]
    split
    · exact ⟨hq, rfl⟩
    · refine ⟨⟨?_, hq.workers, fun it hit => ?_⟩, registry_append s r⟩
      · simp only [List.length_append, List.length_cons]
        exact Nat.lt_of_lt_of_le hq.lt (Nat.le_add_right _ _)
      · rcases List.mem_or_eq_of_mem_set hit with hit | rfl
        · exact hq.items it hit
        · exact fun e => absurd hq.lt (e ▸ Nat.lt_irrefl _)
  | work w =>
    rw [Metrics.step, Metrics.work]
    have hmod : ∀ {r'} (f : Metrics.Registry → Metrics.Registry), r' ≠ r → ((s.regs.modify r' f)[r]?).getD [] = s.registry r := by
      intro r' f hne
      rw [List.getElem?_modify, Metrics.St.registry]
      simp [hne]
    split
    · exact ⟨hq, rfl⟩
    · split
      · exact ⟨hq, rfl⟩
      · exact ⟨⟨hq.lt, quiet_set hq id, hq.items⟩, rfl⟩
    · split <;> exact ⟨⟨hq.lt, quiet_set hq id, hq.items⟩, rfl⟩
    · rw [Metrics.putAbsent]
      split
      · exact ⟨⟨hq.lt, quiet_set hq id, hq.items⟩, rfl⟩
      · refine ⟨⟨?_, quiet_set hq id, fun it hit => ?_⟩, registry_append s r⟩
        · simp only [List.length_append, List.length_cons]
          exact Nat.lt_of_lt_of_le hq.lt (Nat.le_add_right _ _)
        · rcases List.mem_append.mp hit with hit | hit
          · exact hq.items it hit
          · rw [List.mem_singleton] at hit
            subst hit
            exact fun e => absurd hq.lt (e ▸ Nat.lt_irrefl _)
    · split
      · exact ⟨hq, rfl⟩
      · rename_i it hit
        exact ⟨⟨hq.lt, quiet_set hq fun e => hq.items it (List.mem_of_getElem? hit) e, hq.items⟩, rfl⟩
    · rename_i e n r' hw
      have hne : r' ≠ r := hq.workers _ (List.mem_of_getElem? hw)
      split
      · exact ⟨⟨hq.lt, quiet_set hq hne, hq.items⟩, rfl⟩
      · exact ⟨⟨hq.lt, quiet_set hq id, hq.items⟩, rfl⟩
    · split
      · exact ⟨hq, rfl⟩
      · rename_i it hit
        exact ⟨⟨hq.lt, quiet_set hq fun e => hq.items it (List.mem_of_getElem? hit) e, hq.items⟩, rfl⟩
    · rename_i e r' hw
      have hne : r' ≠ r := hq.workers _ (List.mem_of_getElem? hw)
      exact ⟨⟨by rw [List.length_modify]; exact hq.lt, quiet_set hq hne, hq.items⟩, hmod _ hne⟩
    · rename_i e r' hw
      have hne : r' ≠ r := hq.workers _ (List.mem_of_getElem? hw)
      split
      · exact ⟨hq, rfl⟩
      · split
        · exact ⟨⟨by rw [List.length_modify]; exact hq.lt, quiet_set hq id, hq.items⟩, hmod _ hne⟩
        · exact ⟨⟨hq.lt, quiet_set hq id, hq.items⟩, rfl⟩

/-- The snapshot shows only what is in its registry. -/
def CacheOk (s : Metrics.St) (n r : Nat) : Prop :=
  ∃ sn, s.snaps[n]? = some sn ∧ sn.holder = r ∧ ∀ key m, AMap.load sn.cache key = some m → AMap.load (s.registry r) key = some m

theorem cache_step {runes} (cap : Nat) {n r : Nat} {s : Metrics.St} (hq : Quiet r s) (hc : CacheOk s n r) (a : Act) :
    CacheOk (Metrics.step cap runes s a) n r := by
  obtain ⟨sn, h1, h2, h3⟩ := hc
  have hreg := (quiet_step (runes := runes) cap hq a).2
  have keep : (Metrics.step cap runes s a).snaps[n]? = s.snaps[n]? → CacheOk (Metrics.step cap runes s a) n r :=
    fun e => ⟨sn, e.trans h1, h2, fun key m h => hreg ▸ h3 key m h⟩
  have hlt := (List.getElem?_eq_some_iff.mp h1).1
  cases a with
  | submit e => exact keep (by rw [Metrics.step, Metrics.submit]; split <;> rfl)
  | work w =>
    exact keep (by
      rw [Metrics.step, Metrics.work]
      simp only [Metrics.putAbsent]
      repeat' (first | rfl | split))
  | snapshot j =>
    refine keep ?_
    rw [Metrics.step, Metrics.snapshot]
    split
    · rfl
    · exact List.getElem?_append_left hlt
  | read j key =>
    by_cases hj : j = n
    · subst hj
      rw [Metrics.step, Metrics.read]
      split
      · rename_i hn; rw [h1] at hn; cases hn
      rename_i sn0 hsn0
      have : sn0 = sn := by rw [h1] at hsn0; exact (Option.some.inj hsn0).symm
      subst this
      cases hg : Metrics.getCache s sn0 key with
      | none => exact ⟨sn0, h1, h2, h3⟩
      | some m =>
        simp only
        have hm : AMap.load (s.registry r) key = some m := by
          rw [Metrics.getCache] at hg
          split at hg
          · rename_i hl
            cases hg
            exact h3 key _ hl
          · exact h2 ▸ hg
        refine ⟨{ sn0 with cache := AMap.store sn0.cache key m }, ?_, h2, fun key' m' h => ?_⟩
        · show (s.snaps.set j _)[j]? = _
          rw [List.getElem?_set_self hlt]
        · show AMap.load (s.registry r) key' = some m'
          rw [AMap.load_store] at h
          split at h
          · rename_i e; cases h; exact e ▸ hm
          · exact h3 key' m' h
    · refine keep ?_
      rw [Metrics.step, Metrics.read]
      split
      · rfl
      · split
        · rfl
        · exact List.getElem?_set_ne hj

/-- C45: when no worker is at work on the registry of a snapshot any more and none of its values was read before, every
later reading of the snapshot, at any time, shows all that went into it, and this does not change. -/
theorem quiet_snapshot_exact (cap : Nat) (runes : Bytes → List UInt32) (processors : Nat) (acts later : List Act) {n : Nat} {sn : Snap}
    (hs : (Metrics.run cap runes (Metrics.start processors) acts).snaps[n]? = some sn)
    (hread : sn.cache = [])
    (hquiet : ∀ w ∈ (Metrics.run cap runes (Metrics.start processors) acts).workers, ¬ Spec.reaches sn.holder w) :
    let s := Metrics.run cap runes (Metrics.start processors) acts
    let s' := Metrics.run cap runes s later
    s'.registry sn.holder = s.registry sn.holder ∧
    ∃ sn', s'.snaps[n]? = some sn' ∧ sn'.holder = sn.holder ∧
      ∀ key, Metrics.count s' sn' key = Spec.registryCount (s'.registry sn.holder) key := by
  intro s s'
  have hi : MetricsInv runes s := run_metrics_inv (start_inv runes processors) cap acts
  have hown : (snapName sn, sn.holder) ∈ owners s :=
    List.mem_append_right _ (List.mem_map.mpr ⟨sn, List.mem_of_getElem? hs, rfl⟩)
  have hq : Quiet sn.holder s := by
    refine ⟨hi.bound _ hown, hquiet, fun it hit he => ?_⟩
    have hn := hi.nodup
    rw [owners, List.map_append, List.nodup_append] at hn
    refine hn.2.2 it.holder ?_ sn.holder ?_ he
    · rw [List.map_map]; exact List.mem_map.mpr ⟨it, hit, rfl⟩
    · rw [List.map_map]; exact List.mem_map.mpr ⟨sn, List.mem_of_getElem? hs, rfl⟩
  have gen : ∀ (l : List Act) (a : Metrics.St), Quiet sn.holder a → CacheOk a n sn.holder →
      (Metrics.run cap runes a l).registry sn.holder = a.registry sn.holder ∧ CacheOk (Metrics.run cap runes a l) n sn.holder := by
    intro l
    induction l with
    | nil => intro a _ hc; exact ⟨rfl, hc⟩
    | cons x l ih =>
      intro a hq hc
      obtain ⟨h1, h2⟩ := quiet_step (runes := runes) cap hq x
      obtain ⟨h3, h4⟩ := ih _ h1 (cache_step cap hq hc x)
      exact ⟨h3.trans h2, h4⟩
  obtain ⟨g1, sn', g2, g3, g4⟩ := gen later s hq ⟨sn, hs, rfl, fun key m h => by rw [hread] at h; cases h⟩
  refine ⟨g1, sn', g2, g3, fun key => ?_⟩
  show ((Metrics.getCache s' sn' key).map Metric.count).getD 0 = _
  rw [Spec.registryCount, Metrics.getCache, g3]
  split
  · rename_i m hm
    rw [g4 key m hm]
  · rfl

/-! ## A schedule -/

/-- Characters of ASCII strings. -/
def asciiRunes (b : Bytes) : List UInt32 := b.map UInt8.toUInt32

def exEvent (v : Int) : Event := ⟨.counter, [b!"role", b!"app", b!"m"], b!".total_count", b!"g", [], b!"svc", v⟩

/-- Two workers; a snapshot between the events; one event still waiting, one in work, one dropped. -/
def exSchedule : List Act :=
  [.submit (exEvent 1), .work 0, .work 0, .work 0, .work 0, .work 0, .work 0, .work 0, .work 0, .snapshot 0,
   .read 0 b!"role:app:m.total_count", .submit (exEvent 5), .work 1, .work 1, .work 1, .work 1, .work 1, .work 1, .work 1,
   .submit (exEvent 7), .work 0, .submit (exEvent 9), .submit (exEvent 11)]

example :
    let s := Metrics.run 1 asciiRunes (Metrics.start 2) exSchedule
    Spec.total asciiRunes b!"gsvc" b!"role:app:m.total_count" s.submitted = 33 ∧ s.snaps.map (fun sn => Metrics.count s sn b!"role:app:m.total_count") = [1] ∧
    (s.itemList.map fun it => Spec.registryCount (s.registry it.holder) b!"role:app:m.total_count") = [5] ∧
    s.queue.map Event.value = [9] ∧ s.dropped.map Event.value = [11] ∧ s.workers.filterMap (fun w => (Spec.workerEvent w).map Event.value) = [7] := by
  decide +kernel

/-! ## Violations -/

/-- C45, exhibited: a worker that got the metric before the snapshot was taken adds to it after the snapshot was read: the
event is in no snapshot as it is read, neither before nor after. -/
theorem late_event_lost_violated :
    let acts : List Act := [.submit (exEvent 1), .work 0, .work 0, .work 0, .work 0, .work 0, .work 0, .work 0, .snapshot 0,
      .read 0 b!"role:app:m.total_count", .work 0, .snapshot 0, .read 0 b!"role:app:m.total_count", .read 1 b!"role:app:m.total_count"]
    let s := Metrics.run 10 asciiRunes (Metrics.start 1) acts
    Spec.total asciiRunes b!"gsvc" b!"role:app:m.total_count" s.submitted = 1 ∧ s.queue = [] ∧ s.workers = [.idle] ∧
    s.dropped = [] ∧ s.failed = [] ∧
    s.snaps.map (fun sn => Metrics.count s sn b!"role:app:m.total_count") = [0, 0] ∧
    (s.itemList.map fun it => Spec.registryCount (s.registry it.holder) b!"role:app:m.total_count") = [0] := by
  decide +kernel

/-- C45, exhibited: groups and services whose names run together are counted as one: the calls of service `c` of group
`ab` appear as calls of service `bc` of group `a`. -/
theorem names_run_together_violated :
    let ev (g sv : Bytes) : Event := ⟨.counter, [b!"k"], [], g, [], sv, 1⟩
    let acts : List Act := [.submit (ev b!"a" b!"bc"), .submit (ev b!"ab" b!"c")] ++ List.replicate 20 (.work 0)
    let s := Metrics.run 10 asciiRunes (Metrics.start 1) acts
    s.itemList.map (fun it => (it.group, it.service, Spec.registryCount (s.registry it.holder) b!"k")) = [(b!"a", b!"bc", 2)] := by
  decide +kernel

/-- C45, exhibited: methods that differ in characters `Escape` replaces are counted as one. -/
theorem escaped_alike_violated :
    Metrics.escape asciiRunes b!"get_user" = Metrics.escape asciiRunes b!"get.user" := by decide +kernel

/-- C45, exhibited: the second of two kinds of events for one metric is lost in a panic. -/
theorem kinds_clash_violated :
    let ev (k : Kind) : Event := ⟨k, [b!"k"], [], b!"g", [], b!"s", 1⟩
    let acts : List Act := [.submit (ev .gauge), .submit (ev .counter)] ++ List.replicate 20 (.work 0)
    (Metrics.run 10 asciiRunes (Metrics.start 1) acts).failed = [ev .counter] := by
  decide +kernel

end Motan.Props
