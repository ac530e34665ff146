import Verif.Model.StatusPage
import Verif.Props.Metrics

/-!
# C96: the status page counts the calls of the last period

Every exported service that was called is listed, with as many calls of each method as the metrics filter counted in the
last period.
-/

namespace Motan.Props

open Strings Metrics StatusPage

/-! ## Specification -/

/-- The last snapshot taken of the statistics of a service. -/
def Spec.LastSnapshot (s : Metrics.St) (group path : Bytes) (sn : Snap) : Prop :=
  ∃ n it j, s.items.load (group ++ path) = some n ∧ s.itemList[n]? = some it ∧ it.lastSnapshot = some j ∧ s.snaps[j]? = some sn

/-- The key is that of the counter of all calls of a method: `role:application:method.total_count`. -/
def Spec.counts (key method : Bytes) : Prop :=
  key = method ++ b!".total_count" ∨ (b!":" ++ method ++ b!".total_count") <:+ key

instance (key method : Bytes) : Decidable (Spec.counts key method) := by
  unfold Spec.counts; infer_instance

/-- The snapshot shows what went into its registry (C45: it does if nobody read it while a worker was still at it). -/
def Spec.Exact (s : Metrics.St) (sn : Snap) : Prop :=
  ∀ key, Metrics.count s sn key = Spec.registryCount (s.registry sn.holder) key

/-- What went into the counters of a method. -/
def Spec.recordedCalls (r : Metrics.Registry) (method : Bytes) : Int :=
  (((Spec.registryReadings [] r).filter fun t => Spec.counts t.2.1 method).map fun t => Spec.amount t.2.2.1 t.2.2.2).sum

/-- The calls shown for a method. -/
def Spec.shown (ls : List Line) (method : Bytes) : Int := ((ls.filter fun l => l.name = method).map Line.count).sum

/-! ## Names -/

theorem take_suffix (p q : Bytes) : (p ++ q).take ((p ++ q).length - q.length) = p := by
  rw [List.length_append, Nat.add_sub_cancel, List.take_left]

theorem lastIndexByte_none {s : Bytes} {b : UInt8} (h : b ∉ s) : lastIndexByte s b = none := by
  have : s.reverse.findIdx? (fun x => decide (x = b)) = none := by
    rw [List.findIdx?_eq_none_iff]
    intro x hx
    simp only [decide_eq_false_iff_not]
    rintro rfl
    exact h (List.mem_reverse.1 hx)
  rw [lastIndexByte, this]

theorem lastIndexByte_append {p q : Bytes} {b : UInt8} (h : b ∉ q) : lastIndexByte (p ++ b :: q) b = some p.length := by
  have : (p ++ b :: q).reverse.findIdx? (fun x => decide (x = b)) = some q.length := by
    rw [show (p ++ b :: q).reverse = q.reverse ++ (b :: p.reverse) by simp, List.findIdx?_append]
    rw [show q.reverse.findIdx? (fun x => decide (x = b)) = none by
      rw [List.findIdx?_eq_none_iff]
      intro x hx
      simp only [decide_eq_false_iff_not]
      rintro rfl
      exact h (List.mem_reverse.1 hx)]
    simp [List.findIdx?_cons]
  rw [lastIndexByte, this]
  simp only [List.length_append, List.length_cons, Option.some.injEq]
  omega

/-- Every byte string has a last colon or none. -/
theorem last_colon (s : Bytes) : (58 : UInt8) ∉ s ∨ ∃ p q, s = p ++ 58 :: q ∧ (58 : UInt8) ∉ q := by
  induction s with
  | nil => exact .inl (by simp)
  | cons a s ih =>
    rcases ih with h | ⟨p, q, rfl, hq⟩
    · by_cases ha : a = 58
      · subst ha; exact .inr ⟨[], s, rfl, h⟩
      · exact .inl (by simp [h, Ne.symm ha])
    · exact .inr ⟨a :: p, q, rfl, hq⟩

theorem suffix_no_colon : (58 : UInt8) ∉ (b!".total_count" : Bytes) := by decide

theorem methodName_plain {m : Bytes} (h : (58 : UInt8) ∉ m) : methodName (m ++ b!".total_count") = m := by
  rw [methodName]
  rw [lastIndexByte_none (by simp only [List.mem_append, not_or]; exact ⟨h, suffix_no_colon⟩)]
  exact take_suffix m _

theorem methodName_colon {p m : Bytes} (h : (58 : UInt8) ∉ m) : methodName (p ++ 58 :: m ++ b!".total_count") = m := by
  rw [methodName]
  rw [show p ++ 58 :: m ++ b!".total_count" = p ++ 58 :: (m ++ b!".total_count") by simp,
    lastIndexByte_append (by simp only [List.mem_append, not_or]; exact ⟨h, suffix_no_colon⟩)]
  dsimp only
  rw [show p ++ 58 :: (m ++ b!".total_count") = (p ++ 58 :: m) ++ b!".total_count" by simp]
  have := take_suffix (p ++ 58 :: m) b!".total_count"
  rw [show suffix = b!".total_count" from rfl, this,
    show p ++ 58 :: m = (p ++ [58]) ++ m by simp, show p.length + 1 = (p ++ [58]).length by simp, List.drop_left]

theorem isSuffix_iff (s p : Bytes) : Dynamic.hasSuffix s p = true ↔ p <:+ s := by
  rw [Dynamic.hasSuffix, List.isSuffixOf_iff_suffix]

/-- The keys shown under a name are those of the counters of the method of that name. -/
theorem counts_iff (key m : Bytes) (hm : (58 : UInt8) ∉ m) :
    (Dynamic.hasSuffix key suffix = true ∧ methodName key = m) ↔ Spec.counts key m := by
  constructor
  · rintro ⟨h1, h2⟩
    obtain ⟨p, rfl⟩ := (isSuffix_iff _ _).1 h1
    rcases last_colon p with hp | ⟨a, q, rfl, hq⟩
    · rw [show suffix = b!".total_count" from rfl, methodName_plain hp] at h2
      subst h2
      exact .inl rfl
    · rw [show suffix = b!".total_count" from rfl, methodName_colon hq] at h2
      subst h2
      exact .inr ⟨a, by simp [suffix]⟩
  · rintro (rfl | ⟨p, rfl⟩)
    · exact ⟨(isSuffix_iff _ _).2 ⟨m, rfl⟩, methodName_plain hm⟩
    · rw [show p ++ (b!":" ++ m ++ b!".total_count") = p ++ 58 :: m ++ b!".total_count" by simp]
      exact ⟨(isSuffix_iff _ _).2 ⟨p ++ 58 :: m, rfl⟩, methodName_colon hm⟩

theorem methodName_no_colon {key : Bytes} (h : Dynamic.hasSuffix key suffix = true) : (58 : UInt8) ∉ methodName key := by
  obtain ⟨p, rfl⟩ := (isSuffix_iff _ _).1 h
  rcases last_colon p with hp | ⟨a, q, rfl, hq⟩
  · rw [show suffix = b!".total_count" from rfl, methodName_plain hp]; exact hp
  · rw [show suffix = b!".total_count" from rfl, methodName_colon hq]; exact hq

/-! ## Sums -/

theorem perm_sum {l l' : List Int} (h : l.Perm l') : l.sum = l'.sum := by
  induction h with
  | nil => rfl
  | cons a _ ih => simp [ih]
  | swap a b l => simp only [List.sum_cons]; omega
  | trans _ _ h1 h2 => exact h1.trans h2

theorem sum_foldl (f : Line → Int) (l : List Line) (a : Int) : l.foldl (fun t x => t + f x) a = a + (l.map f).sum := by
  induction l generalizing a with
  | nil => simp
  | cons x l ih => rw [List.foldl_cons, ih, List.map_cons, List.sum_cons]; omega

theorem metric_readings (k key : Bytes) (m : Metric) :
    ((m.updates.map fun v => ((k, key, m.kind, v) : Spec.Reading)).map fun t => Spec.amount t.2.2.1 t.2.2.2).sum = m.count := by
  rw [List.map_map]
  obtain ⟨kd, us⟩ := m
  cases kd with
  | counter =>
    show (us.map fun v => v).sum = us.sum
    simp
  | histogram =>
    show (us.map fun _ => (1 : Int)).sum = us.length
    induction us with
    | nil => rfl
    | cons a us ih => simp only [List.map_cons, List.sum_cons, ih, List.length_cons]; omega
  | gauge =>
    show (us.map fun _ => (0 : Int)).sum = 0
    induction us with
    | nil => rfl
    | cons a us ih => simp only [List.map_cons, List.sum_cons, ih]; rfl

theorem recorded_eq (r : Metrics.Registry) (m : Bytes) :
    Spec.recordedCalls r m = ((r.filter fun p => Spec.counts p.1 m).map fun p => p.2.count).sum := by
  rw [Spec.recordedCalls]
  induction r with
  | nil => rfl
  | cons p r ih =>
    obtain ⟨key, x⟩ := p
    rw [show Spec.registryReadings [] ((key, x) :: r) =
      (x.updates.map fun v => (([], key, x.kind, v) : Spec.Reading)) ++ Spec.registryReadings [] r from rfl,
      List.filter_append, List.map_append, List.sum_append, ih, List.filter_cons]
    by_cases h : Spec.counts key m
    · rw [if_pos (by simpa using h), List.map_cons, List.sum_cons]
      rw [List.filter_eq_self.2 (by
        intro t ht
        obtain ⟨v, -, rfl⟩ := List.mem_map.1 ht
        simpa using h), metric_readings]
    · rw [if_neg (by simpa using h)]
      rw [List.filter_eq_nil_iff.2 (by
        intro t ht
        obtain ⟨v, -, rfl⟩ := List.mem_map.1 ht
        simpa using h)]
      simp

/-! ## The page -/

theorem snapOf_iff (s : Metrics.St) (g p : Bytes) (sn : Snap) : snapOf s g p = some sn ↔ Spec.LastSnapshot s g p sn := by
  rw [snapOf, List.append_nil]
  simp only [Option.bind_eq_some_iff, Spec.LastSnapshot]
  constructor
  · rintro ⟨n, h1, it, h2, j, h3, h4⟩; exact ⟨n, it, j, h1, h2, h3, h4⟩
  · rintro ⟨n, it, j, h1, h2, h3, h4⟩; exact ⟨n, h1, it, h2, j, h3, h4⟩

/-- What an exporter adds to the page. -/
def entryOf (ord : Registry → List Bytes) (s : Metrics.St) (e : Bytes × Bytes) : Option Service :=
  (snapOf s e.1 e.2).map fun sn => ⟨e.1, e.2, lines s sn (ord (s.registry sn.holder))⟩

theorem addExporter_eq (ord : Registry → List Bytes) (s : Metrics.St) (p : Page) (e : Bytes × Bytes) :
    addExporter ord s p e = match entryOf ord s e with
      | none => p
      | some v => { total := p.total + (v.methods.map Line.count).sum, services := p.services ++ [v] } := by
  unfold addExporter entryOf
  cases snapOf s e.1 e.2 with
  | none => rfl
  | some sn =>
    dsimp only [Option.map_some]
    rw [sum_foldl]

theorem getStatus_from (ord : Registry → List Bytes) (s : Metrics.St) (es : List (Bytes × Bytes)) (p : Page) :
    (es.foldl (addExporter ord s) p).services = p.services ++ es.filterMap (entryOf ord s) ∧
    (es.foldl (addExporter ord s) p).total = p.total + ((es.filterMap (entryOf ord s)).map fun v => (v.methods.map Line.count).sum).sum := by
  induction es generalizing p with
  | nil => simp
  | cons e es ih =>
    rw [List.foldl_cons]
    obtain ⟨h1, h2⟩ := ih (addExporter ord s p e)
    rw [h1, h2, addExporter_eq]
    cases h : entryOf ord s e with
    | none => simp [h]
    | some v => simp [h]; omega

theorem getStatus_eq (ord : Registry → List Bytes) (s : Metrics.St) (es : List (Bytes × Bytes)) :
    (getStatus ord s es).services = es.filterMap (entryOf ord s) ∧
    (getStatus ord s es).total = ((es.filterMap (entryOf ord s)).map fun v => (v.methods.map Line.count).sum).sum := by
  have := getStatus_from ord s es {}
  simpa [getStatus] using this

/-- **C96, services.** The page lists the exporters, in the order in which they are visited, whose service has a snapshot, and no
others. -/
theorem status_services (ord : Registry → List Bytes) (s : Metrics.St) (es : List (Bytes × Bytes)) (listed : Bytes × Bytes → Bool)
    (hl : ∀ e, listed e = true ↔ ∃ sn, Spec.LastSnapshot s e.1 e.2 sn) :
    (getStatus ord s es).services.map (fun v => (v.group, v.name)) = es.filter listed := by
  rw [(getStatus_eq ord s es).1]
  induction es with
  | nil => rfl
  | cons e es ih =>
    rw [List.filter_cons, List.filterMap_cons]
    cases h : snapOf s e.1 e.2 with
    | none =>
      have : listed e ≠ true := by
        rw [ne_eq, hl]
        rintro ⟨sn, hs⟩
        rw [← snapOf_iff, h] at hs
        cases hs
      rw [if_neg this]
      simp only [entryOf, h, Option.map_none]
      exact ih
    | some sn =>
      rw [if_pos ((hl e).2 ⟨sn, (snapOf_iff ..).1 h⟩)]
      simp only [entryOf, h, Option.map_some, List.map_cons]
      rw [ih]

/-- **C96, methods.** For every service listed, the methods listed are those whose calls were counted in the last snapshot, and
the calls shown for a method, over all lines with its name, are all those that went into its counters in that snapshot. -/
theorem status_methods (cap : Nat) (runes : Bytes → List UInt32) (processors : Nat) (acts : List Act)
    (ord : Registry → List Bytes) (hord : ∀ r, (ord r).Perm (r.map Prod.fst)) (es : List (Bytes × Bytes)) :
    let s := Metrics.run cap runes (Metrics.start processors) acts
    ∀ v ∈ (getStatus ord s es).services, (v.group, v.name) ∈ es ∧ ∃ sn, Spec.LastSnapshot s v.group v.name sn ∧
      (∀ m, (∃ l ∈ v.methods, l.name = m) ↔ (58 : UInt8) ∉ m ∧ ∃ key x, (key, x) ∈ s.registry sn.holder ∧ Spec.counts key m) ∧
      (Spec.Exact s sn → ∀ m, (58 : UInt8) ∉ m → Spec.shown v.methods m = Spec.recordedCalls (s.registry sn.holder) m) := by
  intro s v hv
  rw [(getStatus_eq ord s es).1, List.mem_filterMap] at hv
  obtain ⟨e, he, hv⟩ := hv
  rw [entryOf, Option.map_eq_some_iff] at hv
  obtain ⟨sn, hsn, rfl⟩ := hv
  have hi : MetricsInv runes s := run_metrics_inv (start_inv runes processors) cap acts
  have hnd : AMap.NodupKeys (s.registry sn.holder) := by
    rw [Metrics.St.registry]
    cases hr : s.regs[sn.holder]? with
    | none => exact List.nodup_nil
    | some g => exact hi.keys _ _ hr
  refine ⟨he, sn, (snapOf_iff ..).1 hsn, fun m => ?_, fun hex m hm => ?_⟩
  · dsimp only [lines]
    simp only [List.mem_map, List.mem_filter]
    constructor
    · rintro ⟨l, ⟨k, ⟨hk, hs⟩, rfl⟩, rfl⟩
      have hk' := (hord _).mem_iff.1 hk
      obtain ⟨⟨k', x⟩, hx, rfl⟩ := List.mem_map.1 hk'
      exact ⟨methodName_no_colon hs, k', x, hx, (counts_iff _ _ (methodName_no_colon hs)).1 ⟨hs, rfl⟩⟩
    · rintro ⟨hm, key, x, hx, hc⟩
      obtain ⟨h1, h2⟩ := (counts_iff key m hm).2 hc
      exact ⟨_, ⟨key, ⟨(hord _).mem_iff.2 (List.mem_map.2 ⟨_, hx, rfl⟩), h1⟩, rfl⟩, h2⟩
  · rw [recorded_eq]
    have step1 : Spec.shown (lines s sn (ord (s.registry sn.holder))) m =
        (((ord (s.registry sn.holder)).filter fun k => Spec.counts k m).map fun k => Spec.registryCount (s.registry sn.holder) k).sum := by
      rw [Spec.shown, lines, List.filter_map, List.map_map, List.filter_filter]
      congr 1
      rw [List.filter_congr (q := fun k => decide (Spec.counts k m))]
      · apply List.map_congr_left
        intro k _
        exact hex k
      · intro k _
        rw [Bool.eq_iff_iff]
        simp only [Function.comp, Bool.and_eq_true, decide_eq_true_eq]
        rw [← counts_iff k m hm]
        constructor
        · rintro ⟨a, b⟩; exact ⟨b, a⟩
        · rintro ⟨a, b⟩; exact ⟨b, a⟩
    show Spec.shown (lines s sn (ord (s.registry sn.holder))) m = _
    rw [step1, perm_sum (((hord (s.registry sn.holder)).filter _).map _), List.filter_map, List.map_map]
    congr 1
    apply List.map_congr_left
    intro p hp
    have hp := (List.mem_filter.1 hp).1
    show Spec.registryCount (s.registry sn.holder) p.1 = p.2.count
    rw [Spec.registryCount, AMap.load_of_mem hnd hp]
    rfl

/-- **C96, total.** The total is the sum of all the calls shown. -/
theorem status_total (ord : Registry → List Bytes) (s : Metrics.St) (es : List (Bytes × Bytes)) :
    (getStatus ord s es).total = ((getStatus ord s es).services.map fun v => (v.methods.map Line.count).sum).sum := by
  rw [(getStatus_eq ord s es).1, (getStatus_eq ord s es).2]

/-! ## Only calls -/

theorem last_dot_inj {p q t u : Bytes} (h : p ++ 46 :: t = q ++ 46 :: u) (ht : (46 : UInt8) ∉ t) (hu : (46 : UInt8) ∉ u) :
    p = q ∧ t = u := by
  have h' := congrArg List.reverse h
  simp only [List.reverse_append, List.reverse_cons, List.append_assoc, List.singleton_append] at h'
  have := append_sep_inj h' (by simpa using ht) (by simpa using hu)
  obtain ⟨h1, h2⟩ := this
  exact ⟨by simpa using h2, by simpa using h1⟩

/-- The events of a call under a key that counts calls: one, of amount 1. -/
theorem call_total_event {runes : Bytes → List UInt32} {g gs sv role app method : Bytes} {cost : Int} {out : Metrics.Outcome} {e : Event}
    (he : e ∈ Metrics.callEvents g gs sv [role, app, method] cost out) {m : Bytes} (h : Spec.counts (Metrics.metricKey runes e) m) :
    e.kind = .counter ∧ e.value = 1 ∧ e.keySuffix = b!".total_count" := by
  obtain ⟨hk, hc⟩ := call_suffix he
  have nd := join_no_dot runes [role, app, method]
  have hsuf : ∃ q, Metrics.metricKey runes e = q ++ 46 :: b!"total_count" := by
    rcases h with h | ⟨q, h⟩
    · exact ⟨m, h⟩
    · exact ⟨q ++ b!":" ++ m, by rw [← h]; simp⟩
  obtain ⟨q, hq⟩ := hsuf
  rw [Metrics.metricKey, hk] at hq
  have hs : ∀ t, e.keySuffix = 46 :: t → (46 : UInt8) ∉ t → e.keySuffix = b!".total_count" := by
    intro t ht htd
    rw [ht] at hq
    rw [ht, (last_dot_inj hq htd (by decide)).2]
  have hel : ∃ t, Metrics.elapseSuffix cost = 46 :: t ∧ (46 : UInt8) ∉ t ∧ Metrics.elapseSuffix cost ≠ b!".total_count" := by
    rw [Metrics.elapseSuffix]
    repeat' (first | exact ⟨_, rfl, by decide, by decide⟩ | split)
  simp only [Metrics.callEvents, List.mem_append, List.mem_singleton] at he
  rcases he with (((he | he) | he) | he) | he
  · subst he; exact ⟨rfl, rfl, rfl⟩
  · cases out
    · cases he
    · rw [List.mem_singleton] at he; subst he
      exact absurd (hs _ rfl (by decide)) (by simp)
    · rw [List.mem_singleton] at he; subst he
      exact absurd (hs _ rfl (by decide)) (by simp)
  · subst he
    obtain ⟨t, h1, h2, h3⟩ := hel
    exact absurd (hs t h1 h2) h3
  · split at he
    · rw [List.mem_singleton] at he; subst he
      exact absurd (hs _ rfl (by decide)) (by simp)
    · cases he
  · subst he
    rw [List.append_nil] at hq
    exact absurd (by rw [hq]; simp) nd

/-- **C96, calls.** If the metrics filter is all that reports statistics, what is recorded for a method is the number of calls
counted for it in that period, each once. -/
theorem status_calls (cap : Nat) (runes : Bytes → List UInt32) (processors : Nat) (acts : List Act)
    (h : ∀ e ∈ Spec.submissions acts, ∃ g gs sv role app method cost out,
      e ∈ Metrics.callEvents g gs sv [role, app, method] cost out) :
    let s := Metrics.run cap runes (Metrics.start processors) acts
    ∀ sn ∈ s.snaps, ∀ m, Spec.recordedCalls (s.registry sn.holder) m =
      ((Spec.registryReadings [] (s.registry sn.holder)).filter fun t => Spec.counts t.2.1 m).length := by
  intro s sn hsn m
  have hi : MetricsInv runes s := run_metrics_inv (start_inv runes processors) cap acts
  rw [Spec.recordedCalls]
  have key : ∀ t ∈ (Spec.registryReadings [] (s.registry sn.holder)).filter (fun t => Spec.counts t.2.1 m),
      Spec.amount t.2.2.1 t.2.2.2 = 1 := by
    intro t ht
    obtain ⟨ht, hc⟩ := List.mem_filter.1 ht
    have hc : Spec.counts t.2.1 m := by simpa using hc
    have hst : (snapName sn, t.2) ∈ storedIn s.regs (owners s) := by
      rw [← stored_eq]
      refine List.mem_append_right _ ?_
      rw [Spec.snapReadings, List.mem_flatMap]
      refine ⟨sn, hsn, ?_⟩
      rw [Spec.registryReadings, List.mem_flatMap] at ht ⊢
      obtain ⟨⟨k, x⟩, hx, ht⟩ := ht
      refine ⟨(k, x), hx, ?_⟩
      obtain ⟨v, hv, rfl⟩ := List.mem_map.1 ht
      exact List.mem_map.2 ⟨v, hv, rfl⟩
    have hcnt := hi.counts (snapName sn, t.2)
    have hpos := List.count_pos_iff.2 hst
    have : 0 < evCnt runes (snapName sn, t.2) s.submitted := by omega
    rw [evCnt, List.count_pos_iff, List.mem_map] at this
    obtain ⟨e, he, hr⟩ := this
    have hsub : e ∈ Spec.submissions acts := by
      rw [show s.submitted = _ from submitted_exact cap runes processors acts] at he
      exact he
    obtain ⟨g, gs, sv, role, app, method, cost, out, hev⟩ := h e hsub
    have h2 : t.2 = (Metrics.metricKey runes e, e.kind, e.value) := (congrArg Prod.snd hr).symm
    have hc' : Spec.counts (Metrics.metricKey runes e) m := by rw [h2] at hc; exact hc
    obtain ⟨a, b, -⟩ := call_total_event hev hc'
    rw [h2]
    show Spec.amount e.kind e.value = 1
    rw [a, b]
    rfl
  generalize (Spec.registryReadings [] (s.registry sn.holder)).filter (fun t => Spec.counts t.2.1 m) = l at key
  induction l with
  | nil => rfl
  | cons t l ih =>
    rw [List.map_cons, List.sum_cons, key t (by simp), ih (fun x hx => key x (by simp [hx])), List.length_cons]
    omega

/-! ## A page, and what it gets wrong -/

/-- One call of method `m` of the service `svc` of group `g`, all its events processed. -/
def exCall (role : Bytes) : List Act :=
  (Metrics.callEvents b!"g" [] b!"svc" [role, b!"app", b!"m"] 3 .ok).flatMap fun e => .submit e :: List.replicate 8 (.work 0)

/-- The keys in their order. -/
def exOrd (r : Registry) : List Bytes := r.map Prod.fst

/-- Two calls are shown as two. -/
example :
    let s := Metrics.run 10 asciiRunes (Metrics.start 1) (exCall b!"motan-server" ++ exCall b!"motan-server" ++ [.snapshot 0])
    getStatus exOrd s [(b!"g", b!"svc"), (b!"g", b!"other")] = { total := 2, services := [⟨b!"g", b!"svc", [⟨b!"m", 2⟩]⟩] } := by
  decide +kernel

example : ∃ sn, Spec.LastSnapshot (Metrics.run 10 asciiRunes (Metrics.start 1) (exCall b!"motan-server" ++ [.snapshot 0])) b!"g" b!"svc" sn ∧
    sn.holder = 0 := by
  refine ⟨{ group := b!"g", groupSuffix := [], service := b!"svc", holder := 0 }, ?_, rfl⟩
  rw [← snapOf_iff]
  decide +kernel

/-- **C96, exact.** A snapshot that nobody read while a worker was still at it shows what went into it, whatever happens later
(C45). -/
theorem status_snapshot_exact (cap : Nat) (runes : Bytes → List UInt32) (processors : Nat) (acts later : List Act) {n : Nat} {sn : Snap}
    (hs : (Metrics.run cap runes (Metrics.start processors) acts).snaps[n]? = some sn) (hread : sn.cache = [])
    (hquiet : ∀ w ∈ (Metrics.run cap runes (Metrics.start processors) acts).workers, ¬ Spec.reaches sn.holder w) :
    ∃ sn', (Metrics.run cap runes (Metrics.start processors) (acts ++ later)).snaps[n]? = some sn' ∧
      Spec.Exact (Metrics.run cap runes (Metrics.start processors) (acts ++ later)) sn' := by
  obtain ⟨-, sn', h1, h2, h3⟩ := quiet_snapshot_exact cap runes processors acts later hs hread hquiet
  rw [show Metrics.run cap runes (Metrics.start processors) (acts ++ later) =
    Metrics.run cap runes (Metrics.run cap runes (Metrics.start processors) acts) later from List.foldl_append]
  exact ⟨sn', h1, fun key => by rw [h3 key, h2]⟩

/-- A service that is exported under two protocols is listed twice, and its calls are counted twice in the total. -/
theorem status_exported_twice_violated :
    let s := Metrics.run 10 asciiRunes (Metrics.start 1) (exCall b!"motan-server" ++ [.snapshot 0])
    getStatus exOrd s [(b!"g", b!"svc"), (b!"g", b!"svc")] =
      { total := 2, services := [⟨b!"g", b!"svc", [⟨b!"m", 1⟩]⟩, ⟨b!"g", b!"svc", [⟨b!"m", 1⟩]⟩] } := by
  decide +kernel

/-- Calls that the process makes as a client of a service of the same group and name are shown as calls it serves. -/
theorem status_client_calls_violated :
    let s := Metrics.run 10 asciiRunes (Metrics.start 1) (exCall b!"motan-client" ++ exCall b!"motan-server" ++ [.snapshot 0])
    getStatus exOrd s [(b!"g", b!"svc")] = { total := 2, services := [⟨b!"g", b!"svc", [⟨b!"m", 1⟩, ⟨b!"m", 1⟩]⟩] } := by
  decide +kernel

/-- Until the first period is over, a service that was called is not listed. -/
theorem status_first_period_violated :
    let s := Metrics.run 10 asciiRunes (Metrics.start 1) (exCall b!"motan-server")
    getStatus exOrd s [(b!"g", b!"svc")] = {} := by
  decide +kernel

end Motan.Props
