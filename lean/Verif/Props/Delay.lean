import Verif.Model.Delay
import Verif.Props.Metrics
import Verif.Props.Ha

/-!
# C107: the delay before a backup request is the measured latency of the method
-/

namespace Motan.Props

open Metrics Delay

/-- A point where an interval of the statistics begins: the start, or just after a report. -/
def Spec.AtBoundary (h : List Op) : Prop := h = [] ∨ ∃ a, h = a ++ [.report]

/-- The names of applications a call is counted for: that of the endpoint's URL, and that of the request if it is another
one and the switch is on. -/
def Spec.countedFor (c : Delay.Call) : List Bytes :=
  (if c.switchOn ∧ c.urlApp ≠ c.reqApp then [c.reqApp] else []) ++ [c.urlApp]

/-- The calls a request is compared with: the same group and service (written together), made in the same role, for an
application and a method whose names read the same after escaping. -/
def Spec.Alike (runes : Bytes → List UInt32) (q : Ask) (c : Delay.Call) (app : Bytes) : Prop :=
  c.group ++ c.service = q.group ++ q.path ∧ c.proxied = q.proxied ∧
  escape runes app = escape runes q.source ∧ escape runes c.method = escape runes q.method

instance (runes q c app) : Decidable (Spec.Alike runes q c app) := by unfold Spec.Alike; infer_instance

/-- What the calls that count for a request took, in order. -/
def Spec.tookTimes (runes : Bytes → List UInt32) (q : Ask) (cs : List Delay.Call) : List Int :=
  cs.flatMap fun c => ((Spec.countedFor c).filter (Spec.Alike runes q c)).map fun _ => c.cost

/-- Some call of the group and service is in the history. -/
def Spec.Called (q : Ask) (h : List Op) : Prop := ∃ c, Op.call c ∈ h ∧ c.group ++ c.service = q.group ++ q.path

/-! ### Registries -/

private def hist (r : Registry) (k : Bytes) : List Int := ((AMap.load r k).map (·.updates)).getD []

private def HOK (r : Registry) (k : Bytes) : Prop :=
  ∀ m, AMap.load r k = some m → m.kind = .histogram ∧ m.updates ≠ []

private theorem update_other (runes) (r : Registry) (e : Event) (k : Bytes) (h : metricKey runes e ≠ k) :
    AMap.load (update runes r e) k = AMap.load r k := by
  have h1 : AMap.load (getOrRegister r (metricKey runes e) e.kind) k = AMap.load r k := by
    unfold getOrRegister; split
    · rfl
    · rw [AMap.load_store_ne _ _ h]
  unfold update; simp only
  split
  · unfold bump; split
    · rw [AMap.load_store_ne _ _ h, h1]
    · exact h1
  · exact h1

private theorem update_hist (runes) (r : Registry) (e : Event) (hk : e.kind = .histogram)
    (ok : HOK r (metricKey runes e)) :
    AMap.load (update runes r e) (metricKey runes e) =
      some ⟨.histogram, hist r (metricKey runes e) ++ [e.value]⟩ := by
  unfold update hist
  cases h : AMap.load r (metricKey runes e) with
  | none =>
    have h1 : AMap.load (getOrRegister r (metricKey runes e) e.kind) (metricKey runes e) = some ⟨e.kind, []⟩ := by
      unfold getOrRegister; rw [h]; simp
    simp only [h1, Option.map_some, if_true, bump, AMap.load_store_self]
    simp [hk]
  | some m =>
    have h1 : getOrRegister r (metricKey runes e) e.kind = r := by unfold getOrRegister; rw [h]
    obtain ⟨k1, _⟩ := ok m h
    simp only [h1, h, Option.map_some]
    simp only [hk, k1, if_true, bump, h, AMap.load_store_self, Option.getD_some, Option.map_some]

private theorem foldl_other (runes) (k : Bytes) (es : List Event) (h : ∀ e ∈ es, metricKey runes e ≠ k) (r : Registry) :
    AMap.load (es.foldl (update runes) r) k = AMap.load r k := by
  induction es generalizing r with
  | nil => rfl
  | cons e es ih =>
    rw [List.foldl_cons, ih (fun x hx => h x (List.mem_cons_of_mem _ hx)), update_other _ _ _ _ (h e (by simp))]

/-- The counters of a call, and its histogram. -/
private theorem callEvents_split (g gs sv : Bytes) (keys : List Bytes) (cost : Int) (out : Outcome) :
    ∃ cs : List Event, callEvents g gs sv keys cost out = cs ++ [⟨.histogram, keys, [], g, gs, sv, cost⟩] ∧
      ∀ e ∈ cs, e.keys = keys ∧ (46 : UInt8) ∈ e.keySuffix ∧ itemKey e = g ++ gs ++ sv := by
  refine ⟨_, rfl, ?_⟩
  intro e he
  have hs : (46 : UInt8) ∈ elapseSuffix cost := by
    unfold elapseSuffix; repeat' split
    all_goals decide
  cases out <;> by_cases hc : cost > 200 <;> simp [hc] at he <;>
    (repeat' (first | (rcases he with rfl | he) | subst he)) <;>
    exact ⟨rfl, (by first | exact hs | simp), rfl⟩

private theorem key_ne (runes) (a b c : Bytes) (e : Event) (h : (46 : UInt8) ∈ e.keySuffix) :
    metricKey runes e ≠ Strings.join b!":" ([a, b, c].map (escape runes)) := by
  intro he
  have := join_no_dot runes [a, b, c]
  rw [← he] at this
  exact this (by unfold metricKey; exact List.mem_append_right _ h)

private theorem getKey_join (runes) (q : Ask) :
    getKey runes q = Strings.join b!":" ([role q.proxied, q.source, q.method].map (escape runes)) := by
  simp [getKey, Strings.join]

/-- Go decodes the two role names into their letters. -/
def Spec.ReadsRoles (runes : Bytes → List UInt32) : Prop :=
  escape runes b!"motan-client" ≠ escape runes b!"motan-client-agent"

private theorem key_iff (runes) (hr : Spec.ReadsRoles runes) (p p' : Bool) (a a' m m' : Bytes) :
    Strings.join b!":" ([role p, a, m].map (escape runes)) = Strings.join b!":" ([role p', a', m'].map (escape runes)) ↔
      p = p' ∧ escape runes a = escape runes a' ∧ escape runes m = escape runes m' := by
  constructor
  · intro h
    have := join_keys_inj (by
        intro x hx; obtain ⟨y, _, rfl⟩ := List.mem_map.mp hx
        exact fun h => (escape_chars runes y 58 h).2 rfl) (by
        intro x hx; obtain ⟨y, _, rfl⟩ := List.mem_map.mp hx
        exact fun h => (escape_chars runes y 58 h).2 rfl) (by simp) h
    simp only [List.map_cons, List.map_nil, List.cons.injEq, and_true] at this
    refine ⟨?_, this.2⟩
    cases p <;> cases p' <;> first | rfl | exact absurd this.1 hr | exact absurd this.1.symm hr
  · rintro ⟨rfl, h1, h2⟩
    simp only [List.map_cons, List.map_nil, h1, h2]

/-- What one `addMetricWithKeys` adds to a histogram. -/
private theorem callEvents_hist (runes) (hr : Spec.ReadsRoles runes) (g gs sv : Bytes) (p : Bool) (a m : Bytes)
    (cost : Int) (out : Outcome) (q : Ask) (r : Registry) (ok : HOK r (getKey runes q)) :
    let r' := (callEvents g gs sv [role p, a, m] cost out).foldl (update runes) r
    HOK r' (getKey runes q) ∧ hist r' (getKey runes q) = hist r (getKey runes q) ++
      (if p = q.proxied ∧ escape runes a = escape runes q.source ∧ escape runes m = escape runes q.method
        then [cost] else []) := by
  obtain ⟨cs, e1, h1⟩ := callEvents_split g gs sv [role p, a, m] cost out
  intro r'
  have hr' : r' = update runes (cs.foldl (update runes) r) ⟨.histogram, [role p, a, m], [], g, gs, sv, cost⟩ := by
    show List.foldl _ _ _ = _
    rw [e1, List.foldl_append]; rfl
  have h2 : AMap.load (cs.foldl (update runes) r) (getKey runes q) = AMap.load r (getKey runes q) :=
    foldl_other runes _ cs (fun e he => by rw [getKey_join]; exact key_ne runes _ _ _ e (h1 e he).2.1) r
  have hk : metricKey runes ⟨.histogram, [role p, a, m], [], g, gs, sv, cost⟩ =
      Strings.join b!":" ([role p, a, m].map (escape runes)) := by simp [metricKey]
  have ok2 : HOK (cs.foldl (update runes) r) (getKey runes q) := by intro m hm; rw [h2] at hm; exact ok m hm
  rw [hr']
  by_cases hc : p = q.proxied ∧ escape runes a = escape runes q.source ∧ escape runes m = escape runes q.method
  · have he := (key_iff runes hr p q.proxied a q.source m q.method).mpr hc
    have hkey : metricKey runes ⟨.histogram, [role p, a, m], [], g, gs, sv, cost⟩ = getKey runes q := by
      rw [hk, getKey_join, he]
    have := update_hist runes (cs.foldl (update runes) r) ⟨.histogram, [role p, a, m], [], g, gs, sv, cost⟩ rfl
      (by rw [hkey]; exact ok2)
    rw [hkey] at this
    rw [if_pos hc]
    refine ⟨?_, ?_⟩
    · intro m' hm
      rw [this] at hm
      cases hm
      exact ⟨rfl, by simp⟩
    · rw [hist, this]; simp [hist, h2]
  · have hkey : metricKey runes ⟨.histogram, [role p, a, m], [], g, gs, sv, cost⟩ ≠ getKey runes q := by
      rw [hk, getKey_join]; exact fun h => hc ((key_iff runes hr _ _ _ _ _ _).mp h)
    have := update_other runes (cs.foldl (update runes) r) _ _ hkey
    rw [if_neg hc]
    refine ⟨?_, ?_⟩
    · intro m' hm; rw [this, h2] at hm; exact ok m' hm
    · rw [hist, this, h2]; simp [hist]

/-! ### Items -/

private def cur (s : Items) (k : Bytes) : Registry := ((AMap.load s k).map (·.cur)).getD []
private def lastOf (s : Items) (k : Bytes) : Option Registry := (AMap.load s k).bind (·.last)

private theorem count_at (runes) (s : Items) (e : Event) (k : Bytes) :
    cur (Delay.count runes s e) k = (if itemKey e = k then update runes (cur s k) e else cur s k) ∧
    lastOf (Delay.count runes s e) k = lastOf s k ∧
    (AMap.load (Delay.count runes s e) k).isSome = (decide (itemKey e = k) || (AMap.load s k).isSome) := by
  unfold Delay.count cur lastOf
  simp only [AMap.load_store]
  by_cases h : itemKey e = k
  · subst h
    simp only [if_true, Option.map_some, Option.getD_some, Option.bind_some, Option.isSome_some, decide_true,
      Bool.true_or, and_true]
    cases AMap.load s (itemKey e) <;> simp
  · simp [h]

private theorem counts_at (runes) (k ik : Bytes) (es : List Event) (h : ∀ e ∈ es, itemKey e = ik) (s : Items) :
    cur (es.foldl (Delay.count runes) s) k = (if ik = k then es.foldl (update runes) (cur s k) else cur s k) ∧
    lastOf (es.foldl (Delay.count runes) s) k = lastOf s k ∧
    (AMap.load (es.foldl (Delay.count runes) s) k).isSome =
      (decide (ik = k ∧ es ≠ []) || (AMap.load s k).isSome) := by
  induction es generalizing s with
  | nil => simp
  | cons e es ih =>
    obtain ⟨a, b, c⟩ := ih (fun x hx => h x (List.mem_cons_of_mem _ hx)) (Delay.count runes s e)
    obtain ⟨a1, b1, c1⟩ := count_at runes s e k
    have he := h e (by simp)
    rw [he] at a1 c1
    simp only [List.foldl_cons]
    refine ⟨?_, by rw [b, b1], ?_⟩
    · rw [a, a1]; split <;> rfl
    · rw [c, c1]; by_cases hk : ik = k <;> simp [hk]

private theorem itemKey_callEvents (g gs sv : Bytes) (keys : List Bytes) (cost : Int) (out : Outcome) :
    ∀ e ∈ callEvents g gs sv keys cost out, itemKey e = g ++ gs ++ sv := by
  obtain ⟨cs, e1, h1⟩ := callEvents_split g gs sv keys cost out
  intro e he
  rw [e1] at he
  rcases List.mem_append.mp he with h | h
  · exact (h1 e h).2.2
  · rw [List.mem_singleton.mp h]; rfl

private theorem call_at (runes) (hr : Spec.ReadsRoles runes) (q : Ask) (s : Items) (c : Delay.Call)
    (ok : HOK (cur s (q.group ++ q.path)) (getKey runes q)) :
    let s' := step runes s (.call c)
    HOK (cur s' (q.group ++ q.path)) (getKey runes q) ∧
    hist (cur s' (q.group ++ q.path)) (getKey runes q) =
      hist (cur s (q.group ++ q.path)) (getKey runes q) ++ Spec.tookTimes runes q [c] ∧
    lastOf s' (q.group ++ q.path) = lastOf s (q.group ++ q.path) ∧
    (AMap.load s' (q.group ++ q.path)).isSome =
      (decide (c.group ++ c.service = q.group ++ q.path) || (AMap.load s (q.group ++ q.path)).isSome) := by
  intro s'
  have hik : ∀ e ∈ filterEvents c, itemKey e = c.group ++ c.service := by
    intro e he
    unfold filterEvents at he
    rcases List.mem_append.mp he with h | h
    · split at h
      · simpa using itemKey_callEvents _ _ _ _ _ _ e h
      · cases h
    · simpa using itemKey_callEvents _ _ _ _ _ _ e h
  obtain ⟨a, b, d⟩ := counts_at runes (q.group ++ q.path) _ _ hik s
  have hne : filterEvents c ≠ [] := by
    unfold filterEvents callEvents; simp
  by_cases hk : c.group ++ c.service = q.group ++ q.path
  · rw [if_pos hk] at a
    have hs : s' = (filterEvents c).foldl (Delay.count runes) s := rfl
    rw [hs, a, b, d]
    refine ⟨?_, ?_, rfl, by simp [hk, hne]⟩
    all_goals
      unfold filterEvents
      rw [List.foldl_append]
      have ht : Spec.tookTimes runes q [c] =
          (if c.switchOn ∧ c.urlApp ≠ c.reqApp then
            (if c.proxied = q.proxied ∧ escape runes c.reqApp = escape runes q.source ∧
              escape runes c.method = escape runes q.method then [c.cost] else []) else []) ++
          (if c.proxied = q.proxied ∧ escape runes c.urlApp = escape runes q.source ∧
              escape runes c.method = escape runes q.method then [c.cost] else []) := by
        simp only [Spec.tookTimes, Spec.countedFor, List.flatMap_cons, List.flatMap_nil, List.append_nil,
          List.filter_append, List.map_append, Spec.Alike, hk, true_and]
        congr 1
        · split
          · simp only [List.filter_cons, List.filter_nil]; split <;> simp_all
          · rfl
        · simp only [List.filter_cons, List.filter_nil]; split <;> simp_all
      by_cases hsw : c.switchOn ∧ c.urlApp ≠ c.reqApp
      · have hb : (c.switchOn && c.urlApp != c.reqApp) = true := by simp [hsw.1, hsw.2]
        obtain ⟨o1, t1⟩ := callEvents_hist runes hr c.group [] c.service c.proxied c.reqApp c.method c.cost c.outcome q _ ok
        obtain ⟨o2, t2⟩ := callEvents_hist runes hr c.group [] c.service c.proxied c.urlApp c.method c.cost c.outcome q _ o1
        rw [hb, if_pos rfl]
        first
          | exact o2
          | rw [t2, t1, ht, if_pos hsw, List.append_assoc]
      · have hb : ¬ (c.switchOn && c.urlApp != c.reqApp) = true := by
          intro h; apply hsw; simpa using h
        obtain ⟨o2, t2⟩ := callEvents_hist runes hr c.group [] c.service c.proxied c.urlApp c.method c.cost c.outcome q _ ok
        rw [if_neg hb, List.foldl_nil]
        first
          | exact o2
          | rw [t2, ht, if_neg hsw, List.nil_append]
  · rw [if_neg hk] at a
    have hs : s' = (filterEvents c).foldl (Delay.count runes) s := rfl
    rw [hs, a, b, d]
    refine ⟨ok, ?_, rfl, by simp [hk]⟩
    have : Spec.tookTimes runes q [c] = [] := by
      simp [Spec.tookTimes, Spec.Alike, hk]
    rw [this, List.append_nil]

private theorem calls_at (runes) (hr : Spec.ReadsRoles runes) (q : Ask) (cs : List Delay.Call) (s : Items)
    (ok : HOK (cur s (q.group ++ q.path)) (getKey runes q)) :
    let s' := (cs.map Op.call).foldl (step runes) s
    HOK (cur s' (q.group ++ q.path)) (getKey runes q) ∧
    hist (cur s' (q.group ++ q.path)) (getKey runes q) =
      hist (cur s (q.group ++ q.path)) (getKey runes q) ++ Spec.tookTimes runes q cs ∧
    lastOf s' (q.group ++ q.path) = lastOf s (q.group ++ q.path) ∧
    (AMap.load s' (q.group ++ q.path)).isSome =
      (decide (∃ c ∈ cs, c.group ++ c.service = q.group ++ q.path) || (AMap.load s (q.group ++ q.path)).isSome) := by
  induction cs generalizing s with
  | nil => exact ⟨ok, by simp [Spec.tookTimes], rfl, by simp⟩
  | cons c cs ih =>
    obtain ⟨a, b, d, e⟩ := call_at runes hr q s c ok
    obtain ⟨a1, b1, d1, e1⟩ := ih _ a
    simp only [List.map_cons, List.foldl_cons]
    refine ⟨a1, ?_, by rw [d1, d], ?_⟩
    · rw [b1, b, List.append_assoc]; simp [Spec.tookTimes]
    · rw [e1, e]
      by_cases h1 : c.group ++ c.service = q.group ++ q.path <;> simp [h1]

private theorem report_load (s : Items) (k : Bytes) :
    AMap.load (report s) k = (AMap.load s k).map fun it => { cur := [], last := some it.cur } := by
  unfold report
  induction s with
  | nil => rfl
  | cons p s ih =>
    obtain ⟨k', it⟩ := p
    simp only [List.map_cons, AMap.load]
    split
    · rfl
    · exact ih

private theorem known (runes) (q : Ask) (h : List Op) :
    (AMap.load (run runes h) (q.group ++ q.path)).isSome = true ↔ Spec.Called q h := by
  unfold Delay.run
  have : ∀ (h : List Op) (s : Items), (AMap.load (h.foldl (step runes) s) (q.group ++ q.path)).isSome = true ↔
      ((AMap.load s (q.group ++ q.path)).isSome = true ∨ Spec.Called q h) := by
    intro h
    induction h with
    | nil => intro s; simp [Spec.Called]
    | cons o h ih =>
      intro s
      rw [List.foldl_cons, ih]
      cases o with
      | report =>
        simp only [Delay.step, report_load, Option.isSome_map, Spec.Called, List.mem_cons, reduceCtorEq, false_or]
      | call c =>
        have hik : ∀ e ∈ filterEvents c, itemKey e = c.group ++ c.service := by
          intro e he
          unfold filterEvents at he
          rcases List.mem_append.mp he with h | h
          · split at h
            · simpa using itemKey_callEvents _ _ _ _ _ _ e h
            · cases h
          · simpa using itemKey_callEvents _ _ _ _ _ _ e h
        have hne : filterEvents c ≠ [] := by unfold filterEvents callEvents; simp
        have := (counts_at runes (q.group ++ q.path) _ _ hik s).2.2
        rw [Delay.step, this]
        simp only [Bool.or_eq_true, decide_eq_true_eq, Spec.Called, List.mem_cons, Op.call.injEq]
        constructor
        · rintro ((⟨h1, _⟩ | h1) | ⟨c', h1, h2⟩)
          · exact .inr ⟨c, .inl rfl, h1⟩
          · exact .inl h1
          · exact .inr ⟨c', .inr h1, h2⟩
        · rintro (h1 | ⟨c', rfl | h1, h2⟩)
          · exact .inl (.inr h1)
          · exact .inl (.inl ⟨h2, hne⟩)
          · exact .inr ⟨c', h1, h2⟩
  rw [this h []]
  simp [AMap.load]

private theorem boundary_cur (runes) (h : List Op) (hb : Spec.AtBoundary h) (k : Bytes) : cur (run runes h) k = [] := by
  rcases hb with rfl | ⟨a, rfl⟩
  · rfl
  · unfold Delay.run
    rw [List.foldl_append]
    show cur (report (run runes a)) k = []
    unfold cur
    rw [report_load]
    cases AMap.load (run runes a) k <;> rfl

/-- **C107.** The latency behind the delay of a backup request, after any history of calls and reports. Without a
report, or if no call of the group and service was ever seen before the last report, there is none. Otherwise it is the
percentile of what the calls of the last complete interval took (those between the last two reports, in order, whatever
has come since), among the calls made in the same role for the same application and method; 0 if there were none. -/
theorem delay_latency (runes) (hr : Spec.ReadsRoles runes) (pct : List Int → Int → Int) (q : Ask) :
    (∀ cs : List Delay.Call, latency runes pct (run runes (cs.map .call)) q = none) ∧
    ∀ (before : List Op) (mid after : List Delay.Call), Spec.AtBoundary before →
      let h := before ++ mid.map .call ++ [.report] ++ after.map .call
      (¬ Spec.Called q (before ++ mid.map .call) → latency runes pct (run runes h) q = none) ∧
      (Spec.Called q (before ++ mid.map .call) → ∃ lat, latency runes pct (run runes h) q = some lat ∧
        ∀ share, lat share = if Spec.tookTimes runes q mid = [] then 0 else pct (Spec.tookTimes runes q mid) share) := by
  have nil : ∀ k, HOK [] k := by intro k m h; cases h
  constructor
  · intro cs
    obtain ⟨_, _, h, _⟩ := calls_at runes hr q cs [] (nil _)
    unfold latency
    rw [List.append_nil]
    have h' : lastOf (run runes (cs.map .call)) (q.group ++ q.path) = none := h
    unfold lastOf at h'
    cases hl : AMap.load (run runes (cs.map .call)) (q.group ++ q.path) with
    | none => rfl
    | some it => rw [hl] at h'; simp only [Option.bind_some] at h'; simp [h']
  · intro before mid after hb h
    have hb0 := boundary_cur runes before hb (q.group ++ q.path)
    obtain ⟨a, b, _, d⟩ := calls_at runes hr q mid (run runes before) (by rw [hb0]; exact nil _)
    have e1 : run runes (before ++ mid.map .call) = (mid.map Op.call).foldl (step runes) (run runes before) := by
      unfold Delay.run; rw [List.foldl_append]
    rw [← e1] at a b d
    have ok2 : HOK (cur (report (run runes (before ++ mid.map .call))) (q.group ++ q.path)) (getKey runes q) := by
      have := boundary_cur runes (before ++ mid.map .call ++ [.report]) (.inr ⟨_, rfl⟩) (q.group ++ q.path)
      have e2 : run runes (before ++ mid.map .call ++ [.report]) = report (run runes (before ++ mid.map .call)) := by
        unfold Delay.run; rw [List.foldl_append]; rfl
      rw [e2] at this
      rw [this]; exact nil _
    obtain ⟨_, _, l, x⟩ := calls_at runes hr q after (report (run runes (before ++ mid.map .call))) ok2
    have e3 : run runes h = (after.map Op.call).foldl (step runes) (report (run runes (before ++ mid.map .call))) := by
      show run runes (before ++ mid.map .call ++ [.report] ++ after.map .call) = _
      unfold Delay.run; rw [List.foldl_append, List.foldl_append]; rfl
    rw [← e3] at l x
    have hl : lastOf (report (run runes (before ++ mid.map .call))) (q.group ++ q.path) =
        (AMap.load (run runes (before ++ mid.map .call)) (q.group ++ q.path)).map (·.cur) := by
      unfold lastOf; rw [report_load]
      cases AMap.load (run runes (before ++ mid.map .call)) (q.group ++ q.path) <;> rfl
    rw [hl] at l
    have kn := known runes q (before ++ mid.map .call)
    unfold latency
    rw [List.append_nil]
    constructor
    · intro hc
      have : AMap.load (run runes (before ++ mid.map .call)) (q.group ++ q.path) = none := by
        cases hx : AMap.load (run runes (before ++ mid.map .call)) (q.group ++ q.path) with
        | none => rfl
        | some _ => exact absurd (kn.mp (by rw [hx]; rfl)) hc
      rw [this] at l
      unfold lastOf at l
      cases hy : AMap.load (run runes h) (q.group ++ q.path) with
      | none => rfl
      | some it => rw [hy] at l; simp only [Option.bind_some, Option.map_none] at l; simp [l]
    · intro hc
      obtain ⟨it, hit⟩ := Option.isSome_iff_exists.mp (kn.mpr hc)
      rw [hit] at l
      unfold lastOf at l
      cases hy : AMap.load (run runes h) (q.group ++ q.path) with
      | none => rw [hy] at l; cases l
      | some it' =>
        rw [hy] at l
        simp only [Option.bind_some, Option.map_some] at l
        simp only [l, Option.map_some]
        have hcur : cur (run runes (before ++ mid.map .call)) (q.group ++ q.path) = it.cur := by
          unfold cur; rw [hit]; rfl
        rw [hcur] at a b
        rw [hb0] at b
        have hb' : hist it.cur (getKey runes q) = Spec.tookTimes runes q mid := by
          rw [b]; simp [hist, AMap.load]
        refine ⟨_, rfl, fun share => ?_⟩
        unfold hist at hb'
        cases hm : AMap.load it.cur (getKey runes q) with
        | none =>
          rw [hm] at hb'
          simp only [Option.map_none, Option.getD_none] at hb'
          rw [← hb']; rfl
        | some m =>
          rw [hm] at hb'
          simp only [Option.map_some, Option.getD_some] at hb'
          obtain ⟨k1, k2⟩ := a m hm
          rw [← hb', if_neg k2]
          simp only [k1, if_true]

/-- Letters, digits and dashes. -/
def Spec.PlainName (s : Bytes) : Prop := ∀ b ∈ s, kept b.toUInt32 = true

/-- Go reads a string of ASCII bytes as these characters. -/
def Spec.AsciiRunes (runes : Bytes → List UInt32) : Prop := ∀ s : Bytes, (∀ b ∈ s, b < 128) → runes s = s.map (·.toUInt32)

private theorem kept_lt (b : UInt8) (h : kept b.toUInt32 = true) : b < 128 := by
  simp only [kept, Bool.or_eq_true, Bool.and_eq_true, decide_eq_true_eq, beq_iff_eq, UInt32.le_iff_toNat_le,
    ← UInt32.toNat_inj, UInt8.toNat_toUInt32] at h
  rw [UInt8.lt_iff_toNat_lt]
  simp only [UInt32.reduceToNat, UInt8.reduceToNat] at h ⊢
  omega

private theorem escape_plainName (runes) (hr : Spec.AsciiRunes runes) (s : Bytes) (hs : Spec.PlainName s) :
    escape runes s = s := by
  unfold escape
  rw [hr s (fun b hb => kept_lt b (hs b hb)), List.map_map]
  conv => rhs; rw [← List.map_id s]
  refine List.map_congr_left fun b hb => ?_
  simp [hs b hb]

private theorem ascii_roles (runes) (hr : Spec.AsciiRunes runes) : Spec.ReadsRoles runes := by
  unfold Spec.ReadsRoles
  rw [escape_plainName runes hr _ (by unfold Spec.PlainName; decide), escape_plainName runes hr _ (by unfold Spec.PlainName; decide)]
  decide

/-- **C107.** With names of letters, digits and dashes for applications and methods, the calls a request is compared
with are those of its own application and method, and no others. -/
theorem delay_alike_plain (runes) (hr : Spec.AsciiRunes runes) (q : Ask) (c : Delay.Call) (app : Bytes)
    (h1 : Spec.PlainName app) (h2 : Spec.PlainName q.source) (h3 : Spec.PlainName c.method)
    (h4 : Spec.PlainName q.method) :
    Spec.Alike runes q c app ↔
      c.group ++ c.service = q.group ++ q.path ∧ c.proxied = q.proxied ∧ app = q.source ∧ c.method = q.method := by
  unfold Spec.Alike
  rw [escape_plainName runes hr _ h1, escape_plainName runes hr _ h2, escape_plainName runes hr _ h3,
    escape_plainName runes hr _ h4]

/-- **C107.** What the strategy does with it: a call with retries and without a configured delay, after a history in which
the group and service were called before the last report, is hedged with the percentile of the last complete interval at
the configured share, and with ten milliseconds if that is less. -/
theorem delay_of_backup {E : Type} (runes) (hr : Spec.AsciiRunes runes) (pct : List Int → Int → Int) (u : Url.URL)
    (hu : Spec.Fresh u) (h : List Spec.UrlOp) (desc : Bytes) (id : UInt64) (ep : E) (q : Ask)
    (before : List Op) (mid after : List Delay.Call) (hb : Spec.AtBoundary before)
    (hc : Spec.Called q (before ++ mid.map .call))
    (hret : 0 < (Spec.setting u h q.method desc b!"retries").getD 0)
    (hdel : (Spec.setting u h q.method desc b!"backupRequestDelayTime").getD 0 ≤ 0) :
    let share := Spec.positive (Spec.setting u h q.method desc b!"backupRequestDelayRatio") 90
    let times := Spec.tookTimes runes q mid
    Ha.plan (Spec.runAll u h) q.method desc id (some ep)
        (latency runes pct (Delay.run runes (before ++ mid.map .call ++ [.report] ++ after.map .call)) q) =
      .hedged ep ((Spec.setting u h q.method desc b!"retries").getD 0).toNat
        (if times = [] then 10 else max 10 (pct times share))
        (Spec.positive (Spec.setting u h q.method desc b!"requestTimeout") 1000) := by
  intro share times
  obtain ⟨lat, e1, e2⟩ := ((delay_latency runes (ascii_roles runes hr) pct q).2 before mid after hb).2 hc
  have := (((backup_plan u hu h q.method desc id (some ep) _).2 ep rfl).2.2.1) hret hdel lat e1
  rw [e1, ← e1, this, e2]
  congr 1
  show max 10 (if times = [] then 0 else pct times share) = _
  split
  · decide
  · rfl

/-- **C107, where it fails.** If the switch is off and the application of the request is not that of the endpoint's URL,
the calls of that application are not found: whatever they took, once there has been a report the delay is ten
milliseconds. -/
theorem delay_other_application_violated {E : Type} (runes) (hr : Spec.AsciiRunes runes) (pct : List Int → Int → Int)
    (u : Url.URL) (hu : Spec.Fresh u) (h : List Spec.UrlOp) (desc : Bytes) (id : UInt64) (ep : E) (q : Ask)
    (before : List Op) (mid after : List Delay.Call) (hb : Spec.AtBoundary before)
    (hc : Spec.Called q (before ++ mid.map .call))
    (hret : 0 < (Spec.setting u h q.method desc b!"retries").getD 0)
    (hdel : (Spec.setting u h q.method desc b!"backupRequestDelayTime").getD 0 ≤ 0)
    (hoff : ∀ c ∈ mid, c.switchOn = false)
    (happ : ∀ c ∈ mid, Spec.PlainName c.urlApp ∧ c.urlApp ≠ q.source) (hq : Spec.PlainName q.source) :
    Ha.plan (Spec.runAll u h) q.method desc id (some ep)
        (latency runes pct (Delay.run runes (before ++ mid.map .call ++ [.report] ++ after.map .call)) q) =
      .hedged ep ((Spec.setting u h q.method desc b!"retries").getD 0).toNat 10
        (Spec.positive (Spec.setting u h q.method desc b!"requestTimeout") 1000) := by
  have ht : Spec.tookTimes runes q mid = [] := by
    unfold Spec.tookTimes
    rw [List.flatMap_eq_nil_iff]
    intro c hcm
    rw [List.map_eq_nil_iff, List.filter_eq_nil_iff]
    intro a ha
    simp only [Spec.countedFor, hoff c hcm, Bool.false_eq_true, false_and, if_false, List.nil_append,
      List.mem_singleton] at ha
    subst ha
    simp only [Spec.Alike, decide_eq_true_eq, escape_plainName runes hr _ (happ c hcm).1,
      escape_plainName runes hr _ hq]
    exact fun h => (happ c hcm).2 h.2.2.1
  have := delay_of_backup runes hr pct u hu h desc id ep q before mid after hb hc hret hdel
  simp only [ht, if_true] at this
  exact this

namespace DelayEx

def asc (s : Bytes) : List UInt32 := s.map (·.toUInt32)
def mx (l : List Int) (_ : Int) : Int := l.foldl max 0
def c1 : Delay.Call := ⟨b!"g", b!"s", false, b!"app", b!"app", b!"hello", 37, .ok, false⟩
def c2 : Delay.Call := { c1 with cost := 52, outcome := .otherError }
def c3 : Delay.Call := { c1 with method := b!"bye", cost := 900 }
def c4 : Delay.Call := { c1 with cost := 7000 }
def c5 : Delay.Call := { c1 with reqApp := b!"web", switchOn := true }
def q : Ask := ⟨b!"g", b!"s", false, b!"app", b!"hello"⟩

end DelayEx

/-- The hypotheses on the decoding are met. -/
example : Spec.AsciiRunes DelayEx.asc := fun _ _ => rfl

open DelayEx in
/-- Two calls of the method in the interval, one of another method; a later call does not count, an earlier one neither. -/
example : Spec.tookTimes asc q [c1, c2, c3] = [37, 52] ∧
    (latency asc mx (Delay.run asc ([.call c4, .report] ++ [c1, c2, c3].map .call ++ [.report] ++ [c4].map .call)) q).map
      (· 90) = some 52 ∧
    Spec.AtBoundary [.call c4, .report] ∧ Spec.Called q ([.call c4, .report] ++ [c1, c2, c3].map .call) := by
  refine ⟨by decide +kernel, by decide +kernel, .inr ⟨[.call c4], rfl⟩, c4, by simp, rfl⟩

open DelayEx in
/-- With the switch on a call counts for both applications. -/
example : Spec.tookTimes asc q [c5] = [37] ∧ Spec.tookTimes asc { q with source := b!"web" } [c5] = [37] ∧
    Spec.tookTimes asc { q with source := b!"web" } [c1] = [] := by decide +kernel

open DelayEx in
/-- The hypotheses of `delay_of_backup` and of `delay_other_application_violated` on the settings are met. -/
example : let u : Url.URL := { params := some [(b!"retries", b!"1")] }
    0 < (Spec.setting u [] q.method [] b!"retries").getD 0 ∧
    (Spec.setting u [] q.method [] b!"backupRequestDelayTime").getD 0 ≤ 0 := by decide +kernel

/-- **C107, where it fails.** The group and the service are written together without anything between them: the calls of
another group and service count too. -/
theorem delay_other_service_violated : ∃ (q : Ask) (c : Delay.Call), c.group ≠ q.group ∧ c.service ≠ q.path ∧
    (latency DelayEx.asc DelayEx.mx (Delay.run DelayEx.asc [.call c, .report]) q).map (· 90) = some c.cost :=
  ⟨⟨b!"rpc-a", b!"b", false, b!"app", b!"m"⟩, ⟨b!"rpc-", b!"ab", false, b!"app", b!"app", b!"m", 370, .ok, false⟩,
    by decide, by decide, by decide +kernel⟩

/-- **C107, where it fails.** A call that a server of another group has answered is written down for that group (the
connection puts the group of the endpoint into the request): the latency of a service all of whose endpoints are of
another group than the one asked for is never known. -/
theorem delay_other_group_violated (runes) (hr : Spec.AsciiRunes runes) (pct : List Int → Int → Int) (q : Ask)
    (before : List Op) (mid after : List Delay.Call) (hb : Spec.AtBoundary before)
    (hs : ∀ c, Op.call c ∈ before ++ mid.map .call → c.service = q.path ∧ c.group ≠ q.group) :
    latency runes pct (Delay.run runes (before ++ mid.map .call ++ [.report] ++ after.map .call)) q = none := by
  refine ((delay_latency runes (ascii_roles runes hr) pct q).2 before mid after hb).1 ?_
  rintro ⟨c, hc, e⟩
  obtain ⟨h1, h2⟩ := hs c hc
  rw [h1] at e
  exact h2 (List.append_cancel_right e)

end Motan.Props
