import Verif.Model.Observe
import Verif.Props.Dynamic
import Verif.Props.Filters

/-!
# C72: the built-in filters record every answer as the caller gets it, and otherwise pass calls on
-/

namespace Motan.Props

open Motan.Observe
open Motan.Convert (Request Response loadOrEmpty)
open Motan.Url (URL)
open Motan.Filters (Sorter)

/-- The endpoint filter with a name. -/
def Spec.kindNamed (n : Bytes) : Option Builtin :=
  if n = b!"accessLog" then some .accessLog
  else if n = b!"metrics" then some .metrics
  else if n = b!"circuitBreaker" then some .breaker
  else if n = b!"failfast" then some .failfast
  else if n = b!"trace" then some .trace
  else if n = b!"rateLimit" then some .rateLimit
  else none

/-- The cluster filter with a name. -/
def Spec.clusterKindNamed (n : Bytes) : Option Builtin :=
  if n = b!"clusterAccessLog" then some .accessLog
  else if n = b!"clusterMetrics" then some .metrics
  else if n = b!"clusterCircuitBreaker" then some .breaker
  else none

/-- The filters a URL configures for callers of a kind. -/
def Spec.kinds (side : Side) (u : URL) : List Builtin :=
  (Spec.filterNames u).filterMap (if side = .cluster then Spec.clusterKindNamed else Spec.kindNamed)

/-- `h` is what a call of a provider, endpoint or cluster with this URL does, and `ks` are the filters configured. -/
inductive Spec.Caller (E : Env) : Side → URL → List Builtin → H → Prop
  | provider {sorter : Sorter} {u : URL} {h : H} : Spec.Sorts sorter → Observe.provider E sorter u = some h →
    Spec.Caller E .provider u (Spec.kinds .provider u) h
  | endpoint {sorter : Sorter} {clusterUrl u : URL} {h : H} : Spec.Sorts sorter →
    Observe.endpoint E sorter clusterUrl u = some h → Spec.Caller E .endpoint u (Spec.kinds .endpoint clusterUrl) h
  | cluster {sorter : Sorter} {u : URL} {h : H} : Spec.Sorts sorter → Observe.cluster E sorter u = some h →
    Spec.Caller E .cluster u (Spec.kinds .cluster u) h

/-- Between two states a rate limit or circuit breaker refused a call with this message. -/
def Spec.Refused (E : Env) (w w' : World) (msg : Bytes) : Prop :=
  (∃ i, w.asked ≤ i ∧ i < w'.asked ∧ E.verdict i = .reject msg) ∨
  ∃ i, w.limited ≤ i ∧ i < w'.limited ∧ (E.limit i).1 = some msg

/-- Between two states a circuit breaker gave up waiting for a call with this message. -/
def Spec.GaveUp (E : Env) (w w' : World) (msg : Bytes) : Prop :=
  ∃ i, w.asked ≤ i ∧ i < w'.asked ∧ E.verdict i = .late msg

/-- The circuit breaker is told not to count exceptions of the business logic. -/
def Spec.bizIgnored (u : URL) : Prop :=
  ∃ v ∈ [b!"0", b!"f", b!"F", b!"FALSE", b!"false", b!"False"], u.param b!"circuitBreaker.bizException" = some v

/-- The answer of a filter that does not pass on what the callee answered. -/
def Spec.Refusal (id : UInt64) (msg : Bytes) (resp : Response) : Prop :=
  resp.id = id ∧ resp.value = none ∧ resp.exception = some ⟨400, msg, 1⟩

/-- Two requests that differ in their attachments only. -/
def Spec.SameCall (q r : Req) : Prop := ∃ m, q = { r with call := { r.call with attachment := m } }

/-- The applications a call is counted for: that of the caller and, where this is switched on, that of the source of the
request if it is another one. -/
def Spec.applications (E : Env) (side : Side) (u : URL) (r : Req) : List Bytes :=
  let app := (u.param b!"application").getD []
  let source := (r.call.attachment.load b!"M_s").getD []
  if side = .provider ∨ E.reqApp = false ∨ source = app then [app] else [source, app]

/-- Who counts a call. -/
def Spec.roleOf (side : Side) (proxy : Bool) : Bytes :=
  match side, proxy with
  | .provider, false => b!"motan-server"
  | .provider, true => b!"motan-server-agent"
  | _, false => b!"motan-client"
  | _, true => b!"motan-client-agent"

/-- An answer as the counters distinguish them. -/
def Spec.outcomeOf (resp : Response) : Metrics.Outcome :=
  match resp.exception with
  | none => .ok
  | some e => if e.errType = 2 then .bizError else .otherError

/-- One call with this answer counted (see `call_counted_once` for what `callEvents` is). -/
def Spec.counted (E : Env) (side : Side) (u : URL) (r : Req) (cost : Int) (resp : Response) : List Metrics.Event :=
  (Spec.applications E side u r).flatMap fun app =>
    Metrics.callEvents ((r.call.attachment.load b!"M_g").getD []) (if side = .cluster then b!".cluster" else []) r.call.service
      [Spec.roleOf side r.call.rc.proxy, app, r.call.method] cost (Spec.outcomeOf resp)

/-- A line of the access log tells of this request and this answer. -/
structure Spec.Tells (E : Env) (e : Entry) (r : Req) (resp : Response) : Prop where
  id : e.id = resp.id
  service : e.service = r.call.service
  method : e.method = r.call.method
  desc : e.desc = r.call.desc
  sizes : e.reqSize = r.call.rc.bodySize ∧ e.resSize = resp.rc.bodySize
  bizTime : e.bizTime = resp.processTime
  ok : resp.exception = none → e.success = true ∧ e.code = b!"200" ∧ e.exception = []
  failed : ∀ x, resp.exception = some x → e.success = false ∧ e.code = formatInt x.errCode ∧ e.exception = E.json x
  upstream : e.upstream = (resp.attachment.load b!"upstreamCode").getD []

/-! ## The chain -/

/-- Filters around a handler. -/
def wrapped (E : Env) (side : Side) (u : URL) (ks : List Builtin) (h : H) : H := ks.foldr (fun k h => k.body E side u h) h

/-- Where a filter is in the chain: observers first. -/
def layer : Builtin → Nat
  | .accessLog => 0
  | .failfast => 0
  | .metrics => 1
  | .trace => 1
  | .rateLimit => 2
  | .breaker => 2

theorem perm_map_split {α β : Type} (f : α → β) {l m : List β} (h : l.Perm m) :
    ∀ ks : List α, m = ks.map f → ∃ ks' : List α, ks'.Perm ks ∧ l = ks'.map f := by
  induction h with
  | nil => intro ks hk; exact ⟨ks, .refl _, hk⟩
  | cons x _ ih =>
    intro ks hk
    cases ks with
    | nil => cases hk
    | cons k ks =>
      rw [List.map_cons, List.cons.injEq] at hk
      obtain ⟨ks', h1, h2⟩ := ih ks hk.2
      exact ⟨k :: ks', h1.cons k, by rw [List.map_cons, ← h2, hk.1]⟩
  | swap x y l =>
    intro ks hk
    cases ks with
    | nil => cases hk
    | cons k ks =>
      cases ks with
      | nil => cases hk
      | cons k' ks =>
        simp only [List.map_cons, List.cons.injEq] at hk
        exact ⟨k' :: k :: ks, .swap _ _ _, by rw [List.map_cons, List.map_cons, hk.1, hk.2.1, hk.2.2]⟩
  | trans _ _ ih1 ih2 =>
    intro ks hk
    obtain ⟨ks1, h1, h2⟩ := ih2 ks hk
    obtain ⟨ks2, h3, h4⟩ := ih1 ks1 h2
    exact ⟨ks2, h3.trans h1, h4⟩

theorem filterMap_same {α β : Type} {f g : α → Option β} {l : List α} (h : ∀ a ∈ l, f a = g a) : l.filterMap f = l.filterMap g := by
  induction l with
  | nil => rfl
  | cons a l ih =>
    rw [List.filterMap_cons, List.filterMap_cons, h a (by simp), ih fun x hx => h x (List.mem_cons_of_mem _ hx)]

theorem proto_named (E : Env) (side : Side) (n : Bytes) :
    (match AMap.load (registered E side) n with
      | some p => if p.cluster then none else some p
      | none => none) = (Spec.kindNamed n).map (Builtin.proto E side) := by
  by_cases h0 : n = b!"accessLog"
  · subst h0; rfl
  by_cases h1 : n = b!"metrics"
  · subst h1; rfl
  by_cases h2 : n = b!"circuitBreaker"
  · subst h2; rfl
  by_cases h3 : n = b!"failfast"
  · subst h3; rfl
  by_cases h4 : n = b!"trace"
  · subst h4; rfl
  by_cases h5 : n = b!"rateLimit"
  · subst h5; rfl
  by_cases h6 : n = b!"clusterAccessLog"
  · subst h6; rfl
  by_cases h7 : n = b!"clusterMetrics"
  · subst h7; rfl
  by_cases h8 : n = b!"clusterCircuitBreaker"
  · subst h8; rfl
  have g0 := Ne.symm h0
  have g1 := Ne.symm h1
  have g2 := Ne.symm h2
  have g3 := Ne.symm h3
  have g4 := Ne.symm h4
  have g5 := Ne.symm h5
  have g6 := Ne.symm h6
  have g7 := Ne.symm h7
  have g8 := Ne.symm h8
  simp only [registered, AMap.load, Spec.kindNamed, if_neg, not_false_eq_true, ne_eq, h0, h1, h2, h3, h4, h5, h6, h7, h8, g0, g1, g2, g3, g4, g5, g6, g7, g8]
  rfl

theorem inst_named (E : Env) (side : Side) (u : URL) (n : Bytes) :
    (match AMap.load (registered E side) n with
      | some p => if p.cluster then p.newFilter u else none
      | none => none) = (Spec.clusterKindNamed n).map (Builtin.clusterInst E · u) := by
  by_cases h0 : n = b!"accessLog"
  · subst h0; rfl
  by_cases h1 : n = b!"metrics"
  · subst h1; rfl
  by_cases h2 : n = b!"circuitBreaker"
  · subst h2; rfl
  by_cases h3 : n = b!"failfast"
  · subst h3; rfl
  by_cases h4 : n = b!"trace"
  · subst h4; rfl
  by_cases h5 : n = b!"rateLimit"
  · subst h5; rfl
  by_cases h6 : n = b!"clusterAccessLog"
  · subst h6; rfl
  by_cases h7 : n = b!"clusterMetrics"
  · subst h7; rfl
  by_cases h8 : n = b!"clusterCircuitBreaker"
  · subst h8; rfl
  have g0 := Ne.symm h0
  have g1 := Ne.symm h1
  have g2 := Ne.symm h2
  have g3 := Ne.symm h3
  have g4 := Ne.symm h4
  have g5 := Ne.symm h5
  have g6 := Ne.symm h6
  have g7 := Ne.symm h7
  have g8 := Ne.symm h8
  simp only [registered, AMap.load, Spec.clusterKindNamed, if_neg, not_false_eq_true, ne_eq, h0, h1, h2, h3, h4, h5, h6, h7, h8, g0, g1, g2, g3, g4, g5, g6, g7, g8]
  rfl

/-- What the filters configured come to: nested in layers. -/
theorem caller_wrapped {E : Env} {side : Side} {u : URL} {ks : List Builtin} {h : H} (hc : Spec.Caller E side u ks h) :
    ∃ ks' : List Builtin, ks'.Perm ks ∧ ks'.Pairwise (fun a b => layer a ≤ layer b) ∧
      h = wrapped E side u ks' (last E) ∧ (side = .cluster → ∀ k ∈ ks, k = .accessLog ∨ k = .metrics ∨ k = .breaker) := by
  have hprotos : ∀ s u, s ≠ .cluster → Spec.endpointProtos (factory E s) u = (Spec.kinds s u).map (Builtin.proto E s) := by
    intro s u hs
    rw [Spec.kinds, if_neg hs, List.map_filterMap, Spec.endpointProtos]
    refine filterMap_same fun n hn => ?_
    have hn : Strings.trimSpace n = n := by
      unfold Spec.filterNames at hn
      split at hn
      · cases hn
      · obtain ⟨m, _, rfl⟩ := List.mem_map.mp (List.mem_filter.mp hn).1
        exact trimSpace_idem m
    rw [factory, Filters.getFilter, hn]
    have e := proto_named E s n
    generalize (registered E s).load n = x at e ⊢
    cases x <;> exact e
  have hinsts : ∀ s u, Spec.clusterFilters (factory E s) u = (Spec.kinds .cluster u).map (Builtin.clusterInst E · u) := by
    intro s u
    rw [Spec.kinds, if_pos rfl, List.map_filterMap, Spec.clusterFilters]
    refine filterMap_same fun n hn => ?_
    have hn : Strings.trimSpace n = n := by
      unfold Spec.filterNames at hn
      split at hn
      · cases hn
      · obtain ⟨m, _, rfl⟩ := List.mem_map.mp (List.mem_filter.mp hn).1
        exact trimSpace_idem m
    rw [factory, Filters.getFilter, hn]
    have e := inst_named E s u n
    generalize (registered E s).load n = x at e ⊢
    cases x <;> exact e
  have hmade : ∀ s u (l : List Builtin), (l.map (Builtin.proto E s)).filterMap (Spec.made u) = l.map (Builtin.inst E s · u) := by
    intro s u l
    rw [List.filterMap_map, ← List.filterMap_eq_map]
    exact filterMap_same fun k _ => rfl
  have hnest : ∀ (f : Builtin → Filters.Inst H) s u, (∀ k, (f k).body = k.body E s u) → ∀ (l : List Builtin) (x : H),
      Spec.nest (l.map f) x = wrapped E s u l x := by
    intro f s u hf l x
    rw [Spec.nest, wrapped, List.foldr_map]
    simp only [hf]
  have hlayer : ∀ a b : Builtin, a.index ≤ b.index → layer a ≤ layer b := by
    intro a b; cases a <;> cases b <;> decide
  cases hc with
  | @provider sorter u h hs hp =>
    rw [Observe.provider] at hp
    cases hw : Filters.wrapWithFilter sorter u (factory E .provider) with
    | none => rw [hw] at hp; cases hp
    | some c =>
      rw [hw] at hp
      obtain ⟨ps, h1, h2, h3⟩ := provider_filters_nested sorter hs u _ c hw
      obtain ⟨ks', hk, rfl⟩ := perm_map_split _ h1 _ (hprotos .provider u (by decide))
      refine ⟨ks', hk, (List.pairwise_map.mp h2).imp (hlayer _ _), ?_, fun h => by cases h⟩
      rw [← Option.some.inj hp]
      simp only [h3, hmade]
      exact hnest (Builtin.inst E .provider · u) _ _ (fun _ => rfl) _ _
  | @endpoint sorter cu u h hs hp =>
    rw [Observe.endpoint] at hp
    cases hw : Filters.initFilters sorter cu (factory E .endpoint) with
    | none => rw [hw] at hp; cases hp
    | some c =>
      rw [hw] at hp
      obtain ⟨ps, h1, h2, h3, _⟩ := endpoint_filters_nested sorter hs cu u _ c.1 c.2 hw
      obtain ⟨ks', hk, rfl⟩ := perm_map_split _ h1 _ (hprotos .endpoint cu (by decide))
      refine ⟨ks', hk, (List.pairwise_map.mp h2).imp (hlayer _ _), ?_, fun h => by cases h⟩
      rw [← Option.some.inj hp]
      simp only [h3, hmade]
      exact hnest (Builtin.inst E .endpoint · u) _ _ (fun _ => rfl) _ _
  | @cluster sorter u h hs hp =>
    rw [Observe.cluster] at hp
    cases hw : Filters.initFilters sorter u (factory E .endpoint) with
    | none => rw [hw] at hp; cases hp
    | some c =>
      rw [hw] at hp
      obtain ⟨l, h1, h2, h3⟩ := (cluster_filters_nested sorter hs u _).2 c.1 c.2 hw
      obtain ⟨ks', hk, rfl⟩ := perm_map_split _ h1 _ (hinsts .endpoint u)
      have hmem : ∀ k ∈ Spec.kinds .cluster u, k = .accessLog ∨ k = .metrics ∨ k = .breaker := by
        intro k hk
        rw [Spec.kinds, if_pos rfl, List.mem_filterMap] at hk
        obtain ⟨n, _, hn⟩ := hk
        unfold Spec.clusterKindNamed at hn
        repeat' split at hn
        · exact .inl (Option.some.inj hn).symm
        · exact .inr (.inl (Option.some.inj hn).symm)
        · exact .inr (.inr (Option.some.inj hn).symm)
        · cases hn
      have hl : ∀ a b : Builtin, (a = .accessLog ∨ a = .metrics ∨ a = .breaker) →
          (b = .accessLog ∨ b = .metrics ∨ b = .breaker) → a.clusterIndex ≤ b.clusterIndex → layer a ≤ layer b := by
        intro a b
        rintro (rfl | rfl | rfl) (rfl | rfl | rfl) <;> decide
      refine ⟨ks', hk, ?_, ?_, fun _ => hmem⟩
      · refine List.Pairwise.imp_of_mem ?_ (List.pairwise_map.mp h2)
        intro a b ha hb
        exact hl a b (hmem a (hk.mem_iff.mp ha)) (hmem b (hk.mem_iff.mp hb))
      · rw [← Option.some.inj hp]
        simp only [h3]
        exact hnest (Builtin.clusterInst E · u) _ _ (fun _ => rfl) _ _

/-! ## The layers -/

theorem wrapped_append (E : Env) (side : Side) (u : URL) (l l' : List Builtin) (h : H) :
    wrapped E side u (l ++ l') h = wrapped E side u l (wrapped E side u l' h) := by
  rw [wrapped, List.foldr_append]; rfl

/-- A chain in layers. -/
theorem layered_split (ks : List Builtin) (h : ks.Pairwise (fun a b => layer a ≤ layer b)) :
    ∃ a b c, ks = a ++ (b ++ c) ∧ (∀ k ∈ a, k = .accessLog ∨ k = .failfast) ∧ (∀ k ∈ b, k = .metrics ∨ k = .trace) ∧
      ∀ k ∈ c, k = .rateLimit ∨ k = .breaker := by
  induction ks with
  | nil => exact ⟨[], [], [], rfl, by simp, by simp, by simp⟩
  | cons k ks ih =>
    obtain ⟨h1, h2⟩ := List.pairwise_cons.mp h
    obtain ⟨a, b, c, rfl, ha, hb, hc⟩ := ih h2
    have ha0 : 0 < layer k → a = [] := by
      intro hk
      cases a with
      | nil => rfl
      | cons x a =>
        have := h1 x (by simp)
        have hx : layer x = 0 := by rcases ha x (by simp) with rfl | rfl <;> rfl
        omega
    have hb0 : 1 < layer k → b = [] := by
      intro hk
      cases b with
      | nil => rfl
      | cons x b =>
        have := h1 x (by simp)
        have hx : layer x = 1 := by rcases hb x (by simp) with rfl | rfl <;> rfl
        omega
    have h0 : ∀ k, layer k = 0 → k = .accessLog ∨ k = .failfast := by intro k; cases k <;> simp [layer]
    have h1' : ∀ k, layer k = 1 → k = .metrics ∨ k = .trace := by intro k; cases k <;> simp [layer]
    have h2' : ∀ k, layer k = 2 → k = .rateLimit ∨ k = .breaker := by intro k; cases k <;> simp [layer]
    have hle : layer k = 0 ∨ layer k = 1 ∨ layer k = 2 := by cases k <;> simp [layer]
    rcases hle with hk | hk | hk
    · refine ⟨k :: a, b, c, rfl, ?_, hb, hc⟩
      intro x hx
      rcases List.mem_cons.mp hx with rfl | hx
      · exact h0 _ hk
      · exact ha x hx
    · rw [ha0 (by omega)]
      refine ⟨[], k :: b, c, rfl, by simp, ?_, hc⟩
      intro x hx
      rcases List.mem_cons.mp hx with rfl | hx
      · exact h1' _ hk
      · exact hb x hx
    · rw [ha0 (by omega), hb0 (by omega)]
      refine ⟨[], [], k :: c, rfl, by simp, by simp, ?_⟩
      intro x hx
      rcases List.mem_cons.mp hx with rfl | hx
      · exact h2' _ hk
      · exact hc x hx

/-- Spans started one inside the other: the requests they see, outermost first. -/
def injected (E : Env) : Nat → Nat → Req → Req
  | 0, _, r => r
  | n + 1, i, r => injected E n (i + 1) { r with call := { r.call with attachment := E.inject i r.call.attachment } }

/-- The spans of one call, in the order they finish. -/
def spansOf (E : Env) : Nat → Nat → Req → Tag → List Span
  | 0, _, _, _ => []
  | n + 1, i, r, t =>
    spansOf E n (i + 1) { r with call := { r.call with attachment := E.inject i r.call.attachment } } t ++
      [⟨r.call.service ++ b!"." ++ r.call.method, E.extract r.call, t⟩]

theorem mid_layer (E : Env) (side : Side) (u : URL) (g : H) (ks : List Builtin)
    (hks : ∀ k ∈ ks, k = .metrics ∨ k = .trace) (r : Req) (w : World) :
    wrapped E side u ks g r w =
      match g (injected E (ks.count .trace) w.started r) { w with started := w.started + ks.count .trace } with
      | (.ret resp, r', w1) => (.ret resp, r',
          { w1 with
            events := w1.events ++ (List.replicate (ks.count .metrics)
              (metricEvents E side u r' (ms (w1.now - if side = .provider then r.received else w.now)) resp.answer)).flatten
            spans := w1.spans ++ spansOf E (ks.count .trace) w.started r (tagOf resp.answer) })
      | (.panic v, r', w1) =>
          (.panic (if ks.count .trace = 0 ∨ E.recorder = true then v else nilPanic), r',
            { w1 with
              spans := w1.spans ++
                spansOf E (ks.count .trace) w.started r (if E.recorder = true then .panicked v else .nothing) })
      | (.crash, r', w1) => (.crash, r', w1) := by
  induction ks generalizing r w with
  | nil =>
    simp only [wrapped, List.foldr_nil, List.count_nil, injected, spansOf, Nat.add_zero, List.replicate_zero,
      List.flatten_nil, List.append_nil]
    rcases g r w with ⟨o, r', w1⟩
    cases o <;> simp
  | cons k ks ih =>
    have ih := ih (fun x hx => hks x (List.mem_cons_of_mem _ hx))
    have e : wrapped E side u (k :: ks) g = k.body E side u (wrapped E side u ks g) := rfl
    rw [e]
    rcases hks k (by simp) with rfl | rfl
    · rw [Builtin.body, metrics, ih]
      simp only [List.count_cons]
      simp only [show (Builtin.metrics == Builtin.trace) = false from rfl, show (Builtin.metrics == Builtin.metrics) = true from rfl,
        if_true, Bool.false_eq_true, if_false, Nat.add_zero]
      rcases g _ _ with ⟨o, r', w1⟩
      cases o with
      | ret resp => simp only [List.replicate_succ', List.flatten_append, List.flatten_singleton, List.append_assoc]
      | panic v => rfl
      | crash => rfl
    · rw [Builtin.body, trace, ih]
      simp only [List.count_cons]
      simp only [show (Builtin.trace == Builtin.trace) = true from rfl, show (Builtin.trace == Builtin.metrics) = false from rfl,
        if_true, Bool.false_eq_true, if_false, Nat.add_zero, injected, spansOf]
      rw [show w.started + 1 + List.count Builtin.trace ks = w.started + (List.count Builtin.trace ks + 1) by omega]
      rcases g _ _ with ⟨o, r', w1⟩
      cases o with
      | ret resp => simp only [List.append_assoc]
      | panic v =>
        cases hr : E.recorder with
        | true => simp [List.append_assoc]
        | false => simp [List.append_assoc]
      | crash => rfl

theorem outer_layer (E : Env) (side : Side) (u : URL) (g : H) (ks : List Builtin)
    (hks : ∀ k ∈ ks, k = .accessLog ∨ k = .failfast) (r : Req) (w : World) :
    wrapped E side u ks g r w =
      match g r w with
      | (.ret resp, r', w1) =>
          (.ret { resp with finish := resp.finish ++ if side = .provider then
              List.replicate (ks.count .accessLog) ⟨b!"accessLog", b!"server-agent", loadOrEmpty r.call.attachment b!"host"⟩ else [] }, r',
            { w1 with
              log := w1.log ++ (if side = .provider then [] else List.replicate (ks.count .accessLog)
                (entry E (if side = .cluster then b!"clusterAccessLog" else b!"accessLog") b!"client-agent" (peer side u r)
                  (ms (w1.now - w.now)) r' resp.answer))
              eps := Nat.repeat (fun s => Failfast.filter s resp.answer.exception.isSome w1.now) (ks.count .failfast) w1.eps })
      | x => x := by
  induction ks with
  | nil =>
    simp only [wrapped, List.foldr_nil, List.count_nil, List.replicate_zero, Nat.repeat, ite_self, List.append_nil]
    rcases g r w with ⟨o, r', w1⟩
    cases o <;> simp
  | cons k ks ih =>
    have ih := ih (fun x hx => hks x (List.mem_cons_of_mem _ hx))
    have e : wrapped E side u (k :: ks) g = k.body E side u (wrapped E side u ks g) := rfl
    rw [e]
    rcases hks k (by simp) with rfl | rfl
    · rw [Builtin.body, accessLog, ih]
      simp only [List.count_cons]
      simp only [show (Builtin.accessLog == Builtin.failfast) = false from rfl, show (Builtin.accessLog == Builtin.accessLog) = true from rfl,
        if_true, Bool.false_eq_true, if_false, Nat.add_zero]
      rcases g r w with ⟨o, r', w1⟩
      cases o with
      | ret resp => cases side <;> simp [List.replicate_succ', peer, List.append_assoc]
      | panic v => rfl
      | crash => rfl
    · rw [Builtin.body, failfast, ih]
      simp only [List.count_cons]
      simp only [show (Builtin.failfast == Builtin.failfast) = true from rfl, show (Builtin.failfast == Builtin.accessLog) = false from rfl,
        if_true, Bool.false_eq_true, if_false, Nat.add_zero]
      rcases g r w with ⟨o, r', w1⟩
      cases o with
      | ret resp => simp only [Nat.repeat]
      | panic v => rfl
      | crash => rfl

theorem check_err (r : Req) (msg : Bytes) (b : Bool) : checkException (errResponse r msg) b = some msg := by
  cases b <;> rfl

theorem gate_layer (E : Env) (side : Side) (u : URL) (ks : List Builtin) (hks : ∀ k ∈ ks, k = .rateLimit ∨ k = .breaker)
    {r : Req} {w : World} {out : Out} {r' : Req} {w1 : World} (h : wrapped E side u ks (last E) r w = (out, r', w1)) :
    (w1.events = w.events ∧ w1.log = w.log ∧ w1.spans = w.spans ∧ w1.eps = w.eps ∧ w1.started = w.started) ∧
    (w.asked ≤ w1.asked ∧ (.breaker ∉ ks → w1.asked = w.asked)) ∧
    (w.limited ≤ w1.limited ∧ (.rateLimit ∉ ks → w1.limited = w.limited)) ∧
    ((w1.called = w.called ∧ r' = r ∧ ∃ msg, out = .ret ⟨errResponse r msg, []⟩ ∧
        (Spec.Refused E w w1 msg ∨ Spec.GaveUp E w w1 msg)) ∨
     (w1.called = w.called ++ [r] ∧ r' = (E.callee w.called.length r).2.1 ∧
       match (E.callee w.called.length r).1 with
       | .ret cr => (out = .ret cr ∧ (.breaker ∈ ks → checkException cr.answer (includeBiz u) = none)) ∨
           ∃ q msg, (q = r ∨ q = r') ∧ out = .ret ⟨errResponse q msg, []⟩ ∧ .breaker ∈ ks ∧
             (Spec.GaveUp E w w1 msg ∨ checkException cr.answer (includeBiz u) = some msg)
       | .panic v => out = if .breaker ∈ ks then .crash else .panic v
       | .crash => out = .crash)) := by
  induction ks generalizing r w out r' w1 with
  | nil =>
    simp only [wrapped, List.foldr_nil, last, Prod.mk.injEq] at h
    obtain ⟨h1, h2, h3⟩ := h
    subst h3
    refine ⟨⟨rfl, rfl, rfl, rfl, rfl⟩, ⟨Nat.le_refl _, fun _ => rfl⟩, ⟨Nat.le_refl _, fun _ => rfl⟩, .inr ⟨rfl, h2.symm, ?_⟩⟩
    subst h1
    cases (E.callee w.called.length r).1 with
    | ret cr => exact .inl ⟨rfl, fun h => by cases h⟩
    | panic v => simp
    | crash => rfl
  | cons k ks ih =>
    have ih := @ih (fun x hx => hks x (List.mem_cons_of_mem _ hx))
    have e : wrapped E side u (k :: ks) (last E) = k.body E side u (wrapped E side u ks (last E)) := rfl
    rw [e] at h
    rcases hks k (by simp) with rfl | rfl
    · rw [Builtin.body, rateLimit] at h
      have hb : Builtin.breaker ∈ Builtin.rateLimit :: ks ↔ Builtin.breaker ∈ ks := by simp
      simp only [hb]
      cases hl : (E.limit w.limited).1 with
      | some msg =>
        simp only [hl, Prod.mk.injEq] at h
        obtain ⟨h1, h2, h3⟩ := h
        subst h1 h2 h3
        refine ⟨⟨rfl, rfl, rfl, rfl, rfl⟩, ⟨Nat.le_refl _, fun _ => rfl⟩, ⟨Nat.le_succ _, fun h => absurd (by simp) h⟩,
          .inl ⟨rfl, rfl, msg, rfl, .inl (.inr ⟨w.limited, Nat.le_refl _, Nat.lt_succ_self _, hl⟩)⟩⟩
      | none =>
        simp only [hl] at h
        obtain ⟨i1, i2, i3, i4⟩ := ih h
        have hre : ∀ msg, Spec.Refused E { w with limited := w.limited + 1, now := w.now + (E.limit w.limited).2 } w1 msg →
            Spec.Refused E w w1 msg := by
          rintro msg (⟨i, a, b, c⟩ | ⟨i, a, b, c⟩)
          · exact .inl ⟨i, a, b, c⟩
          · exact .inr ⟨i, Nat.le_of_succ_le a, b, c⟩
        refine ⟨i1, i2, ⟨Nat.le_of_succ_le i3.1, fun h => absurd (by simp) h⟩, ?_⟩
        rcases i4 with ⟨a, b, msg, c, d⟩ | i4
        · exact .inl ⟨a, b, msg, c, d.imp (hre msg) id⟩
        · exact .inr i4
    · rw [Builtin.body, breaker] at h
      have hr : Builtin.rateLimit ∈ Builtin.breaker :: ks ↔ Builtin.rateLimit ∈ ks := by simp
      have hb : Builtin.breaker ∈ Builtin.breaker :: ks := by simp
      simp only [hr]
      cases hv : E.verdict w.asked with
      | reject msg =>
        simp only [hv, Prod.mk.injEq] at h
        obtain ⟨h1, h2, h3⟩ := h
        subst h1 h2 h3
        exact ⟨⟨rfl, rfl, rfl, rfl, rfl⟩, ⟨Nat.le_succ _, fun h => absurd hb h⟩, ⟨Nat.le_refl _, fun _ => rfl⟩,
          .inl ⟨rfl, rfl, msg, rfl, .inl (.inl ⟨w.asked, Nat.le_refl _, Nat.lt_succ_self _, hv⟩)⟩⟩
      | late msg =>
        simp only [hv] at h
        rcases hn : wrapped E side u ks (last E) r { w with asked := w.asked + 1 } with ⟨o, q, w2⟩
        rw [hn] at h
        obtain ⟨i1, i2, i3, i4⟩ := ih hn
        have hlt : w.asked < w2.asked := Nat.lt_of_succ_le i2.1
        have hg : Spec.GaveUp E w w2 msg := ⟨w.asked, Nat.le_refl _, hlt, hv⟩
        cases o with
        | ret resp =>
          simp only [Prod.mk.injEq] at h
          obtain ⟨h1, h2, h3⟩ := h
          subst h1 h2 h3
          refine ⟨i1, ⟨Nat.le_of_lt hlt, fun h => absurd hb h⟩, i3, ?_⟩
          rcases i4 with ⟨a, b, msg', c, d⟩ | ⟨a, b, c⟩
          · exact .inl ⟨a, b, msg, rfl, .inr hg⟩
          · refine .inr ⟨a, b, ?_⟩
            simp only at c
            cases hc : (E.callee w.called.length r).1 with
            | ret cr => exact .inr ⟨r, msg, .inl rfl, rfl, hb, .inl hg⟩
            | panic v => rw [hc] at c; by_cases hm : Builtin.breaker ∈ ks <;> simp [hm] at c
            | crash => rw [hc] at c; cases c
        | panic v =>
          simp only [Prod.mk.injEq] at h
          obtain ⟨h1, h2, h3⟩ := h
          subst h1 h2 h3
          refine ⟨i1, ⟨Nat.le_of_lt hlt, fun h => absurd hb h⟩, i3, ?_⟩
          rcases i4 with ⟨a, b, msg', c, d⟩ | ⟨a, b, c⟩
          · cases c
          · refine .inr ⟨a, b, ?_⟩
            simp only at c
            cases hc : (E.callee w.called.length r).1 with
            | ret cr =>
              rw [hc] at c
              rcases c with ⟨c, _⟩ | ⟨_, _, _, c, _⟩ <;> cases c
            | panic v => simp
            | crash => rfl
        | crash =>
          simp only [Prod.mk.injEq] at h
          obtain ⟨h1, h2, h3⟩ := h
          subst h1 h2 h3
          refine ⟨i1, ⟨Nat.le_of_lt hlt, fun h => absurd hb h⟩, i3, ?_⟩
          rcases i4 with ⟨a, b, msg', c, d⟩ | ⟨a, b, c⟩
          · cases c
          · refine .inr ⟨a, b, ?_⟩
            simp only at c
            cases hc : (E.callee w.called.length r).1 with
            | ret cr =>
              rw [hc] at c
              rcases c with ⟨c, _⟩ | ⟨_, _, _, c, _⟩ <;> cases c
            | panic v => simp
            | crash => rfl
      | admit =>
        simp only [hv] at h
        rcases hn : wrapped E side u ks (last E) r { w with asked := w.asked + 1 } with ⟨o, q, w2⟩
        rw [hn] at h
        obtain ⟨i1, i2, i3, i4⟩ := ih hn
        have hlt : w.asked < w2.asked := Nat.lt_of_succ_le i2.1
        have hre : ∀ msg, Spec.Refused E { w with asked := w.asked + 1 } w2 msg → Spec.Refused E w w2 msg := by
          rintro msg (⟨i, a, b, c⟩ | ⟨i, a, b, c⟩)
          · exact .inl ⟨i, Nat.le_of_succ_le a, b, c⟩
          · exact .inr ⟨i, a, b, c⟩
        have hge : ∀ msg, Spec.GaveUp E { w with asked := w.asked + 1 } w2 msg → Spec.GaveUp E w w2 msg := by
          rintro msg ⟨i, a, b, c⟩
          exact ⟨i, Nat.le_of_succ_le a, b, c⟩
        cases o with
        | ret resp =>
          have hw : w2 = w1 ∧ q = r' ∧ out = (match checkException resp.answer (includeBiz u) with
              | some msg => .ret ⟨errResponse q msg, []⟩
              | none => .ret resp) := by
            cases hx : checkException resp.answer (includeBiz u) with
            | some msg =>
              simp only [hx, Prod.mk.injEq] at h
              exact ⟨h.2.2, h.2.1, h.1.symm⟩
            | none =>
              simp only [hx, Prod.mk.injEq] at h
              exact ⟨h.2.2, h.2.1, h.1.symm⟩
          obtain ⟨rfl, rfl, ho⟩ := hw
          refine ⟨i1, ⟨Nat.le_of_lt hlt, fun h => absurd hb h⟩, i3, ?_⟩
          rcases i4 with ⟨a, b, msg, c, d⟩ | ⟨a, b, c⟩
          · rw [Out.ret.injEq] at c
            rw [c] at ho
            simp only [check_err, b] at ho
            exact .inl ⟨a, b, msg, ho, d.imp (hre msg) (hge msg)⟩
          · refine .inr ⟨a, b, ?_⟩
            simp only at c
            cases hc : (E.callee w.called.length r).1 with
            | ret cr =>
              rw [hc] at c
              rcases c with ⟨c, c'⟩ | ⟨p, msg, c1, c2, c3, c4⟩
              · rw [Out.ret.injEq] at c
                subst c
                cases hx : checkException resp.answer (includeBiz u) with
                | some msg =>
                  rw [hx] at ho
                  exact .inr ⟨q, msg, .inr rfl, ho, hb, .inr hx⟩
                | none =>
                  rw [hx] at ho
                  exact .inl ⟨ho, fun _ => hx⟩
              · rw [Out.ret.injEq] at c2
                rw [c2] at ho
                simp only [check_err] at ho
                exact .inr ⟨q, msg, .inr rfl, ho, hb, c4.imp (hge msg) id⟩
            | panic v => rw [hc] at c; by_cases hm : Builtin.breaker ∈ ks <;> simp [hm] at c
            | crash => rw [hc] at c; cases c
        | panic v =>
          simp only [Prod.mk.injEq] at h
          obtain ⟨h1, h2, h3⟩ := h
          subst h1 h2 h3
          refine ⟨i1, ⟨Nat.le_of_lt hlt, fun h => absurd hb h⟩, i3, ?_⟩
          rcases i4 with ⟨a, b, msg', c, d⟩ | ⟨a, b, c⟩
          · cases c
          · refine .inr ⟨a, b, ?_⟩
            simp only at c
            cases hc : (E.callee w.called.length r).1 with
            | ret cr =>
              rw [hc] at c
              rcases c with ⟨c, _⟩ | ⟨_, _, _, c, _⟩ <;> cases c
            | panic v => simp
            | crash => rfl
        | crash =>
          simp only [Prod.mk.injEq] at h
          obtain ⟨h1, h2, h3⟩ := h
          subst h1 h2 h3
          refine ⟨i1, ⟨Nat.le_of_lt hlt, fun h => absurd hb h⟩, i3, ?_⟩
          rcases i4 with ⟨a, b, msg', c, d⟩ | ⟨a, b, c⟩
          · cases c
          · refine .inr ⟨a, b, ?_⟩
            simp only at c
            cases hc : (E.callee w.called.length r).1 with
            | ret cr =>
              rw [hc] at c
              rcases c with ⟨c, _⟩ | ⟨_, _, _, c, _⟩ <;> cases c
            | panic v => simp
            | crash => rfl

/-- What a call does, in terms of what rate limits and circuit breakers let through. -/
theorem caller_run {E : Env} {side : Side} {u : URL} {ks : List Builtin} {h : H} (hc : Spec.Caller E side u ks h) (r : Req)
    (w : World) :
    ∃ gs : List Builtin, (∀ k ∈ gs, k = .rateLimit ∨ k = .breaker) ∧ (.rateLimit ∈ gs ↔ .rateLimit ∈ ks) ∧
      (.breaker ∈ gs ↔ .breaker ∈ ks) ∧
      h r w =
        match wrapped E side u gs (last E) (injected E (ks.count .trace) w.started r)
            { w with started := w.started + ks.count .trace } with
        | (.ret resp, r', w1) =>
          (.ret { resp with finish := resp.finish ++ if side = .provider then
              List.replicate (ks.count .accessLog) ⟨b!"accessLog", b!"server-agent", loadOrEmpty r.call.attachment b!"host"⟩ else [] }, r',
            { w1 with
              events := w1.events ++ (List.replicate (ks.count .metrics)
                (metricEvents E side u r' (ms (w1.now - if side = .provider then r.received else w.now)) resp.answer)).flatten
              spans := w1.spans ++ spansOf E (ks.count .trace) w.started r (tagOf resp.answer)
              log := w1.log ++ (if side = .provider then [] else List.replicate (ks.count .accessLog)
                (entry E (if side = .cluster then b!"clusterAccessLog" else b!"accessLog") b!"client-agent" (peer side u r)
                  (ms (w1.now - w.now)) r' resp.answer))
              eps := Nat.repeat (fun s => Failfast.filter s resp.answer.exception.isSome w1.now) (ks.count .failfast) w1.eps })
        | (.panic v, r', w1) =>
          (.panic (if ks.count .trace = 0 ∨ E.recorder = true then v else nilPanic), r',
            { w1 with
              spans := w1.spans ++
                spansOf E (ks.count .trace) w.started r (if E.recorder = true then .panicked v else .nothing) })
        | (.crash, r', w1) => (.crash, r', w1) := by
  obtain ⟨ks', hp, hl, rfl, _⟩ := caller_wrapped hc
  obtain ⟨a, b, c, rfl, ha, hb, hg⟩ := layered_split ks' hl
  have ca : ∀ k, k ≠ .accessLog → k ≠ .failfast → a.count k = 0 := fun k h1 h2 =>
    List.count_eq_zero.mpr fun h => (ha k h).elim h1 h2
  have cb : ∀ k, k ≠ .metrics → k ≠ .trace → b.count k = 0 := fun k h1 h2 =>
    List.count_eq_zero.mpr fun h => (hb k h).elim h1 h2
  have cg : ∀ k, k ≠ .rateLimit → k ≠ .breaker → c.count k = 0 := fun k h1 h2 =>
    List.count_eq_zero.mpr fun h => (hg k h).elim h1 h2
  have hcount : ∀ k, ks.count k = a.count k + (b.count k + c.count k) := by
    intro k
    rw [← hp.count_eq, List.count_append, List.count_append]
  have hmem : ∀ k, (k = .rateLimit ∨ k = .breaker) → (k ∈ c ↔ k ∈ ks) := by
    intro k hk
    rw [← hp.mem_iff, List.mem_append, List.mem_append]
    refine ⟨fun h => .inr (.inr h), ?_⟩
    rintro (h | h | h)
    · rcases ha k h with rfl | rfl <;> simp at hk
    · rcases hb k h with rfl | rfl <;> simp at hk
    · exact h
  refine ⟨c, hg, hmem _ (.inl rfl), hmem _ (.inr rfl), ?_⟩
  have n1 : ks.count .trace = b.count .trace := by
    rw [hcount, ca _ (by decide) (by decide), cg _ (by decide) (by decide)]; omega
  have n2 : ks.count .metrics = b.count .metrics := by
    rw [hcount, ca _ (by decide) (by decide), cg _ (by decide) (by decide)]; omega
  have n3 : ks.count .accessLog = a.count .accessLog := by
    rw [hcount, cb _ (by decide) (by decide), cg _ (by decide) (by decide)]; omega
  have n4 : ks.count .failfast = a.count .failfast := by
    rw [hcount, cb _ (by decide) (by decide), cg _ (by decide) (by decide)]; omega
  rw [wrapped_append, wrapped_append, outer_layer E side u _ a ha, mid_layer E side u _ b hb, n1, n2, n3, n4]
  rcases wrapped E side u c (last E) _ _ with ⟨o, r', w1⟩
  cases o <;> rfl

theorem injected_same (E : Env) (n i : Nat) (r : Req) : Spec.SameCall (injected E n i r) r := by
  induction n generalizing i r with
  | zero => exact ⟨r.call.attachment, rfl⟩
  | succ n ih =>
    obtain ⟨m, hm⟩ := ih (i + 1) { r with call := { r.call with attachment := E.inject i r.call.attachment } }
    exact ⟨m, hm⟩

theorem includeBiz_iff (u : URL) : includeBiz u = false ↔ Spec.bizIgnored u := by
  unfold includeBiz Spec.bizIgnored Url.getParam
  cases hp : u.param b!"circuitBreaker.bizException" with
  | none =>
    refine ⟨fun h => absurd h (by decide), fun ⟨v, _, h⟩ => by cases h⟩
  | some v =>
    simp only [Option.getD_some, Option.some.injEq, exists_eq_right']
    by_cases hv : v = []
    · subst hv
      exact ⟨fun h => absurd h (by decide), fun h => absurd h (by decide)⟩
    · rw [if_neg hv, Url.parseBool]
      by_cases h1 : v ∈ [b!"1", b!"t", b!"T", b!"TRUE", b!"true", b!"True"]
      · rw [if_pos h1]
        refine ⟨fun h => by simp at h, fun h => ?_⟩
        simp only [List.mem_cons, List.not_mem_nil, or_false] at h1 h
        rcases h1 with rfl | rfl | rfl | rfl | rfl | rfl <;> exact absurd h (by decide)
      · rw [if_neg h1]
        by_cases h2 : v ∈ [b!"0", b!"f", b!"F", b!"FALSE", b!"false", b!"False"]
        · rw [if_pos h2]
          exact ⟨fun _ => h2, fun _ => rfl⟩
        · rw [if_neg h2]
          exact ⟨fun h => by simp at h, fun h => absurd h h2⟩

/-- What the circuit breaker makes of an exception. -/
theorem check_some {resp : Response} {u : URL} {msg : Bytes} (h : checkException resp (includeBiz u) = some msg) :
    ∃ e, resp.exception = some e ∧ e.errMsg = msg ∧ (Spec.bizIgnored u → e.errType ≠ 2) := by
  unfold checkException at h
  cases he : resp.exception with
  | none => rw [he] at h; cases h
  | some e =>
    rw [he] at h
    simp only at h
    split at h
    · rename_i hb
      refine ⟨e, rfl, Option.some.inj h, fun hi => ?_⟩
      rcases hb with hb | hb
      · rw [(includeBiz_iff u).mpr hi] at hb; cases hb
      · exact hb
    · cases h

theorem check_none {resp : Response} {u : URL} (h : checkException resp (includeBiz u) = none) :
    ∀ e, resp.exception = some e → Spec.bizIgnored u ∧ e.errType = 2 := by
  intro e he
  unfold checkException at h
  rw [he] at h
  simp only at h
  split at h
  · cases h
  · rename_i hb
    rw [not_or] at hb
    refine ⟨(includeBiz_iff u).mp (by simpa using hb.1), ?_⟩
    have := hb.2
    simpa [Ha.bizException] using this

/-! ## The property -/

/-- **C72, set-up.** Whatever filters are configured, setting them up does not panic. -/
theorem observe_set_up (E : Env) (sorter : Sorter) (hs : Spec.Sorts sorter) (clusterUrl u : URL) :
    (Observe.provider E sorter u).isSome = true ∧ (Observe.endpoint E sorter clusterUrl u).isSome = true ∧
    (Observe.cluster E sorter u).isSome = true := by
  have hi : ∀ s u, ∃ x, Filters.initFilters sorter u (factory E s) = some x := by
    intro s u
    cases hx : Filters.initFilters sorter u (factory E s) with
    | some x => exact ⟨x, rfl⟩
    | none =>
      obtain ⟨i, hi, hf⟩ := (cluster_filters_nested sorter hs u _).1.mp hx
      rw [Spec.clusterFilters, List.mem_filterMap] at hi
      obtain ⟨n, _, hn⟩ := hi
      rw [factory, Filters.getFilter] at hn
      have e := inst_named E s u (Strings.trimSpace n)
      generalize (registered E s).load (Strings.trimSpace n) = x at e hn
      have : (Spec.clusterKindNamed (Strings.trimSpace n)).map (Builtin.clusterInst E · u) = some i := by
        rw [← e, ← hn]; cases x <;> rfl
      obtain ⟨k, _, rfl⟩ := Option.map_eq_some_iff.mp this
      cases hf
  refine ⟨?_, ?_, ?_⟩
  · obtain ⟨x, hx⟩ := hi .provider u
    rw [Observe.provider, Filters.wrapWithFilter]
    rw [Filters.initFilters] at hx
    cases hg : Filters.getURLFilters sorter u (factory E .provider) with
    | none => rw [hg] at hx; cases hx
    | some y => rfl
  · obtain ⟨x, hx⟩ := hi .endpoint clusterUrl
    rw [Observe.endpoint, hx]; rfl
  · obtain ⟨x, hx⟩ := hi .endpoint u
    rw [Observe.cluster, hx]; rfl

/-- **C72, passing on.** The filters pass a call on at most once, and exactly once if neither a rate limit nor a circuit
breaker is configured; what they pass on differs from the request in its attachments only, and not at all if calls are
not traced. -/
theorem observe_called {E : Env} {side : Side} {u : URL} {ks : List Builtin} {h : H} (hc : Spec.Caller E side u ks h) {r : Req}
    {w : World} {out : Out} {r' : Req} {w' : World} (hr : h r w = (out, r', w')) :
    (w'.called = w.called ∧ r' = { r with call := { r.call with attachment := r'.call.attachment } } ∧
      (.rateLimit ∈ ks ∨ .breaker ∈ ks) ∧ (.trace ∉ ks → r' = r)) ∨
    ∃ q, w'.called = w.called ++ [q] ∧ Spec.SameCall q r ∧ (.trace ∉ ks → q = r) ∧ r' = (E.callee w.called.length q).2.1 := by
  obtain ⟨gs, hgs, hl, hb, e⟩ := caller_run hc r w
  rw [hr] at e
  rcases hw : wrapped E side u gs (last E) (injected E (ks.count .trace) w.started r)
    { w with started := w.started + ks.count .trace } with ⟨o, q, w1⟩
  rw [hw] at e
  have g := gate_layer E side u gs hgs hw
  have hcl : w'.called = w1.called ∧ r' = q := by
    cases o <;> simp only [Prod.mk.injEq] at e <;> exact ⟨by rw [e.2.2], e.2.1⟩
  rw [hcl.1, hcl.2]
  have htr : .trace ∉ ks → injected E (ks.count .trace) w.started r = r := by
    intro h0
    rw [List.count_eq_zero.mpr h0]; rfl
  obtain ⟨g1, g2, g3, g4⟩ := g
  rcases g4 with ⟨a, b, msg, c, d⟩ | ⟨a, b, c⟩
  · refine .inl ⟨a, ?_, ?_, ?_⟩
    · rw [b]
      obtain ⟨m, hm⟩ := injected_same E (ks.count .trace) w.started r
      rw [hm]
    · rcases d with (⟨i, d1, d2, _⟩ | ⟨i, d1, d2, _⟩) | ⟨i, d1, d2, _⟩
      · refine .inr (hb.mp ?_)
        by_cases hm : Builtin.breaker ∈ gs
        · exact hm
        · have := g2.2 hm; omega
      · refine .inl (hl.mp ?_)
        by_cases hm : Builtin.rateLimit ∈ gs
        · exact hm
        · have := g3.2 hm; omega
      · refine .inr (hb.mp ?_)
        by_cases hm : Builtin.breaker ∈ gs
        · exact hm
        · have := g2.2 hm; omega
    · intro h0
      rw [b, htr h0]
  · exact .inr ⟨_, a, injected_same E _ _ r, htr, b⟩

/-- **C72, answers.** The caller gets the answer of the callee as it is, or it is told that the call was refused or given up:
an exception with code 400, the id of its request and no value. Once the callee was called, the latter happens only
where a circuit breaker is configured that gave up waiting, or counted the exception the callee answered with, whose
message it then passes on. -/
theorem observe_answer {E : Env} {side : Side} {u : URL} {ks : List Builtin} {h : H} (hc : Spec.Caller E side u ks h) {r : Req}
    {w : World} {resp : Resp} {r' : Req} {w' : World} (hr : h r w = (.ret resp, r', w')) :
    (w'.called = w.called ∧ ∃ msg, Spec.Refusal r.call.id msg resp.answer ∧
      (Spec.Refused E w w' msg ∨ Spec.GaveUp E w w' msg)) ∨
    ∃ q cr, w'.called = w.called ++ [q] ∧ (E.callee w.called.length q).1 = .ret cr ∧
      ((resp.answer = cr.answer ∧ (.breaker ∈ ks → ∀ e, cr.answer.exception = some e → Spec.bizIgnored u ∧ e.errType = 2)) ∨
       (.breaker ∈ ks ∧ ∃ id msg, (id = r.call.id ∨ id = r'.call.id) ∧ Spec.Refusal id msg resp.answer ∧
         (Spec.GaveUp E w w' msg ∨ ∃ e, cr.answer.exception = some e ∧ e.errMsg = msg ∧ (Spec.bizIgnored u → e.errType ≠ 2)))) := by
  obtain ⟨gs, hgs, hl, hb, e⟩ := caller_run hc r w
  rw [hr] at e
  rcases hw : wrapped E side u gs (last E) (injected E (ks.count .trace) w.started r)
    { w with started := w.started + ks.count .trace } with ⟨o, q, w1⟩
  rw [hw] at e
  obtain ⟨_, _, _, g4⟩ := gate_layer E side u gs hgs hw
  obtain ⟨m, hm⟩ := injected_same E (ks.count .trace) w.started r
  have hid : (injected E (ks.count .trace) w.started r).call.id = r.call.id := by rw [hm]
  cases o with
  | panic v => cases e
  | crash => cases e
  | ret x =>
    simp only [Prod.mk.injEq, Out.ret.injEq] at e
    obtain ⟨e1, e2, e3⟩ := e
    have f1 : resp.answer = x.answer := by rw [e1]
    have f2 : w'.called = w1.called := by rw [e3]
    have f3 : w'.asked = w1.asked := by rw [e3]
    have f4 : w'.limited = w1.limited := by rw [e3]
    have hre : ∀ msg, Spec.Refused E { w with started := w.started + ks.count .trace } w1 msg → Spec.Refused E w w' msg := by
      intro msg h; unfold Spec.Refused at h ⊢; rw [f3, f4]; exact h
    have hge : ∀ msg, Spec.GaveUp E { w with started := w.started + ks.count .trace } w1 msg → Spec.GaveUp E w w' msg := by
      intro msg h; unfold Spec.GaveUp at h ⊢; rw [f3]; exact h
    rw [f1, f2, e2]
    rcases g4 with ⟨a, b, msg, c, d⟩ | ⟨a, b, c⟩
    · rw [Out.ret.injEq] at c
      refine .inl ⟨a, msg, ?_, d.imp (hre msg) (hge msg)⟩
      rw [c]
      exact ⟨hid, rfl, rfl⟩
    · simp only at c
      cases hcal : (E.callee w.called.length (injected E (ks.count .trace) w.started r)).1 with
      | panic v => rw [hcal] at c; by_cases hmm : Builtin.breaker ∈ gs <;> simp [hmm] at c
      | crash => rw [hcal] at c; cases c
      | ret cr =>
        rw [hcal] at c
        refine .inr ⟨_, cr, a, hcal, ?_⟩
        rcases c with ⟨c1, c2⟩ | ⟨p, msg, c1, c2, c3, c4⟩
        · rw [Out.ret.injEq] at c1
          subst c1
          exact .inl ⟨rfl, fun hbk => check_none (c2 (hb.mpr hbk))⟩
        · rw [Out.ret.injEq] at c2
          refine .inr ⟨hb.mp c3, p.call.id, msg, ?_, ?_, c4.imp (hge msg) check_some⟩
          · rcases c1 with rfl | rfl
            · exact .inl hid
            · exact .inr rfl
          · rw [c2]; exact ⟨rfl, rfl, rfl⟩

/-- **C72, business exceptions.** Where rate limits and circuit breakers let a call pass, the caller gets the answer of the
callee as it is, unless a circuit breaker is configured that counts the exception in it. -/
theorem observe_passes {E : Env} {side : Side} {u : URL} {ks : List Builtin} {h : H} (hc : Spec.Caller E side u ks h)
    (hv : .breaker ∈ ks → ∀ i, E.verdict i = .admit) (hl : .rateLimit ∈ ks → ∀ i, (E.limit i).1 = none) {r : Req}
    {w : World} {out : Out} {r' : Req} {w' : World} (hr : h r w = (out, r', w')) :
    ∃ q, w'.called = w.called ++ [q] ∧ ∀ cr, (E.callee w.called.length q).1 = .ret cr →
      (.breaker ∈ ks → ∀ e, cr.answer.exception = some e → Spec.bizIgnored u ∧ e.errType = 2) →
      ∃ resp, out = .ret resp ∧ resp.answer = cr.answer := by
  obtain ⟨gs, hgs, hl', hb, e⟩ := caller_run hc r w
  rw [hr] at e
  rcases hw : wrapped E side u gs (last E) (injected E (ks.count .trace) w.started r)
    { w with started := w.started + ks.count .trace } with ⟨o, q, w1⟩
  rw [hw] at e
  obtain ⟨_, g2, g3, g4⟩ := gate_layer E side u gs hgs hw
  have hnb : .breaker ∉ ks → w1.asked = w.asked := fun h => g2.2 (fun h' => h (hb.mp h'))
  have hnl : .rateLimit ∉ ks → w1.limited = w.limited := fun h => g3.2 (fun h' => h (hl'.mp h'))
  have nore : ∀ msg, ¬ Spec.Refused E { w with started := w.started + ks.count .trace } w1 msg := by
    rintro msg (⟨i, a, b, c⟩ | ⟨i, a, b, c⟩)
    · by_cases hm : Builtin.breaker ∈ ks
      · rw [hv hm] at c; cases c
      · have := hnb hm; simp only at a; omega
    · by_cases hm : Builtin.rateLimit ∈ ks
      · rw [hl hm] at c; cases c
      · have := hnl hm; simp only at a; omega
  have noge : ∀ msg, ¬ Spec.GaveUp E { w with started := w.started + ks.count .trace } w1 msg := by
    rintro msg ⟨i, a, b, c⟩
    by_cases hm : Builtin.breaker ∈ ks
    · rw [hv hm] at c; cases c
    · have := hnb hm; simp only at a; omega
  rcases g4 with ⟨a, b, msg, c, d⟩ | ⟨a, b, c⟩
  · exact absurd d (not_or.mpr ⟨nore msg, noge msg⟩)
  · have hcl : w'.called = w1.called := by
      cases o <;> simp only [Prod.mk.injEq] at e <;> rw [e.2.2]
    refine ⟨_, hcl.trans a, fun cr hcr hx => ?_⟩
    simp only at c
    rw [hcr] at c
    rcases c with ⟨c1, _⟩ | ⟨p, msg, c1, c2, c3, c4 | c4⟩
    · subst c1
      simp only [Prod.mk.injEq] at e
      exact ⟨_, e.1, rfl⟩
    · exact absurd c4 (noge msg)
    · obtain ⟨x, hx1, _, hx2⟩ := check_some c4
      obtain ⟨h1, h2⟩ := hx (hb.mp c3) x hx1
      exact absurd h2 (hx2 h1)

theorem counted_eq (E : Env) (side : Side) (u : URL) (r : Req) (cost : Int) (resp : Response) :
    metricEvents E side u r cost resp = Spec.counted E side u r cost resp := by
  have happ : Url.getParam u b!"application" [] = (u.param b!"application").getD [] := by
    unfold Url.getParam
    by_cases h : (u.param b!"application").getD [] = []
    · simp only [h, if_true]
    · rw [if_neg h]
  have hrole : role side r = Spec.roleOf side r.call.rc.proxy := by
    unfold role Spec.roleOf
    cases side <;> cases r.call.rc.proxy <;> rfl
  have hout : outcome resp = Spec.outcomeOf resp := by
    unfold outcome Spec.outcomeOf
    cases resp.exception <;> rfl
  unfold metricEvents Spec.counted Spec.applications
  simp only [happ, hrole, hout, loadOrEmpty]
  generalize (u.param b!"application").getD [] = app
  generalize (AMap.load r.call.attachment b!"M_s").getD [] = source
  by_cases h : side = .provider ∨ E.reqApp = false ∨ source = app
  · rw [if_pos h, if_neg]
    · simp
    · rintro ⟨h1, h2, h3⟩
      rcases h with h | h | h
      · exact h1 h
      · rw [h] at h2; cases h2
      · exact h3 h.symm
  · rw [if_neg h, if_pos]
    · simp
    · rw [not_or, not_or] at h
      exact ⟨h.1, by simpa using h.2.1, fun e => h.2.2 e.symm⟩

theorem tells_entry (E : Env) (filter role address : Bytes) (total : Int) (r : Req) (resp : Response) :
    Spec.Tells E (entry E filter role address total r resp) r resp where
  id := rfl
  service := rfl
  method := rfl
  desc := rfl
  sizes := ⟨rfl, rfl⟩
  bizTime := rfl
  ok := fun h => by simp [entry, h]
  failed := fun x h => by simp [entry, h]
  upstream := rfl

/-- **C72, metrics.** A call that is answered is counted once by every metrics filter configured, with the answer the caller
gets (also if it is a refusal) and the time until it gets it: from the call, or on a server from when the request was
received. -/
theorem observe_metrics {E : Env} {side : Side} {u : URL} {ks : List Builtin} {h : H} (hc : Spec.Caller E side u ks h) {r : Req}
    {w : World} {resp : Resp} {r' : Req} {w' : World} (hr : h r w = (.ret resp, r', w')) :
    w'.events = w.events ++ (List.replicate (ks.count .metrics) (Spec.counted E side u r'
      ((w'.now - if side = .provider then r.received else w.now).tdiv 1000000) resp.answer)).flatten := by
  obtain ⟨gs, hgs, hl, hb, e⟩ := caller_run hc r w
  rw [hr] at e
  rcases hw : wrapped E side u gs (last E) (injected E (ks.count .trace) w.started r)
    { w with started := w.started + ks.count .trace } with ⟨o, q, w1⟩
  rw [hw] at e
  obtain ⟨g1, _⟩ := gate_layer E side u gs hgs hw
  cases o with
  | panic v => cases e
  | crash => cases e
  | ret x =>
    simp only [Prod.mk.injEq, Out.ret.injEq] at e
    obtain ⟨e1, e2, e3⟩ := e
    rw [← counted_eq, e3, e2, e1]
    simp only [ms, g1.1]

/-- **C72, access log.** A call of an endpoint or cluster that is answered gives one line for every access-log filter
configured, which tells of the answer the caller gets, the other side and the time it took. -/
theorem observe_log {E : Env} {side : Side} {u : URL} {ks : List Builtin} {h : H} (hc : Spec.Caller E side u ks h)
    (hs : side ≠ .provider) {r : Req} {w : World} {resp : Resp} {r' : Req} {w' : World} (hr : h r w = (.ret resp, r', w')) :
    ∃ e, w'.log = w.log ++ List.replicate (ks.count .accessLog) e ∧ Spec.Tells E e r' resp.answer ∧ e.role = b!"client-agent" ∧
      e.address = (if side = .endpoint then u.host ++ b!":" ++ (Url.getPortStr u).1 else []) ∧
      e.totalTime = (w'.now - w.now).tdiv 1000000 := by
  obtain ⟨gs, hgs, hl, hb, e⟩ := caller_run hc r w
  rw [hr] at e
  rcases hw : wrapped E side u gs (last E) (injected E (ks.count .trace) w.started r)
    { w with started := w.started + ks.count .trace } with ⟨o, q, w1⟩
  rw [hw] at e
  obtain ⟨g1, _⟩ := gate_layer E side u gs hgs hw
  cases o with
  | panic v => cases e
  | crash => cases e
  | ret x =>
    simp only [Prod.mk.injEq, Out.ret.injEq] at e
    obtain ⟨e1, e2, e3⟩ := e
    have f1 : resp.answer = x.answer := by rw [e1]
    have f2 : w'.now = w1.now := by rw [e3]
    refine ⟨entry E (if side = .cluster then b!"clusterAccessLog" else b!"accessLog") b!"client-agent" (peer side u r)
      (ms (w1.now - w.now)) r' resp.answer, ?_, tells_entry .., rfl, ?_, ?_⟩
    · rw [e3, f1, e2]
      simp only [if_neg hs, g1.2.1]
    · cases side with
      | provider => exact absurd rfl hs
      | endpoint => rfl
      | cluster => rfl
    · rw [f2]; rfl

/-- **C72, access log of a server.** A request whose call ends without panic and with no finish handlers but those of the
filters is answered, and when the answer is written there is one line for every access-log filter configured. It tells
of the answer of the provider, the client, and the time from receiving the request to having written the answer. -/
theorem observe_served {E : Env} {u : URL} {ks : List Builtin} {h : H} (hc : Spec.Caller E .provider u ks h)
    (hfin : ∀ i q cr, (E.callee i q).1 = .ret cr → cr.finish = []) (convert : Response → Bool) (took : Int) {r : Req} {w : World}
    {resp : Resp} {r' : Req} {w1 : World} (hr : h r w = (.ret resp, r', w1)) :
    w1.log = w.log ∧
    ∃ e w', serve E h convert took r w =
        some (if convert resp.answer then .answer resp.answer else .convertFailed r.call.id, w') ∧
      w'.log = w.log ++ List.replicate (ks.count .accessLog) e ∧ Spec.Tells E e r' resp.answer ∧ e.role = b!"server-agent" ∧
      e.address = (r.call.attachment.load b!"host").getD [] ∧ w'.now = w1.now + took ∧
      e.totalTime = (w'.now - r'.received).tdiv 1000000 ∧ w'.events = w1.events ∧ w'.called = w1.called := by
  obtain ⟨gs, hgs, hl, hb, e⟩ := caller_run hc r w
  rw [hr] at e
  rcases hw : wrapped E .provider u gs (last E) (injected E (ks.count .trace) w.started r)
    { w with started := w.started + ks.count .trace } with ⟨o, q, w2⟩
  rw [hw] at e
  obtain ⟨g1, _, _, g4⟩ := gate_layer E .provider u gs hgs hw
  cases o with
  | panic v => cases e
  | crash => cases e
  | ret x =>
    simp only [if_true, Prod.mk.injEq, Out.ret.injEq] at e
    obtain ⟨e1, e2, e3⟩ := e
    have hx : x.finish = [] := by
      rcases g4 with ⟨a, b, msg, c, d⟩ | ⟨a, b, c⟩
      · rw [Out.ret.injEq] at c; rw [c]
      · simp only at c
        cases hcal : (E.callee w.called.length (injected E (ks.count .trace) w.started r)).1 with
        | panic v => rw [hcal] at c; by_cases hmm : Builtin.breaker ∈ gs <;> simp [hmm] at c
        | crash => rw [hcal] at c; cases c
        | ret cr =>
          rw [hcal] at c
          rcases c with ⟨c1, c2⟩ | ⟨p, msg, c1, c2, c3, c4⟩
          · rw [Out.ret.injEq] at c1
            rw [c1]; exact hfin _ _ _ hcal
          · rw [Out.ret.injEq] at c2; rw [c2]
    have hlog : w1.log = w.log := by
      rw [e3]; simp only [List.append_nil]; exact g1.2.1
    have hf : resp.finish = List.replicate (ks.count .accessLog)
        ⟨b!"accessLog", b!"server-agent", loadOrEmpty r.call.attachment b!"host"⟩ := by
      rw [e1]; simp only [hx, List.nil_append]
    refine ⟨hlog, entry E b!"accessLog" b!"server-agent" (loadOrEmpty r.call.attachment b!"host")
      (ms (w1.now + took - r'.received)) { r' with sent := w1.now + took } resp.answer,
      onFinish E { r' with sent := w1.now + took } resp { w1 with now := w1.now + took }, ?_, ?_, ?_, rfl, rfl, rfl, rfl, rfl, rfl⟩
    · simp only [serve, handlerCall, recovered, hr]
    · simp only [onFinish, hf, hlog, List.map_replicate]
    · have := tells_entry E b!"accessLog" b!"server-agent" (loadOrEmpty r.call.attachment b!"host")
        (ms (w1.now + took - r'.received)) { r' with sent := w1.now + took } resp.answer
      exact ⟨this.id, this.service, this.method, this.desc, this.sizes, this.bizTime, this.ok, this.failed, this.upstream⟩

theorem spansOf_all (E : Env) (n i : Nat) (r : Req) (t : Tag) :
    (spansOf E n i r t).length = n ∧
    ∀ s ∈ spansOf E n i r t, s.name = r.call.service ++ b!"." ++ r.call.method ∧ s.tag = t := by
  induction n generalizing i r with
  | zero => exact ⟨rfl, fun s hs => by cases hs⟩
  | succ n ih =>
    obtain ⟨h1, h2⟩ := ih (i + 1) { r with call := { r.call with attachment := E.inject i r.call.attachment } }
    rw [spansOf]
    refine ⟨by rw [List.length_append, h1]; rfl, fun s hs => ?_⟩
    rcases List.mem_append.mp hs with hs | hs
    · exact h2 s hs
    · rw [List.mem_singleton] at hs; subst hs; exact ⟨rfl, rfl⟩

/-- **C72, tracing.** A call that is answered gives one finished span for every trace filter configured, named after service
and method and marked with the exception of the answer the caller gets, if any. The last to finish is a child of the
span the request came with; with one filter, what is passed on carries the new span. -/
theorem observe_spans {E : Env} {side : Side} {u : URL} {ks : List Builtin} {h : H} (hc : Spec.Caller E side u ks h) {r : Req}
    {w : World} {resp : Resp} {r' : Req} {w' : World} (hr : h r w = (.ret resp, r', w')) :
    ∃ l, w'.spans = w.spans ++ l ∧ l.length = ks.count .trace ∧
      (∀ s ∈ l, s.name = r.call.service ++ b!"." ++ r.call.method ∧
        s.tag = (match resp.answer.exception with | some e => .failed e | none => .ok)) ∧
      (∀ s, l.getLast? = some s → s.parent = E.extract r.call) ∧
      (ks.count .trace = 1 → ∀ q, w'.called = w.called ++ [q] → q.call.attachment = E.inject w.started r.call.attachment) := by
  obtain ⟨gs, hgs, hl, hb, e⟩ := caller_run hc r w
  rw [hr] at e
  rcases hw : wrapped E side u gs (last E) (injected E (ks.count .trace) w.started r)
    { w with started := w.started + ks.count .trace } with ⟨o, q, w1⟩
  rw [hw] at e
  obtain ⟨g1, _, _, g4⟩ := gate_layer E side u gs hgs hw
  cases o with
  | panic v => cases e
  | crash => cases e
  | ret x =>
    simp only [Prod.mk.injEq, Out.ret.injEq] at e
    obtain ⟨e1, e2, e3⟩ := e
    have f1 : resp.answer = x.answer := by rw [e1]
    have f2 : w'.called = w1.called := by rw [e3]
    refine ⟨spansOf E (ks.count .trace) w.started r (tagOf resp.answer), ?_, (spansOf_all ..).1, (spansOf_all ..).2, ?_, ?_⟩
    · rw [e3, f1]; simp only [g1.2.2.1]
    · intro s hs
      cases hn : ks.count .trace with
      | zero => rw [hn, spansOf] at hs; cases hs
      | succ n =>
        rw [hn, spansOf, List.getLast?_append] at hs
        simp only [List.getLast?_singleton, Option.some_or, Option.some.injEq] at hs
        rw [← hs]
    · intro h1 q hq
      rw [h1] at g4
      rw [f2] at hq
      rcases g4 with ⟨a, _⟩ | ⟨a, _⟩
      · rw [a] at hq
        have := congrArg List.length hq
        simp at this
      · rw [a] at hq
        have := List.append_cancel_left hq
        rw [List.singleton_inj] at this
        rw [← this]; rfl

/-- **C72, fail fast.** A call that is answered counts once for every fail-fast filter configured, as failed if the answer the
caller gets has an exception. -/
theorem observe_failfast {E : Env} {side : Side} {u : URL} {ks : List Builtin} {h : H} (hc : Spec.Caller E side u ks h) {r : Req}
    {w : World} {resp : Resp} {r' : Req} {w' : World} (hr : h r w = (.ret resp, r', w')) :
    w'.eps = Nat.repeat (fun s => Failfast.filter s resp.answer.exception.isSome w'.now) (ks.count .failfast) w.eps := by
  obtain ⟨gs, hgs, hl, hb, e⟩ := caller_run hc r w
  rw [hr] at e
  rcases hw : wrapped E side u gs (last E) (injected E (ks.count .trace) w.started r)
    { w with started := w.started + ks.count .trace } with ⟨o, q, w1⟩
  rw [hw] at e
  obtain ⟨g1, _⟩ := gate_layer E side u gs hgs hw
  cases o with
  | panic v => cases e
  | crash => cases e
  | ret x =>
    simp only [Prod.mk.injEq, Out.ret.injEq] at e
    obtain ⟨e1, e2, e3⟩ := e
    rw [e3, e1]
    simp only [g1.2.2.2.1]

/-- **C72, panics.** A call panics only if the callee does and no circuit breaker is configured. It is then neither counted
nor logged, but gives a finished span for every trace filter; the panic is the callee's unless calls are traced without
a recording function. The process ends only if the callee ends it, or panics behind a circuit breaker. -/
theorem observe_panic {E : Env} {side : Side} {u : URL} {ks : List Builtin} {h : H} (hc : Spec.Caller E side u ks h) {r : Req}
    {w : World} {out : Out} {r' : Req} {w' : World} (hr : h r w = (out, r', w')) :
    (∀ v, out = .panic v → .breaker ∉ ks ∧ ∃ q v0, w'.called = w.called ++ [q] ∧ (E.callee w.called.length q).1 = .panic v0 ∧
      (.trace ∉ ks ∨ E.recorder = true → v = v0) ∧ w'.events = w.events ∧ w'.log = w.log ∧ w'.eps = w.eps ∧
      ∃ l, w'.spans = w.spans ++ l ∧ l.length = ks.count .trace) ∧
    (out = .crash → ∃ q, w'.called = w.called ++ [q] ∧
      ((E.callee w.called.length q).1 = .crash ∨ .breaker ∈ ks ∧ ∃ v0, (E.callee w.called.length q).1 = .panic v0)) := by
  obtain ⟨gs, hgs, hl, hb, e⟩ := caller_run hc r w
  rw [hr] at e
  rcases hw : wrapped E side u gs (last E) (injected E (ks.count .trace) w.started r)
    { w with started := w.started + ks.count .trace } with ⟨o, q, w1⟩
  rw [hw] at e
  obtain ⟨g1, _, _, g4⟩ := gate_layer E side u gs hgs hw
  cases o with
  | ret x =>
    simp only [Prod.mk.injEq] at e
    obtain ⟨e1, e2, e3⟩ := e
    rw [e1]
    exact ⟨fun v h => (by cases h), fun h => by cases h⟩
  | panic v =>
    simp only [Prod.mk.injEq] at e
    obtain ⟨e1, e2, e3⟩ := e
    rw [e1]
    refine ⟨fun v' h => ?_, fun h => by cases h⟩
    rw [Out.panic.injEq] at h
    rcases g4 with ⟨a, b, msg, c, d⟩ | ⟨a, b, c⟩
    · cases c
    · simp only at c
      cases hcal : (E.callee w.called.length (injected E (ks.count .trace) w.started r)).1 with
      | ret cr => rw [hcal] at c; rcases c with ⟨c, _⟩ | ⟨_, _, _, c, _⟩ <;> cases c
      | crash => rw [hcal] at c; cases c
      | panic v0 =>
        rw [hcal] at c
        by_cases hm : Builtin.breaker ∈ gs
        · simp [hm] at c
        · simp only [hm, if_false, Out.panic.injEq] at c
          refine ⟨fun h' => hm (hb.mpr h'), _, v0, by rw [e3]; exact a, hcal, fun ht => ?_, ?_, ?_, ?_, ?_⟩
          · rw [← h, ← c, if_pos]
            rcases ht with ht | ht
            · exact .inl (List.count_eq_zero.mpr ht)
            · exact .inr ht
          · rw [e3]; exact g1.1
          · rw [e3]; exact g1.2.1
          · rw [e3]; exact g1.2.2.2.1
          · rw [e3]
            refine ⟨spansOf E (ks.count .trace) w.started r (if E.recorder = true then .panicked v else .nothing), ?_,
              (spansOf_all ..).1⟩
            simp only [g1.2.2.1]
  | crash =>
    simp only [Prod.mk.injEq] at e
    obtain ⟨e1, e2, e3⟩ := e
    rw [e1]
    refine ⟨fun v h => (by cases h), fun _ => ?_⟩
    rcases g4 with ⟨a, b, msg, c, d⟩ | ⟨a, b, c⟩
    · cases c
    · refine ⟨_, by rw [e3]; exact a, ?_⟩
      simp only at c
      cases hcal : (E.callee w.called.length (injected E (ks.count .trace) w.started r)).1 with
      | ret cr => rw [hcal] at c; rcases c with ⟨c, _⟩ | ⟨_, _, _, c, _⟩ <;> cases c
      | crash => exact .inl rfl
      | panic v0 =>
        rw [hcal] at c
        by_cases hm : Builtin.breaker ∈ gs
        · exact .inr ⟨hb.mp hm, v0, rfl⟩
        · simp [hm] at c

/-- **C72, panics answered.** A cluster or server whose filters and callee panic answers with an exception with code 500 and
the id of the request. -/
theorem observe_recovered (h : H) (r : Req) (w : World) (v : Bytes) (r' : Req) (w' : World) (hr : h r w = (.panic v, r', w')) :
    (∃ resp, Observe.clusterCall h r w = some (resp, r', w') ∧ resp.answer.id = r'.call.id ∧
      resp.answer.exception = some ⟨500, b!"cluster call panic", 1⟩) ∧
    ∃ resp, handlerCall h r w = some (resp, r', w') ∧ resp.answer.id = r'.call.id ∧
      resp.answer.exception = some ⟨500, b!"provider call panic", 1⟩ := by
  constructor
  · exact ⟨⟨Ha.buildExceptionResponse r'.call.id ⟨500, b!"cluster call panic", Ha.serviceException⟩, []⟩,
      by simp only [Observe.clusterCall, recovered, hr], rfl, rfl⟩
  · exact ⟨⟨Ha.buildExceptionResponse r'.call.id ⟨500, b!"provider call panic", Ha.serviceException⟩, []⟩,
      by simp only [handlerCall, recovered, hr], rfl, rfl⟩

/-- The settings of a circuit breaker: parameter, default, whether it is a percentage, and what is used. -/
def Spec.breakerSettings : List (Bytes × Int × Bool × (CommandConfig → Int)) :=
  [(b!"circuitBreaker.requestThreshold", 20, false, CommandConfig.volume),
   (b!"circuitBreaker.sleepWindow", 5000, false, CommandConfig.sleep),
   (b!"circuitBreaker.errorPercent", 50, true, CommandConfig.percent),
   (b!"circuitBreaker.maxConcurrent", 5000, false, CommandConfig.concurrent),
   (b!"requestTimeout", 1000, false, CommandConfig.timeout)]

theorem config_value (u : URL) (key : Bytes) (dflt : Int) (hd : 0 < dflt ∧ dflt ≤ 100 ∨ key ≠ b!"circuitBreaker.errorPercent" ∧ 0 < dflt) :
    0 < getConfigValue u key dflt ∧ (key = b!"circuitBreaker.errorPercent" → getConfigValue u key dflt ≤ 100) ∧
    (u.param key = none → getConfigValue u key dflt = dflt) ∧
    ∀ n : Int, -2 ^ 63 ≤ n → n < 2 ^ 63 → u.param key = some (formatInt n) → getConfigValue u key dflt =
      if 0 < n ∧ (key = b!"circuitBreaker.errorPercent" → n ≤ 100) then n else dflt := by
  have h4 : ∀ n : Int, -2 ^ 63 ≤ n → n < 2 ^ 63 → u.param key = some (formatInt n) → getConfigValue u key dflt =
      if 0 < n ∧ (key = b!"circuitBreaker.errorPercent" → n ≤ 100) then n else dflt := by
    intro n h1 h2 h
    rw [getConfigValue, h]
    simp only [parseInt64_formatInt n h1 h2]
    by_cases hn : n > 0
    · rw [if_pos hn]
      by_cases hk : key = b!"circuitBreaker.errorPercent"
      · rw [if_pos hk]
        by_cases h100 : n ≤ 100
        · rw [if_pos h100, if_pos ⟨hn, fun _ => h100⟩]
        · rw [if_neg h100, if_neg fun h => h100 (h.2 hk)]
      · rw [if_neg hk, if_pos ⟨hn, fun h => absurd h hk⟩]
    · rw [if_neg hn, if_neg fun h => hn h.1]
  refine ⟨?_, ?_, ?_, h4⟩
  · have hd0 : 0 < dflt := hd.elim (fun h => h.1) fun h => h.2
    rw [getConfigValue]
    split
    · simp only
      repeat' (first | omega | split)
    · exact hd0
  · intro hk
    rw [getConfigValue]
    have : dflt ≤ 100 := hd.elim (fun h => h.2) fun h => absurd hk h.1
    split
    · simp only
      repeat' (first | assumption | contradiction | split)
    · exact this
  · intro h
    rw [getConfigValue, h]

/-- **C72, configuration.** A circuit breaker uses the number written for a setting if it is positive (and at most 100 for a
percentage), and otherwise the default; so whatever is written, what it uses is positive, and at most 100 for a
percentage. -/
theorem observe_breaker_config (u : URL) : ∀ s ∈ Spec.breakerSettings,
    0 < s.2.2.2 (buildCommandConfig u) ∧ (s.2.2.1 = true → s.2.2.2 (buildCommandConfig u) ≤ 100) ∧
    (u.param s.1 = none → s.2.2.2 (buildCommandConfig u) = s.2.1) ∧
    ∀ n : Int, -2 ^ 63 ≤ n → n < 2 ^ 63 → u.param s.1 = some (formatInt n) →
      s.2.2.2 (buildCommandConfig u) = if 0 < n ∧ (s.2.2.1 = true → n ≤ 100) then n else s.2.1 := by
  intro s hs
  simp only [Spec.breakerSettings, List.mem_cons, List.not_mem_nil, or_false] at hs
  rcases hs with rfl | rfl | rfl | rfl | rfl
  · obtain ⟨h1, h2, h3, h4⟩ := config_value u b!"circuitBreaker.requestThreshold" 20 (.inl (by decide))
    refine ⟨h1, fun h => (by cases h), h3, fun n a b c => (h4 n a b c).trans ?_⟩
    simp
  · obtain ⟨h1, h2, h3, h4⟩ := config_value u b!"circuitBreaker.sleepWindow" 5000 (.inr (by decide))
    refine ⟨h1, fun h => (by cases h), h3, fun n a b c => (h4 n a b c).trans ?_⟩
    simp
  · obtain ⟨h1, h2, h3, h4⟩ := config_value u b!"circuitBreaker.errorPercent" 50 (.inl (by decide))
    refine ⟨h1, fun _ => h2 rfl, h3, fun n a b c => (h4 n a b c).trans ?_⟩
    simp
  · obtain ⟨h1, h2, h3, h4⟩ := config_value u b!"circuitBreaker.maxConcurrent" 5000 (.inr (by decide))
    refine ⟨h1, fun h => (by cases h), h3, fun n a b c => (h4 n a b c).trans ?_⟩
    simp
  · obtain ⟨h1, h2, h3, h4⟩ := config_value u b!"requestTimeout" 1000 (.inr (by decide))
    refine ⟨h1, fun h => (by cases h), h3, fun n a b c => (h4 n a b c).trans ?_⟩
    simp

/-! ## What goes wrong, and examples -/

/-- An answer without exception, with one of the business logic, or a panic, by the method called. -/
private def obsCallee (_ : Nat) (r : Req) : Out × Req × Int :=
  if r.call.method = b!"boom" then (.panic b!"boom", r, 5000000)
  else if r.call.method = b!"biz" then
    (.ret ⟨{ id := r.call.id, value := none, exception := some ⟨7, b!"no such user", 2⟩, processTime := 3, attachment := [] }, []⟩, r, 5000000)
  else (.ret ⟨{ id := r.call.id, value := none, exception := none, processTime := 3, attachment := [(b!"upstreamCode", b!"503")] }, []⟩, r, 7000000)

private def obsEnv : Env where
  callee := obsCallee
  verdict := fun i => if i = 9 then .reject b!"hystrix: circuit open" else .admit
  limit := fun _ => (none, 1000000)
  extract := fun _ => some b!"root"
  inject := fun _ m => (b!"span", b!"s1") :: m
  json := fun _ => b!"{}"
  recorder := false
  reqApp := true

private def obsReq (m : Bytes) : Req :=
  { call :=
      { id := 42, service := b!"svc", method := m, desc := [], args := [],
        attachment := [(b!"M_s", b!"app2"), (b!"M_g", b!"g"), (b!"host", b!"10.0.0.1")] }
    received := 1000000 }

private def obsUrl (filters : Bytes) : URL :=
  { host := b!"h", port := 80, params := some [(b!"filter", filters), (b!"application", b!"app1")] }

private def obsWorld : World := { now := 3000000, eps := Failfast.newStatus 0 }

private def obsH (x : Option H) : H := x.getD (last obsEnv)

private theorem obs_provider (fs : Bytes) :
    Spec.Caller obsEnv .provider (obsUrl fs) (Spec.kinds .provider (obsUrl fs)) (obsH (Observe.provider obsEnv insSorter (obsUrl fs))) := by
  obtain ⟨h, hh⟩ := Option.isSome_iff_exists.mp (observe_set_up obsEnv insSorter insSorter_sorts (obsUrl fs) (obsUrl fs)).1
  rw [obsH, hh]
  exact .provider insSorter_sorts hh

private theorem obs_endpoint (fs : Bytes) :
    Spec.Caller obsEnv .endpoint (obsUrl fs) (Spec.kinds .endpoint (obsUrl fs)) (obsH (Observe.endpoint obsEnv insSorter (obsUrl fs) (obsUrl fs))) := by
  obtain ⟨h, hh⟩ := Option.isSome_iff_exists.mp (observe_set_up obsEnv insSorter insSorter_sorts (obsUrl fs) (obsUrl fs)).2.1
  rw [obsH, hh]
  exact .endpoint insSorter_sorts hh

private theorem obs_cluster (fs : Bytes) :
    Spec.Caller obsEnv .cluster (obsUrl fs) (Spec.kinds .cluster (obsUrl fs)) (obsH (Observe.cluster obsEnv insSorter (obsUrl fs))) := by
  obtain ⟨h, hh⟩ := Option.isSome_iff_exists.mp (observe_set_up obsEnv insSorter insSorter_sorts (obsUrl fs) (obsUrl fs)).2.2
  rw [obsH, hh]
  exact .cluster insSorter_sorts hh

private def obsAnswer (x : Out × Req × World) : Option (UInt64 × Option Convert.Exn) :=
  match x.1 with
  | .ret resp => some (resp.answer.id, resp.answer.exception)
  | _ => none

private def obsAll : Bytes := b!"circuitBreaker, metrics,trace,accessLog ,failfast,rateLimit,nosuch"

example : Spec.kinds .endpoint (obsUrl obsAll) = [.breaker, .metrics, .trace, .accessLog, .failfast, .rateLimit] := by decide +kernel

example : Spec.kinds .cluster (obsUrl b!"clusterMetrics,metrics,clusterAccessLog") = [.metrics, .accessLog] := by decide +kernel

/-- With all filters: an answer without exception. -/
private def obsRun (fs m : Bytes) (w : World) : Out × Req × World :=
  obsH (Observe.endpoint obsEnv insSorter (obsUrl fs) (obsUrl fs)) (obsReq m) w

example : obsAnswer (obsRun obsAll b!"ok" obsWorld) = some (42, none) := by decide +kernel

example : (obsRun obsAll b!"ok" obsWorld).2.2.log =
    [⟨b!"accessLog", b!"client-agent", 42, b!"svc", b!"ok", b!"h:80", [], 0, 0, 3, 8, b!"200", true, [], b!"503"⟩] := by decide +kernel

example : (obsRun obsAll b!"ok" obsWorld).2.2.spans = [⟨b!"svc.ok", some b!"root", .ok⟩] := by decide +kernel

example : (obsRun obsAll b!"ok" obsWorld).2.2.events.map (fun e => (e.keys[1]?, e.keySuffix, e.value)) =
    [(some b!"app2", b!".total_count", 1), (some b!"app2", b!".Less50ms", 1), (some b!"app2", [], 8),
     (some b!"app1", b!".total_count", 1), (some b!"app1", b!".Less50ms", 1), (some b!"app1", [], 8)] := by decide +kernel

/-- A refusal by the circuit breaker. -/
example : obsAnswer (obsRun obsAll b!"ok" { obsWorld with asked := 9 }) = some (42, some ⟨400, b!"hystrix: circuit open", 1⟩) := by
  decide +kernel

example : (obsRun obsAll b!"ok" { obsWorld with asked := 9 }).2.2.called.length = 0 := by decide +kernel

/-- **C72 is violated: business exceptions.** With a circuit breaker as it is by default, an exception of the business logic
reaches the caller as a failure of the service with code 400; and failover, which passes the former on, calls again. -/
theorem observe_biz_violated : ∃ (E : Env) (u : URL) (ks : List Builtin) (h : H) (r r' : Req) (w w' : World) (q : Req) (cr resp : Resp),
    Spec.Caller E .endpoint u ks h ∧ (∀ i, E.verdict i = .admit) ∧ h r w = (.ret resp, r', w') ∧ w'.called = [q] ∧
    (E.callee 0 q).1 = .ret cr ∧ cr.answer.exception = some ⟨7, b!"no such user", 2⟩ ∧
    resp.answer.exception = some ⟨400, b!"no such user", 1⟩ ∧
    ∀ (hu : URL), Ha.failoverRetries hu r.call.method r.call.desc = 1 → ∀ ep : Nat,
      (Ha.failoverCall hu r.call.method r.call.desc r.call.id fun _ => .call ep (some cr.answer)).2.length = 1 ∧
      (Ha.failoverCall hu r.call.method r.call.desc r.call.id fun _ => .call ep (some resp.answer)).2.length = 2 := by
  let E : Env := { obsEnv with verdict := fun _ => .admit }
  obtain ⟨h, hh⟩ := Option.isSome_iff_exists.mp
    (observe_set_up E insSorter insSorter_sorts (obsUrl b!"circuitBreaker") (obsUrl b!"circuitBreaker")).2.1
  refine ⟨E, obsUrl b!"circuitBreaker", _, h, obsReq b!"biz", obsReq b!"biz", obsWorld,
    { obsWorld with now := 8000000, called := [obsReq b!"biz"], asked := 1 }, obsReq b!"biz",
    ⟨{ id := 42, value := none, exception := some ⟨7, b!"no such user", 2⟩, processTime := 3, attachment := [] }, []⟩,
    ⟨errResponse (obsReq b!"biz") b!"no such user", []⟩, .endpoint insSorter_sorts hh, fun _ => rfl, ?_, rfl, rfl, rfl, rfl, ?_⟩
  · have e : h = wrapped E .endpoint (obsUrl b!"circuitBreaker") [.breaker] (last E) := by
      obtain ⟨ks', hp, _, rfl, _⟩ := caller_wrapped (.endpoint insSorter_sorts hh)
      have hk : Spec.kinds .endpoint (obsUrl b!"circuitBreaker") = [.breaker] := by decide +kernel
      rw [hk] at hp
      rw [List.perm_singleton.mp hp]
    rw [e]; rfl
  · intro hu hret ep
    rw [Ha.failoverCall, Ha.failoverCall, hret]
    exact ⟨rfl, rfl⟩

/-- **C72 is violated: panics behind a trace filter.** Without a recording function, the panic of the callee is lost: the
caller sees another one. -/
theorem observe_trace_violated : ∃ (E : Env) (u : URL) (ks : List Builtin) (h : H) (r r' : Req) (w w' : World),
    Spec.Caller E .provider u ks h ∧ (E.callee w.called.length r).1 = .panic b!"boom" ∧
    h r w = (.panic b!"runtime error: invalid memory address or nil pointer dereference", r', w') := by
  have hc := obs_provider b!"trace"
  obtain ⟨ks', hp, _, e, _⟩ := caller_wrapped hc
  have hk : Spec.kinds .provider (obsUrl b!"trace") = [.trace] := by decide +kernel
  rw [hk] at hp
  rw [List.perm_singleton.mp hp] at e
  rw [e] at hc
  have hrun : ∃ r' w', wrapped obsEnv .provider (obsUrl b!"trace") [.trace] (last obsEnv) (obsReq b!"boom") obsWorld =
      (.panic b!"runtime error: invalid memory address or nil pointer dereference", r', w') := ⟨_, _, rfl⟩
  obtain ⟨r', w', hrun⟩ := hrun
  exact ⟨obsEnv, obsUrl b!"trace", _, _, obsReq b!"boom", r', obsWorld, w', hc, rfl, hrun⟩

/-- **C72 is violated: panics.** A cluster whose HA strategy (or a filter behind) panics answers with a failure that is
neither counted nor logged. -/
theorem observe_unseen_violated : ∃ (E : Env) (u : URL) (ks : List Builtin) (h : H) (r r' : Req) (w w' : World) (resp : Resp),
    Spec.Caller E .cluster u ks h ∧ .metrics ∈ ks ∧ .accessLog ∈ ks ∧ Observe.clusterCall h r w = some (resp, r', w') ∧
    resp.answer.exception = some ⟨500, b!"cluster call panic", 1⟩ ∧ w'.events = [] ∧ w'.log = [] := by
  have hc := obs_cluster b!"clusterMetrics,clusterAccessLog"
  have hk : Spec.kinds .cluster (obsUrl b!"clusterMetrics,clusterAccessLog") = [.metrics, .accessLog] := by decide +kernel
  generalize obsH (Observe.cluster obsEnv insSorter (obsUrl b!"clusterMetrics,clusterAccessLog")) = h at hc
  rcases hr : h (obsReq b!"boom") obsWorld with ⟨out, r', w'⟩
  have hq := observe_called hc hr
  rw [hk] at hq
  obtain ⟨gs, hgs, hl, hb, e⟩ := caller_run hc (obsReq b!"boom") obsWorld
  rw [hk] at hl hb
  have hg : gs = [] := by
    cases gs with
    | nil => rfl
    | cons k gs =>
      rcases hgs k (by simp) with rfl | rfl
      · have := hl.mp (by simp); simp at this
      · have := hb.mp (by simp); simp at this
  subst hg
  have hp : ∃ v r1 w1, h (obsReq b!"boom") obsWorld = (.panic v, r1, w1) := by
    rw [e, hk]
    exact ⟨_, _, _, rfl⟩
  obtain ⟨v, r1, w1, hp⟩ := hp
  obtain ⟨_, q, v0, _, _, _, h1, h2, _⟩ := (observe_panic hc hp).1 v rfl
  obtain ⟨resp, h3, _, h4⟩ := (observe_recovered h _ _ v r1 w1 hp).1
  exact ⟨obsEnv, _, _, h, obsReq b!"boom", r1, obsWorld, w1, resp, hc, by rw [hk]; simp, by rw [hk]; simp, h3, h4, h1, h2⟩

/-- **C72 is violated: answers that cannot be converted.** The client is told that the call failed, but the access log of the
server has a line that it succeeded. -/
theorem observe_convert_violated : ∃ (E : Env) (u : URL) (ks : List Builtin) (h : H) (r : Req) (w w' : World) (e : Entry),
    Spec.Caller E .provider u ks h ∧ serve E h (fun _ => false) 0 r w = some (.convertFailed r.call.id, w') ∧
    w'.log = [e] ∧ e.id = r.call.id ∧ e.success = true ∧ e.code = b!"200" := by
  have hc := obs_provider b!"accessLog"
  have hk : Spec.kinds .provider (obsUrl b!"accessLog") = [.accessLog] := by decide +kernel
  obtain ⟨ks', hp, _, eh, _⟩ := caller_wrapped hc
  rw [hk] at hp
  rw [List.perm_singleton.mp hp] at eh
  rw [eh] at hc
  have hrun : ∃ w' e, serve obsEnv (wrapped obsEnv .provider (obsUrl b!"accessLog") [.accessLog] (last obsEnv)) (fun _ => false) 0
      (obsReq b!"ok") obsWorld = some (.convertFailed 42, w') ∧ w'.log = [e] ∧ e.id = 42 ∧ e.success = true ∧ e.code = b!"200" :=
    ⟨_, _, rfl, rfl, rfl, rfl, rfl⟩
  obtain ⟨w', e, h1, h2, h3, h4, h5⟩ := hrun
  exact ⟨obsEnv, _, _, _, obsReq b!"ok", obsWorld, w', e, hc, h1, h2, h3, h4, h5⟩

/-- **C72 is violated: panics behind a circuit breaker** end the process; without the circuit breaker the server answers. -/
theorem observe_crash_violated : ∃ (E : Env) (u u' : URL) (ks ks' : List Builtin) (h h' : H) (r : Req) (w : World),
    Spec.Caller E .provider u ks h ∧ Spec.Caller E .provider u' ks' h' ∧ ks = [.breaker] ∧ ks' = [] ∧
    (∀ convert took, serve E h convert took r w = none) ∧ (handlerCall h' r w).isSome = true := by
  have hc := obs_provider b!"circuitBreaker"
  have hk : Spec.kinds .provider (obsUrl b!"circuitBreaker") = [.breaker] := by decide +kernel
  have hc' := obs_provider b!"-"
  have hk' : Spec.kinds .provider (obsUrl b!"-") = [] := by decide +kernel
  obtain ⟨ks, hp, _, eh, _⟩ := caller_wrapped hc
  rw [hk] at hp
  rw [List.perm_singleton.mp hp] at eh
  obtain ⟨ks', hp', _, eh', _⟩ := caller_wrapped hc'
  rw [hk'] at hp'
  rw [List.perm_nil.mp hp'] at eh'
  refine ⟨obsEnv, _, _, _, _, _, _, obsReq b!"boom", obsWorld, hc, hc', hk, hk', ?_, ?_⟩
  · intro convert took
    rw [eh]; rfl
  · rw [eh']; rfl

end Motan.Props
