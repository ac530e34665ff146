import Verif.Model.Mesh
import Verif.Props.Direct

/-!
# C74: a process and its local mesh agree about what is registered
-/

namespace Motan.Props

open Motan.Strings Motan.Url Motan.Mesh

/-! ## Specification -/

/-- The name of a registry as the processes know it. -/
def Spec.registryName (r : URL) : Bytes := r.protocol ++ b!"://" ++ r.host ++ b!":" ++ formatInt r.port

/-- The agent knows one registry of this name, as `id`, and its own settings leave identities alone. -/
structure Spec.MeshKnows (E : Dynamic.Env) (proxy id : Bytes) : Prop where
  good : Spec.GoodEnv E
  suffix : E.regSuffix = []
  extra : (36 : UInt8) ∉ E.extraGroups
  portLo : -2 ^ 63 ≤ E.eport
  portHi : E.eport < 2 ^ 63
  ids : ∀ p ∈ E.registries, p.1 ≠ []
  known : ∃ r, (id, r) ∈ E.registries ∧ Spec.registryName r = proxy
  one : ∀ p ∈ E.registries, Spec.registryName p.2 = proxy → p.1 = id

/-- What the agent lists a service under: its own address, the service and group, and the registry. -/
def Spec.meshKey (E : Dynamic.Env) (id : Bytes) (u : URL) (g : Bytes) : Bytes :=
  u.protocol ++ b!"://" ++ E.localIP ++ b!":" ++ formatInt E.eport ++ b!"/" ++ u.path ++ b!"?group=" ++ g ++
    b!"&registry=" ++ id

/-- A service that can be registered through the agent: a plain protocol, no other registry named, and not a service of
the agent's own configuration. -/
structure Spec.MeshService (E : Dynamic.Env) (u : URL) : Prop where
  params : ∀ m, u.params = some m → m.NodupKeys
  protocol : u.protocol ≠ [] ∧ (58 : UInt8) ∉ u.protocol ∧ (∀ c ∈ u.protocol, isSpace c = false) ∧ u.protocol ≠ b!"direct"
  group : (36 : UInt8) ∉ u.group
  other : u.param b!"proxyRegistryUrlString" = none
  own : ∀ g, Spec.IsGroup E u g →
    u.protocol ++ b!"://" ++ E.localIP ++ b!":" ++ formatInt E.eport ++ b!"/" ++ u.path ++ b!"?group=" ++ g ∉ E.services

/-- The services of a process: each with its own identity, and no two of them one node for the agent. -/
structure Spec.MeshServices (E : Dynamic.Env) (id : Bytes) (S : List URL) : Prop where
  each : ∀ u ∈ S, Spec.MeshService E u
  ids : ∀ u ∈ S, ∀ v ∈ S, idOf u = idOf v → u = v
  apart : ∀ u ∈ S, ∀ v ∈ S, u ≠ v → ∀ g g', Spec.IsGroup E u g → Spec.IsGroup E v g' →
    Spec.meshKey E id u g ≠ Spec.meshKey E id v g'

/-- After these calls the process wants the service `u` registered: the last call about it that did something was a
`Register`. (An `UnRegister` that did not reach the agent does nothing.) -/
def Spec.wanted (u : Bytes) : Bool → List Op → Bool
  | b, [] => b
  | b, .register v _ :: os => Spec.wanted u (b || idOf v = u) os
  | b, .unregister v e :: os => Spec.wanted u (b && ¬ (idOf v = u ∧ e ≠ .refused)) os
  | b, _ :: os => Spec.wanted u b os

/-- The calls are about services in `S`, the agent is not restarted, and no answer to an `UnRegister` is lost. -/
def Spec.Calm (S : List URL) : Op → Prop
  | .register u _ => u ∈ S
  | .unregister u e => u ∈ S ∧ e ≠ .unheard
  | .subscribe u _ => u ∈ S
  | .restart => False

/-! ## One request -/

theorem body_built (c : Client) (u : URL) : Spec.Built (body c u) := by
  refine ⟨⟨rfl, rfl, rfl, ?_, rfl⟩, ?_⟩
  · show (if contains b!"proxyRegistry" b!")." = true then some true else none) = none
    decide
  · intro m hm
    cases hm
    exact AMap.nodupKeys_store (AMap.nodupKeys_storeAll AMap.nodupKeys_nil _) _ _

theorem body_param {u : URL} (h : ∀ m, u.params = some m → m.NodupKeys) (c : Client) (k : Bytes) :
    (body c u).param k = if b!"proxyRegistry" = k then some c.proxyRegistry else u.param k := by
  unfold body
  rw [putParam_param, copy_param u h]

theorem body_names {E : Dynamic.Env} {u : URL} (hu : Spec.MeshService E u) (c : Client) (r : URL) :
    Spec.NamesRegistry E (body c u) r ↔ Spec.registryName r = c.proxyRegistry := by
  unfold Spec.NamesRegistry
  rw [body_param hu.params, body_param hu.params, if_pos rfl, if_neg (by decide), hu.other]
  constructor
  · rintro (h | ⟨s, _, _, h, _⟩)
    · exact (Option.some.inj h).symm
    · cases h
  · intro h; exact .inl (by rw [← h]; rfl)

theorem identity_plain {u : URL} (h : u.protocol ≠ b!"direct") :
    Spec.identity u = u.protocol ++ b!"://" ++ u.host ++ b!":" ++ formatInt u.port ++ b!"/" ++ u.path ++ b!"?group=" ++ u.group := by
  rw [Spec.identity, if_neg h, List.append_nil]

/-- What the agent makes of the requests about a service. -/
theorem mesh_calls {E : Dynamic.Env} {id : Bytes} {c : Client} (hE : Spec.MeshKnows E c.proxyRegistry id) {u : URL}
    (hu : Spec.MeshService E u) :
    ∃ vs : List URL, Dynamic.requestCalls E .register (body c u) = some (vs.map Dynamic.Req.register) ∧
      Dynamic.requestCalls E .unregister (body c u) = some (vs.map Dynamic.Req.unregister) ∧
      (∀ v ∈ vs, Spec.Built v ∧ Spec.identity v ∉ E.services) ∧
      ∀ k, k ∈ vs.map Spec.regKey ↔ ∃ g, Spec.IsGroup E u g ∧ k = Spec.meshKey E id u g := by
  have hb := body_built c u
  cases hq : Dynamic.requestCalls E .register (body c u) with
  | none =>
    obtain ⟨r, hr, hn⟩ := hE.known
    exact absurd ((body_names hu c r).mpr hn) (((request_refused hE.ids .register hb).mp hq).2 _ hr)
  | some calls =>
    obtain ⟨vs, e1, e2⟩ := request_inverse hq
    obtain ⟨p1, p2, p3, p4⟩ := hu.protocol
    obtain ⟨-, g2, g3⟩ := request_groups hb hq p1 p2 p3 hE.portLo hE.portHi
    have n := request_node hb hq p1 p2 p3 hE.portLo hE.portHi
    have hv : ∀ v ∈ vs, Spec.IsGroup E u v.group ∧ Spec.Built v ∧ Spec.identity v =
        u.protocol ++ b!"://" ++ E.localIP ++ b!":" ++ formatInt E.eport ++ b!"/" ++ u.path ++ b!"?group=" ++ v.group ∧
        Spec.regKey v = Spec.meshKey E id u v.group := by
      intro v hv
      have hc : Dynamic.Req.register v ∈ calls := by rw [e1]; exact List.mem_map_of_mem hv
      obtain ⟨-, b1, b2, b3, i, r, b4, b5, b6⟩ := g3 _ hc
      obtain ⟨n1, n2, -⟩ := n _ hc
      have hg : Spec.IsGroup E u v.group := (g2 v.group).mp (List.mem_map.mpr ⟨_, hc, rfl⟩)
      have hi : Spec.identity v = u.protocol ++ b!"://" ++ E.localIP ++ b!":" ++ formatInt E.eport ++ b!"/" ++ u.path ++
          b!"?group=" ++ v.group := by
        have b2 : v.protocol = u.protocol := b2
        have b3 : v.path = u.path := b3
        have n1 : v.host = E.localIP := n1
        have n2 : v.port = E.eport := n2
        rw [identity_plain (by rw [b2]; exact p4), b2, n1, n2, b3]
      refine ⟨hg, b1, hi, ?_⟩
      have b6 : v.param b!"registry" = some i := b6
      have : i = id := hE.one _ b4 ((body_names hu c r).mp b5)
      rw [Spec.regKey, hi, b6, this]; rfl
    refine ⟨vs, by rw [e1], e2, fun v hm => ⟨(hv v hm).2.1, ?_⟩, fun k => ⟨fun hk => ?_, ?_⟩⟩
    · rw [(hv v hm).2.2.1]; exact hu.own _ (hv v hm).1
    · obtain ⟨v, hm, rfl⟩ := List.mem_map.mp hk
      exact ⟨v.group, (hv v hm).1, (hv v hm).2.2.2⟩
    · rintro ⟨g, hg, rfl⟩
      obtain ⟨cl, hc, hgr⟩ := List.mem_map.mp ((g2 g).mpr hg)
      rw [e1] at hc
      obtain ⟨v, hm, rfl⟩ := List.mem_map.mp hc
      have hgr : v.group = g := hgr
      exact List.mem_map.mpr ⟨v, hm, by rw [(hv v hm).2.2.2, hgr]⟩

theorem foldl_run_register (E : Dynamic.Env) (m : Dynamic.St) (vs : List URL) :
    (vs.map Dynamic.Req.register).foldl (Dynamic.run E) m = Dynamic.acts E m (vs.map Dynamic.Act.register) := by
  induction vs generalizing m with
  | nil => rfl
  | cons v vs ih => exact ih _

theorem foldl_run_unregister (E : Dynamic.Env) (m : Dynamic.St) (vs : List URL) :
    (vs.map Dynamic.Req.unregister).foldl (Dynamic.run E) m = Dynamic.acts E m (vs.map Dynamic.Act.unregister) := by
  induction vs generalizing m with
  | nil => rfl
  | cons v vs ih => exact ih _

theorem registered_registers {E : Dynamic.Env} (hs : E.regSuffix = []) (k : Bytes) (b : Bool) (vs : List URL)
    (h : ∀ v ∈ vs, Spec.identity v ∉ E.services) :
    Spec.registered E k b (vs.map Dynamic.Act.register) = true ↔ b = true ∨ k ∈ vs.map Spec.regKey := by
  induction vs generalizing b with
  | nil => simp [Spec.registered]
  | cons v vs ih =>
    have hw : Spec.withSuffix E.regSuffix v = v := by rw [hs]; exact withSuffix_of (List.nil_suffix)
    rw [List.map_cons, Spec.registered, ih _ fun x hx => h x (by simp [hx]), hw]
    have := h v (by simp)
    simp only [Bool.or_eq_true, decide_eq_true_eq, this, not_false_eq_true, and_true, List.map_cons, List.mem_cons]
    constructor
    · rintro ((h | h) | h)
      · exact .inl h
      · exact .inr (.inl h.symm)
      · exact .inr (.inr h)
    · rintro (h | h | h)
      · exact .inl (.inl h)
      · exact .inl (.inr h.symm)
      · exact .inr h

theorem registered_unregisters {E : Dynamic.Env} (k : Bytes) (b : Bool) (vs : List URL) :
    Spec.registered E k b (vs.map Dynamic.Act.unregister) = true ↔ b = true ∧ k ∉ vs.map Spec.regKey := by
  induction vs generalizing b with
  | nil => simp [Spec.registered]
  | cons v vs ih =>
    rw [List.map_cons, Spec.registered, ih]
    simp only [Bool.and_eq_true, decide_eq_true_eq, List.map_cons, List.mem_cons, not_or]
    constructor
    · rintro ⟨⟨h1, h2⟩, h3⟩; exact ⟨h1, fun e => h2 e.symm, h3⟩
    · rintro ⟨h1, h2, h3⟩; exact ⟨⟨h1, fun e => h2 e.symm⟩, h3⟩

/-- The agent has listed this node. -/
def Spec.meshHas (m : Dynamic.St) (k : Bytes) : Prop := (AMap.load m.regNodes k).isSome = true

theorem serve_register {E : Dynamic.Env} {id : Bytes} {c : Client} (hE : Spec.MeshKnows E c.proxyRegistry id) {u : URL}
    (hu : Spec.MeshService E u) (m : Dynamic.St) :
    (serve E m .register (body c u)).2 = 200 ∧
    ∀ k, Spec.meshHas (serve E m .register (body c u)).1 k ↔
      Spec.meshHas m k ∨ ∃ g, Spec.IsGroup E u g ∧ k = Spec.meshKey E id u g := by
  obtain ⟨vs, h1, -, h3, h4⟩ := mesh_calls hE hu
  rw [serve, h1]
  refine ⟨rfl, fun k => ?_⟩
  unfold Spec.meshHas
  simp only
  rw [foldl_run_register, registered_of_history E hE.good, registered_registers hE.suffix k _ vs fun v hv => (h3 v hv).2, h4]
  intro a ha
  obtain ⟨v, hv, rfl⟩ := List.mem_map.mp ha
  exact (h3 v hv).1

theorem serve_unregister {E : Dynamic.Env} {id : Bytes} {c : Client} (hE : Spec.MeshKnows E c.proxyRegistry id) {u : URL}
    (hu : Spec.MeshService E u) (m : Dynamic.St) :
    (serve E m .unregister (body c u)).2 = 200 ∧
    ∀ k, Spec.meshHas (serve E m .unregister (body c u)).1 k ↔
      Spec.meshHas m k ∧ ¬ ∃ g, Spec.IsGroup E u g ∧ k = Spec.meshKey E id u g := by
  obtain ⟨vs, -, h2, h3, h4⟩ := mesh_calls hE hu
  rw [serve, h2]
  refine ⟨rfl, fun k => ?_⟩
  unfold Spec.meshHas
  simp only
  rw [foldl_run_unregister, registered_of_history E hE.good, registered_unregisters k _ vs, h4]
  intro a ha
  obtain ⟨v, hv, rfl⟩ := List.mem_map.mp ha
  exact (h3 v hv).1

/-- A subscription is a list of subscribing changes, its own among them. -/
theorem run_subscribe {E : Dynamic.Env} (hE : Spec.GoodEnv E) (m : Dynamic.St) {u : URL} (hb : Spec.Built u)
    (hg : (36 : UInt8) ∉ u.group) :
    ∃ as : List Dynamic.Act, (∀ a ∈ as, GoodAct a ∧ ∃ v, a = .subscribe v) ∧ Dynamic.Act.subscribe u ∈ as ∧
      Dynamic.run E m (.subscribe u) = Dynamic.acts E m as := by
  obtain ⟨-, -, s3, -, -, -⟩ := doSubscribe_spec E m hb hg
  rw [Dynamic.run]
  cases hs : Dynamic.suffixed E (Dynamic.doSubscribe E m u).2 with
  | none =>
    refine ⟨[.subscribe u], ?_, by simp, rfl⟩
    intro a ha
    rw [List.mem_singleton.mp ha]
    exact ⟨⟨hb, hg⟩, u, rfl⟩
  | some v =>
    refine ⟨[.subscribe u, .subscribe v], ?_, by simp, rfl⟩
    intro a ha
    simp only [List.mem_cons, List.not_mem_nil, or_false] at ha
    rcases ha with rfl | rfl
    · exact ⟨⟨hb, hg⟩, u, rfl⟩
    · refine ⟨?_, v, rfl⟩
      unfold Dynamic.suffixed at hs
      split at hs
      · cases hs
        refine ⟨⟨⟨rfl, rfl, rfl, rfl, rfl⟩, ?_⟩, ?_⟩
        · intro m hm; cases hm; exact AMap.nodupKeys_storeAll AMap.nodupKeys_nil _
        · show (36 : UInt8) ∉ _ ++ _
          rw [s3, List.mem_append, not_or]
          exact ⟨hg, hE.suffix⟩
      · cases hs

theorem registered_subscribes {E : Dynamic.Env} (k : Bytes) (b : Bool) (as : List Dynamic.Act)
    (h : ∀ a ∈ as, ∃ v, a = .subscribe v) : Spec.registered E k b as = b := by
  induction as with
  | nil => rfl
  | cons a as ih =>
    obtain ⟨v, rfl⟩ := h a (by simp)
    rw [Spec.registered]; exact ih fun x hx => h x (by simp [hx])

/-- The name of a subscription at the agent. -/
def Spec.meshSub (u : URL) (g : Bytes) : Bytes := Spec.identity { u with host := [], port := 0, group := g }

theorem foldl_run_subscribe {E : Dynamic.Env} (hE : Spec.GoodEnv E) (rs : List Dynamic.Req)
    (h : ∀ r ∈ rs, Spec.GoodReq r ∧ ∃ u, r = .subscribe u) (m : Dynamic.St) :
    (∀ k, Spec.meshHas (rs.foldl (Dynamic.run E) m) k ↔ Spec.meshHas m k) ∧
    ∀ k, (AMap.load m.subNodes k).isSome ∨ (∃ u, Dynamic.Req.subscribe u ∈ rs ∧ Spec.identity u = k) →
      (AMap.load (rs.foldl (Dynamic.run E) m).subNodes k).isSome := by
  induction rs generalizing m with
  | nil =>
    refine ⟨fun k => Iff.rfl, fun k hk => ?_⟩
    rcases hk with hk | ⟨u, hu, -⟩
    · exact hk
    · cases hu
  | cons r rs ih =>
    obtain ⟨hgood, u, rfl⟩ := h r (by simp)
    obtain ⟨as, a1, a2, a3⟩ := run_subscribe hE m hgood.1 hgood.2
    obtain ⟨i1, i2⟩ := ih (fun x hx => h x (by simp [hx])) (Dynamic.run E m (.subscribe u))
    rw [List.foldl_cons]
    refine ⟨fun k => (i1 k).trans ?_, fun k hk => i2 k ?_⟩
    · unfold Spec.meshHas
      rw [a3, registered_of_history E hE _ _ fun a ha => (a1 a ha).1, registered_subscribes _ _ _ fun a ha => (a1 a ha).2]
    · rcases hk with hk | ⟨v, hv, hk⟩
      · exact .inl (by rw [a3]; exact sub_mono hE (fun a ha => (a1 a ha).1) (.inl hk))
      · rcases List.mem_cons.mp hv with e | hv
        · cases e
          exact .inl (by rw [a3]; exact sub_mono hE (fun a ha => (a1 a ha).1) (.inr ⟨_, a2, hk⟩))
        · exact .inr ⟨v, hv, hk⟩

theorem serve_subscribe {E : Dynamic.Env} {id : Bytes} {c : Client} (hE : Spec.MeshKnows E c.proxyRegistry id) {u : URL}
    (hu : Spec.MeshService E u) (m : Dynamic.St) :
    (serve E m .subscribe (body c u)).2 = 200 ∧
    (∀ k, Spec.meshHas (serve E m .subscribe (body c u)).1 k ↔ Spec.meshHas m k) ∧
    (∀ k, (AMap.load m.subNodes k).isSome → (AMap.load (serve E m .subscribe (body c u)).1.subNodes k).isSome) ∧
    ∀ g, Spec.IsGroup E u g → (AMap.load (serve E m .subscribe (body c u)).1.subNodes (Spec.meshSub u g)).isSome := by
  have hb := body_built c u
  rw [serve]
  cases hq : Dynamic.requestCalls E .subscribe (body c u) with
  | none =>
    obtain ⟨r, hr, hn⟩ := hE.known
    exact absurd ((body_names hu c r).mpr hn) (((request_refused hE.ids .subscribe hb).mp hq).2 _ hr)
  | some calls =>
    obtain ⟨p1, p2, p3, p4⟩ := hu.protocol
    obtain ⟨-, g2, g3⟩ := request_groups hb hq p1 p2 p3 hE.portLo hE.portHi
    have n := request_node hb hq p1 p2 p3 hE.portLo hE.portHi
    have gd := request_good hb hq p1 p2 p3 hE.portLo hE.portHi hu.group hE.extra
    have hall : ∀ r ∈ calls, Spec.GoodReq r ∧ ∃ u, r = Dynamic.Req.subscribe u := by
      intro r hr
      refine ⟨gd r hr, ?_⟩
      have := (g3 r hr).1
      cases r with
      | subscribe u => exact ⟨u, rfl⟩
      | register u => exact this.elim
      | unregister u => exact this.elim
    obtain ⟨f1, f2⟩ := foldl_run_subscribe hE.good calls hall m
    refine ⟨rfl, f1, fun k hk => f2 k (.inl hk), fun g hg => f2 _ (.inr ?_)⟩
    obtain ⟨cl, hc, hgr⟩ := List.mem_map.mp ((g2 g).mpr hg)
    obtain ⟨v, rfl⟩ := (hall cl hc).2
    obtain ⟨-, -, b2, b3, -⟩ := g3 _ hc
    obtain ⟨n1, n2, -⟩ := n _ hc
    have b2 : v.protocol = u.protocol := b2
    have b3 : v.path = u.path := b3
    have n1 : v.host = [] := n1
    have n2 : v.port = 0 := n2
    have hgr : v.group = g := hgr
    refine ⟨v, hc, ?_⟩
    rw [Spec.meshSub, identity_plain (by rw [b2]; exact p4), identity_plain (u := { u with host := [], port := 0, group := g }) p4,
      b2, b3, n1, n2, hgr]

/-! ## Requests until one is answered -/

theorem ask_none (E : Dynamic.Env) (k : Dynamic.Kind) (b : URL) (m : Dynamic.St) (es : List Exchange) :
    ask E k b m es = none ↔ Exchange.heard ∉ es := by
  induction es generalizing m with
  | nil => simp [ask]
  | cons e es ih => cases e <;> simp [ask, ih]

/-- What every answer to a request leaves true, the last answer leaves true. -/
theorem ask_spec {E : Dynamic.Env} {k : Dynamic.Kind} {b : URL} (R : Dynamic.St → Prop)
    (hstep : ∀ m, R m → R (serve E m k b).1) {m : Dynamic.St} (hm : R m) {es : List Exchange} {r : Dynamic.St × Int}
    (h : ask E k b m es = some r) : ∃ m', R m' ∧ r = serve E m' k b := by
  induction es generalizing m with
  | nil => cases h
  | cons e es ih =>
    cases e with
    | refused => exact ih hm h
    | unheard => exact ih (hstep m hm) h
    | heard => cases h; exact ⟨m, hm, rfl⟩

/-! ## Histories -/

/-- The nodes of the services `w`. -/
def Spec.meshNodes (E : Dynamic.Env) (id : Bytes) (S : List URL) (w : Bytes → Bool) (k : Bytes) : Prop :=
  ∃ u ∈ S, w (idOf u) = true ∧ ∃ g, Spec.IsGroup E u g ∧ k = Spec.meshKey E id u g

structure MeshInv (E : Dynamic.Env) (id : Bytes) (S : List URL) (w : Bytes → Bool) (s : Sys) : Prop where
  nodup : s.client.registered.NodupKeys
  entry : ∀ k v, AMap.load s.client.registered k = some v → v ∈ S ∧ k = idOf v
  recorded : ∀ u ∈ S, (AMap.load s.client.registered (idOf u)).isSome = true ↔ w (idOf u) = true
  listed : ∀ k, Spec.meshHas s.mesh k ↔ Spec.meshNodes E id S w k

theorem meshInv_register {E : Dynamic.Env} {id : Bytes} {S : List URL} (hS : Spec.MeshServices E id S) {w : Bytes → Bool}
    {s : Sys} (hE : Spec.MeshKnows E s.client.proxyRegistry id) (hi : MeshInv E id S w s) {u : URL} (hu : u ∈ S)
    {es : List Exchange} {s' : Sys} (h : register E s u es = some s') :
    s'.client.proxyRegistry = s.client.proxyRegistry ∧ s'.client.subscribed = s.client.subscribed ∧
      MeshInv E id S (fun i => w i || decide (idOf u = i)) s' := by
  have hnodes : ∀ k, Spec.meshNodes E id S (fun i => w i || decide (idOf u = i)) k ↔
      Spec.meshNodes E id S w k ∨ ∃ g, Spec.IsGroup E u g ∧ k = Spec.meshKey E id u g := by
    intro k
    constructor
    · rintro ⟨v, hv, hw, hk⟩
      simp only [Bool.or_eq_true, decide_eq_true_eq] at hw
      rcases hw with hw | hw
      · exact .inl ⟨v, hv, hw, hk⟩
      · rw [← hS.ids u hu v hv hw] at hk; exact .inr hk
    · rintro (⟨v, hv, hw, hk⟩ | hk)
      · exact ⟨v, hv, by simp [hw], hk⟩
      · exact ⟨u, hu, by simp, hk⟩
  unfold register at h
  by_cases hr : (AMap.load s.client.registered (idOf u)).isSome = true
  · rw [if_pos hr] at h
    cases h
    have hw := (hi.recorded u hu).mp hr
    have : (fun i => w i || decide (idOf u = i)) = w := by
      funext i
      by_cases e : idOf u = i
      · subst e; simp [hw]
      · simp [e]
    rw [this]
    exact ⟨rfl, rfl, hi⟩
  · rw [if_neg hr] at h
    cases ha : ask E .register (body s.client u) s.mesh es with
    | none => rw [ha] at h; cases h
    | some r =>
      rw [ha] at h
      have hcode := (serve_register hE (hS.each u hu))
      obtain ⟨m', hm', rfl⟩ := ask_spec
        (fun m => ∀ k, (Spec.meshHas m k ∨ ∃ g, Spec.IsGroup E u g ∧ k = Spec.meshKey E id u g) ↔
          Spec.meshNodes E id S (fun i => w i || decide (idOf u = i)) k)
        (fun m hm k => by
          rw [(hcode m).2 k, ← hm k]
          constructor
          · rintro (h | h)
            · exact h
            · exact .inr h
          · exact .inl)
        (fun k => by rw [hnodes k, hi.listed k]) ha
      have h2 := (hcode m').1
      simp only [Option.map_some, h2, if_true, Option.some.injEq] at h
      subst h
      refine ⟨rfl, rfl, AMap.nodupKeys_store hi.nodup _ _, ?_, ?_, ?_⟩
      · intro k v hk
        change (AMap.store s.client.registered (idOf u) u).load k = some v at hk
        rw [AMap.load_store] at hk
        split at hk
        · next e => cases hk; exact ⟨hu, e.symm⟩
        · exact hi.entry k v hk
      · intro v hv
        show ((AMap.store s.client.registered (idOf u) u).load (idOf v)).isSome = true ↔ _
        rw [AMap.load_store]
        split
        · next e => simp [e]
        · next e => simp [e, hi.recorded v hv]
      · intro k
        show Spec.meshHas (serve E m' .register (body s.client u)).1 k ↔ _
        rw [(hcode m').2 k, hm' k]

theorem meshInv_unregister {E : Dynamic.Env} {id : Bytes} {S : List URL} (hS : Spec.MeshServices E id S) {w : Bytes → Bool}
    {s : Sys} (hE : Spec.MeshKnows E s.client.proxyRegistry id) (hi : MeshInv E id S w s) {u : URL} (hu : u ∈ S)
    {e : Exchange} (he : e ≠ .unheard) :
    (unregister E s u e).client.proxyRegistry = s.client.proxyRegistry ∧
      (unregister E s u e).client.subscribed = s.client.subscribed ∧
      MeshInv E id S (fun i => w i && decide ¬ (idOf u = i ∧ e ≠ .refused)) (unregister E s u e) := by
  unfold unregister
  by_cases hr : (AMap.load s.client.registered (idOf u)).isNone = true
  · rw [if_pos hr]
    have hw : w (idOf u) = false := by
      cases hx : w (idOf u) with
      | false => rfl
      | true =>
        have := (hi.recorded u hu).mpr hx
        rw [Option.isNone_iff_eq_none.mp hr] at this; cases this
    have : (fun i => w i && decide ¬ (idOf u = i ∧ e ≠ .refused)) = w := by
      funext i
      by_cases h : idOf u = i
      · subst h; simp [hw]
      · simp [h]
    rw [this]
    exact ⟨rfl, rfl, hi⟩
  · rw [if_neg hr]
    cases e with
    | refused =>
      have : (fun i => w i && decide ¬ (idOf u = i ∧ Exchange.refused ≠ .refused)) = w := by funext i; simp
      rw [this]
      exact ⟨rfl, rfl, hi⟩
    | unheard => exact absurd rfl he
    | heard =>
      obtain ⟨h2, h3⟩ := serve_unregister hE (hS.each u hu) s.mesh
      simp only [h2, if_true]
      refine ⟨trivial, trivial, AMap.nodupKeys_erase hi.nodup _, ?_, ?_, ?_⟩
      · intro k v hk
        change (AMap.erase s.client.registered (idOf u)).load k = some v at hk
        rw [AMap.load_erase] at hk
        split at hk
        · cases hk
        · exact hi.entry k v hk
      · intro v hv
        show ((AMap.erase s.client.registered (idOf u)).load (idOf v)).isSome = true ↔ _
        rw [AMap.load_erase]
        split
        · next e => simp [e]
        · next e => simp [e, hi.recorded v hv]
      · intro k
        show Spec.meshHas (serve E s.mesh .unregister (body s.client u)).1 k ↔ _
        rw [h3 k, hi.listed k]
        constructor
        · rintro ⟨⟨v, hv, hw, g, hg, hk⟩, hn⟩
          refine ⟨v, hv, ?_, g, hg, hk⟩
          have : idOf u ≠ idOf v := fun e => hn (by rw [hS.ids u hu v hv e]; exact ⟨g, hg, hk⟩)
          simp [hw, this]
        · rintro ⟨v, hv, hw, g, hg, hk⟩
          simp at hw
          refine ⟨⟨v, hv, hw.1, g, hg, hk⟩, ?_⟩
          rintro ⟨g', hg', hk'⟩
          exact hS.apart u hu v hv (fun e => hw.2 (by rw [e])) g' g hg' hg (by rw [← hk', ← hk])

theorem meshInv_subscribe {E : Dynamic.Env} {id : Bytes} {S : List URL} (hS : Spec.MeshServices E id S) {w : Bytes → Bool}
    {s : Sys} (hE : Spec.MeshKnows E s.client.proxyRegistry id) (hi : MeshInv E id S w s) {u : URL} (hu : u ∈ S)
    {es : List Exchange} {s' : Sys} (h : subscribe E s u es = some s') :
    s'.client.proxyRegistry = s.client.proxyRegistry ∧ MeshInv E id S w s' := by
  unfold subscribe at h
  by_cases hr : (AMap.load s.client.subscribed (idOf u)).isSome = true
  · rw [if_pos hr] at h
    cases h
    exact ⟨rfl, hi⟩
  · rw [if_neg hr] at h
    cases ha : ask E .subscribe (body s.client u) s.mesh es with
    | none => rw [ha] at h; cases h
    | some r =>
      rw [ha] at h
      have hcode := (serve_subscribe hE (hS.each u hu))
      obtain ⟨m', hm', rfl⟩ := ask_spec (fun m => ∀ k, Spec.meshHas m k ↔ Spec.meshNodes E id S w k)
        (fun m hm k => ((hcode m).2.1 k).trans (hm k)) hi.listed ha
      have h2 := (hcode m').1
      simp only [Option.map_some, h2, if_true, Option.some.injEq] at h
      subst h
      exact ⟨rfl, hi.nodup, hi.entry, hi.recorded, fun k => ((hcode m').2.1 k).trans (hm' k)⟩

theorem meshInv_play {E : Dynamic.Env} {id : Bytes} {S : List URL} (hS : Spec.MeshServices E id S) (os : List Op)
    (hc : ∀ o ∈ os, Spec.Calm S o) {w : Bytes → Bool} {s : Sys} (hE : Spec.MeshKnows E s.client.proxyRegistry id)
    (hi : MeshInv E id S w s) {s' : Sys} (h : play E s os = some s') :
    MeshInv E id S (fun i => Spec.wanted i (w i) os) s' := by
  induction os generalizing s w with
  | nil => cases h; exact hi
  | cons o os ih =>
    have ho := hc o (by simp)
    have hc' : ∀ o ∈ os, Spec.Calm S o := fun x hx => hc x (by simp [hx])
    rw [play] at h
    cases o with
    | register u es =>
      rw [step] at h
      cases hr : register E s u es with
      | none => rw [hr] at h; cases h
      | some t =>
        rw [hr] at h
        obtain ⟨h1, -, h3⟩ := meshInv_register hS hE hi ho hr
        exact ih hc' (by rw [h1]; exact hE) h3 h
    | unregister u e =>
      obtain ⟨h1, -, h3⟩ := meshInv_unregister hS hE hi ho.1 ho.2
      exact ih hc' (by rw [h1]; exact hE) h3 h
    | subscribe u es =>
      rw [step] at h
      cases hr : subscribe E s u es with
      | none => rw [hr] at h; cases h
      | some t =>
        rw [hr] at h
        obtain ⟨h1, h3⟩ := meshInv_subscribe hS hE hi ho hr
        exact ih hc' (by rw [h1]; exact hE) h3 h
    | restart => exact ho.elim

/-- A process just started: nothing recorded, and an agent that has listed nothing for it. -/
def Spec.meshFresh (url : URL) (port : Int) (proxy : Bytes) : Sys :=
  { client := { url, meshPort := port, proxyRegistry := proxy } }

/-- **C74 (one view).** However the requests go, after all of a process's calls that have returned its registered
services are those it wants registered, and the agent lists the nodes of these services and no others. -/
theorem mesh_registered {E : Dynamic.Env} {id proxy : Bytes} (hE : Spec.MeshKnows E proxy id) {S : List URL}
    (hS : Spec.MeshServices E id S) (url : URL) (port : Int) (os : List Op) (hc : ∀ o ∈ os, Spec.Calm S o) {s : Sys}
    (h : play E (Spec.meshFresh url port proxy) os = some s) :
    (∀ u, u ∈ registeredServices s ↔ u ∈ S ∧ Spec.wanted (idOf u) false os = true) ∧
    ∀ k, (AMap.load s.mesh.regNodes k).isSome = true ↔
      ∃ u ∈ S, Spec.wanted (idOf u) false os = true ∧ ∃ g, Spec.IsGroup E u g ∧ k = Spec.meshKey E id u g := by
  have hi : MeshInv E id S (fun _ => false) (Spec.meshFresh url port proxy) := by
    refine ⟨AMap.nodupKeys_nil, ?_, ?_, ?_⟩
    · intro k v hk; cases hk
    · intro u _; exact ⟨fun h => (by cases h), fun h => (by cases h)⟩
    · intro k
      refine ⟨fun h => (by cases h), ?_⟩
      rintro ⟨_, _, h, _⟩; cases h
  have hf := meshInv_play hS os hc (w := fun _ => false) hE hi h
  refine ⟨fun u => ?_, hf.listed⟩
  unfold registeredServices
  constructor
  · intro hu
    obtain ⟨⟨k, v⟩, hm, rfl⟩ := List.mem_map.mp hu
    have hl := AMap.load_of_mem hf.nodup hm
    obtain ⟨h1, h2⟩ := hf.entry k v hl
    refine ⟨h1, (hf.recorded v h1).mp ?_⟩
    rw [← h2, hl]; rfl
  · rintro ⟨h1, h2⟩
    obtain ⟨v, hv⟩ := Option.isSome_iff_exists.mp ((hf.recorded u h1).mpr h2)
    obtain ⟨h3, h4⟩ := hf.entry _ v hv
    have := hS.ids u h1 v h3 h4
    subst this
    exact List.mem_map.mpr ⟨_, AMap.mem_of_load hv, rfl⟩

/-! ## Subscriptions -/

theorem serve_keeps_subs {E : Dynamic.Env} {id : Bytes} {c : Client} (hE : Spec.MeshKnows E c.proxyRegistry id) {u : URL}
    (hu : Spec.MeshService E u) (k : Dynamic.Kind) (m : Dynamic.St) (n : Bytes)
    (h : (AMap.load m.subNodes n).isSome = true) : (AMap.load (serve E m k (body c u)).1.subNodes n).isSome = true := by
  obtain ⟨vs, h1, h2, h3, -⟩ := mesh_calls hE hu
  cases k with
  | subscribe => exact (serve_subscribe hE hu m).2.2.1 n h
  | register =>
    rw [serve, h1]
    simp only
    rw [foldl_run_register]
    refine sub_mono hE.good (fun a ha => ?_) (.inl h)
    obtain ⟨v, hv, rfl⟩ := List.mem_map.mp ha
    exact (h3 v hv).1
  | unregister =>
    rw [serve, h2]
    simp only
    rw [foldl_run_unregister]
    refine sub_mono hE.good (fun a ha => ?_) (.inl h)
    obtain ⟨v, hv, rfl⟩ := List.mem_map.mp ha
    exact (h3 v hv).1

/-- What the process has subscribed to, the agent has subscribed to. -/
structure MeshSubInv (E : Dynamic.Env) (id : Bytes) (S : List URL) (s : Sys) : Prop where
  knows : Spec.MeshKnows E s.client.proxyRegistry id
  subs : ∀ u ∈ S, (AMap.load s.client.subscribed (idOf u)).isSome = true →
    ∀ g, Spec.IsGroup E u g → (AMap.load s.mesh.subNodes (Spec.meshSub u g)).isSome = true

theorem meshSub_step {E : Dynamic.Env} {id : Bytes} {S : List URL} (hS : Spec.MeshServices E id S) {s : Sys}
    (hi : MeshSubInv E id S s) {o : Op} (ho : Spec.Calm S o) {s' : Sys} (h : step E s o = some s') :
    MeshSubInv E id S s' ∧ (∀ k, (AMap.load s.client.subscribed k).isSome = true →
      (AMap.load s'.client.subscribed k).isSome = true) ∧
      ∀ u es, o = .subscribe u es → (AMap.load s'.client.subscribed (idOf u)).isSome = true := by
  cases o with
  | restart => exact ho.elim
  | register u es =>
    rw [step, register] at h
    split at h
    · cases h; exact ⟨hi, fun _ h => h, fun _ _ h => by cases h⟩
    · cases ha : ask E .register (body s.client u) s.mesh es with
      | none => rw [ha] at h; cases h
      | some r =>
        rw [ha] at h
        obtain ⟨m', hm', rfl⟩ := ask_spec
          (fun m => ∀ n, (AMap.load s.mesh.subNodes n).isSome = true → (AMap.load m.subNodes n).isSome = true)
          (fun m hm n hn => serve_keeps_subs hi.knows (hS.each u ho) _ m n (hm n hn)) (fun _ h => h) ha
        have h2 := (serve_register hi.knows (hS.each u ho) m').1
        simp only [Option.map_some, h2, if_true, Option.some.injEq] at h
        subst h
        exact ⟨⟨hi.knows, fun v hv hs g hg => serve_keeps_subs hi.knows (hS.each u ho) _ m' _ (hm' _ (hi.subs v hv hs g hg))⟩,
          fun _ h => h, fun _ _ h => by cases h⟩
  | unregister u e =>
    obtain ⟨ho, he⟩ := ho
    rw [step, unregister] at h
    split at h
    · cases h; exact ⟨hi, fun _ h => h, fun _ _ h => by cases h⟩
    · cases e with
      | refused => cases h; exact ⟨hi, fun _ h => h, fun _ _ h => by cases h⟩
      | unheard => exact absurd rfl he
      | heard =>
        have h2 := (serve_unregister hi.knows (hS.each u ho) s.mesh).1
        simp only [h2, if_true, Option.some.injEq] at h
        subst h
        exact ⟨⟨hi.knows, fun v hv hs g hg => serve_keeps_subs hi.knows (hS.each u ho) _ s.mesh _ (hi.subs v hv hs g hg)⟩,
          fun _ h => h, fun _ _ h => by cases h⟩
  | subscribe u es =>
    rw [step, subscribe] at h
    split at h
    · next hr =>
      cases h
      exact ⟨hi, fun _ h => h, fun _ _ h => by cases h; exact hr⟩
    · cases ha : ask E .subscribe (body s.client u) s.mesh es with
      | none => rw [ha] at h; cases h
      | some r =>
        rw [ha] at h
        obtain ⟨m', hm', rfl⟩ := ask_spec
          (fun m => ∀ n, (AMap.load s.mesh.subNodes n).isSome = true → (AMap.load m.subNodes n).isSome = true)
          (fun m hm n hn => serve_keeps_subs hi.knows (hS.each u ho) _ m n (hm n hn)) (fun _ h => h) ha
        have hc := serve_subscribe hi.knows (hS.each u ho) m'
        have h2 := hc.1
        simp only [Option.map_some, h2, if_true, Option.some.injEq] at h
        subst h
        refine ⟨⟨hi.knows, fun v hv hs g hg => ?_⟩, fun k hk => ?_, fun v _ e => ?_⟩
        · change ((AMap.store s.client.subscribed (idOf u) u).load (idOf v)).isSome = true at hs
          rw [AMap.load_store] at hs
          split at hs
          · next e =>
            have := hS.ids v hv u ho (by simp_all)
            subst this
            exact hc.2.2.2 g hg
          · exact hc.2.2.1 _ (hm' _ (hi.subs v hv hs g hg))
        · show ((AMap.store s.client.subscribed (idOf u) u).load k).isSome = true
          rw [AMap.load_store]; split
          · rfl
          · exact hk
        · cases e
          show ((AMap.store s.client.subscribed (idOf u) u).load (idOf u)).isSome = true
          rw [AMap.load_store_self]; rfl

theorem meshSub_play {E : Dynamic.Env} {id : Bytes} {S : List URL} (hS : Spec.MeshServices E id S) (os : List Op)
    (hc : ∀ o ∈ os, Spec.Calm S o) {s : Sys} (hi : MeshSubInv E id S s) {s' : Sys} (h : play E s os = some s') :
    MeshSubInv E id S s' ∧ ∀ u, (AMap.load s.client.subscribed (idOf u)).isSome = true ∨ (∃ es, Op.subscribe u es ∈ os) →
      (AMap.load s'.client.subscribed (idOf u)).isSome = true := by
  induction os generalizing s with
  | nil =>
    cases h
    refine ⟨hi, fun u hu => ?_⟩
    rcases hu with hu | ⟨_, hu⟩
    · exact hu
    · cases hu
  | cons o os ih =>
    rw [play] at h
    cases hst : step E s o with
    | none => rw [hst] at h; cases h
    | some t =>
      rw [hst] at h
      obtain ⟨h1, h2, h3⟩ := meshSub_step hS hi (hc o (by simp)) hst
      obtain ⟨i1, i2⟩ := ih (fun x hx => hc x (by simp [hx])) h1 h
      refine ⟨i1, fun u hu => i2 u ?_⟩
      rcases hu with hu | ⟨es, hu⟩
      · exact .inl (h2 _ hu)
      · rcases List.mem_cons.mp hu with e | hu
        · exact .inl (h3 u es e.symm)
        · exact .inr ⟨es, hu⟩

/-- **C74 (subscriptions).** A service whose `Subscribe` has returned is subscribed to by the agent, in each of its
groups, and stays so. -/
theorem mesh_subscribed {E : Dynamic.Env} {id proxy : Bytes} (hE : Spec.MeshKnows E proxy id) {S : List URL}
    (hS : Spec.MeshServices E id S) (url : URL) (port : Int) (os : List Op) (hc : ∀ o ∈ os, Spec.Calm S o) {s : Sys}
    (h : play E (Spec.meshFresh url port proxy) os = some s) {u : URL} {es : List Exchange}
    (hu : Op.subscribe u es ∈ os) {g : Bytes} (hg : Spec.IsGroup E u g) :
    (AMap.load s.mesh.subNodes (Spec.meshSub u g)).isSome = true := by
  obtain ⟨h1, h2⟩ := meshSub_play hS os hc (s := Spec.meshFresh url port proxy)
    ⟨hE, fun v _ hv => by cases hv⟩ h
  exact h1.subs u (hc _ hu) (h2 u (.inr ⟨es, hu⟩)) g hg

/-! ## When a call returns -/

/-- **C74 (when it returns).** `Register` and `Subscribe` return as soon as the agent's answer to one of their requests
is read; a service already registered is not asked for again. Until then they hold the lock. -/
theorem mesh_returns (E : Dynamic.Env) (s : Sys) (u : URL) (es : List Exchange) :
    ((register E s u es).isSome = true ↔
      (∃ v ∈ registeredServices s, AMap.load s.client.registered (idOf u) = some v) ∨ Exchange.heard ∈ es) ∧
    ((subscribe E s u es).isSome = true ↔ (AMap.load s.client.subscribed (idOf u)).isSome = true ∨ Exchange.heard ∈ es) ∧
    ((AMap.load s.client.registered (idOf u)).isSome = true → register E s u es = some s) := by
  refine ⟨?_, ?_, fun h => by rw [register, if_pos h]⟩
  · rw [register]
    cases h : AMap.load s.client.registered (idOf u) with
    | some v =>
      refine ⟨fun _ => .inl ⟨v, List.mem_map.mpr ⟨_, AMap.mem_of_load h, rfl⟩, rfl⟩, fun _ => rfl⟩
    | none =>
      simp only [Option.isSome_none, Bool.false_eq_true, if_false, Option.isSome_map, reduceCtorEq, and_false, exists_false,
        false_or]
      rw [← Option.not_isNone, Bool.not_eq_true', ← Bool.not_eq_true, Option.isNone_iff_eq_none, ask_none, Classical.not_not]
  · rw [subscribe]
    cases h : AMap.load s.client.subscribed (idOf u) with
    | some v => exact ⟨fun _ => .inl rfl, fun _ => rfl⟩
    | none =>
      simp only [Option.isSome_none, Bool.false_eq_true, if_false, Option.isSome_map, false_or]
      rw [← Option.not_isNone, Bool.not_eq_true', ← Bool.not_eq_true, Option.isNone_iff_eq_none, ask_none, Classical.not_not]

/-- **C74 (an unknown registry).** If the agent does not know the registry the process names, a `Register` that returns
has registered nothing, with the process or with the agent. -/
theorem mesh_unknown {E : Dynamic.Env} (hids : ∀ p ∈ E.registries, p.1 ≠ []) {s : Sys} {u : URL} (hu : Spec.MeshService E u)
    (hg : ∃ g, Spec.IsGroup E u g) (hk : ∀ p ∈ E.registries, Spec.registryName p.2 ≠ s.client.proxyRegistry)
    (es : List Exchange) {s' : Sys} (h : register E s u es = some s') : s' = s := by
  have hr : ∀ k, Dynamic.requestCalls E k (body s.client u) = none := fun k =>
    (request_refused hids k (body_built _ u)).mpr ⟨hg, fun p hp hn => hk p hp ((body_names hu _ p.2).mp hn)⟩
  have hs : ∀ m, serve E m .register (body s.client u) = (m, 400) := fun m => by rw [serve, hr]
  rw [register] at h
  split at h
  · cases h; rfl
  cases ha : ask E .register (body s.client u) s.mesh es with
  | none => rw [ha] at h; cases h
  | some r =>
    rw [ha] at h
    obtain ⟨m', hm', rfl⟩ := ask_spec (fun m => m = s.mesh) (fun m hm => by rw [hs]; exact hm) rfl ha
    subst hm'
    rw [hs] at h
    cases h; rfl

/-! ## Where the services are found -/

/-- The agent's port, as far as the process learns it: the last answer that can be read. -/
def Spec.lastPort (i1 i2 i3 : Info) : Option Int :=
  [i3, i2, i1].findSome? fun | .port n => some n | _ => none

/-- **C74 (the agent's port).** A process that names a registry finds every service at the agent's host, and at the port
of the last readable answer of three. -/
theorem mesh_discover (url : URL) (i1 i2 i3 : Info) (proxy : Bytes) (hp : url.param b!"proxyRegistry" = some proxy)
    (hne : proxy ≠ []) {n : Int} (hn : Spec.lastPort i1 i2 i3 = some n) (u : URL) (hu : Spec.Proper u) :
    ∃ c, setUp url i1 i2 i3 = some c ∧ c.proxyRegistry = proxy ∧ c.registered = [] ∧ c.subscribed = [] ∧
      (discover c u).map Spec.view =
        [{ Spec.view u with host := if url.host = [] then b!"localhost" else url.host, port := n }] := by
  have hport : (fetch (fetch (fetch (0, 0) i1) i2) i3).1 = n := by
    cases i3 with
    | port k => simpa [Spec.lastPort, fetch] using hn
    | silent =>
      cases i2 with
      | port k => simpa [Spec.lastPort, fetch] using hn
      | silent => cases i1 <;> simp_all [Spec.lastPort, fetch]
      | garbled => cases i1 <;> simp_all [Spec.lastPort, fetch]
    | garbled =>
      cases i2 with
      | port k => simpa [Spec.lastPort, fetch] using hn
      | silent => cases i1 <;> simp_all [Spec.lastPort, fetch]
      | garbled => cases i1 <;> simp_all [Spec.lastPort, fetch]
  have hv := fun h => congrArg (· :: []) (serverURL_view hu (u := { host := h, port := n }))
  unfold setUp
  have h1 : ∀ v : URL, v.params = url.params → getParam v b!"proxyRegistry" [] = proxy := by
    intro v e
    have : v.param b!"proxyRegistry" = some proxy := by rw [← hp]; unfold URL.param; rw [e]
    unfold getParam
    rw [this]; simp [hne]
  simp only
  by_cases hh : url.host = [] <;> by_cases ht : url.port = 0 <;> simp only [hh, ht, if_true, if_false]
  all_goals
    rw [h1 _ (by rfl), if_neg hne]
    exact ⟨_, rfl, rfl, rfl, rfl, by rw [← hport] at hv ⊢; exact hv _⟩

/-- **C74 (what a client calls).** A client of the mesh calls one server for a service: the agent. -/
theorem mesh_client {N : RefersFilter.Net} (env : Cluster.Env) (hp : Spec.Proper env.url) (hk : env.known env.url.protocol = true)
    (hrule : env.url.protocol ≠ b!"rule") (c : Client) (reg : Bytes) (o w : List (Nat × Nat)) :
    ((Cluster.notify (N := N) env {} reg ((discover c env.url).map some) o w).balanced.map fun e => Spec.view e.url) =
      [{ Spec.view env.url with host := c.url.host, port := c.meshPort }] := by
  have h := notify_servers (N := N) env hp hk hrule reg [{ host := c.url.host, port := c.meshPort }] o w
  have h2 := serverURL_view hp (u := { host := c.url.host, port := c.meshPort })
  rw [List.map_singleton, List.map_singleton, List.map_singleton, h2] at h
  exact List.perm_singleton.mp h

/-! ## A concrete process -/

namespace Mesh

def env : Dynamic.Env :=
  { localIP := b!"10.0.0.5"
    eport := 9982
    registries := [(b!"zk", { protocol := b!"zookeeper", host := b!"10.0.0.9", port := 2181 }),
      (b!"zk2", { protocol := b!"zookeeper", host := b!"10.0.0.8", port := 2181 })] }

def proxy : Bytes := b!"zookeeper://10.0.0.9:2181"

def hello : URL :=
  { protocol := b!"motan2", host := b!"10.0.0.5", port := 8001, path := b!"a.Hello", group := b!"g1, g2",
    params := some [(b!"application", b!"x")] }

def bye : URL := { protocol := b!"motan2", host := b!"10.0.0.5", port := 8001, path := b!"a.Bye", group := b!"g1" }

theorem knows : Spec.MeshKnows env proxy b!"zk" := by
  refine ⟨⟨by decide, by decide, by decide⟩, rfl, by decide, by decide, by decide, by decide, 
    ⟨{ protocol := b!"zookeeper", host := b!"10.0.0.9", port := 2181 }, by simp [env], by decide +kernel⟩, ?_⟩
  intro p hp
  simp only [env, List.mem_cons, List.not_mem_nil, or_false] at hp
  rcases hp with rfl | rfl
  · exact fun _ => rfl
  · intro h; exact absurd h (by decide +kernel)

theorem hello_groups {g : Bytes} : Spec.IsGroup env hello g ↔ g = b!"g1" ∨ g = b!"g2" := by
  have h1 : split b!"," hello.group = [b!"g1", b!" g2"] := by decide +kernel
  have h2 : split b!"," env.extraGroups = [[]] := by decide +kernel
  have t1 : trimSpace b!"g1" = b!"g1" := by decide
  have t2 : trimSpace b!" g2" = b!"g2" := by decide
  have t3 : trimSpace [] = [] := rfl
  unfold Spec.IsGroup
  rw [h1, h2]
  constructor
  · rintro ⟨hg, p, hp, rfl⟩
    simp only [List.mem_cons, List.not_mem_nil, or_false] at hp
    rcases hp with (rfl | rfl) | rfl
    · exact .inl t1
    · exact .inr t2
    · exact absurd t3 hg
  · rintro (rfl | rfl)
    · exact ⟨by decide, b!"g1", by simp, t1⟩
    · exact ⟨by decide, b!" g2", by simp, t2⟩

theorem bye_groups {g : Bytes} : Spec.IsGroup env bye g ↔ g = b!"g1" := by
  have h1 : split b!"," bye.group = [b!"g1"] := by decide +kernel
  have h2 : split b!"," env.extraGroups = [[]] := by decide +kernel
  have t1 : trimSpace b!"g1" = b!"g1" := by decide
  unfold Spec.IsGroup
  rw [h1, h2]
  constructor
  · rintro ⟨hg, p, hp, rfl⟩
    simp only [List.mem_cons, List.not_mem_nil, or_false] at hp
    rcases hp with rfl | rfl
    · exact t1
    · exact absurd rfl hg
  · rintro rfl
    exact ⟨by decide, b!"g1", by simp, t1⟩

theorem services : Spec.MeshServices env b!"zk" [hello, bye] := by
  refine ⟨?_, by decide +kernel, ?_⟩
  · intro u hu
    simp only [List.mem_cons, List.not_mem_nil, or_false] at hu
    rcases hu with rfl | rfl
    · exact ⟨fun m hm => by cases hm; decide, by decide, by decide, by decide, fun g _ => by simp [env]⟩
    · exact ⟨(fun m hm => by cases hm), by decide, by decide, by decide, fun g _ => by simp [env]⟩
  · intro u hu v hv huv g g' hg hg'
    simp only [List.mem_cons, List.not_mem_nil, or_false] at hu hv
    rcases hu with rfl | rfl <;> rcases hv with rfl | rfl
    · exact absurd rfl huv
    · rw [hello_groups] at hg
      rw [bye_groups] at hg'
      subst hg'
      rcases hg with rfl | rfl <;> decide +kernel
    · rw [bye_groups] at hg
      rw [hello_groups] at hg'
      subst hg
      rcases hg' with rfl | rfl <;> decide +kernel
    · exact absurd rfl huv

/-- Lost requests and answers, an `UnRegister` that does not reach the agent and one that does. -/
def history : List Op :=
  [.register hello [.refused, .unheard, .heard], .subscribe bye [.unheard, .heard], .register bye [.heard],
    .unregister bye .refused, .register hello [], .unregister hello .heard, .register hello [.heard], .unregister bye .heard]

theorem history_calm : ∀ o ∈ history, Spec.Calm [hello, bye] o := by
  intro o ho
  simp only [history, List.mem_cons, List.not_mem_nil, or_false] at ho
  rcases ho with rfl | rfl | rfl | rfl | rfl | rfl | rfl | rfl <;> simp [Spec.Calm]

theorem history_plays : (play env (Spec.meshFresh {} 9981 proxy) history).isSome = true := by decide +kernel

/-- The hypotheses of `mesh_registered` and `mesh_subscribed` hold of it. -/
example : ∃ s, play env (Spec.meshFresh {} 9981 proxy) history = some s ∧
    (∀ u, u ∈ registeredServices s ↔ u ∈ [hello, bye] ∧ Spec.wanted (idOf u) false history = true) ∧
    (AMap.load s.mesh.regNodes b!"motan2://10.0.0.5:9982/a.Hello?group=g2&registry=zk").isSome = true ∧
    (AMap.load s.mesh.regNodes b!"motan2://10.0.0.5:9982/a.Bye?group=g1&registry=zk").isSome = false ∧
    (AMap.load s.mesh.subNodes (Spec.meshSub bye b!"g1")).isSome = true := by
  obtain ⟨s, hs⟩ := Option.isSome_iff_exists.mp history_plays
  obtain ⟨h1, h2⟩ := mesh_registered knows services {} 9981 history history_calm hs
  refine ⟨s, hs, h1, (h2 _).mpr ⟨hello, by simp, by decide +kernel, b!"g2", hello_groups.mpr (.inr rfl), by decide +kernel⟩, ?_,
    mesh_subscribed knows services {} 9981 history history_calm hs (u := bye) (es := [.unheard, .heard]) (by simp [history])
      (bye_groups.mpr rfl)⟩
  rw [← Bool.not_eq_true, h2]
  rintro ⟨u, hu, hw, g, hg, hk⟩
  simp only [List.mem_cons, List.not_mem_nil, or_false] at hu
  rcases hu with rfl | rfl
  · rw [hello_groups] at hg
    rcases hg with rfl | rfl <;> exact absurd hk (by decide +kernel)
  · exact absurd hw (by decide +kernel)

example : Spec.wanted (idOf hello) false history = true ∧ Spec.wanted (idOf bye) false history = false := by decide +kernel

/-- A registry the agent does not know. -/
example : ∃ s', register env (Spec.meshFresh {} 9981 b!"zookeeper://10.0.0.7:2181") hello [.unheard, .heard] = some s' ∧
    s' = Spec.meshFresh {} 9981 b!"zookeeper://10.0.0.7:2181" := by
  obtain ⟨s', hs⟩ := Option.isSome_iff_exists.mp
    (show (register env (Spec.meshFresh {} 9981 b!"zookeeper://10.0.0.7:2181") hello [.unheard, .heard]).isSome = true by decide +kernel)
  exact ⟨s', hs, mesh_unknown (by decide) (services.each hello (by simp)) ⟨b!"g1", hello_groups.mpr (.inl rfl)⟩ (by decide +kernel) _ hs⟩

/-- The second answer is lost, the third garbled. -/
example : ∃ c, setUp { params := some [(b!"proxyRegistry", proxy)] } (.port 9981) .silent .garbled = some c ∧
    c.proxyRegistry = proxy ∧ c.registered = [] ∧ c.subscribed = [] ∧
    (discover c hello).map Spec.view = [{ Spec.view hello with host := b!"localhost", port := 9981 }] :=
  mesh_discover { params := some [(b!"proxyRegistry", proxy)] } _ _ _ proxy rfl (by decide) rfl hello (by unfold Spec.Proper; decide)

end Mesh

/-! ## What does not hold -/

/-- **C74 fails** if the answer to an `UnRegister` is lost: the agent has removed the service, the process has it
recorded, and registering it again does nothing. -/
theorem mesh_unheard_violated : ∃ (E : Dynamic.Env) (id proxy : Bytes) (u : URL) (g : Bytes) (s : Sys),
    Spec.MeshKnows E proxy id ∧ Spec.MeshServices E id [u] ∧ Spec.IsGroup E u g ∧
      play E (Spec.meshFresh {} 9981 proxy) [.register u [.heard], .unregister u .unheard, .register u [.heard]] = some s ∧
      (registeredServices s).map idOf = [idOf u] ∧ (AMap.load s.mesh.regNodes (Spec.meshKey E id u g)).isSome = false := by
  obtain ⟨s, hs⟩ := Option.isSome_iff_exists.mp
    (show (play Mesh.env (Spec.meshFresh {} 9981 Mesh.proxy)
      [.register Mesh.hello [.heard], .unregister Mesh.hello .unheard, .register Mesh.hello [.heard]]).isSome = true by decide +kernel)
  have h := show ((play Mesh.env (Spec.meshFresh {} 9981 Mesh.proxy)
      [.register Mesh.hello [.heard], .unregister Mesh.hello .unheard, .register Mesh.hello [.heard]]).map fun s =>
        ((registeredServices s).map idOf, (AMap.load s.mesh.regNodes (Spec.meshKey Mesh.env b!"zk" Mesh.hello b!"g1")).isSome)) =
      some ([idOf Mesh.hello], false) by decide +kernel
  rw [hs] at h
  have h := Option.some.inj h
  exact ⟨Mesh.env, b!"zk", Mesh.proxy, Mesh.hello, b!"g1", s, Mesh.knows,
    ⟨fun u hu => Mesh.services.each u (by simp_all), fun u hu v hv _ => by simp_all, fun u hu v hv h => absurd (by simp_all) h⟩,
    Mesh.hello_groups.mpr (.inl rfl), hs, congrArg Prod.fst h, congrArg Prod.snd h⟩

/-- **C74 fails** if the agent restarts without its records: the process goes on as if its services were registered, and
registering them again does nothing. -/
theorem mesh_restart_violated : ∃ (E : Dynamic.Env) (id proxy : Bytes) (u : URL) (g : Bytes),
    Spec.MeshKnows E proxy id ∧ Spec.MeshService E u ∧ Spec.IsGroup E u g ∧
      (play E (Spec.meshFresh {} 9981 proxy) [.register u [.heard], .restart, .register u [.heard]]).map (fun s =>
        ((registeredServices s).map idOf, (AMap.load s.mesh.regNodes (Spec.meshKey E id u g)).isSome)) = some ([idOf u], false) :=
  ⟨Mesh.env, b!"zk", Mesh.proxy, Mesh.hello, b!"g1", Mesh.knows, Mesh.services.each _ (by simp),
    Mesh.hello_groups.mpr (.inl rfl), by decide +kernel⟩

/-- **C74 fails** for two servers of one service in one process: they are one node for the agent, so when one of them is
unregistered the other one is gone too. -/
theorem mesh_shared_violated : ∃ (E : Dynamic.Env) (id proxy : Bytes) (u v : URL) (g : Bytes),
    Spec.MeshKnows E proxy id ∧ v = { u with port := 8002 } ∧ u.port = 8001 ∧
      (play E (Spec.meshFresh {} 9981 proxy) [.register u [.heard], .register v [.heard], .unregister u .heard]).map (fun s =>
        ((registeredServices s).map idOf, (AMap.load s.mesh.regNodes (Spec.meshKey E id v g)).isSome)) = some ([idOf v], false) :=
  ⟨Mesh.env, b!"zk", Mesh.proxy, Mesh.hello, { Mesh.hello with port := 8002 }, b!"g1", Mesh.knows, rfl, rfl, by decide +kernel⟩

/-- **C74 fails** if the agent does not tell its port in the three tries at the start: every service is looked for at
port 0 from then on. -/
theorem mesh_no_port_violated : ∃ (url : URL) (c : Client),
    setUp url .silent .silent .silent = some c ∧ ∀ u, (discover c u).map (·.port) = [0] :=
  ⟨{ params := some [(b!"proxyRegistry", b!"zookeeper://h:1")] }, _, rfl, fun _ => rfl⟩

end Motan.Props
