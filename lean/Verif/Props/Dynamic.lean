import Verif.Model.Dynamic
import Verif.Props.Url
import Verif.Props.Command
import Verif.Props.Server

/-!
# C41, C42: dynamic registration and the serving status across restarts
-/

namespace Motan.Props

open Motan Motan.Strings Motan.Url
open Motan.Dynamic (Env act acts Act Req Pc Snap Disk Listing Sys Kind hasSuffix doRegister doUnregister doSubscribe
  addRegSuffix exportService doExportService exportParams unexportService subscribeService initCluster suffixed redo
  hasPlaceholder)

/-! ## Specification -/

/-- The key of a registration: the URL's identity and its registry. -/
def Spec.regKey (u : URL) : Bytes := Spec.identity u ++ b!"&registry=" ++ (u.param b!"registry").getD []

/-- The URL with this suffix at the end of its group. -/
def Spec.withSuffix (sfx : Bytes) (u : URL) : URL :=
  if sfx <:+ u.group then u else { u with group := u.group ++ sfx }

/-- The parameters the agent writes itself when it exports a service. -/
def Spec.exportParam (E : Env) (k : Bytes) : Prop := k = b!"nodeType" ∨ k ∈ E.metas.map (·.1)

/-- Two URLs are the same node: the same fields and, but for the given parameters, the same parameters. -/
structure Spec.SameNode (ignore : Bytes → Prop) (u v : URL) : Prop where
  protocol : u.protocol = v.protocol
  host : u.host = v.host
  port : u.port = v.port
  path : u.path = v.path
  group : u.group = v.group
  params : ∀ k, ¬ ignore k → u.param k = v.param k

/-- Both absent, or both present and related. -/
def Spec.Both (R : URL → URL → Prop) : Option URL → Option URL → Prop
  | none, none => True
  | some u, some v => R u v
  | _, _ => False

/-- The same registered and the same subscribed nodes. -/
structure Spec.SameTables (E : Env) (s t : Dynamic.St) : Prop where
  register : ∀ k, Spec.Both (Spec.SameNode (Spec.exportParam E)) (AMap.load s.regNodes k) (AMap.load t.regNodes k)
  subscribe : ∀ k, Spec.Both (Spec.SameNode fun _ => False) (AMap.load s.subNodes k) (AMap.load t.subNodes k)

/-- A URL as the HTTP handler hands it to the configurer: nothing cached and every parameter once. -/
structure Spec.Built (u : URL) : Prop where
  fresh : Spec.Fresh u
  nodup : ∀ m, u.params = some m → m.NodupKeys

/-- Requests with URLs as the handler builds them; subscribed groups without a placeholder. -/
def Spec.GoodReq : Req → Prop
  | .register u => Spec.Built u
  | .unregister u => Spec.Built u
  | .subscribe u => Spec.Built u ∧ (36 : UInt8) ∉ u.group

/-- The environment's own settings do not disturb identities. -/
structure Spec.GoodEnv (E : Env) : Prop where
  registry : b!"registry" ∉ E.metas.map (·.1)
  address : b!"address" ∉ E.metas.map (·.1)
  suffix : (36 : UInt8) ∉ E.subSuffix

/-! ## URLs -/

theorem Spec.SameNode.refl (ig : Bytes → Prop) (u : URL) : Spec.SameNode ig u u :=
  ⟨rfl, rfl, rfl, rfl, rfl, fun _ _ => rfl⟩

theorem Spec.SameNode.symm {ig : Bytes → Prop} {u v : URL} (h : Spec.SameNode ig u v) : Spec.SameNode ig v u :=
  ⟨h.protocol.symm, h.host.symm, h.port.symm, h.path.symm, h.group.symm, fun k hk => (h.params k hk).symm⟩

theorem Spec.SameNode.trans {ig : Bytes → Prop} {u v w : URL} (h : Spec.SameNode ig u v)
    (h' : Spec.SameNode ig v w) : Spec.SameNode ig u w :=
  ⟨h.protocol.trans h'.protocol, h.host.trans h'.host, h.port.trans h'.port, h.path.trans h'.path,
    h.group.trans h'.group, fun k hk => (h.params k hk).trans (h'.params k hk)⟩

theorem Spec.SameNode.weaken {ig : Bytes → Prop} {u v : URL} (h : Spec.SameNode (fun _ => False) u v) :
    Spec.SameNode ig u v :=
  ⟨h.protocol, h.host, h.port, h.path, h.group, fun k _ => h.params k (fun h => h)⟩

theorem Spec.SameNode.identity {ig : Bytes → Prop} (hig : ¬ ig b!"address") {u v : URL} (h : Spec.SameNode ig u v) :
    Spec.identity u = Spec.identity v := by
  simp only [Spec.identity, h.protocol, h.host, h.port, h.path, h.group, h.params _ hig]

theorem Spec.SameNode.regKey {ig : Bytes → Prop} (h1 : ¬ ig b!"address") (h2 : ¬ ig b!"registry") {u v : URL}
    (h : Spec.SameNode ig u v) : Spec.regKey u = Spec.regKey v := by
  rw [Spec.regKey, Spec.regKey, h.identity h1, h.params _ h2]

theorem exportParam_address {E : Env} (hE : Spec.GoodEnv E) : ¬ Spec.exportParam E b!"address" := by
  rintro (h | h)
  · revert h; decide
  · exact hE.address h

theorem exportParam_registry {E : Env} (hE : Spec.GoodEnv E) : ¬ Spec.exportParam E b!"registry" := by
  rintro (h | h)
  · revert h; decide
  · exact hE.registry h

theorem sameFields_node {u v : URL} (h : SameFields u v) (ig : Bytes → Prop) : Spec.SameNode ig u v :=
  ⟨h.protocol, h.host, h.port, h.path, h.group, fun k _ => h.param k⟩

theorem copy_param (u : URL) (h : ∀ m, u.params = some m → m.NodupKeys) (k : Bytes) : (copy u).param k = u.param k := by
  show AMap.load (AMap.storeAll [] (u.params.getD [])) k = _
  rw [URL.param]
  cases hp : u.params with
  | none => rfl
  | some m =>
    show AMap.load (AMap.storeAll [] m) k = AMap.load m k
    rw [AMap.load_storeAll _ _ (h m hp)]
    cases AMap.load m k <;> rfl

theorem copy_fresh (u : URL) : Spec.Fresh (copy u) := ⟨rfl, rfl, rfl, rfl, rfl⟩

theorem copy_built (u : URL) : Spec.Built (copy u) := by
  refine ⟨copy_fresh u, fun m hm => ?_⟩
  cases hm
  exact AMap.nodupKeys_storeAll AMap.nodupKeys_nil _

theorem copy_same (u : URL) (h : ∀ m, u.params = some m → m.NodupKeys) (ig : Bytes → Prop) :
    Spec.SameNode ig (copy u) u := ⟨rfl, rfl, rfl, rfl, rfl, fun k _ => copy_param u h k⟩

/-- The identity of a URL with nothing cached, and the cache it leaves. -/
theorem getIdentity_fresh {u : URL} (h : Spec.Fresh u) :
    ∃ u', getIdentity u = (Spec.identity u, u') ∧ SameFields u' u ∧ u'.identityC = some (Spec.identity u) := by
  obtain ⟨h1, h2, _⟩ := getIdentity_fill (coherent_fresh h) h.2.2.1
  refine ⟨(getIdentity u).2, Prod.ext h1 rfl, h2, ?_⟩
  rw [← h1, getIdentity, h.2.2.1]

theorem getIdentity_cached {u : URL} {i : Bytes} (h : u.identityC = some i) : getIdentity u = (i, u) := by
  rw [getIdentity, h]

theorem getIdReg_fresh {u : URL} (h : Spec.Fresh u) :
    ∃ u', getIdentityWithRegistry u = (Spec.regKey u, u') ∧ SameFields u' u ∧ u'.identityC = some (Spec.identity u) := by
  obtain ⟨u', h1, h2, h3⟩ := getIdentity_fresh h
  refine ⟨u', ?_, h2, h3⟩
  rw [getIdentityWithRegistry, h1]
  simp only [getParam_empty, h2.param, Spec.regKey]

theorem getIdReg_cached {u : URL} {i : Bytes} (h : u.identityC = some i) :
    getIdentityWithRegistry u = (i ++ b!"&registry=" ++ (u.param b!"registry").getD [], u) := by
  rw [getIdentityWithRegistry, getIdentity_cached h]
  simp only [getParam_empty]

/-! ## One change -/

theorem foldl_putParam (ps : List (Bytes × Bytes)) (u : URL) :
    Spec.SameNode (fun k => k ∈ ps.map (·.1)) (ps.foldl (fun u p => putParam u p.1 p.2) u) u ∧
    (ps.foldl (fun u p => putParam u p.1 p.2) u).identityC = u.identityC ∧
    ((∀ m, u.params = some m → m.NodupKeys) →
      ∀ m, (ps.foldl (fun u p => putParam u p.1 p.2) u).params = some m → m.NodupKeys) := by
  induction ps generalizing u with
  | nil => exact ⟨Spec.SameNode.refl _ u, rfl, fun h => h⟩
  | cons p ps ih =>
    obtain ⟨h1, h2, h3⟩ := ih (putParam u p.1 p.2)
    refine ⟨⟨h1.protocol, h1.host, h1.port, h1.path, h1.group, fun k hk => ?_⟩, h2, fun h => h3 fun m hm => ?_⟩
    · rw [List.map_cons, List.mem_cons] at hk
      refine (h1.params k fun h => hk (.inr h)).trans ?_
      rw [putParam_param, if_neg (fun e => hk (.inl e.symm))]
    · cases hm
      cases hp : u.params with
      | none => exact AMap.nodupKeys_store AMap.nodupKeys_nil _ _
      | some m => exact AMap.nodupKeys_store (h m hp) _ _

theorem exportParams_spec (E : Env) (u : URL) :
    Spec.SameNode (Spec.exportParam E) (exportParams E u) u ∧ (exportParams E u).identityC = u.identityC ∧
    ((∀ m, u.params = some m → m.NodupKeys) → ∀ m, (exportParams E u).params = some m → m.NodupKeys) := by
  obtain ⟨h1, h2, h3⟩ := foldl_putParam (E.metas ++ [(b!"nodeType", b!"service")]) u
  rw [List.foldl_append] at h1 h2 h3
  refine ⟨⟨h1.protocol, h1.host, h1.port, h1.path, h1.group, fun k hk => h1.params k fun h => hk ?_⟩, h2, h3⟩
  rw [List.map_append, List.mem_append] at h
  rcases h with h | h
  · exact .inr h
  · exact .inl (by simpa using h)

theorem addRegSuffix_eq (E : Env) (u : URL) : addRegSuffix E u = Spec.withSuffix E.regSuffix u := by
  rw [addRegSuffix, Spec.withSuffix, hasSuffix]
  by_cases h : E.regSuffix <:+ u.group
  · rw [if_pos h, if_neg]
    rintro ⟨_, h'⟩
    exact h' (List.isSuffixOf_iff_suffix.mpr h)
  · rw [if_neg h, if_pos]
    refine ⟨fun e => h ?_, fun h' => h (List.isSuffixOf_iff_suffix.mp h')⟩
    rw [e]; exact List.nil_suffix

theorem withSuffix_built {u : URL} (h : Spec.Built u) (x : Bytes) : Spec.Built (Spec.withSuffix x u) := by
  rw [Spec.withSuffix]
  split
  · exact h
  · exact ⟨h.fresh, h.nodup⟩

theorem withSuffix_suffix (x : Bytes) (u : URL) : x <:+ (Spec.withSuffix x u).group := by
  rw [Spec.withSuffix]
  split
  · assumption
  · exact List.suffix_append _ _

theorem withSuffix_of {x : Bytes} {u : URL} (h : x <:+ u.group) : Spec.withSuffix x u = u := by
  rw [Spec.withSuffix, if_pos h]

/-- What `doRegister` does to the tables. -/
theorem doRegister_spec {E : Env} (hE : Spec.GoodEnv E) (s : Dynamic.St) {u : URL} (hu : Spec.Built u) :
    let w := Spec.withSuffix E.regSuffix u
    (doRegister E s u).subNodes = s.subNodes ∧ (doRegister E s u).clusters = s.clusters ∧
    if (AMap.load s.regNodes (Spec.regKey w)).isSome ∨ Spec.identity w ∈ E.services then doRegister E s u = s
    else ∃ v, Spec.SameNode (Spec.exportParam E) v w ∧ (∀ m, v.params = some m → m.NodupKeys) ∧
      (doRegister E s u).regNodes = AMap.store s.regNodes (Spec.regKey w) v ∧
      (doRegister E s u).exporters =
        if (AMap.load s.exporters (Spec.regKey w)).isSome ∨ E.exportable (Spec.regKey w) = false then s.exporters
        else AMap.store s.exporters (Spec.regKey w) v := by
  intro w
  have hw : Spec.Built w := withSuffix_built hu _
  obtain ⟨w1, g1, g2, g3⟩ := getIdReg_fresh hw.fresh
  have hn1 : ∀ m, w1.params = some m → m.NodupKeys := fun m hm => hw.nodup m (by rw [← hm, g2.params])
  have gc : getIdentityWithRegistry w1 = (Spec.regKey w, w1) := by
    rw [getIdReg_cached g3, g2.param, Spec.regKey]
  by_cases hc : (AMap.load s.regNodes (Spec.regKey w)).isSome ∨ Spec.identity w ∈ E.services
  · have : doRegister E s u = s := by
      rw [doRegister, addRegSuffix_eq, g1]
      simp only
      split
      · rfl
      · rename_i h
        rw [exportService, getIdentity_cached g3]
        simp only
        rw [if_pos (hc.resolve_left h)]
    rw [if_pos hc, this]
    exact ⟨rfl, rfl, rfl⟩
  · have hc1 : ¬ (AMap.load s.regNodes (Spec.regKey w)).isSome := fun h => hc (.inl h)
    have hc2 : Spec.identity w ∉ E.services := fun h => hc (.inr h)
    rw [if_neg hc]
    have hd : doRegister E s u =
        { s with
          exporters := (doExportService E s.exporters w1).1
          regNodes := AMap.store s.regNodes (getIdentityWithRegistry (doExportService E s.exporters w1).2).1
            (doExportService E s.exporters w1).2 } := by
      rw [doRegister, addRegSuffix_eq, g1]
      simp only
      rw [if_neg hc1, exportService, getIdentity_cached g3]
      simp only
      rw [if_neg hc2]
    by_cases hx : (AMap.load s.exporters (Spec.regKey w)).isSome ∨ E.exportable (Spec.regKey w) = false
    · have hde : doExportService E s.exporters w1 = (s.exporters, w1) := by
        rw [doExportService, gc]
        simp only
        split
        · rfl
        · rename_i h
          rw [if_neg (by rw [hx.resolve_left h]; simp)]
      rw [hd, hde]
      refine ⟨rfl, rfl, w1, sameFields_node g2 _, hn1, ?_, ?_⟩
      · rw [gc]
      · rw [if_pos hx]
    · have hde : doExportService E s.exporters w1 =
          (AMap.store s.exporters (Spec.regKey w) (exportParams E w1), exportParams E w1) := by
        rw [doExportService, gc]
        simp only
        rw [if_neg (fun h => hx (.inl h)), if_pos]
        cases hb : E.exportable (Spec.regKey w)
        · exact absurd (.inr hb) hx
        · rfl
      obtain ⟨p1, p2, p3⟩ := exportParams_spec E w1
      rw [hd, hde]
      refine ⟨rfl, rfl, exportParams E w1, p1.trans (sameFields_node g2 _), p3 hn1, ?_, ?_⟩
      · rw [getIdReg_cached (p2.trans g3), p1.params _ (exportParam_registry hE), g2.param, ← Spec.regKey]
      · rw [if_neg hx]

/-- What `doUnregister` does to the tables. -/
theorem doUnregister_spec (E : Env) (s : Dynamic.St) {u : URL} (hu : Spec.Fresh u) :
    (doUnregister E s u).subNodes = s.subNodes ∧ (doUnregister E s u).clusters = s.clusters ∧
    (if (AMap.load s.regNodes (Spec.regKey u)).isSome then
      (doUnregister E s u).regNodes = AMap.erase s.regNodes (Spec.regKey u) ∧
      (doUnregister E s u).exporters =
        if Spec.identity u ∈ E.services then s.exporters else AMap.erase s.exporters (Spec.identity u)
    else doUnregister E s u = s) := by
  obtain ⟨u1, g1, g2, g3⟩ := getIdReg_fresh hu
  have gc : getIdentityWithRegistry u1 = (Spec.regKey u, u1) := by
    rw [getIdReg_cached g3, g2.param, Spec.regKey]
  have h0 : doUnregister E s u = if (AMap.load s.regNodes (Spec.regKey u)).isSome then
      { s with
        exporters := (unexportService E s.exporters u1).1
        regNodes := AMap.erase s.regNodes (getIdentityWithRegistry (unexportService E s.exporters u1).2).1 } else s := by
    rw [doUnregister, g1]
  have hx : unexportService E s.exporters u1 =
      (if Spec.identity u ∈ E.services then s.exporters else AMap.erase s.exporters (Spec.identity u), u1) := by
    rw [unexportService, getIdentity_cached g3]
    simp only
    split <;> rfl
  rw [hx, gc] at h0
  rw [h0]
  split
  · exact ⟨rfl, rfl, rfl, rfl⟩
  · exact ⟨rfl, rfl, rfl⟩

/-- A subscription whose application is as the agent would leave it. -/
def Settled (E : Env) (u : URL) : Prop :=
  ∃ a, u.param b!"application" = some a ∧ (a = [] → E.application = [])

theorem noPlaceholder {g : Bytes} (h : (36 : UInt8) ∉ g) : hasPlaceholder g = false := by
  rw [hasPlaceholder, Strings.contains]
  show (index (36 :: _) g).isSome = false
  rw [index_none_of_not_mem h]
  rfl

theorem initCluster_spec (E : Env) {u : URL} (hg : (36 : UInt8) ∉ u.group) :
    Spec.SameNode (fun k => k = b!"application") (initCluster E u) u ∧ Settled E (initCluster E u) ∧
    (Settled E u → Spec.SameNode (fun _ => False) (initCluster E u) u) ∧
    ((∀ m, u.params = some m → m.NodupKeys) → ∀ m, (initCluster E u).params = some m → m.NodupKeys) ∧
    Spec.Fresh (initCluster E u) := by
  have hne : ∀ k, k ≠ b!"application" → (initCluster E u).param k = u.param k := by
    intro k hk
    rw [initCluster]
    show URL.param (if (u.param b!"application").getD [] = [] then _ else u) k = _
    split
    · show AMap.load (AMap.store _ _ _) k = _
      rw [AMap.load_store, if_neg hk.symm, URL.param]
      cases u.params <;> rfl
    · rfl
  have happ : (initCluster E u).param b!"application" =
      if (u.param b!"application").getD [] = [] then some E.application else u.param b!"application" := by
    rw [initCluster]
    show URL.param (if (u.param b!"application").getD [] = [] then _ else u) b!"application" = _
    split
    · show AMap.load (AMap.store _ _ _) _ = _
      rw [AMap.load_store_self]
    · rfl
  have hf : (initCluster E u).protocol = u.protocol ∧ (initCluster E u).host = u.host ∧
      (initCluster E u).port = u.port ∧ (initCluster E u).path = u.path ∧ (initCluster E u).group = u.group := by
    rw [initCluster]
    split
    all_goals exact ⟨rfl, rfl, rfl, rfl, by
      show (if hasPlaceholder u.group then _ else u.group) = u.group
      rw [noPlaceholder hg]; rfl⟩
  refine ⟨⟨hf.1, hf.2.1, hf.2.2.1, hf.2.2.2.1, hf.2.2.2.2, hne⟩, ?_, ?_, ?_, ⟨rfl, rfl, rfl, rfl, rfl⟩⟩
  · rw [Settled, happ]
    split
    · exact ⟨_, rfl, fun h => h⟩
    · rename_i h
      cases ha : u.param b!"application" with
      | none => rw [ha] at h; exact absurd rfl h
      | some a => rw [ha] at h; exact ⟨a, rfl, fun e => absurd e h⟩
  · rintro ⟨a, ha, hs⟩
    refine ⟨hf.1, hf.2.1, hf.2.2.1, hf.2.2.2.1, hf.2.2.2.2, fun k _ => ?_⟩
    by_cases hk : k = b!"application"
    · rw [hk, happ, ha]
      split
      · rename_i h
        have : a = [] := h
        rw [this, hs this]
      · rfl
    · exact hne k hk
  · intro hn m hm
    rw [initCluster] at hm
    replace hm : (if (u.param b!"application").getD [] = [] then
      { u with params := some (AMap.store (u.params.getD []) b!"application" E.application) } else u).params = some m := hm
    split at hm
    · cases hm
      cases hp : u.params with
      | none => exact AMap.nodupKeys_store AMap.nodupKeys_nil _ _
      | some m => exact AMap.nodupKeys_store (hn m hp) _ _
    · exact hn m hm

/-- What `doSubscribe` does to the tables. -/
theorem doSubscribe_spec (E : Env) (s : Dynamic.St) {u : URL} (hu : Spec.Built u) (hg : (36 : UInt8) ∉ u.group) :
    (doSubscribe E s u).1.regNodes = s.regNodes ∧ (doSubscribe E s u).1.exporters = s.exporters ∧
    (doSubscribe E s u).2.group = u.group ∧
    Spec.SameNode (fun k => k = b!"application") (doSubscribe E s u).2 u ∧
    (∀ m, (doSubscribe E s u).2.params = some m → m.NodupKeys) ∧
    (if (AMap.load s.subNodes (Spec.identity u)).isSome then (doSubscribe E s u).1 = s
    else ∃ v, Spec.SameNode (fun k => k = b!"application") v u ∧ (∀ m, v.params = some m → m.NodupKeys) ∧
      (Spec.identity u ∉ E.refers → Settled E v) ∧
      (Spec.identity u ∈ E.refers ∨ Settled E u → Spec.SameNode (fun _ => False) v u) ∧
      (doSubscribe E s u).1.subNodes = AMap.store s.subNodes (Spec.identity u) v ∧
      (doSubscribe E s u).1.clusters = if Spec.identity u ∈ E.refers then s.clusters else s.clusters ++ [v]) := by
  obtain ⟨u1, g1, g2, g3⟩ := getIdentity_fresh hu.fresh
  have hn1 : ∀ m, u1.params = some m → m.NodupKeys := fun m hm => hu.nodup m (by rw [← hm, g2.params])
  have hd : doSubscribe E s u = if (AMap.load s.subNodes (Spec.identity u)).isSome then (s, u1)
      else if Spec.identity u ∈ E.refers then ({ s with subNodes := AMap.store s.subNodes (Spec.identity u) u1 }, u1)
      else ({ s with
        subNodes := AMap.store s.subNodes (Spec.identity u) (initCluster E u1)
        clusters := s.clusters ++ [initCluster E u1] }, initCluster E u1) := by
    rw [doSubscribe, g1]
    simp only
    split
    · rfl
    · rw [subscribeService, getIdentity_cached g3]
      by_cases h : Spec.identity u ∈ E.refers
      · simp only [if_pos h]
      · simp only [if_neg h]
  rw [hd]
  split
  · exact ⟨rfl, rfl, g2.group, sameFields_node g2 _, hn1, rfl⟩
  · split
    · rename_i h
      refine ⟨rfl, rfl, g2.group, sameFields_node g2 _, hn1, u1, sameFields_node g2 _, hn1, fun h' => absurd h h',
        fun _ => sameFields_node g2 _, rfl, rfl⟩
    · rename_i h
      obtain ⟨p1, p2, p3, p4, _⟩ := initCluster_spec E (u := u1) (by rw [g2.group]; exact hg)
      refine ⟨rfl, rfl, p1.group.trans g2.group, p1.trans (sameFields_node g2 _), p4 hn1, initCluster E u1,
        p1.trans (sameFields_node g2 _), p4 hn1, fun _ => p2, fun h' => ?_, rfl, rfl⟩
      obtain ⟨a, ha, hs⟩ := h'.resolve_left h
      exact (p3 ⟨a, by rw [g2.param]; exact ha, hs⟩).trans (sameFields_node g2 _)

/-! ## Tables that only good requests made -/

/-- Every node is stored under its own key. -/
structure Tidy (E : Env) (s : Dynamic.St) : Prop where
  regNodup : s.regNodes.NodupKeys
  reg : ∀ k u, AMap.load s.regNodes k = some u → k = Spec.regKey u ∧ E.regSuffix <:+ u.group ∧
    Spec.identity u ∉ E.services ∧ ∀ m, u.params = some m → m.NodupKeys
  subNodup : s.subNodes.NodupKeys
  sub : ∀ k u, AMap.load s.subNodes k = some u → k = Spec.identity u ∧ (36 : UInt8) ∉ u.group ∧
    (Spec.identity u ∉ E.refers → Settled E u) ∧ ∀ m, u.params = some m → m.NodupKeys

/-- Changes with URLs as the handler builds them. -/
def GoodAct : Act → Prop
  | .register u => Spec.Built u
  | .unregister u => Spec.Built u
  | .subscribe u => Spec.Built u ∧ (36 : UInt8) ∉ u.group

theorem application_address : (b!"address" : Bytes) ≠ b!"application" := by decide

theorem tidy_empty (E : Env) (s : Dynamic.St) : Tidy E { s with regNodes := [], subNodes := [] } :=
  ⟨AMap.nodupKeys_nil, (fun _ _ h => by cases h), AMap.nodupKeys_nil, (fun _ _ h => by cases h)⟩

theorem tidy_act {E : Env} (hE : Spec.GoodEnv E) {s : Dynamic.St} (h : Tidy E s) {a : Act} (ha : GoodAct a) :
    Tidy E (act E s a) := by
  cases a with
  | register u =>
    obtain ⟨h1, _, h3⟩ := doRegister_spec hE s ha
    show Tidy E (doRegister E s u)
    split at h3
    · rw [h3]; exact h
    · rename_i hc
      obtain ⟨v, v1, v2, v3, _⟩ := h3
      refine ⟨?_, fun k w hl => ?_, ?_, fun k w hl => ?_⟩
      · rw [v3]; exact AMap.nodupKeys_store h.regNodup _ _
      · rw [v3, AMap.load_store] at hl
        split at hl
        · rename_i e
          cases hl
          refine ⟨e ▸ (v1.regKey (exportParam_address hE) (exportParam_registry hE)).symm, ?_, ?_, v2⟩
          · rw [v1.group]; exact withSuffix_suffix _ _
          · rw [v1.identity (exportParam_address hE)]
            exact fun h => hc (.inr h)
        · exact h.reg k w hl
      · rw [h1]; exact h.subNodup
      · rw [h1] at hl; exact h.sub k w hl
  | unregister u =>
    obtain ⟨h1, _, h3⟩ := doUnregister_spec E s ha.fresh
    show Tidy E (doUnregister E s u)
    split at h3
    · refine ⟨?_, fun k w hl => ?_, ?_, fun k w hl => ?_⟩
      · rw [h3.1]; exact AMap.nodupKeys_erase h.regNodup _
      · rw [h3.1, AMap.load_erase] at hl
        split at hl
        · cases hl
        · exact h.reg k w hl
      · rw [h1]; exact h.subNodup
      · rw [h1] at hl; exact h.sub k w hl
    · rw [h3]; exact h
  | subscribe u =>
    obtain ⟨h1, _, _, _, _, h3⟩ := doSubscribe_spec E s ha.1 ha.2
    show Tidy E (doSubscribe E s u).1
    split at h3
    · rw [h3]; exact h
    · obtain ⟨v, v1, v2, v3, _, v4, _⟩ := h3
      refine ⟨?_, fun k w hl => ?_, ?_, fun k w hl => ?_⟩
      · rw [h1]; exact h.regNodup
      · rw [h1] at hl; exact h.reg k w hl
      · rw [v4]; exact AMap.nodupKeys_store h.subNodup _ _
      · rw [v4, AMap.load_store] at hl
        split at hl
        · rename_i e
          cases hl
          have hi := v1.identity application_address
          refine ⟨e ▸ hi.symm, by rw [v1.group]; exact ha.2, fun h => v3 (by rw [← hi]; exact h), v2⟩
        · exact h.sub k w hl

theorem tidy_acts {E : Env} (hE : Spec.GoodEnv E) {s : Dynamic.St} (h : Tidy E s) {as : List Act}
    (ha : ∀ a ∈ as, GoodAct a) : Tidy E (acts E s as) := by
  induction as generalizing s with
  | nil => exact h
  | cons a as ih =>
    exact ih (tidy_act hE h (ha a List.mem_cons_self)) fun b hb => ha b (List.mem_cons_of_mem _ hb)

/-! ## Recovery -/

theorem both_refl {R : URL → URL → Prop} (h : ∀ u, R u u) (o : Option URL) : Spec.Both R o o := by
  cases o with
  | none => trivial
  | some u => exact h u

/-- Redoing registrations: what is there stays, and the first node of each new key is added. -/
theorem redo_register {E : Env} (hE : Spec.GoodEnv E) (l : List URL) (s : Dynamic.St)
    (hl : ∀ u ∈ l, Spec.Built u ∧ E.regSuffix <:+ u.group ∧ Spec.identity u ∉ E.services) (k : Bytes) :
    Spec.Both (Spec.SameNode (Spec.exportParam E)) (AMap.load (l.foldl (doRegister E) s).regNodes k)
      ((AMap.load s.regNodes k).or (l.find? fun u => Spec.regKey u = k)) := by
  induction l generalizing s with
  | nil => rw [List.foldl_nil, List.find?_nil, Option.or_none]; exact both_refl (Spec.SameNode.refl _) _
  | cons u l ih =>
    rw [List.foldl_cons]
    obtain ⟨b1, b2, b3⟩ := hl u List.mem_cons_self
    obtain ⟨_, _, h3⟩ := doRegister_spec hE s b1
    rw [withSuffix_of b2] at h3
    have ih := ih (doRegister E s u) fun v hv => hl v (List.mem_cons_of_mem _ hv)
    split at h3
    · rename_i hc
      rw [h3] at ih ⊢
      have hs := hc.resolve_right b3
      rw [List.find?_cons]
      by_cases e : Spec.regKey u = k
      · rw [← e] at ih ⊢
        obtain ⟨w, hw⟩ := Option.isSome_iff_exists.mp hs
        rw [hw] at ih ⊢
        exact ih
      · simp only [e, decide_false]; exact ih
    · rename_i hc
      obtain ⟨v, v1, _, v3, _⟩ := h3
      rw [v3, AMap.load_store] at ih
      rw [List.find?_cons]
      by_cases e : Spec.regKey u = k
      · rw [if_pos e] at ih
        rw [← e] at ih ⊢
        have hn : AMap.load s.regNodes (Spec.regKey u) = none := by
          cases h : AMap.load s.regNodes (Spec.regKey u) with
          | none => rfl
          | some w => exact absurd (.inl (by rw [h]; rfl)) hc
        rw [hn]
        simp only [decide_true, Option.none_or]
        rw [Option.some_or] at ih
        cases hr : AMap.load (l.foldl (doRegister E) (doRegister E s u)).regNodes (Spec.regKey u) with
        | none => rw [hr] at ih; exact ih.elim
        | some w => rw [hr] at ih; exact Spec.SameNode.trans ih v1
      · simp only [e, decide_false]
        rw [if_neg e] at ih
        exact ih

/-- Redoing subscriptions. -/
theorem redo_subscribe (E : Env) (l : List URL) (s : Dynamic.St)
    (hl : ∀ u ∈ l, Spec.Built u ∧ (36 : UInt8) ∉ u.group ∧ (Spec.identity u ∉ E.refers → Settled E u)) (k : Bytes) :
    Spec.Both (Spec.SameNode fun _ => False) (AMap.load (l.foldl (fun s u => (doSubscribe E s u).1) s).subNodes k)
      ((AMap.load s.subNodes k).or (l.find? fun u => Spec.identity u = k)) := by
  induction l generalizing s with
  | nil => rw [List.foldl_nil, List.find?_nil, Option.or_none]; exact both_refl (Spec.SameNode.refl _) _
  | cons u l ih =>
    rw [List.foldl_cons]
    obtain ⟨b1, b2, b3⟩ := hl u List.mem_cons_self
    obtain ⟨_, _, _, _, _, h3⟩ := doSubscribe_spec E s b1 b2
    have ih := ih (doSubscribe E s u).1 fun v hv => hl v (List.mem_cons_of_mem _ hv)
    split at h3
    · rename_i hs
      rw [h3] at ih ⊢
      rw [List.find?_cons]
      by_cases e : Spec.identity u = k
      · rw [← e] at ih ⊢
        obtain ⟨w, hw⟩ := Option.isSome_iff_exists.mp hs
        rw [hw] at ih ⊢
        exact ih
      · simp only [e, decide_false]; exact ih
    · rename_i hc
      obtain ⟨v, _, _, _, v3, v4, _⟩ := h3
      have v1 := v3 (Decidable.or_iff_not_imp_left.mpr b3)
      rw [v4, AMap.load_store] at ih
      rw [List.find?_cons]
      by_cases e : Spec.identity u = k
      · rw [if_pos e] at ih
        rw [← e] at ih ⊢
        have hn : AMap.load s.subNodes (Spec.identity u) = none := by
          cases h : AMap.load s.subNodes (Spec.identity u) with
          | none => rfl
          | some w => exact absurd (by rw [h]; rfl) hc
        rw [hn]
        simp only [decide_true, Option.none_or]
        rw [Option.some_or] at ih
        cases hr : AMap.load (l.foldl (fun s u => (doSubscribe E s u).1) (doSubscribe E s u).1).subNodes
            (Spec.identity u) with
        | none => rw [hr] at ih; exact ih.elim
        | some w => rw [hr] at ih; exact Spec.SameNode.trans ih v1
      · simp only [e, decide_false]
        rw [if_neg e] at ih
        exact ih

/-- In a listing of copies of nodes stored under their own keys, a key finds its node. -/
theorem find_listing {m : AMap Bytes URL} {l : List URL} {key : URL → Bytes} (hm : m.NodupKeys)
    (hk : ∀ k u, AMap.load m k = some u → k = key (copy u)) (hp : l.Perm (m.map fun p => copy p.2)) (k : Bytes) :
    l.find? (fun u => key u = k) = (AMap.load m k).map copy := by
  cases hl : AMap.load m k with
  | none =>
    rw [Option.map_none, List.find?_eq_none]
    intro u hu
    rw [hp.mem_iff, List.mem_map] at hu
    obtain ⟨p, hp1, rfl⟩ := hu
    have := hk p.1 p.2 (AMap.load_of_mem hm hp1)
    intro e
    rw [decide_eq_true_eq, ← this] at e
    rw [← e, AMap.load_of_mem hm hp1] at hl
    cases hl
  | some u =>
    rw [Option.map_some]
    cases hf : l.find? (fun u => key u = k) with
    | none =>
      rw [List.find?_eq_none] at hf
      have hmem : copy u ∈ l := by
        rw [hp.mem_iff, List.mem_map]
        exact ⟨(k, u), AMap.mem_of_load hl, rfl⟩
      exact absurd (decide_eq_true (hk k u hl).symm) (hf _ hmem)
    | some w =>
      have hw : key w = k := by simpa using List.find?_some hf
      have hw' := List.mem_of_find?_eq_some hf
      rw [hp.mem_iff, List.mem_map] at hw'
      obtain ⟨p, hp1, rfl⟩ := hw'
      have h1 := AMap.load_of_mem hm hp1
      rw [hk _ _ h1] at h1
      rw [hw, hl] at h1
      cases h1
      rfl

theorem redo_keeps_sub (E : Env) (hE : Spec.GoodEnv E) (l : List URL) (s : Dynamic.St) (hl : ∀ u ∈ l, Spec.Built u) :
    (l.foldl (doRegister E) s).subNodes = s.subNodes ∧ (l.foldl (doRegister E) s).clusters = s.clusters := by
  induction l generalizing s with
  | nil => exact ⟨rfl, rfl⟩
  | cons u l ih =>
    obtain ⟨h1, h2, _⟩ := doRegister_spec hE s (hl u List.mem_cons_self)
    obtain ⟨i1, i2⟩ := ih (doRegister E s u) fun v hv => hl v (List.mem_cons_of_mem _ hv)
    exact ⟨i1.trans h1, i2.trans h2⟩

theorem redo_keeps_reg (E : Env) (l : List URL) (s : Dynamic.St)
    (hl : ∀ u ∈ l, Spec.Built u ∧ (36 : UInt8) ∉ u.group) :
    (l.foldl (fun s u => (doSubscribe E s u).1) s).regNodes = s.regNodes ∧
    (l.foldl (fun s u => (doSubscribe E s u).1) s).exporters = s.exporters := by
  induction l generalizing s with
  | nil => exact ⟨rfl, rfl⟩
  | cons u l ih =>
    obtain ⟨b1, b2⟩ := hl u List.mem_cons_self
    obtain ⟨h1, h2, _⟩ := doSubscribe_spec E s b1 b2
    obtain ⟨i1, i2⟩ := ih (doSubscribe E s u).1 fun v hv => hl v (List.mem_cons_of_mem _ hv)
    exact ⟨i1.trans h1, i2.trans h2⟩

theorem listing_reg {E : Env} {s : Dynamic.St} {sn : Snap} (h : Tidy E s) (hl : Listing sn s) :
    ∀ u ∈ sn.register, Spec.Built u ∧ E.regSuffix <:+ u.group ∧ Spec.identity u ∉ E.services := by
  intro u hu
  rw [hl.register.mem_iff, List.mem_map] at hu
  obtain ⟨p, hp, rfl⟩ := hu
  obtain ⟨_, h2, h3, h4⟩ := h.reg p.1 p.2 (AMap.load_of_mem h.regNodup hp)
  exact ⟨copy_built _, h2, by rw [(copy_same p.2 h4 fun _ => False).identity (fun h => h)]; exact h3⟩

theorem listing_sub {E : Env} {s : Dynamic.St} {sn : Snap} (h : Tidy E s) (hl : Listing sn s) :
    ∀ u ∈ sn.subscribe, Spec.Built u ∧ (36 : UInt8) ∉ u.group ∧ (Spec.identity u ∉ E.refers → Settled E u) := by
  intro u hu
  rw [hl.subscribe.mem_iff, List.mem_map] at hu
  obtain ⟨p, hp, rfl⟩ := hu
  obtain ⟨_, h2, h3, h4⟩ := h.sub p.1 p.2 (AMap.load_of_mem h.subNodup hp)
  have hi := (copy_same p.2 h4 fun _ => False).identity (fun h => h)
  refine ⟨copy_built _, h2, fun hr => ?_⟩
  obtain ⟨a, ha, hs⟩ := h3 (by rw [← hi]; exact hr)
  exact ⟨a, by rw [copy_param _ h4]; exact ha, hs⟩

theorem both_copy {ig : Bytes → Prop} {o p : Option URL} (hn : ∀ u, p = some u → ∀ m, u.params = some m → m.NodupKeys)
    (h : Spec.Both (Spec.SameNode ig) o (p.map copy)) : Spec.Both (Spec.SameNode ig) o p := by
  cases p with
  | none => exact h
  | some u =>
    cases o with
    | none => exact h.elim
    | some w => exact Spec.SameNode.trans h (copy_same u (hn u rfl) ig)

/-- Recovery from a saved listing of tables that good requests made gives the same tables. -/
theorem recovered_same {E : Env} (hE : Spec.GoodEnv E) (s0 : Dynamic.St) {s : Dynamic.St} {sn : Snap} (h : Tidy E s)
    (hl : Listing sn s) : Spec.SameTables E (Dynamic.start E s0 (.saved sn)) s := by
  have hr := listing_reg h hl
  have hs := listing_sub h hl
  refine ⟨fun k => ?_, fun k => ?_⟩
  · show Spec.Both _ (AMap.load (redo E _ sn).regNodes k) _
    rw [redo, (redo_keeps_reg E _ _ fun u hu => ⟨(hs u hu).1, (hs u hu).2.1⟩).1]
    have := redo_register hE sn.register { s0 with regNodes := [], subNodes := [] } hr k
    rw [show AMap.load ([] : AMap Bytes URL) k = none from rfl, Option.none_or,
      find_listing h.regNodup (fun k u hk => ?_) hl.register] at this
    · exact both_copy (fun u hu => (h.reg k u hu).2.2.2) this
    · obtain ⟨h1, _, _, h4⟩ := h.reg k u hk
      rw [h1]
      exact ((copy_same u h4 fun _ => False).regKey (fun h => h) (fun h => h)).symm
  · show Spec.Both _ (AMap.load (redo E _ sn).subNodes k) _
    have := redo_subscribe E sn.subscribe (sn.register.foldl (doRegister E) { s0 with regNodes := [], subNodes := [] }) hs k
    rw [(redo_keeps_sub E hE _ _ fun u hu => (hr u hu).1).1, show AMap.load ([] : AMap Bytes URL) k = none from rfl,
      Option.none_or, find_listing h.subNodup (fun k u hk => ?_) hl.subscribe] at this
    · exact both_copy (fun u hu => (h.sub k u hu).2.2.2) this
    · obtain ⟨h1, _, _, h4⟩ := h.sub k u hk
      rw [h1]
      exact ((copy_same u h4 fun _ => False).identity (fun h => h)).symm

theorem tidy_start {E : Env} (hE : Spec.GoodEnv E) (s0 : Dynamic.St) {d : Disk}
    (hd : ∀ sn, d = .saved sn → ∃ s, Tidy E s ∧ Listing sn s) : Tidy E (Dynamic.start E s0 d) := by
  cases d with
  | missing => exact tidy_empty E s0
  | torn => exact tidy_empty E s0
  | saved sn =>
    obtain ⟨s, h, hl⟩ := hd sn rfl
    have hr := listing_reg h hl
    have hs := listing_sub h hl
    have e : Dynamic.start E s0 (.saved sn) =
        acts E { s0 with regNodes := [], subNodes := [] } (sn.register.map .register ++ sn.subscribe.map .subscribe) := by
      rw [acts, List.foldl_append, List.foldl_map, List.foldl_map]
      rfl
    rw [e]
    refine tidy_acts hE (tidy_empty E s0) fun a ha => ?_
    rw [List.mem_append, List.mem_map, List.mem_map] at ha
    rcases ha with ⟨u, hu, rfl⟩ | ⟨u, hu, rfl⟩
    · exact (hr u hu).1
    · exact ⟨(hs u hu).1, (hs u hu).2.1⟩

/-! ## Concurrent calls -/

/-- The calls that hold `saveLock`. -/
def Holds : Pc → Bool
  | .locked => true
  | .marshalled _ => true
  | .truncated _ => true
  | .written => true
  | _ => false

/-- The listing a call is about to write. -/
def pending : Pc → Option Snap
  | .marshalled sn => some sn
  | .truncated sn => some sn
  | _ => none

/-- The call has written its listing. -/
def Past : Pc → Bool
  | .written => true
  | .done => true
  | _ => false

/-- The tables after the first `n` changes since the process started. -/
def Spec.tablesAfter (E : Env) (y : Sys) (n : Nat) : Dynamic.St :=
  acts E (Dynamic.start E y.s0 y.disk0) ((y.log.take n).map (·.2))

/-- The changes of call `i` are among the first `n`. -/
def Spec.within (y : Sys) (i n : Nat) : Prop := ∀ j a, y.log[j]? = some (i, a) → j < n

/-- The second group a subscription subscribes. -/
def Spec.secondGroup (E : Env) (u : URL) : Option Bytes :=
  if E.subSuffix <:+ u.group then none else some (u.group ++ E.subSuffix)

/-- The call's second change is made, if it has one. -/
def SecondDone (E : Env) (y : Sys) (i : Nat) (r : Req) : Prop :=
  ∀ u g, r = .subscribe u → Spec.secondGroup E u = some g →
    ∃ v, (i, Act.subscribe v) ∈ y.log ∧ Spec.SameNode (fun k => k = b!"application") v { u with group := g }

structure SaveInv (E : Env) (y : Sys) : Prop where
  tables : y.tables = acts E (Dynamic.start E y.s0 y.disk0) (y.log.map (·.2))
  goodLog : ∀ e ∈ y.log, GoodAct e.2
  goodCalls : ∀ (i : Nat) (r : Req) (p : Pc), y.calls[i]? = some (r, p) → Spec.GoodReq r
  second : ∀ (i : Nat) (r : Req) (v : URL), y.calls[i]? = some (r, .second v) → (36 : UInt8) ∉ v.group ∧
    (∀ m, v.params = some m → m.NodupKeys) ∧
    ∀ u, r = .subscribe u → Spec.SameNode (fun k => k = b!"application") v u
  disk0 : ∀ sn, y.disk0 = .saved sn → ∃ s, Tidy E s ∧ Listing sn s
  holds : ∀ (i : Nat) (r : Req) (p : Pc), y.calls[i]? = some (r, p) → Holds p = true → y.lock = some i
  started : ∀ (i : Nat) (r : Req) (p : Pc), y.calls[i]? = some (r, p) → p ≠ .start → (i, Dynamic.firstAct r) ∈ y.log
  seconded : ∀ (i : Nat) (r : Req) (p : Pc), y.calls[i]? = some (r, p) → p ≠ .start → (∀ v, p ≠ .second v) →
    SecondDone E y i r
  logged : ∀ e ∈ y.log, e.1 < y.calls.length
  unlogged : ∀ (i : Nat) (r : Req), y.calls[i]? = some (r, .start) → ∀ e ∈ y.log, e.1 ≠ i
  saved : ∃ n, n ≤ y.log.length ∧
    ((y.disk = y.disk0 ∧ n = 0) ∨ (∃ sn, y.disk = .saved sn ∧ Listing sn (Spec.tablesAfter E y n)) ∨
      (y.disk = .torn ∧ ∃ (i : Nat) (r : Req) (sn : Snap), y.calls[i]? = some (r, Pc.truncated sn))) ∧
    (∀ (i : Nat) (r : Req) (p : Pc), y.calls[i]? = some (r, p) → Past p = true → Spec.within y i n) ∧
    (∀ (i : Nat) (r : Req) (p : Pc) (sn : Snap), y.calls[i]? = some (r, p) → pending p = some sn →
      ∃ m, n ≤ m ∧ m ≤ y.log.length ∧ Listing sn (Spec.tablesAfter E y m) ∧ Spec.within y i m)

theorem getElem?_set_cases {α : Type} {l : List α} {i j : Nat} {x z : α} (h : (l.set i x)[j]? = some z) :
    (j = i ∧ z = x) ∨ (j ≠ i ∧ l[j]? = some z) := by
  rw [List.getElem?_set] at h
  split at h
  · split at h
    · rename_i e _
      cases h; exact .inl ⟨e.symm, rfl⟩
    · cases h
  · rename_i e
    exact .inr ⟨fun h => e h.symm, h⟩

theorem saveInv_boot {E : Env} (s0 : Dynamic.St) {d : Disk} (hd : ∀ sn, d = .saved sn → ∃ s, Tidy E s ∧ Listing sn s) :
    SaveInv E (Dynamic.boot E s0 d) where
  tables := rfl
  goodLog := fun _ h => by cases h
  goodCalls := fun _ _ _ h => by cases h
  second := fun _ _ _ h => by cases h
  disk0 := hd
  holds := fun _ _ _ h => by cases h
  started := fun _ _ _ h => by cases h
  seconded := fun _ _ _ h => by cases h
  logged := fun _ h => by cases h
  unlogged := fun _ _ h => by cases h
  saved := ⟨0, Nat.le_refl _, .inl ⟨rfl, rfl⟩, (fun _ _ _ h => by cases h), (fun _ _ _ _ h => by cases h)⟩

/-- A call moves on without changing tables, file or lock, to a place where nothing is promised. -/
theorem saveInv_move {E : Env} {y : Sys} (h : SaveInv E y) {i : Nat} {r : Req} {p p' : Pc} {lk : Option Nat}
    (hi : y.calls[i]? = some (r, p)) (hp : p ≠ .start) (hp' : p' ≠ .start) (h2 : ∀ v, p' ≠ .second v)
    (h3 : SecondDone E y i r) (h4 : Holds p' = true → lk = some i) (h5 : Past p' = false) (h6 : pending p' = none)
    (h7 : ∀ sn, p ≠ .truncated sn)
    (hlk : lk = y.lock ∨ y.lock = none) :
    SaveInv E { y with lock := lk, calls := y.calls.set i (r, p') } where
  tables := h.tables
  goodLog := h.goodLog
  goodCalls := fun j r' q hj => by
    rcases getElem?_set_cases hj with ⟨e, e'⟩ | ⟨_, hj⟩
    · cases e'; exact h.goodCalls i r p hi
    · exact h.goodCalls j r' q hj
  second := fun j r' v hj => by
    rcases getElem?_set_cases hj with ⟨e, e'⟩ | ⟨_, hj⟩
    · cases e'; exact absurd rfl (h2 v)
    · exact h.second j r' v hj
  disk0 := h.disk0
  holds := fun j r' q hj hq => by
    rcases getElem?_set_cases hj with ⟨e, e'⟩ | ⟨_, hj⟩
    · cases e'; rw [e]; exact h4 hq
    · have := h.holds j r' q hj hq
      rcases hlk with e | e
      · exact e.trans this
      · rw [e] at this; cases this
  started := fun j r' q hj hq => by
    rcases getElem?_set_cases hj with ⟨e, e'⟩ | ⟨_, hj⟩
    · cases e'; rw [e]; exact h.started i r p hi hp
    · exact h.started j r' q hj hq
  seconded := fun j r' q hj hq hq' => by
    rcases getElem?_set_cases hj with ⟨e, e'⟩ | ⟨_, hj⟩
    · cases e'; rw [e]; exact h3
    · exact h.seconded j r' q hj hq hq'
  logged := fun e he => by rw [List.length_set]; exact h.logged e he
  unlogged := fun j r' hj => by
    rcases getElem?_set_cases hj with ⟨e, e'⟩ | ⟨_, hj⟩
    · cases e'; exact absurd rfl hp'
    · exact h.unlogged j r' hj
  saved := by
    obtain ⟨n, s1, s2, s3, s4⟩ := h.saved
    refine ⟨n, s1, ?_, fun j r' q hj hq => ?_, fun j r' q sn hj hq => ?_⟩
    · rcases s2 with s2 | s2 | ⟨ht, j, r', sn, hj⟩
      · exact .inl s2
      · exact .inr (.inl s2)
      · refine .inr (.inr ⟨ht, j, r', sn, ?_⟩)
        have : j ≠ i := by
          rintro rfl
          rw [hi] at hj
          cases hj
          exact h7 sn rfl
        show (y.calls.set i (r, p'))[j]? = _
        rw [List.getElem?_set_ne this.symm]; exact hj
    · rcases getElem?_set_cases hj with ⟨e, e'⟩ | ⟨_, hj⟩
      · cases e'; rw [h5] at hq; cases hq
      · exact s3 j r' q hj hq
    · rcases getElem?_set_cases hj with ⟨e, e'⟩ | ⟨_, hj⟩
      · cases e'; rw [h6] at hq; cases hq
      · exact s4 j r' q sn hj hq

/-- A call changes the tables. -/
theorem saveInv_act {E : Env} {y : Sys} (h : SaveInv E y) {i : Nat} {r : Req} {p p' : Pc} {a : Act}
    (hi : y.calls[i]? = some (r, p)) (hp : Holds p = false ∧ Past p = false) (ha : GoodAct a)
    (hp' : p' ≠ .start) (h1 : Holds p' = false) (h2 : Past p' = false) (h3 : pending p' = none)
    (hst : (i, Dynamic.firstAct r) ∈ y.log ++ [(i, a)])
    (hsec : ∀ v, p' = .second v → (36 : UInt8) ∉ v.group ∧ (∀ m, v.params = some m → m.NodupKeys) ∧
      ∀ u, r = .subscribe u → Spec.SameNode (fun k => k = b!"application") v u)
    (hdone : (∀ v, p' ≠ .second v) → ∀ u g, r = .subscribe u → Spec.secondGroup E u = some g →
      ∃ v, (i, Act.subscribe v) ∈ y.log ++ [(i, a)] ∧
        Spec.SameNode (fun k => k = b!"application") v { u with group := g }) :
    SaveInv E { y with
      tables := act E y.tables a
      calls := y.calls.set i (r, p')
      log := y.log ++ [(i, a)] } where
  tables := by
    show act E y.tables a = acts E _ ((y.log ++ [(i, a)]).map (·.2))
    rw [List.map_append, acts, List.foldl_append]
    exact congrArg (fun t => act E t a) h.tables
  goodLog := fun e he => by
    rcases List.mem_append.mp he with he | he
    · exact h.goodLog e he
    · rw [List.mem_singleton] at he; rw [he]; exact ha
  goodCalls := fun j r' q hj => by
    rcases getElem?_set_cases hj with ⟨e, e'⟩ | ⟨_, hj⟩
    · cases e'; exact h.goodCalls i r p hi
    · exact h.goodCalls j r' q hj
  second := fun j r' v hj => by
    rcases getElem?_set_cases hj with ⟨e, e'⟩ | ⟨_, hj⟩
    · cases e'; exact hsec v rfl
    · exact h.second j r' v hj
  disk0 := h.disk0
  holds := fun j r' q hj hq => by
    rcases getElem?_set_cases hj with ⟨e, e'⟩ | ⟨_, hj⟩
    · cases e'; rw [h1] at hq; cases hq
    · exact h.holds j r' q hj hq
  started := fun j r' q hj hq => by
    rcases getElem?_set_cases hj with ⟨e, e'⟩ | ⟨_, hj⟩
    · cases e'; rw [e]; exact hst
    · exact List.mem_append_left _ (h.started j r' q hj hq)
  seconded := fun j r' q hj hq hq' => by
    rcases getElem?_set_cases hj with ⟨e, e'⟩ | ⟨_, hj⟩
    · cases e'; rw [e]; exact hdone hq'
    · intro u g hu hg
      obtain ⟨v, hv, hv'⟩ := h.seconded j r' q hj hq hq' u g hu hg
      exact ⟨v, List.mem_append_left _ hv, hv'⟩
  logged := fun e he => by
    rw [List.length_set]
    rcases List.mem_append.mp he with he | he
    · exact h.logged e he
    · rw [List.mem_singleton] at he; rw [he]
      exact (List.getElem?_eq_some_iff.mp hi).1
  unlogged := fun j r' hj => by
    rcases getElem?_set_cases hj with ⟨e, e'⟩ | ⟨hne, hj⟩
    · cases e'; exact absurd rfl hp'
    · intro e he
      rcases List.mem_append.mp he with he | he
      · exact h.unlogged j r' hj e he
      · rw [List.mem_singleton] at he; rw [he]; exact fun e => hne e.symm
  saved := by
    obtain ⟨n, s1, s2, s3, s4⟩ := h.saved
    have htake : ∀ m, m ≤ y.log.length → Spec.tablesAfter E { y with
        tables := act E y.tables a, calls := y.calls.set i (r, p'), log := y.log ++ [(i, a)] } m =
        Spec.tablesAfter E y m := fun m hm => by
      simp only [Spec.tablesAfter, List.take_append_of_le_length hm]
    have hwith : ∀ j m, j ≠ i → Spec.within y j m → Spec.within { y with
        tables := act E y.tables a, calls := y.calls.set i (r, p'), log := y.log ++ [(i, a)] } j m := by
      intro j m hne hw k b hk
      replace hk : (y.log ++ [(i, a)])[k]? = some (j, b) := hk
      rw [List.getElem?_append] at hk
      split at hk
      · exact hw k b hk
      · have := List.mem_of_getElem? hk
        rw [List.mem_singleton] at this
        cases this
        exact absurd rfl hne
    refine ⟨n, ?_, ?_, fun j r' q hj hq => ?_, fun j r' q sn hj hq => ?_⟩
    · rw [List.length_append]; exact Nat.le_add_right_of_le s1
    · rcases s2 with s2 | ⟨sn, s2, s2'⟩ | ⟨ht, j, r', sn, hj⟩
      · exact .inl s2
      · exact .inr (.inl ⟨sn, s2, by rw [htake n s1]; exact s2'⟩)
      · refine .inr (.inr ⟨ht, j, r', sn, ?_⟩)
        have : j ≠ i := by
          rintro rfl
          rw [hi] at hj
          cases hj
          cases hp.1
        show (y.calls.set i (r, p'))[j]? = _
        rw [List.getElem?_set_ne this.symm]; exact hj
    · rcases getElem?_set_cases hj with ⟨e, e'⟩ | ⟨hne, hj⟩
      · cases e'; rw [h2] at hq; cases hq
      · exact hwith j n hne (s3 j r' q hj hq)
    · rcases getElem?_set_cases hj with ⟨e, e'⟩ | ⟨hne, hj⟩
      · cases e'; rw [h3] at hq; cases hq
      · obtain ⟨m, m1, m2, m3, m4⟩ := s4 j r' q sn hj hq
        refine ⟨m, m1, ?_, by rw [htake m m2]; exact m3, hwith j m hne m4⟩
        rw [List.length_append]; exact Nat.le_add_right_of_le m2

theorem goodAct_first {r : Req} (h : Spec.GoodReq r) : GoodAct (Dynamic.firstAct r) := by
  cases r <;> exact h

/-- The second URL of a subscription. -/
theorem suffixed_spec {E : Env} {u v : URL} (h : suffixed E u = some v) (hn : ∀ m, u.params = some m → m.NodupKeys) :
    Spec.Built v ∧ v.group = u.group ++ E.subSuffix ∧ ¬ E.subSuffix <:+ u.group ∧
    Spec.SameNode (fun _ => False) v { u with group := u.group ++ E.subSuffix } := by
  rw [suffixed] at h
  split at h
  · rename_i hc
    cases h
    refine ⟨⟨copy_fresh u, (copy_built u).nodup⟩, rfl,
      fun hs => hc.2 (List.isSuffixOf_iff_suffix.mpr hs), ⟨rfl, rfl, rfl, rfl, rfl, fun k _ => copy_param u hn k⟩⟩
  · cases h

theorem suffixed_none {E : Env} {u : URL} (h : suffixed E u = none) : E.subSuffix <:+ u.group := by
  rw [suffixed] at h
  split at h
  · cases h
  · rename_i hc
    by_cases h0 : E.subSuffix = []
    · rw [h0]; exact List.nil_suffix
    · refine List.isSuffixOf_iff_suffix.mp ?_
      by_cases h1 : hasSuffix u.group E.subSuffix = true
      · exact h1
      · exact absurd ⟨h0, h1⟩ hc

theorem saveInv_step {E : Env} (hE : Spec.GoodEnv E) {y z : Sys} (h : SaveInv E y)
    (hs : Dynamic.Step E Spec.GoodReq y z) : SaveInv E z := by
  cases hs with
  | call r hr =>
    have hget : ∀ (j : Nat) (r' : Req) (q : Pc), (y.calls ++ [(r, Pc.start)])[j]? = some (r', q) →
        y.calls[j]? = some (r', q) ∨ (r' = r ∧ q = .start ∧ y.calls.length ≤ j) := by
      intro j r' q hj
      rw [List.getElem?_append] at hj
      split at hj
      · exact .inl hj
      · rename_i hlt
        have := List.mem_of_getElem? hj
        rw [List.mem_singleton] at this
        cases this
        exact .inr ⟨rfl, rfl, Nat.le_of_not_lt hlt⟩
    exact {
      tables := h.tables
      goodLog := h.goodLog
      goodCalls := fun j r' q hj => by
        rcases hget j r' q hj with hj | ⟨rfl, _, _⟩
        · exact h.goodCalls j r' q hj
        · exact hr
      second := fun j r' v hj => by
        rcases hget j r' _ hj with hj | ⟨_, e, _⟩
        · exact h.second j r' v hj
        · cases e
      disk0 := h.disk0
      holds := fun j r' q hj hq => by
        rcases hget j r' q hj with hj | ⟨_, e, _⟩
        · exact h.holds j r' q hj hq
        · rw [e] at hq; cases hq
      started := fun j r' q hj hq => by
        rcases hget j r' q hj with hj | ⟨_, e, _⟩
        · exact h.started j r' q hj hq
        · exact absurd e hq
      seconded := fun j r' q hj hq hq' => by
        rcases hget j r' q hj with hj | ⟨_, e, _⟩
        · exact h.seconded j r' q hj hq hq'
        · exact absurd e hq
      logged := fun e he => by
        rw [List.length_append]; exact Nat.lt_add_right _ (h.logged e he)
      unlogged := fun j r' hj e he => by
        rcases hget j r' _ hj with hj | ⟨_, _, hle⟩
        · exact h.unlogged j r' hj e he
        · exact Nat.ne_of_lt (Nat.lt_of_lt_of_le (h.logged e he) hle)
      saved := by
        obtain ⟨n, s1, s2, s3, s4⟩ := h.saved
        refine ⟨n, s1, ?_, fun j r' q hj hq => ?_, fun j r' q sn hj hq => ?_⟩
        · rcases s2 with s2 | s2 | ⟨ht, j, r', sn, hj⟩
          · exact .inl s2
          · exact .inr (.inl s2)
          · refine .inr (.inr ⟨ht, j, r', sn, ?_⟩)
            show (y.calls ++ [(r, Pc.start)])[j]? = _
            rw [List.getElem?_append_left (List.getElem?_eq_some_iff.mp hj).1]; exact hj
        · rcases hget j r' q hj with hj | ⟨_, e, _⟩
          · exact s3 j r' q hj hq
          · rw [e] at hq; cases hq
        · rcases hget j r' q hj with hj | ⟨_, e, _⟩
          · exact s4 j r' q sn hj hq
          · rw [e] at hq; cases hq }
  | first hi =>
    rename_i i r
    have hg := h.goodCalls i r _ hi
    cases r with
    | register u =>
      refine saveInv_act h hi ⟨rfl, rfl⟩ (goodAct_first hg) (by simp [Dynamic.afterFirst]) rfl rfl rfl
        (List.mem_append_right _ List.mem_cons_self) (fun v hv => ?_) (fun _ u' g hu' => ?_)
      · cases hv
      · cases hu'
    | unregister u =>
      refine saveInv_act h hi ⟨rfl, rfl⟩ (goodAct_first hg) (by simp [Dynamic.afterFirst]) rfl rfl rfl
        (List.mem_append_right _ List.mem_cons_self) (fun v hv => ?_) (fun _ u' g hu' => ?_)
      · cases hv
      · cases hu'
    | subscribe u =>
      refine saveInv_act h hi ⟨rfl, rfl⟩ (goodAct_first hg) (by simp [Dynamic.afterFirst]) rfl rfl rfl
        (List.mem_append_right _ List.mem_cons_self) (fun v hv => ?_) (fun h' => ?_)
      · cases hv
        obtain ⟨_, _, d3, d4, d5, _⟩ := doSubscribe_spec E y.tables hg.1 hg.2
        refine ⟨by rw [d3]; exact hg.2, d5, fun u' hu' => ?_⟩
        cases hu'
        exact d4
      · exact absurd rfl (h' _)
  | secondSkip hi hsk =>
    rename_i i r u
    refine saveInv_move h hi (by simp) (by simp) (by simp) (fun w g hw hg => ?_) (fun hh => by cases hh) rfl rfl
      (by simp) (.inl rfl)
    have := (h.second i r u hi).2.2 w hw
    rw [Spec.secondGroup, ← this.group, if_pos (suffixed_none hsk)] at hg
    cases hg
  | second hi hsk =>
    rename_i i r u v
    obtain ⟨p1, p2, p3⟩ := h.second i r u hi
    obtain ⟨q1, q2, q3, q4⟩ := suffixed_spec hsk p2
    refine saveInv_act h hi ⟨rfl, rfl⟩ (a := .subscribe v) ⟨q1, ?_⟩ (by simp) rfl rfl rfl
      (List.mem_append_left _ (h.started i r _ hi (by simp))) (fun w hw => ?_) (fun _ w g hw hg => ?_)
    · rw [q2, List.mem_append]
      rintro (h | h)
      · exact p1 h
      · exact hE.suffix h
    · cases hw
    · have := p3 w hw
      rw [Spec.secondGroup, ← this.group, if_neg q3] at hg
      cases hg
      refine ⟨v, List.mem_append_right _ List.mem_cons_self, q4.protocol.trans this.protocol, q4.host.trans this.host,
        q4.port.trans this.port, q4.path.trans this.path, q4.group, fun k hk => ?_⟩
      exact (q4.params k (fun h => h)).trans (this.params k hk)
  | lock hi hl =>
    rename_i i r
    exact saveInv_move h hi (by simp) (by simp) (by simp) (h.seconded i r _ hi (by simp) (by simp)) (fun _ => rfl) rfl
      rfl (by simp) (.inr hl)
  | marshal hi hl =>
    rename_i i r sn
    have hlock := h.holds i r _ hi rfl
    obtain ⟨n, s1, s2, s3, s4⟩ := h.saved
    exact {
      tables := h.tables
      goodLog := h.goodLog
      goodCalls := fun j r' q hj => by
        rcases getElem?_set_cases hj with ⟨e, e'⟩ | ⟨_, hj⟩
        · cases e'; exact h.goodCalls i r _ hi
        · exact h.goodCalls j r' q hj
      second := fun j r' v hj => by
        rcases getElem?_set_cases hj with ⟨e, e'⟩ | ⟨_, hj⟩
        · cases e'
        · exact h.second j r' v hj
      disk0 := h.disk0
      holds := fun j r' q hj hq => by
        rcases getElem?_set_cases hj with ⟨e, e'⟩ | ⟨_, hj⟩
        · rw [e]; exact hlock
        · exact h.holds j r' q hj hq
      started := fun j r' q hj hq => by
        rcases getElem?_set_cases hj with ⟨e, e'⟩ | ⟨_, hj⟩
        · cases e'; rw [e]; exact h.started i r _ hi (by simp)
        · exact h.started j r' q hj hq
      seconded := fun j r' q hj hq hq' => by
        rcases getElem?_set_cases hj with ⟨e, e'⟩ | ⟨_, hj⟩
        · cases e'; rw [e]; exact h.seconded i r _ hi (by simp) (by simp)
        · exact h.seconded j r' q hj hq hq'
      logged := fun e he => by rw [List.length_set]; exact h.logged e he
      unlogged := fun j r' hj => by
        rcases getElem?_set_cases hj with ⟨e, e'⟩ | ⟨_, hj⟩
        · cases e'
        · exact h.unlogged j r' hj
      saved := by
        refine ⟨n, s1, ?_, fun j r' q hj hq => ?_, fun j r' q sn' hj hq => ?_⟩
        · rcases s2 with s2 | s2 | ⟨ht, j, r', sn', hj⟩
          · exact .inl s2
          · exact .inr (.inl s2)
          · have := h.holds j r' _ hj rfl
            rw [hlock] at this
            cases this
            rw [hi] at hj
            cases hj
        · rcases getElem?_set_cases hj with ⟨e, e'⟩ | ⟨_, hj⟩
          · cases e'; cases hq
          · exact s3 j r' q hj hq
        · rcases getElem?_set_cases hj with ⟨e, e'⟩ | ⟨_, hj⟩
          · cases e'
            cases hq
            refine ⟨y.log.length, s1, Nat.le_refl _, ?_, fun k b hk => (List.getElem?_eq_some_iff.mp hk).1⟩
            show Listing sn (acts E _ ((y.log.take y.log.length).map (·.2)))
            rw [List.take_length, ← h.tables]
            exact hl
          · exact s4 j r' q sn' hj hq }
  | truncate hi =>
    rename_i i r sn
    have hlock := h.holds i r _ hi rfl
    obtain ⟨n, s1, s2, s3, s4⟩ := h.saved
    have hlt := (List.getElem?_eq_some_iff.mp hi).1
    exact {
      tables := h.tables
      goodLog := h.goodLog
      goodCalls := fun j r' q hj => by
        rcases getElem?_set_cases hj with ⟨e, e'⟩ | ⟨_, hj⟩
        · cases e'; exact h.goodCalls i r _ hi
        · exact h.goodCalls j r' q hj
      second := fun j r' v hj => by
        rcases getElem?_set_cases hj with ⟨e, e'⟩ | ⟨_, hj⟩
        · cases e'
        · exact h.second j r' v hj
      disk0 := h.disk0
      holds := fun j r' q hj hq => by
        rcases getElem?_set_cases hj with ⟨e, e'⟩ | ⟨_, hj⟩
        · rw [e]; exact hlock
        · exact h.holds j r' q hj hq
      started := fun j r' q hj hq => by
        rcases getElem?_set_cases hj with ⟨e, e'⟩ | ⟨_, hj⟩
        · cases e'; rw [e]; exact h.started i r _ hi (by simp)
        · exact h.started j r' q hj hq
      seconded := fun j r' q hj hq hq' => by
        rcases getElem?_set_cases hj with ⟨e, e'⟩ | ⟨_, hj⟩
        · cases e'; rw [e]; exact h.seconded i r _ hi (by simp) (by simp)
        · exact h.seconded j r' q hj hq hq'
      logged := fun e he => by rw [List.length_set]; exact h.logged e he
      unlogged := fun j r' hj => by
        rcases getElem?_set_cases hj with ⟨e, e'⟩ | ⟨_, hj⟩
        · cases e'
        · exact h.unlogged j r' hj
      saved := by
        refine ⟨n, s1, .inr (.inr ⟨rfl, i, r, sn, ?_⟩), fun j r' q hj hq => ?_, fun j r' q sn' hj hq => ?_⟩
        · show (y.calls.set i _)[i]? = _
          rw [List.getElem?_set_self hlt]
        · rcases getElem?_set_cases hj with ⟨e, e'⟩ | ⟨_, hj⟩
          · cases e'; cases hq
          · exact s3 j r' q hj hq
        · rcases getElem?_set_cases hj with ⟨e, e'⟩ | ⟨_, hj⟩
          · cases e'
            cases hq
            rw [e]
            exact s4 i r _ sn hi rfl
          · exact s4 j r' q sn' hj hq }
  | write hi =>
    rename_i i r sn
    have hlock := h.holds i r _ hi rfl
    obtain ⟨n, s1, s2, s3, s4⟩ := h.saved
    obtain ⟨m, m1, m2, m3, m4⟩ := s4 i r _ sn hi rfl
    exact {
      tables := h.tables
      goodLog := h.goodLog
      goodCalls := fun j r' q hj => by
        rcases getElem?_set_cases hj with ⟨e, e'⟩ | ⟨_, hj⟩
        · cases e'; exact h.goodCalls i r _ hi
        · exact h.goodCalls j r' q hj
      second := fun j r' v hj => by
        rcases getElem?_set_cases hj with ⟨e, e'⟩ | ⟨_, hj⟩
        · cases e'
        · exact h.second j r' v hj
      disk0 := h.disk0
      holds := fun j r' q hj hq => by
        rcases getElem?_set_cases hj with ⟨e, e'⟩ | ⟨_, hj⟩
        · rw [e]; exact hlock
        · exact h.holds j r' q hj hq
      started := fun j r' q hj hq => by
        rcases getElem?_set_cases hj with ⟨e, e'⟩ | ⟨_, hj⟩
        · cases e'; rw [e]; exact h.started i r _ hi (by simp)
        · exact h.started j r' q hj hq
      seconded := fun j r' q hj hq hq' => by
        rcases getElem?_set_cases hj with ⟨e, e'⟩ | ⟨_, hj⟩
        · cases e'; rw [e]; exact h.seconded i r _ hi (by simp) (by simp)
        · exact h.seconded j r' q hj hq hq'
      logged := fun e he => by rw [List.length_set]; exact h.logged e he
      unlogged := fun j r' hj => by
        rcases getElem?_set_cases hj with ⟨e, e'⟩ | ⟨_, hj⟩
        · cases e'
        · exact h.unlogged j r' hj
      saved := by
        refine ⟨m, m2, .inr (.inl ⟨sn, rfl, m3⟩), fun j r' q hj hq => ?_, fun j r' q sn' hj hq => ?_⟩
        · rcases getElem?_set_cases hj with ⟨e, e'⟩ | ⟨_, hj⟩
          · rw [e]; exact m4
          · intro k b hk
            exact Nat.lt_of_lt_of_le (s3 j r' q hj hq k b hk) m1
        · rcases getElem?_set_cases hj with ⟨e, e'⟩ | ⟨hne, hj⟩
          · cases e'; cases hq
          · have : Holds q = true := by
              cases q <;> first | rfl | cases hq
            have := h.holds j r' q hj this
            rw [hlock] at this
            cases this
            exact absurd rfl hne }
  | finish hi =>
    rename_i i r
    have hlock := h.holds i r _ hi rfl
    obtain ⟨n, s1, s2, s3, s4⟩ := h.saved
    exact {
      tables := h.tables
      goodLog := h.goodLog
      goodCalls := fun j r' q hj => by
        rcases getElem?_set_cases hj with ⟨e, e'⟩ | ⟨_, hj⟩
        · cases e'; exact h.goodCalls i r _ hi
        · exact h.goodCalls j r' q hj
      second := fun j r' v hj => by
        rcases getElem?_set_cases hj with ⟨e, e'⟩ | ⟨_, hj⟩
        · cases e'
        · exact h.second j r' v hj
      disk0 := h.disk0
      holds := fun j r' q hj hq => by
        rcases getElem?_set_cases hj with ⟨e, e'⟩ | ⟨hne, hj⟩
        · cases e'; cases hq
        · have := h.holds j r' q hj hq
          rw [hlock] at this
          cases this
          exact absurd rfl hne
      started := fun j r' q hj hq => by
        rcases getElem?_set_cases hj with ⟨e, e'⟩ | ⟨_, hj⟩
        · cases e'; rw [e]; exact h.started i r _ hi (by simp)
        · exact h.started j r' q hj hq
      seconded := fun j r' q hj hq hq' => by
        rcases getElem?_set_cases hj with ⟨e, e'⟩ | ⟨_, hj⟩
        · cases e'; rw [e]; exact h.seconded i r _ hi (by simp) (by simp)
        · exact h.seconded j r' q hj hq hq'
      logged := fun e he => by rw [List.length_set]; exact h.logged e he
      unlogged := fun j r' hj => by
        rcases getElem?_set_cases hj with ⟨e, e'⟩ | ⟨_, hj⟩
        · cases e'
        · exact h.unlogged j r' hj
      saved := by
        refine ⟨n, s1, ?_, fun j r' q hj hq => ?_, fun j r' q sn' hj hq => ?_⟩
        · rcases s2 with s2 | s2 | ⟨ht, j, r', sn, hj⟩
          · exact .inl s2
          · exact .inr (.inl s2)
          · have := h.holds j r' _ hj rfl
            rw [hlock] at this
            cases this
            rw [hi] at hj
            cases hj
        · rcases getElem?_set_cases hj with ⟨e, e'⟩ | ⟨_, hj⟩
          · rw [e]; exact s3 i r _ hi rfl
          · exact s3 j r' q hj hq
        · rcases getElem?_set_cases hj with ⟨e, e'⟩ | ⟨_, hj⟩
          · cases e'; cases hq
          · exact s4 j r' q sn' hj hq }
  | crash =>
    refine saveInv_boot _ fun sn hsn => ?_
    obtain ⟨n, s1, s2, s3, s4⟩ := h.saved
    have htidy : ∀ m, Tidy E (Spec.tablesAfter E y m) := fun m =>
      tidy_acts hE (tidy_start hE _ h.disk0) fun a ha => by
        obtain ⟨e, he, rfl⟩ := List.mem_map.mp ha
        exact h.goodLog e (List.mem_of_mem_take he)
    rcases s2 with ⟨s2, _⟩ | ⟨sn', s2, s2'⟩ | ⟨ht, _⟩
    · exact h.disk0 sn (s2.symm.trans hsn)
    · rw [hsn] at s2
      cases s2
      exact ⟨_, htidy n, s2'⟩
    · rw [hsn] at ht; cases ht

theorem saveInv_reach {E : Env} (hE : Spec.GoodEnv E) {s0 : Dynamic.St} {y : Sys}
    (h : Dynamic.Reach E s0 Spec.GoodReq y) : SaveInv E y := by
  induction h with
  | init => exact saveInv_boot s0 fun sn h => by cases h
  | step _ hs ih => exact saveInv_step hE ih hs

theorem tidy_after {E : Env} (hE : Spec.GoodEnv E) {y : Sys} (h : SaveInv E y) (n : Nat) :
    Tidy E (Spec.tablesAfter E y n) :=
  tidy_acts hE (tidy_start hE _ h.disk0) fun a ha => by
    obtain ⟨e, he, rfl⟩ := List.mem_map.mp ha
    exact h.goodLog e (List.mem_of_mem_take he)

/-! ## C41 -/

/-- Between requests, the tables are those the changes made so far, in the order in which they were made, give. -/
theorem tables_of_history (E : Env) (hE : Spec.GoodEnv E) (s0 : Dynamic.St) (y : Sys)
    (hy : Dynamic.Reach E s0 Spec.GoodReq y) : y.tables = Spec.tablesAfter E y y.log.length := by
  rw [Spec.tablesAfter, List.take_length]
  exact (saveInv_reach hE hy).tables

theorem sameTables_refl (E : Env) (s : Dynamic.St) : Spec.SameTables E s s :=
  ⟨fun _ => both_refl (Spec.SameNode.refl _) _, fun _ => both_refl (Spec.SameNode.refl _) _⟩

/-- **C41.** Take any state reached through any number of concurrent requests, any schedule and any earlier crashes,
at a moment when no request is in the middle of rewriting the snapshot file. If the agent crashes there and is
restarted with recovery, it has exactly the nodes of some moment of its past, and that moment is after every change
made by a request that had returned. -/
theorem crash_recovers (E : Env) (hE : Spec.GoodEnv E) (s0 : Dynamic.St) (y : Sys)
    (hy : Dynamic.Reach E s0 Spec.GoodReq y)
    (hw : ∀ (i : Nat) (r : Req) (sn : Snap), y.calls[i]? ≠ some (r, .truncated sn)) :
    ∃ n, n ≤ y.log.length ∧ (∀ (i : Nat) (r : Req), y.calls[i]? = some (r, .done) → Spec.within y i n) ∧
      Spec.SameTables E (Dynamic.boot E y.s0 y.disk).tables (Spec.tablesAfter E y n) := by
  have h := saveInv_reach hE hy
  obtain ⟨n, s1, s2, s3, _⟩ := h.saved
  refine ⟨n, s1, fun i r hi => s3 i r _ hi rfl, ?_⟩
  rcases s2 with ⟨e, e'⟩ | ⟨sn, e, hl⟩ | ⟨_, i, r, sn, hi⟩
  · rw [e', e]
    exact sameTables_refl E _
  · rw [e]
    exact recovered_same hE y.s0 (tidy_after hE h n) hl
  · exact absurd hi (hw i r sn)

/-- **C41.** In particular, when every request made has returned, a crash loses nothing and brings nothing back. -/
theorem crash_when_idle_loses_nothing (E : Env) (hE : Spec.GoodEnv E) (s0 : Dynamic.St) (y : Sys)
    (hy : Dynamic.Reach E s0 Spec.GoodReq y)
    (hw : ∀ (i : Nat) (r : Req) (p : Pc), y.calls[i]? = some (r, p) → p = .done) :
    Spec.SameTables E (Dynamic.boot E y.s0 y.disk).tables y.tables := by
  obtain ⟨n, h1, h2, h3⟩ := crash_recovers E hE s0 y hy fun i r sn hi => by cases hw i r _ hi
  have h := saveInv_reach hE hy
  have hn : n = y.log.length := by
    refine Nat.le_antisymm h1 (Nat.le_of_not_lt fun hlt => ?_)
    have he : y.log[n]? = some y.log[n] := List.getElem?_eq_getElem hlt
    have hlen := h.logged _ (List.getElem_mem hlt)
    have hc : y.calls[y.log[n].1]? = some y.calls[y.log[n].1] := List.getElem?_eq_getElem hlen
    have hd := hw _ y.calls[y.log[n].1].1 y.calls[y.log[n].1].2 hc
    have := h2 y.log[n].1 y.calls[y.log[n].1].1 (by rw [hc, ← hd]) n y.log[n].2 he
    exact Nat.lt_irrefl _ this
  rw [tables_of_history E hE s0 y hy, ← hn]
  exact h3

theorem both_isSome {R : URL → URL → Prop} {o p : Option URL} (h : Spec.Both R o p) : o.isSome = p.isSome := by
  cases o <;> cases p <;> first | rfl | exact h.elim

/-- Subscribed nodes are never removed. -/
theorem sub_mono {E : Env} (hE : Spec.GoodEnv E) {s : Dynamic.St} {as : List Act} (ha : ∀ a ∈ as, GoodAct a) {k : Bytes}
    (hk : (AMap.load s.subNodes k).isSome ∨ ∃ u, Act.subscribe u ∈ as ∧ Spec.identity u = k) :
    (AMap.load (acts E s as).subNodes k).isSome := by
  induction as generalizing s with
  | nil =>
    rcases hk with h | ⟨u, h, _⟩
    · exact h
    · cases h
  | cons a as ih =>
    refine ih (s := act E s a) (fun b hb => ha b (List.mem_cons_of_mem _ hb)) ?_
    have hga := ha a List.mem_cons_self
    have hmono : (AMap.load s.subNodes k).isSome → (AMap.load (act E s a).subNodes k).isSome := by
      intro h
      cases a with
      | register u => show (AMap.load (doRegister E s u).subNodes k).isSome; rw [(doRegister_spec hE s hga).1]; exact h
      | unregister u =>
        show (AMap.load (doUnregister E s u).subNodes k).isSome
        rw [(doUnregister_spec E s hga.fresh).1]; exact h
      | subscribe u =>
        obtain ⟨_, _, _, _, _, h3⟩ := doSubscribe_spec E s hga.1 hga.2
        show (AMap.load (doSubscribe E s u).1.subNodes k).isSome
        split at h3
        · rw [h3]; exact h
        · obtain ⟨v, _, _, _, _, v4, _⟩ := h3
          rw [v4, AMap.load_store]
          split
          · rfl
          · exact h
    rcases hk with h | ⟨u, h, hu⟩
    · exact .inl (hmono h)
    · rcases List.mem_cons.mp h with rfl | h
      · left
        obtain ⟨_, _, _, _, _, h3⟩ := doSubscribe_spec E s hga.1 hga.2
        show (AMap.load (doSubscribe E s u).1.subNodes k).isSome
        split at h3
        · rename_i hs
          rw [h3, ← hu]; exact hs
        · obtain ⟨v, _, _, _, _, v4, _⟩ := h3
          rw [v4, AMap.load_store, if_pos hu]
          rfl
      · exact .inr ⟨u, h, hu⟩

theorem mem_take_of_within {y : Sys} {i n : Nat} (h : Spec.within y i n) {a : Act} (ha : (i, a) ∈ y.log) :
    a ∈ (y.log.take n).map (·.2) := by
  obtain ⟨j, hj⟩ := List.getElem?_of_mem ha
  refine List.mem_map.mpr ⟨(i, a), List.mem_of_getElem? (i := j) ?_, rfl⟩
  rw [List.getElem?_take_of_lt (h j a hj)]
  exact hj

/-- **C41.** A subscription whose request has returned survives: after the restart its group is subscribed, and so is
the group with the environment's suffix. -/
theorem completed_subscription_survives (E : Env) (hE : Spec.GoodEnv E) (s0 : Dynamic.St) (y : Sys)
    (hy : Dynamic.Reach E s0 Spec.GoodReq y)
    (hw : ∀ (i : Nat) (r : Req) (sn : Snap), y.calls[i]? ≠ some (r, .truncated sn))
    (i : Nat) (u : URL) (hi : y.calls[i]? = some (.subscribe u, .done)) :
    (AMap.load (Dynamic.boot E y.s0 y.disk).tables.subNodes (Spec.identity u)).isSome ∧
    ∀ g, Spec.secondGroup E u = some g →
      (AMap.load (Dynamic.boot E y.s0 y.disk).tables.subNodes (Spec.identity { u with group := g })).isSome := by
  obtain ⟨n, _, h2, h3⟩ := crash_recovers E hE s0 y hy hw
  have h := saveInv_reach hE hy
  have hwi := h2 i _ hi
  have hgood : ∀ a ∈ (y.log.take n).map (·.2), GoodAct a := fun a ha => by
    obtain ⟨e, he, rfl⟩ := List.mem_map.mp ha
    exact h.goodLog e (List.mem_of_mem_take he)
  refine ⟨?_, fun g hg => ?_⟩
  · rw [both_isSome (h3.subscribe _)]
    exact sub_mono hE hgood (.inr ⟨u, mem_take_of_within hwi (h.started i _ _ hi (by simp)), rfl⟩)
  · rw [both_isSome (h3.subscribe _)]
    obtain ⟨v, hv, hv'⟩ := h.seconded i _ _ hi (by simp) (by simp) u g rfl hg
    exact sub_mono hE hgood (.inr ⟨v, mem_take_of_within hwi hv, hv'.identity application_address⟩)

/-- Which registrations a history of changes leaves: a key is added by a registration (with the environment's suffix,
unless the configuration file has the service) and removed by an unregistration. -/
def Spec.registered (E : Env) (k : Bytes) : Bool → List Act → Bool
  | b, [] => b
  | b, .register u :: as =>
    Spec.registered E k (b || (Spec.regKey (Spec.withSuffix E.regSuffix u) = k ∧
      Spec.identity (Spec.withSuffix E.regSuffix u) ∉ E.services)) as
  | b, .unregister u :: as => Spec.registered E k (b && Spec.regKey u ≠ k) as
  | b, .subscribe _ :: as => Spec.registered E k b as

theorem decide_eq_isSome {b : Bool} {o : Option URL} (h : b = true ↔ o.isSome = true) : b = o.isSome := by
  cases b <;> cases o <;> simp_all

/-- **C41.** The registered nodes are those of the history. -/
theorem registered_of_history (E : Env) (hE : Spec.GoodEnv E) (s : Dynamic.St) (as : List Act)
    (ha : ∀ a ∈ as, GoodAct a) (k : Bytes) :
    (AMap.load (acts E s as).regNodes k).isSome = Spec.registered E k (AMap.load s.regNodes k).isSome as := by
  induction as generalizing s with
  | nil => rfl
  | cons a as ih =>
    have hga := ha a List.mem_cons_self
    show (AMap.load (acts E (act E s a) as).regNodes k).isSome = _
    rw [ih (act E s a) fun b hb => ha b (List.mem_cons_of_mem _ hb)]
    cases a with
    | register u =>
      rw [Spec.registered]
      congr 1
      obtain ⟨_, _, h3⟩ := doRegister_spec hE s hga
      show (AMap.load (doRegister E s u).regNodes k).isSome = _
      split at h3
      · rename_i hc
        rw [h3]
        rcases hc with hc | hc
        · by_cases e : Spec.regKey (Spec.withSuffix E.regSuffix u) = k
          · rw [← e, hc]; rfl
          · simp [e]
        · simp [hc]
      · rename_i hc
        obtain ⟨v, _, _, v3, _⟩ := h3
        rw [v3, AMap.load_store]
        by_cases e : Spec.regKey (Spec.withSuffix E.regSuffix u) = k
        · have : Spec.identity (Spec.withSuffix E.regSuffix u) ∉ E.services := fun h => hc (.inr h)
          simp [e, this]
        · simp [e]
    | unregister u =>
      rw [Spec.registered]
      congr 1
      obtain ⟨_, _, h3⟩ := doUnregister_spec E s hga.fresh
      show (AMap.load (doUnregister E s u).regNodes k).isSome = _
      split at h3
      · rw [h3.1, AMap.load_erase]
        by_cases e : Spec.regKey u = k <;> simp [e]
      · rename_i hc
        rw [h3]
        by_cases e : Spec.regKey u = k
        · rw [← e]; simp [hc]
        · simp [e]
    | subscribe u =>
      rw [Spec.registered]
      congr 1
      show (AMap.load (doSubscribe E s u).1.regNodes k).isSome = _
      rw [(doSubscribe_spec E s hga.1 hga.2).1]

theorem registered_true (E : Env) (k : Bytes) (as : List Act) (hn : ∀ v, Act.unregister v ∈ as → Spec.regKey v ≠ k) :
    Spec.registered E k true as = true := by
  induction as with
  | nil => rfl
  | cons a as ih =>
    have ih := ih fun v hv => hn v (List.mem_cons_of_mem _ hv)
    cases a with
    | register u => rw [Spec.registered, Bool.true_or]; exact ih
    | unregister u => rw [Spec.registered, Bool.true_and, decide_eq_true (hn u List.mem_cons_self)]; exact ih
    | subscribe u => rw [Spec.registered]; exact ih

theorem registered_mem (E : Env) (k : Bytes) (as : List Act) (hn : ∀ v, Act.unregister v ∈ as → Spec.regKey v ≠ k)
    (u : URL) (hu : Act.register u ∈ as) (hk : Spec.regKey (Spec.withSuffix E.regSuffix u) = k)
    (hs : Spec.identity (Spec.withSuffix E.regSuffix u) ∉ E.services) (b : Bool) : Spec.registered E k b as = true := by
  induction as generalizing b with
  | nil => cases hu
  | cons a as ih =>
    have hn' : ∀ v, Act.unregister v ∈ as → Spec.regKey v ≠ k := fun v hv => hn v (List.mem_cons_of_mem _ hv)
    rcases List.mem_cons.mp hu with rfl | hu'
    · rw [Spec.registered, decide_eq_true ⟨hk, hs⟩, Bool.or_true]
      exact registered_true E k as hn'
    · cases a <;> exact ih hn' hu' _

theorem registered_false (E : Env) (k : Bytes) (as : List Act)
    (hn : ∀ v, Act.register v ∈ as → Spec.regKey (Spec.withSuffix E.regSuffix v) ≠ k) :
    Spec.registered E k false as = false := by
  induction as with
  | nil => rfl
  | cons a as ih =>
    have ih := ih fun v hv => hn v (List.mem_cons_of_mem _ hv)
    cases a with
    | register u =>
      rw [Spec.registered, Bool.false_or, decide_eq_false (fun h => hn u List.mem_cons_self h.1)]; exact ih
    | unregister u => rw [Spec.registered, Bool.false_and]; exact ih
    | subscribe u => rw [Spec.registered]; exact ih

theorem unregistered_mem (E : Env) (k : Bytes) (as : List Act)
    (hn : ∀ v, Act.register v ∈ as → Spec.regKey (Spec.withSuffix E.regSuffix v) ≠ k)
    (u : URL) (hu : Act.unregister u ∈ as) (hk : Spec.regKey u = k) (b : Bool) :
    Spec.registered E k b as = false := by
  induction as generalizing b with
  | nil => cases hu
  | cons a as ih =>
    have hn' : ∀ v, Act.register v ∈ as → Spec.regKey (Spec.withSuffix E.regSuffix v) ≠ k :=
      fun v hv => hn v (List.mem_cons_of_mem _ hv)
    rcases List.mem_cons.mp hu with rfl | hu'
    · rw [Spec.registered, decide_eq_false (by simpa using hk), Bool.and_false]
      exact registered_false E k as hn'
    · cases a <;> exact ih hn' hu' _

/-- **C41.** A registration whose request has returned survives a crash, unless it has since been unregistered. -/
theorem completed_registration_survives (E : Env) (hE : Spec.GoodEnv E) (s0 : Dynamic.St) (y : Sys)
    (hy : Dynamic.Reach E s0 Spec.GoodReq y)
    (hw : ∀ (i : Nat) (r : Req) (sn : Snap), y.calls[i]? ≠ some (r, .truncated sn))
    (i : Nat) (u : URL) (hi : y.calls[i]? = some (.register u, .done))
    (hs : Spec.identity (Spec.withSuffix E.regSuffix u) ∉ E.services)
    (hn : ∀ e ∈ y.log, ∀ v, e.2 = .unregister v → Spec.regKey v ≠ Spec.regKey (Spec.withSuffix E.regSuffix u)) :
    (AMap.load (Dynamic.boot E y.s0 y.disk).tables.regNodes
      (Spec.regKey (Spec.withSuffix E.regSuffix u))).isSome := by
  obtain ⟨n, _, h2, h3⟩ := crash_recovers E hE s0 y hy hw
  have h := saveInv_reach hE hy
  have hgood : ∀ a ∈ (y.log.take n).map (·.2), GoodAct a := fun a ha => by
    obtain ⟨e, he, rfl⟩ := List.mem_map.mp ha
    exact h.goodLog e (List.mem_of_mem_take he)
  rw [both_isSome (h3.register _), Spec.tablesAfter, registered_of_history E hE _ _ hgood]
  refine registered_mem E _ _ (fun v hv => ?_) u (mem_take_of_within (h2 i _ hi) (h.started i _ _ hi (by simp))) rfl hs _
  obtain ⟨e, he, hev⟩ := List.mem_map.mp hv
  exact hn e (List.mem_of_mem_take he) v hev

/-- **C41.** A node whose unregistration has returned does not come back with a crash, unless its key has been
registered in this run of the agent. -/
theorem completed_unregistration_survives (E : Env) (hE : Spec.GoodEnv E) (s0 : Dynamic.St) (y : Sys)
    (hy : Dynamic.Reach E s0 Spec.GoodReq y)
    (hw : ∀ (i : Nat) (r : Req) (sn : Snap), y.calls[i]? ≠ some (r, .truncated sn))
    (i : Nat) (u : URL) (hi : y.calls[i]? = some (.unregister u, .done))
    (hn : ∀ e ∈ y.log, ∀ v, e.2 = .register v → Spec.regKey (Spec.withSuffix E.regSuffix v) ≠ Spec.regKey u) :
    AMap.load (Dynamic.boot E y.s0 y.disk).tables.regNodes (Spec.regKey u) = none := by
  obtain ⟨n, _, h2, h3⟩ := crash_recovers E hE s0 y hy hw
  have h := saveInv_reach hE hy
  have hgood : ∀ a ∈ (y.log.take n).map (·.2), GoodAct a := fun a ha => by
    obtain ⟨e, he, rfl⟩ := List.mem_map.mp ha
    exact h.goodLog e (List.mem_of_mem_take he)
  rw [← Option.not_isSome_iff_eq_none, both_isSome (h3.register _), Spec.tablesAfter,
    registered_of_history E hE _ _ hgood, unregistered_mem E _ _ (fun v hv => ?_) u
      (mem_take_of_within (h2 i _ hi) (h.started i _ _ hi (by simp))) rfl]
  · simp
  · obtain ⟨e, he, hev⟩ := List.mem_map.mp hv
    exact hn e (List.mem_of_mem_take he) v hev

theorem redo_exports {E : Env} (hE : Spec.GoodEnv E) (l : List URL) (s : Dynamic.St)
    (hl : ∀ u ∈ l, Spec.Built u ∧ E.regSuffix <:+ u.group ∧ Spec.identity u ∉ E.services) (k : Bytes)
    (hx : E.exportable k = true)
    (hs : (AMap.load s.regNodes k).isSome → (AMap.load s.exporters k).isSome)
    (hk : (AMap.load s.exporters k).isSome ∨ ∃ u ∈ l, Spec.regKey u = k) :
    (AMap.load (l.foldl (doRegister E) s).exporters k).isSome := by
  induction l generalizing s with
  | nil =>
    rcases hk with h | ⟨u, h, _⟩
    · exact h
    · cases h
  | cons u l ih =>
    rw [List.foldl_cons]
    obtain ⟨b1, b2, b3⟩ := hl u List.mem_cons_self
    obtain ⟨_, _, h3⟩ := doRegister_spec hE s b1
    rw [withSuffix_of b2] at h3
    have key : ((AMap.load (doRegister E s u).regNodes k).isSome → (AMap.load (doRegister E s u).exporters k).isSome) ∧
        ((AMap.load s.exporters k).isSome → (AMap.load (doRegister E s u).exporters k).isSome) ∧
        (Spec.regKey u = k → (AMap.load (doRegister E s u).exporters k).isSome) := by
      split at h3
      · rename_i hc
        rw [h3]
        exact ⟨hs, id, fun e => hs (by rw [← e]; exact hc.resolve_right b3)⟩
      · obtain ⟨v, _, _, v3, v4⟩ := h3
        have hself : Spec.regKey u = k → (AMap.load (doRegister E s u).exporters k).isSome := by
          intro e
          rw [v4]
          split
          · rename_i h
            rw [← e] at hx ⊢
            rcases h with h | h
            · exact h
            · rw [h] at hx; cases hx
          · rw [AMap.load_store, if_pos e]; rfl
        have hmono : (AMap.load s.exporters k).isSome → (AMap.load (doRegister E s u).exporters k).isSome := by
          intro h
          rw [v4]
          split
          · exact h
          · rw [AMap.load_store]
            split
            · rfl
            · exact h
        refine ⟨fun h => ?_, hmono, hself⟩
        by_cases e : Spec.regKey u = k
        · exact hself e
        · rw [v3, AMap.load_store, if_neg e] at h
          exact hmono (hs h)
    refine ih (doRegister E s u) (fun v hv => hl v (List.mem_cons_of_mem _ hv)) key.1 ?_
    rcases hk with h | ⟨v, h, hv⟩
    · exact .inl (key.2.1 h)
    · rcases List.mem_cons.mp h with rfl | h
      · exact .inl (key.2.2 hv)
      · exact .inr ⟨v, h, hv⟩

/-- **C41.** Recovery also serves the recovered nodes: every registered node that can be exported is exported again. -/
theorem recovered_nodes_exported (E : Env) (hE : Spec.GoodEnv E) (s0 : Dynamic.St) (y : Sys)
    (hy : Dynamic.Reach E s0 Spec.GoodReq y) (k : Bytes)
    (hk : (AMap.load (Dynamic.boot E y.s0 y.disk).tables.regNodes k).isSome) (hx : E.exportable k = true) :
    (AMap.load (Dynamic.boot E y.s0 y.disk).tables.exporters k).isSome := by
  have hd := (saveInv_step hE (saveInv_reach hE hy) .crash).disk0
  replace hd : ∀ sn, y.disk = .saved sn → ∃ s, Tidy E s ∧ Listing sn s := hd
  replace hk : (AMap.load (Dynamic.start E y.s0 y.disk).regNodes k).isSome := hk
  show (AMap.load (Dynamic.start E y.s0 y.disk).exporters k).isSome
  cases e : y.disk with
  | missing => rw [e] at hk; cases hk
  | torn => rw [e] at hk; cases hk
  | saved sn =>
    obtain ⟨s, h, hl⟩ := hd sn e
    have hr := listing_reg h hl
    have hs := listing_sub h hl
    rw [e] at hk
    replace hk : (AMap.load (redo E { y.s0 with regNodes := [], subNodes := [] } sn).regNodes k).isSome := hk
    show (AMap.load (redo E { y.s0 with regNodes := [], subNodes := [] } sn).exporters k).isSome
    have hkeep := redo_keeps_reg E sn.subscribe (sn.register.foldl (doRegister E)
      { y.s0 with regNodes := [], subNodes := [] }) fun u hu => ⟨(hs u hu).1, (hs u hu).2.1⟩
    rw [redo, hkeep.2]
    rw [redo, hkeep.1, both_isSome (redo_register hE sn.register _ hr k)] at hk
    refine redo_exports hE sn.register _ hr k hx (fun h => by cases h) (.inr ?_)
    replace hk : (sn.register.find? fun u => Spec.regKey u = k).isSome := hk
    obtain ⟨u, hu⟩ := Option.isSome_iff_exists.mp hk
    exact ⟨u, List.mem_of_find?_eq_some hu, by simpa using List.find?_some hu⟩

/-! ## C41: what does not hold -/

theorem mem_identity {c : UInt8} {u : URL} (hc : c = 38) (hp : u.protocol ≠ b!"direct") (h : c ∈ Spec.identity u) :
    c ∈ u.protocol ∨ c ∈ u.host ∨ c ∈ u.path ∨ c ∈ u.group := by
  subst hc
  rw [Spec.identity, if_neg hp] at h
  simp only [List.mem_append, List.append_nil] at h
  rcases h with ((((((((h | h) | h) | h) | h) | h) | h) | h) | h)
  · exact .inl h
  · exact absurd h (by decide)
  · exact .inr (.inl h)
  · exact absurd h (by decide)
  · exact absurd h (not_mem_formatInt u.port (by decide) (by decide))
  · exact absurd h (by decide)
  · exact .inr (.inr (.inl h))
  · exact absurd h (by decide)
  · exact .inr (.inr (.inr h))

/-- Exporters are stored under keys with a registry. -/
def Exported (s : Dynamic.St) : Prop := ∀ k u, AMap.load s.exporters k = some u → (38 : UInt8) ∈ k

/-- **C41 (violated).** An unregistration never takes the service down: the exporter is stored under the identity with
the registry, and deleted under the identity without it. So after it the same exporters are there, and the service is
still registered and still answers. -/
theorem unregister_keeps_exporter_violated (E : Env) (s : Dynamic.St) (hs : Exported s) (u : URL)
    (hu : Spec.Fresh u) (hp : u.protocol ≠ b!"direct")
    (hc : (38 : UInt8) ∉ u.protocol ∧ (38 : UInt8) ∉ u.host ∧ (38 : UInt8) ∉ u.path ∧ (38 : UInt8) ∉ u.group)
    (k : Bytes) : AMap.load (doUnregister E s u).exporters k = AMap.load s.exporters k := by
  obtain ⟨_, _, h3⟩ := doUnregister_spec E s hu
  split at h3
  · rw [h3.2]
    split
    · rfl
    · rw [AMap.load_erase]
      split
      · rename_i e
        cases hl : AMap.load s.exporters k with
        | none => rfl
        | some w =>
          have := hs k w hl
          rw [← e] at this
          rcases mem_identity rfl hp this with h | h | h | h
          · exact absurd h hc.1
          · exact absurd h hc.2.1
          · exact absurd h hc.2.2.1
          · exact absurd h hc.2.2.2
      · rfl
  · rw [h3]

/-- A request body and an agent with one registry. -/
def dynBody : URL :=
  { protocol := b!"motan2", host := b!"10.0.0.1", port := 8001, path := b!"com.Svc", group := b!"g1, g2",
    params := some [(b!"proxyRegistry", b!"direct://reg:80")] }

def dynEnv : Env :=
  { localIP := b!"10.0.0.1", eport := 9982, application := b!"app"
    registries := [(b!"r1", { protocol := b!"direct", host := b!"reg", port := 80 })] }

/-- Its URL for the first group, as given to the configurer. -/
def dynNode : URL :=
  { protocol := b!"motan2", host := b!"10.0.0.1", port := 9982, path := b!"com.Svc", group := b!"g1",
    params := some [(b!"proxyRegistry", b!"direct://reg:80"), (b!"registry", b!"r1"), (b!"application", b!"app")] }

def dynRefer : URL :=
  { protocol := b!"motan2", path := b!"com.Svc", group := b!"g1", params := some [(b!"registry", b!"r1")] }

theorem dynNode_built : Spec.Built dynNode := by
  refine ⟨⟨rfl, rfl, rfl, rfl, rfl⟩, fun m hm => ?_⟩
  cases hm
  show List.Nodup _
  decide +kernel

theorem dynRefer_built : Spec.Built dynRefer := by
  refine ⟨⟨rfl, rfl, rfl, rfl, rfl⟩, fun m hm => ?_⟩
  cases hm
  show List.Nodup _
  decide +kernel

theorem dynEnv_good : Spec.GoodEnv dynEnv := ⟨by decide, by decide, by decide⟩

theorem exported_act {E : Env} (hE : Spec.GoodEnv E) {s : Dynamic.St} (h : Exported s) {a : Act} (ha : GoodAct a) :
    Exported (act E s a) := by
  cases a with
  | register u =>
    obtain ⟨_, _, h3⟩ := doRegister_spec hE s ha
    show Exported (doRegister E s u)
    split at h3
    · rw [h3]; exact h
    · obtain ⟨v, _, _, _, v4⟩ := h3
      intro k w hl
      rw [v4] at hl
      split at hl
      · exact h k w hl
      · rw [AMap.load_store] at hl
        split at hl
        · rename_i e
          rw [← e, Spec.regKey, List.append_assoc]
          exact List.mem_append_right _ (List.mem_append_left _ (by decide))
        · exact h k w hl
  | unregister u =>
    obtain ⟨_, _, h3⟩ := doUnregister_spec E s ha.fresh
    show Exported (doUnregister E s u)
    split at h3
    · intro k w hl
      rw [h3.2] at hl
      split at hl
      · exact h k w hl
      · rw [AMap.load_erase] at hl
        split at hl
        · cases hl
        · exact h k w hl
    · rw [h3]; exact h
  | subscribe u =>
    intro k w hl
    replace hl : AMap.load (doSubscribe E s u).1.exporters k = some w := hl
    rw [(doSubscribe_spec E s ha.1 ha.2).2.1] at hl
    exact h k w hl

theorem exported_none (s : Dynamic.St) (h : s.exporters = []) : Exported s := fun k u hl => by
  rw [h] at hl; cases hl

example : Exported (doRegister dynEnv {} dynNode) ∧
    (AMap.load (doRegister dynEnv {} dynNode).regNodes (Spec.regKey dynNode)).isSome = true ∧
    (AMap.load (doRegister dynEnv {} dynNode).exporters (Spec.regKey dynNode)).isSome = true ∧
    (AMap.load (doUnregister dynEnv (doRegister dynEnv {} dynNode) dynNode).regNodes (Spec.regKey dynNode)).isSome = false ∧
    (AMap.load (doUnregister dynEnv (doRegister dynEnv {} dynNode) dynNode).exporters (Spec.regKey dynNode)).isSome = true :=
  ⟨exported_act (a := .register dynNode) dynEnv_good (exported_none _ rfl) dynNode_built, by decide +kernel,
    by decide +kernel, by decide +kernel, by decide +kernel⟩

/-- **C41 (violated).** With a group suffix in the environment, registering a node and unregistering the same node
leaves it registered: the suffix is added by the registration only. -/
theorem suffix_unregister_violated :
    (AMap.load (doUnregister { dynEnv with regSuffix := b!"-x" } (doRegister { dynEnv with regSuffix := b!"-x" } {} dynNode)
      dynNode).regNodes (Spec.regKey { dynNode with group := b!"g1-x" })).isSome = true := by
  decide +kernel

/-- What each step gives, for building executions. -/
theorem reach_call {E : Env} {s0 : Dynamic.St} {P : Req → Prop} {y : Sys} (h : Dynamic.Reach E s0 P y) (r : Req)
    (hr : P r) : Dynamic.Reach E s0 P { y with calls := y.calls ++ [(r, .start)] } := .step h (.call r hr)

/-- The listing of the tables in their own order. -/
def listing (s : Dynamic.St) : Snap :=
  ⟨s.regNodes.map fun p => copy p.2, s.subNodes.map fun p => copy p.2⟩

theorem listing_ok (s : Dynamic.St) : Listing (listing s) s := ⟨.refl _, .refl _⟩

/-- A registration run alone, from its call to its return. -/
def exDone (E : Env) (u : URL) : Sys :=
  { s0 := {}, disk0 := .missing, tables := doRegister E {} u, disk := .saved (listing (doRegister E {} u)), lock := none,
    calls := [(.register u, .done)], log := [(0, .register u)] }

theorem exDone_reach (E : Env) (u : URL) (hu : Spec.Built u) : Dynamic.Reach E {} Spec.GoodReq (exDone E u) := by
  have h0 : Dynamic.Reach E {} Spec.GoodReq (Dynamic.boot E {} .missing) := .init
  have h1 := Dynamic.Reach.step h0 (.call (.register u) hu)
  have h2 := Dynamic.Reach.step h1 (.first (i := 0) (r := .register u) rfl)
  have h3 := Dynamic.Reach.step h2 (.lock (i := 0) (r := .register u) rfl rfl)
  have h4 := Dynamic.Reach.step h3 (.marshal (i := 0) (r := .register u) rfl (listing_ok _))
  have h5 := Dynamic.Reach.step h4 (.truncate (i := 0) (r := .register u) rfl)
  have h6 := Dynamic.Reach.step h5 (.write (i := 0) (r := .register u) rfl)
  exact .step h6 (.finish (i := 0) (r := .register u) rfl)

/-- After a registration and a subscription, of which the second is still saving. -/
def exTwo (E : Env) (u v : URL) (p : Pc) (d : Disk) : Sys :=
  { s0 := {}, disk0 := .missing, tables := (doSubscribe E (doRegister E {} u) v).1, disk := d, lock := some 1,
    calls := [(.register u, .done), (.subscribe v, p)], log := [(0, .register u), (1, .subscribe v)] }

theorem exTwo_reach (E : Env) (u v : URL) (hu : Spec.Built u) (hv : Spec.GoodReq (.subscribe v))
    (hs : suffixed E (doSubscribe E (doRegister E {} u) v).2 = none) :
    Dynamic.Reach E {} Spec.GoodReq
      (exTwo E u v (.marshalled (listing (doSubscribe E (doRegister E {} u) v).1))
        (.saved (listing (doRegister E {} u)))) ∧
    Dynamic.Reach E {} Spec.GoodReq
      (exTwo E u v (.truncated (listing (doSubscribe E (doRegister E {} u) v).1)) .torn) := by
  have h1 := Dynamic.Reach.step (exDone_reach E u hu) (.call (.subscribe v) hv)
  have h2 := Dynamic.Reach.step h1 (.first (i := 1) (r := .subscribe v) rfl)
  have h3 := Dynamic.Reach.step h2 (.secondSkip (i := 1) (r := .subscribe v) rfl hs)
  have h4 := Dynamic.Reach.step h3 (.lock (i := 1) (r := .subscribe v) rfl rfl)
  have h5 := Dynamic.Reach.step h4 (.marshal (i := 1) (r := .subscribe v) rfl (listing_ok _))
  exact ⟨h5, .step h5 (.truncate (i := 1) (r := .subscribe v) rfl)⟩

/-- **C41 (violated).** The file is rewritten in place: a crash while a later request saves loses the nodes of
requests that had returned long before. -/
theorem crash_while_saving_violated :
    ∃ y, Dynamic.Reach dynEnv {} Spec.GoodReq y ∧ y.calls[0]? = some (.register dynNode, .done) ∧
      (AMap.load y.tables.regNodes (Spec.regKey dynNode)).isSome = true ∧
      (Dynamic.boot dynEnv y.s0 y.disk).tables.regNodes = [] :=
  ⟨_, (exTwo_reach dynEnv dynNode dynRefer dynNode_built ⟨dynRefer_built, by decide⟩ rfl).2, rfl, by decide +kernel, rfl⟩

/-- The hypotheses of `crash_recovers` and its corollaries hold in a state where one request has returned and another
is about to write: after a crash the first is there and the second is not. -/
example : ∃ y, Dynamic.Reach dynEnv {} Spec.GoodReq y ∧
    (∀ (i : Nat) (r : Req) (sn : Snap), y.calls[i]? ≠ some (r, .truncated sn)) ∧
    y.calls[0]? = some (.register dynNode, .done) ∧
    (AMap.load (Dynamic.boot dynEnv y.s0 y.disk).tables.regNodes (Spec.regKey dynNode)).isSome = true ∧
    (AMap.load (Dynamic.boot dynEnv y.s0 y.disk).tables.subNodes (Spec.identity dynRefer)).isSome = false ∧
    (AMap.load y.tables.subNodes (Spec.identity dynRefer)).isSome = true := by
  refine ⟨_, (exTwo_reach dynEnv dynNode dynRefer dynNode_built ⟨dynRefer_built, by decide⟩ rfl).1, fun i r sn h => ?_, rfl,
    by decide +kernel, by decide +kernel, by decide +kernel⟩
  match i, h with
  | 0, h => cases h
  | 1, h => cases h
  | i + 2, h => cases h

example : (AMap.load (Dynamic.boot dynEnv (exDone dynEnv dynNode).s0 (exDone dynEnv dynNode).disk).tables.regNodes
    (Spec.regKey (Spec.withSuffix dynEnv.regSuffix dynNode))).isSome :=
  completed_registration_survives dynEnv dynEnv_good {} _ (exDone_reach dynEnv dynNode dynNode_built)
    (fun i r sn h => by
      match i, h with
      | 0, h => cases h
      | i + 1, h => cases h) 0 dynNode rfl (by decide)
    (fun e he v hv => by
      rw [show e = (0, .register dynNode) from by simpa [exDone] using he] at hv
      cases hv)

/-- **C41 (violated).** A subscribed group with the placeholder `${idc}` is stored under its unresolved name and saved
under its resolved name; after a restart the same subscription is no longer recognised, and subscribes once more. -/
theorem placeholder_recovery_violated :
    let E := { dynEnv with resolve := fun _ => b!"g-yf" }
    let u := { dynRefer with group := b!"g-${idc}" }
    let s := (doSubscribe E {} u).1
    let t := Dynamic.start E {} (.saved (listing s))
    (doSubscribe E s u).1.clusters.length = 1 ∧ t.clusters.length = 1 ∧ (doSubscribe E t u).1.clusters.length = 2 := by
  decide +kernel

/-! ## The HTTP requests -/

theorem mem_join {sep : Bytes} {l : List Bytes} {p : Bytes} {c : UInt8} (hp : p ∈ l) (hc : c ∈ p) : c ∈ join sep l := by
  induction l with
  | nil => cases hp
  | cons a l ih =>
    cases l with
    | nil =>
      rw [List.mem_singleton] at hp
      rw [join, ← hp]; exact hc
    | cons b l =>
      rw [join]
      rcases List.mem_cons.mp hp with rfl | hp
      · exact List.mem_append_left _ (List.mem_append_left _ hc)
      · exact List.mem_append_right _ (ih hp)

theorem mem_trimSpace {s : Bytes} {c : UInt8} (h : c ∈ trimSpace s) : c ∈ s := by
  rw [trimSpace, List.mem_reverse] at h
  have := (List.dropWhile_suffix _).subset h
  rw [List.mem_reverse] at this
  exact (List.dropWhile_suffix _).subset this

theorem mem_trimSplit {s p : Bytes} {c : UInt8} (sep : Bytes) (hs : sep ≠ []) (hp : p ∈ trimSplit s sep) (hc : c ∈ p) :
    c ∈ s := by
  rw [trimSplit_eq s sep hs, List.mem_filter, List.mem_map] at hp
  obtain ⟨⟨q, hq, rfl⟩, _⟩ := hp
  rw [← join_split sep s]
  exact mem_join hq (mem_trimSpace hc)

theorem slicesUnique_spec (vs seen : List Bytes) (hn : seen.Nodup) :
    (Dynamic.slicesUnique seen vs).Nodup ∧ ∀ g, g ∈ Dynamic.slicesUnique seen vs ↔ g ∈ seen ∨ g ∈ vs := by
  induction vs generalizing seen with
  | nil => exact ⟨hn, fun g => by simp [Dynamic.slicesUnique]⟩
  | cons v vs ih =>
    rw [Dynamic.slicesUnique]
    split
    · rename_i h
      obtain ⟨h1, h2⟩ := ih seen hn
      refine ⟨h1, fun g => ?_⟩
      rw [h2, List.mem_cons]
      constructor
      · rintro (h | h)
        · exact .inl h
        · exact .inr (.inr h)
      · rintro (h' | rfl | h')
        · exact .inl h'
        · exact .inl h
        · exact .inr h'
    · rename_i h
      obtain ⟨h1, h2⟩ := ih (seen ++ [v]) (by
        rw [List.nodup_append]
        exact ⟨hn, by simp, fun a ha b hb => by rw [List.mem_singleton] at hb; rintro rfl; exact h (hb ▸ ha)⟩)
      refine ⟨h1, fun g => ?_⟩
      rw [h2, List.mem_append, List.mem_singleton, List.mem_cons, or_assoc]

/-- The groups a request body names, together with the environment's additional groups: comma separated, trimmed,
non-empty. -/
def Spec.IsGroup (E : Env) (body : URL) (g : Bytes) : Prop :=
  g ≠ [] ∧ ∃ p, (p ∈ split b!"," body.group ∨ p ∈ split b!"," E.extraGroups) ∧ trimSpace p = g

theorem split_byte_append (c : UInt8) (g r : Bytes) : split [c] (g ++ c :: r) = split [c] g ++ split [c] r := by
  generalize hn : g.length = n
  induction n using Nat.strongRecOn generalizing g with
  | ind n ih =>
    rcases split_at_byte c g with h | ⟨a, t, rfl, ha⟩
    · rw [split_single h, show g ++ c :: r = g ++ [c] ++ r by simp, split_cons h]; rfl
    · have h1 := split_cons (c := c) (sep := []) (r := t ++ c :: r) ha
      have h2 := split_cons (c := c) (sep := []) (r := t) ha
      rw [show a ++ c :: t ++ c :: r = a ++ [c] ++ (t ++ c :: r) by simp, h1,
        show a ++ c :: t = a ++ [c] ++ t by simp, h2, ih t.length (by simp at hn; omega) t rfl]
      rfl

theorem mem_groups (E : Env) (body : URL) (g : Bytes) :
    g ∈ Dynamic.slicesUnique [] (trimSplit (Dynamic.withExtra E body.group) b!",") ↔ Spec.IsGroup E body g := by
  rw [(slicesUnique_spec _ [] List.nodup_nil).2, trimSplit_eq _ _ (by decide), List.mem_filter, List.mem_map]
  have hcomma : (b!"," : Bytes) = [44] := by decide
  have hsplit : ∀ p, trimSpace p ≠ [] → (p ∈ split b!"," (Dynamic.withExtra E body.group) ↔
      p ∈ split b!"," body.group ∨ p ∈ split b!"," E.extraGroups) := by
    intro p hp
    rw [Dynamic.withExtra]
    have hnil : p ∉ split b!"," [] := by
      rw [hcomma, split_single (by simp)]
      intro h
      rw [List.mem_singleton] at h
      rw [h] at hp
      exact hp (by decide)
    by_cases h1 : E.extraGroups = []
    · rw [if_neg (by simpa using h1), h1]
      exact ⟨.inl, fun h => h.resolve_right hnil⟩
    · rw [if_pos h1]
      by_cases h2 : body.group = []
      · rw [if_pos h2, h2]
        exact ⟨.inr, fun h => h.resolve_left hnil⟩
      · rw [if_neg h2, hcomma, show body.group ++ [44] ++ E.extraGroups = body.group ++ 44 :: E.extraGroups by simp,
          split_byte_append, List.mem_append]
  constructor
  · rintro (h | ⟨⟨p, hp, rfl⟩, hne⟩)
    · cases h
    · have hne : trimSpace p ≠ [] := by simpa using hne
      exact ⟨hne, p, (hsplit p hne).mp hp, rfl⟩
  · rintro ⟨hne, p, hp, rfl⟩
    exact .inr ⟨⟨p, (hsplit p hne).mpr hp, rfl⟩, by simpa using hne⟩

/-- The parameters of a parsed URL are those of the body but for `registry` and `filter`. -/
theorem parseURL_spec {E : Env} {u v : URL} (h : Dynamic.parseURL E u = some v) (hf : Spec.Fresh u) (hg : u.group ≠ [])
    (hn : ∀ m, u.params = some m → m.NodupKeys) :
    Spec.Built v ∧ Spec.SameNode (fun k => k = b!"registry" ∨ k = b!"filter") v u ∧
    ∃ id, Dynamic.findRegistry E u = some id ∧ v.param b!"registry" = some id := by
  rw [Dynamic.parseURL, show Dynamic.groupFromParam u = u by rw [Dynamic.groupFromParam, if_neg hg]] at h
  cases hr : Dynamic.findRegistry E u with
  | none => simp only [hr] at h; cases h
  | some id =>
    simp only [hr] at h
    cases h
    -- one parameter written
    have put : ∀ (w : URL) (k x : Bytes), Spec.Built w → Strings.contains k b!")." = false → Spec.Built (putParam w k x) := by
      intro w k x hw hk
      obtain ⟨h1, h2, h3, h4, h5⟩ := hw.fresh
      refine ⟨⟨h1, h2, h3, ?_, ?_⟩, fun m hm => ?_⟩
      · show (if Strings.contains k b!")." then some true else w.hasMethodC) = none
        rw [hk]; exact h4
      · show AMap.erase w.intC k = []
        rw [h5]; rfl
      · cases hm
        cases hp : w.params with
        | none => exact AMap.nodupKeys_store AMap.nodupKeys_nil _ _
        | some m => exact AMap.nodupKeys_store (hw.nodup m hp) _ _
    have same : ∀ (w : URL) (x : Bytes) (k : Bytes), (k = b!"registry" ∨ k = b!"filter") →
        Spec.SameNode (fun k => k = b!"registry" ∨ k = b!"filter") (putParam w k x) w := by
      intro w x k hk
      refine ⟨rfl, rfl, rfl, rfl, rfl, fun k' hk' => ?_⟩
      rw [putParam_param, if_neg]
      rintro rfl
      exact hk' hk
    have regk : ∀ (w : URL) (x : Bytes), (putParam w b!"filter" x).param b!"registry" = w.param b!"registry" := by
      intro w x
      rw [putParam_param, if_neg (by decide)]
    -- the registry
    have b1 := put u b!"registry" id ⟨hf, hn⟩ (by decide)
    have s1 := same u id b!"registry" (.inl rfl)
    have r1 : (putParam u b!"registry" id).param b!"registry" = some id := by rw [putParam_param, if_pos rfl]
    generalize putParam u b!"registry" id = w1 at b1 s1 r1
    -- the agent's filters
    have b2 : Spec.Built (Dynamic.putAgentFilters w1) ∧
        Spec.SameNode (fun k => k = b!"registry" ∨ k = b!"filter") (Dynamic.putAgentFilters w1) u ∧
        (Dynamic.putAgentFilters w1).param b!"registry" = some id := by
      rw [Dynamic.putAgentFilters]
      split
      · exact ⟨put _ _ _ b1 (by decide), (same _ _ _ (.inr rfl)).trans s1, by rw [regk]; exact r1⟩
      · exact ⟨b1, s1, r1⟩
    generalize Dynamic.putAgentFilters w1 = w2 at b2
    rw [Dynamic.putFinalFilters]
    split
    · exact ⟨put _ _ _ b2.1 (by decide), (same _ _ _ (.inr rfl)).trans b2.2.1, id, rfl, by rw [regk]; exact b2.2.2⟩
    · exact ⟨b2.1, b2.2.1, id, rfl, b2.2.2⟩

theorem parseURLs_map {E : Env} {us vs : List URL} (h : Dynamic.parseURLs E us = some vs) :
    us.map (Dynamic.parseURL E) = vs.map some := by
  induction us generalizing vs with
  | nil => cases h; rfl
  | cons u us ih =>
    rw [Dynamic.parseURLs] at h
    cases hp : Dynamic.parseURL E u with
    | none => rw [hp] at h; cases h
    | some v =>
      rw [hp] at h
      cases hq : Dynamic.parseURLs E us with
      | none => rw [hq] at h; cases h
      | some ws =>
        rw [hq] at h
        cases h
        rw [List.map_cons, List.map_cons, hp, ih hq]

theorem parseURLs_none {E : Env} {us : List URL} (h : Dynamic.parseURLs E us = none) :
    ∃ u ∈ us, Dynamic.parseURL E u = none := by
  induction us with
  | nil => cases h
  | cons u us ih =>
    rw [Dynamic.parseURLs] at h
    cases hp : Dynamic.parseURL E u with
    | none => exact ⟨u, List.mem_cons_self, hp⟩
    | some v =>
      rw [hp] at h
      cases hq : Dynamic.parseURLs E us with
      | none =>
        obtain ⟨w, hw, hw'⟩ := ih hq
        exact ⟨w, List.mem_cons_of_mem _ hw, hw'⟩
      | some ws => rw [hq] at h; cases h

/-- Each group of the body has its parsed URL, and each parsed URL is of a group. -/
theorem parsed_groups {E : Env} {body : URL} {vs : List URL} (hb : Spec.Built body)
    (h : Dynamic.parseURLs E (Dynamic.readURLs E body) = some vs) :
    (vs.map URL.group).Nodup ∧ (∀ g, g ∈ vs.map URL.group ↔ Spec.IsGroup E body g) ∧
    ∀ v ∈ vs, Spec.Built v ∧ v.protocol = body.protocol ∧ v.host = body.host ∧ v.port = body.port ∧
      v.path = body.path ∧ (∀ k, k ≠ b!"registry" → k ≠ b!"filter" → v.param k = body.param k) ∧
      ∃ id, Dynamic.findRegistry E (copy body) = some id ∧ v.param b!"registry" = some id := by
  have hmap := parseURLs_map h
  have hnonempty : ∀ g ∈ Dynamic.slicesUnique [] (trimSplit (Dynamic.withExtra E body.group) b!","), g ≠ [] :=
    fun g hg => ((mem_groups E body g).mp hg).1
  have hnodup := (slicesUnique_spec (trimSplit (Dynamic.withExtra E body.group) b!",") [] List.nodup_nil).1
  -- the URLs read
  have hread : Dynamic.readURLs E body = (Dynamic.slicesUnique [] (trimSplit (Dynamic.withExtra E body.group) b!",")).map
      fun g => { copy body with group := g } := rfl
  have hone : ∀ v ∈ vs, ∃ g ∈ Dynamic.slicesUnique [] (trimSplit (Dynamic.withExtra E body.group) b!","),
      Dynamic.parseURL E { copy body with group := g } = some v := by
    intro v hv
    have : some v ∈ (Dynamic.readURLs E body).map (Dynamic.parseURL E) := by
      rw [hmap]; exact List.mem_map_of_mem hv
    rw [hread, List.map_map, List.mem_map] at this
    obtain ⟨g, hg, hv⟩ := this
    exact ⟨g, hg, hv⟩
  have hspec : ∀ g v, g ≠ [] → Dynamic.parseURL E { copy body with group := g } = some v →
      v.group = g ∧ Spec.Built v ∧ v.protocol = body.protocol ∧ v.host = body.host ∧ v.port = body.port ∧
      v.path = body.path ∧ (∀ k, k ≠ b!"registry" → k ≠ b!"filter" → v.param k = body.param k) ∧
      ∃ id, Dynamic.findRegistry E (copy body) = some id ∧ v.param b!"registry" = some id := by
    intro g v hg hv
    obtain ⟨s1, s2, id, s3, s4⟩ := parseURL_spec hv ⟨rfl, rfl, rfl, rfl, rfl⟩ hg (copy_built body).nodup
    refine ⟨s2.group, s1, s2.protocol, s2.host, s2.port, s2.path, fun k h1 h2 => ?_, id, s3, s4⟩
    rw [s2.params k (fun h => h.elim h1 h2)]
    exact copy_param body hb.nodup k
  have hgroups : vs.map URL.group = Dynamic.slicesUnique [] (trimSplit (Dynamic.withExtra E body.group) b!",") := by
    rw [hread, List.map_map] at hmap
    generalize Dynamic.slicesUnique [] (trimSplit (Dynamic.withExtra E body.group) b!",") = gs at hmap hnonempty
    clear hone h hread hnodup
    induction gs generalizing vs with
    | nil =>
      cases vs with
      | nil => rfl
      | cons v vs => cases hmap
    | cons g gs ih =>
      cases vs with
      | nil => cases hmap
      | cons v vs =>
        rw [List.map_cons, List.map_cons, List.cons.injEq] at hmap
        rw [List.map_cons, (hspec g v (hnonempty g List.mem_cons_self) hmap.1).1,
          ih hmap.2 fun x hx => hnonempty x (List.mem_cons_of_mem _ hx)]
  refine ⟨by rw [hgroups]; exact hnodup, fun g => by rw [hgroups]; exact mem_groups E body g, fun v hv => ?_⟩
  obtain ⟨g, hg, hv'⟩ := hone v hv
  exact (hspec g v (hnonempty g hg) hv').2

theorem clear_fresh (u : URL) : Spec.Fresh (clearCachedInfo u) := ⟨rfl, rfl, rfl, rfl, rfl⟩

theorem putParam_nodup {u : URL} (h : ∀ m, u.params = some m → m.NodupKeys) (k v : Bytes) :
    ∀ m, (putParam u k v).params = some m → m.NodupKeys := by
  intro m hm
  cases hm
  cases hp : u.params with
  | none => exact AMap.nodupKeys_store AMap.nodupKeys_nil _ _
  | some m => exact AMap.nodupKeys_store (h m hp) _ _

theorem trimSpace_id {s : Bytes} (h : ∀ c ∈ s, isSpace c = false) : trimSpace s = s := by
  have hd : ∀ l : Bytes, (∀ c ∈ l, isSpace c = false) → l.dropWhile isSpace = l := by
    intro l hl
    cases l with
    | nil => rfl
    | cons c l => rw [List.dropWhile_cons, hl c List.mem_cons_self]; rfl
  rw [trimSpace, hd s h, hd s.reverse fun c hc => h c (List.mem_reverse.mp hc), List.reverse_reverse]

theorem formatInt_noSpace (n : Int) : ∀ c ∈ formatInt n, isSpace c = false := by
  intro c hc
  rcases formatInt_mem n c hc with rfl | ⟨h1, h2⟩
  · decide
  · rw [isSpace]
    have h1 := UInt8.le_iff_toNat_le.mp h1
    have h2 := UInt8.le_iff_toNat_le.mp h2
    refine decide_eq_false ?_
    rintro (rfl | rfl | rfl | rfl | rfl | rfl) <;> revert h1 <;> decide

/-- core/util.go `ParseExportInfo` reads back what the handler writes. -/
theorem parseExportInfo_spec {p : Bytes} (hp : p ≠ []) (hc : (58 : UInt8) ∉ p) (hs : ∀ c ∈ p, isSpace c = false) (n : Int)
    (hlo : -2 ^ 63 ≤ n) (hhi : n < 2 ^ 63) : Dynamic.parseExportInfo (p ++ b!":" ++ formatInt n) = (p, n) := by
  have hcolon : (b!":" : Bytes) = [58] := by decide
  have : trimSplit (p ++ b!":" ++ formatInt n) b!":" = [p, formatInt n] := by
    rw [trimSplit_eq _ _ (by decide), hcolon, split_cons hc,
      split_single (not_mem_formatInt n (by decide) (by decide))]
    simp only [List.map_cons, List.map_nil, trimSpace_id hs, trimSpace_id (formatInt_noSpace n)]
    rw [List.filter_cons_of_pos (by simpa using hp), List.filter_cons_of_pos (by simpa using formatInt_ne_nil n)]
    rfl
  rw [Dynamic.parseExportInfo, this]
  simp only [parseInt64_formatInt n hlo hhi]

/-- What a registered node looks like: the agent's own address and port, and the service's own port behind it. -/
theorem exportURL_spec (E : Env) {v : URL} (hv : Spec.Built v) (hp : v.protocol ≠ []) (hc : (58 : UInt8) ∉ v.protocol)
    (hs : ∀ c ∈ v.protocol, isSpace c = false) (hlo : -2 ^ 63 ≤ E.eport) (hhi : E.eport < 2 ^ 63) :
    Spec.Built (Dynamic.exportURL E v) ∧ (Dynamic.exportURL E v).protocol = v.protocol ∧
    (Dynamic.exportURL E v).host = E.localIP ∧ (Dynamic.exportURL E v).port = E.eport ∧
    (Dynamic.exportURL E v).path = v.path ∧ (Dynamic.exportURL E v).group = v.group ∧
    (Dynamic.exportURL E v).param b!"proxy" = some (v.protocol ++ b!":" ++ formatInt v.port) ∧
    ∀ k, k ≠ b!"proxy" → k ≠ b!"export" → k ≠ b!"application" → (Dynamic.exportURL E v).param k = v.param k := by
  have hps : getPortStr v = (formatInt v.port, { v with portStrC := some (formatInt v.port) }) := by
    rw [getPortStr, hv.fresh.2.1]
  rw [Dynamic.exportURL, hps]
  simp only
  generalize hw : ({ v with portStrC := some (formatInt v.port) } : URL) = w
  have wn : ∀ m, w.params = some m → m.NodupKeys := by rw [← hw]; exact hv.nodup
  have wf : w.protocol = v.protocol ∧ w.path = v.path ∧ w.group = v.group ∧ ∀ k, w.param k = v.param k := by
    rw [← hw]; exact ⟨rfl, rfl, rfl, fun _ => rfl⟩
  obtain ⟨f1, f2, f3, f4⟩ := wf
  rw [show (putParam w b!"proxy" (v.protocol ++ b!":" ++ formatInt v.port)).protocol = v.protocol from f1]
  have hexp : ∀ x y, getParam (putParam (putParam w b!"proxy" x) b!"export" y) b!"export" [] = y := by
    intro x y
    rw [getParam_empty, putParam_param, if_pos rfl]; rfl
  rw [Dynamic.initProxyServiceURL, hexp, parseExportInfo_spec hp hc hs E.eport hlo hhi]
  simp only
  have q := putParam_nodup (putParam_nodup wn b!"proxy" (v.protocol ++ b!":" ++ formatInt v.port)) b!"export"
    (v.protocol ++ b!":" ++ formatInt E.eport)
  have pk : ∀ k, (putParam (putParam w b!"proxy" (v.protocol ++ b!":" ++ formatInt v.port)) b!"export"
      (v.protocol ++ b!":" ++ formatInt E.eport)).param k = if b!"export" = k then
        some (v.protocol ++ b!":" ++ formatInt E.eport) else if b!"proxy" = k then
        some (v.protocol ++ b!":" ++ formatInt v.port) else v.param k := by
    intro k
    rw [putParam_param, putParam_param, f4]
  generalize hz : putParam (putParam w b!"proxy" (v.protocol ++ b!":" ++ formatInt v.port)) b!"export"
    (v.protocol ++ b!":" ++ formatInt E.eport) = z at q pk ⊢
  have z2 : z.path = v.path := by rw [← hz]; exact f2
  have z3 : z.group = v.group := by rw [← hz]; exact f3
  split
  · refine ⟨⟨clear_fresh _, putParam_nodup (u := { z with protocol := v.protocol, port := E.eport, host := E.localIP }) q _ _⟩,
      rfl, rfl, rfl, z2, z3, ?_, fun k h1 h2 h3 => ?_⟩
    · show (putParam { z with protocol := v.protocol, port := E.eport, host := E.localIP } b!"application"
        E.application).param b!"proxy" = _
      rw [putParam_param, if_neg (by decide)]
      show z.param b!"proxy" = _
      rw [pk, if_neg (by decide), if_pos rfl]
    · show (putParam { z with protocol := v.protocol, port := E.eport, host := E.localIP } b!"application"
        E.application).param k = _
      rw [putParam_param, if_neg h3.symm]
      show z.param k = _
      rw [pk, if_neg h2.symm, if_neg h1.symm]
  · refine ⟨⟨clear_fresh _, q⟩, rfl, rfl, rfl, z2, z3, ?_, fun k h1 h2 h3 => ?_⟩
    · show z.param b!"proxy" = _
      rw [pk, if_neg (by decide), if_pos rfl]
    · show z.param k = _
      rw [pk, if_neg h2.symm, if_neg h1.symm]

/-- The registry of the configuration a request names: by its address, or by an escaped URL of the same protocol, host
and port. -/
def Spec.NamesRegistry (E : Env) (body : URL) (r : URL) : Prop :=
  body.param b!"proxyRegistry" = some (r.protocol ++ b!"://" ++ r.host ++ b!":" ++ formatInt r.port) ∨
  ∃ s ext r', body.param b!"proxyRegistryUrlString" = some s ∧ s ≠ [] ∧ E.unescape s = some ext ∧
    fromExtInfo ext = some r' ∧ r'.protocol = r.protocol ∧ r'.host = r.host ∧ r'.port = r.port

theorem param_of_getParam {u : URL} {k : Bytes} (h : getParam u k [] ≠ []) : u.param k = some (getParam u k []) := by
  rw [getParam_empty] at h ⊢
  cases hp : u.param k with
  | none => rw [hp] at h; exact absurd rfl h
  | some v => rfl

theorem addr_ne_nil (r : URL) : Dynamic.registryAddr r ≠ [] := by
  rw [Dynamic.registryAddr]
  simp

theorem registryByAddr_some {E : Env} {u : URL} {id : Bytes} (h : Dynamic.registryByAddr E u = some id) :
    ∃ r, (id, r) ∈ E.registries ∧ u.param b!"proxyRegistry" = some (Dynamic.registryAddr r) := by
  rw [Dynamic.registryByAddr] at h
  split at h
  · rename_i hne
    rw [Option.map_eq_some_iff] at h
    obtain ⟨p, hp, rfl⟩ := h
    have h1 := List.find?_some hp
    have h2 := List.mem_of_find?_eq_some hp
    refine ⟨p.2, h2, ?_⟩
    rw [of_decide_eq_true h1]
    exact param_of_getParam hne
  · cases h

theorem registryByAddr_none {E : Env} {u : URL} (h : Dynamic.registryByAddr E u = none) :
    ∀ p ∈ E.registries, u.param b!"proxyRegistry" ≠ some (Dynamic.registryAddr p.2) := by
  intro p hp hc
  have hg : getParam u b!"proxyRegistry" [] = Dynamic.registryAddr p.2 := by rw [getParam_empty, hc]; rfl
  rw [Dynamic.registryByAddr] at h
  rw [hg, if_pos (addr_ne_nil _), Option.map_eq_none_iff, List.find?_eq_none] at h
  exact h p hp (decide_eq_true rfl)

theorem registryByUrl_some {E : Env} {u : URL} {id : Bytes} (h : Dynamic.registryByUrl E u = some id) :
    ∃ r, (id, r) ∈ E.registries ∧ Spec.NamesRegistry E u r := by
  rw [Dynamic.registryByUrl] at h
  split at h
  · rename_i hne
    cases hu : E.unescape (getParam u b!"proxyRegistryUrlString" []) with
    | none => rw [hu] at h; cases h
    | some ext =>
      rw [hu] at h
      cases hx : fromExtInfo ext with
      | none => simp only [Option.bind_some, hx] at h; cases h
      | some r' =>
        simp only [Option.bind_some, hx] at h
        rw [Option.map_eq_some_iff] at h
        obtain ⟨p, hp, rfl⟩ := h
        have h1 := List.find?_some hp
        have h2 := List.mem_of_find?_eq_some hp
        have h1 := of_decide_eq_true h1
        exact ⟨p.2, h2, .inr ⟨_, ext, r', param_of_getParam hne, hne, hu, hx, h1⟩⟩
  · cases h

theorem registryByUrl_none {E : Env} {u : URL} (h : Dynamic.registryByUrl E u = none) :
    ∀ p ∈ E.registries, ¬ ∃ s ext r', u.param b!"proxyRegistryUrlString" = some s ∧ s ≠ [] ∧
      E.unescape s = some ext ∧ fromExtInfo ext = some r' ∧ r'.protocol = p.2.protocol ∧ r'.host = p.2.host ∧
      r'.port = p.2.port := by
  rintro p hp ⟨s, ext, r', h1, h2, h3, h4, h5⟩
  have hg : getParam u b!"proxyRegistryUrlString" [] = s := by rw [getParam_empty, h1]; rfl
  rw [Dynamic.registryByUrl] at h
  rw [hg, if_pos h2, h3] at h
  simp only [Option.bind_some, h4] at h
  rw [Option.map_eq_none_iff, List.find?_eq_none] at h
  exact h p hp (decide_eq_true h5)

theorem findRegistry_some {E : Env} {u : URL} {id : Bytes} (h : Dynamic.findRegistry E u = some id) :
    ∃ r, (id, r) ∈ E.registries ∧ Spec.NamesRegistry E u r := by
  rw [Dynamic.findRegistry] at h
  by_cases h0 : (Dynamic.registryByAddr E u).getD [] = []
  · simp only [if_pos h0] at h
    cases hr : Dynamic.registryByUrl E u with
    | none => rw [hr] at h; cases h
    | some x =>
      rw [hr, Option.getD_some] at h
      split at h
      · cases h
      · cases h; exact registryByUrl_some hr
  · simp only [if_neg h0] at h
    cases hr : Dynamic.registryByAddr E u with
    | none => rw [hr] at h0; exact absurd rfl h0
    | some x =>
      rw [hr] at h
      cases h
      obtain ⟨r, h1, h2⟩ := registryByAddr_some hr
      exact ⟨r, h1, .inl h2⟩

theorem findRegistry_none {E : Env} {u : URL} (hid : ∀ p ∈ E.registries, p.1 ≠ [])
    (h : Dynamic.findRegistry E u = none) : ∀ p ∈ E.registries, ¬ Spec.NamesRegistry E u p.2 := by
  rw [Dynamic.findRegistry] at h
  have h1 : Dynamic.registryByAddr E u = none := by
    cases hr : Dynamic.registryByAddr E u with
    | none => rfl
    | some id =>
      obtain ⟨r, hm, _⟩ := registryByAddr_some hr
      rw [hr] at h
      simp only [Option.getD_some] at h
      rw [if_neg (hid _ hm), if_neg (hid _ hm)] at h
      cases h
  have h2 : Dynamic.registryByUrl E u = none := by
    cases hr : Dynamic.registryByUrl E u with
    | none => rfl
    | some id =>
      obtain ⟨r, hm, _⟩ := registryByUrl_some hr
      rw [h1, hr] at h
      simp only [Option.getD_some, Option.getD_none] at h
      rw [if_pos trivial, if_neg (hid _ hm)] at h
      cases h
  intro p hp hn
  rcases hn with hn | hn
  · exact registryByAddr_none h1 p hp hn
  · exact registryByUrl_none h2 p hp hn

theorem namesRegistry_copy {E : Env} {body : URL} (hb : ∀ m, body.params = some m → m.NodupKeys) (r : URL) :
    Spec.NamesRegistry E (copy body) r ↔ Spec.NamesRegistry E body r := by
  rw [Spec.NamesRegistry, Spec.NamesRegistry, copy_param body hb, copy_param body hb]

/-! ## Requests -/

/-- The URLs of a configurer call. -/
def Spec.reqURL : Req → URL
  | .register u => u
  | .unregister u => u
  | .subscribe u => u

/-- The kind of a call. -/
def Spec.isKind : Dynamic.Kind → Req → Prop
  | .register, .register _ => True
  | .unregister, .unregister _ => True
  | .subscribe, .subscribe _ => True
  | _, _ => False

/-- C54: an accepted request makes one call for each group it names (or the environment adds), each group once, all of
the requested kind, for the same service and the registry the request names. -/
theorem request_groups {E : Env} {k : Dynamic.Kind} {body : URL} (hb : Spec.Built body) {calls : List Req}
    (h : Dynamic.requestCalls E k body = some calls) (hp : body.protocol ≠ []) (hc : (58 : UInt8) ∉ body.protocol)
    (hs : ∀ c ∈ body.protocol, isSpace c = false) (hlo : -2 ^ 63 ≤ E.eport) (hhi : E.eport < 2 ^ 63) :
    (calls.map fun c => (Spec.reqURL c).group).Nodup ∧
    (∀ g, g ∈ calls.map (fun c => (Spec.reqURL c).group) ↔ Spec.IsGroup E body g) ∧
    ∀ c ∈ calls, Spec.isKind k c ∧ Spec.Built (Spec.reqURL c) ∧ (Spec.reqURL c).protocol = body.protocol ∧
      (Spec.reqURL c).path = body.path ∧
      ∃ id r, (id, r) ∈ E.registries ∧ Spec.NamesRegistry E body r ∧
        (Spec.reqURL c).param b!"registry" = some id := by
  rw [Dynamic.requestCalls, Option.map_eq_some_iff] at h
  obtain ⟨vs, hv, rfl⟩ := h
  obtain ⟨h1, h2, h3⟩ := parsed_groups hb hv
  have hx : ∀ v ∈ vs, (Spec.reqURL (Dynamic.callOf E v k)).group = v.group ∧ Spec.isKind k (Dynamic.callOf E v k) ∧
      Spec.Built (Spec.reqURL (Dynamic.callOf E v k)) ∧ (Spec.reqURL (Dynamic.callOf E v k)).protocol = v.protocol ∧
      (Spec.reqURL (Dynamic.callOf E v k)).path = v.path ∧
      (Spec.reqURL (Dynamic.callOf E v k)).param b!"registry" = v.param b!"registry" := by
    intro v hv
    obtain ⟨b1, b2, _⟩ := h3 v hv
    have ex := exportURL_spec E b1 (b2 ▸ hp) (b2 ▸ hc) (b2 ▸ hs) hlo hhi
    obtain ⟨e1, e2, _, _, e3, e4, _, e5⟩ := ex
    cases k with
    | register => exact ⟨e4, trivial, e1, e2, e3, e5 _ (by decide) (by decide) (by decide)⟩
    | unregister => exact ⟨e4, trivial, e1, e2, e3, e5 _ (by decide) (by decide) (by decide)⟩
    | subscribe => exact ⟨rfl, trivial, ⟨b1.fresh, b1.nodup⟩, rfl, rfl, rfl⟩
  have hg : (vs.map fun u => Dynamic.callOf E u k).map (fun c => (Spec.reqURL c).group) = vs.map URL.group := by
    rw [List.map_map]
    exact List.map_congr_left fun v hv => (hx v hv).1
  refine ⟨hg ▸ h1, fun g => by rw [hg]; exact h2 g, fun c hc => ?_⟩
  obtain ⟨v, hv, rfl⟩ := List.mem_map.mp hc
  obtain ⟨_, x1, x2, x3, x4, x5⟩ := hx v hv
  obtain ⟨_, y2, _, _, y3, _, id, y4, y5⟩ := h3 v hv
  obtain ⟨r, z1, z2⟩ := findRegistry_some y4
  exact ⟨x1, x2, x3.trans y2, x4.trans y3, id, r, z1, (namesRegistry_copy hb.nodup r).mp z2, x5.trans y5⟩

/-- C54: registering (and unregistering) is of a node at the agent's own address and export port, which records the
service's own protocol and port; the request's other parameters but the filters are kept. -/
theorem request_node {E : Env} {k : Dynamic.Kind} {body : URL} (hb : Spec.Built body) {calls : List Req}
    (h : Dynamic.requestCalls E k body = some calls) (hp : body.protocol ≠ []) (hc : (58 : UInt8) ∉ body.protocol)
    (hs : ∀ c ∈ body.protocol, isSpace c = false) (hlo : -2 ^ 63 ≤ E.eport) (hhi : E.eport < 2 ^ 63) :
    ∀ c ∈ calls,
      (Spec.reqURL c).host = (match k with | .subscribe => [] | _ => E.localIP) ∧
      (Spec.reqURL c).port = (match k with | .subscribe => 0 | _ => E.eport) ∧
      (k ≠ .subscribe → (Spec.reqURL c).param b!"proxy" = some (body.protocol ++ b!":" ++ formatInt body.port)) ∧
      ∀ x, x ∉ [b!"registry", b!"filter", b!"proxy", b!"export", b!"application"] →
        (Spec.reqURL c).param x = body.param x := by
  rw [Dynamic.requestCalls, Option.map_eq_some_iff] at h
  obtain ⟨vs, hv, rfl⟩ := h
  obtain ⟨_, _, h3⟩ := parsed_groups hb hv
  intro c hc'
  obtain ⟨v, hv, rfl⟩ := List.mem_map.mp hc'
  obtain ⟨b1, b2, _, b4, _, b6, _⟩ := h3 v hv
  obtain ⟨_, _, e1, e2, _, _, e3, e5⟩ := exportURL_spec E b1 (b2 ▸ hp) (b2 ▸ hc) (b2 ▸ hs) hlo hhi
  have ek : ∀ x, x ∉ [b!"registry", b!"filter", b!"proxy", b!"export", b!"application"] →
      (Dynamic.exportURL E v).param x = body.param x := by
    intro x hx
    simp only [List.mem_cons, List.not_mem_nil, or_false, not_or] at hx
    obtain ⟨x1, x2, x3, x4, x5⟩ := hx
    rw [e5 x x3 x4 x5, b6 x x1 x2]
  rw [b2, b4] at e3
  cases k with
  | register => exact ⟨e1, e2, fun _ => e3, ek⟩
  | unregister => exact ⟨e1, e2, fun _ => e3, ek⟩
  | subscribe =>
    refine ⟨rfl, rfl, fun h => absurd rfl h, fun x hx => ?_⟩
    simp only [List.mem_cons, List.not_mem_nil, or_false, not_or] at hx
    exact b6 x hx.1 hx.2.1

/-- C54: a request is refused exactly if it names some group and no registry of the configuration. -/
theorem request_refused {E : Env} (hid : ∀ p ∈ E.registries, p.1 ≠ []) (k : Dynamic.Kind) {body : URL} (hb : Spec.Built body) :
    Dynamic.requestCalls E k body = none ↔
      (∃ g, Spec.IsGroup E body g) ∧ ∀ p ∈ E.registries, ¬ Spec.NamesRegistry E body p.2 := by
  rw [Dynamic.requestCalls, Option.map_eq_none_iff]
  constructor
  · intro h
    obtain ⟨u, hu, hn⟩ := parseURLs_none h
    rw [Dynamic.readURLs, List.mem_map] at hu
    obtain ⟨g, hg, rfl⟩ := hu
    have hg := (mem_groups E body g).mp hg
    refine ⟨⟨g, hg⟩, fun p hp => ?_⟩
    rw [← namesRegistry_copy hb.nodup]
    replace hn : Dynamic.parseURL E { copy body with group := g } = none := hn
    rw [Dynamic.parseURL, show Dynamic.groupFromParam { copy body with group := g } = { copy body with group := g } by
      rw [Dynamic.groupFromParam]; exact if_neg hg.1] at hn
    cases hr : Dynamic.findRegistry E { copy body with group := g } with
    | none => exact findRegistry_none hid hr p hp
    | some id => simp only [hr] at hn; cases hn
  · rintro ⟨⟨g, hg⟩, hn⟩
    cases hv : Dynamic.parseURLs E (Dynamic.readURLs E body) with
    | none => rfl
    | some vs =>
      obtain ⟨_, h2, h3⟩ := parsed_groups hb hv
      have := (h2 g).mpr hg
      rw [List.mem_map] at this
      obtain ⟨v, hv, _⟩ := this
      obtain ⟨_, _, _, _, _, _, id, hf, _⟩ := h3 v hv
      obtain ⟨r, hr, hnr⟩ := findRegistry_some hf
      exact absurd ((namesRegistry_copy hb.nodup r).mp hnr) (hn _ hr)

/-- C41, C54: the calls of an accepted request are such as the theorems on histories are about. -/
theorem request_good {E : Env} {k : Dynamic.Kind} {body : URL} (hb : Spec.Built body) {calls : List Req}
    (h : Dynamic.requestCalls E k body = some calls) (hp : body.protocol ≠ []) (hc : (58 : UInt8) ∉ body.protocol)
    (hs : ∀ c ∈ body.protocol, isSpace c = false) (hlo : -2 ^ 63 ≤ E.eport) (hhi : E.eport < 2 ^ 63)
    (hg : (36 : UInt8) ∉ body.group) (he : (36 : UInt8) ∉ E.extraGroups) : ∀ c ∈ calls, Spec.GoodReq c := by
  obtain ⟨_, h2, h3⟩ := request_groups hb h hp hc hs hlo hhi
  intro c hcc
  obtain ⟨h4, h5, _⟩ := h3 c hcc
  have hgr : (36 : UInt8) ∉ (Spec.reqURL c).group := by
    intro hd
    obtain ⟨_, p, hp, hpe⟩ := (h2 (Spec.reqURL c).group).mp (List.mem_map_of_mem hcc)
    rw [← hpe] at hd
    have hd := mem_trimSpace hd
    rcases hp with hp | hp
    · exact hg (by rw [← join_split b!"," body.group]; exact mem_join hp hd)
    · exact he (by rw [← join_split b!"," E.extraGroups]; exact mem_join hp hd)
  cases c with
  | register u => exact h5
  | unregister u => exact h5
  | subscribe u => exact ⟨h5, hgr⟩

/-- C54: "registers what a later unregister request with the same body removes": the two requests make calls about the
same URLs. -/
theorem request_inverse {E : Env} {body : URL} {us : List Req}
    (h : Dynamic.requestCalls E .register body = some us) :
    ∃ vs : List URL, us = vs.map Req.register ∧ Dynamic.requestCalls E .unregister body = some (vs.map Req.unregister) := by
  rw [Dynamic.requestCalls, Option.map_eq_some_iff] at h
  obtain ⟨ws, hw, rfl⟩ := h
  refine ⟨ws.map (Dynamic.exportURL E), ?_, ?_⟩
  · rw [List.map_map]; rfl
  · rw [Dynamic.requestCalls, hw, List.map_map]; rfl

/-- C54, violated: a body with the group among its parameters, which the code means to read, is accepted but nothing
is done. -/
theorem group_parameter_ignored_violated :
    ∃ (E : Env) (body : URL), Spec.Built body ∧ body.param b!"group" = some b!"g1" ∧
      (∃ p ∈ E.registries, Spec.NamesRegistry E body p.2) ∧
      ∀ k, Dynamic.requestCalls E k body = some [] := by
  refine ⟨dynEnv, { dynBody with group := [], params := some [(b!"proxyRegistry", b!"direct://reg:80"), (b!"group", b!"g1")] },
    ⟨⟨rfl, rfl, rfl, rfl, rfl⟩, fun m hm => ?_⟩, by decide, ⟨_, List.mem_cons_self, .inl (by decide +kernel)⟩, fun k => ?_⟩
  · cases hm
    show List.Nodup _
    decide +kernel
  · have hnil : Dynamic.slicesUnique [] (trimSplit (Dynamic.withExtra dynEnv []) b!",") = [] := by decide +kernel
    rw [Dynamic.requestCalls, Dynamic.readURLs]
    simp only
    rw [hnil]
    rfl

theorem dynBody_built : Spec.Built dynBody := by
  refine ⟨⟨rfl, rfl, rfl, rfl, rfl⟩, fun m hm => ?_⟩
  cases hm
  show List.Nodup _
  decide +kernel

/-- The request of the example names two groups, both registered. -/
example : (Dynamic.requestCalls dynEnv .register dynBody).map (fun calls => calls.map fun c => (Spec.reqURL c).group) =
      some [b!"g1", b!"g2"] ∧
    dynBody.protocol ≠ [] ∧ (58 : UInt8) ∉ dynBody.protocol ∧ (∀ c ∈ dynBody.protocol, isSpace c = false) := by
  refine ⟨?_, ?_, ?_, ?_⟩ <;> decide +kernel

/-- And one for a registry not configured is refused. -/
example : ∃ body, Spec.Built body ∧ Dynamic.requestCalls dynEnv .subscribe body = none := by
  refine ⟨{ dynBody with params := some [(b!"proxyRegistry", b!"direct://other:80")] },
    ⟨⟨rfl, rfl, rfl, rfl, rfl⟩, fun m hm => ?_⟩, Option.isNone_iff_eq_none.mp (by decide +kernel)⟩
  cases hm
  show List.Nodup _
  decide +kernel

/-! ## Filters of a request -/

/-- A comma separated list names `f`. -/
def Spec.Listed (s f : Bytes) : Prop := ∃ p ∈ split b!"," s, trimSpace p = f

/-- The filters an application asks of the agent: the names after `af_`; if it has none, all it names. -/
def Spec.OwnFilter (s f : Bytes) : Prop :=
  (∃ x, x ≠ [] ∧ Spec.Listed s (b!"af_" ++ x) ∧ trimSpace x = f) ∨
  (¬ ∃ x, x ≠ [] ∧ Spec.Listed s (b!"af_" ++ x)) ∧ Spec.Listed s f

/-- The filters of the agent for a request. -/
def Spec.WantedFilter (E : Env) (body : URL) (f : Bytes) : Prop :=
  f ≠ [] ∧
  ((Spec.Listed E.defaultFilter f ∧ ¬ Spec.Listed ((body.param b!"disableDefaultFilter").getD []) f) ∨
   (Spec.Listed E.globalFilter f ∧ ¬ Spec.Listed ((body.param b!"disableGlobalFilter").getD []) f) ∨
   Spec.Listed E.envFilter f ∨ (∃ r ∈ E.relevantFilters, trimSpace r = f) ∨
   Spec.OwnFilter ((body.param b!"filter").getD []) f)

theorem stringParam (u : URL) (k : Bytes) : getStringParamsWithDefault u k [] = (u.param k).getD [] := by
  rw [getStringParamsWithDefault]
  split
  · rename_i h; exact h.symm
  · rfl

theorem listed_nil {f : Bytes} (hf : f ≠ []) : ¬ Spec.Listed [] f := by
  rintro ⟨p, hp, rfl⟩
  rw [show (b!"," : Bytes) = [44] by decide, split_single (by simp), List.mem_singleton] at hp
  subst hp
  exact hf (by decide)

theorem mem_filterSet (s d f : Bytes) : f ∈ Dynamic.filterSet s d ↔ f ≠ [] ∧ Spec.Listed s f ∧ ¬ Spec.Listed d f := by
  rw [Dynamic.filterSet]
  have hm : ∀ t, (f ∈ (split b!"," t).map trimSpace ↔ Spec.Listed t f) := fun t => List.mem_map
  split
  · rename_i h
    subst h
    constructor
    · intro h; cases h
    · rintro ⟨h1, h2, _⟩; exact absurd h2 (listed_nil h1)
  · rw [List.mem_filter, List.mem_filter, hm]
    simp only [decide_eq_true_eq, hm]
    constructor
    · rintro ⟨⟨h1, h2⟩, h3⟩; exact ⟨h2, h1, h3⟩
    · rintro ⟨h1, h2, h3⟩; exact ⟨⟨h2, h1⟩, h3⟩

theorem dropWhile_space_nil {s : Bytes} (h : s.dropWhile isSpace = []) : ∀ c ∈ s, isSpace c = true := by
  induction s with
  | nil => intro c hc; cases hc
  | cons a s ih =>
    rw [List.dropWhile_cons] at h
    split at h
    · rename_i ha
      intro c hc
      rcases List.mem_cons.mp hc with rfl | hc
      · exact ha
      · exact ih h c hc
    · cases h

theorem trimSpace_nil {s : Bytes} (h : trimSpace s = []) : ∀ c ∈ s, isSpace c = true := by
  rw [trimSpace, List.reverse_eq_nil_iff] at h
  have h1 := dropWhile_space_nil h
  have h2 : s.dropWhile isSpace = [] := by
    cases hd : s.dropWhile isSpace with
    | nil => rfl
    | cons a r =>
      have h3 := List.head?_dropWhile_not isSpace s
      rw [hd] at h3
      have h4 := h1 a (by rw [hd]; simp)
      simp [h4] at h3
  exact dropWhile_space_nil h2

/-- The last byte of a trimmed string is not a space. -/
theorem trimSpace_last {s t : Bytes} {c : UInt8} (h : trimSpace s = t ++ [c]) : isSpace c = false := by
  rw [trimSpace] at h
  have h1 : (s.dropWhile isSpace).reverse.dropWhile isSpace = c :: t.reverse := by
    rw [← List.reverse_reverse ((s.dropWhile isSpace).reverse.dropWhile isSpace), h]; simp
  have h3 := List.head?_dropWhile_not isSpace (s.dropWhile isSpace).reverse
  rw [h1] at h3
  simpa using h3

theorem mem_trimSplit_iff (s f : Bytes) : f ∈ trimSplit s b!"," ↔ f ≠ [] ∧ Spec.Listed s f := by
  rw [trimSplit_eq _ _ (by decide), List.mem_filter, List.mem_map]
  simp only [decide_eq_true_eq]
  exact ⟨fun h => ⟨h.2, h.1⟩, fun h => ⟨h.2, h.1⟩⟩

theorem mem_agentFilters (u : URL) (f : Bytes) :
    f ∈ Dynamic.agentFilters u ↔ ∃ x, x ≠ [] ∧ Spec.Listed ((u.param b!"filter").getD []) (b!"af_" ++ x) ∧ trimSpace x = f := by
  rw [Dynamic.agentFilters, List.mem_map, getParam_empty]
  constructor
  · rintro ⟨g, hg, rfl⟩
    rw [List.mem_filter, List.mem_filter, mem_trimSplit_iff] at hg
    obtain ⟨⟨⟨_, h1⟩, h2⟩, h3⟩ := hg
    have h2 : b!"af_" <+: g := by simpa [hasPrefix] using h2
    obtain ⟨x, rfl⟩ := h2
    refine ⟨x, ?_, h1, rfl⟩
    rintro rfl
    simp at h3
  · rintro ⟨x, hx, hl, rfl⟩
    refine ⟨b!"af_" ++ x, ?_, rfl⟩
    rw [List.mem_filter, List.mem_filter, mem_trimSplit_iff]
    refine ⟨⟨⟨by simp, hl⟩, by simp [hasPrefix]⟩, ?_⟩
    simpa using hx

theorem not_mem_of_mem_split {c : UInt8} {s p : Bytes} (hp : p ∈ split [c] s) : c ∉ p := by
  generalize hn : s.length = n
  induction n using Nat.strongRecOn generalizing s with
  | ind n ih =>
    rcases split_at_byte c s with h | ⟨a, t, rfl, ha⟩
    · rw [split_single h, List.mem_singleton] at hp; rw [hp]; exact h
    · rw [show a ++ c :: t = a ++ [c] ++ t by simp, split_cons ha] at hp
      rcases List.mem_cons.mp hp with rfl | hp
      · exact ha
      · exact ih t.length (by simp at hn; omega) hp rfl

theorem agentFilter_ne {u : URL} {f : Bytes} (h : f ∈ Dynamic.agentFilters u) : f ≠ [] ∧ (44 : UInt8) ∉ f := by
  obtain ⟨x, hx, ⟨p, hp, hpe⟩, rfl⟩ := (mem_agentFilters u f).mp h
  constructor
  · intro hn
    rcases List.eq_nil_or_concat x with rfl | ⟨t, c, rfl⟩
    · exact hx rfl
    · have h1 := trimSpace_nil hn c (by simp)
      have h2 := trimSpace_last (s := p) (t := b!"af_" ++ t) (c := c) (by rw [hpe]; simp)
      rw [h1] at h2; cases h2
  · intro hc
    have h1 := mem_trimSpace hc
    have h2 : (44 : UInt8) ∈ trimSpace p := by rw [hpe]; exact List.mem_append_right _ h1
    have h3 := mem_trimSpace h2
    exact not_mem_of_mem_split (show p ∈ split [44] _ from hp) h3

theorem dropWhile_idem (l : Bytes) : (l.dropWhile isSpace).dropWhile isSpace = l.dropWhile isSpace := by
  have h3 := List.head?_dropWhile_not isSpace l
  cases hd : l.dropWhile isSpace with
  | nil => rfl
  | cons a r =>
    rw [hd] at h3
    have h3 : isSpace a = false := by simpa using h3
    rw [List.dropWhile_cons, h3]; rfl

theorem trimSpace_idem (s : Bytes) : trimSpace (trimSpace s) = trimSpace s := by
  have h1 : (trimSpace s).dropWhile isSpace = trimSpace s := by
    have h0 := dropWhile_idem s
    rw [trimSpace]
    generalize s.dropWhile isSpace = d at h0
    have hd : (d.reverse.dropWhile isSpace).reverse ++ (d.reverse.takeWhile isSpace).reverse = d := by
      rw [← List.reverse_append, List.takeWhile_append_dropWhile, List.reverse_reverse]
    generalize (d.reverse.dropWhile isSpace).reverse = e at hd
    cases e with
    | nil => rfl
    | cons a e =>
      rw [← hd, List.cons_append, List.dropWhile_cons] at h0
      rw [List.dropWhile_cons]
      split
      · rename_i ha
        rw [if_pos ha] at h0
        have h2 := List.dropWhile_sublist isSpace (l := e ++ (d.reverse.takeWhile isSpace).reverse)
        have h3 := h2.length_le
        rw [h0] at h3
        simp only [List.length_cons] at h3
        omega
      · rfl
  rw [trimSpace, h1, trimSpace, List.reverse_reverse, dropWhile_idem]

theorem listed_join {l : List Bytes} (hne : l ≠ []) (hc : ∀ f ∈ l, (44 : UInt8) ∉ f) (ht : ∀ f ∈ l, trimSpace f = f) (f : Bytes) :
    Spec.Listed (join b!"," l) f ↔ f ∈ l := by
  rw [Spec.Listed, show (b!"," : Bytes) = [44] by decide, split_join l hne hc]
  constructor
  · rintro ⟨p, hp, rfl⟩; rw [ht p hp]; exact hp
  · intro h; exact ⟨f, h, ht f h⟩

/-- What the request's own filters become. -/
theorem own_filters (u : URL) (f : Bytes) (hf : f ≠ []) :
    Spec.Listed (((Dynamic.putAgentFilters u).param b!"filter").getD []) f ↔
      Spec.OwnFilter ((u.param b!"filter").getD []) f := by
  rw [Dynamic.putAgentFilters]
  by_cases hl : Dynamic.agentFilters u = []
  · rw [hl, if_neg (by simp [join])]
    have hno : ¬ ∃ x, x ≠ [] ∧ Spec.Listed ((u.param b!"filter").getD []) (b!"af_" ++ x) := by
      rintro ⟨x, hx, hlx⟩
      have := (mem_agentFilters u (trimSpace x)).mpr ⟨x, hx, hlx, rfl⟩
      rw [hl] at this; cases this
    constructor
    · intro h; exact .inr ⟨hno, h⟩
    · rintro (⟨x, hx, hlx, _⟩ | ⟨_, h⟩)
      · exact absurd ⟨x, hx, hlx⟩ hno
      · exact h
  · have hc : ∀ g ∈ Dynamic.agentFilters u, (44 : UInt8) ∉ g := fun g hg => (agentFilter_ne hg).2
    have ht : ∀ g ∈ Dynamic.agentFilters u, trimSpace g = g := by
      intro g hg
      obtain ⟨x, _, _, rfl⟩ := (mem_agentFilters u g).mp hg
      exact trimSpace_idem x
    have hj : join b!"," (Dynamic.agentFilters u) ≠ [] := by
      intro hj
      have h1 := split_join (c := 44) (Dynamic.agentFilters u) hl hc
      have h2 : split [44] (join [44] (Dynamic.agentFilters u)) = [[]] := by
        rw [show (join [44] (Dynamic.agentFilters u)) = [] from hj]
        exact split_single (by simp)
      rw [h1] at h2
      exact (agentFilter_ne (u := u) (f := []) (by rw [h2]; exact List.mem_cons_self)).1 rfl
    rw [if_pos hj, putParam_param, if_pos rfl, Option.getD_some, listed_join hl hc ht, mem_agentFilters]
    constructor
    · intro h; exact .inl h
    · rintro (h | ⟨h, _⟩)
      · exact h
      · obtain ⟨g, hg⟩ := List.exists_mem_of_ne_nil _ hl
        obtain ⟨x, hx, hlx, _⟩ := (mem_agentFilters u g).mp hg
        exact absurd ⟨x, hx, hlx⟩ h

/-- The filters of a parsed URL are exactly those wanted. -/
theorem parsed_filters {E : Env} {u v : URL} (h : Dynamic.parseURL E u = some v) (hg : u.group ≠ [])
    (hr : ∀ r ∈ E.relevantFilters, (44 : UInt8) ∉ r) (f : Bytes) (hf : f ≠ []) :
    Spec.Listed ((v.param b!"filter").getD []) f ↔ Spec.WantedFilter E u f := by
  rw [Dynamic.parseURL, show Dynamic.groupFromParam u = u by rw [Dynamic.groupFromParam, if_neg hg]] at h
  cases hfr : Dynamic.findRegistry E u with
  | none => simp only [hfr] at h; cases h
  | some id =>
    simp only [hfr] at h
    cases h
    have hw1 : ∀ k, k ≠ b!"registry" → (putParam u b!"registry" id).param k = u.param k := by
      intro k hk
      rw [putParam_param, if_neg (Ne.symm hk)]
    generalize putParam u b!"registry" id = w1 at hw1
    have hown := fun f hf => own_filters w1 f hf
    have hw2 : ∀ k, k ≠ b!"filter" → (Dynamic.putAgentFilters w1).param k = w1.param k := by
      intro k hk
      rw [Dynamic.putAgentFilters]
      split
      · rw [putParam_param, if_neg (Ne.symm hk)]
      · rfl
    generalize Dynamic.putAgentFilters w1 = w2 at hown hw2
    rw [hw1 b!"filter" (by decide)] at hown
    -- the merged filters
    have hfin : ∀ g, g ∈ Dynamic.finalFilters E w2 ↔ Spec.WantedFilter E u g := by
      intro g
      rw [Dynamic.finalFilters, (slicesUnique_spec _ [] List.nodup_nil).2, List.mem_filter]
      simp only [List.mem_append, mem_filterSet, stringParam, List.mem_map, decide_eq_true_eq, List.not_mem_nil, false_or]
      rw [hw2 _ (show b!"disableDefaultFilter" ≠ b!"filter" by decide), hw1 _ (show b!"disableDefaultFilter" ≠ b!"registry" by decide),
        hw2 _ (show b!"disableGlobalFilter" ≠ b!"filter" by decide), hw1 _ (show b!"disableGlobalFilter" ≠ b!"registry" by decide)]
      rw [Spec.WantedFilter]
      constructor
      · rintro ⟨(((⟨_, h⟩ | ⟨_, h⟩) | ⟨_, h, _⟩) | h) | ⟨_, h, _⟩, hne⟩
        · exact ⟨hne, .inl h⟩
        · exact ⟨hne, .inr (.inl h)⟩
        · exact ⟨hne, .inr (.inr (.inl h))⟩
        · exact ⟨hne, .inr (.inr (.inr (.inl h)))⟩
        · exact ⟨hne, .inr (.inr (.inr (.inr ((hown g hne).mp h))))⟩
      · rintro ⟨hne, h | h | h | h | h⟩
        · exact ⟨.inl (.inl (.inl (.inl ⟨hne, h⟩))), hne⟩
        · exact ⟨.inl (.inl (.inl (.inr ⟨hne, h⟩))), hne⟩
        · exact ⟨.inl (.inl (.inr ⟨hne, h, listed_nil hne⟩)), hne⟩
        · exact ⟨.inl (.inr h), hne⟩
        · exact ⟨.inr ⟨hne, (hown g hne).mpr h, listed_nil hne⟩, hne⟩
    rw [Dynamic.putFinalFilters]
    split
    · rename_i hne
      rw [putParam_param, if_pos rfl, Option.getD_some, listed_join hne, hfin]
      · -- no commas
        intro g hg hcm
        rw [hfin] at hg
        have hlist : ∀ t, Spec.Listed t g → False := by
          rintro t ⟨p, hp, rfl⟩
          exact not_mem_of_mem_split (show p ∈ split [44] t from hp) (mem_trimSpace hcm)
        obtain ⟨_, h | h | h | ⟨r, h1, rfl⟩ | h⟩ := hg
        · exact hlist _ h.1
        · exact hlist _ h.1
        · exact hlist _ h
        · exact hr r h1 (mem_trimSpace hcm)
        · rcases h with ⟨x, _, ⟨p, hp, hpe⟩, rfl⟩ | ⟨_, h⟩
          · have : (44 : UInt8) ∈ trimSpace p := by rw [hpe]; exact List.mem_append_right _ (mem_trimSpace hcm)
            exact not_mem_of_mem_split (show p ∈ split [44] _ from hp) (mem_trimSpace this)
          · exact hlist _ h
      · intro g hg
        rw [hfin] at hg
        obtain ⟨_, ⟨⟨p, _, rfl⟩, _⟩ | ⟨⟨p, _, rfl⟩, _⟩ | ⟨p, _, rfl⟩ | ⟨p, _, rfl⟩ | h⟩ := hg
        · exact trimSpace_idem p
        · exact trimSpace_idem p
        · exact trimSpace_idem p
        · exact trimSpace_idem p
        · rcases h with ⟨x, _, _, rfl⟩ | ⟨_, p, _, rfl⟩
          · exact trimSpace_idem x
          · exact trimSpace_idem p
    · rename_i hnil
      have hnil : Dynamic.finalFilters E w2 = [] := by
        by_cases h : Dynamic.finalFilters E w2 = []
        · exact h
        · exact absurd h hnil
      rw [← hfin, hnil, hown f hf]
      constructor
      · intro h
        have := (hfin f).mpr ⟨hf, .inr (.inr (.inr (.inr h)))⟩
        rw [hnil] at this; exact this
      · intro h; cases h

/-- C54: the filters of what is registered or subscribed are exactly those wanted: the agent's default and global ones
the request does not disable, those of the environment and those the application asks of the agent. -/
theorem request_filters {E : Env} {k : Dynamic.Kind} {body : URL} (hb : Spec.Built body) {calls : List Req}
    (h : Dynamic.requestCalls E k body = some calls) (hp : body.protocol ≠ []) (hc : (58 : UInt8) ∉ body.protocol)
    (hs : ∀ c ∈ body.protocol, isSpace c = false) (hlo : -2 ^ 63 ≤ E.eport) (hhi : E.eport < 2 ^ 63)
    (hr : ∀ r ∈ E.relevantFilters, (44 : UInt8) ∉ r) :
    ∀ c ∈ calls, ∀ f, f ≠ [] →
      (Spec.Listed (((Spec.reqURL c).param b!"filter").getD []) f ↔ Spec.WantedFilter E body f) := by
  rw [Dynamic.requestCalls, Option.map_eq_some_iff] at h
  obtain ⟨vs, hv, rfl⟩ := h
  obtain ⟨_, _, h3⟩ := parsed_groups hb hv
  intro c hc' f hf
  obtain ⟨v, hvm, rfl⟩ := List.mem_map.mp hc'
  obtain ⟨b1, b2, _⟩ := h3 v hvm
  have hfilter : (Spec.reqURL (Dynamic.callOf E v k)).param b!"filter" = v.param b!"filter" := by
    obtain ⟨_, _, _, _, _, _, _, e5⟩ := exportURL_spec E b1 (b2 ▸ hp) (b2 ▸ hc) (b2 ▸ hs) hlo hhi
    cases k with
    | register => exact e5 _ (by decide) (by decide) (by decide)
    | unregister => exact e5 _ (by decide) (by decide) (by decide)
    | subscribe => rfl
  rw [hfilter]
  have : some v ∈ (Dynamic.readURLs E body).map (Dynamic.parseURL E) := by
    rw [parseURLs_map hv]; exact List.mem_map_of_mem hvm
  rw [Dynamic.readURLs, List.map_map, List.mem_map] at this
  obtain ⟨g, hg, hgv⟩ := this
  replace hgv : Dynamic.parseURL E { copy body with group := g } = some v := hgv
  rw [parsed_filters hgv ((mem_groups E body g).mp hg).1 hr f hf]
  rw [Spec.WantedFilter, Spec.WantedFilter]
  show _ ∧ ((_ ∧ ¬ Spec.Listed (((copy body).param _).getD []) f) ∨ (_ ∧ ¬ Spec.Listed (((copy body).param _).getD []) f) ∨
    _ ∨ _ ∨ Spec.OwnFilter (((copy body).param _).getD []) f) ↔ _
  rw [copy_param body hb.nodup, copy_param body hb.nodup, copy_param body hb.nodup]

/-- With one filter for the agent the application's other filters are dropped; with none they are all kept. -/
example : Spec.OwnFilter b!"metrics, af_trace" b!"trace" ∧ ¬ Spec.OwnFilter b!"metrics, af_trace" b!"metrics" ∧
    Spec.OwnFilter b!"metrics" b!"metrics" := by
  have h1 : split b!"," b!"metrics, af_trace" = [b!"metrics", b!" af_trace"] := by decide +kernel
  have h2 : split b!"," b!"metrics" = [b!"metrics"] := by decide +kernel
  have h3 : Spec.Listed b!"metrics, af_trace" (b!"af_" ++ b!"trace") := by
    refine ⟨b!" af_trace", ?_, by decide⟩
    rw [h1]; decide
  refine ⟨.inl ⟨b!"trace", by decide, h3, by decide⟩, ?_, .inr ⟨?_, ⟨b!"metrics", by rw [h2]; decide, by decide⟩⟩⟩
  · rintro (⟨x, _, ⟨p, hp, hpe⟩, hx⟩ | ⟨h, _⟩)
    · rw [h1] at hp
      simp only [List.mem_cons, List.not_mem_nil, or_false] at hp
      rcases hp with rfl | rfl
      · have : (b!"metrics" : Bytes) = b!"af_" ++ x := by rw [← hpe]; decide
        cases this
      · have : (b!"af_trace" : Bytes) = b!"af_" ++ x := by rw [← hpe]; decide
        cases this
        revert hx; decide
    · exact h ⟨b!"trace", by decide, h3⟩
  · rintro ⟨x, _, p, hp, hpe⟩
    rw [h2] at hp
    simp only [List.mem_cons, List.not_mem_nil, or_false] at hp
    subst hp
    have : (b!"metrics" : Bytes) = b!"af_" ++ x := by rw [← hpe]; decide
    cases this

/-! ## The serving status (C42) -/

/-- The last status set by a request, and by a restart without recovery. -/
def Spec.lastSet : Int → List Dynamic.Status.Op → Int
  | s, [] => s
  | _, .available :: ops => Spec.lastSet 200 ops
  | _, .unavailable :: ops => Spec.lastSet 503 ops
  | s, .restart true :: ops => Spec.lastSet s ops
  | _, .restart false :: ops => Spec.lastSet 503 ops

/-- The status was set at some time. -/
def Spec.everSet (ops : List Dynamic.Status.Op) : Prop := .available ∈ ops ∨ .unavailable ∈ ops

theorem status_file (s : Dynamic.Status.St) (ops : List Dynamic.Status.Op) :
    (Spec.everSet ops → (Dynamic.Status.run s ops).file = some b!"200") ∧
    (¬ Spec.everSet ops → (Dynamic.Status.run s ops).file = s.file) := by
  have h200 : formatInt 200 = b!"200" := by decide +kernel
  have hr : ∀ s : Dynamic.Status.St, (Dynamic.Status.recoverStatus s).file = s.file := by
    intro s
    rw [Dynamic.Status.recoverStatus]
    split
    · rfl
    · split <;> rfl
  induction ops using snocRec with
  | nil => exact ⟨(fun h => by rcases h with h | h <;> cases h), (fun _ => rfl)⟩
  | append_singleton ops o ih =>
    rw [Dynamic.Status.run, List.foldl_append]
    show (_ → (Dynamic.Status.step (Dynamic.Status.run s ops) o).file = _) ∧
      (_ → (Dynamic.Status.step (Dynamic.Status.run s ops) o).file = _)
    simp only [Spec.everSet, List.mem_append, List.mem_singleton] at ih ⊢
    cases o with
    | available => exact ⟨fun _ => by rw [← h200]; rfl, fun h => absurd (.inl (.inr rfl)) h⟩
    | unavailable => exact ⟨fun _ => by rw [← h200]; rfl, fun h => absurd (.inr (.inr rfl)) h⟩
    | restart b =>
      have hf : (Dynamic.Status.step (Dynamic.Status.run s ops) (.restart b)).file = (Dynamic.Status.run s ops).file := by
        cases b
        · rfl
        · exact hr _
      rw [hf]
      refine ⟨fun h => ih.1 ?_, fun h => ih.2 ?_⟩
      · rcases h with (h | h) | (h | h)
        · exact .inl h
        · cases h
        · exact .inr h
        · cases h
      · rintro (h' | h')
        · exact h (.inl (.inl h'))
        · exact h (.inr (.inl h'))

/-- C42, what holds: after any history from a first start, a restart with recovery serves exactly if the status was
ever set, and one without recovery never serves. -/
theorem status_after_restart (s : Dynamic.Status.St) (hs : s.file = none) (ops : List Dynamic.Status.Op) :
    (Spec.everSet ops → (Dynamic.Status.run s (ops ++ [.restart true])).status = 200) ∧
    (¬ Spec.everSet ops → (Dynamic.Status.run s (ops ++ [.restart true])).status = 503) ∧
    (Dynamic.Status.run s (ops ++ [.restart false])).status = 503 := by
  obtain ⟨h1, h2⟩ := status_file s ops
  refine ⟨fun h => ?_, fun h => ?_, ?_⟩
  · rw [Dynamic.Status.run, List.foldl_append]
    show (Dynamic.Status.recoverStatus (Dynamic.Status.run s ops)).status = _
    rw [Dynamic.Status.recoverStatus, h1 h]
    decide +kernel
  · rw [Dynamic.Status.run, List.foldl_append]
    show (Dynamic.Status.recoverStatus (Dynamic.Status.run s ops)).status = _
    rw [Dynamic.Status.recoverStatus, h2 h, hs]
  · rw [Dynamic.Status.run, List.foldl_append]; rfl

/-- C42 as wanted, which is false of the code. -/
def Spec.StatusSurvives : Prop := ∀ (s : Dynamic.Status.St) (ops : List Dynamic.Status.Op), s.file = none → Spec.everSet ops →
  (Dynamic.Status.run s (ops ++ [.restart true])).status = Spec.lastSet s.status ops

/-- C42, the part that holds: the status survives when the last one set was "available", whatever restarts with
recovery come between. -/
theorem status_survives_partial (s : Dynamic.Status.St) (hs : s.file = none) (ops : List Dynamic.Status.Op)
    (h : Spec.everSet ops) (hl : Spec.lastSet s.status ops = 200) :
    (Dynamic.Status.run s (ops ++ [.restart true])).status = Spec.lastSet s.status ops := by
  rw [hl]; exact (status_after_restart s hs ops).1 h

/-- C42, violated: an agent set unavailable serves again after a restart with recovery. -/
theorem status_survives_violated : ¬ Spec.StatusSurvives := by
  intro h
  have := h ⟨503, none⟩ [.available, .unavailable] rfl (.inl List.mem_cons_self)
  revert this
  decide +kernel

/-- While the process runs, its status is the last one set. -/
theorem status_running (s : Dynamic.Status.St) (ops : List Dynamic.Status.Op) (h : .restart true ∉ ops) :
    (Dynamic.Status.run s ops).status = Spec.lastSet s.status ops := by
  induction ops generalizing s with
  | nil => rfl
  | cons o ops ih =>
    rw [Dynamic.Status.run, List.foldl_cons]
    show (Dynamic.Status.run (Dynamic.Status.step s o) ops).status = _
    rw [ih _ fun h' => h (List.mem_cons_of_mem _ h')]
    cases o with
    | available => rfl
    | unavailable => rfl
    | restart b =>
      cases b
      · rfl
      · exact absurd List.mem_cons_self h

example : Spec.everSet [.unavailable, .available, .restart true] ∧
    Spec.lastSet 503 [.unavailable, .available, .restart true] = 200 ∧
    (Dynamic.Status.run ⟨503, none⟩ [.unavailable, .available, .restart true]).status = 200 :=
  ⟨.inl (List.mem_cons_of_mem _ List.mem_cons_self), rfl, by decide +kernel⟩

end Motan.Props
