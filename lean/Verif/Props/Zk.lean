import Verif.Model.Zk
import Verif.Props.Url

/-!
# C43: zookeeper registration

The nodes in zookeeper follow the calls, a new session restores them, and clients discover exactly the available
services.
-/

namespace Motan.Props

open Strings Url
open Zk (St Tree NodeType Op Lists Ranges)

/-! ## Specification -/

/-- Services of one protocol (the parameter) whose names need no escaping in a path, registered by a process that
is not an agent registering itself. -/
structure Spec.Service (proto : Bytes) (u : URL) : Prop where
  clean : Spec.Clean u
  coherent : Coherent u
  nodup : ∀ m, u.params = some m → m.NodupKeys
  group : (47 : UInt8) ∉ u.group
  host : u.host ≠ []
  protocol : u.protocol = proto
  server : u.param b!"nodeType" ≠ some b!"agent"

/-- Protocols other than `direct`, whose registry identity has another form, and none that looks like a Java
stream. -/
def Spec.PlainProto (proto : Bytes) : Prop := proto ≠ b!"direct" ∧ proto ≠ [] ∧ proto.head? ≠ some 0xac

/-- The path of a service's node. -/
def Spec.zkPath (kind : Bytes) (u : URL) : Bytes :=
  b!"/motan/" ++ u.group ++ b!"/" ++ u.path ++ b!"/" ++ kind ++ b!"/" ++ u.host ++ b!":" ++ formatInt u.port

/-- There is a node of this kind for the service. -/
def Spec.HasNode (s : St) (kind : Bytes) (u : URL) : Prop := (AMap.load s.tree (Spec.zkPath kind u)).isSome

/-- What a caller expects: whether the registry is connected, which services are registered, and for each identity no
node, an available one, or an unavailable one. -/
structure Spec.View where
  conn : Bool
  reg : Bytes → Bool
  node : Bytes → Option Bool

/-- A function changed at one point. -/
def Spec.upd {α : Type} (f : Bytes → α) (k : Bytes) (v : α) : Bytes → α := fun k' => if k' = k then v else f k'

/-- What each call is expected to do. Losing and regaining the connection changes no node. -/
def Spec.View.next (v : Spec.View) : Op → Spec.View
  | .register u =>
    if v.conn ∧ ¬ v.reg (Spec.identity u) then
      { v with reg := Spec.upd v.reg (Spec.identity u) true, node := Spec.upd v.node (Spec.identity u) (some false) }
    else v
  | .unregister u =>
    if v.conn ∧ v.reg (Spec.identity u) then
      { v with reg := Spec.upd v.reg (Spec.identity u) false, node := Spec.upd v.node (Spec.identity u) none }
    else v
  | .available (some u) _ => if v.conn then { v with node := Spec.upd v.node (Spec.identity u) (some true) } else v
  | .available none _ => if v.conn then { v with node := fun k => if v.reg k then some true else v.node k } else v
  | .unavailable (some u) _ => if v.conn then { v with node := Spec.upd v.node (Spec.identity u) (some false) } else v
  | .unavailable none _ => if v.conn then { v with node := fun k => if v.reg k then some false else v.node k } else v
  | .disconnect => { v with conn := false }
  | .reconnect _ _ _ => { v with conn := true }

/-- The view after a history. -/
def Spec.viewAfter (h : List Op) : Spec.View := h.foldl Spec.View.next ⟨true, fun _ => false, fun _ => none⟩

/-- The URL of a call. -/
def Spec.opURL : Op → Option URL
  | .register u => some u
  | .unregister u => some u
  | .available o _ => o
  | .unavailable o _ => o
  | _ => none

/-- All calls are about such services. -/
def Spec.About (proto : Bytes) (h : List Op) : Prop := ∀ op ∈ h, ∀ u, Spec.opURL op = some u → Spec.Service proto u

/-- The calls whose effect a new session restores: availability is changed of registered services, a service is made
unavailable before it is unregistered, and, once all services have been made available with one call, a session is
lost only when all registered services have the same availability. -/
def Spec.Allowed (v : Spec.View) (all : Prop) : Op → Prop
  | .unregister u => v.conn = true → v.node (Spec.identity u) ≠ some true
  | .available (some u) _ => v.conn = true → v.reg (Spec.identity u) = true
  | .unavailable (some u) _ => v.conn = true → v.reg (Spec.identity u) = true
  | .reconnect _ _ _ => ¬ all ∨ (∀ k, v.reg k = true → v.node k = some true) ∨ (∀ k, v.reg k = true → v.node k = some false)
  | _ => True

/-- All services have been made available with one call. -/
def Spec.usedAll (h : List Op) : Prop := ∃ rs, .available none rs ∈ h

def Spec.Restorable (h : List Op) : Prop :=
  ∀ h1 op h2, h = h1 ++ op :: h2 → Spec.Allowed (Spec.viewAfter h1) (Spec.usedAll h1) op

/-! ## Paths -/

variable {proto : Bytes}

theorem service_identity (hp : Spec.PlainProto proto) {u : URL} (h : Spec.Service proto u) :
    (getIdentity u).1 = Spec.identity u :=
  getIdentity_spec h.coherent (by rw [h.protocol]; exact hp.1)

theorem service_address {u : URL} (h : Spec.Service proto u) : (getAddressStr u).1 = u.host ++ b!":" ++ formatInt u.port := by
  rw [(getAddressStr_spec h.coherent).1, Spec.address, if_neg]
  rintro ⟨t, ht⟩
  apply h.clean.host.1
  rw [← ht]
  exact List.mem_append_left _ (by decide)

theorem nodePath_eq {u : URL} (h : Spec.Service proto u) (t : NodeType) : Zk.nodePath u t = Spec.zkPath t.name u := by
  rw [Zk.nodePath, service_address h, Zk.typePath, Zk.servicePath, Zk.groupPath, Spec.zkPath]
  simp only [List.append_assoc]
  rfl

theorem typeName_inj {t t' : NodeType} (h : t.name = t'.name) : t = t' := by
  cases t <;> cases t' <;> first | rfl | (revert h; decide)

theorem typeName_slash (t : NodeType) : (47 : UInt8) ∉ t.name := by cases t <;> decide

theorem zkPath_inj (hp : Spec.PlainProto proto) {u v : URL} (hu : Spec.Service proto u) (hv : Spec.Service proto v)
    (t t' : NodeType) :
    Spec.zkPath t.name u = Spec.zkPath t'.name v ↔ Spec.identity u = Spec.identity v ∧ t = t' := by
  constructor
  · intro h
    simp only [Spec.zkPath, List.append_assoc, List.cons_append, List.nil_append] at h
    simp only [List.cons.injEq, true_and] at h
    obtain ⟨h1, h⟩ := append_sep_inj h hu.group hv.group
    obtain ⟨h2, h⟩ := append_sep_inj h hu.clean.path.1 hv.clean.path.1
    obtain ⟨h3, h⟩ := append_sep_inj h (typeName_slash t) (typeName_slash t')
    obtain ⟨h4, h⟩ := append_sep_inj h hu.clean.host.1 hv.clean.host.1
    have h5 := formatInt_injective hu.clean.port.1 hu.clean.port.2 hv.clean.port.1 hv.clean.port.2 h
    refine ⟨?_, typeName_inj h3⟩
    have hd : u.protocol ≠ b!"direct" := by rw [hu.protocol]; exact hp.1
    have hd' : v.protocol ≠ b!"direct" := by rw [hv.protocol]; exact hp.1
    rw [Spec.identity, Spec.identity, if_neg hd, if_neg hd', hu.protocol, hv.protocol, h1, h2, h4, h5]
  · rintro ⟨h, rfl⟩
    obtain ⟨_, h2, h3, h4, h5⟩ := identity_injective u v ⟨hu.clean.protocol.1, hu.clean.host.1, hu.clean.path.2⟩
      ⟨hv.clean.protocol.1, hv.clean.host.1, hv.clean.path.2⟩ hu.clean.port hv.clean.port
      (by rw [hu.protocol]; exact hp.1) h
    rw [Spec.zkPath, Spec.zkPath, h2, h3, h4, h5]

/-! ## The tree as a function of identities -/

/-- The nodes of the tree are those of `node`, all nodes are of services, and carry a service's ext-info. -/
structure Rep (proto : Bytes) (t : Tree) (node : Bytes → Option Bool) : Prop where
  server : ∀ u, Spec.Service proto u → ((AMap.load t (Spec.zkPath b!"server" u)).isSome ↔ node (Spec.identity u) = some true)
  unavail : ∀ u, Spec.Service proto u →
    ((AMap.load t (Spec.zkPath b!"unavailableServer" u)).isSome ↔ node (Spec.identity u) = some false)
  nodes : ∀ p d, AMap.load t p = some d →
    ∃ u ty, Spec.Service proto u ∧ p = Spec.zkPath (NodeType.name ty) u ∧ d = (toExtInfo u).1
  nodup : AMap.NodupKeys t

theorem rep_nil : Rep proto [] fun _ => none :=
  ⟨fun u _ => by simp [AMap.load], fun u _ => by simp [AMap.load], (fun p d h => by cases h), AMap.nodupKeys_nil⟩

theorem rep_congr {t : Tree} {n n' : Bytes → Option Bool} (h : Rep proto t n) (he : ∀ k, n k = n' k) : Rep proto t n' := by
  have : n = n' := funext he
  rw [← this]; exact h

theorem load_create (t : Tree) (p : Bytes) (u : URL) (q : Bytes) :
    AMap.load (Zk.createNode t p u) q = if p = q then some (toExtInfo u).1 else AMap.load t q := by
  rw [Zk.createNode, AMap.load_store, Zk.removeNode, AMap.load_erase]
  split <;> rfl

theorem load_remove (t : Tree) (p q : Bytes) :
    AMap.load (Zk.removeNode t p) q = if p = q then none else AMap.load t q := AMap.load_erase t p q

/-- Moving a service from one kind of node to the other. -/
theorem rep_move (hp : Spec.PlainProto proto) {t : Tree} {n : Bytes → Option Bool} (h : Rep proto t n) {u : URL}
    (hu : Spec.Service proto u) (b : Bool) :
    Rep proto (Zk.createNode (Zk.removeNode t (Zk.nodePath u (if b then .unavailable else .server)))
      (Zk.nodePath u (if b then .server else .unavailable)) u) (Spec.upd n (Spec.identity u) (some b)) := by
  rw [nodePath_eq hu, nodePath_eq hu]
  have key : ∀ (v : URL) (ty : NodeType), Spec.Service proto v →
      AMap.load (Zk.createNode (Zk.removeNode t (Spec.zkPath (NodeType.name (if b then .unavailable else .server)) u))
        (Spec.zkPath (NodeType.name (if b then .server else .unavailable)) u) u) (Spec.zkPath ty.name v) =
      if Spec.identity u = Spec.identity v ∧ (if b then NodeType.server else .unavailable) = ty then some (toExtInfo u).1
      else if Spec.identity u = Spec.identity v ∧ (if b then NodeType.unavailable else .server) = ty then none
      else AMap.load t (Spec.zkPath ty.name v) := by
    intro v ty hv
    rw [load_create, load_remove]
    by_cases h1 : Spec.identity u = Spec.identity v ∧ (if b then NodeType.server else .unavailable) = ty
    · rw [if_pos h1, if_pos ((zkPath_inj hp hu hv _ _).mpr h1)]
    · rw [if_neg h1, if_neg (fun h => h1 ((zkPath_inj hp hu hv _ _).mp h))]
      by_cases h2 : Spec.identity u = Spec.identity v ∧ (if b then NodeType.unavailable else .server) = ty
      · rw [if_pos h2, if_pos ((zkPath_inj hp hu hv _ _).mpr h2)]
      · rw [if_neg h2, if_neg (fun h => h2 ((zkPath_inj hp hu hv _ _).mp h))]
  refine ⟨fun v hv => ?_, fun v hv => ?_, fun p d hd => ?_, ?_⟩
  · have := key v .server hv
    replace this : AMap.load _ (Spec.zkPath b!"server" v) = _ := this
    rw [this, Spec.upd]
    by_cases he : Spec.identity u = Spec.identity v
    · rw [if_pos he.symm]
      cases b <;> simp [he]
    · rw [if_neg (Ne.symm he), if_neg (fun h => he h.1), if_neg (fun h => he h.1)]
      exact h.server v hv
  · have := key v .unavailable hv
    replace this : AMap.load _ (Spec.zkPath b!"unavailableServer" v) = _ := this
    rw [this, Spec.upd]
    by_cases he : Spec.identity u = Spec.identity v
    · rw [if_pos he.symm]
      cases b <;> simp [he]
    · rw [if_neg (Ne.symm he), if_neg (fun h => he h.1), if_neg (fun h => he h.1)]
      exact h.unavail v hv
  · rw [load_create, load_remove] at hd
    generalize (if b then NodeType.server else NodeType.unavailable) = ty1 at hd
    generalize (if b then NodeType.unavailable else NodeType.server) = ty2 at hd
    split at hd
    · rename_i he
      cases hd
      exact ⟨u, _, hu, he.symm, rfl⟩
    · split at hd
      · cases hd
      · exact h.nodes p d hd
  · exact AMap.nodupKeys_store (AMap.nodupKeys_erase (AMap.nodupKeys_erase h.nodup _) _) _ _

theorem rep_avail (hp : Spec.PlainProto proto) {s : St} {n : Bytes → Option Bool} (h : Rep proto s.tree n) {u : URL}
    (hu : Spec.Service proto u) (o : Option URL) :
    Rep proto (Zk.availOne s u o).tree (Spec.upd n (Spec.identity u) (some true)) := rep_move hp h hu true

theorem rep_unavail (hp : Spec.PlainProto proto) {s : St} {n : Bytes → Option Bool} (h : Rep proto s.tree n) {u : URL}
    (hu : Spec.Service proto u) :
    Rep proto (Zk.unavailOne s u).tree (Spec.upd n (Spec.identity u) (some false)) := rep_move hp h hu false

theorem isAgent_false {u : URL} (hu : Spec.Service proto u) : Zk.isAgent u = false := decide_eq_false hu.server

theorem doRegister_eq {u : URL} (hu : Spec.Service proto u) (s : St) : Zk.doRegister s u =
    { s with tree := Zk.createNode (Zk.removeNode s.tree (Zk.nodePath u .server)) (Zk.nodePath u .unavailable) u } := by
  rw [Zk.doRegister, isAgent_false hu]; rfl

theorem rep_register (hp : Spec.PlainProto proto) {s : St} {n : Bytes → Option Bool} (h : Rep proto s.tree n) {u : URL}
    (hu : Spec.Service proto u) :
    Rep proto (Zk.doRegister s u).tree (Spec.upd n (Spec.identity u) (some false)) := by
  rw [doRegister_eq hu]; exact rep_move hp h hu false

theorem rep_remove (hp : Spec.PlainProto proto) {t : Tree} {n : Bytes → Option Bool} (h : Rep proto t n) {u : URL}
    (hu : Spec.Service proto u) :
    Rep proto (Zk.removeNode (Zk.removeNode t (Zk.nodePath u .server)) (Zk.nodePath u .unavailable))
      (Spec.upd n (Spec.identity u) none) := by
  rw [nodePath_eq hu, nodePath_eq hu]
  refine ⟨fun v hv => ?_, fun v hv => ?_, fun p d hd => ?_, ?_⟩
  · rw [load_remove, load_remove, Spec.upd]
    by_cases he : Spec.identity u = Spec.identity v
    · have := (zkPath_inj hp hu hv .server .server).mpr ⟨he, rfl⟩
      replace this : Spec.zkPath (NodeType.server).name u = Spec.zkPath b!"server" v := this
      rw [if_pos he.symm, if_pos this]
      simp
    · have h1 := fun h => he ((zkPath_inj hp hu hv .unavailable .server).mp h).1
      have h2 := fun h => he ((zkPath_inj hp hu hv .server .server).mp h).1
      replace h1 : ¬ Spec.zkPath (NodeType.unavailable).name u = Spec.zkPath b!"server" v := h1
      replace h2 : ¬ Spec.zkPath (NodeType.server).name u = Spec.zkPath b!"server" v := h2
      rw [if_neg (Ne.symm he), if_neg h1, if_neg h2]
      exact h.server v hv
  · rw [load_remove, load_remove, Spec.upd]
    by_cases he : Spec.identity u = Spec.identity v
    · have := (zkPath_inj hp hu hv .unavailable .unavailable).mpr ⟨he, rfl⟩
      replace this : Spec.zkPath (NodeType.unavailable).name u = Spec.zkPath b!"unavailableServer" v := this
      rw [if_pos he.symm, if_pos this]
      simp
    · have h1 := fun h => he ((zkPath_inj hp hu hv .unavailable .unavailable).mp h).1
      have h2 := fun h => he ((zkPath_inj hp hu hv .server .unavailable).mp h).1
      replace h1 : ¬ Spec.zkPath (NodeType.unavailable).name u = Spec.zkPath b!"unavailableServer" v := h1
      replace h2 : ¬ Spec.zkPath (NodeType.server).name u = Spec.zkPath b!"unavailableServer" v := h2
      rw [if_neg (Ne.symm he), if_neg h1, if_neg h2]
      exact h.unavail v hv
  · rw [load_remove, load_remove] at hd
    split at hd
    · cases hd
    · split at hd
      · cases hd
      · exact h.nodes p d hd
  · exact AMap.nodupKeys_erase (AMap.nodupKeys_erase h.nodup _) _

/-! ## Ranges over the registered services -/

theorem foldAvail (hp : Spec.PlainProto proto) (rs : List URL) (hrs : ∀ u ∈ rs, Spec.Service proto u) (s : St)
    (n : Bytes → Option Bool) (h : Rep proto s.tree n) :
    Rep proto (rs.foldl (fun s u => Zk.availOne s u none) s).tree
      (fun k => if k ∈ rs.map Spec.identity then some true else n k) ∧
    (rs.foldl (fun s u => Zk.availOne s u none) s).registered = s.registered ∧
    (rs.foldl (fun s u => Zk.availOne s u none) s).available = s.available ∧
    ∀ k, AMap.load (rs.foldl (fun s u => Zk.availOne s u none) s).avail k =
      if k ∈ rs.map Spec.identity then some none else AMap.load s.avail k := by
  induction rs generalizing s n with
  | nil => exact ⟨h, rfl, rfl, fun k => by simp⟩
  | cons u rs ih =>
    have hu := hrs u List.mem_cons_self
    obtain ⟨h1, h2, h3, h4⟩ := ih (fun v hv => hrs v (List.mem_cons_of_mem _ hv)) _ _ (rep_avail hp h hu none)
    rw [List.foldl_cons]
    refine ⟨rep_congr h1 fun k => ?_, h2, h3, fun k => ?_⟩
    · simp only [List.map_cons, List.mem_cons, Spec.upd]
      by_cases hk : k ∈ rs.map Spec.identity
      · rw [if_pos hk, if_pos (.inr hk)]
      · rw [if_neg hk]
        by_cases he : k = Spec.identity u
        · rw [if_pos he, if_pos (.inl he)]
        · rw [if_neg he, if_neg (fun h => h.elim he hk)]
    · rw [h4, Zk.availOne]
      simp only [List.map_cons, List.mem_cons]
      rw [AMap.load_store, service_identity hp hu]
      by_cases hk : k ∈ rs.map Spec.identity
      · rw [if_pos hk, if_pos (.inr hk)]
      · rw [if_neg hk]
        by_cases he : k = Spec.identity u
        · rw [if_pos he.symm, if_pos (.inl he)]
        · rw [if_neg (Ne.symm he), if_neg (fun h => h.elim he hk)]

theorem foldUnavail (hp : Spec.PlainProto proto) (rs : List URL) (hrs : ∀ u ∈ rs, Spec.Service proto u) (s : St)
    (n : Bytes → Option Bool) (h : Rep proto s.tree n) :
    Rep proto (rs.foldl Zk.unavailOne s).tree
      (fun k => if k ∈ rs.map Spec.identity then some false else n k) ∧
    (rs.foldl Zk.unavailOne s).registered = s.registered ∧
    (rs.foldl Zk.unavailOne s).available = s.available ∧
    ∀ k, AMap.load (rs.foldl Zk.unavailOne s).avail k =
      if k ∈ rs.map Spec.identity then none else AMap.load s.avail k := by
  induction rs generalizing s n with
  | nil => exact ⟨h, rfl, rfl, fun k => by simp⟩
  | cons u rs ih =>
    have hu := hrs u List.mem_cons_self
    obtain ⟨h1, h2, h3, h4⟩ := ih (fun v hv => hrs v (List.mem_cons_of_mem _ hv)) _ _ (rep_unavail hp h hu)
    rw [List.foldl_cons]
    refine ⟨rep_congr h1 fun k => ?_, h2, h3, fun k => ?_⟩
    · simp only [List.map_cons, List.mem_cons, Spec.upd]
      by_cases hk : k ∈ rs.map Spec.identity
      · rw [if_pos hk, if_pos (.inr hk)]
      · rw [if_neg hk]
        by_cases he : k = Spec.identity u
        · rw [if_pos he, if_pos (.inl he)]
        · rw [if_neg he, if_neg (fun h => h.elim he hk)]
    · rw [h4, Zk.unavailOne]
      simp only [List.map_cons, List.mem_cons]
      rw [AMap.load_erase, service_identity hp hu]
      by_cases hk : k ∈ rs.map Spec.identity
      · rw [if_pos hk, if_pos (.inr hk)]
      · rw [if_neg hk]
        by_cases he : k = Spec.identity u
        · rw [if_pos he.symm, if_pos (.inl he)]
        · rw [if_neg (Ne.symm he), if_neg (fun h => h.elim he hk)]

theorem foldRegister (hp : Spec.PlainProto proto) (rs : List URL) (hrs : ∀ u ∈ rs, Spec.Service proto u) (s : St)
    (n : Bytes → Option Bool) (h : Rep proto s.tree n) :
    Rep proto (rs.foldl Zk.doRegister s).tree
      (fun k => if k ∈ rs.map Spec.identity then some false else n k) ∧
    (rs.foldl Zk.doRegister s).registered = s.registered ∧
    (rs.foldl Zk.doRegister s).available = s.available ∧
    (rs.foldl Zk.doRegister s).avail = s.avail := by
  induction rs generalizing s n with
  | nil => exact ⟨rep_congr h fun k => by simp, rfl, rfl, rfl⟩
  | cons u rs ih =>
    have hu := hrs u List.mem_cons_self
    obtain ⟨h1, h2, h3, h4⟩ := ih (fun v hv => hrs v (List.mem_cons_of_mem _ hv)) _ _ (rep_register hp h hu)
    rw [List.foldl_cons]
    refine ⟨rep_congr h1 fun k => ?_, h2.trans (by rw [doRegister_eq hu]), h3.trans (by rw [doRegister_eq hu]),
      h4.trans (by rw [doRegister_eq hu])⟩
    simp only [List.map_cons, List.mem_cons, Spec.upd]
    by_cases hk : k ∈ rs.map Spec.identity
    · rw [if_pos hk, if_pos (.inr hk)]
    · rw [if_neg hk]
      by_cases he : k = Spec.identity u
      · rw [if_pos he, if_pos (.inl he)]
      · rw [if_neg he, if_neg (fun h => h.elim he hk)]

/-! ## The invariant -/

/-- The state is as expected. -/
structure Follows (proto : Bytes) (s : St) (v : Spec.View) : Prop where
  conn : s.available = v.conn
  reg : ∀ k, (AMap.load s.registered k).isSome = v.reg k
  regs : ∀ k u, AMap.load s.registered k = some u → Spec.Service proto u ∧ Spec.identity u = k
  nodup : AMap.NodupKeys s.registered
  rep : Rep proto s.tree v.node

theorem lists_service {s : St} {v : Spec.View} (h : Follows proto s v) {rs : List URL} (hl : Lists rs s) :
    (∀ u ∈ rs, Spec.Service proto u) ∧ ∀ k, k ∈ rs.map Spec.identity ↔ v.reg k = true := by
  have hm : ∀ u, u ∈ rs ↔ ∃ k, AMap.load s.registered k = some u := by
    intro u
    rw [hl.mem_iff, List.mem_map]
    constructor
    · rintro ⟨⟨k, u'⟩, hk, rfl⟩; exact ⟨k, AMap.load_of_mem h.nodup hk⟩
    · rintro ⟨k, hk⟩; exact ⟨(k, u), AMap.mem_of_load hk, rfl⟩
  refine ⟨fun u hu => ?_, fun k => ?_⟩
  · obtain ⟨k, hk⟩ := (hm u).mp hu
    exact (h.regs k u hk).1
  · rw [← h.reg, List.mem_map]
    constructor
    · rintro ⟨u, hu, rfl⟩
      obtain ⟨k, hk⟩ := (hm u).mp hu
      rw [(h.regs k u hk).2, hk]; rfl
    · intro hk
      obtain ⟨u, hu⟩ := Option.isSome_iff_exists.mp hk
      exact ⟨u, (hm u).mpr ⟨k, hu⟩, (h.regs k u hu).2⟩

theorem follows_init : Follows proto {} (Spec.viewAfter []) :=
  ⟨rfl, fun _ => rfl, (fun k u h => by cases h), AMap.nodupKeys_nil, rep_nil⟩

/-- All calls but reconnecting. -/
theorem follows_step (hp : Spec.PlainProto proto) {s : St} {v : Spec.View} (h : Follows proto s v) {op : Op}
    (ho : ∀ u, Spec.opURL op = some u → Spec.Service proto u) (hr : Ranges s op)
    (hn : ∀ l rs vs, op ≠ .reconnect l rs vs) : Follows proto (Zk.step s op) (v.next op) := by
  cases op with
  | register u =>
    have hu := ho u rfl
    rw [Zk.step, Zk.register, Spec.View.next, h.conn, service_identity hp hu]
    by_cases hc : v.conn = true
    · rw [if_pos hc]
      by_cases hk : (AMap.load s.registered (Spec.identity u)).isSome = true
      · rw [if_pos hk, if_neg (fun h' => h'.2 (by rw [← h.reg]; exact hk))]
        exact h
      · rw [if_neg hk, if_pos ⟨hc, fun h' => hk (by rw [h.reg]; exact h')⟩]
        rw [doRegister_eq hu]
        refine ⟨h.conn, fun k => ?_, fun k u' hl => ?_, AMap.nodupKeys_store h.nodup _ _, rep_move hp h.rep hu false⟩
        · show (AMap.load (AMap.store s.registered _ u) k).isSome = Spec.upd v.reg _ true k
          rw [AMap.load_store, Spec.upd]
          split
          · rename_i e; rw [if_pos e.symm]; rfl
          · rename_i e; rw [if_neg (Ne.symm e)]; exact h.reg k
        · replace hl : AMap.load (AMap.store s.registered (Spec.identity u) u) k = some u' := hl
          rw [AMap.load_store] at hl
          split at hl
          · rename_i e; cases hl; exact ⟨hu, e⟩
          · exact h.regs k u' hl
    · rw [if_neg hc, if_neg (fun h' => hc h'.1)]
      exact h
  | unregister u =>
    have hu := ho u rfl
    rw [Zk.step, Zk.unregister, Spec.View.next, h.conn, service_identity hp hu]
    by_cases hc : v.conn = true
    · rw [if_pos hc]
      by_cases hk : (AMap.load s.registered (Spec.identity u)).isSome = true
      · rw [if_pos hk, if_pos ⟨hc, by rw [← h.reg]; exact hk⟩]
        refine ⟨rfl, fun k => ?_, fun k u' hl => ?_, AMap.nodupKeys_erase h.nodup _, rep_remove hp h.rep hu⟩
        · show (AMap.load (AMap.erase s.registered _) k).isSome = Spec.upd v.reg _ false k
          rw [AMap.load_erase, Spec.upd]
          split
          · rename_i e; rw [if_pos e.symm]; rfl
          · rename_i e; rw [if_neg (Ne.symm e)]; exact h.reg k
        · replace hl : AMap.load (AMap.erase s.registered (Spec.identity u)) k = some u' := hl
          rw [AMap.load_erase] at hl
          split at hl
          · cases hl
          · exact h.regs k u' hl
      · rw [if_neg hk, if_neg (fun h' => hk (by rw [h.reg]; exact h'.2))]
        exact h
    · rw [if_neg hc, if_neg (fun h' => hc h'.1)]
      exact h
  | available o rs =>
    rw [Zk.step, h.conn]
    by_cases hc : v.conn = true
    · rw [if_pos hc]
      cases o with
      | some u =>
        rw [Spec.View.next, if_pos hc]
        exact ⟨h.conn, h.reg, h.regs, h.nodup, rep_avail hp h.rep (ho u rfl) _⟩
      | none =>
        rw [Spec.View.next, if_pos hc, Zk.doAvailable]
        obtain ⟨l1, l2⟩ := lists_service h hr
        obtain ⟨f1, f2, f3, _⟩ := foldAvail hp rs l1 s v.node h.rep
        refine ⟨f3.trans h.conn, fun k => by rw [f2]; exact h.reg k, fun k u hl => h.regs k u (by rw [← f2]; exact hl),
          by rw [f2]; exact h.nodup, rep_congr f1 fun k => ?_⟩
        dsimp only
        by_cases hk : v.reg k = true
        · rw [if_pos hk, if_pos ((l2 k).mpr hk)]
        · rw [if_neg hk, if_neg (fun h => hk ((l2 k).mp h))]
    · rw [if_neg hc]
      cases o <;> rw [Spec.View.next, if_neg hc] <;> exact h
  | unavailable o rs =>
    rw [Zk.step, h.conn]
    by_cases hc : v.conn = true
    · rw [if_pos hc]
      cases o with
      | some u =>
        rw [Spec.View.next, if_pos hc]
        exact ⟨h.conn, h.reg, h.regs, h.nodup, rep_unavail hp h.rep (ho u rfl)⟩
      | none =>
        rw [Spec.View.next, if_pos hc, Zk.doUnavailable]
        obtain ⟨l1, l2⟩ := lists_service h hr
        obtain ⟨f1, f2, f3, _⟩ := foldUnavail hp rs l1 s v.node h.rep
        refine ⟨f3.trans h.conn, fun k => by rw [f2]; exact h.reg k, fun k u hl => h.regs k u (by rw [← f2]; exact hl),
          by rw [f2]; exact h.nodup, rep_congr f1 fun k => ?_⟩
        dsimp only
        by_cases hk : v.reg k = true
        · rw [if_pos hk, if_pos ((l2 k).mpr hk)]
        · rw [if_neg hk, if_neg (fun h => hk ((l2 k).mp h))]
    · rw [if_neg hc]
      cases o <;> rw [Spec.View.next, if_neg hc] <;> exact h
  | disconnect => exact ⟨rfl, h.reg, h.regs, h.nodup, h.rep⟩
  | reconnect l rs vs => exact absurd rfl (hn l rs vs)

theorem viewAfter_snoc (h : List Op) (op : Op) : Spec.viewAfter (h ++ [op]) = (Spec.viewAfter h).next op := by
  rw [Spec.viewAfter, List.foldl_append]; rfl

theorem about_snoc {h : List Op} {op : Op} (ha : Spec.About proto (h ++ [op])) :
    Spec.About proto h ∧ ∀ u, Spec.opURL op = some u → Spec.Service proto u :=
  ⟨fun o ho => ha o (List.mem_append_left _ ho), ha op (List.mem_append_right _ List.mem_cons_self)⟩

/-- C43: as long as no connection is restored, the nodes are those the calls ask for: after any history of calls,
connected or not, a service has an available node exactly if its last availability is available, an unavailable one
exactly if it is unavailable, and none after `UnRegister`. -/
theorem nodes_follow_calls (hp : Spec.PlainProto proto) {h : List Op} {s : St} (hr : Zk.Run h s)
    (ha : Spec.About proto h) (hn : ∀ l rs vs, .reconnect l rs vs ∉ h) {u : URL} (hu : Spec.Service proto u) :
    (Spec.HasNode s b!"server" u ↔ (Spec.viewAfter h).node (Spec.identity u) = some true) ∧
    (Spec.HasNode s b!"unavailableServer" u ↔ (Spec.viewAfter h).node (Spec.identity u) = some false) := by
  have key : Follows proto s (Spec.viewAfter h) := by
    clear hu
    induction hr with
    | nil => exact follows_init
    | snoc op hr ho ih =>
      obtain ⟨a1, a2⟩ := about_snoc ha
      rw [viewAfter_snoc]
      refine follows_step hp (ih a1 fun l rs vs hm => hn l rs vs (List.mem_append_left _ hm)) a2 ho ?_
      rintro l rs vs rfl
      exact hn l rs vs (List.mem_append_right _ List.mem_cons_self)
  exact ⟨key.rep.server u hu, key.rep.unavail u hu⟩

/-! ## Sessions -/

/-- What is recorded for a new session is what is available; nil is recorded only after a call for all services. -/
structure Marked (proto : Bytes) (s : St) (v : Spec.View) (all : Prop) : Prop where
  dom : ∀ k, (AMap.load s.avail k).isSome = true ↔ v.node k = some true
  reg : ∀ k, v.node k ≠ none ↔ v.reg k = true
  val : ∀ k u, AMap.load s.avail k = some (some u) → Spec.Service proto u ∧ Spec.identity u = k
  all : ∀ k, AMap.load s.avail k = some none → all

theorem marked_step (hp : Spec.PlainProto proto) {s : St} {v : Spec.View} {all all' : Prop} (h : Follows proto s v)
    (hm : Marked proto s v all) {op : Op} (ho : ∀ u, Spec.opURL op = some u → Spec.Service proto u) (hr : Ranges s op)
    (hn : ∀ l rs vs, op ≠ .reconnect l rs vs) (hal : Spec.Allowed v all op) (hi : all → all')
    (hall : ∀ rs, op = .available none rs → all') : Marked proto (Zk.step s op) (v.next op) all' := by
  have same : Marked proto s v all' := ⟨hm.dom, hm.reg, hm.val, fun k hk => hi (hm.all k hk)⟩
  cases op with
  | register u =>
    have hu := ho u rfl
    rw [Zk.step, Zk.register, Spec.View.next, h.conn, service_identity hp hu]
    by_cases hc : v.conn = true
    · rw [if_pos hc]
      by_cases hk : (AMap.load s.registered (Spec.identity u)).isSome = true
      · rw [if_pos hk, if_neg (fun h' => h'.2 (by rw [← h.reg]; exact hk))]
        exact same
      · have hk' : ¬ v.reg (Spec.identity u) = true := fun h' => hk (by rw [h.reg]; exact h')
        rw [if_neg hk, if_pos ⟨hc, hk'⟩, doRegister_eq hu]
        have hnone : v.node (Spec.identity u) = none := by
          by_cases e : v.node (Spec.identity u) = none
          · exact e
          · exact absurd ((hm.reg _).mp e) hk'
        refine ⟨fun k => ?_, fun k => ?_, hm.val, fun k hk => hi (hm.all k hk)⟩
        · show (AMap.load s.avail k).isSome = true ↔ Spec.upd v.node _ (some false) k = some true
          rw [hm.dom, Spec.upd]
          split
          · rename_i e; rw [e, hnone]; simp
          · rfl
        · show Spec.upd v.node _ (some false) k ≠ none ↔ Spec.upd v.reg _ true k = true
          rw [Spec.upd, Spec.upd]
          split
          · simp
          · exact hm.reg k
    · rw [if_neg hc, if_neg (fun h' => hc h'.1)]
      exact same
  | unregister u =>
    have hu := ho u rfl
    rw [Zk.step, Zk.unregister, Spec.View.next, h.conn, service_identity hp hu]
    by_cases hc : v.conn = true
    · rw [if_pos hc]
      by_cases hk : (AMap.load s.registered (Spec.identity u)).isSome = true
      · rw [if_pos hk, if_pos ⟨hc, by rw [← h.reg]; exact hk⟩]
        have hnt := hal hc
        refine ⟨fun k => ?_, fun k => ?_, hm.val, fun k hk => hi (hm.all k hk)⟩
        · show (AMap.load s.avail k).isSome = true ↔ Spec.upd v.node _ none k = some true
          rw [hm.dom, Spec.upd]
          split
          · rename_i e; rw [e]; simp [hnt]
          · rfl
        · show Spec.upd v.node _ none k ≠ none ↔ Spec.upd v.reg _ false k = true
          rw [Spec.upd, Spec.upd]
          split
          · simp
          · exact hm.reg k
      · rw [if_neg hk, if_neg (fun h' => hk (by rw [h.reg]; exact h'.2))]
        exact same
    · rw [if_neg hc, if_neg (fun h' => hc h'.1)]
      exact same
  | available o rs =>
    rw [Zk.step, h.conn]
    by_cases hc : v.conn = true
    · rw [if_pos hc]
      cases o with
      | some u =>
        have hu := ho u rfl
        rw [Spec.View.next, if_pos hc, Zk.doAvailable, Zk.availOne, service_identity hp hu]
        refine ⟨fun k => ?_, fun k => ?_, fun k w hk => ?_, fun k hk => ?_⟩
        · show (AMap.load (AMap.store s.avail _ (some u)) k).isSome = true ↔ Spec.upd v.node _ (some true) k = some true
          rw [AMap.load_store, Spec.upd]
          split
          · rename_i e; rw [if_pos e.symm]; simp
          · rename_i e; rw [if_neg (Ne.symm e)]; exact hm.dom k
        · show Spec.upd v.node _ (some true) k ≠ none ↔ v.reg k = true
          rw [Spec.upd]
          split
          · rename_i e; rw [e, hal hc]; simp
          · exact hm.reg k
        · replace hk : AMap.load (AMap.store s.avail (Spec.identity u) (some u)) k = some (some w) := hk
          rw [AMap.load_store] at hk
          split at hk
          · rename_i e; cases hk; exact ⟨hu, e⟩
          · exact hm.val k w hk
        · replace hk : AMap.load (AMap.store s.avail (Spec.identity u) (some u)) k = some none := hk
          rw [AMap.load_store] at hk
          split at hk
          · cases hk
          · exact hi (hm.all k hk)
      | none =>
        rw [Spec.View.next, if_pos hc, Zk.doAvailable]
        obtain ⟨l1, l2⟩ := lists_service h hr
        obtain ⟨_, _, _, f4⟩ := foldAvail hp rs l1 s v.node h.rep
        refine ⟨fun k => ?_, fun k => ?_, fun k w hk => ?_, fun k hk => hall rs rfl⟩
        · rw [f4]
          show _ ↔ (if v.reg k = true then some true else v.node k) = some true
          by_cases hk : v.reg k = true
          · rw [if_pos hk, if_pos ((l2 k).mpr hk)]; simp
          · rw [if_neg hk, if_neg (fun h => hk ((l2 k).mp h))]; exact hm.dom k
        · show (if v.reg k = true then some true else v.node k) ≠ none ↔ v.reg k = true
          by_cases hk : v.reg k = true
          · rw [if_pos hk]; simp [hk]
          · rw [if_neg hk]; exact hm.reg k
        · rw [f4] at hk
          split at hk
          · cases hk
          · exact hm.val k w hk
    · rw [if_neg hc]
      cases o <;> rw [Spec.View.next, if_neg hc] <;> exact same
  | unavailable o rs =>
    rw [Zk.step, h.conn]
    by_cases hc : v.conn = true
    · rw [if_pos hc]
      cases o with
      | some u =>
        have hu := ho u rfl
        rw [Spec.View.next, if_pos hc, Zk.doUnavailable, Zk.unavailOne, service_identity hp hu]
        refine ⟨fun k => ?_, fun k => ?_, fun k w hk => ?_, fun k hk => ?_⟩
        · show (AMap.load (AMap.erase s.avail _) k).isSome = true ↔ Spec.upd v.node _ (some false) k = some true
          rw [AMap.load_erase, Spec.upd]
          split
          · rename_i e; rw [if_pos e.symm]; simp
          · rename_i e; rw [if_neg (Ne.symm e)]; exact hm.dom k
        · show Spec.upd v.node _ (some false) k ≠ none ↔ v.reg k = true
          rw [Spec.upd]
          split
          · rename_i e; rw [e, hal hc]; simp
          · exact hm.reg k
        · replace hk : AMap.load (AMap.erase s.avail (Spec.identity u)) k = some (some w) := hk
          rw [AMap.load_erase] at hk
          split at hk
          · cases hk
          · exact hm.val k w hk
        · replace hk : AMap.load (AMap.erase s.avail (Spec.identity u)) k = some none := hk
          rw [AMap.load_erase] at hk
          split at hk
          · cases hk
          · exact hi (hm.all k hk)
      | none =>
        rw [Spec.View.next, if_pos hc, Zk.doUnavailable]
        obtain ⟨l1, l2⟩ := lists_service h hr
        obtain ⟨_, _, _, f4⟩ := foldUnavail hp rs l1 s v.node h.rep
        refine ⟨fun k => ?_, fun k => ?_, fun k w hk => ?_, fun k hk => ?_⟩
        · rw [f4]
          show _ ↔ (if v.reg k = true then some false else v.node k) = some true
          by_cases hk : v.reg k = true
          · rw [if_pos hk, if_pos ((l2 k).mpr hk)]; simp
          · rw [if_neg hk, if_neg (fun h => hk ((l2 k).mp h))]; exact hm.dom k
        · show (if v.reg k = true then some false else v.node k) ≠ none ↔ v.reg k = true
          by_cases hk : v.reg k = true
          · rw [if_pos hk]; simp [hk]
          · rw [if_neg hk]; exact hm.reg k
        · rw [f4] at hk
          split at hk
          · cases hk
          · exact hm.val k w hk
        · rw [f4] at hk
          split at hk
          · cases hk
          · exact hi (hm.all k hk)
    · rw [if_neg hc]
      cases o <;> rw [Spec.View.next, if_neg hc] <;> exact same
  | disconnect => exact ⟨hm.dom, hm.reg, hm.val, fun k hk => hi (hm.all k hk)⟩
  | reconnect l rs vs => exact absurd rfl (hn l rs vs)

/-- While `availableServiceMap` is ranged over: `done` are the keys met. -/
structure Visiting (proto : Bytes) (s0 s : St) (v : Spec.View) (done : List Bytes) (n : Bytes → Option Bool) : Prop where
  rep : Rep proto s.tree n
  registered : s.registered = s0.registered
  available : s.available = s0.available
  dom : ∀ k, (AMap.load s.avail k).isSome = true ↔ v.node k = some true
  val : ∀ k u, AMap.load s.avail k = some (some u) → Spec.Service proto u ∧ Spec.identity u = k
  all : ∀ k, AMap.load s.avail k = some none → ∀ k, v.reg k = true → v.node k = some true
  sound : ∀ k, n k = some true → v.node k = some true
  met : ∀ k ∈ done, v.node k = some true → n k = some true
  none : ∀ k, n k = none ↔ v.node k = none

theorem visiting_step (hp : Spec.PlainProto proto) {s0 s : St} {v : Spec.View} {done : List Bytes}
    {n : Bytes → Option Bool} (hreg : ∀ k, v.node k ≠ none ↔ v.reg k = true) (hf : ∀ k, (AMap.load s0.registered k).isSome = v.reg k)
    (hfs : ∀ k u, AMap.load s0.registered k = some u → Spec.Service proto u ∧ Spec.identity u = k)
    (hfn : AMap.NodupKeys s0.registered)
    (h : Visiting proto s0 s v done n) (w : Bytes × List URL) (hw : Lists w.2 s0) :
    ∃ n', Visiting proto s0 (Zk.visit s w) v (done ++ [w.1]) n' := by
  rw [Zk.visit]
  cases hl : AMap.load s.avail w.1 with
  | none =>
    refine ⟨n, h.rep, h.registered, h.available, h.dom, h.val, h.all, h.sound, fun k hk hv => ?_, h.none⟩
    rcases List.mem_append.mp hk with hk | hk
    · exact h.met k hk hv
    · rw [List.mem_singleton] at hk
      have := (h.dom k).mpr hv
      rw [hk, hl] at this; cases this
  | some o =>
    have htrue : v.node w.1 = some true := (h.dom w.1).mp (by rw [hl]; rfl)
    cases o with
    | some u =>
      obtain ⟨hu, hue⟩ := h.val w.1 u hl
      simp only
      rw [Zk.doAvailable]
      refine ⟨Spec.upd n (Spec.identity u) (some true), rep_avail hp h.rep hu _, h.registered, h.available, fun k => ?_,
        fun k x hx => ?_, fun k hx => ?_, fun k hk => ?_, fun k hk hv => ?_, fun k => ?_⟩
      · rw [Zk.availOne]
        simp only
        rw [AMap.load_store, service_identity hp hu, hue]
        split
        · rename_i e; rw [← e, htrue]; simp
        · exact h.dom k
      · rw [Zk.availOne] at hx
        simp only at hx
        rw [AMap.load_store, service_identity hp hu] at hx
        split at hx
        · rename_i e; cases hx; exact ⟨hu, e⟩
        · exact h.val k x hx
      · rw [Zk.availOne] at hx
        simp only at hx
        rw [AMap.load_store, service_identity hp hu] at hx
        split at hx
        · cases hx
        · exact h.all k hx
      · rw [Spec.upd] at hk
        split at hk
        · rename_i e; rw [e, hue]; exact htrue
        · exact h.sound k hk
      · rw [Spec.upd]
        split
        · rfl
        · rename_i e
          rcases List.mem_append.mp hk with hk | hk
          · exact h.met k hk hv
          · rw [List.mem_singleton] at hk; exact absurd (hk.trans hue.symm) e
      · rw [Spec.upd]
        split
        · rename_i e; rw [e, hue, htrue]
        · exact h.none k
    | none =>
      simp only
      rw [Zk.doAvailable]
      have hall := h.all w.1 hl
      have hm : ∀ u, u ∈ w.2 ↔ ∃ k, AMap.load s0.registered k = some u := by
        intro u
        rw [hw.mem_iff, List.mem_map]
        constructor
        · rintro ⟨⟨k, u'⟩, hk, rfl⟩; exact ⟨k, AMap.load_of_mem hfn hk⟩
        · rintro ⟨k, hk⟩; exact ⟨(k, u), AMap.mem_of_load hk, rfl⟩
      have l1 : ∀ u ∈ w.2, Spec.Service proto u := fun u hu => by
        obtain ⟨k, hk⟩ := (hm u).mp hu
        exact (hfs k u hk).1
      have l2 : ∀ k, k ∈ w.2.map Spec.identity ↔ v.reg k = true := by
        intro k
        rw [← hf, List.mem_map]
        constructor
        · rintro ⟨u, hu, rfl⟩
          obtain ⟨k, hk⟩ := (hm u).mp hu
          rw [(hfs k u hk).2, hk]; rfl
        · intro hk
          obtain ⟨u, hu⟩ := Option.isSome_iff_exists.mp hk
          exact ⟨u, (hm u).mpr ⟨k, hu⟩, (hfs k u hu).2⟩
      obtain ⟨f1, f2, f3, f4⟩ := foldAvail hp w.2 l1 s n h.rep
      refine ⟨_, f1, f2.trans h.registered, f3.trans h.available, fun k => ?_, fun k x hx => ?_, fun k _ => hall,
        fun k hk => ?_, fun k hk hv => ?_, fun k => ?_⟩
      · rw [f4]
        by_cases hk : v.reg k = true
        · rw [if_pos ((l2 k).mpr hk), hall k hk]; simp
        · rw [if_neg (fun h => hk ((l2 k).mp h))]; exact h.dom k
      · rw [f4] at hx
        split at hx
        · cases hx
        · exact h.val k x hx
      · by_cases hr : v.reg k = true
        · exact hall k hr
        · rw [if_neg (fun h => hr ((l2 k).mp h))] at hk; exact h.sound k hk
      · have hr : v.reg k = true := (hreg k).mp (by rw [hv]; simp)
        rw [if_pos ((l2 k).mpr hr)]
      · by_cases hr : v.reg k = true
        · rw [if_pos ((l2 k).mpr hr), hall k hr]
        · rw [if_neg (fun h => hr ((l2 k).mp h))]; exact h.none k

theorem visiting_all (hp : Spec.PlainProto proto) {s0 : St} {v : Spec.View}
    (hreg : ∀ k, v.node k ≠ none ↔ v.reg k = true) (hf : ∀ k, (AMap.load s0.registered k).isSome = v.reg k)
    (hfs : ∀ k u, AMap.load s0.registered k = some u → Spec.Service proto u ∧ Spec.identity u = k)
    (hfn : AMap.NodupKeys s0.registered) (ws : List (Bytes × List URL)) (hw : ∀ w ∈ ws, Lists w.2 s0) {s : St}
    {done : List Bytes} {n : Bytes → Option Bool} (h : Visiting proto s0 s v done n) :
    ∃ n', Visiting proto s0 (ws.foldl Zk.visit s) v (done ++ ws.map Prod.fst) n' := by
  induction ws generalizing s done n with
  | nil => exact ⟨n, by simpa using h⟩
  | cons w ws ih =>
    obtain ⟨n1, h1⟩ := visiting_step hp hreg hf hfs hfn h w (hw w List.mem_cons_self)
    obtain ⟨n2, h2⟩ := ih (fun x hx => hw x (List.mem_cons_of_mem _ hx)) h1
    refine ⟨n2, ?_⟩
    rw [List.foldl_cons, List.map_cons, ← List.append_cons done w.1] at *
    exact h2

theorem reconnect_step (hp : Spec.PlainProto proto) {s : St} {v : Spec.View} {all : Prop} (h : Follows proto s v)
    (hm : Marked proto s v all) {l : Bool} {rs : List URL} {vs : List (Bytes × List URL)} (hr : Ranges s (.reconnect l rs vs))
    (hal : Spec.Allowed v all (.reconnect l rs vs)) :
    Follows proto (Zk.step s (.reconnect l rs vs)) (v.next (.reconnect l rs vs)) ∧
    Marked proto (Zk.step s (.reconnect l rs vs)) (v.next (.reconnect l rs vs)) all := by
  rw [Zk.step, h.conn]
  by_cases hc : v.conn = true
  · rw [if_pos hc]
    have : v.next (.reconnect l rs vs) = v := by
      rw [Spec.View.next]
      cases v
      cases hc
      rfl
    rw [this]
    exact ⟨h, hm⟩
  · rw [if_neg hc, Zk.recoverService]
    obtain ⟨r1, r2, r3⟩ := hr
    obtain ⟨l1, l2⟩ := lists_service h r1
    have hrep0 : Rep proto (if l then [] else s.tree) (if l then (fun _ => none) else v.node) := by
      cases l
      · exact h.rep
      · exact rep_nil
    obtain ⟨f1, f2, f3, f4⟩ := foldRegister hp rs l1
      { s with available := true, tree := if l then [] else s.tree } _ hrep0
    have hnone : ∀ k, ¬ v.reg k = true → v.node k = none := by
      intro k hk
      by_cases e : v.node k = none
      · exact e
      · exact absurd ((hm.reg k).mp e) hk
    have hn1 : ∀ k, (if k ∈ rs.map Spec.identity then some false else (if l then (fun _ => none) else v.node) k) =
        if v.reg k = true then some false else none := by
      intro k
      by_cases hk : v.reg k = true
      · rw [if_pos hk, if_pos ((l2 k).mpr hk)]
      · rw [if_neg hk, if_neg (fun h => hk ((l2 k).mp h))]
        cases l
        · exact hnone k hk
        · rfl
    have hnil : ∀ k, AMap.load s.avail k = some none → ∀ k, v.reg k = true → v.node k = some true := by
      intro k hk
      rcases hal with hal | hal | hal
      · exact absurd (hm.all k hk) hal
      · exact hal
      · have h1 : v.node k = some true := (hm.dom k).mp (by rw [hk]; rfl)
        have h2 := hal k ((hm.reg k).mp (by rw [h1]; simp))
        rw [h1] at h2; cases h2
    have hstart : Visiting proto { s with available := true } (rs.foldl Zk.doRegister
        { s with available := true, tree := if l then [] else s.tree }) v []
        (fun k => if v.reg k = true then some false else none) := by
      refine ⟨rep_congr f1 hn1, f2, f3, fun k => by rw [f4]; exact hm.dom k, fun k u hk => hm.val k u (by rw [← f4]; exact hk),
        fun k hk => hnil k (by rw [← f4]; exact hk), fun k hk => ?_, fun k hk => (by cases hk), fun k => ?_⟩
      · split at hk <;> cases hk
      · by_cases hk : v.reg k = true
        · rw [if_pos hk]
          have := (hm.reg k).mpr hk
          simp [this]
        · rw [if_neg hk, hnone k hk]
    obtain ⟨n', hv⟩ := visiting_all (s0 := { s with available := true }) hp hm.reg h.reg h.regs h.nodup vs r2 hstart
    have hnode : ∀ k, n' k = v.node k := by
      intro k
      cases hk : v.node k with
      | none => exact (hv.none k).mpr hk
      | some b =>
        cases b with
        | true =>
          refine hv.met k ?_ hk
          rw [List.nil_append]
          exact r3 k (AMap.load_isSome.mp ((hm.dom k).mpr hk))
        | false =>
          cases hn : n' k with
          | none => rw [(hv.none k).mp hn] at hk; cases hk
          | some b =>
            cases b with
            | true => rw [hv.sound k hn] at hk; cases hk
            | false => rfl
    refine ⟨⟨hv.available, fun k => by rw [hv.registered]; exact h.reg k,
      fun k u hk => h.regs k u (by rw [hv.registered] at hk; exact hk), by rw [hv.registered]; exact h.nodup,
      rep_congr hv.rep hnode⟩, hv.dom, hm.reg, hv.val, fun k hk => ?_⟩
    -- nil is recorded only if it was before
    exact Classical.byContradiction fun hna => by
      have hno : ∀ k, AMap.load s.avail k ≠ some none := fun k hk => hna (hm.all k hk)
      have : ∀ (ws : List (Bytes × List URL)) (t : St), (∀ k, AMap.load t.avail k ≠ some none) →
          ∀ k, AMap.load (ws.foldl Zk.visit t).avail k ≠ some none := by
        intro ws
        induction ws with
        | nil => exact fun t ht => ht
        | cons w ws ih =>
          intro t ht
          rw [List.foldl_cons]
          refine ih _ fun k hk => ?_
          rw [Zk.visit] at hk
          cases hl : AMap.load t.avail w.1 with
          | none => rw [hl] at hk; exact ht k hk
          | some o =>
            cases o with
            | none => exact ht w.1 hl
            | some u =>
              rw [hl] at hk
              simp only [Zk.doAvailable, Zk.availOne] at hk
              rw [AMap.load_store] at hk
              split at hk
              · cases hk
              · exact ht k hk
      exact this vs _ (fun k hk => hno k (by rw [f4] at hk; exact hk)) k hk

theorem restorable_follows (hp : Spec.PlainProto proto) {h : List Op} {s : St} (hr : Zk.Run h s)
    (ha : Spec.About proto h) (hrest : Spec.Restorable h) :
    Follows proto s (Spec.viewAfter h) ∧ Marked proto s (Spec.viewAfter h) (Spec.usedAll h) := by
  induction hr with
  | nil =>
    refine ⟨follows_init, fun k => ?_, fun k => ?_, (fun k u h => by cases h), fun k h => by cases h⟩
    · show (none : Option (Option URL)).isSome = true ↔ none = some true
      simp
    · show (none : Option Bool) ≠ none ↔ false = true
      simp
  | @snoc h s op hr ho ih =>
    obtain ⟨a1, a2⟩ := about_snoc ha
    obtain ⟨i1, i2⟩ := ih a1 fun h1 o h2 he => hrest h1 o (h2 ++ [op]) (by rw [he]; simp)
    have hal := hrest h op [] rfl
    have hall : Spec.usedAll h → Spec.usedAll (h ++ [op]) := fun ⟨rs, hrs⟩ => ⟨rs, List.mem_append_left _ hrs⟩
    rw [viewAfter_snoc]
    by_cases hrc : ∃ l rs vs, op = .reconnect l rs vs
    · obtain ⟨l, rs, vs, rfl⟩ := hrc
      obtain ⟨c1, c2⟩ := reconnect_step hp i1 i2 ho hal
      exact ⟨c1, c2.dom, c2.reg, c2.val, fun k hk => hall (c2.all k hk)⟩
    · have hn : ∀ l rs vs, op ≠ .reconnect l rs vs := fun l rs vs he => hrc ⟨l, rs, vs, he⟩
      refine ⟨follows_step hp i1 a2 ho hn, marked_step hp i1 i2 a2 ho hn hal hall ?_⟩
      rintro rs rfl
      exact ⟨rs, List.mem_append_right _ List.mem_cons_self⟩

/-- C43: through any number of lost connections and expired sessions, the nodes are those the calls ask for, for
histories as in `Spec.Restorable`. -/
theorem session_restores (hp : Spec.PlainProto proto) {h : List Op} {s : St} (hr : Zk.Run h s)
    (ha : Spec.About proto h) (hrest : Spec.Restorable h) {u : URL} (hu : Spec.Service proto u) :
    (Spec.HasNode s b!"server" u ↔ (Spec.viewAfter h).node (Spec.identity u) = some true) ∧
    (Spec.HasNode s b!"unavailableServer" u ↔ (Spec.viewAfter h).node (Spec.identity u) = some false) := by
  obtain ⟨key, _⟩ := restorable_follows hp hr ha hrest
  exact ⟨key.rep.server u hu, key.rep.unavail u hu⟩

/-- C43: a registered service has exactly one node, an unregistered one has none. -/
theorem one_node (hp : Spec.PlainProto proto) {h : List Op} {s : St} (hr : Zk.Run h s)
    (ha : Spec.About proto h) (hrest : Spec.Restorable h) {u : URL} (hu : Spec.Service proto u) :
    ((AMap.load s.registered (Spec.identity u)).isSome →
      (Spec.HasNode s b!"server" u ∧ ¬ Spec.HasNode s b!"unavailableServer" u) ∨
      (¬ Spec.HasNode s b!"server" u ∧ Spec.HasNode s b!"unavailableServer" u)) ∧
    (¬ (AMap.load s.registered (Spec.identity u)).isSome →
      ¬ Spec.HasNode s b!"server" u ∧ ¬ Spec.HasNode s b!"unavailableServer" u) := by
  obtain ⟨key, mk⟩ := restorable_follows hp hr ha hrest
  have h1 := key.rep.server u hu
  have h2 := key.rep.unavail u hu
  have h3 := mk.reg (Spec.identity u)
  rw [← key.reg] at h3
  rw [Spec.HasNode, Spec.HasNode, h1, h2]
  constructor
  · intro h
    have := h3.mpr h
    cases hn : (Spec.viewAfter _).node (Spec.identity u) with
    | none => exact absurd hn this
    | some b => cases b <;> simp
  · intro h
    have : (Spec.viewAfter _).node (Spec.identity u) = none := Classical.byContradiction fun hc => h (h3.mp hc)
    rw [this]; simp

/-! ## Discovery -/

theorem childOf_eq {p q n : Bytes} (h : Zk.childOf p q = some n) : q = p ++ b!"/" ++ n := by
  rw [Zk.childOf] at h
  split at h
  · rename_i hc
    cases h
    obtain ⟨r, rfl⟩ := hc.1
    rw [show p.length + 1 = (p ++ b!"/").length by simp, List.drop_left]
  · cases h

theorem children_sublist (t : Tree) (p : Bytes) :
    ((Zk.children t p).map fun n => p ++ b!"/" ++ n).Sublist (AMap.keys t) := by
  induction t with
  | nil => exact .slnil
  | cons x t ih =>
    rw [Zk.children, List.filterMap_cons]
    cases hx : Zk.childOf p x.1 with
    | none => exact .cons _ ih
    | some n =>
      have : AMap.keys (x :: t) = (p ++ b!"/" ++ n) :: AMap.keys t := by rw [← childOf_eq hx]; rfl
      rw [this]
      exact .cons_cons _ ih

/-- `w` is what a client knows of the service `u`. -/
structure Spec.Describes (w u : URL) : Prop where
  protocol : w.protocol = u.protocol
  host : w.host = u.host
  port : w.port = u.port
  path : w.path = u.path
  group : w.group = u.group
  params : ∀ k, w.param k = u.param k

theorem describes_path {w u : URL} (h : Spec.Describes w u) (k : Bytes) : Spec.zkPath k w = Spec.zkPath k u := by
  rw [Spec.zkPath, Spec.zkPath, h.host, h.port, h.path, h.group]

theorem describes_identity {w u : URL} (h : Spec.Describes w u) : Spec.identity w = Spec.identity u := by
  rw [Spec.identity, Spec.identity, h.protocol, h.host, h.port, h.path, h.group, h.params]

theorem service_data (hp : Spec.PlainProto proto) {u : URL} (hu : Spec.Service proto u) (q : URL) (n : Bytes) :
    ∃ w, Zk.nodeURL q n (toExtInfo u).1 = some w ∧ Spec.Describes w u := by
  obtain ⟨w, h0, h1, h2, h3, h4, h5, h6, _⟩ := extinfo_roundtrip u hu.clean hu.nodup hu.coherent.port
  refine ⟨w, ?_, h1, h2, h3, h4, h5, h6⟩
  have hd : Zk.getNodeInfo (toExtInfo u).1 = (toExtInfo u).1 ∧ (toExtInfo u).1 ≠ [] := by
    rw [toExtInfo_eq u hu.coherent.port, hu.protocol]
    obtain ⟨_, hne, hhd⟩ := hp
    cases proto with
    | nil => exact absurd rfl hne
    | cons c cs =>
      refine ⟨?_, by simp⟩
      rw [Zk.getNodeInfo, if_neg]
      rintro ⟨_, h⟩
      apply hhd
      simp only [List.cons_append, List.take_succ_cons, List.cons.injEq] at h
      rw [List.head?_cons, h.1]
  rw [Zk.nodeURL, hd.1, if_pos hd.2, h0]

theorem nodes_urls (hp : Spec.PlainProto proto) (t : Tree) (q : URL) (p : Bytes) (ns : List Bytes)
    (h : ∀ n ∈ ns, ∃ u, Spec.Service proto u ∧ p ++ b!"/" ++ n = Spec.zkPath b!"server" u ∧
      AMap.load t (p ++ b!"/" ++ n) = some (toExtInfo u).1) :
    ∃ vs, Zk.nodesToURLs t q p ns = some vs ∧
      (vs.map (Spec.zkPath b!"server") = ns.map fun n => p ++ b!"/" ++ n) ∧
      ∀ w ∈ vs, ∃ u, Spec.Service proto u ∧ Spec.Describes w u := by
  induction ns with
  | nil => exact ⟨[], rfl, rfl, fun _ h => by cases h⟩
  | cons n ns ih =>
    obtain ⟨vs, h1, h2, h3⟩ := ih fun m hm => h m (List.mem_cons_of_mem _ hm)
    obtain ⟨u, hu, hpath, hd⟩ := h n List.mem_cons_self
    obtain ⟨w, hw, hdes⟩ := service_data hp hu q n
    refine ⟨w :: vs, ?_, ?_, fun x hx => ?_⟩
    · rw [Zk.nodesToURLs, hd]
      simp only [hw, Option.bind_some, h1, Option.map_some]
      rw [if_pos (.inr (by rw [hdes.host]; exact hu.host))]
    · rw [List.map_cons, List.map_cons, h2, hpath, describes_path hdes]
    · rcases List.mem_cons.mp hx with rfl | hx
      · exact ⟨u, hu, hdes⟩
      · exact h3 x hx

theorem type_path_eq (q : URL) : Zk.typePath q .server = b!"/motan/" ++ q.group ++ b!"/" ++ q.path ++ b!"/" ++ b!"server" := by
  rw [Zk.typePath, Zk.servicePath, Zk.groupPath]
  simp only [List.append_assoc]
  rfl

theorem follows_discover (hp : Spec.PlainProto proto) {s : St} {v : Spec.View} (h : Follows proto s v) {q : URL}
    (hg : (47 : UInt8) ∉ q.group) (hq : (47 : UInt8) ∉ q.path) (hc : v.conn = true) :
    ∃ vs, Zk.discover s q = some vs ∧
      (∀ w ∈ vs, w.group = q.group ∧ w.path = q.path ∧ v.node (Spec.identity w) = some true ∧
        ∃ u, Spec.Service proto u ∧ Spec.Describes w u) ∧
      (∀ u, Spec.Service proto u → u.group = q.group → u.path = q.path → v.node (Spec.identity u) = some true →
        Spec.identity u ∈ vs.map Spec.identity) ∧
      (vs.map Spec.identity).Nodup := by
  rw [Zk.discover, h.conn, if_pos hc]
  have hsub := children_sublist s.tree (Zk.typePath q .server)
  have hch : ∀ n ∈ Zk.children s.tree (Zk.typePath q .server), ∃ u, Spec.Service proto u ∧
      Zk.typePath q .server ++ b!"/" ++ n = Spec.zkPath b!"server" u ∧
      AMap.load s.tree (Zk.typePath q .server ++ b!"/" ++ n) = some (toExtInfo u).1 ∧ u.group = q.group ∧ u.path = q.path := by
    intro n hn
    have hk := hsub.subset (List.mem_map_of_mem (f := fun n => Zk.typePath q .server ++ b!"/" ++ n) hn)
    obtain ⟨d, hd⟩ := Option.isSome_iff_exists.mp (AMap.load_isSome.mpr hk)
    obtain ⟨u, ty, hu, hpe, hde⟩ := h.rep.nodes _ d hd
    have he := hpe
    rw [type_path_eq] at he
    simp only [Spec.zkPath, List.append_assoc, List.cons_append, List.nil_append] at he
    simp only [List.cons.injEq, true_and] at he
    obtain ⟨e1, he⟩ := append_sep_inj he hg hu.group
    obtain ⟨e2, he⟩ := append_sep_inj he hq hu.clean.path.1
    have he' : NodeType.name .server ++ 47 :: n = NodeType.name ty ++ 47 :: (u.host ++ 58 :: formatInt u.port) := by
      simpa [NodeType.name] using he
    obtain ⟨e3, _⟩ := append_sep_inj he' (typeName_slash .server) (typeName_slash ty)
    have ety := typeName_inj e3
    subst ety
    exact ⟨u, hu, hpe, by rw [hd, hde], e1.symm, e2.symm⟩
  obtain ⟨vs, h1, h2, h3⟩ := nodes_urls hp s.tree q _ _ fun n hn => by
    obtain ⟨u, a, b, c, _⟩ := hch n hn
    exact ⟨u, a, b, c⟩
  have hkeys : ∀ w ∈ vs, (AMap.load s.tree (Spec.zkPath b!"server" w)).isSome := by
    intro w hw
    apply AMap.load_isSome.mpr
    apply hsub.subset
    rw [← h2]
    exact List.mem_map_of_mem hw
  refine ⟨vs, h1, fun w hw => ?_, fun u hu eg ep hn => ?_, ?_⟩
  · obtain ⟨u, hu, hdes⟩ := h3 w hw
    have hpw : Spec.zkPath b!"server" w ∈ vs.map (Spec.zkPath b!"server") := List.mem_map_of_mem hw
    rw [h2] at hpw
    obtain ⟨n, hn, hne⟩ := List.mem_map.mp hpw
    obtain ⟨u', hu', e1, _, e3, e4⟩ := hch n hn
    rw [e1, describes_path hdes] at hne
    obtain ⟨hid, _⟩ := (zkPath_inj hp hu' hu .server .server).mp hne
    obtain ⟨_, i2, i3, i4, i5⟩ := identity_injective u' u ⟨hu'.clean.protocol.1, hu'.clean.host.1, hu'.clean.path.2⟩
      ⟨hu.clean.protocol.1, hu.clean.host.1, hu.clean.path.2⟩ hu'.clean.port hu.clean.port
      (by rw [hu'.protocol]; exact hp.1) hid
    refine ⟨?_, ?_, ?_, u, hu, hdes⟩
    · rw [hdes.group, ← e3]
      first | exact i5.symm | exact i4.symm | exact i3.symm | exact i2.symm
    · rw [hdes.path, ← e4]
      first | exact i5.symm | exact i4.symm | exact i3.symm | exact i2.symm
    · rw [describes_identity hdes, ← h.rep.server u hu, ← describes_path hdes]
      exact hkeys w hw
  · have hload := (h.rep.server u hu).mpr hn
    have hk : Spec.zkPath b!"server" u ∈ AMap.keys s.tree := AMap.load_isSome.mp hload
    have hchild : Zk.childOf (Zk.typePath q .server) (Spec.zkPath b!"server" u) = some (u.host ++ b!":" ++ formatInt u.port) := by
      have hz : Spec.zkPath b!"server" u = (Zk.typePath q .server ++ b!"/") ++ (u.host ++ b!":" ++ formatInt u.port) := by
        rw [type_path_eq, Spec.zkPath, eg, ep]
        simp only [List.append_assoc]
      rw [Zk.childOf, hz, show (Zk.typePath q .server).length + 1 = (Zk.typePath q .server ++ b!"/").length by simp,
        List.drop_left, if_pos]
      refine ⟨List.prefix_append _ _, ?_⟩
      simp only [List.mem_append, not_or]
      exact ⟨⟨hu.clean.host.2.1, by decide⟩, not_mem_formatInt _ (by decide) (by decide)⟩
    have hmem : u.host ++ b!":" ++ formatInt u.port ∈ Zk.children s.tree (Zk.typePath q .server) := by
      rw [Zk.children, List.mem_filterMap]
      obtain ⟨x, hx, hxe⟩ := List.mem_map.mp hk
      exact ⟨x, hx, by rw [hxe]; exact hchild⟩
    have hpath : Spec.zkPath b!"server" u ∈ vs.map (Spec.zkPath b!"server") := by
      rw [h2, List.mem_map]
      exact ⟨_, hmem, (childOf_eq hchild).symm⟩
    obtain ⟨w, hw, hwe⟩ := List.mem_map.mp hpath
    obtain ⟨u', hu', hdes⟩ := h3 w hw
    rw [describes_path hdes] at hwe
    obtain ⟨hid, _⟩ := (zkPath_inj hp hu' hu .server .server).mp hwe
    rw [← hid, ← describes_identity hdes]
    exact List.mem_map_of_mem hw
  · have hnd : (vs.map (Spec.zkPath b!"server")).Nodup := by
      rw [h2]
      exact h.rep.nodup.sublist hsub
    rw [List.Nodup, List.pairwise_map] at hnd ⊢
    refine hnd.imp_of_mem fun {a b} ha hb hne he => hne ?_
    obtain ⟨u, hu, hud⟩ := h3 a ha
    obtain ⟨u', hu', hud'⟩ := h3 b hb
    rw [describes_path hud, describes_path hud']
    rw [describes_identity hud, describes_identity hud'] at he
    exact (zkPath_inj hp hu hu' .server .server).mpr ⟨he, rfl⟩

/-- C43: a client that asks a connected registry gets exactly the services of its group and path that are available,
each once and as it was registered, for histories as in `Spec.Restorable`. -/
theorem discover_exact (hp : Spec.PlainProto proto) {h : List Op} {s : St} (hr : Zk.Run h s)
    (ha : Spec.About proto h) (hrest : Spec.Restorable h) {q : URL} (hg : (47 : UInt8) ∉ q.group)
    (hq : (47 : UInt8) ∉ q.path) (hc : (Spec.viewAfter h).conn = true) :
    ∃ vs, Zk.discover s q = some vs ∧
      (∀ w ∈ vs, w.group = q.group ∧ w.path = q.path ∧ (Spec.viewAfter h).node (Spec.identity w) = some true ∧
        ∃ u, Spec.Service proto u ∧ Spec.Describes w u) ∧
      (∀ u, Spec.Service proto u → u.group = q.group → u.path = q.path →
        (Spec.viewAfter h).node (Spec.identity u) = some true → Spec.identity u ∈ vs.map Spec.identity) ∧
      (vs.map Spec.identity).Nodup :=
  follows_discover hp (restorable_follows hp hr ha hrest).1 hg hq hc

/-! ## Concrete services, and what is not restored -/

/-- A service of a node. -/
def zkService (host : Bytes) : URL :=
  { protocol := b!"motan2", host := host, port := 8001, path := b!"com.weibo.User", group := b!"web",
    params := some [(b!"nodeType", b!"service")] }

def zkA : URL := zkService b!"10.0.0.1"

def zkB : URL := zkService b!"10.0.0.2"

theorem zkPlain : Spec.PlainProto b!"motan2" := by unfold Spec.PlainProto; decide

theorem zkService_service (host : Bytes) (h : (58 : UInt8) ∉ host ∧ (47 : UInt8) ∉ host ∧ (63 : UInt8) ∉ host)
    (hne : host ≠ []) : Spec.Service b!"motan2" (zkService host) := by
  have hpar : ∀ k v, (zkService host).param k = some v → k = b!"nodeType" ∧ v = b!"service" := by
    intro k v hk
    replace hk : AMap.load [(b!"nodeType", b!"service")] k = some v := hk
    have := AMap.mem_of_load hk
    simpa using this
  refine ⟨⟨?_, h, ?_, ?_, fun k v hk => ?_, fun k v hk => ?_, ?_⟩, coherent_fresh ⟨rfl, rfl, rfl, rfl, rfl⟩, ?_, ?_, hne, rfl, ?_⟩
  · show (58 : UInt8) ∉ b!"motan2" ∧ (63 : UInt8) ∉ b!"motan2"; decide
  · show (47 : UInt8) ∉ b!"com.weibo.User" ∧ (63 : UInt8) ∉ b!"com.weibo.User"; decide
  · show (63 : UInt8) ∉ b!"web" ∧ (38 : UInt8) ∉ b!"web" ∧ (61 : UInt8) ∉ b!"web"; decide
  · obtain ⟨rfl, rfl⟩ := hpar k v hk; decide
  · obtain ⟨rfl, rfl⟩ := hpar k v hk; decide
  · show -2 ^ 63 ≤ (8001 : Int) ∧ (8001 : Int) < 2 ^ 63; decide
  · intro m hm
    cases hm
    show List.Nodup _
    decide
  · show (47 : UInt8) ∉ b!"web"; decide
  · show AMap.load [(b!"nodeType", b!"service")] b!"nodeType" ≠ _
    decide

theorem zkA_service : Spec.Service b!"motan2" zkA := zkService_service _ (by decide) (by decide)

theorem zkB_service : Spec.Service b!"motan2" zkB := zkService_service _ (by decide) (by decide)

/-- Whether the orders of an operation are right. -/
def rangesB (s : St) : Op → Bool
  | .available none rs => rs.isPerm (s.registered.map Prod.snd)
  | .unavailable none rs => rs.isPerm (s.registered.map Prod.snd)
  | .reconnect _ rs vs => rs.isPerm (s.registered.map Prod.snd) &&
      (vs.all fun v => v.2.isPerm (s.registered.map Prod.snd)) && (AMap.keys s.avail).all fun k => (vs.map Prod.fst).contains k
  | _ => true

theorem rangesB_sound {s : St} {op : Op} (h : rangesB s op = true) : Ranges s op := by
  cases op with
  | available o rs => cases o with
    | none => exact List.isPerm_iff.mp h
    | some _ => trivial
  | unavailable o rs => cases o with
    | none => exact List.isPerm_iff.mp h
    | some _ => trivial
  | reconnect l rs vs =>
    simp only [rangesB, Bool.and_eq_true, List.all_eq_true, List.contains_iff_mem] at h
    exact ⟨List.isPerm_iff.mp h.1.1, fun v hv => List.isPerm_iff.mp (h.1.2 v hv), h.2⟩
  | _ => trivial

def runsB : St → List Op → Bool
  | _, [] => true
  | s, op :: h => rangesB s op && runsB (Zk.step s op) h

theorem runsB_sound {h0 h : List Op} {s : St} (hr : Zk.Run h0 s) (hb : runsB s h = true) :
    Zk.Run (h0 ++ h) (h.foldl Zk.step s) := by
  induction h generalizing h0 s with
  | nil => simpa using hr
  | cons op h ih =>
    rw [runsB, Bool.and_eq_true] at hb
    have := ih (.snoc op hr (rangesB_sound hb.1)) hb.2
    rw [List.foldl_cons]
    simpa using this

/-- A history with two lost sessions. -/
def zkHistory : List Op :=
  [.register zkA, .register zkB, .available (some zkA) [], .disconnect, .register zkA,
   .reconnect true [zkB, zkA] [(Spec.identity zkA, [zkA, zkB])], .unavailable (some zkA) [], .available (some zkB) [],
   .unregister zkA, .disconnect, .reconnect true [zkB] [(Spec.identity zkB, [zkB])]]

theorem zkHistory_run : Zk.Run zkHistory (zkHistory.foldl Zk.step {}) := runsB_sound .nil (by decide +kernel)

theorem zkHistory_about : Spec.About b!"motan2" zkHistory := by
  intro op hop u hu
  have : u = zkA ∨ u = zkB := by
    simp only [zkHistory, List.mem_cons, List.not_mem_nil, or_false] at hop
    rcases hop with rfl | rfl | rfl | rfl | rfl | rfl | rfl | rfl | rfl | rfl | rfl <;> simp [Spec.opURL] at hu <;> simp [hu]
  rcases this with rfl | rfl
  · exact zkA_service
  · exact zkB_service

/-- A history for `nodes_follow_calls`. -/
example : Zk.Run (zkHistory.take 5) ((zkHistory.take 5).foldl Zk.step {}) ∧
    (∀ l rs vs, Op.reconnect l rs vs ∉ zkHistory.take 5) ∧
    (Spec.viewAfter (zkHistory.take 5)).node (Spec.identity zkA) = some true ∧
    (Spec.viewAfter (zkHistory.take 5)).node (Spec.identity zkB) = some false :=
  ⟨runsB_sound .nil (by decide +kernel), fun l rs vs => by simp [zkHistory], by decide +kernel, by decide +kernel⟩

/-- The conditions hold of this history, and its outcome is that only the second service has a node. -/
example : Spec.Restorable zkHistory ∧ (Spec.viewAfter zkHistory).node (Spec.identity zkA) = none ∧
    (Spec.viewAfter zkHistory).node (Spec.identity zkB) = some true ∧ (Spec.viewAfter zkHistory).conn = true := by
  refine ⟨?_, by decide +kernel, by decide +kernel, by decide +kernel⟩
  have hno : ∀ h1 h2 op, zkHistory = h1 ++ op :: h2 → ¬ Spec.usedAll h1 := by
    rintro h1 h2 op he ⟨rs, hrs⟩
    have : Op.available none rs ∈ zkHistory := by rw [he]; exact List.mem_append_left _ hrs
    simp [zkHistory] at this
  have hb : ∀ n, n ≤ zkHistory.length → ∀ op h2, zkHistory.drop n = op :: h2 →
      Spec.Allowed (Spec.viewAfter (zkHistory.take n)) (Spec.usedAll (zkHistory.take n)) op := by
    intro n hn op h2 he
    have hu : ¬ Spec.usedAll (zkHistory.take n) := hno _ h2 op (by rw [← he, List.take_append_drop])
    match n, hn with
    | 0, _ => cases he; trivial
    | 1, _ => cases he; trivial
    | 2, _ => cases he; intro _; decide +kernel
    | 3, _ => cases he; trivial
    | 4, _ => cases he; trivial
    | 5, _ => cases he; exact .inl hu
    | 6, _ => cases he; intro _; decide +kernel
    | 7, _ => cases he; intro _; decide +kernel
    | 8, _ => cases he; intro _; decide +kernel
    | 9, _ => cases he; trivial
    | 10, _ => cases he; exact .inl hu
    | 11, _ => cases he
    | n + 12, hn => exact absurd hn (by simp [zkHistory])
  intro h1 op h2 he
  have := hb h1.length (by rw [he]; simp) op h2 (by rw [he, List.drop_left])
  rwa [he, List.take_left] at this

/-- A service that an operator made unavailable is available again in the next session, if all services were once
made available with one call: nil was recorded for the others. -/
def zkAllThenOne : List Op :=
  [.register zkA, .register zkB, .available none [zkA, zkB], .unavailable (some zkA) [], .disconnect,
   .reconnect true [zkA, zkB] [(Spec.identity zkB, [zkA, zkB])]]

/-- C43, violated: a service that an operator made unavailable is available again in the next session, if all services
were once made available with one call (nil was recorded for the others). -/
theorem session_available_again_counterexample :
    ∃ s, Zk.Run zkAllThenOne s ∧ (Spec.viewAfter zkAllThenOne).node (Spec.identity zkA) = some false ∧
      Spec.HasNode s b!"server" zkA ∧ ¬ Spec.HasNode s b!"unavailableServer" zkA :=
  ⟨_, runsB_sound .nil (by decide +kernel), by decide +kernel, by unfold Spec.HasNode; decide +kernel,
    by unfold Spec.HasNode; decide +kernel⟩

/-- An available service that was unregistered comes back in the next session: `UnRegister` leaves it in
`availableServiceMap`. -/
def zkUnregistered : List Op :=
  [.register zkA, .available (some zkA) [], .unregister zkA, .disconnect, .reconnect true [] [(Spec.identity zkA, [])]]

/-- C43, violated: an available service that was unregistered comes back in the next session. -/
theorem session_revives_unregistered_counterexample :
    ∃ s, Zk.Run zkUnregistered s ∧ (Spec.viewAfter zkUnregistered).node (Spec.identity zkA) = none ∧
      AMap.load s.registered (Spec.identity zkA) = none ∧ Spec.HasNode s b!"server" zkA :=
  ⟨_, runsB_sound .nil (by decide +kernel), by decide +kernel, by decide +kernel,
    by unfold Spec.HasNode; decide +kernel⟩

/-- The nil recorded for a service that was unregistered makes the others available in the next session, although all
were made unavailable. -/
def zkNilLeft : List Op :=
  [.register zkA, .register zkB, .available none [zkA, zkB], .unregister zkA, .unavailable none [zkB], .disconnect,
   .reconnect true [zkB] [(Spec.identity zkA, [zkB])]]

/-- C43, violated: services that were all made unavailable are available in the next session, because of what was recorded
for one that was unregistered. -/
theorem session_nil_left_counterexample :
    ∃ s, Zk.Run zkNilLeft s ∧ (Spec.viewAfter zkNilLeft).node (Spec.identity zkB) = some false ∧
      Spec.HasNode s b!"server" zkB :=
  ⟨_, runsB_sound .nil (by decide +kernel), by decide +kernel, by unfold Spec.HasNode; decide +kernel⟩

/-- C43, violated: the node of an agent stays when the agent is unregistered. -/
theorem agent_node_stays_counterexample :
    let a : URL := { zkA with params := some [(b!"nodeType", b!"agent"), (b!"application", b!"app")] }
    let s := [Op.register a, .unregister a].foldl Zk.step {}
    AMap.load s.registered (getIdentity a).1 = none ∧
      (AMap.load s.tree b!"/motan/agent/app/node/10.0.0.1:8001").isSome := by decide +kernel

/-- C43, violated: `Available` and `Unavailable` of one service running at the same time can leave it with both nodes,
so that clients still call it. -/
theorem both_nodes_counterexample :
    ∃ l, Zk.Merge (Zk.availableStmts zkA) (Zk.unavailableStmts zkA) l ∧
      Spec.HasNode (l.foldl Zk.exec (Zk.register {} zkA)) b!"server" zkA ∧
      Spec.HasNode (l.foldl Zk.exec (Zk.register {} zkA)) b!"unavailableServer" zkA := by
  refine ⟨[.remove zkA .unavailable, .remove zkA .server, .create zkA .server, .create zkA .unavailable, .mark zkA,
    .unmark zkA], .left (.right (.left (.right (.left (.right .nil))))), ?_, ?_⟩ <;>
  · unfold Spec.HasNode; decide +kernel

/-- C43: one after the other, they leave one node. -/
theorem statements_in_turn (s : St) (u : URL) :
    (Zk.availableStmts u).foldl Zk.exec s = Zk.doAvailable s [] (some u) ∧
    (Zk.unavailableStmts u).foldl Zk.exec s = Zk.doUnavailable s [] (some u) := ⟨rfl, rfl⟩

/-- C43, violated: one node whose data is not the ext-info of a URL makes `Discover` panic, whatever other nodes there
are. -/
theorem discover_panics_counterexample :
    Zk.discover { tree := [(Spec.zkPath b!"server" zkA, (toExtInfo zkA).1), (Spec.zkPath b!"server" zkB, b!"up")] } zkA =
      none := Option.isNone_iff_eq_none.mp (by decide +kernel)

end Motan.Props
