import Verif.Basic.Trim
import Verif.Model.Routing

/-!
# Hot reload of the agent's clusters (agent.go, dynamicConfig.go)

The table from services to clusters, and everything that changes it: the start (`initCluster` for every configured
reference), a dynamic subscription, and a reload of the configuration (`/reload/clusters`). A cluster is a number here;
a new cluster takes the next one. A reload goes reference by reference, and other actions may come in between, because
`initCluster` changes `serviceMap` without holding `clsLock`; two reloads exclude each other.

A URL in Go is a pointer shared by the context or the configurer, the table and the cluster. Here it is a value, and
where the code changes the shared URL, the model writes the changed value back to the configurer's table; the copy in
the table of clusters is that same value. (Filling in the application and building a cluster are idempotent on a URL,
so a later change through another holder of the pointer changes nothing.)

Not modelled: `clusterMap`, used only by the command handler and the information pages; the unlocked iteration of
`subscribeNodes` at agent.go:509, which may end the process if a subscription writes at the same moment.
-/

namespace Motan.Reload

open Motan.Strings Motan.Url Motan.Routing

/-- What a registry does to the URL of a cluster that subscribes to it: zookeeper changes it, the others do not. -/
inductive RegKind
  | zookeeper
  | other
deriving DecidableEq, Repr

/-- The surroundings: the agent's `application` parameter, the local address, the registries of the context by name,
and the group chosen for a group with a placeholder (cluster/motanCluster.go:446-523). -/
structure Env where
  application : Bytes := []
  localIP : Bytes := []
  registries : AMap Bytes RegKind := []
  resolve : Bytes → Bytes := id

/-- agent.go:517-519 and 601-603. -/
def fill (E : Env) (u : URL) : URL :=
  if (u.param b!"application").getD [] = [] then
    { u with params := some (AMap.store (u.params.getD []) b!"application" E.application) } else u

/-- ha/ha.go:18-32: the backup request strategy adds the metrics filter to the URL of its cluster. -/
def haEffect (u : URL) : URL :=
  if getParam u b!"haStrategy" b!"failover" = b!"backupRequest" then
    match u.param b!"filter" with
    | some fs => if b!"metrics" ∈ trimSplit fs b!"," then u else putParam u b!"filter" (fs ++ b!"," ++ b!"metrics")
    | none => putParam u b!"filter" b!"metrics"
  else u

/-- registry/zkRegistry.go:215-218: zookeeper marks the subscribed URL as a referer and puts in the host. (The node of
the service is assumed to exist and this listener to be the first of its service.) -/
def subscribeEffect (E : Env) (k : RegKind) (u : URL) : URL :=
  match k with
  | .zookeeper =>
    let u := putParam u b!"nodeType" b!"referer"
    if u.host = [] then { u with host := E.localIP } else u
  | .other => u

/-- cluster/motanCluster.go:320-333 for one registry name: the group is settled, the caches are cleared, the registry is
subscribed. -/
def registryEffect (E : Env) (u : URL) (r : Bytes) : URL :=
  match AMap.load E.registries r with
  | some k =>
    subscribeEffect E k
      (clearCachedInfo { u with group := if contains u.group b!"${idc}" then E.resolve u.group else u.group })
  | none => u

/-- What `NewCluster` (cluster/motanCluster.go:45-54, 79-104, 305-342) leaves of the URL it is given. (A registry given
by an environment variable is left out; so is what filters and load balancers may do to the URL.) -/
def made (E : Env) (u : URL) : URL :=
  let u := haEffect u
  match u.param b!"registry" with
  | some rs => (trimSplit rs b!",").foldl (registryEffect E) u
  | none => u

/-- The string by which a reload recognises a reference: `ToExtInfo`. -/
def ext (u : URL) : Bytes := (toExtInfo u).1

/-- agent.go:66 `serviceMap`. -/
abbrev Table := AMap Bytes (List (Item Nat))

/-- `append` to the list of a service, agent.go:550-555 and 611-620. -/
def Table.add (m : Table) (p : Bytes) (i : Item Nat) : Table := AMap.store m p ((AMap.load m p).getD [] ++ [i])

/-- A reload under way: the references still to be looked at (with the key of a dynamic one), the new table, and
`serviceItemKeep` (agent.go:503-514). -/
structure Pending where
  todo : List (Option Bytes × URL)
  table : Table := []
  keep : List Bytes := []

/-- The state: `subscribeNodes`, `serviceMap`, the next cluster, the clusters destroyed, the reload under way. -/
structure St where
  subs : AMap Bytes URL := []
  table : Table := []
  next : Nat := 0
  destroyed : List Nat := []
  pending : Option Pending := none

/-- agent.go:600-620 `initCluster`, with the URL as it is left. -/
def initCluster (E : Env) (s : St) (u : URL) : St × URL :=
  let v := made E (fill E u)
  ({ s with table := s.table.add v.path ⟨v, s.next⟩, next := s.next + 1 }, v)

/-- dynamicConfig.go:151-154: the subscription is written down, unless it is known. -/
def note (s : St) (u : URL) : St :=
  let (id, u) := getIdentity u
  if (AMap.load s.subs id).isSome then s else { s with subs := AMap.store s.subs id u }

/-- agent.go:1305-1311 after the test: the cluster of a subscription that was written down. -/
def attach (E : Env) (s : St) (id : Bytes) : St :=
  match AMap.load s.subs id with
  | none => s
  | some u =>
    let (s, v) := initCluster E s u
    { s with subs := AMap.store s.subs id v }

/-- agent.go:503-515: a reload begins with the references of the subscriptions, in the order `ids` in which the map is
ranged over, followed by those of the new configuration, in some order. -/
def begin (s : St) (ids : List Bytes) (refs : List URL) : St :=
  match s.pending with
  | some _ => s
  | none =>
    let dyn := ids.filterMap fun id => (AMap.load s.subs id).map fun u => (some id, u)
    { s with pending := some { todo := dyn ++ refs.map fun u => (none, u) } }

/-- agent.go:526-537: the first item of the service with the same string. -/
def lookup (m : Table) (u : URL) : Option (Item Nat) :=
  ((AMap.load m u.path).getD []).find? fun i => ext u = ext i.url

/-- Writes a changed URL back to `subscribeNodes` if it is the URL of a subscription. -/
def writeBack (subs : AMap Bytes URL) (id : Option Bytes) (u : URL) : AMap Bytes URL :=
  match id with
  | some id => AMap.store subs id u
  | none => subs

/-- agent.go:516-556 for the next reference. -/
def next (E : Env) (s : St) : St :=
  match s.pending with
  | none => s
  | some p =>
    match p.todo with
    | [] => s
    | (id, u) :: rest =>
      let u := fill E u
      match lookup s.table u with
      | some i =>
        { s with
          subs := writeBack s.subs id u
          pending := some { todo := rest, table := p.table.add u.path i, keep := ext u :: p.keep } }
      | none =>
        { s with
          subs := writeBack s.subs id (made E u)
          next := s.next + 1
          pending := some { todo := rest, table := p.table.add u.path ⟨made E u, s.next⟩, keep := p.keep } }

/-- All the items of a table. -/
def Table.items (m : Table) : List (Item Nat) := m.flatMap (·.2)

/-- agent.go:558-570: the new table takes the place of the old one; the old items that are not kept are destroyed. -/
def swap (s : St) : St :=
  match s.pending with
  | none => s
  | some p =>
    match p.todo with
    | [] =>
      { s with
        table := p.table
        destroyed := s.destroyed ++ (s.table.items.filter fun i => ext i.url ∉ p.keep).map (·.cluster)
        pending := none }
    | _ :: _ => s

/-- What may happen. A start is `init` for every reference, a subscription is `note` and then, unless it is ignored,
`attach`; a reload is `begin`, `next` for every reference, and `swap`. -/
inductive Op
  | init (u : URL)
  | note (u : URL)
  | attach (id : Bytes)
  | begin (ids : List Bytes) (refs : List URL)
  | next
  | swap

/-- One action. -/
def step (E : Env) (s : St) : Op → St
  | .init u => (initCluster E s u).1
  | .note u => note s u
  | .attach id => attach E s id
  | .begin ids refs => begin s ids refs
  | .next => next E s
  | .swap => swap s

/-- A history. -/
def run (E : Env) (s : St) (os : List Op) : St := os.foldl (step E) s

/-- A reload that nothing interrupts (agent.go:497-571). -/
def reload (E : Env) (s : St) (ids : List Bytes) (refs : List URL) : St :=
  let s := begin s ids refs
  let n := (s.pending.map fun p => p.todo.length).getD 0
  swap ((List.replicate n ()).foldl (fun s _ => next E s) s)

end Motan.Reload
