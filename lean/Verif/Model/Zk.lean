import Verif.Model.Url

/-!
# The zookeeper registry: registration, availability, session loss and discovery

registry/zkRegistry.go. The zookeeper server is a tree of ephemeral nodes that belong to this process; the persistent
parents are taken to exist, and calls made while the registry is available are taken to succeed (a failure is only
logged). A URL's caches are read and not written here: see Props/Url for their coherence.
-/

namespace Motan.Zk

open Strings Url

/-! ## Paths -/

/-- zkRegistry.go:21-23. -/
inductive NodeType
  | server
  | unavailable
  | client
deriving DecidableEq

/-- zkRegistry.go:21-23. -/
def NodeType.name : NodeType → Bytes
  | .server => b!"server"
  | .unavailable => b!"unavailableServer"
  | .client => b!"client"

/-- zkRegistry.go:636-638 `toGroupPath`. -/
def groupPath (u : URL) : Bytes := b!"/motan" ++ b!"/" ++ u.group

/-- zkRegistry.go:640-642 `toServicePath`. -/
def servicePath (u : URL) : Bytes := groupPath u ++ b!"/" ++ u.path

/-- zkRegistry.go:648-650 `toNodeTypePath`. -/
def typePath (u : URL) (t : NodeType) : Bytes := servicePath u ++ b!"/" ++ t.name

/-- zkRegistry.go:652-654 `toNodePath`. -/
def nodePath (u : URL) (t : NodeType) : Bytes := typePath u t ++ b!"/" ++ (getAddressStr u).1

/-- zkRegistry.go:656-666 `toAgentNodePath`. -/
def agentPath (u : URL) : Bytes :=
  b!"/motan" ++ b!"/" ++ b!"agent" ++ b!"/" ++ getParam u b!"application" [] ++ b!"/node" ++ b!"/" ++ (getAddressStr u).1

/-- registry/registry.go:137-145 `IsAgent`. -/
def isAgent (u : URL) : Bool := u.param b!"nodeType" = some b!"agent"

/-! ## The tree -/

/-- The ephemeral nodes, with their data. -/
abbrev Tree := AMap Bytes Bytes

/-- zkRegistry.go:528-544 `removeNode`, of a path. -/
def removeNode (t : Tree) (p : Bytes) : Tree := AMap.erase t p

/-- zkRegistry.go:547-568 `createNode`, of a path: an old node is removed first. -/
def createNode (t : Tree) (p : Bytes) (u : URL) : Tree := AMap.store (removeNode t p) p (toExtInfo u).1

/-! ## The registry -/

/-- zkRegistry.go:35-47: `available`, `registeredServiceMap`, `availableServiceMap` (whose values may be nil), and the
tree. -/
structure St where
  available : Bool := true
  registered : AMap Bytes URL := []
  avail : AMap Bytes (Option URL) := []
  tree : Tree := []

/-- zkRegistry.go:151-161 `doRegister`. (An invalid URL is only logged.) -/
def doRegister (s : St) (u : URL) : St :=
  if isAgent u then { s with tree := createNode s.tree (agentPath u) u }
  else { s with tree := createNode (removeNode s.tree (nodePath u .server)) (nodePath u .unavailable) u }

/-- zkRegistry.go:138-149 `Register`. -/
def register (s : St) (u : URL) : St :=
  if s.available then
    if (AMap.load s.registered (getIdentity u).1).isSome then s
    else { doRegister s u with registered := AMap.store s.registered (getIdentity u).1 u }
  else s

/-- zkRegistry.go:164-176 `UnRegister`. -/
def unregister (s : St) (u : URL) : St :=
  if s.available then
    if (AMap.load s.registered (getIdentity u).1).isSome then
      { s with
        tree := removeNode (removeNode s.tree (nodePath u .server)) (nodePath u .unavailable)
        registered := AMap.erase s.registered (getIdentity u).1 }
    else s
  else s

/-- zkRegistry.go:439-442, 445-447: one service of `doAvailable`; `o` is what is recorded. -/
def availOne (s : St) (u : URL) (o : Option URL) : St :=
  { s with
    tree := createNode (removeNode s.tree (nodePath u .unavailable)) (nodePath u .server) u
    avail := AMap.store s.avail (getIdentity u).1 o }

/-- zkRegistry.go:437-449 `doAvailable`; `rs` lists the registered services in the order of the range. Making all
available records nil for each. -/
def doAvailable (s : St) (rs : List URL) : Option URL → St
  | none => rs.foldl (fun s u => availOne s u none) s
  | some u => availOne s u (some u)

/-- zkRegistry.go:468-472, 474-476: one service of `doUnavailable`. -/
def unavailOne (s : St) (u : URL) : St :=
  { s with
    tree := createNode (removeNode s.tree (nodePath u .server)) (nodePath u .unavailable) u
    avail := AMap.erase s.avail (getIdentity u).1 }

/-- zkRegistry.go:466-478 `doUnavailable`. -/
def doUnavailable (s : St) (rs : List URL) : Option URL → St
  | none => rs.foldl unavailOne s
  | some u => unavailOne s u

/-- zkRegistry.go:106-110: one step of the range over `availableServiceMap`, for the key `v.1`; the value is read when
the key is reached. `v.2` lists the registered services. -/
def visit (s : St) (v : Bytes × List URL) : St :=
  match AMap.load s.avail v.1 with
  | none => s
  | some o => doAvailable s v.2 o

/-- zkRegistry.go:98-113 `recoverService`; `rs` lists the registered services, `vs` the keys of `availableServiceMap`
as the range meets them. -/
def recoverService (s : St) (rs : List URL) (vs : List (Bytes × List URL)) : St :=
  vs.foldl visit (rs.foldl doRegister s)

/-- The calls, and what happens to the connection. -/
inductive Op
  | register (u : URL)
  | unregister (u : URL)
  /-- zkRegistry.go:423-435 `Available`, with the order of the range -/
  | available (o : Option URL) (rs : List URL)
  /-- zkRegistry.go:452-464 `Unavailable` -/
  | unavailable (o : Option URL) (rs : List URL)
  /-- the connection is lost, zkRegistry.go:86-87 -/
  | disconnect
  /-- connected again, 88-92; `lost`: the session has expired and with it the ephemeral nodes -/
  | reconnect (lost : Bool) (rs : List URL) (vs : List (Bytes × List URL))

/-- What the calls do. -/
def step (s : St) : Op → St
  | .register u => register s u
  | .unregister u => unregister s u
  | .available o rs => if s.available then doAvailable s rs o else s
  | .unavailable o rs => if s.available then doUnavailable s rs o else s
  | .disconnect => { s with available := false }
  | .reconnect lost rs vs =>
    if s.available then s
    else recoverService { s with available := true, tree := if lost then [] else s.tree } rs vs

/-- The registered services, in some order. -/
def Lists (rs : List URL) (s : St) : Prop := rs.Perm (s.registered.map Prod.snd)

/-- The orders of an operation are orders in which the maps can be ranged over: every registered service once, and
every key there was when the range began. (A key inserted during the range may be met as well.) -/
def Ranges (s : St) : Op → Prop
  | .available none rs => Lists rs s
  | .unavailable none rs => Lists rs s
  | .reconnect _ rs vs => Lists rs s ∧ (∀ v ∈ vs, Lists v.2 s) ∧ ∀ k ∈ AMap.keys s.avail, k ∈ vs.map Prod.fst
  | _ => True

/-- Histories and the states they lead to. -/
inductive Run : List Op → St → Prop
  | nil : Run [] {}
  | snoc {h : List Op} {s : St} (op : Op) (hr : Run h s) (ho : Ranges s op) : Run (h ++ [op]) (step s op)

/-! ## Discovery -/

/-- zkRegistry.go:585-594 `getNodeInfo`. -/
def getNodeInfo (d : Bytes) : Bytes :=
  if d.length > 7 ∧ d.take 2 = [0xac, 0xed] then
    if d[4]? = some 0x74 then d.drop 7
    else if d[4]? = some 0x7c ∧ d.length > 13 then d.drop 13
    else d
  else d

/-- The last element of a path directly below `p`. -/
def childOf (p q : Bytes) : Option Bytes :=
  if p ++ b!"/" <+: q ∧ (47 : UInt8) ∉ q.drop (p.length + 1) then some (q.drop (p.length + 1)) else none

/-- `Children` of a path. -/
def children (t : Tree) (p : Bytes) : List Bytes := t.filterMap fun n => childOf p n.1

/-- zkRegistry.go:607-626: the URL of a node; none: the nil pointer dereference of line 627, when the data cannot be
parsed. -/
def nodeURL (u : URL) (name data : Bytes) : Option URL :=
  if getNodeInfo data ≠ [] then fromExtInfo (getNodeInfo data)
  else
    let v := copy u
    if (58 : UInt8) ∈ name then
      match split b!":" name with
      | h :: p :: _ => some { v with host := h, port := (parseInt64 p).1 }
      | _ => some { v with host := [], port := 80 }
    else some { v with host := name, port := 80 }

/-- zkRegistry.go:597-633 `nodeChildsToURLs`. None: it panics. (A node that vanished meanwhile is skipped.) -/
def nodesToURLs (t : Tree) (u : URL) (p : Bytes) : List Bytes → Option (List URL)
  | [] => some []
  | n :: ns =>
    match AMap.load t (p ++ b!"/" ++ n) with
    | none => nodesToURLs t u p ns
    | some d => (nodeURL u n d).bind fun v => (nodesToURLs t u p ns).map fun vs =>
      if v.port ≠ 0 ∨ v.host ≠ [] then v :: vs else vs

/-- zkRegistry.go:273-287 `Discover`, without the snapshot. -/
def discover (s : St) (u : URL) : Option (List URL) :=
  if s.available then nodesToURLs s.tree u (typePath u .server) (children s.tree (typePath u .server)) else some []

/-! ## Concurrent availability calls

`Available` and `Unavailable` release `registerLock` before they do anything (zkRegistry.go:427-428, 456-457), so
their statements interleave. -/

/-- The statements of zkRegistry.go:445-447 and 474-476. -/
inductive Stmt
  | remove (u : URL) (t : NodeType)
  | create (u : URL) (t : NodeType)
  | mark (u : URL)
  | unmark (u : URL)

/-- zkRegistry.go:445-447. -/
def availableStmts (u : URL) : List Stmt := [.remove u .unavailable, .create u .server, .mark u]

/-- zkRegistry.go:474-476. -/
def unavailableStmts (u : URL) : List Stmt := [.remove u .server, .create u .unavailable, .unmark u]

/-- One statement. -/
def exec (s : St) : Stmt → St
  | .remove u t => { s with tree := removeNode s.tree (nodePath u t) }
  | .create u t => { s with tree := createNode s.tree (nodePath u t) u }
  | .mark u => { s with avail := AMap.store s.avail (getIdentity u).1 (some u) }
  | .unmark u => { s with avail := AMap.erase s.avail (getIdentity u).1 }

/-- Interleavings of two threads. -/
inductive Merge : List Stmt → List Stmt → List Stmt → Prop
  | nil : Merge [] [] []
  | left {a : Stmt} {as bs cs : List Stmt} (h : Merge as bs cs) : Merge (a :: as) bs (a :: cs)
  | right {b : Stmt} {as bs cs : List Stmt} (h : Merge as bs cs) : Merge as (b :: bs) (b :: cs)

end Motan.Zk
