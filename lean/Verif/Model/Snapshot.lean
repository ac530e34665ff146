import Verif.Basic.AMap
import Verif.Basic.Bytes

/-!
# Snapshot files of registries (registry/registry.go, registry/zkRegistry.go)

What registries found is kept in memory and written to files every ten seconds, one for each service. The nodes of a service are in
a slice without spare room (zkRegistry.go:519), so that the first `append` in `flushSnapshot` copies it and what is in memory is
not changed: lists are values here. Keys contain no slash (`filepath.Join` leaves them as they are). The encoding as JSON is a
parameter. `flushSnapshot` holds the lock from the look at the memory to the last write: a flush is one step.
-/

namespace Motan.Snapshot

/-- registry/registry.go:50-60 `ServiceNode`, with the addresses of its `SnapshotNodeInfo`s (`ExtInfo` is never set). -/
structure Service where
  group : Bytes
  path : Bytes
  nodes : List Bytes
deriving DecidableEq

/-- What became of writing a file: it was written, or not and the file now holds something else (or does not exist). -/
inductive Write
  | done
  | failed (left : Option Bytes)
deriving DecidableEq

/-- The memory (by registry and key) and the files (by key). -/
structure St where
  memory : AMap Bytes (AMap Bytes Service) := []
  files : AMap Bytes Bytes := []
deriving DecidableEq

/-- registry/registry.go:163-165 `GetNodeKey`. -/
def nodeKey (group path : Bytes) : Bytes := group ++ b!"_" ++ path

/-- registry/registry.go:173-187 `SaveSnapshot`, called by registry/zkRegistry.go:513-525 `saveSnapshot`; `registry` is the identity
of the registry's URL. -/
def save (s : St) (registry group path : Bytes) (nodes : List Bytes) : St :=
  let inner := (AMap.load s.memory registry).getD []
  { s with memory := AMap.store s.memory registry (AMap.store inner (nodeKey group path) ⟨group, path, nodes⟩) }

/-- registry/registry.go:83-88: one entry. -/
def add (m : AMap Bytes Service) (p : Bytes × Service) : AMap Bytes Service :=
  match AMap.load m p.1 with
  | some n => AMap.store m p.1 { n with nodes := n.nodes ++ p.2.nodes }
  | none => AMap.store m p.1 p.2

/-- registry/registry.go:80-90: the entries of all registries, in this order of the registries. (The order inside a registry does not
matter, its keys are distinct.) -/
def collect (order : AMap Bytes (AMap Bytes Service)) : AMap Bytes Service :=
  order.foldl (fun m r => r.2.foldl add m) []

/-- registry/registry.go:91-97: the files after the writing. -/
def writeAll (json : Service → Bytes) (outcome : Bytes → Write) (files : AMap Bytes Bytes) (nodes : AMap Bytes Service) :
    AMap Bytes Bytes :=
  nodes.foldl (fun fs p =>
    match outcome p.1 with
    | .done => AMap.store fs p.1 (json p.2)
    | .failed (some b) => AMap.store fs p.1 b
    | .failed none => AMap.erase fs p.1) files

/-- A registry has found the nodes of a service; a tick of the writer, with the order in which it sees the registries. -/
inductive Op
  | save (registry group path : Bytes) (nodes : List Bytes)
  | flush (order : AMap Bytes (AMap Bytes Service)) (outcome : Bytes → Write)

/-- registry/registry.go:75-102 `flushSnapshot` and 173-187. -/
def step (json : Service → Bytes) (s : St) : Op → Option St
  | .save r g p ns => some (save s r g p ns)
  | .flush order outcome =>
    if order.Perm s.memory then some { s with files := writeAll json outcome s.files (collect order) } else none

/-- A history. -/
def play (json : Service → Bytes) (s : St) : List Op → Option St
  | [] => some s
  | o :: os => (step json s o).bind fun s' => play json s' os

end Motan.Snapshot
