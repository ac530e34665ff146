import Verif.Model.Zk

/-!
# The zookeeper registry: persistent nodes and command nodes

registry/zkRegistry.go 396-420, 570-582, 644-674. The persistent nodes of the server are a list of paths (without the
root). Other clients are left out: the tree changes only by the calls modelled here. Whether the client library accepts a
path (`validatePath`) and whether the server refuses to create a node for a reason other than a missing parent (no
permission, say) are parameters.
-/

namespace Motan.ZkTree

open Strings Url

/-- What `Create` can answer. -/
inductive Err
  | noNode
  | exists
  | other
deriving DecidableEq

/-- The client library and the server. -/
structure Env where
  valid : Bytes → Bool
  refuse : Bytes → Bool

/-- Everything before the last slash: where the server looks for the parent; nothing: the root. -/
def parentOf (p : Bytes) : Bytes := ((p.reverse.dropWhile (· ≠ 47)).drop 1).reverse

/-- `zkConn.Create(path, nil, 0, …)` as documented: the nodes afterwards, or an error. -/
def create (env : Env) (t : List Bytes) (p : Bytes) : Except Err (List Bytes) :=
  if env.valid p = false then .error .other
  else if parentOf p ≠ [] ∧ parentOf p ∉ t then .error .noNode
  else if env.refuse p then .error .other
  else if p ∈ t then .error .exists
  else .ok (p :: t)

/-- zkRegistry.go:574-575: the parent's path. -/
def parentPath (p : Bytes) : Bytes := join b!"/" (split b!"/" p).dropLast

/-- zkRegistry.go:571-582 `createPersistent`: the nodes afterwards. It calls itself; `none`: more than this many calls
deep. -/
def createPersistent (env : Env) (parents : Bool) : Nat → List Bytes → Bytes → Option (List Bytes)
  | 0, _, _ => none
  | n + 1, t, p =>
    match create env t p with
    | .ok t' => some t'
    | .error e =>
      if e = .noNode ∧ parents = true then
        (createPersistent env parents n t (parentPath p)).bind fun t' => createPersistent env parents n t' p
      else some t

/-- zkRegistry.go:656-658 `toAgentPath`. -/
def agentRoot (u : URL) : Bytes := b!"/motan" ++ b!"/" ++ b!"agent" ++ b!"/" ++ getParam u b!"application" []

/-- zkRegistry.go:401-406, 644-646, 668-670: `toCommandPath`, or `toAgentCommandPath` for an agent. -/
def commandPath (u : URL) : Bytes :=
  if Zk.isAgent u then agentRoot u ++ b!"/command" else Zk.groupPath u ++ b!"/command"

/-- zkRegistry.go:397-420 `DiscoverCommand`; `get` is the data of a node (none: it does not exist or cannot be read). -/
def discoverCommand (available : Bool) (get : Bytes → Option Bytes) (u : URL) : Bytes :=
  if available then
    match get (commandPath u) with
    | some d => Zk.getNodeInfo d
    | none => []
  else []

end Motan.ZkTree
