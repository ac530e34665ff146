import Verif.Basic.Trim
import Verif.Model.Cluster

/-!
# Direct addressing (registry/directRegistry.go, core/util.go `GetDirectEnvRegistry`)

A client may name its servers itself: with a registry of the protocol `direct`, or with the environment variable
`MESH_DIRECT_RPC`, which goes before all configured registries. Such a registry never notifies; the cluster is given
its servers once, when it is set up (cluster/motanCluster.go:305-309, 344-355).
-/

namespace Motan.Direct

open Motan.Strings Motan.Url

/-- registry/directRegistry.go:88-108: what one piece of the `address` parameter adds to the list; `u` is the copy of
the registry's URL. (The address parameter that 93 stores in the copy is never read.) -/
def parsePiece (u : URL) (add : Bytes) : Option URL :=
  if hasPrefix add b!"unix://" then some (putParam { u with host := add, port := 0 } b!"address" add)
  else
    match trimSplit add b!":" with
    | [h, p] =>
      match parseInt64 p with
      | (n, none) => some { u with host := h, port := n }
      | (_, some _) => none
    | _ => none

/-- registry/directRegistry.go:83-111 `parseURLs`. -/
def parseURLs (url : URL) : List URL :=
  if 0 < url.host.length ∧ 0 < url.port then [copy url]
  else
    match url.param b!"address" with
    | some address => (split b!"," address).filterMap (parsePiece (copy url))
    | none => []

/-- registry/directRegistry.go:51-56: the server that is made of the asked URL. -/
def serverURL (url u : URL) : URL :=
  let n := { copy url with host := u.host, port := u.port }
  if u.group ≠ [] then { n with group := u.group } else n

/-- registry/directRegistry.go:44-59 `Discover`; `reg` is the registry's URL. (`urls` is filled in by the first call,
or by `SetURL`, from the same URL.) -/
def discover (reg url : URL) : List URL := (parseURLs reg).map (serverURL url)

/-- core/util.go:265-283: what one piece of the variable adds to the table. -/
def readPiece (m : AMap Bytes URL) (s : Bytes) : AMap Bytes URL :=
  match split b!">" s with
  | [k, v] =>
    let (group, addr) :=
      match index b!"@" v with
      | some i => (v.take i, v.drop (i + 1))
      | none => ([], v)
    let reg := putParam { protocol := b!"direct", group := trimSpace group } b!"address" (trimSpace addr)
    AMap.store m (trimSpace k) reg
  | _ => m

/-- core/util.go:260-286: the table `directRpc` made of the variable's value. An empty value and a value without
entries leave the nil map, which is read like an empty one. -/
def readEnv (str : Bytes) : AMap Bytes URL := (split b!";" str).foldl readPiece []

/-- `strings.HasSuffix`. -/
def hasSuffix (s p : Bytes) : Bool := p.isSuffixOf s

/-- core/util.go:290-298: does the entry `k` apply to the path? -/
def applies (p k : Bytes) : Bool :=
  if hasSuffix k b!"*" then hasPrefix p (k.take (k.length - 1)) else hasSuffix p k

/-- core/util.go:287-301: the first entry that applies, in the order `range` in which Go goes over the table. -/
def envRegistry (range : AMap Bytes URL) (p : Bytes) : Option URL := (range.find? fun e => applies p e.1).map Prod.snd

open Motan.Cluster Motan.RefersFilter

/-- cluster/motanCluster.go:305-309, 344-355: a new cluster is given the servers of the entry that applies; the
configured registries are not used. Without one (`none`) they are, 310-341. -/
def setUp {N : Net} (env : Env) (range : AMap Bytes URL) (order swaps : List (Nat × Nat)) : Option (State N) :=
  (envRegistry range env.url.path).map fun reg =>
    notify env {} (idOf reg) ((discover reg env.url).map some) order swaps

end Motan.Direct
