import Verif.Model.Admin
import Verif.Model.EndpointConf

/-!
# What the parts of an agent say about themselves (`GetRuntimeInfo` throughout the code)

The page is put together in `Model/Admin.lean`. A Go map with fixed keys is a structure here; a key that may be missing is an
optional field (or an empty list, where only a non-empty list is put in). What a single endpoint or registry says (its name and
counters) is a parameter `α`: none of these can panic. Clusters are asked one after another while they may change; the state is
that at the moment each is asked (it holds the lock of its notifications).
-/

namespace Motan.Runtime

open Motan.Url

variable {α : Type}

/-- core/motan.go:948-955, 998-1005, filter/filter.go:75-81 `GetFilterRuntimeInfo`. -/
structure FilterInfo where
  name : Bytes
  index : Int
  type : Int
deriving DecidableEq

/-! ## Clusters -/

/-- An endpoint of a cluster as the page sees it. -/
structure Refer (α : Type) where
  url : URL
  available : Bool
  says : α

/-- What is asked of a cluster: its name and URL, its endpoints, its registries (each with its URL), its endpoint filters, and its
cluster filters, outermost first. -/
structure Cluster (α : Type) where
  name : Bytes
  url : Option URL
  refers : List (Refer α)
  registries : List (URL × α)
  filters : List FilterInfo
  clusterFilters : List FilterInfo

/-- What a cluster says. -/
structure ClusterInfo (α : Type) where
  name : Bytes
  refererSize : Nat
  url : Option Bytes
  available : AMap Bytes α
  unavailable : AMap Bytes α
  registries : AMap Bytes α
  filters : List FilterInfo
  clusterFilters : List FilterInfo
deriving DecidableEq

/-- cluster/motanCluster.go:393-402: the loop over the endpoints, from number `i` on, with the maps of the available and the others. -/
def refersInfo : Nat → List (Refer α) → AMap Bytes α × AMap Bytes α → AMap Bytes α × AMap Bytes α
  | _, [], m => m
  | i, e :: es, m =>
    let key := formatInt i ++ b!"-" ++ (getIdentity e.url).1
    refersInfo (i + 1) es (if e.available then (AMap.store m.1 key e.says, m.2) else (m.1, AMap.store m.2 key e.says))

/-- cluster/motanCluster.go:376-429 `GetRuntimeInfo`. -/
def clusterInfo (c : Cluster α) : ClusterInfo α :=
  let r := refersInfo 0 c.refers ([], [])
  { name := c.name, refererSize := c.refers.length, url := c.url.map fun u => (toExtInfo u).1
    available := r.1, unavailable := r.2
    registries := c.registries.foldl (fun m p => AMap.store m (getIdentity p.1).1 p.2) []
    filters := c.filters, clusterFilters := c.clusterFilters }

/-! ## Services -/

/-- A provider: one that passes requests on (provider/motanProvider.go, with what its endpoint says, if there is one) or another, which
says its name, its URL or both (provider/provider.go:58-64, 144-148, httpProvider.go:46-54, httpxProvider.go:35-41, cgiProvider.go:33-38,
metaProvider.go:66-71). -/
inductive Prov (α : Type)
  | passing (url : Option URL) (available : Bool) (ep : Option α)
  | other (name : Option Bytes) (url : Option URL)

/-- What a provider says. -/
structure ProvInfo (α : Type) where
  name : Option Bytes := none
  url : Option Bytes := none
  available : Option Bool := none
  endpoint : Option α := none
  filters : List FilterInfo := []
deriving DecidableEq

/-- `GetRuntimeInfo` of a provider; none: a panic (provider/motanProvider.go:24 uses the endpoint). -/
def provInfo : Prov α → Option (ProvInfo α)
  | .passing u av ep =>
    match ep with
    | some a => some { url := u.map fun u => (toExtInfo u).1, available := some av, endpoint := some a }
    | none => none
  | .other n u => some { name := n, url := u.map fun u => (toExtInfo u).1 }

/-- server/server.go:274-296: a provider with its filters, outermost first (the last filter is always there). -/
structure Wrapped (α : Type) where
  prov : Prov α
  filters : List FilterInfo

/-- server/server.go:236-248 `GetRuntimeInfo`. -/
def wrappedInfo (w : Wrapped α) : Option (ProvInfo α) :=
  (provInfo w.prov).map fun i => if w.filters.length > 0 then { i with filters := w.filters } else i

/-- An exporter (agent.go:915-964). -/
structure Exporter (α : Type) where
  url : Option URL
  prov : Wrapped α
  available : Bool

/-- What an exporter says. -/
structure ExporterInfo (α : Type) where
  url : Option Bytes
  provider : ProvInfo α
  available : Bool
deriving DecidableEq

/-- server/server.go:56-64 `GetRuntimeInfo`. -/
def exporterInfo (e : Exporter α) : Option (ExporterInfo α) :=
  (wrappedInfo e.prov).map fun p => { url := e.url.map fun u => (toExtInfo u).1, provider := p, available := e.available }

/-- Ask every value of a map, in its order; none if one of them panics. -/
def askAll {κ ν μ : Type} [DecidableEq κ] (f : ν → Option μ) : AMap κ ν → Option (AMap κ μ)
  | [] => some []
  | (k, v) :: m => (f v).bind fun x => (askAll f m).map fun r => (k, x) :: r

/-! ## Servers -/

/-- A server of the agent (server/motanserver.go), with the providers of its handler by path; the agent's own server has none
(agent.go:723-727). -/
structure Server (α : Type) where
  proxy : Bool
  maxContentLength : Int
  heartbeat : Bool
  url : Option URL
  handler : Bytes
  providers : Option (AMap Bytes (Wrapped α))

/-- What a server says. -/
structure ServerInfo (α : Type) where
  proxy : Bool
  maxContentLength : Int
  heartbeat : Bool
  url : Option Bytes
  handler : Bytes
  providers : Option (AMap Bytes (ProvInfo α))
deriving DecidableEq

/-- server/motanserver.go:58-68 with agent.go:723-727 and 975-989. -/
def serverInfo (s : Server α) : Option (ServerInfo α) :=
  (match s.providers with
    | none => some none
    | some m => (askAll wrappedInfo m).map some).map fun ps =>
  { proxy := s.proxy, maxContentLength := s.maxContentLength, heartbeat := s.heartbeat, url := s.url.map fun u => (toExtInfo u).1
    handler := s.handler, providers := ps }

/-- What the HTTP proxy says (server/httpProxyServer.go:58-67). -/
structure HttpInfo where
  url : Option Bytes
  deny : List Bytes
  keepalive : Bool
  defaultDomain : Bytes
deriving DecidableEq

/-- What the servers say. -/
structure ServersInfo (α : Type) where
  agent : ServerInfo α
  ports : AMap Bytes (ServerInfo α)
  http : HttpInfo
deriving DecidableEq

/-! ## The agent -/

/-- What the page is made of. `server` and `http` are none as long as they are not set: the page is served from before the agent's own
server is set (agent.go:222, 236, 679), the HTTP proxy is set before (agent.go:220). -/
structure Agent (α : Type) where
  clusters : AMap Bytes (Cluster α) := []
  httpClusters : AMap Bytes (Bytes × Option URL) := []
  exporters : AMap Bytes (Exporter α) := []
  server : Option (Server α) := none
  ports : AMap Int (Server α) := []
  http : Option HttpInfo := none
  registries : AMap Bytes α := []
  startTime : Bytes := []
  cpu : Bytes := []
  rss : Bytes := []

/-- What a part says. -/
inductive Said (α : Type)
  | clusters (m : AMap Bytes (ClusterInfo α))
  | httpClusters (m : AMap Bytes (Bytes × Option Bytes))
  | exporters (m : AMap Bytes (ExporterInfo α))
  | servers (s : ServersInfo α)
  | registries (m : AMap Bytes α)
  | basic (start cpu rss : Bytes)
deriving DecidableEq

/-- manageHandler.go:901-911 `getServersInfo`: ports are written in decimal. -/
def serversInfo (a : Agent α) : Option (ServersInfo α) :=
  match a.server with
  | none => none
  | some s =>
    (serverInfo s).bind fun si =>
      (askAll serverInfo a.ports).bind fun ps =>
        match a.http with
        | none => none
        | some h => some { agent := si, ports := ps.map fun p => (formatInt p.1, p.2), http := h }

/-- manageHandler.go:819-835, 862-911, cluster/httpCluster.go:110-118, core/motan.go:762-775, agent.go:138-144: what the parts say. -/
def parts (a : Agent α) : Admin.Parts (Said α) where
  clusters := some (some (.clusters (a.clusters.map fun p => (p.1, clusterInfo p.2))))
  httpClusters := some (some (.httpClusters (a.httpClusters.map fun p => (p.1, p.2.1, p.2.2.map fun u => (toExtInfo u).1))))
  exporters := (askAll exporterInfo a.exporters).map fun m => some (.exporters m)
  servers := (serversInfo a).map fun s => some (.servers s)
  extensionFactory := some (some (.registries a.registries))
  basic := some (some (.basic a.startTime a.cpu a.rss))

/-- manageHandler.go:837-860, agent.go:1265-1269: the answer to a request for the page: the page, or the text of a panic (its
beginning). -/
inductive Answer (α : Type)
  | page (m : AMap Bytes (Admin.Value (Said α)))
  | failed
  | nothing

/-- manageHandler.go:837-860 `ServeHTTP`, with the recovery of agent.go:1265-1269. -/
def answer (a : Agent α) (path keys : Bytes) : Answer α :=
  match Admin.runtimeInfo (parts a) path keys with
  | none => .failed
  | some none => .nothing
  | some (some m) => .page m

end Motan.Runtime
