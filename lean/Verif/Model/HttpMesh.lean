import Verif.Model.Ha
import Verif.Model.HttpProxy
import Verif.Model.HttpProvider

/-!
# HTTP requests through the mesh

cluster/httpCluster.go (which services of a domain are called by RPC, the clusters of the services), core/motan.go
1154-1236 (the cache of the services of a group), server/httpProxyServer.go 99-167, 287-355 (the HTTP proxy), agent.go
740-797 `httpCall`, 488-495 and meshClient.go 108-144 `BaseCall`.

`/proxy_to_rpc` (229-285) is in HttpX.lean. Not modelled: the tunnel of CONNECT beyond its beginning, the headers `Connection`, the URL
that the HTTP client is given by the proxy (but for its `Host` the request is passed on as it came), logging.
-/

namespace Motan.HttpMesh

open Convert (Response)

/-! ## The services of a group -/

/-- core/motan.go:1154-1161 `registryGroupServiceCacheInfo`: the registry (its identity), the group, the services (the
slice and the map hold the same), the time of the last update (none: the zero time, which is more than an hour ago). -/
structure Info where
  reg : Bytes
  group : Bytes
  services : Option (List Bytes) := none
  upd : Option Int := none
deriving DecidableEq

/-- core/motan.go:51-52 `registryGroupServiceInfoMaxCacheTime`, in nanoseconds. -/
def maxCacheTime : Int := 3600 * 1000000000

/-- core/motan.go:20 the capacity of `refreshTaskPool`. -/
def poolSize : Nat := 100

/-- core/motan.go:1171, 1185 (negated). -/
def Info.stale (i : Info) (now : Int) : Bool :=
  match i.upd with
  | none => true
  | some t => maxCacheTime ≤ now - t

/-- What can be observed of the cache: a discovery and its outcome. -/
inductive Ev
  | discovered (reg group : Bytes) (res : Option (List Bytes))
deriving DecidableEq

/-- core/motan.go:1181-1199 `refreshServices`. `found` is what `DiscoverAllServices` gives, none: an error. (The time is
read twice; the discovery is taken to need no time.) -/
def Info.refresh (i : Info) (now : Int) (found : Option (List Bytes)) : Info × List Ev :=
  if i.stale now then
    match found with
    | none => (i, [.discovered i.reg i.group none])
    | some l => ({ i with services := some l, upd := some now }, [.discovered i.reg i.group (some l)])
  else (i, [])

/-- The cache, 1201-1204 and 1224, the tasks waiting, 20, and for each domain the services that have a holder,
cluster/httpCluster.go:65. -/
structure St where
  cache : AMap Bytes Info := []
  tasks : List Bytes := []
  upstream : Bytes → List Bytes := fun _ => []

/-- core/motan.go:1208. -/
def cacheKey (reg group : Bytes) : Bytes := reg ++ b!"_" ++ group

/-- core/motan.go:1170-1179 `getServices` of an entry: a task is queued if there is room. -/
def enqueue (s : St) (key : Bytes) (i : Info) (now : Int) : St :=
  if i.stale now then
    if s.tasks.length < poolSize then { s with tasks := s.tasks ++ [key] } else s
  else s

/-- core/motan.go:1206-1222 `getServices`: the entry; `found`: what a discovery gives now. -/
def getServices (s : St) (reg group : Bytes) (now : Int) (found : Option (List Bytes)) : St × Option (List Bytes) × List Ev :=
  match s.cache.load (cacheKey reg group) with
  | some i => (enqueue s (cacheKey reg group) i now, i.services, [])
  | none =>
    let r := Info.refresh { reg := reg, group := group } now found
    (enqueue { s with cache := s.cache.store (cacheKey reg group) r.1 } (cacheKey reg group) r.1 now, r.1.services, r.2)

/-- core/motan.go:1228-1235. -/
def isIn (service : Bytes) : Option (List Bytes) → Bool
  | some l => decide (service ∈ l)
  | none => false

/-- core/motan.go:1226-1236 `ServiceInGroup`. -/
def serviceInGroup (s : St) (reg group service : Bytes) (now : Int) (found : Option (List Bytes)) : St × Bool × List Ev :=
  let r := getServices s reg group now found
  (r.1, isIn service r.2.1, r.2.2)

/-- core/motan.go:34-43: the worker runs the first task. -/
def work (s : St) (now : Int) (found : Option (List Bytes)) : St × List Ev :=
  match s.tasks with
  | [] => (s, [])
  | k :: ks =>
    match s.cache.load k with
    | some i => ({ s with tasks := ks, cache := s.cache.store k (i.refresh now found).1 }, (i.refresh now found).2)
    | none => ({ s with tasks := ks }, [])

/-! ## The domains -/

/-- cluster/httpCluster.go:60-71 `HTTPCluster`: the group and application of its URL, the identity of its registry if that
can discover services, the services given by `preload`, and which service a path belongs to
(`URIToServiceName`, Model/HttpProxy.lean `uriToServiceName`). -/
structure Domain where
  group : Bytes
  app : Bytes := []
  registry : Option Bytes
  preload : List Bytes
  service : Bytes → Bytes

/-- cluster/httpCluster.go:120-140 `CanServe`. -/
def canServe (s : St) (name : Bytes) (d : Domain) (uri : Bytes) (now : Int) (found : Option (List Bytes)) :
    St × Option Bytes × List Ev :=
  if d.service uri = [] then (s, none, [])
  else
    match d.registry with
    | none => (s, if d.service uri ∈ s.upstream name then some (d.service uri) else none, [])
    | some reg =>
      let r := serviceInGroup s reg d.group (d.service uri) now found
      (r.1, if r.2.1 then some (d.service uri) else none, r.2.2)

/-- cluster/httpCluster.go:165-185 `getMotanCluster`, as far as the map is concerned: a holder is entered. -/
def addHolder (s : St) (name service : Bytes) : St :=
  { s with upstream := fun n => if n = name ∧ service ∉ s.upstream n then s.upstream n ++ [service] else s.upstream n }

/-- cluster/httpCluster.go:97-106: the services to preload get holders; the empty name is skipped. -/
def initDomain (s : St) (name : Bytes) (d : Domain) : St :=
  d.preload.foldl (fun s p => if p = [] then s else addHolder s name p) s

/-! ## The HTTP proxy -/

/-- What is sent: a call of the cluster of a service, with the endpoints that were called; an HTTP request, with its `Host`;
a tunnel to a host. -/
inductive Sent (E : Type)
  | rpc (service : Bytes) (eps : List E)
  | http (host : Bytes)
  | tunnel (host : Bytes)
deriving DecidableEq

/-- The answer to the client: what the service answered (header and body), what the HTTP server answered (none: it could
not be reached, the status is 502), a status of the proxy itself. -/
inductive Answer
  | rpc (header body : Option Bytes)
  | http (r : Option HttpProvider.HttpRes)
  | status (code : Nat)
deriving DecidableEq

/-- What the proxy works with: how a host is separated from its port (`net.SplitHostPort`, the empty string if there is an
error), a call of the cluster of a domain and service (`MotanCluster.Call`, see Model/Ha.lean), how its value is
deserialized (`ProcessDeserializable(&reply)`), the HTTP client, and whether the host of a tunnel can be reached. -/
structure Env (E : Type) where
  splitHost : Bytes → Bytes
  call : Bytes → Bytes → Response × List E
  decode : Response → Option (List (Option Bytes))
  http : Option HttpProvider.HttpRes
  dial : Bool := true

/-- server/httpProxyServer.go:45-57, 77-84: the domains (`GetHTTPCluster`, agent.go:490-495), the default domain and the
addresses of the proxy itself. -/
structure Cfg where
  domains : AMap Bytes Domain
  defaultDomain : Bytes := []
  deny : List Bytes

/-- The request: `path` is the path of its URI. -/
structure Req where
  connect : Bool := false
  host : Bytes
  path : Bytes

/-- server/httpProxyServer.go:344-354: header and body of the reply; none: an index out of range, that is, a panic. -/
def replyOf : List (Option Bytes) → Option (Option Bytes × Option Bytes)
  | a :: b :: _ => some (a, b)
  | _ => none

/-- server/httpProxyServer.go:307-355 `doHTTPRpcProxy`; a panic is answered with 502, 100-105. `host`: the `Host` of the
request. -/
def rpcProxy {E : Type} (env : Env E) (host name service : Bytes) : List (Sent E) × Answer :=
  let c := env.call name service
  match c.1.exception with
  | some e =>
    if e.errCode = Ha.eNoEndpoints then ([.rpc service c.2, .http host], .http env.http)
    else ([.rpc service c.2], .status 502)
  | none =>
    match env.decode c.1 with
    | none => ([.rpc service c.2], .status 502)
    | some reply =>
      match replyOf reply with
      | some (h, b) => ([.rpc service c.2], .rpc h b)
      | none => ([.rpc service c.2], .status 502)

/-- server/httpProxyServer.go:138-141: the host with a port. -/
def hostAndPort (host : Bytes) : Bytes := if (58 : UInt8) ∈ host then host else host ++ b!":80"

/-- server/httpProxyServer.go:143-149: the domain, and `hostAndPort`. -/
def chooseDomain {E : Type} (cfg : Cfg) (env : Env E) (host : Bytes) : Option (Bytes × Domain) × Bytes :=
  let h := env.splitHost (hostAndPort host)
  match cfg.domains.load h with
  | some d => (some (h, d), hostAndPort host)
  | none =>
    if cfg.defaultDomain = [] then (none, hostAndPort host)
    else ((cfg.domains.load cfg.defaultDomain).map fun d => (cfg.defaultDomain, d), cfg.defaultDomain ++ b!":80")

/-- server/httpProxyServer.go:145-146: the `Host` of the request from there on. -/
def sentHost {E : Type} (cfg : Cfg) (env : Env E) (host : Bytes) : Bytes :=
  match cfg.domains.load (env.splitHost (hostAndPort host)) with
  | some _ => host
  | none => if cfg.defaultDomain = [] then host else cfg.defaultDomain

/-- server/httpProxyServer.go:156-166: no service is found. (The path begins with a slash.) -/
def plain {E : Type} (cfg : Cfg) (env : Env E) (host hp : Bytes) : List (Sent E) × Answer :=
  if hp ∈ cfg.deny then ([], .status 400) else ([.http host], .http env.http)

/-- server/httpProxyServer.go:99-167: the handler. -/
def handle {E : Type} (cfg : Cfg) (env : Env E) (s : St) (r : Req) (now : Int) (found : Option (List Bytes)) :
    St × List Ev × List (Sent E) × Answer :=
  if r.connect then (s, [], if env.dial then ([.tunnel r.host], .status 200) else ([], .status 502))
  else
    match chooseDomain cfg env r.host with
    | (none, hp) => (s, [], plain cfg env (sentHost cfg env r.host) hp)
    | (some (name, d), hp) =>
      let c := canServe s name d r.path now found
      match c.2.1 with
      | some service => (addHolder c.1 name service, c.2.2, rpcProxy env (sentHost cfg env r.host) name service)
      | none => (c.1, c.2.2, plain cfg env (sentHost cfg env r.host) hp)

/-! ## Motan requests to a domain -/

/-- agent.go:799-826 `fillDefaultReqInfo` for a motan2 request. -/
def fill (d : Domain) (atts : AMap Bytes Bytes) : AMap Bytes Bytes :=
  let atts :=
    if (atts.load b!"M_s").getD [] = [] then
      if (atts.load b!"application").getD [] ≠ [] then atts.store b!"M_s" ((atts.load b!"application").getD [])
      else if d.app ≠ [] then atts.store b!"M_s" d.app else atts
    else atts
  if (atts.load b!"M_g").getD [] = [] then atts.store b!"M_g" d.group else atts

/-- cluster/httpCluster.go:195-197: `Call` enters the application as source if there is none, even if it is empty. -/
def withSource (d : Domain) (atts : AMap Bytes Bytes) : AMap Bytes Bytes :=
  if (atts.load b!"M_s").getD [] = [] then atts.store b!"M_s" d.app else atts

/-- What the agent answers: the response of the cluster, an error of its own, or the answer to an HTTP request. -/
inductive Result
  | rpc (r : Response)
  | error
  | http (r : HttpProvider.HttpRes)

/-- What is sent by the agent: as above; of an HTTP request the host, the path and the rest. -/
inductive Out (E : Type)
  | rpc (service : Bytes) (eps : List E)
  | http (host path : Bytes) (r : HttpProvider.HttpReq)

/-- agent.go:772-796: the HTTP request that replaces the call. `serve`: what the HTTP server answers. -/
def viaHttp {E : Type} (lib : HttpProvider.Lib) (host : Bytes) (r : HttpProvider.Req)
    (serve : Option HttpProvider.HttpRes) : List (Out E) × Result :=
  match r.args with
  | none => ([], .error)
  | some args =>
    match HttpProvider.toHttp lib r args b!"GET" with
    | none => ([], .error)
    | some q =>
      match serve with
      | some a => ([.http host r.method q], .http a)
      | none => ([.http host r.method q], .error)

/-- agent.go:740-797 `httpCall`: a request to the domain `name`, with the path as method. `call`: a call of the cluster of
a service with the attachments of the request; none: it returns nil. -/
def httpCall {E : Type} (lib : HttpProvider.Lib) (name : Bytes) (d : Domain) (s : St)
    (call : Bytes → AMap Bytes Bytes → Option Response × List E) (serve : Option HttpProvider.HttpRes)
    (r : HttpProvider.Req) (now : Int) (found : Option (List Bytes)) : St × List Ev × List (Out E) × Result :=
  let c := canServe s name d r.method now found
  match c.2.1 with
  | none => (c.1, c.2.2, viaHttp lib name r serve)
  | some service =>
    let r := { r with attachments := withSource d ((fill d r.attachments).store b!"M_p" service) }
    let x := call service r.attachments
    match x.1 with
    | none => (addHolder c.1 name service, c.2.2, [.rpc service x.2], .error)
    | some resp =>
      if (resp.exception.map (·.errCode)) = some Ha.eNoEndpoints then
        let v := viaHttp lib name r serve
        (addHolder c.1 name service, c.2.2, .rpc service x.2 :: v.1, v.2)
      else (addHolder c.1 name service, c.2.2, [.rpc service x.2], .rpc resp)

/-- core/constants.go:137 `ENoChannel`. -/
def eNoChannel : Int := 1002

/-- What the caller of a mesh client hands in for the reply: a pointer to a byte slice (meshClient.go:137), a pointer to a string (140), or
something else. -/
inductive Reply
  | bytes
  | str
  | other
deriving DecidableEq

/-- What `BaseCall` of a mesh client gives: the response of the call, an exception of its own, a response to the HTTP request with these
attachments, with a value or without one, or a panic. -/
inductive Given
  | rpc (r : Response)
  | error
  | http (value : Option Bytes) (attachments : AMap Bytes Bytes)
  | panic

/-- http/httpProxy.go:558-569 `FasthttpResponseToMotanResponse`: the attachments and the value of the response. The body is only kept if the
response is of the type `HttpMotanResponse` (`own`). -/
def toResponse (own : Bool) (a : HttpProvider.HttpRes) : Option Bytes × AMap Bytes Bytes :=
  (if own then some a.body else none, AMap.storeAll [] a.headers)

/-- meshClient.go:108-144 `BaseCall`: the call of the agent, and for a method with a slash the HTTP request that replaces it.
`service` is the service, or the domain. 135-136: the response is a plain `MotanResponse`; 138, 141: the type assertion of its value panics if
there is none. -/
def baseCall {E : Type} (lib : HttpProvider.Lib) (service : Bytes) (call : Response × List E)
    (serve : Option HttpProvider.HttpRes) (reply : Reply) (r : HttpProvider.Req) : List (Out E) × Given :=
  if (47 : UInt8) ∉ r.method then ([.rpc service call.2], .rpc call.1)
  else
    match call.1.exception with
    | none => ([.rpc service call.2], .rpc call.1)
    | some e =>
      if e.errCode = eNoChannel ∨ e.errCode = Ha.eNoEndpoints then
        let v := viaHttp lib service r serve
        (.rpc service call.2 :: v.1,
          match v.2 with
          | .http a =>
            let m := toResponse false a
            if reply ≠ .other ∧ m.1 = none then .panic else .http m.1 m.2
          | _ => .error)
      else ([.rpc service call.2], .rpc call.1)

/-! ## Histories -/

/-- What happens: a request of the proxy, a request of the agent's port, the worker of the cache. -/
inductive Op
  | proxy (r : Req) (now : Int) (found : Option (List Bytes))
  | agent (name : Bytes) (r : HttpProvider.Req) (now : Int) (found : Option (List Bytes))
  | work (now : Int) (found : Option (List Bytes))

/-- One step: the state and the discoveries. What is sent does not change them. -/
def step {E : Type} (cfg : Cfg) (env : Env E) (lib : HttpProvider.Lib) (s : St) : Op → St × List Ev
  | .proxy r now found => ((handle cfg env s r now found).1, (handle cfg env s r now found).2.1)
  | .agent name r now found =>
    match cfg.domains.load name with
    | none => (s, [])
    | some d =>
      let x := httpCall (E := E) lib name d s (fun service _ => (some (env.call name service).1, (env.call name service).2)) env.http r now found
      (x.1, x.2.1)
  | .work now found => work s now found

/-- agent.go:462-475 `initHTTPClusters`: all domains. -/
def start (cfg : Cfg) : St := cfg.domains.foldl (fun s d => initDomain s d.1 d.2) {}

/-- A history: the state and the discoveries so far. -/
def run {E : Type} (cfg : Cfg) (env : Env E) (lib : HttpProvider.Lib) (ops : List Op) : St × List Ev :=
  ops.foldl (fun x op => ((step cfg env lib x.1 op).1, x.2 ++ (step cfg env lib x.1 op).2)) (start cfg, [])

/-! ## The clusters of the services -/

namespace Holders

/-- Where a caller of `getMotanCluster` is, cluster/httpCluster.go:165-185 and 26-40. -/
inductive Pc
  /-- before 166 -/
  | lookup (service : Bytes)
  /-- before 173 -/
  | insert (service : Bytes)
  /-- before 27 -/
  | peek (h : Nat)
  /-- before 30 -/
  | lock (h : Nat)
  /-- in `NewCluster`, 36, with the lock of the holder -/
  | build (h : Nat)
  | got (c : Nat)
deriving DecidableEq

/-- cluster/httpCluster.go:16-24 `clusterHolder`. -/
structure Holder where
  service : Bytes
  cluster : Option Nat := none
  locked : Bool := false
deriving DecidableEq

/-- The map, the holders and the clusters made so far: for each its service and whether it was destroyed. (`cluster` is none
while `initialized` is false.) -/
structure St where
  map : AMap Bytes Nat := []
  holders : List Holder := []
  clusters : List (Bytes × Bool) := []
  pcs : List Pc := []
deriving DecidableEq

/-- What happens: somebody calls `getMotanCluster`; a caller goes on; somebody calls `Destroy`. -/
inductive Op
  | call (service : Bytes)
  | go (i : Nat)
  | destroy
deriving DecidableEq

def setPc (s : St) (i : Nat) (p : Pc) : St := { s with pcs := s.pcs.set i p }

/-- cluster/httpCluster.go:42-50 `destroy` of a holder. -/
def destroyOne (holders : List Holder) (clusters : List (Bytes × Bool)) (h : Nat) : List Holder × List (Bytes × Bool) :=
  match holders[h]? with
  | some k =>
    match k.cluster with
    | some c => (holders.set h { k with cluster := none }, clusters.set c ((clusters.getD c ([], false)).1, true))
    | none => (holders, clusters)
  | none => (holders, clusters)

/-- cluster/httpCluster.go:201-208 `Destroy`; it waits for the holders that are locked. (Modelled as one step, when no holder
of the map is locked.) -/
def destroyAll (s : St) : Option St :=
  if s.map.all fun p => !((s.holders[p.2]?).map (·.locked)).getD false then
    let r := s.map.foldl (fun x p => destroyOne x.1 x.2 p.2) (s.holders, s.clusters)
    some { s with map := [], holders := r.1, clusters := r.2 }
  else none

/-- One step; none: it cannot happen now. -/
def step (s : St) : Op → Option St
  | .call service => some { s with pcs := s.pcs ++ [.lookup service] }
  | .destroy => destroyAll s
  | .go i =>
    match s.pcs[i]? with
    | some (.lookup service) =>
      match s.map.load service with
      | some h => some (setPc s i (.peek h))
      | none => some (setPc s i (.insert service))
    | some (.insert service) =>
      match s.map.load service with
      | some h => some (setPc s i (.peek h))
      | none =>
        some (setPc { s with map := s.map.store service s.holders.length, holders := s.holders ++ [{ service := service }] } i
          (.peek s.holders.length))
    | some (.peek h) =>
      match (s.holders[h]?).bind (·.cluster) with
      | some c => some (setPc s i (.got c))
      | none => some (setPc s i (.lock h))
    | some (.lock h) =>
      match s.holders[h]? with
      | some k =>
        if k.locked then none
        else
          match k.cluster with
          | some c => some (setPc s i (.got c))
          | none => some (setPc { s with holders := s.holders.set h { k with locked := true } } i (.build h))
      | none => none
    | some (.build h) =>
      match s.holders[h]? with
      | some k =>
        some (setPc { s with holders := s.holders.set h { k with locked := false, cluster := some s.clusters.length },
                             clusters := s.clusters ++ [(k.service, false)] } i (.got s.clusters.length))
      | none => none
    | _ => none

def run (s : St) : List Op → Option St
  | [] => some s
  | op :: ops => (step s op).bind fun t => run t ops

end Holders

end Motan.HttpMesh
