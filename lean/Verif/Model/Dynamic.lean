import Verif.Basic.Trim
import Verif.Model.Url

/-!
# Dynamic registration (dynamicConfig.go) and the agent's serving status (agent.go)

The requests `/registry/register`, `/registry/unregister` and `/registry/subscribe`, the tables they maintain, the
snapshot file and the recovery from it; then the status file.

A request body arrives here already parsed from JSON, with no cached values. The snapshot file is a pair of lists of
URLs: JSON marshalling is assumed to give back what was written (a URL's caches are unexported fields and are not
written), and a file caught between truncation and writing is `torn` and does not parse.
-/

namespace Motan.Dynamic

open Motan.Strings Motan.Url

/-- `strings.HasSuffix`. -/
def hasSuffix (s p : Bytes) : Bool := p.isSuffixOf s

/-- What the process takes from its surroundings: environment variables (core/constants.go:121-126), the agent's own
settings, and the outcome of code that is not modelled here. -/
structure Env where
  /-- `RPC_REG_GROUP_SUFFIX` -/
  regSuffix : Bytes := []
  /-- `MESH_MULTI_SUB_GROUP_SUFFIX` -/
  subSuffix : Bytes := []
  /-- `MESH_SERVICE_ADDITIONAL_GROUP` -/
  extraGroups : Bytes := []
  /-- `GetLocalIP()` -/
  localIP : Bytes := []
  /-- the agent's `eport` -/
  eport : Int := 0
  /-- the agent URL's `application` -/
  application : Bytes := []
  /-- `Context.RegistryURLs`, listed in the order in which it is ranged over -/
  registries : List (Bytes × URL) := []
  /-- `url.QueryUnescape`, none on an error -/
  unescape : Bytes → Option Bytes := some
  /-- identities of `Context.ServiceURLs`, the services of the configuration file -/
  services : List Bytes := []
  /-- identities of `Context.RefersURLs` -/
  refers : List Bytes := []
  /-- the export of a URL of this identity (with registry) succeeds: a provider exists and the port can be shared
  (agent.go:923-957). Simplified to depend on the identity only. -/
  exportable : Bytes → Bool := fun _ => true
  /-- `meta.GetEnvMeta()` -/
  metas : List (Bytes × Bytes) := []
  /-- the group chosen for a group with the placeholder `${idc}` (cluster/motanCluster.go:443-) -/
  resolve : Bytes → Bytes := id
  /-- the agent URL's `defaultFilter` and `globalFilter`, `MESH_FILTERS` and the relevant filters, as sets -/
  defaultFilter : Bytes := []
  globalFilter : Bytes := []
  envFilter : Bytes := []
  relevantFilters : List Bytes := []

/-- The tables: `registerNodes`, `subscribeNodes` (dynamicConfig.go:24-33), the agent's `serviceExporters` and the
URLs of the clusters created for subscriptions (the items of `serviceMap`). -/
structure St where
  regNodes : AMap Bytes URL := []
  subNodes : AMap Bytes URL := []
  exporters : AMap Bytes URL := []
  clusters : List URL := []

/-! ## Exporting and subscribing in the agent -/

/-- server/server.go:66-96: the parameters `Export` adds to the URL. (The parameter that turns the meta information
off is not modelled.) -/
def exportParams (E : Env) (u : URL) : URL :=
  putParam (E.metas.foldl (fun u p => putParam u p.1 p.2) u) b!"nodeType" b!"service"

/-- agent.go:915-964 `doExportService`. It returns nothing: a failed export is only logged. (On a failure the URL is
left unchanged here; parameters added before the failure are not modelled.) -/
def doExportService (E : Env) (ex : AMap Bytes URL) (u : URL) : AMap Bytes URL × URL :=
  let (id, u) := getIdentityWithRegistry u
  if (AMap.load ex id).isSome then (ex, u)
  else if E.exportable id then (AMap.store ex id (exportParams E u), exportParams E u)
  else (ex, u)

/-- agent.go:1313-1319 `ExportService`; `urlExist` 1296-1303. None: the error. -/
def exportService (E : Env) (ex : AMap Bytes URL) (u : URL) : Option (AMap Bytes URL × URL) :=
  let (id, u) := getIdentity u
  if id ∈ E.services then none else some (doExportService E ex u)

/-- agent.go:1321-1333 `UnexportService`: deletes by `GetIdentity`, not by the key the exporter was stored under. -/
def unexportService (E : Env) (ex : AMap Bytes URL) (u : URL) : AMap Bytes URL × URL :=
  let (id, u) := getIdentity u
  if id ∈ E.services then (ex, u) else (AMap.erase ex id, u)

/-- The placeholder of cluster/motanCluster.go:441. -/
def hasPlaceholder (g : Bytes) : Bool := contains g b!"${idc}"

/-- agent.go:600-625 `initCluster` with cluster/motanCluster.go:304-342: the application is filled in and the
placeholder in the group is replaced, in the very URL that was subscribed; its caches are cleared. (A registry is
assumed to be found; the cluster's other effects are modelled in Model/Cluster.) -/
def initCluster (E : Env) (u : URL) : URL :=
  let u := if (u.param b!"application").getD [] = [] then
    { u with params := some (AMap.store (u.params.getD []) b!"application" E.application) } else u
  clearCachedInfo { u with group := if hasPlaceholder u.group then E.resolve u.group else u.group }

/-- agent.go:1305-1311 `SubscribeService`. None: the error. -/
def subscribeService (E : Env) (cs : List URL) (u : URL) : Option (List URL × URL) :=
  let (id, u) := getIdentity u
  if id ∈ E.refers then none else some (cs ++ [initCluster E u], initCluster E u)

/-! ## The configurer -/

/-- dynamicConfig.go:92-95: the environment's suffix is added to the group. -/
def addRegSuffix (E : Env) (u : URL) : URL :=
  if E.regSuffix ≠ [] ∧ ¬ hasSuffix u.group E.regSuffix then { u with group := u.group ++ E.regSuffix } else u

/-- dynamicConfig.go:91-108 `doRegister`. (It always returns nil.) -/
def doRegister (E : Env) (s : St) (u : URL) : St :=
  let (id, u) := getIdentityWithRegistry (addRegSuffix E u)
  if (AMap.load s.regNodes id).isSome then s
  else match exportService E s.exporters u with
    | none => s
    | some (ex, u) => { s with exporters := ex, regNodes := AMap.store s.regNodes (getIdentityWithRegistry u).1 u }

/-- dynamicConfig.go:119-128 `doUnregister`. -/
def doUnregister (E : Env) (s : St) (u : URL) : St :=
  let (id, u) := getIdentityWithRegistry u
  if (AMap.load s.regNodes id).isSome then
    let (ex, u) := unexportService E s.exporters u
    { s with exporters := ex, regNodes := AMap.erase s.regNodes (getIdentityWithRegistry u).1 }
  else s

/-- dynamicConfig.go:148-160 `doSubscribe`, with the URL as it is left. -/
def doSubscribe (E : Env) (s : St) (u : URL) : St × URL :=
  let (id, u) := getIdentity u
  if (AMap.load s.subNodes id).isSome then (s, u)
  else match subscribeService E s.clusters u with
    | none => ({ s with subNodes := AMap.store s.subNodes id u }, u)
    | some (cs, u) => ({ s with subNodes := AMap.store s.subNodes id u, clusters := cs }, u)

/-- dynamicConfig.go:135-138: the second URL a subscription subscribes, if any. -/
def suffixed (E : Env) (u : URL) : Option URL :=
  if E.subSuffix ≠ [] ∧ ¬ hasSuffix u.group E.subSuffix then some { copy u with group := u.group ++ E.subSuffix }
  else none

/-- One change of the tables, as made under a lock. -/
inductive Act
  | register (u : URL)
  | unregister (u : URL)
  | subscribe (u : URL)

/-- The change an `Act` makes. -/
def act (E : Env) (s : St) : Act → St
  | .register u => doRegister E s u
  | .unregister u => doUnregister E s u
  | .subscribe u => (doSubscribe E s u).1

/-- The changes, in order. -/
def acts (E : Env) (s : St) (as : List Act) : St := as.foldl (act E) s

/-! ## Snapshot and recovery -/

/-- dynamicConfig.go:35-38 `RegistrySnapInfoStorage`. -/
structure Snap where
  register : List URL
  subscribe : List URL

/-- dynamicConfig.go:178-198 `getRegistryInfo`: copies of the nodes. Maps are ranged over in any order, so the result
is any listing. -/
structure Listing (sn : Snap) (s : St) : Prop where
  register : sn.register.Perm (s.regNodes.map fun p => copy p.2)
  subscribe : sn.subscribe.Perm (s.subNodes.map fun p => copy p.2)

/-- The snapshot file. -/
inductive Disk
  | missing
  | torn
  | saved (sn : Snap)

/-- dynamicConfig.go:68-78, the body of `doRecover`. -/
def redo (E : Env) (s : St) (sn : Snap) : St :=
  sn.subscribe.foldl (fun s u => (doSubscribe E s u).1) (sn.register.foldl (doRegister E) s)

/-- dynamicConfig.go:40-80: a new configurer of an agent started with recovery. `s0` is what the agent has created
from its configuration file. -/
def start (E : Env) (s0 : St) : Disk → St
  | .missing => { s0 with regNodes := [], subNodes := [] }
  | .torn => { s0 with regNodes := [], subNodes := [] }
  | .saved sn => redo E { s0 with regNodes := [], subNodes := [] } sn

/-! ## Concurrent requests, and crashes

`Register`, `Unregister` and `Subscribe` run in the goroutines of the management server. Each changes the tables
under `regLock` or `subLock`, then saves under `saveLock`. -/

/-- A call of dynamicConfig.go:82-89 `Register`, 110-117 `Unregister` or 130-146 `Subscribe`. -/
inductive Req
  | register (u : URL)
  | unregister (u : URL)
  | subscribe (u : URL)

/-- Where a call is. -/
inductive Pc
  /-- about to change the tables -/
  | start
  /-- `Subscribe` after its first change, dynamicConfig.go:135; the URL as that change left it -/
  | second (u : URL)
  /-- about to save -/
  | save
  /-- holding `saveLock`, dynamicConfig.go:164 -/
  | locked
  /-- having marshalled this, 166 -/
  | marshalled (sn : Snap)
  /-- the file truncated by `ioutil.WriteFile`, 171 -/
  | truncated (sn : Snap)
  /-- the file written -/
  | written
  /-- returned -/
  | done

/-- The system: tables, file, `saveLock`, the calls made since the process started, and the changes made since then
(each with the call that made it), for the statement of the property. `s0` and `disk0` are the configuration and the
file the process started from. -/
structure Sys where
  s0 : St
  disk0 : Disk
  tables : St
  disk : Disk
  lock : Option Nat
  calls : List (Req × Pc)
  log : List (Nat × Act)

/-- A process just started from this file. -/
def boot (E : Env) (s0 : St) (d : Disk) : Sys :=
  { s0, disk0 := d, tables := start E s0 d, disk := d, lock := none, calls := [], log := [] }

/-- The first change of a call. -/
def firstAct : Req → Act
  | .register u => .register u
  | .unregister u => .unregister u
  | .subscribe u => .subscribe u

/-- Where the call goes after its first change. -/
def afterFirst (E : Env) (s : St) : Req → Pc
  | .register _ => .save
  | .unregister _ => .save
  | .subscribe u => .second (doSubscribe E s u).2

/-- The steps. `P` restricts the calls that are made. A write that fails (an error is only logged) is not a step:
writing the file is assumed to succeed. -/
inductive Step (E : Env) (P : Req → Prop) : Sys → Sys → Prop
  | call {y : Sys} (r : Req) (hp : P r) : Step E P y { y with calls := y.calls ++ [(r, .start)] }
  | first {y : Sys} {i : Nat} {r : Req} (h : y.calls[i]? = some (r, .start)) :
      Step E P y { y with
        tables := act E y.tables (firstAct r)
        calls := y.calls.set i (r, afterFirst E y.tables r)
        log := y.log ++ [(i, firstAct r)] }
  | secondSkip {y : Sys} {i : Nat} {r : Req} {u : URL} (h : y.calls[i]? = some (r, .second u))
      (hs : suffixed E u = none) : Step E P y { y with calls := y.calls.set i (r, .save) }
  | second {y : Sys} {i : Nat} {r : Req} {u v : URL} (h : y.calls[i]? = some (r, .second u))
      (hs : suffixed E u = some v) :
      Step E P y { y with
        tables := act E y.tables (.subscribe v)
        calls := y.calls.set i (r, .save)
        log := y.log ++ [(i, .subscribe v)] }
  | lock {y : Sys} {i : Nat} {r : Req} (h : y.calls[i]? = some (r, .save)) (hl : y.lock = none) :
      Step E P y { y with lock := some i, calls := y.calls.set i (r, .locked) }
  | marshal {y : Sys} {i : Nat} {r : Req} {sn : Snap} (h : y.calls[i]? = some (r, .locked))
      (hl : Listing sn y.tables) : Step E P y { y with calls := y.calls.set i (r, .marshalled sn) }
  | truncate {y : Sys} {i : Nat} {r : Req} {sn : Snap} (h : y.calls[i]? = some (r, .marshalled sn)) :
      Step E P y { y with disk := .torn, calls := y.calls.set i (r, .truncated sn) }
  | write {y : Sys} {i : Nat} {r : Req} {sn : Snap} (h : y.calls[i]? = some (r, .truncated sn)) :
      Step E P y { y with disk := .saved sn, calls := y.calls.set i (r, .written) }
  | finish {y : Sys} {i : Nat} {r : Req} (h : y.calls[i]? = some (r, .written)) :
      Step E P y { y with lock := none, calls := y.calls.set i (r, .done) }
  | crash {y : Sys} : Step E P y (boot E y.s0 y.disk)

/-- The states of an agent first started with no snapshot file, through any steps and crashes. -/
inductive Reach (E : Env) (s0 : St) (P : Req → Prop) : Sys → Prop
  | init : Reach E s0 P (boot E s0 .missing)
  | step {y z : Sys} (h : Reach E s0 P y) (hs : Step E P y z) : Reach E s0 P z

/-! ## The HTTP handler -/

/-- core/util.go:245-255 `SlicesUnique`. -/
def slicesUnique : List Bytes → List Bytes → List Bytes
  | seen, [] => seen
  | seen, v :: vs => slicesUnique (if v ∈ seen then seen else seen ++ [v]) vs

/-- dynamicConfig.go:237-244: the groups of the request and of the environment. -/
def withExtra (E : Env) (g : Bytes) : Bytes :=
  if E.extraGroups ≠ [] then (if g = [] then E.extraGroups else g ++ b!"," ++ E.extraGroups) else g

/-- dynamicConfig.go:228-254 `readURLsFromRequest`, from the parsed body. -/
def readURLs (E : Env) (u : URL) : List URL :=
  let u := { u with group := withExtra E u.group }
  (slicesUnique [] (trimSplit u.group b!",")).map fun g => { copy u with group := g }

/-- dynamicConfig.go:288: the registry's address as the requests name it. -/
def registryAddr (r : URL) : Bytes := r.protocol ++ b!"://" ++ r.host ++ b!":" ++ formatInt r.port

/-- dynamicConfig.go:437-442 `registryEquals`. -/
def registryEquals (a b : URL) : Bool := a.protocol = b.protocol ∧ a.host = b.host ∧ a.port = b.port

/-- dynamicConfig.go:283-294: by `proxyRegistry`. -/
def registryByAddr (E : Env) (u : URL) : Option Bytes :=
  let a := getParam u b!"proxyRegistry" []
  if a ≠ [] then (E.registries.find? fun p => registryAddr p.2 = a).map (·.1) else none

/-- dynamicConfig.go:295-314: by `proxyRegistryUrlString`. -/
def registryByUrl (E : Env) (u : URL) : Option Bytes :=
  let a := getParam u b!"proxyRegistryUrlString" []
  if a ≠ [] then
    match (E.unescape a).bind fromExtInfo with
    | some r => (E.registries.find? fun p => registryEquals r p.2).map (·.1)
    | none => none
  else none

/-- dynamicConfig.go:282-317: the registry of a request; an empty id counts as none. -/
def findRegistry (E : Env) (u : URL) : Option Bytes :=
  let id := (registryByAddr E u).getD []
  let id := if id = [] then (registryByUrl E u).getD [] else id
  if id = [] then none else some id

/-- core/globalContext.go:478-500 `GetFilterSet`, as a list without order. -/
def filterSet (s disabled : Bytes) : List Bytes :=
  if s = [] then []
  else (((split b!"," s).map trimSpace).filter (· ≠ [])).filter fun k => k ∉ (split b!"," disabled).map trimSpace

/-- dynamicConfig.go:320-331: the filters of a request meant for the agent. -/
def agentFilters (u : URL) : List Bytes :=
  (((trimSplit (getParam u b!"filter" []) b!",").filter fun f => hasPrefix f b!"af_").filter fun f => f ≠ b!"af_").map
    fun f => trimSpace (f.drop 3)

/-- dynamicConfig.go:332-338: the filter parameter is replaced if the request names filters for the agent. -/
def putAgentFilters (u : URL) : URL :=
  let fs := join b!"," (agentFilters u)
  if fs ≠ [] then putParam u b!"filter" fs else u

/-- dynamicConfig.go:341-347 with core/globalContext.go:502-545: the merged filters, each once. -/
def finalFilters (E : Env) (u : URL) : List Bytes :=
  slicesUnique []
    ((filterSet E.defaultFilter (getStringParamsWithDefault u b!"disableDefaultFilter" []) ++
      filterSet E.globalFilter (getStringParamsWithDefault u b!"disableGlobalFilter" []) ++
      filterSet E.envFilter [] ++ E.relevantFilters.map trimSpace ++
      filterSet (getStringParamsWithDefault u b!"filter" []) []).filter (· ≠ []))

/-- dynamicConfig.go:348-350. (The set is listed in some order.) -/
def putFinalFilters (E : Env) (u : URL) : URL :=
  if finalFilters E u ≠ [] then putParam u b!"filter" (join b!"," (finalFilters E u)) else u

/-- dynamicConfig.go:279-282: a group in the parameters is used when the field is empty. -/
def groupFromParam (u : URL) : URL :=
  if u.group = [] then
    { u with group := getParam u b!"group" [], params := u.params.map fun m => AMap.erase m b!"group" } else u

/-- dynamicConfig.go:278-351 `parseURL`; none: no registry was found. -/
def parseURL (E : Env) (u : URL) : Option URL :=
  let u := groupFromParam u
  match findRegistry E u with
  | none => none
  | some id => some (putFinalFilters E (putAgentFilters (putParam u b!"registry" id)))

/-- dynamicConfig.go:268-276 `parseURLs`: all, or an error. -/
def parseURLs (E : Env) : List URL → Option (List URL)
  | [] => some []
  | u :: us => (parseURL E u).bind fun v => (parseURLs E us).map (v :: ·)

/-- core/util.go:30-48 `ParseExportInfo`: protocol and port. -/
def parseExportInfo (e : Bytes) : Bytes × Int :=
  match trimSplit e b!":" with
  | [p] => (b!"motan2", (parseInt64 p).1)
  | [a, p] => (a, (parseInt64 p).1)
  | _ => (b!"motan2", (parseInt64 b!"9982").1)

/-- agent.go:122-132 `initProxyServiceURL`. -/
def initProxyServiceURL (E : Env) (u : URL) : URL :=
  let e := parseExportInfo (getParam u b!"export" [])
  let u := { u with protocol := e.1, port := e.2, host := E.localIP }
  let u := if getParam u b!"application" [] = [] then putParam u b!"application" E.application else u
  clearCachedInfo u

/-- dynamicConfig.go:360-362, 379-381: what `register` and `unregister` make of a URL before they call the
configurer. -/
def exportURL (E : Env) (u : URL) : URL :=
  let (ps, u) := getPortStr u
  let u := putParam u b!"proxy" (u.protocol ++ b!":" ++ ps)
  let u := putParam u b!"export" (u.protocol ++ b!":" ++ formatInt E.eport)
  initProxyServiceURL E u

/-- dynamicConfig.go:397-399: what `subscribe` makes of a URL. -/
def referURL (u : URL) : URL := { u with host := [], port := 0 }

/-- The requests. -/
inductive Kind
  | register
  | unregister
  | subscribe

/-- The configurer calls of one URL. -/
def callOf (E : Env) (u : URL) : Kind → Req
  | .register => .register (exportURL E u)
  | .unregister => .unregister (exportURL E u)
  | .subscribe => .subscribe (referURL u)

/-- dynamicConfig.go:353-407 `register`, `unregister`, `subscribe`: the calls of the configurer, in order; none: the
request is answered 400. (The configurer never returns an error, so otherwise the answer is 200.) -/
def requestCalls (E : Env) (k : Kind) (body : URL) : Option (List Req) :=
  (parseURLs E (readURLs E body)).map fun us => us.map fun u => callOf E u k

/-- The changes of one call run alone. -/
def run (E : Env) (s : St) : Req → St
  | .register u => doRegister E s u
  | .unregister u => doUnregister E s u
  | .subscribe u =>
    match suffixed E (doSubscribe E s u).2 with
    | none => (doSubscribe E s u).1
    | some v => (doSubscribe E (doSubscribe E s u).1 v).1

/-! ## The serving status (agent.go) -/

namespace Status

/-- The agent's status and its status file. -/
structure St where
  status : Int
  file : Option Bytes
deriving DecidableEq

/-- Changes of status, and a restart with or without the recovery flag. -/
inductive Op
  | available
  | unavailable
  | restart (recover : Bool)

/-- agent.go:322-329 `saveStatus`. (A failed write is not modelled.) -/
def saveStatus (s : St) : St := { s with file := some (formatInt 200) }

/-- agent.go:331-347 `recoverStatus`. -/
def recoverStatus (s : St) : St :=
  match s.file with
  | none => { s with status := 503 }
  | some b => match parseInt64 b with
    | (n, none) => { s with status := if n = 200 then 200 else 503 }
    | (_, some _) => { s with status := 503 }

/-- agent.go:172-182 `SetAllServicesAvailable`, `SetAllServicesUnavailable` and 309-320 `initStatus`. -/
def step (s : St) : Op → St
  | .available => saveStatus { s with status := 200 }
  | .unavailable => saveStatus { s with status := 503 }
  | .restart true => recoverStatus s
  | .restart false => { s with status := 503 }

/-- All of a history. -/
def run (s : St) (ops : List Op) : St := ops.foldl step s

end Status

end Motan.Dynamic
