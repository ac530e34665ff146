import Verif.Model.Switcher
import Verif.Model.RefersFilter
import Verif.Model.Params

/-!
# The management interface (manageHandler.go, default.go, agent.go: startMServer, mhandle, meta/meta.go)

What is modelled: which handler answers a path, the permission check, and the handlers for switchers, the log
configuration, the debugging pages, the dynamic meta information and the filter of endpoints. Pages are not spelled out:
an answer is a list of pieces written, in order, with the values in them; their encoding as JSON is left out. Paths are
already cleaned and patterns carry neither method nor host. The handlers for the status, the configuration, the dynamic
registry, the reload and the runtime information do not change what is modelled here and answer nothing in this model
(new clusters appear as a step of their own). `json.Unmarshal` into a list of filter rules is a parameter.
-/

namespace Motan.Manage

open Motan.Strings Motan.Url Motan.RefersFilter

/-! ## Who answers a path -/

/-- The handlers of default.go:36-104; `own` is one of package net/http/pprof, `custom` one given to the agent. -/
inductive Handler
  | status | info | debug | switcher | log | dynamic | metaInfo | reload | runtime | refersFilter
  | own
  | custom (id : Nat)
deriving DecidableEq

/-- default.go:36-104 `GetDefaultManageHandlers`. -/
def defaults : AMap Bytes Handler :=
  [(b!"/", .status), (b!"/200", .status), (b!"/503", .status), (b!"/version", .status), (b!"/status", .status),
   (b!"/registry/status", .status),
   (b!"/getConfig", .info), (b!"/getReferService", .info), (b!"/getAllService", .info),
   (b!"/debug/pprof/", .debug), (b!"/debug/pprof/cmdline", .debug), (b!"/debug/pprof/profile", .debug),
   (b!"/debug/pprof/symbol", .debug), (b!"/debug/pprof/trace", .debug), (b!"/debug/mesh/trace", .debug),
   (b!"/debug/pprof/sw", .debug), (b!"/debug/stat/system", .debug), (b!"/debug/stat/process", .debug),
   (b!"/debug/stat/openFiles", .debug), (b!"/debug/stat/connections", .debug), (b!"/debug/pprof/allocs", .debug),
   (b!"/debug/pprof/block", .debug), (b!"/debug/pprof/goroutine", .debug), (b!"/debug/pprof/mutex", .debug),
   (b!"/debug/pprof/heap", .debug),
   (b!"/switcher/set", .switcher), (b!"/switcher/get", .switcher), (b!"/switcher/getAll", .switcher),
   (b!"/logConfig/get", .log), (b!"/logConfig/set", .log),
   (b!"/registry/register", .dynamic), (b!"/registry/unregister", .dynamic), (b!"/registry/subscribe", .dynamic),
   (b!"/registry/list", .dynamic), (b!"/registry/info", .dynamic),
   (b!"/meta/update", .metaInfo), (b!"/meta/delete", .metaInfo), (b!"/meta/get", .metaInfo), (b!"/meta/getAll", .metaInfo),
   (b!"/reload/clusters", .reload), (b!"/runtime/info", .runtime),
   (b!"/refers/filter/get", .refersFilter), (b!"/refers/filter/set", .refersFilter)]

/-- manageHandler.go:16: the import of net/http/pprof. Its `init` registers these patterns at the default server mux, before
the program starts (with the `go 1.16` of go.mod for every method; newer language versions restrict them to GET). -/
def imported : AMap Bytes Handler :=
  [(b!"/debug/pprof/", .own), (b!"/debug/pprof/cmdline", .own), (b!"/debug/pprof/profile", .own),
   (b!"/debug/pprof/symbol", .own), (b!"/debug/pprof/trace", .own)]

/-- agent.go:1172-1189 the handlers to register: the defaults, over them those given to the agent, over them those of the
names listed in the environment, in the order of the list. -/
def handlers (given : AMap Bytes Handler) (env : AMap Bytes (AMap Bytes Handler)) (names : Bytes) : AMap Bytes Handler :=
  (split b!"," names).foldl (fun m k =>
    match AMap.load env (trimSpace k) with
    | some v => AMap.storeAll m v
    | none => m) (AMap.storeAll defaults given)

/-- agent.go:1249-1272 `mhandle` registers a pattern at the default server mux; a pattern registered already panics, which
is recovered (1250-1254), so the first handler stays. -/
def mhandle (mux : AMap Bytes Handler) (k : Bytes) (h : Handler) : AMap Bytes Handler :=
  match AMap.load mux k with
  | some _ => mux
  | none => AMap.store mux k h

/-- agent.go:1190-1192 and 1243: the mux the server uses, for handlers visited in this order. -/
def mux (order : List (Bytes × Handler)) : AMap Bytes Handler :=
  order.foldl (fun m p => mhandle m p.1 p.2) imported

/-- net/http `ServeMux`: the longest registered pattern that ends in a slash and begins the path, among the beginnings of at
most `n` bytes. -/
def subtree (m : AMap Bytes Handler) (path : Bytes) : Nat → Option Handler
  | 0 => none
  | n + 1 =>
    match (if (path.take (n + 1)).getLast? = some 47 then AMap.load m (path.take (n + 1)) else none) with
    | some h => some h
    | none => subtree m path n

/-- net/http `ServeMux`: the handler of a path; none is "404 page not found". -/
def route (m : AMap Bytes Handler) (path : Bytes) : Option Handler :=
  match AMap.load m path with
  | some h => some h
  | none => subtree m path path.length

/-! ## Requests, answers and the state -/

/-- A request: its path, its parameters (`r.Form`), the header "ctr" and what `PermissionCheck` says of it. -/
structure Req where
  path : Bytes
  form : AMap Bytes (List Bytes) := []
  ctr : Bytes := []
  allowed : Bool := true

/-- net/http `FormValue`: the first value of a parameter, or empty. -/
def Req.formValue (r : Req) (k : Bytes) : Bytes :=
  match AMap.load r.form k with
  | some (v :: _) => v
  | _ => []

/-- A piece of an answer. -/
inductive Out
  | text (t : Bytes)
  /-- The table of all switchers. -/
  | switchers (m : AMap Bytes Bool)
  /-- The log configuration. -/
  | logConf (level : Bytes) (access metrics : Bool)
  /-- A code and a text (the text of an error is left out). -/
  | code (n : Nat) (body : Bytes)
  /-- `{"result":"ok","data":"ok"}` -/
  | ok
  /-- `{"result":"fail","error":…}` -/
  | fail (msg : Bytes)
  /-- One entry of the meta information. -/
  | entry (k v : Bytes)
  /-- All of it. -/
  | entries (m : AMap Bytes Bytes)
  /-- The rules of the filter. -/
  | rules (l : List Config)
  /-- A debugging page. -/
  | page (path : Bytes)

/-- What the handlers read and write: the switchers, the log configuration, whether debugging pages are on, the dynamic meta
information, the rules of the filter, and for each cluster its URL and the filter it applies. -/
structure St (N : Net) (L : Type) where
  sw : Switcher.St L
  level : Int
  access : Bool
  metrics : Bool
  pages : Bool
  dyn : AMap Bytes Bytes
  rules : List Config
  clusters : AMap Bytes (URL × Option (Filter N))

variable {N : Net} {L : Type}

/-- Text of a truth value (`%v`). -/
def boolText (b : Bool) : Bytes := if b then b!"true" else b!"false"

/-- manageHandler.go:644-687 `SwitcherHandler.ServeHTTP`. -/
def serveSwitcher (s : St N L) (r : Req) : St N L × List Out :=
  let name := r.formValue b!"name"
  let value := r.formValue b!"value"
  if r.path = b!"/switcher/set" then
    if name = [] then (s, [.text b!"Please specify a switcher name!"])
    else if value = [] then (s, [.text b!"Please specify a switcher value!"])
    else match parseBool value with
      | none => (s, [.text (b!"Invalid switcher value(must be Bool): " ++ value)])
      | some b =>
        match Switcher.getSwitcher s.sw name with
        | none => (s, [.text (b!"Not a registered switcher, name: " ++ name)])
        | some sw => ({ s with sw := Switcher.setSwitcher s.sw name sw b },
                      [.text (b!"Set switcher " ++ name ++ b!" value to " ++ value ++ b!" !")])
  else if r.path = b!"/switcher/get" then
    if name = [] then (s, [.text b!"Please specify a switcher name!"])
    else match Switcher.getSwitcher s.sw name with
      | none => (s, [.text (b!"Not a registered switcher, name: " ++ name)])
      | some sw => (s, [.text (b!"Switcher value for " ++ name ++ b!" is " ++ boolText sw.value ++ b!"!")])
  else if r.path = b!"/switcher/getAll" then (s, [.switchers (Switcher.getAllSwitchers s.sw)])
  else (s, [])

/-- manageHandler.go:730-745 `setLogStatus` for the access log. -/
def setAccess (s : St N L) (v : Bytes) : St N L × List Out :=
  match parseBool v with
  | some b => ({ s with access := b }, [.code 200 (b!"set accessLog status:" ++ v)])
  | none => (s, [.code 500 b!"set accessLog status failed. err:"])

/-- manageHandler.go:730-745 `setLogStatus` for the metrics log. -/
def setMetrics (s : St N L) (v : Bytes) : St N L × List Out :=
  match parseBool v with
  | some b => ({ s with metrics := b }, [.code 200 (b!"set metricsLog status:" ++ v)])
  | none => (s, [.code 500 b!"set metricsLog status failed. err:"])

/-- manageHandler.go:696-728 `LogHandler.ServeHTTP` (a logger exists). -/
def serveLog (s : St N L) (r : Req) : St N L × List Out :=
  if r.path = b!"/logConfig/get" then (s, [.logConf (Params.levelString s.level) s.access s.metrics])
  else if r.path = b!"/logConfig/set" then
    if r.formValue b!"level" ≠ [] then
      match Params.levelSet (r.formValue b!"level") with
      | some l => ({ s with level := l }, [.code 200 (b!"set log level:" ++ r.formValue b!"level")])
      | none => (s, [.code 500 b!"set log level failed. err:"])
    else if r.formValue b!"access" ≠ [] then setAccess s (r.formValue b!"access")
    else if r.formValue b!"metrics" ≠ [] then setMetrics s (r.formValue b!"metrics")
    else (s, [])
  else (s, [])

/-- manageHandler.go:269-315 `DebugHandler.ServeHTTP` (every page is named by its path; the trace of requests is modelled in
Model/Trace.lean). -/
def serveDebug (s : St N L) (r : Req) : St N L × List Out :=
  if r.path = b!"/debug/pprof/sw" then
    if r.ctr = b!"op" then ({ s with pages := true }, [.text b!"T"])
    else if r.ctr = b!"cp" then ({ s with pages := false }, [.text b!"F"])
    else (s, [])
  else if s.pages then (s, [.page r.path])
  else (s, [])

/-- manageHandler.go:761-765: the entries an update stores. -/
def updates (form : AMap Bytes (List Bytes)) : List (Bytes × Bytes) :=
  form.filterMap fun p =>
    match p.2 with
    | v :: _ => some (p.1, v)
    | [] => none

/-- manageHandler.go:755-775 `MetaInfo.ServeHTTP` with meta/meta.go:74-84. -/
def serveMeta (s : St N L) (r : Req) : St N L × List Out :=
  if r.path = b!"/meta/update" then ({ s with dyn := AMap.storeAll s.dyn (updates r.form) }, [.ok])
  else if r.path = b!"/meta/delete" then ({ s with dyn := AMap.erase s.dyn (r.formValue b!"key") }, [.ok])
  else if r.path = b!"/meta/get" then
    (s, [.entry (r.formValue b!"key") ((AMap.load s.dyn (r.formValue b!"key")).getD [])])
  else if r.path = b!"/meta/getAll" then (s, [.entries s.dyn])
  else (s, [])

/-- manageHandler.go:959-968: give every cluster the filter of these rules. cluster/motanCluster.go:431-440
`SetRefersFilter`. -/
def applyRules (N : Net) (rules : List Config) (clusters : AMap Bytes (URL × Option (Filter N))) :
    AMap Bytes (URL × Option (Filter N)) :=
  clusters.map fun p => (p.1, p.2.1, parseRefersFilters N rules p.2.1)

/-- manageHandler.go:931-971 `RefersFilterHandler.ServeHTTP`. After a failed `Verify` there is no return (954-957). -/
def serveFilter (parse : Bytes → Option (List Config)) (s : St N L) (r : Req) : St N L × List Out :=
  if r.path = b!"/refers/filter/get" then (s, [.rules s.rules])
  else if r.path = b!"/refers/filter/set" then
    if r.formValue b!"config" = [] then (s, [.fail b!"empty config"])
    else match parse (r.formValue b!"config") with
      | none => (s, [.fail b!"parse config failed"])
      | some rules =>
        ({ s with rules := rules, clusters := applyRules N rules s.clusters },
         (if verify rules then [] else [.fail b!"verify"]) ++ [.ok])
  else (s, [])

/-- The handlers. -/
def serve (parse : Bytes → Option (List Config)) (h : Handler) (s : St N L) (r : Req) : St N L × List Out :=
  match h with
  | .switcher => serveSwitcher s r
  | .log => serveLog s r
  | .debug => serveDebug s r
  | .metaInfo => serveMeta s r
  | .refersFilter => serveFilter parse s r
  | _ => (s, [])

/-- agent.go:1260-1272: a request at the management port. Handlers of net/http/pprof answer themselves; all others are
wrapped by the permission check. -/
def handle (parse : Bytes → Option (List Config)) (m : AMap Bytes Handler) (s : St N L) (r : Req) : St N L × List Out :=
  match route m r.path with
  | none => (s, [.text b!"404 page not found"])
  | some .own => (s, [.page r.path])
  | some h => if r.allowed then serve parse h s r else (s, [.text b!"need permission!"])

/-- What can happen: a request; a switcher is registered (core/switcher.go:38-54); a cluster is created (agent.go:600-625,
cluster/motanCluster.go: no filter yet). -/
inductive Op (L : Type)
  | request (r : Req)
  | register (name : Bytes) (value : Bool) (ls : List L)
  | cluster (key : Bytes) (url : URL)

/-- One step. -/
def step (parse : Bytes → Option (List Config)) (m : AMap Bytes Handler) (s : St N L) : Op L → St N L
  | .request r => (handle parse m s r).1
  | .register n v ls => { s with sw := Switcher.register s.sw n v ls }
  | .cluster k u => { s with clusters := AMap.store s.clusters k (u, none) }

/-- A history, oldest first. -/
def play (parse : Bytes → Option (List Config)) (m : AMap Bytes Handler) (s : St N L) (ops : List (Op L)) : St N L :=
  ops.foldl (step parse m) s

/-- The answer to a request. -/
def answer (parse : Bytes → Option (List Config)) (m : AMap Bytes Handler) (s : St N L) (r : Req) : List Out :=
  (handle parse m s r).2

end Motan.Manage
