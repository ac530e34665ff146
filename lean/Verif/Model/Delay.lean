import Verif.Model.Metrics

/-!
# The measured latency behind the delay of a backup request

filter/metrics.go:70-126 writes what a call took; metrics/metrics.go keeps it per item and starts a new sample with every
report; ha/backupRequestHA.go:68-86, 168-177 reads the last complete sample. The model is sequential: an event is counted
before the next operation starts (the bus between `sendEvent` and the items, which may drop events when full, is
Model/Metrics.lean).
-/

namespace Motan.Delay

open Metrics Strings

/-- A call that has gone through the metrics filter of an endpoint (filter/metrics.go:70-107). -/
structure Call where
  /-- `M_g` of the request after the call, line 99, 105 (the connection sets it to the group of the endpoint) -/
  group : Bytes
  /-- `GetServiceName` of the request -/
  service : Bytes
  /-- `Proxy` of the request's context, line 77-79 -/
  proxied : Bool
  /-- `application` of the endpoint's URL, line 94 -/
  urlApp : Bytes
  /-- `M_s` of the request, line 97 -/
  reqApp : Bytes
  method : Bytes
  /-- the time it took, in milliseconds. Line 100 and line 106 read the clock again; the model reads it once. -/
  cost : Int
  outcome : Outcome
  /-- whether the switch `metrics_req_app` is on, line 95 -/
  switchOn : Bool
  deriving DecidableEq

/-- filter/metrics.go:82-93 and ha/backupRequestHA.go:169-173: the role of a caller. -/
def role (proxied : Bool) : Bytes := if proxied then b!"motan-client-agent" else b!"motan-client"

/-- filter/metrics.go:94-106 for an endpoint: the events of a call. -/
def filterEvents (c : Call) : List Event :=
  (if c.switchOn && c.urlApp != c.reqApp then
    callEvents c.group [] c.service [role c.proxied, c.reqApp, c.method] c.cost c.outcome else []) ++
  callEvents c.group [] c.service [role c.proxied, c.urlApp, c.method] c.cost c.outcome

/-- metrics/metrics.go:339-347: an item: the registry being filled, and the one of the last snapshot. -/
structure Stat where
  cur : Registry := []
  last : Option Registry := none

/-- metrics/metrics.go:52: the items by key. -/
abbrev Items := AMap Bytes Stat

/-- metrics/metrics.go:383-407: `AddCounter`, `AddHistograms`, `AddGauge` on a registry. On an object of another kind
the type assertion panics and the event is gone. -/
def update (runes : Bytes → List UInt32) (r : Registry) (e : Event) : Registry :=
  let r' := getOrRegister r (metricKey runes e) e.kind
  if (AMap.load r' (metricKey runes e)).map (·.kind) = some e.kind then bump r' (metricKey runes e) e.value else r'

/-- metrics/metrics.go:111-118, 851-881: an event reaches its item, which is made if it does not exist. -/
def count (runes : Bytes → List UInt32) (s : Items) (e : Event) : Items :=
  let it := (AMap.load s (itemKey e)).getD {}
  AMap.store s (itemKey e) { it with cur := update runes it.cur e }

/-- metrics/metrics.go:411-426, 884-913: a report: `SnapshotAndClear` of every item. -/
def report (s : Items) : Items := s.map fun p => (p.1, { cur := [], last := some p.2.cur })

/-- What happens to the items. -/
inductive Op
  | call (c : Call)
  | report

def step (runes : Bytes → List UInt32) (s : Items) : Op → Items
  | .call c => (filterEvents c).foldl (count runes) s
  | .report => report s

/-- The items after a history, starting with none. -/
def run (runes : Bytes → List UInt32) (h : List Op) : Items := h.foldl (step runes) []

/-- What `BackupRequestHA` takes from a request to find its latency. -/
structure Ask where
  /-- `M_g` -/
  group : Bytes
  /-- `M_p` -/
  path : Bytes
  proxied : Bool
  /-- `M_s` -/
  source : Bytes
  method : Bytes

/-- ha/backupRequestHA.go:168-177: `getKey`. -/
def getKey (runes : Bytes → List UInt32) (q : Ask) : Bytes :=
  escape runes (role q.proxied) ++ b!":" ++ escape runes q.source ++ b!":" ++ escape runes q.method

/-- ha/backupRequestHA.go:70-82, metrics/metrics.go:120-124, 441-445, 751-757: the percentile as a function of the
ratio in percent, `none` without an item or without a snapshot. `pct` is the library's percentile of the sample it
draws from the values it was given, cut to an integer. -/
def latency (runes : Bytes → List UInt32) (pct : List Int → Int → Int) (s : Items) (q : Ask) : Option (Int → Int) :=
  match AMap.load s (q.group ++ [] ++ q.path) with
  | none => none
  | some it =>
    it.last.map fun r ratio =>
      match AMap.load r (getKey runes q) with
      | none => 0
      | some m => if m.kind = .histogram then pct m.updates ratio else 0

end Motan.Delay
