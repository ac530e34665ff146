import Verif.Model.Metrics
import Verif.Model.Dynamic

/-!
# The status page of an agent (manageHandler.go:139-203)

`/status` of the manage port lists the services an agent exports, with the calls of the last period that the metrics
filter counted. The agent's status code and the JSON text are left out.
-/

namespace Motan.StatusPage

open Strings Metrics

/-- manageHandler.go:141-144: `MethodStatus`. -/
structure Line where
  name : Bytes
  count : Int
deriving DecidableEq, Repr

/-- manageHandler.go:145-149: `ServiceStatus`. -/
structure Service where
  group : Bytes
  name : Bytes
  methods : List Line
deriving DecidableEq, Repr

/-- manageHandler.go:150-154: `Result` without the status code. -/
structure Page where
  total : Int := 0
  services : List Service := []
deriving DecidableEq, Repr

/-- filter/metrics.go:12: `MetricsTotalCountSuffix`. -/
def suffix : Bytes := b!".total_count"

/-- Go's `strings.LastIndex` for one byte. -/
def lastIndexByte (s : Bytes) (b : UInt8) : Option Nat :=
  match s.reverse.findIdx? (· = b) with
  | some i => some (s.length - 1 - i)
  | none => none

/-- manageHandler.go:183-186: the name shown for a key. (The slice of 185 cannot fail: the suffix has no colon.) -/
def methodName (k : Bytes) : Bytes :=
  let method := k.take (k.length - suffix.length)
  match lastIndexByte k 58 with
  | some i => method.drop (i + 1)
  | none => method

/-- manageHandler.go:179-193: the lines of a snapshot, its keys visited in the order `keys` (`Each` of the library visits a
map). -/
def lines (s : Metrics.St) (sn : Snap) (keys : List Bytes) : List Line :=
  (keys.filter fun k => Dynamic.hasSuffix k suffix).map fun k => ⟨methodName k, Metrics.count s sn k⟩

/-- manageHandler.go:160-177: the snapshot for an exporter, none if it is left out (metrics/metrics.go:120-124, 409-412,
441-445). -/
def snapOf (s : Metrics.St) (group path : Bytes) : Option Snap :=
  (s.items.load (group ++ [] ++ path)).bind fun n =>
    (s.itemList[n]?).bind fun it => it.lastSnapshot.bind fun j => s.snaps[j]?

/-- manageHandler.go:160-195: the page is extended by one exporter, given by the group and path of its URL. -/
def addExporter (ord : Registry → List Bytes) (s : Metrics.St) (p : Page) (e : Bytes × Bytes) : Page :=
  match snapOf s e.1 e.2 with
  | none => p
  | some sn =>
    let ls := lines s sn (ord (s.registry sn.holder))
    { total := ls.foldl (fun t l => t + l.count) p.total, services := p.services ++ [⟨e.1, e.2, ls⟩] }

/-- manageHandler.go:139-203 `getStatus`: the exporters are visited in the order of the list, the keys of a snapshot in the
order `ord` (both are maps). No metric changes meanwhile: snapshots were taken before (see `Metrics`). -/
def getStatus (ord : Registry → List Bytes) (s : Metrics.St) (exporters : List (Bytes × Bytes)) : Page :=
  exporters.foldl (addExporter ord s) {}

end Motan.StatusPage
