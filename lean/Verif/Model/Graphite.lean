import Verif.Model.Metrics
import Verif.Basic.Decimal

/-!
# Reports to graphite (metrics/graphite.go, metrics/metrics.go: sink)

A snapshot is a list of named metric objects, in the order in which the registry lists them. What the library computes
from a histogram, printed with `%.2f`, is given from outside. The log of what is sent is left out.
-/

namespace Motan.Graphite

open Motan.Strings Motan.Metrics

/-- The library's results, as text: a percentile by its name, and the mean, of the values of a histogram. -/
structure Lib where
  runes : Bytes → List UInt32
  percentile : List Int → Bytes → Bytes
  mean : List Int → Bytes

/-- metrics/metrics.go:570-578 as far as it is read here. -/
structure Snapshot where
  group : Bytes
  groupSuffix : Bytes := []
  service : Bytes
  report : Bool := true
  metrics : List (Bytes × Metric) := []

/-- strings.SplitN. -/
def splitN (sep : Bytes) : Nat → Bytes → List Bytes
  | 0, _ => []
  | 1, s => [s]
  | n + 2, s =>
    match index sep s with
    | none => [s]
    | some i => s.take i :: splitN sep (n + 1) (s.drop (i + sep.length))

/-- metrics/graphite.go:19-26: the names of the percentiles. They are ranged over in any order. -/
def slas : List Bytes := [b!"p50", b!"p75", b!"p95", b!"p99", b!"p999", b!"p9999"]

/-- metrics/graphite.go:111-120: one line; the format strings differ in what follows the colon. -/
def line (p0 p1 group ip service p2 value unit : Bytes) : Bytes :=
  p0 ++ b!"." ++ p1 ++ b!"." ++ group ++ b!".byhost." ++ ip ++ b!"." ++ service ++ b!"." ++ p2 ++ b!":" ++ value ++ b!"|" ++ unit ++ b!"\n"

/-- metrics/metrics.go:768-774 `Value`. -/
def gaugeValue (m : Metric) : Int := m.updates.getLast?.getD 0

/-- metrics/graphite.go:100-121: the text for one metric; none: line 104 returns. `order` is the order of the range over
`sla`. -/
def segment (L : Lib) (ip : Bytes) (sn : Snapshot) (order : List Bytes) (key : Bytes) (m : Metric) : Option Bytes :=
  match splitN b!":" 3 key with
  | [p0, p1, p2] =>
    let service := escape L.runes sn.service
    let group := escape L.runes sn.group ++ sn.groupSuffix
    match m.kind with
    | .histogram =>
      some ((order.flatMap fun p => line p0 p1 group ip service (p2 ++ b!"." ++ p) (L.percentile m.updates p) b!"kv") ++
        line p0 p1 group ip service (p2 ++ b!".avg_time") (L.mean m.updates) b!"ms")
    | .counter => some (line p0 p1 group ip service p2 (formatInt m.count) b!"c")
    | .gauge => some (line p0 p1 group ip service p2 (formatInt (gaugeValue m)) b!"kv")
  | _ => none

/-- metrics/graphite.go:16. -/
def maxLen : Nat := 5 * 1024

/-- metrics/graphite.go:122-127: a segment is put into the buffer; the first component is `messages`. -/
def put (st : List Bytes × Bytes) (seg : Bytes) : List Bytes × Bytes :=
  if 0 < st.2.length ∧ st.2.length + seg.length > maxLen then (st.1 ++ [st.2], seg) else (st.1, st.2 ++ seg)

/-- metrics/graphite.go:97-130: the segments in order. `order` gives the order of the range over `sla` for each metric. -/
def segments (L : Lib) (ip : Bytes) (order : Bytes → List Bytes) (snaps : List Snapshot) : List Bytes :=
  snaps.flatMap fun sn =>
    if sn.report then sn.metrics.filterMap fun e => segment L ip sn (order e.1) e.1 e.2 else []

/-- metrics/graphite.go:92-133 `GenGraphiteMessages`. -/
def genMessages (L : Lib) (ip : Bytes) (order : Bytes → List Bytes) (snaps : List Snapshot) : List Bytes :=
  let st := (segments L ip order snaps).foldl put ([], [])
  st.1 ++ [st.2]

/-- What comes of writing one message. -/
inductive Sent
  | ok
  /-- the write fails; a new connection is made or not -/
  | failed (redialled : Bool)
deriving DecidableEq

/-- metrics/graphite.go:77-89: the messages that were written, and whether the end was reached. Results are used up by
messages that are not empty; if none is left the write succeeds. -/
def sendAll : List Bytes → List Sent → List Bytes × Bool
  | [], _ => ([], true)
  | m :: ms, rs =>
    if m = [] then sendAll ms rs
    else
      match rs with
      | [] => (m :: (sendAll ms []).1, (sendAll ms []).2)
      | .ok :: rs => (m :: (sendAll ms rs).1, (sendAll ms rs).2)
      | .failed true :: rs => sendAll ms rs
      | .failed false :: _ => ([], false)

/-- metrics/graphite.go:73: the address as part of a name. -/
def hostName (addr : Bytes) : Bytes := ((split b!":" addr).headD []).map fun c => if c = 46 then 95 else c

/-- metrics/graphite.go:29-36: what a writer keeps. -/
structure Writer where
  localIP : Bytes := []
deriving DecidableEq

/-- metrics/graphite.go:58-90 `Write`: `dial` is the local address of the new connection. The packets that were written
and whether no error is returned. -/
def write (L : Lib) (order : Bytes → List Bytes) (w : Writer) (snaps : List Snapshot) (dial : Option Bytes) (rs : List Sent) :
    Writer × List Bytes × Bool :=
  match dial with
  | none => (w, [], false)
  | some addr =>
    let w := if w.localIP = [] then { w with localIP := hostName addr } else w
    (w, sendAll (genMessages L w.localIP order snaps) rs)

/-- metrics/metrics.go:859-866 `addWriter`. -/
def addWriter {α : Type} (writers : AMap Bytes α) (key : Bytes) (w : α) : AMap Bytes α :=
  if key ≠ [] then AMap.store writers key w else writers

/-- metrics/metrics.go:815-819: the configured graphite servers. -/
def configure {α : Type} (cfg : List (Bytes × α)) : AMap Bytes α := cfg.foldl (fun ws c => addWriter ws c.1 c.2) []

end Motan.Graphite
