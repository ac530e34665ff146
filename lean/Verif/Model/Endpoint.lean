import Verif.Model.Url

/-!
# Settings and identifiers of the motan endpoint (endpoint/motanCommonEndpoint.go, endpoint/motanEndpoint.go,
endpoint/endpoint.go)
-/

namespace Motan.Endpoint

open Motan.Url

/-- Two's complement: the `int64` with these 64 bits. -/
def wrap64 (n : Int) : Int := (n + 2 ^ 63) % 2 ^ 64 - 2 ^ 63

/-- endpoint/motanCommonEndpoint.go:45-47 (and motanEndpoint.go:52-54): the settings in milliseconds, and the URL. -/
structure Timeouts where
  url : URL
  request : Int
  min : Int
  max : Int

/-- endpoint/motanCommonEndpoint.go:88-90 (motanEndpoint.go:90-92), from `Initialize`. -/
def initTimeouts (u : URL) : Timeouts :=
  let (r, u) := getPositiveIntValue u b!"requestTimeout" 1000
  let (mn, u) := getInt u b!"minRequestTimeout"
  let (mx, u) := getInt u b!"maxRequestTimeout"
  ⟨u, r, mn.getD 0, mx.getD 0⟩

/-- endpoint/motanCommonEndpoint.go:130-138: the timeout for the method, the least and the greatest a request may ask for.
(`timeout` is positive here, so that Go's division is Lean's.) -/
def bounds (t : Timeouts) (method desc : Bytes) : Int × Int × Int :=
  let timeout := (getMethodPositiveIntValue t.url method desc b!"requestTimeout" t.request).1
  (timeout, if t.min = 0 then timeout / 2 else t.min, if t.max = 0 then wrap64 (timeout * 2) else t.max)

/-- endpoint/motanCommonEndpoint.go:129-147 `MotanCommonEndpoint.GetRequestTimeout`; `own` is the attachment `M_tmo` (empty
if absent). The result is in milliseconds, before the conversion to nanoseconds. -/
def requestTimeout (t : Timeouts) (method desc own : Bytes) : Int :=
  let (timeout, lo, hi) := bounds t method desc
  if own ≠ [] then
    let req := (parseInt64 own).1
    if req ≥ lo ∧ req ≤ hi then req else timeout
  else timeout

/-- endpoint/motanEndpoint.go:127-142 `MotanEndpoint.GetRequestTimeout`. -/
def requestTimeoutV2 (t : Timeouts) (method desc own : Bytes) : Int :=
  let (timeout, lo, hi) := bounds t method desc
  let req := (parseInt64 own).1
  if req ≥ lo ∧ req ≤ hi then req else timeout

/-- endpoint/motanCommonEndpoint.go:146: `time.Duration(timeout) * time.Millisecond` in nanoseconds. -/
def toDuration (ms : Int) : Int := wrap64 (ms * 1000000)

/-- endpoint/endpoint.go:58-62 `GenerateRequestID`: what the clock shows, and the counter before. The new counter comes with
the id. -/
def generateRequestID (nanos : UInt64) (idOffset : UInt64) : UInt64 × UInt64 :=
  let offset := idOffset + 1
  ((nanos &&& 0xfffffffffff00000) ||| (offset &&& 0x000fffff), offset)

/-- Ids generated one after the other, in the order in which their goroutines add to the counter; each goroutine may have
read the clock at any time before. -/
def generateAll (idOffset : UInt64) : List UInt64 → List UInt64
  | [] => []
  | t :: ts => (generateRequestID t idOffset).1 :: generateAll (generateRequestID t idOffset).2 ts

end Motan.Endpoint
