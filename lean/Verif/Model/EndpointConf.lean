import Verif.Model.Dynamic
import Verif.Model.Endpoint
import Verif.Model.Params

/-!
# What an endpoint takes from its URL, and who makes such URLs

endpoint/motanCommonEndpoint.go 82-112 `Initialize` and 219-249, provider/motanProvider.go (the provider that passes requests on to
a motan server), meshClient.go 53-80 (the client of an agent).
-/

namespace Motan.EndpointConf

open Motan.Strings Motan.Url

/-- core/url.go:211-218 `GetTimeDuration` with the unit of a millisecond, in nanoseconds; `strconv.ParseInt(t, 10, 32)` reads what
`ParseInt(t, 10, 64)` reads if it is a 32-bit number, and fails otherwise. -/
def timeDuration (u : URL) (k : Bytes) (dflt : Int) : Int :=
  match (u.param k).map parseInt64 with
  | some (n, none) => if -2 ^ 31 ≤ n ∧ n < 2 ^ 31 then n * 1000000 else dflt
  | _ => dflt

/-- endpoint/motanCommonEndpoint.go:33-58: the settings. Durations are in nanoseconds. -/
structure Settings where
  connectTimeout : Int
  retryInterval : Int
  threshold : Int
  keepaliveInterval : Int
  timeouts : Endpoint.Timeouts
  connections : Int
  maxContentLength : Int
  lazyInit : Bool
  async : Bool
  gzipSize : Int

/-- endpoint/motanCommonEndpoint.go:82-99, with the defaults of motanEndpoint.go:18-25; `asyncDefault` is the default of the process
(endpoint/motanEndpoint.go:803-814). -/
def settings (asyncDefault : Bool) (u : URL) : Settings :=
  let connectTimeout := timeDuration u b!"connectTimeout" 1000000000
  let retryInterval := timeDuration u b!"connectRetryInterval" 60000000000
  let (threshold, u) := getIntValue u b!"errorCountThreshold" 10
  let keepaliveInterval := timeDuration u b!"keepaliveInterval" 1000000000
  let timeouts := Endpoint.initTimeouts u
  let u := timeouts.url
  let (connections, u) := getPositiveIntValue u b!"clientConnection" 3
  let (maxContentLength, u) := getPositiveIntValue u b!"maxContentLength" (10 * 1024 * 1024)
  let lazyInit := getBoolValue u b!"lazyInit" false
  let async := getBoolValue u b!"asyncInitConnection" asyncDefault
  let (gzipSize, u) := getIntValue u b!"mingzSize" 0
  { connectTimeout, retryInterval, threshold, keepaliveInterval, timeouts := { timeouts with url := u }, connections,
    maxContentLength, lazyInit, async, gzipSize }

/-- What is dialled: a TCP address or a Unix socket. -/
inductive Target
  | tcp (address : Bytes)
  | unix (path : Bytes)
deriving DecidableEq

/-- endpoint/motanCommonEndpoint.go:100-106, core/constants.go `UnixSockProtocolFlag`. -/
def dialTarget (u : URL) : Target :=
  let a := (getAddressStr u).1
  if hasPrefix a b!"unix://" then .unix (a.drop 7) else .tcp a

/-- endpoint/motanCommonEndpoint.go:219-249 `initChannelPoolWithRetry` and 279-316 the loop of `keepalive`: the attempts of a loop
around `time.NewTicker(interval)`, whose outcomes are given: whether it succeeded, and how many attempts were made. A ticker needs
a positive interval; otherwise it panics, and the panic is recovered (224, 300). Stopping is left out (Model/Availability). -/
def ticking (interval : Int) : List Bool → Bool × Nat
  | [] => (false, 0)
  | ok :: outcomes =>
    if interval ≤ 0 then (false, 0)
    else if ok then (true, 1)
    else
      let r := ticking interval outcomes
      (r.1, r.2 + 1)

/-- endpoint/motanCommonEndpoint.go:219-249: the first attempt, and those of the ticker. -/
def connecting (interval : Int) : List Bool → Bool × Nat
  | [] => (false, 0)
  | ok :: outcomes =>
    if ok then (true, 1)
    else
      let r := ticking interval outcomes
      (r.1, r.2 + 1)

/-! ## The reverse proxy of a motan server -/

/-- core/util.go:30-48 `ParseExportInfo`: none if it returns an error. -/
def exportInfo (e : Bytes) : Option (Bytes × Int) :=
  match trimSplit e b!":" with
  | [p] => (Params.atoi p).map fun n => (b!"motan2", n)
  | [a, p] => (Params.atoi p).map fun n => (a, n)
  | _ => (Params.atoi b!"9982").map fun n => (b!"motan2", n)

/-- `PutParam` of a parameter that has no value yet. -/
def putDefault (u : URL) (k v : Bytes) : URL := if getParam u k [] = [] then putParam u k v else u

/-- provider/motanProvider.go:33-55: the URL of the endpoint; none: the provider stays unavailable. -/
def proxyURL (u : URL) : Option URL :=
  match exportInfo (getParam u b!"proxy" []) with
  | none => none
  | some (protocol, port) =>
    if port ≤ 0 then none
    else
      let host := getParam u b!"proxy.host" b!"127.0.0.1"
      let e := { copy u with protocol := protocol, host := host, port := port }
      some (putDefault (putDefault e b!"connectRetryInterval" b!"5000") b!"errorCountThreshold" b!"0")

/-- provider/motanProvider.go:14-19: the endpoint and whether it was initialised. -/
structure Proxy where
  ep : Option URL
  available : Bool
deriving DecidableEq

/-- provider/motanProvider.go:33-64 `Initialize`; `known` tells for which protocols there are endpoints. -/
def initProxy (known : Bytes → Bool) (u : URL) : Proxy :=
  match proxyURL u with
  | none => ⟨none, false⟩
  | some e => if known e.protocol then ⟨some e, true⟩ else ⟨none, false⟩

/-- What becomes of a request: it is passed on to the endpoint with these attachments, or answered with an exception. -/
inductive Passed
  | on (ep : URL) (attachment : AMap Bytes Bytes)
  | refused (code : Int) (msg : Bytes)
deriving DecidableEq

/-- provider/motanProvider.go:66-78 `Call` and 108-110 `IsAvailable`; `epAvailable` is what the endpoint says of itself. -/
def proxyCall (p : Proxy) (epAvailable : Bool) (attachment : AMap Bytes Bytes) : Passed :=
  match p.ep with
  | some e =>
    if p.available && epAvailable then
      if (AMap.load attachment b!"x-forwarded-for").getD [] = [] ∧ (AMap.load attachment b!"X-Forwarded-For").getD [] = [] then
        .on e (AMap.store attachment b!"x-forwarded-for" ((AMap.load attachment b!"host").getD []))
      else .on e attachment
    else .refused 503 b!"reverse proxy call err: motanProvider is unavailable"
  | none => .refused 503 b!"reverse proxy call err: motanProvider is unavailable"

/-- provider/motanProvider.go:104-106 `Destroy` (and 21-29 `GetRuntimeInfo`): it uses the endpoint. False: a nil dereference. -/
def proxyDestroy (p : Proxy) : Bool := p.ep.isSome

/-! ## The client of an agent -/

/-- meshClient.go:53-72: the URL of the client's cluster. The timeout is in nanoseconds. -/
def meshURL (requestTimeout : Int) (application serialization : Bytes) : URL :=
  let t := if requestTimeout = 0 then 5000000000 else requestTimeout
  let s := if serialization = [] then b!"simple" else serialization
  let u : URL := { protocol := b!"motan2" }
  let u := putParam u b!"requestTimeout" (formatInt (t.tdiv 1000000))
  let u := putParam u b!"application" application
  let u := putParam u b!"errorCountThreshold" b!"0"
  let u := putParam u b!"registry" b!"mesh-registry"
  let u := putParam u b!"connectRetryInterval" b!"5000"
  let u := putParam u b!"serialization" s
  putParam u b!"asyncInitConnection" b!"false"

/-- meshClient.go:57-59, 73-75: the URL of its registry. -/
def meshRegistry (address : Bytes) : URL :=
  putParam { protocol := b!"direct" } b!"address" (if address = [] then b!"127.0.0.1:9981" else address)

end Motan.EndpointConf
