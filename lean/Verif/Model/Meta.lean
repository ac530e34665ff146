import Verif.Model.Url
import Verif.Model.Params
import Verif.Model.Server

/-!
# Metadata of processes (meta/meta.go, provider/metaProvider.go)

The metadata a process takes from its environment, the dynamic metadata it answers with when asked, and the cached question for the
dynamic metadata of an endpoint. Any number of goroutines ask at once: a question is a step up to the call of the endpoint and a
step when the call returns. Time is in nanoseconds. `github.com/patrickmn/go-cache` is modelled by its documented behaviour: an item
is given until its expiration has passed. The Breeze serialization of a map is a parameter.
-/

namespace Motan.Meta

open Motan.Url Motan.Strings

abbrev Map := AMap Bytes Bytes

/-! ## The environment -/

/-- meta/meta.go:47-48: the prefix; core/constants.go:154-155. None: there is no configuration. -/
def envPrefix (conf : Option (AMap Bytes ConfUrl.Val)) : Bytes :=
  match conf with
  | none => b!"META_"
  | some c => Params.stringWithDefault c b!"envMetaPrefix" b!"META_"

/-- meta/meta.go:46-55: the seconds for which an answer is kept. -/
def expireSeconds (conf : Option (AMap Bytes ConfUrl.Val)) : Int :=
  match conf with
  | none => 3
  | some c =>
    let s := Params.stringWithDefault c b!"metaCacheExpireSecond" []
    if s = [] then 3
    else
      match Params.atoi s with
      | some n => if n > 0 then n else 3
      | none => 3

/-- meta/meta.go:61-66: one entry of `os.Environ()`; one with the prefix but without `=` panics (none). -/
def addEnv (pre : Bytes) (m : Map) (e : Bytes) : Option Map :=
  if hasPrefix e pre then
    match split b!"=" e with
    | k :: v :: _ => some (AMap.store m k v)
    | _ => none
  else some m

/-- meta/meta.go:61-66: the entries, one after another. -/
def envMeta (pre : Bytes) : Map → List Bytes → Option Map
  | m, [] => some m
  | m, e :: es => (addEnv pre m e).bind fun m => envMeta pre m es

/-- meta/meta.go:86-95 `GetMergedMeta`. -/
def merged (env dynamic : Map) : Map := AMap.storeAll (AMap.storeAll [] env) dynamic

/-! ## Asking an endpoint -/

/-- What the question needs of an endpoint: the address and what meta/meta.go:190-195 `isSupport` looks at, and whether it is
available. -/
structure Ep where
  url : URL
  available : Bool

/-- meta/meta.go:186-188 `getCacheKey`. -/
def cacheKey (u : URL) : Bytes := u.host ++ b!":" ++ (getPortStr u).1

/-- meta/meta.go:31-39, 190-195 `isSupport` (without its effect on the cache). -/
def supports (u : URL) : Bool :=
  getBoolValue u b!"dynamicMeta" true &&
  !(getStringParamsWithDefault u b!"serialization" [] ∈ [b!"protobuf", b!"grpc-pb", b!"grpc-pb-json"]) &&
  u.protocol = b!"motan2"

/-- The answer of an endpoint, as far as meta/meta.go:145-167 looks at it: an exception with its message, a value still to be
deserialized with what Breeze makes of it (an error with its text), a map, another value. -/
inductive Answer
  | exception (msg : Bytes)
  | body (r : Except Bytes Map)
  | map (m : Map)
  | other

/-- What the caller gets. -/
inductive Result
  | got (m : Map)
  | notSupported
  | error (msg : Bytes)
deriving DecidableEq

/-- meta/meta.go:145-167: what is made of an answer. -/
def judge : Answer → Result
  | .exception msg => if msg = Server.serviceNotSupport then .notSupported else .error msg
  | .body (.ok m) => .got m
  | .body (.error e) => .error e
  | .map m => .got m
  | .other => .got []

/-- The time, the two caches (with the expirations), the questions (the address, and whether it is under way), and what callers
got: the address, the result and the time. -/
structure St where
  now : Int := 0
  cache : AMap Bytes (Map × Int) := []
  unsupported : AMap Bytes Int := []
  asks : List (Bytes × Bool) := []
  results : List (Bytes × Result × Int) := []

/-- An item of a cache. -/
def fresh {V : Type} (m : AMap Bytes (V × Int)) (k : Bytes) (now : Int) : Option V :=
  match AMap.load m k with
  | some (v, e) => if now > e then none else some v
  | none => none

/-- Whether the address is marked. -/
def marked (s : St) (k : Bytes) : Bool :=
  match AMap.load s.unsupported k with
  | some e => !(s.now > e)
  | none => false

/-- meta/meta.go:22-23: the mark lasts 30 seconds. -/
def markFor : Int := 30 * 1000000000

/-- Time passes; a caller asks; question `i` is answered. -/
inductive Op
  | wait (d : Nat)
  | ask (e : Ep)
  | answer (i : Nat) (a : Answer)

/-- meta/meta.go:109-120 `GetEpDynamicMeta` with 137-168 `getRemoteDynamicMeta`: up to the call, and after it. `expire` is how long
answers are kept. None: there is no such question under way. -/
def step (expire : Int) (s : St) (o : Op) : Option St :=
  match o with
  | .wait d => some { s with now := s.now + d }
  | .ask e =>
    let k := cacheKey e.url
    match fresh s.cache k s.now with
    | some m => some { s with results := (k, .got m, s.now) :: s.results }
    | none =>
      if marked s k then some { s with results := (k, .notSupported, s.now) :: s.results }
      else if supports e.url = false then
        some { s with
          unsupported := AMap.store s.unsupported k (s.now + markFor)
          results := (k, .notSupported, s.now) :: s.results }
      else if e.available = false then some { s with results := (k, .error b!"endpoint unavailable", s.now) :: s.results }
      else some { s with asks := s.asks ++ [(k, true)] }
  | .answer i a =>
    match s.asks[i]? with
    | some (k, true) =>
      let s := { s with asks := s.asks.set i (k, false), results := (k, judge a, s.now) :: s.results }
      match judge a with
      | .got m => some { s with cache := AMap.store s.cache k (m, s.now + expire) }
      | .notSupported => some { s with unsupported := AMap.store s.unsupported k (s.now + markFor) }
      | .error _ => some s
    | _ => none

/-- A history. -/
def play (expire : Int) (s : St) : List Op → Option St
  | [] => some s
  | o :: os => (step expire s o).bind fun s' => play expire s' os

/-! ## Answering -/

/-- provider/metaProvider.go:13-36 `Call`: an exception, or the serialized dynamic metadata of the process. -/
def provide (serialize : Map → Option Bytes) (isV1 : Bool) (dynamic : Map) : Except Bytes Bytes :=
  if isV1 then .error b!"meta provider not support motan1 protocol"
  else
    match serialize dynamic with
    | some b => .ok b
    | none => .error b!"meta provider serialize fail"

end Motan.Meta
