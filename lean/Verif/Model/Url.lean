import Verif.Basic.AMap
import Verif.Basic.Decimal
import Verif.Basic.Strings

/-!
# URLs (core/url.go)

A URL with its parameters and its caches. Go's `atomic.Value` caches hold nil, "" or a string; nil and "" both
mean "not cached", so here a cache is an `Option`. Reading may fill a cache, so readers return the URL too.
Concurrent use of one URL is not modelled: the parameter map itself is unsynchronised.
-/

namespace Motan.Url

open Motan.Strings

/-- An entry of the integer cache (core/url.go:30-33, 38): a parsed value, or the shared miss marker. -/
inductive IntCache
  | value (n : Int)
  | miss
deriving DecidableEq, Repr

/-- core/url.go:14-28. `params = none` is Go's nil map. -/
structure URL where
  protocol : Bytes := []
  host : Bytes := []
  port : Int := 0
  path : Bytes := []
  group : Bytes := []
  params : Option (AMap Bytes Bytes) := none
  addressC : Option Bytes := none
  portStrC : Option Bytes := none
  identityC : Option Bytes := none
  hasMethodC : Option Bool := none
  intC : AMap Bytes IntCache := []
deriving DecidableEq, Repr

/-- Indexing the parameter map, `u.Parameters[key]` with its `ok` (Go allows it on a nil map). -/
def URL.param (u : URL) (k : Bytes) : Option Bytes := u.params.bind fun m => AMap.load m k

/-- core/url.go:290-298 `GetPortStr`. (A cached string is never empty: see `formatInt_ne_nil`.) -/
def getPortStr (u : URL) : Bytes × URL :=
  match u.portStrC with
  | some s => (s, u)
  | none => let p := formatInt u.port; (p, { u with portStrC := some p })

/-- core/url.go:199-208 `GetParam`: an absent or empty value reads as the default. -/
def getParam (u : URL) (k dflt : Bytes) : Bytes :=
  let ret := (u.param k).getD []
  if ret = [] then dflt else ret

/-- core/url.go:43-54 `GetIdentity`. -/
def getIdentity (u : URL) : Bytes × URL :=
  match u.identityC with
  | some s => (s, u)
  | none =>
    let (ps, u1) := getPortStr u
    let idt := u1.protocol ++ b!"://" ++ u1.host ++ b!":" ++ ps ++ b!"/" ++ u1.path ++ b!"?group=" ++ u1.group
    let idt := if u1.protocol = b!"direct" then idt ++ b!"&address=" ++ getParam u1 b!"address" [] else idt
    (idt, { u1 with identityC := some idt })

/-- core/url.go:58-81 `IsMatch`. -/
def isMatch (u : URL) (service group protocol version : Bytes) : Bool :=
  if u.path ≠ service then false
  else if group ≠ [] ∧ u.group ≠ group then false
  else if protocol ≠ [] ∧ u.protocol = b!"motan2" ∧ protocol ≠ b!"motan2" ∧ protocol ≠ b!"motan" then false
  else if protocol ≠ [] ∧ u.protocol ≠ b!"motan2" ∧ u.protocol ≠ protocol then false
  else if version ≠ [] ∧ getParam u b!"version" [] ≠ [] then version = getParam u b!"version" []
  else true

/-- core/url.go:83-87 `GetIdentityWithRegistry`. -/
def getIdentityWithRegistry (u : URL) : Bytes × URL :=
  let (id, u1) := getIdentity u
  (id ++ b!"&registry=" ++ getParam u1 b!"registry" [], u1)

/-- core/url.go:89-98 `ClearCachedInfo`. -/
def clearCachedInfo (u : URL) : URL :=
  { u with addressC := none, identityC := none, portStrC := none, hasMethodC := none, intC := [] }

/-- core/url.go:126-145 `GetInt`. -/
def getInt (u : URL) (k : Bytes) : Option Int × URL :=
  match AMap.load u.intC k with
  | some .miss => (none, u)
  | some (.value n) => (some n, u)
  | none =>
    match (u.param k).map parseInt64 with
    | some (n, none) => (some n, { u with intC := AMap.store u.intC k (.value n) })
    | _ => (none, { u with intC := AMap.store u.intC k .miss })

/-- core/url.go:118-124 `GetIntValue`. -/
def getIntValue (u : URL) (k : Bytes) (dflt : Int) : Int × URL :=
  let (r, u1) := getInt u k
  (r.getD dflt, u1)

/-- core/url.go:100-106 `GetPositiveIntValue`. -/
def getPositiveIntValue (u : URL) (k : Bytes) (dflt : Int) : Int × URL :=
  let (n, u1) := getIntValue u k dflt
  (if n < 1 then dflt else n, u1)

/-- The boolean strings `strconv.ParseBool` accepts. -/
def parseBool (s : Bytes) : Option Bool :=
  if s ∈ [b!"1", b!"t", b!"T", b!"TRUE", b!"true", b!"True"] then some true
  else if s ∈ [b!"0", b!"f", b!"F", b!"FALSE", b!"false", b!"False"] then some false
  else none

/-- core/url.go:108-116 `GetBoolValue`. -/
def getBoolValue (u : URL) (k : Bytes) (dflt : Bool) : Bool :=
  ((u.param k).bind parseBool).getD dflt

/-- core/url.go:147-156 `GetStringParamsWithDefault`. -/
def getStringParamsWithDefault (u : URL) (k dflt : Bytes) : Bytes :=
  let ret := (u.param k).getD []
  if ret = [] then dflt else ret

/-- core/url.go:173-189 `hasMethodParams`: some key contains `).`. -/
def hasMethodParams (u : URL) : Bool × URL :=
  match u.hasMethodC with
  | some b => (b, u)
  | none =>
    if (u.params.getD []).keys.any (fun k => contains k b!").") then (true, { u with hasMethodC := some true })
    else (false, { u with hasMethodC := some false })

/-- core/url.go:160 the key of a method-level parameter. -/
def methodKey (method desc key : Bytes) : Bytes := method ++ b!"(" ++ desc ++ b!")." ++ key

/-- core/url.go:158-171 `GetMethodIntValue`. -/
def getMethodIntValue (u : URL) (method desc key : Bytes) (dflt : Int) : Int × URL :=
  let (has, u1) := hasMethodParams u
  if has then
    let (r, u2) := getInt u1 (methodKey method desc key)
    match r with
    | some n => (n, u2)
    | none => getIntValue u2 key dflt
  else getIntValue u1 key dflt

/-- core/url.go:191-197 `GetMethodPositiveIntValue`. (Go tests `> 0`, `GetPositiveIntValue` tests `< 1`.) -/
def getMethodPositiveIntValue (u : URL) (method desc key : Bytes) (dflt : Int) : Int × URL :=
  let (n, u1) := getMethodIntValue u method desc key dflt
  (if n > 0 then n else dflt, u1)

/-- core/url.go:220-229 `PutParam`. -/
def putParam (u : URL) (k v : Bytes) : URL :=
  { u with
    intC := AMap.erase u.intC k
    hasMethodC := if contains k b!")." then some true else u.hasMethodC
    params := some (AMap.store (u.params.getD []) k v) }

/-- core/url.go:231-258 `ToExtInfo`. The map is listed in any order and then sorted. -/
def toExtInfo (u : URL) : Bytes × URL :=
  let (ps, u1) := getPortStr u
  let head := u1.protocol ++ b!"://" ++ u1.host ++ b!":" ++ ps ++ b!"/" ++ u1.path ++ b!"?" ++ b!"group=" ++ u1.group
  let keys := sort (u1.params.getD []).keys
  (head ++ keys.flatMap (fun k => b!"&" ++ k ++ b!"=" ++ (u1.param k).getD []), u1)

/-- core/url.go:275-283 the parameter loop of `FromExtInfo`: pieces that are not `k=v` are dropped. -/
def parseParams (parts : List Bytes) : AMap Bytes Bytes :=
  parts.foldl (fun m p => match split b!"=" p with
    | [k, v] => AMap.store m k v
    | _ => m) []

/-- core/url.go:260-288 `FromExtInfo`. An index out of range panics; the deferred `recover` turns it into nil. -/
def fromExtInfo (s : Bytes) : Option URL :=
  let arr := split b!"?" s
  let nodeInfos := split b!"://" (arr.headD [])
  let protocol := nodeInfos.headD []
  match nodeInfos[1]? with
  | none => none
  | some rest =>
    let slash := split b!"/" rest
    match slash[1]? with
    | none => none
    | some path =>
      let hp := split b!":" (slash.headD [])
      let host := hp.headD []
      match hp[1]? with
      | none => none
      | some ps =>
        let port := (parseInt64 ps).1
        match arr[1]? with
        | none => none
        | some q =>
          let m := parseParams (split b!"&" q)
          let group := (AMap.load m b!"group").getD []
          some { protocol, host, port, path, group, params := some (AMap.erase m b!"group") }

/-- core/url.go:300-312 `GetAddressStr`: a Unix socket host is its own address. -/
def getAddressStr (u : URL) : Bytes × URL :=
  match u.addressC with
  | some s => (s, u)
  | none =>
    if hasPrefix u.host b!"unix://" then (u.host, { u with addressC := some u.host })
    else
      let (ps, u1) := getPortStr u
      let a := u1.host ++ b!":" ++ ps
      (a, { u1 with addressC := some a })

/-- core/url.go:314-322 `Copy`: fields and parameters, no caches, never a nil map. -/
def copy (u : URL) : URL :=
  { protocol := u.protocol, host := u.host, port := u.port, group := u.group, path := u.path,
    params := some (AMap.storeAll [] (u.params.getD [])) }

/-- core/url.go:324-328 `MergeParams`: writes the map directly, leaving all caches; a nil map and a non-empty
argument panic (`none`). -/
def mergeParams (u : URL) (ps : AMap Bytes Bytes) : Option URL :=
  match u.params with
  | some m => some { u with params := some (AMap.storeAll m ps) }
  | none => if ps = [] then some u else none

/-- core/url.go:361-378 `IsSame` on two maps (none: nil). -/
def isSame (m1 m2 : Option (AMap Bytes Bytes)) (key dflt : Bytes) : Bool :=
  if m1 = none ∧ m2 = none then true
  else (((m1.bind fun m => AMap.load m key).getD dflt) = ((m2.bind fun m => AMap.load m key).getD dflt) : Bool)

/-- core/url.go:353-359 `CanServeProtocol`. -/
def canServeProtocol (u other : URL) : Bool :=
  if other.protocol = b!"motan" ∧ u.protocol = b!"motan2" then true
  else u.protocol = other.protocol ∨ u.protocol = b!"local"

/-- core/url.go:330-351 `CanServe`. (Logging is left out.) -/
def canServe (u other : URL) : Bool :=
  if ¬ canServeProtocol u other then false
  else if u.path ≠ other.path then false
  else if u.protocol ≠ b!"motan2" ∧ ¬ isSame u.params other.params b!"serialization" [] then false
  else if ¬ (isSame u.params other.params b!"version" b!"0.1" ∨ isSame u.params other.params b!"version" b!"1.0")
    then false
  else true

end Motan.Url
