import Verif.Model.Url
import Verif.Model.Dynamic
import Verif.Basic.Trim

/-!
# From configuration sections to URLs (core/globalContext.go)

A section of the configuration is a map from names to maps of settings. Go's maps are ranged over in any order; here a
map is a list with distinct keys, and the theorems speak of what is found under a key. Keys are strings (in Go, any
other key panics). `none` is a panic. Logging is left out, but not the filling of a cache that comes with it.
-/

namespace Motan.ConfUrl

open Motan.Strings Motan.Url Motan.Dynamic

/-- A value in a section, as the YAML library gives it. `num` is a float, with its decimal text; `other` stands for
everything else: lists, maps, integers too large for `int`. -/
inductive Val
  | nil
  | str (s : Bytes)
  | int (n : Int)
  | num (text : Bytes)
  | bool (b : Bool)
  | other
deriving DecidableEq, Repr

/-- core/util.go:50-63 `InterfaceToString`. -/
def Val.text : Val → Bytes
  | .int n => formatInt n
  | .num t => t
  | .str s => s
  | .bool true => b!"true"
  | .bool false => b!"false"
  | _ => []

/-- The settings of one entry. -/
abbrev Info := AMap Bytes Val

/-- A section: `none` for an entry that is not a map. -/
abbrev Sect := AMap Bytes (Option Info)

/-- core/globalContext.go:139-145: a setting without value is taken to be empty — as a string, for the port too. -/
def orEmpty (k : Bytes) : Val → Val
  | .nil => if k = b!"port" then .str b!"0" else .str []
  | v => v

/-- `sinfo.(string)` -/
def asString : Val → Option Bytes
  | .str s => some s
  | _ => none

/-- `sinfo.(int)` -/
def asInt : Val → Option Int
  | .int n => some n
  | _ => none

/-- core/globalContext.go:76: the settings that are fields of the URL. -/
def urlFields : List Bytes := [b!"protocol", b!"host", b!"port", b!"path", b!"group"]

/-- core/globalContext.go:138-160: the body of the loop in `confToURL`. -/
def setConf (u : URL) (k : Bytes) (v : Val) : Option URL :=
  if k ∈ urlFields then
    let v := orEmpty k v
    if k = b!"protocol" then (asString v).map fun s => { u with protocol := s }
    else if k = b!"host" then (asString v).map fun s => { u with host := s }
    else if k = b!"port" then (asInt v).map fun n => { u with port := n }
    else if k = b!"path" then (asString v).map fun s => { u with path := s }
    else (asString v).map fun s => { u with group := s }
  else some { u with params := some (AMap.store (u.params.getD []) k v.text) }

/-- core/globalContext.go:137-162, from the URL built so far. -/
def confLoop : URL → List (Bytes × Val) → Option URL
  | u, [] => some u
  | u, (k, v) :: r => (setConf u k v).bind fun u => confLoop u r

/-- core/globalContext.go:134-164 `confToURL`. -/
def confToURL (info : Info) : Option URL := confLoop { params := some [] } info

/-- core/globalContext.go:125-131: one entry of `confToURLs`. -/
def entryURL (key : Bytes) (info : Option Info) : Option URL :=
  (info.bind confToURL).map fun u => { u with params := some (AMap.store (u.params.getD []) b!"conf-id" key) }

/-- core/globalContext.go:122-132 `confToURLs`. -/
def confToURLs : Sect → Option (AMap Bytes URL)
  | [] => some []
  | (k, i) :: r => (entryURL k i).bind fun u => (confToURLs r).map fun m => (k, u) :: m

/-- What the conversion depends on besides the section. `agent` is the `motan-agent` section (core/globalContext.go:398-406; never
nil once parsed); the environment variables `MESH_FILTERS`, `MESH_SERVICE_ADDITIONAL_GROUP`, `RPC_REG_GROUP_SUFFIX`,
`MESH_MULTI_SUB_GROUP_SUFFIX` (empty when not set); the filters named with `AddRelevantFilter`; and the order in which a
set of filters is listed. -/
structure Env where
  agent : URL := {}
  envFilters : Bytes := []
  envGroups : Bytes := []
  regSuffix : Bytes := []
  subSuffix : Bytes := []
  relevant : List Bytes := []
  order : List Bytes → List Bytes := id

/-- core/globalContext.go:429-444: what an entry takes from the basic entry it names. -/
def inherit (basic url : URL) : URL :=
  let n := copy basic
  let n := if url.protocol ≠ [] then { n with protocol := url.protocol } else n
  let n := if url.host ≠ [] then { n with host := url.host } else n
  let n := if url.port ≠ 0 then { n with port := url.port } else n
  let n := if url.group ≠ [] then { n with group := url.group } else n
  let n := if url.path ≠ [] then { n with path := url.path } else n
  (mergeParams n (url.params.getD [])).getD n

/-- core/globalContext.go:425-453: the entry with its basic entry, if it names one that exists. Both log lines ask for the
identity, which is cached. -/
def withBasic (basics : AMap Bytes URL) (basicKey : Bytes) (url : URL) : URL :=
  let name := getParam url basicKey []
  if name ≠ [] then
    match AMap.load basics name with
    | some b => (getIdentity (inherit b url)).2
    | none => (getIdentity url).2
  else url

/-- core/globalContext.go:455-462 with 502-545: the filters of an entry, each once. -/
def mergedFilters (E : Env) (u : URL) : List Bytes :=
  slicesUnique []
    ((filterSet (getStringParamsWithDefault E.agent b!"defaultFilter" [])
        (getStringParamsWithDefault u b!"disableDefaultFilter" []) ++
      filterSet (getStringParamsWithDefault E.agent b!"globalFilter" [])
        (getStringParamsWithDefault u b!"disableGlobalFilter" []) ++
      filterSet E.envFilters [] ++ E.relevant.map trimSpace ++
      filterSet (getStringParamsWithDefault u b!"filter" []) []).filter (· ≠ []))

/-- core/globalContext.go:463-465. -/
def withFilters (E : Env) (u : URL) : URL :=
  if mergedFilters E u ≠ [] then putParam u b!"filter" (join b!"," (E.order (mergedFilters E u))) else u

/-- core/globalContext.go:412-468 `basicConfToURLs`. -/
def basicConfToURLs (E : Env) (basics : AMap Bytes URL) (basicKey : Bytes) (s : Sect) : Option (AMap Bytes URL) :=
  (confToURLs s).map fun urls => urls.map fun p => (p.1, withFilters E (withBasic basics basicKey p.2))

/-- core/globalContext.go:550-557: the groups of the entry and of the environment. -/
def addGroups (E : Env) (g : Bytes) : Bytes :=
  if E.envGroups ≠ [] then (if g = [] then E.envGroups else g ++ b!"," ++ E.envGroups) else g

/-- core/globalContext.go:563-568: the entries for the further groups. -/
def furtherGroups (k : Bytes) (u : URL) : Nat → List Bytes → List (Bytes × URL)
  | _, [] => []
  | i, g :: gs => (k ++ b!"-" ++ formatInt i, { copy u with group := g }) :: furtherGroups k u (i + 1) gs

/-- core/globalContext.go:550-568: the entry for the first group, and those for the further ones. `groups[0]` panics when
there is none. -/
def splitGroups (E : Env) (k : Bytes) (u : URL) : Option (URL × List (Bytes × URL)) :=
  let u := { u with group := addGroups E u.group }
  if contains u.group b!"," then
    match slicesUnique [] (trimSplit u.group b!",") with
    | [] => none
    | g :: gs =>
      let u := { u with group := g }
      some (u, furtherGroups k u 0 gs)
  else some (u, [])

/-- core/globalContext.go:548-569: the loop; the entries in place, and those to be added. -/
def splitAll (E : Env) : List (Bytes × URL) → Option (List (Bytes × URL) × List (Bytes × URL))
  | [] => some ([], [])
  | (k, u) :: r =>
    (splitGroups E k u).bind fun p => (splitAll E r).map fun q => ((k, p.1) :: q.1, p.2 ++ q.2)

/-- core/globalContext.go:547-573 `parseMultipleServiceGroup`. -/
def parseMultipleServiceGroup (E : Env) (m : AMap Bytes URL) : Option (AMap Bytes URL) :=
  (splitAll E m).map fun p => AMap.storeAll p.1 p.2

/-- core/globalContext.go:581-584. -/
def addSuffix (suffix : Bytes) (u : URL) : URL :=
  if hasSuffix u.group suffix then u else { u with group := u.group ++ suffix }

/-- core/globalContext.go:575-586 `parseRegGroupSuffix`. (Every group ends with the empty suffix.) -/
def parseRegGroupSuffix (E : Env) (m : AMap Bytes URL) : AMap Bytes URL :=
  m.map fun p => (p.1, addSuffix E.regSuffix p.2)

/-- core/globalContext.go:597-608: the body of the loop, for the entry found under `k`; with the identities seen. The
identity of the entry itself was cached at 593-595. -/
def subStep (suffix : Bytes) (st : List Bytes × AMap Bytes URL) (k : Bytes) : List Bytes × AMap Bytes URL :=
  match AMap.load st.2 k with
  | none => st
  | some u =>
    if hasSuffix u.group suffix then st
    else
      let n := { copy u with group := u.group ++ suffix }
      let (i, n) := getIdentity n
      if i ∈ st.1 then st
      else (i :: st.1, AMap.store st.2 (b!"auto_" ++ k ++ u.group ++ suffix) n)

/-- core/globalContext.go:588-610 `parseSubGroupSuffix`. `visit` is the order in which the loop at 596 meets the entries:
the old ones in any order, and entries added meanwhile, which Go may or may not visit. -/
def parseSubGroupSuffix (E : Env) (visit : List Bytes) (m : AMap Bytes URL) : AMap Bytes URL :=
  if E.subSuffix = [] then m
  else
    let m1 : AMap Bytes URL := m.map fun p => (p.1, (getIdentity p.2).2)
    (visit.foldl (subStep E.subSuffix) (m.map fun p => (getIdentity p.2).1, m1)).2

/-- core/globalContext.go:615-620: a removed protocol is read as `motan`. -/
def renameProtocol (u : URL) : URL :=
  if u.protocol = b!"motanV1Compatible" then { u with protocol := b!"motan" } else u

/-- core/globalContext.go:612-622 `parseRefers`. -/
def parseRefers (E : Env) (visit : List Bytes) (basics : AMap Bytes URL) (s : Sect) : Option (AMap Bytes URL) :=
  (basicConfToURLs E basics b!"basicRefer" s).map fun m =>
    (parseSubGroupSuffix E visit m).map fun p => (p.1, renameProtocol p.2)

/-- core/globalContext.go:628-633 `parseServices`. -/
def parseServices (E : Env) (basics : AMap Bytes URL) (s : Sect) : Option (AMap Bytes URL) :=
  (basicConfToURLs E basics b!"basicService" s).bind fun m =>
    (parseMultipleServiceGroup E m).map (parseRegGroupSuffix E)

end Motan.ConfUrl
