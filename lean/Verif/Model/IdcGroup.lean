import Verif.Basic.AMap
import Verif.Basic.Strings

/-!
# Choosing the group to subscribe to (cluster/motanCluster.go: getSubscribeGroup, getBestGroup, parseRegistry;
core/motan.go: GetAllGroups) and the measurement by echo requests (core/ping.go)

A group with the placeholder `${idc}` stands for one of several groups; a cluster picks one when it is made. The answers of a
registry are taken not to change while one group is picked. Regular expressions, changes of case and round-trip times are
parameters; so is the order in which the two maps of `getBestGroup` are visited.
-/

namespace Motan.IdcGroup

open Motan.Strings

/-- cluster/motanCluster.go:442-444 `clusterIdcPlaceHolder`. -/
def holder : Bytes := b!"${idc}"

/-- `strings.Replace(s, old, new, 1)`. -/
def replaceFirst (s old new : Bytes) : Bytes :=
  match index old s with
  | none => s
  | some i => s.take i ++ new ++ s.drop (i + old.length)

/-- cluster/motanCluster.go:457-465 `appendPreDetectGroups`. -/
def addGroup (l : List Bytes) (g : Bytes) : List Bytes := if g ∈ l then l else l ++ [g]

/-- cluster/motanCluster.go:451-468: the prepared groups; `lower` and `upper` are `strings.ToLower` and `strings.ToUpper`. -/
def prepared (lower upper : Bytes → Bytes) (idc group : Bytes) : List Bytes :=
  if idc = [] then []
  else
    addGroup (addGroup [replaceFirst group holder idc] (replaceFirst group holder (lower idc)))
      (replaceFirst group holder (upper idc))

/-- A registry: the nodes it finds for a group, and all groups if it can tell them (`GetAllGroups`). -/
structure Reg where
  discover : Bytes → List Bytes
  groups : Option (List Bytes)

/-- cluster/motanCluster.go:474-479: the loop over the prepared groups. -/
def trySimple (r : Reg) : List Bytes → Option Bytes
  | [] => none
  | g :: gs => if 0 < (r.discover g).length then some g else trySimple r gs

/-- cluster/motanCluster.go:487-492: the inner loop, over all groups. -/
def tryKnown (r : Reg) (g : Bytes) : List Bytes → Bool
  | [] => false
  | x :: xs => if x == g && 0 < (r.discover g).length then true else tryKnown r g xs

/-- cluster/motanCluster.go:486-493: the outer loop, over the prepared groups. -/
def tryPrepared (r : Reg) (all : List Bytes) : List Bytes → Option Bytes
  | [] => none
  | g :: gs => if tryKnown r g all then some g else tryPrepared r all gs

/-- cluster/motanCluster.go:501-512: the matching groups, and those of them with nodes (a map). -/
def gather (r : Reg) (m : Bytes → Bool) : List Bytes → List Bytes × AMap Bytes (List Bytes) →
    List Bytes × AMap Bytes (List Bytes)
  | [], acc => acc
  | g :: gs, acc =>
    if m g then
      gather r m gs (acc.1 ++ [g], if 0 < (r.discover g).length then acc.2.store g (r.discover g) else acc.2)
    else gather r m gs acc

/-! ## The best group -/

/-- cluster/motanCluster.go:545-556: the least, the greatest and the sum of the round-trip times. -/
def minMaxSum (rtts : List Int) : Int × Int × Int :=
  rtts.foldl (fun a r => (if r < a.1 then r else a.1, if r > a.2.1 then r else a.2.1, a.2.2 + r))
    (rtts.headD 0, rtts.headD 0, 0)

/-- cluster/motanCluster.go:540-557: the figure for one group; none if fewer than three replies came. Durations are taken not
to overflow. -/
def mean (rtts : List Int) : Option Int :=
  if rtts.length < 3 then none
  else
    let a := minMaxSum rtts
    some (Int.tdiv (a.2.2 - a.1 - a.2.1) ((rtts.length : Int) - 2))

/-- cluster/motanCluster.go:533-558: the groups measured, in the order visited; `ping` is what `Ping` of one of the nodes
leaves in `Rtts`, none if the node's address cannot be resolved. -/
def measured (ping : Bytes → List Bytes → Option (List Int)) : List (Bytes × List Bytes) → List (Bytes × Int)
  | [] => []
  | (g, ns) :: r =>
    match (ping g ns).bind mean with
    | none => measured ping r
    | some v => (g, v) :: measured ping r

/-- cluster/motanCluster.go:560-568: the least figure so far and its group. -/
def least : List (Bytes × Int) → Int × Bytes → Int × Bytes
  | [], acc => acc
  | (g, v) :: r, acc => least r (if acc.1 = 0 ∨ acc.1 > v then (v, g) else acc)

/-- cluster/motanCluster.go:524-574 `getBestGroup`; `visit` is the map in the order of the first loop, `order` arranges the
figures for the second. -/
def bestGroup (ping : Bytes → List Bytes → Option (List Int)) (order : List (Bytes × Int) → List (Bytes × Int))
    (visit : List (Bytes × List Bytes)) : Bytes :=
  let b := (least (order (measured ping visit)) (0, [])).2
  if b = [] then (visit.map (·.1)).getLastD [] else b

/-- What a cluster's choice depends on besides the registry: the name of the data centre, changes of case, compiling a regular
expression, echo requests, and the orders of the two maps. -/
structure Env where
  idc : Bytes
  lower : Bytes → Bytes
  upper : Bytes → Bytes
  compile : Bytes → Option (Bytes → Bool)
  ping : Bytes → List Bytes → Option (List Int)
  visit : AMap Bytes (List Bytes) → List (Bytes × List Bytes)
  order : List (Bytes × Int) → List (Bytes × Int)

/-- cluster/motanCluster.go:446-522 `getSubscribeGroup`. -/
def subscribeGroup (e : Env) (group : Bytes) (r : Reg) : Bytes :=
  if contains group holder = false then group
  else
    let pre := prepared e.lower e.upper e.idc group
    match r.groups with
    | none => (trySimple r pre).getD group
    | some all =>
      match tryPrepared r all pre with
      | some g => g
      | none =>
        match e.compile (b!"^" ++ replaceFirst group holder b!"(.*)" ++ b!"$") with
        | none => group
        | some m =>
          let a := gather r m all ([], [])
          if a.2 ≠ [] then bestGroup e.ping e.order (e.visit a.2)
          else if a.1 = [] then group
          else a.1.getLastD []

/-! ## The registries of a cluster -/

/-- What is left of `parseRegistry`: the group of the cluster's URL, the subscriptions made and whether a name was unknown. -/
structure Parsed where
  group : Bytes
  subs : List (Bytes × Bytes) := []
  bad : Option Bytes := none

/-- cluster/motanCluster.go:317-341 `parseRegistry`, from the names on; `find` gives the registry of a name: none if there is
no such name in the configuration, some none if the extension factory has none. Each subscription is made with the URL of the
cluster as it is at that time. -/
def parseRegistry (e : Env) (find : Bytes → Option (Option Reg)) : List Bytes → Parsed → Parsed
  | [], p => p
  | n :: ns, p =>
    match find n with
    | none => parseRegistry e find ns { p with bad := some n }
    | some none => parseRegistry e find ns p
    | some (some r) =>
      let g := subscribeGroup e p.group r
      parseRegistry e find ns { p with group := g, subs := p.subs ++ [(n, g)] }

/-! ## All groups of a registry -/

/-- core/motan.go:51 `registryGroupInfoMaxCacheTime`, in nanoseconds. -/
def maxCache : Int := 3600000000000

/-- core/motan.go:1101-1106 `registryGroupCacheInfo`; the time is none before the first success (the zero time is more than an
hour ago). -/
structure Entry where
  upd : Option Int := none
  groups : List Bytes := []

/-- core/motan.go:1116-1128 `getGroups` of an entry: the entry afterwards, what is given out and whether the registry was
asked. `found`: what the registry answers now, none for an error; `now`, `now'`: the clock before and after. -/
def Entry.get (c : Entry) (now now' : Int) (found : Option (List Bytes)) : Entry × List Bytes × Bool :=
  if c.upd.all (fun u => now - u > maxCache) then
    match found with
    | none => (c, c.groups, true)
    | some gs => ({ upd := some now', groups := gs }, gs, true)
  else (c, c.groups, false)

/-- core/motan.go:1130-1151 `GetAllGroups`, with the identity of the registry's URL as the key. -/
def allGroups (m : AMap Bytes Entry) (key : Bytes) (now now' : Int) (found : Option (List Bytes)) :
    AMap Bytes Entry × List Bytes × Bool :=
  let c := (m.load key).getD {}
  let r := c.get now now' found
  (m.store key r.1, r.2)

end Motan.IdcGroup
