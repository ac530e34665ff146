import Verif.Basic.Trim
import Verif.Model.Url

/-!
# Filter chains (core/url.go:380-432, core/motan.go:935-1099, cluster/motanCluster.go:247-268, server/server.go:278-294)

`H` is what a caller can be asked to do: in Go, a function from a request to a response that may have effects. The body
of a filter is a function from the handler that follows it to a handler. A filter object is taken to be new whenever
`NewFilter` returns it (the code asks filters for this, url.go:389), so that `SetNext` on one does not change another.
-/

namespace Motan.Filters

open Motan.Strings
open Motan.Url (URL)

/-- A filter object: `implCluster` and `implEndpoint` say which of the two interfaces its type implements, `status`
is its `IsAvailable` if it implements `Status`. -/
structure Inst (H : Type) where
  index : Int
  implCluster : Bool
  implEndpoint : Bool
  status : Option Bool
  body : H → H

/-- A registered filter, as `GetFilter` returns it: its index, whether its type is the cluster one, and `NewFilter`. -/
structure Proto (H : Type) where
  index : Int
  cluster : Bool
  newFilter : URL → Option (Inst H)

/-- The part of an extension factory used here; unknown names give nil. -/
abbrev Factory (H : Type) := Bytes → Option (Proto H)

/-- core/motan.go:794-800 `GetFilter` on the registered filters. -/
def getFilter {H : Type} (registered : AMap Bytes (Proto H)) : Factory H := fun name =>
  AMap.load registered (trimSpace name)

/-- A chain of filters linked by `next`. -/
inductive Chain (H : Type)
  | last
  | node (f : Inst H) (next : Chain H)

/-- Calling a chain whose last filter (core/motan.go:965-974, 1014-1026) ends in `h`. -/
def Chain.run {H : Type} (h : H) : Chain H → H
  | .last => h
  | .node f next => f.body (next.run h)

/-- core/url.go:386-399 the loop over the names: the cluster filters made and the endpoint filters found. -/
def collect {H : Type} (f : Factory H) (u : URL) : List Bytes → List (Inst H) × List (Proto H)
  | [] => ([], [])
  | n :: ns =>
    let r := collect f u ns
    match f n with
    | none => r
    | some p =>
      if p.cluster then
        match p.newFilter u with
        | none => r
        | some i => (i :: r.1, r.2)
      else (r.1, p :: r.2)

/-- `sort.Sort` by descending index (core/url.go:401, 412, 419-432): some function of the list. It is not stable, so
that nothing is known about filters with equal indices. -/
structure Sorter where
  sort : {α : Type} → (α → Int) → List α → List α

/-- core/url.go:406-409 the loop linking cluster filters; the type assertion panics (`none`) on a filter that is none. -/
def linkCluster {H : Type} : List (Inst H) → Chain H → Option (Chain H)
  | [], last => some last
  | f :: fs, last => if f.implCluster then linkCluster fs (.node f last) else none

/-- core/url.go:380-417 `GetURLFilters`; `none` is a panic. -/
def getURLFilters {H : Type} (sorter : Sorter) (u : URL) (f : Factory H) : Option (Option (Chain H) × List (Proto H)) :=
  match u.param b!"filter" with
  | none => some (none, [])
  | some filters =>
    let (cs, es) := collect f u (trimSplit filters b!",")
    let es := if es.length > 0 then sorter.sort (·.index) es else es
    if cs.length > 0 then
      match linkCluster (sorter.sort (·.index) cs) .last with
      | none => none
      | some c => some (some c, es)
    else some (none, es)

/-- cluster/motanCluster.go:87-94, 357-366: the filters a cluster works with. -/
def initFilters {H : Type} (sorter : Sorter) (u : URL) (f : Factory H) : Option (Chain H × List (Proto H)) :=
  match getURLFilters sorter u f with
  | none => none
  | some (c, es) => some (c.getD .last, es)

/-- cluster/motanCluster.go:73-74 what a cluster does with a request: its chain ends in the HA strategy. -/
def clusterCall {H : Type} (chain : Chain H) (ha : H) : H := chain.run ha

/-- core/motan.go:1030-1035 `FilterEndPoint` (also server/server.go:256-262 `FilterProviderWrapper`). -/
structure FilterEndPoint (H : Type) where
  filter : Chain H
  statusFilters : List Bool

/-- cluster/motanCluster.go:252-263 the loop of `addFilter`. -/
def linkEndpoint {H : Type} (u : URL) : List (Proto H) → Chain H → List Bool → Chain H × List Bool
  | [], last, st => (last, st)
  | p :: ps, last, st =>
    match p.newFilter u with
    | none => linkEndpoint u ps last st
    | some i =>
      if i.implEndpoint then linkEndpoint u ps (.node i last) (st ++ i.status.toList)
      else linkEndpoint u ps last st

/-- cluster/motanCluster.go:247-268 `addFilter` for an endpoint with this URL. -/
def addFilter {H : Type} (epUrl : URL) (filters : List (Proto H)) : FilterEndPoint H :=
  let r := linkEndpoint epUrl filters .last []
  ⟨r.1, r.2⟩

/-- core/motan.go:1044-1049 `FilterEndPoint.Call`, where the endpoint behind it does `call`. -/
def FilterEndPoint.call {H : Type} (f : FilterEndPoint H) (call : H) : H := f.filter.run call

/-- core/motan.go:1091-1098 the loop from the last status filter to the first. -/
def allStatus : List Bool → Bool
  | [] => true
  | b :: bs => if !b then false else allStatus bs

/-- core/motan.go:1090-1099 `FilterEndPoint.IsAvailable`. -/
def FilterEndPoint.isAvailable {H : Type} (f : FilterEndPoint H) (callerAvailable : Bool) : Bool :=
  if !allStatus f.statusFilters.reverse then false else callerAvailable

/-- server/server.go:286-295 `WrapWithFilter`: the chain around a provider with URL `u`; `none` is a panic. -/
def wrapWithFilter {H : Type} (sorter : Sorter) (u : URL) (f : Factory H) : Option (Chain H) :=
  match getURLFilters sorter u f with
  | none => none
  | some (_, es) => some (linkEndpoint u es .last []).1

end Motan.Filters
