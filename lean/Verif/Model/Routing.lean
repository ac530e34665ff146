import Verif.Model.Url

/-!
# Finding the cluster for a request in the agent (agent.go)
-/

namespace Motan.Routing

open Motan.Url

/-- agent.go:98-101 `serviceMapItem`: a referred URL and its cluster; the cluster is an opaque name here. -/
structure Item (C : Type) where
  url : URL
  cluster : C

/-- What findCluster reads of a request: service name and the attachments M_g, M_v and M_pp. -/
structure Req where
  service : Bytes
  group : Bytes
  version : Bytes
  protocol : Bytes

/-- The errors of findCluster (agent.go:848, 853, 864, 875); their texts are left out. -/
inductive FindErr
  | emptyService | noService | emptyGroup | noMatch
deriving DecidableEq, Repr

/-- agent.go:845-877 `findCluster`. -/
def findCluster {C : Type} (serviceMap : AMap Bytes (List (Item C))) (r : Req) : Except FindErr C :=
  if r.service = [] then .error .emptyService
  else match AMap.load serviceMap r.service with
    | none => .error .noService
    | some [it] => .ok it.cluster
    | some items =>
      if r.group = [] then .error .emptyGroup
      else match items.find? (fun it => isMatch it.url r.service r.group r.protocol r.version) with
        | some it => .ok it.cluster
        | none => .error .noMatch

/-- Where agentMessageHandler.Call (agent.go:828-843) sends a request. -/
inductive Target (C H : Type)
  | cluster (c : C)
  | http (h : H)
  | notFound (e : FindErr)
deriving DecidableEq, Repr

/-- agent.go:828-836 the choice made by `Call`; the calls themselves and the response attachment are left out. -/
def target {C H : Type} (serviceMap : AMap Bytes (List (Item C))) (httpMap : AMap Bytes H) (r : Req) : Target C H :=
  match findCluster serviceMap r with
  | .ok c => .cluster c
  | .error e =>
    match AMap.load httpMap r.service with
    | some h => .http h
    | none => .notFound e

end Motan.Routing
