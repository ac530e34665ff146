import Verif.Model.LoadBalance
import Verif.Model.Retry
/-!
# Failover over the endpoints of a round-robin load balancer

ha/failoverHA.go:30-59 with the selections of lb/roundrobinLb.go:20-49 and what is behind the endpoints they give. The
list of endpoints is the same in all rounds of the call (`OnRefresh` during a call is left out).
-/

namespace Motan.Rotation

open Convert (Lib Request Response Err)
open Retry

/-- What the rounds of a call meet at the load balancer. -/
structure Ring (E : Type) where
  /-- `endpoints` of `RoundrobinLB` (lb/roundrobinLb.go:9-14). -/
  eps : List E
  /-- What `IsAvailable` of an endpoint answers in a round (lb/roundrobinLb.go:45, lb/lb.go). -/
  avail : Nat → E → Bool
  /-- The counter before the call. -/
  start : UInt32
  /-- How many selections other calls make between the round before this one and this one. -/
  others : Nat → UInt32
  /-- The random numbers of `SelectOneAtRandom` in a round. -/
  r1 : Nat → Nat
  r2 : Nat → Nat

variable {E : Type}

/-- The counter `index` (lb/roundrobinLb.go:44) before the selection of round `k`. -/
def Ring.counter (g : Ring E) : Nat → UInt32
  | 0 => g.start + g.others 0
  | k + 1 => (Lb.rrSelect (g.avail k) g.eps (g.counter k) (g.r1 k) (g.r2 k)).2 + g.others (k + 1)

/-- ha/failoverHA.go:35 the endpoint `Select` gives in round `k`. -/
def Ring.pick (g : Ring E) (k : Nat) : Option E :=
  (Lb.rrSelect (g.avail k) g.eps (g.counter k) (g.r1 k) (g.r2 k)).1

/-- An endpoint as a caller sees it, and what is behind it. -/
structure Site where
  ep : Call.Ep
  net : Net

/-- Round `k`, if the load balancer has an endpoint for it; `sid` are the ids of the connections' streams. Without an
endpoint the loop has ended (ha/failoverHA.go:36-40), and the round does not matter. -/
def Ring.round (g : Ring E) (site : E → Site) (sid : Nat → UInt64) (k : Nat) : Round :=
  match g.pick k with
  | some e => ⟨(site e).ep, sid k, (site e).net⟩
  | none => ⟨⟨[], false, 0, none⟩, sid k, .down .null⟩

/-- ha/failoverHA.go:30-59 `FailOverHA.Call`: the answer, and the endpoints called. -/
def failover (lib : Lib) (errText : Err → Bytes) (version : Nat → Int) (u : Url.URL) (req : Request) (g : Ring E)
    (site : E → Site) (sid : Nat → UInt64) : Response × List E :=
  Ha.failoverCall u req.method req.desc req.id fun k =>
    match g.pick k with
    | none => .noEndpoint
    | some e => .call e (some (resultAt lib errText version req (g.round site sid) k).resp)

/-- ha/backupRequestHA.go:100-107 what call `k` of a hedged call returns: a clone of the request (the same content, C48) is
given to the endpoint `e`. -/
def hedgedResult (lib : Lib) (errText : Err → Bytes) (version : Nat → Int) (req : Request) (site : E → Site)
    (sid : Nat → UInt64) (k : Nat) (e : E) : Response :=
  (Call.call lib errText (site e).ep req .none (version k)
    ((⟨(site e).ep, sid k, (site e).net⟩ : Round).chan errText req)).resp

end Motan.Rotation
