import Verif.Model.Retry
/-!
# The variable a caller gives for the reply

client.go:44-58 with endpoint/motanCommonEndpoint.go:196-200: the answer is deserialized into the variable behind `rc.Reply`
while an endpoint is called, before the high-availability strategy has decided about the answer.
-/

namespace Motan.Reply

open Convert (Lib Request Response Err)
open Simple (Val Hint)
open Call (Ep Chan Result notify call)
open Retry

/-- endpoint/motanCommonEndpoint.go:196-200, core/motan.go:713-724: what a call of an endpoint writes into the variable
behind `reply`, if anything. (No decoder writes before it has succeeded.) -/
def stored (lib : Lib) (ep : Ep) (req : Request) (reply : Hint) : Chan → Option Val
  | .answered got =>
    if ep.proxy then none
    else
      match (notify lib ep req got).value with
      | some (.deser body (some s)) =>
        match s.deSerialize body reply with
        | .ok (_, a) => a
        | .error _ => none
      | _ => none
  | _ => none

/-- ha/failoverHA.go:41 the call of round `k`, for a caller with this reply. -/
def resultAt (lib : Lib) (errText : Err → Bytes) (version : Nat → Int) (req : Request) (reply : Hint) (rounds : Nat → Round)
    (k : Nat) : Result :=
  call lib errText (rounds k).ep (requestAt lib req rounds k) reply (version k) ((rounds k).chan errText (requestAt lib req rounds k))

/-- What round `k` writes into the variable. -/
def storedAt (lib : Lib) (errText : Err → Bytes) (req : Request) (reply : Hint) (rounds : Nat → Round) (k : Nat) : Option Val :=
  stored lib (rounds k).ep (requestAt lib req rounds k) reply ((rounds k).chan errText (requestAt lib req rounds k))

/-- The variable after `n` rounds. -/
def contentAfter (lib : Lib) (errText : Err → Bytes) (req : Request) (reply : Hint) (rounds : Nat → Round) (c : Val) : Nat → Val
  | 0 => c
  | n + 1 => (storedAt lib errText req reply rounds n).getD (contentAfter lib errText req reply rounds c n)

/-- ha/failoverHA.go:30-59 `FailOverHA.Call`. -/
def failover (lib : Lib) (errText : Err → Bytes) (version : Nat → Int) (u : Url.URL) (req : Request) (reply : Hint)
    (rounds : Nat → Round) : Response × List Ep :=
  Ha.failoverCall u req.method req.desc req.id fun k =>
    .call (rounds k).ep (some (resultAt lib errText version req reply rounds k).resp)

/-- client.go:49-58 `Client.BaseCall` through failover: the error, and the variable behind `reply`, which held `c` before. (The
filters of the cluster are left out.) -/
def baseCall (lib : Lib) (errText : Err → Bytes) (version : Nat → Int) (u : Url.URL) (req : Request) (reply : Hint)
    (rounds : Nat → Round) (c : Val) : Option Bytes × Val :=
  let x := failover lib errText version u req reply rounds
  (x.1.exception.map (·.errMsg), contentAfter lib errText req reply rounds c x.2.length)

/-! ### Backup requests

ha/backupRequestHA.go:89-133: the requests of all goroutines are clones of one request, and a clone has the same `Reply`
(core/motan.go:594). A goroutine writes the variable in `endpoint.Call` (107), before its answer is sent to the caller. -/

/-- A hedged call with the variable: `got k` is what the endpoint of call `k` has returned, whether or not the goroutine has
sent it on. -/
structure Shared (E V : Type) where
  s : Ha.St E
  got : Nat → Option Response
  content : V

/-- The steps: those of the strategy and its goroutines, where a goroutine sends what its endpoint returned; and the end of a
goroutine's call of its endpoint, which writes the variable (`write r` is what the answer `r` leaves in it, if anything). -/
inductive Step {E V : Type} (write : Response → Option V) (id : UInt64) (retries : Nat) (ep0 : E) :
    Shared E V → Shared E V → Prop
  | returns {x : Shared E V} {k : Nat} {c : Ha.Issued E} (r : Response) : x.s.calls[k]? = some c → c.ended = false →
      x.got k = none →
      Step write id retries ep0 x
        { x with got := fun j => if j = k then some r else x.got j, content := (write r).getD x.content }
  | strategy {x : Shared E V} {w : Ha.Who} {s' : Ha.St E} : Ha.Step id retries ep0 x.s w s' →
      (∀ k c', s'.calls[k]? = some c' → ∀ r, c'.result = some r → x.got k = some r) →
      Step write id retries ep0 x { x with s := s' }

/-- All executions, for a variable that holds `v0` before the call. -/
inductive Reach {E V : Type} (write : Response → Option V) (id : UInt64) (retries : Nat) (ep0 : E) (v0 : V) :
    Shared E V → Prop
  | init : Reach write id retries ep0 v0 ⟨Ha.init, fun _ => none, v0⟩
  | step {x y : Shared E V} : Reach write id retries ep0 v0 x → Step write id retries ep0 x y → Reach write id retries ep0 v0 y

end Motan.Reply
