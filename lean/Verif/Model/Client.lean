import Verif.Basic.AMap
import Verif.Model.Url

/-!
# Calls of a client (client.go)

The requests a client builds, the error a call gives, and calls that do not wait (`Go`): each has a goroutine that calls the
cluster and then sends the result into a channel. What the cluster answers is a parameter of the step in which it does (C62, C72
say what it is; `Call` of a cluster recovers panics and never gives nil); what the reply then holds is left out here.
-/

namespace Motan.Client

open Motan.Url

/-! ## Requests -/

/-- What `BuildRequest` sets of a request. -/
structure Request where
  id : Nat := 0
  service : Bytes
  method : Bytes
  attachment : AMap Bytes Bytes
deriving DecidableEq

/-- client.go:85-99 `BuildRequest`: `url` is the client's URL, `clientURL` that of the section motan-client. -/
def buildRequest (url clientURL : URL) (method : Bytes) : Request :=
  let own := getParam url b!"application" []
  let application := if own = [] then getParam clientURL b!"application" [] else own
  { service := url.path, method := method,
    attachment := AMap.store (AMap.store (AMap.store (AMap.store (AMap.store [] b!"M_v" (getParam url b!"version" []))
      b!"M_mdu" (getParam url b!"module" [])) b!"M_s" application) b!"M_g" url.group) b!"M_p" url.path }

/-- core/motan.go:382-386 `Exception`. -/
structure Exn where
  code : Int
  msg : Bytes
  type : Int
deriving DecidableEq

/-- client.go:47-56 `BaseCall`, 77-79: the error of a call whose answer has this exception, if any. -/
def callError (exception : Option Exn) : Option Bytes :=
  match exception with
  | some e => some e.msg
  | none => none

/-! ## Calls that do not wait -/

/-- A channel: one the caller gave, or the one made for a call. -/
inductive ChanId
  | given (n : Nat)
  | own (k : Nat)
deriving DecidableEq

/-- Where a call is: with the cluster, about to be sent (with its error), sent. -/
inductive Stage
  | running
  | answered (error : Option Bytes)
  | sent (error : Option Bytes)
deriving DecidableEq

/-- A call: its channel (`Done` of the result the caller got) and where it is. -/
structure Call where
  chan : ChanId
  stage : Stage := .running
deriving DecidableEq

/-- The calls, numbered from 0, and of each channel what waits in it and what was received from it. -/
structure St where
  calls : List Call := []
  queue : ChanId → List Nat := fun _ => []
  got : ChanId → List Nat := fun _ => []

/-- The steps: a call of `Go` with or without a channel, the answer of the cluster, the sending of the result, a receive. -/
inductive Op
  | go (done : Option Nat)
  | answer (k : Nat) (exception : Option Exn)
  | send (k : Nat)
  | receive (c : ChanId)
deriving DecidableEq

/-- The room in a channel; `cap` is that of the given ones. client.go:68: five for one made here. -/
def roomOf (cap : Nat → Nat) : ChanId → Nat
  | .given n => cap n
  | .own _ => 5

/-- client.go:67-70: the channel of a call. -/
def chanFor (cap : Nat → Nat) (k : Nat) (done : Option Nat) : ChanId :=
  match done with
  | none => .own k
  | some n => if cap n = 0 then .own k else .given n

/-- client.go:65-83 `BaseGo` and its goroutine. Channels have room here, so that a receiver that waits is no different from one that
comes later. None: the step cannot be taken (now). -/
def step (cap : Nat → Nat) (s : St) (o : Op) : Option St :=
  match o with
  | .go done => some { s with calls := s.calls ++ [{ chan := chanFor cap s.calls.length done }] }
  | .answer k e =>
    match s.calls[k]? with
    | some c => if c.stage = .running then some { s with calls := s.calls.set k { c with stage := .answered (callError e) } } else none
    | none => none
  | .send k =>
    match s.calls[k]? with
    | some c =>
      match c.stage with
      | .answered e =>
        if (s.queue c.chan).length < roomOf cap c.chan then
          some { s with
            calls := s.calls.set k { c with stage := .sent e }
            queue := fun x => if x = c.chan then s.queue x ++ [k] else s.queue x }
        else none
      | _ => none
    | none => none
  | .receive c =>
    match s.queue c with
    | k :: q =>
      some { s with
        queue := fun x => if x = c then q else s.queue x
        got := fun x => if x = c then s.got x ++ [k] else s.got x }
    | [] => none

/-- A schedule. -/
def play (cap : Nat → Nat) (s : St) : List Op → Option St
  | [] => some s
  | o :: os => (step cap s o).bind fun s' => play cap s' os

end Motan.Client
