import Verif.Model.Convert
import Verif.Model.Url

/-!
# High-availability strategies (ha/failoverHA.go, ha/backupRequestHA.go)

What load balancer and endpoints do is given from outside, attempt by attempt, so that every behaviour of theirs is
covered. The texts of error messages are left out (empty).
-/

namespace Motan.Ha

open Motan.Convert (Exn Response)
open Motan.Url (URL getMethodIntValue getMethodPositiveIntValue)

/-- core/constants.go:10 `ServiceException`. -/
def serviceException : Int := 1

/-- core/constants.go:12 `BizException`. -/
def bizException : Int := 2

/-- core/constants.go:136 `ENoEndpoints`. -/
def eNoEndpoints : Int := 1001

/-- core/motan.go:724-729 `BuildExceptionResponse` (with a response from the pool, which is empty). -/
def buildExceptionResponse (id : UInt64) (e : Exn) : Response :=
  { id := id, value := none, exception := some e, processTime := 0, attachment := [] }

/-- ha/failoverHA.go:65-67 `getErrorResponseWithCode`. -/
def getErrorResponseWithCode (id : UInt64) (code : Int) : Response :=
  buildExceptionResponse id { errCode := code, errMsg := [], errType := serviceException }

/-- ha/failoverHA.go:43, ha/backupRequestHA.go:108, 138: no exception, or one of the business logic. -/
def accepted (r : Response) : Bool :=
  match r.exception with
  | none => true
  | some e => e.errType = bizException

/-! ## Failover -/

/-- What one round of the loop meets: no endpoint selectable, or a call of an endpoint (nil if it gave no response). -/
inductive Attempt (E : Type)
  | noEndpoint
  | call (ep : E) (r : Option Response)

/-- The loop of ha/failoverHA.go:34-58: `n` rounds left, the next one is round `i`; `last` is `response`. The calls made
come with the result. -/
def failoverLoop {E : Type} (id : UInt64) (env : Nat → Attempt E) : Nat → Nat → Option Response → Response × List E
  | _, 0, some r => (r, [])
  | _, 0, none => (getErrorResponseWithCode id 500, [])
  | i, n + 1, _ =>
    match env i with
    | .noEndpoint => (getErrorResponseWithCode id eNoEndpoints, [])
    | .call ep none =>
      let x := failoverLoop id env (i + 1) n none
      (x.1, ep :: x.2)
    | .call ep (some r) =>
      if accepted r then (r, [ep])
      else
        let x := failoverLoop id env (i + 1) n (some r)
        (x.1, ep :: x.2)

/-- ha/failoverHA.go:31 the number of retries. -/
def failoverRetries (u : URL) (method desc : Bytes) : Int := (getMethodPositiveIntValue u method desc b!"retries" 0).1

/-- ha/failoverHA.go:30-59 `FailOverHA.Call`. -/
def failoverCall {E : Type} (u : URL) (method desc : Bytes) (id : UInt64) (env : Nat → Attempt E) : Response × List E :=
  failoverLoop id env 0 (failoverRetries u method desc + 1).toNat none

/-! ## Backup requests -/

/-- What `Call` decides before calling (ha/backupRequestHA.go:47-86). -/
inductive Plan (E : Type)
  | answer (r : Response)
  | direct (ep : E)
  | hedged (ep : E) (retries : Nat) (delay : Int) (timeout : Int)

/-- ha/backupRequestHA.go:47-86. `percentile` is the latency of the last metrics snapshot at the given ratio, `none` if
there is no snapshot. -/
def plan {E : Type} (u : URL) (method desc : Bytes) (id : UInt64) (selected : Option E)
    (percentile : Option (Int → Int)) : Plan E :=
  match selected with
  | none => .answer (getErrorResponseWithCode id eNoEndpoints)
  | some ep =>
    let (retries, u) := getMethodIntValue u method desc b!"retries" 0
    if retries ≤ 0 then .direct ep
    else
      let (ratio, u) := getMethodPositiveIntValue u method desc b!"backupRequestDelayRatio" 90
      let (delay, u) := getMethodIntValue u method desc b!"backupRequestDelayTime" 0
      let (timeout, u) := getMethodPositiveIntValue u method desc b!"requestTimeout" 1000
      if delay ≤ 0 then
        match percentile with
        | none =>
          let (initDelay, _) := getMethodPositiveIntValue u method desc b!"backupRequestInitDelayTime" 0
          if initDelay = 0 then .direct ep
          else .hedged ep retries.toNat (if initDelay < 10 then 10 else initDelay) timeout
        | some p => .hedged ep retries.toNat (if p ratio < 10 then 10 else p ratio) timeout
      else .hedged ep retries.toNat delay timeout

/-- ha/backupRequestHA.go:136-144 `doCall` given what the endpoint returned; `none` is the panic on a nil response. -/
def doCall (id : UInt64) : Option Response → Option Response
  | none => none
  | some r => if accepted r then some r else some (getErrorResponseWithCode id 400)

/-- One call issued by ha/backupRequestHA.go:105-113. -/
structure Issued (E : Type) where
  ep : E
  /-- Whether the goroutine has ended, and what the endpoint returned. -/
  ended : Bool
  result : Option Response
  /-- What is in its `errorCh` (capacity 1). -/
  err : Option Response

/-- Where the caller is. -/
inductive PC
  | top (i : Nat)
  | waiting (i : Nat)
  | final
  | done (r : Response)

/-- A hedged call. `success` is what is in `successCh`. -/
structure St (E : Type) where
  calls : List (Issued E)
  success : List Response
  pc : PC

/-- The state at ha/backupRequestHA.go:89. -/
def init {E : Type} : St E := ⟨[], [], .top 0⟩

/-- ha/backupRequestHA.go:133 the answer when nothing good came in time. -/
def timeoutError (id : UInt64) : Response := getErrorResponseWithCode id 400

/-- Whose step it is. -/
inductive Who
  | caller
  | goroutine
  | timer
  | deadline
deriving DecidableEq

/-- ha/backupRequestHA.go:89-133 and the goroutines 105-113, with `retries` retries for a request with this id and first
endpoint `ep0`. Selection and permits may turn out either way. -/
inductive Step {E : Type} (id : UInt64) (retries : Nat) (ep0 : E) : St E → Who → St E → Prop
  /-- 90-91, 100-115 the first call. -/
  | issueFirst {s} : s.pc = .top 0 →
      Step id retries ep0 s .caller { s with calls := s.calls ++ [⟨ep0, false, none, none⟩], pc := .waiting 0 }
  /-- 92-94 no endpoint for this retry. -/
  | skip {s i} : s.pc = .top (i + 1) → i + 1 ≤ retries → Step id retries ep0 s .caller { s with pc := .top (i + 2) }
  /-- 95-98 no permit. -/
  | noPermit {s i} : s.pc = .top (i + 1) → i + 1 ≤ retries → Step id retries ep0 s .caller { s with pc := .final }
  /-- 92, 95, 100-115 a retry. -/
  | issue {s i} (ep : E) : s.pc = .top (i + 1) → i + 1 ≤ retries →
      Step id retries ep0 s .caller
        { s with calls := s.calls ++ [⟨ep, false, none, none⟩], pc := .waiting (i + 1) }
  /-- 89 the end of the loop. -/
  | exit {s i} : s.pc = .top i → retries < i → Step id retries ep0 s .caller { s with pc := .final }
  /-- 107-112 an endpoint returns: its response goes to `successCh` or `errorCh`; a nil response panics in `doCall`,
  which is handled (106) and sends nothing. -/
  | finish {s} {k : Nat} {c : Issued E} (out : Option Response) : s.calls[k]? = some c → c.ended = false →
      Step id retries ep0 s .goroutine
        (match out with
         | none => { s with calls := s.calls.set k { c with ended := true } }
         | some r =>
           if accepted r then
             { s with calls := s.calls.set k { c with ended := true, result := some r }, success := s.success ++ [r] }
           else
             { s with calls := s.calls.set k { c with ended := true, result := some r, err := doCall id (some r) } })
  /-- 118-119, 127-128 a good response. -/
  | recvSuccess {s r rs} : (∃ i, s.pc = .waiting i) ∨ s.pc = .final → s.success = r :: rs →
      Step id retries ep0 s .caller { s with success := rs, pc := .done r }
  /-- 120 an error of the last call. -/
  | recvError {s i cs} {c : Issued E} {e : Response} : s.pc = .waiting i → s.calls = cs ++ [c] → c.err = some e →
      Step id retries ep0 s .caller { s with calls := cs ++ [{ c with err := none }], pc := .top (i + 1) }
  /-- 129, 133 an error of the last call at the end. -/
  | recvErrorFinal {s cs} {c : Issued E} {e : Response} : s.pc = .final → s.calls = cs ++ [c] → c.err = some e →
      Step id retries ep0 s .caller { s with calls := cs ++ [{ c with err := none }], pc := .done (timeoutError id) }
  /-- 121 the delay is over. -/
  | delayOver {s i} : s.pc = .waiting i → Step id retries ep0 s .timer { s with pc := .top (i + 1) }
  /-- 122-123, 130 the deadline. -/
  | deadline {s} : (∃ i, s.pc = .waiting i) ∨ s.pc = .final →
      Step id retries ep0 s .deadline { s with pc := .done (timeoutError id) }

/-- All executions. -/
inductive Reach {E : Type} (id : UInt64) (retries : Nat) (ep0 : E) : St E → Prop
  | init : Reach id retries ep0 init
  | step {s w s'} : Reach id retries ep0 s → Step id retries ep0 s w s' → Reach id retries ep0 s'

/-! ## The budget of retries (ha/backupRequestHA.go:146-166), shared by all calls of a cluster -/

/-- ha/backupRequestHA.go:24-28. -/
structure Counter where
  total : Nat
  retry : Nat
  lastReset : Int

/-- ha/backupRequestHA.go:146-156 `updateCallRecord(100)`; the two numbers are the two readings of the clock. -/
def updateCallRecord (c : Counter) (now now' : Int) : Counter :=
  if c.total > 100 ∨ now - c.lastReset ≥ 20 * 10 ^ 9 then ⟨1, 0, now'⟩ else { c with total := c.total + 1 }

/-- ha/backupRequestHA.go:158-166 `tryAcquirePermit`. -/
def tryAcquirePermit (c : Counter) (limit : Int) : Bool × Counter :=
  if c.retry ≥ limit then (false, c) else (true, { c with retry := c.retry + 1 })

end Motan.Ha
