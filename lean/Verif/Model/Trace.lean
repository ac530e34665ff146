import Verif.Basic.AMap
import Verif.Basic.Strings

/-!
# Tracing requests (core/debug.go, manageHandler.go: MeshTrace, CustomTrace, formatTc)

A request to trace (`MeshTrace`) replaces the policy for some time, puts the old one back and takes what was recorded. The
policy and the holder are package variables without a lock; every access of one of them is a step of its own here, except
that `GetTraceContexts` reads and replaces the holder in one step. A trace context is a number (in the order of making) with
the identifier of the request; its spans are dealt with at the end.
-/

namespace Motan.Trace

open Motan.Strings

/-! ## Policies -/

/-- manageHandler.go:607-612 `CustomTrace`. -/
structure Custom where
  addr : Bytes := []
  group : Bytes := []
  path : Bytes := []
  ratio : Int := 0
deriving DecidableEq

/-- core/debug.go:21 `TracePolicyFunc`: `NoTrace` (24-26), `RandomTrace` (29-35), `AlwaysTrace` (38-40) and
`CustomTrace.Trace`. -/
inductive Policy
  | off
  | random
  | always
  | custom (c : Custom)
deriving DecidableEq

/-- What a policy looks at: host, group and path in the request's metadata, empty if missing. -/
structure Ext where
  host : Bytes := []
  group : Bytes := []
  path : Bytes := []

/-- manageHandler.go:614-640 `CustomTrace.Trace` up to the call of `NewTraceContext`; `n` is the random number below 100. -/
def Custom.wants (c : Custom) (e : Ext) (n : Nat) : Bool :=
  if c.addr ≠ [] ∧ hasPrefix e.host c.addr = false then false
  else if c.group ≠ [] ∧ e.group ≠ c.group then false
  else if c.path ≠ [] ∧ e.path ≠ c.path then false
  else if 0 < c.ratio ∧ c.ratio < 100 ∧ (n : Int) ≥ c.ratio then false
  else true

/-- core/debug.go:24-40: whether a policy calls `NewTraceContext`; `n` is the random number. -/
def Policy.wants (p : Policy) (e : Ext) (n : Nat) : Bool :=
  match p with
  | .off => false
  | .random => n = 0
  | .always => true
  | .custom c => c.wants e n

/-! ## The policy and the holder -/

/-- A trace context: its number and the request's identifier. -/
abbrev Ctx := Nat × Nat

/-- Where a request is between the decision of the policy and the end of `NewTraceContext`. -/
inductive Call
  /-- The policy calls `NewTraceContext` (core/debug.go:84). -/
  | asked (rid : Nat)
  /-- The holder number `h` was read (core/debug.go:88), `newTrace` is to come. -/
  | holds (rid h : Nat)
deriving DecidableEq

/-- Where a request to trace is (manageHandler.go:547-551). -/
inductive Tracer
  /-- Waiting, with the policy to put back. -/
  | waiting (old : Policy)
  /-- The policy was put back, the contexts are still to be taken. -/
  | restored
deriving DecidableEq

/-- The package variables, the requests under way, and for the specification the contexts made and the lists taken.
Holders are numbered; `holders` are all that were ever made, the last one is the current one. -/
structure St where
  policy : Policy
  once : Bool
  holders : List (List Ctx)
  calls : AMap Nat Call
  tracers : AMap Nat Tracer
  made : List Ctx
  taken : List (List Ctx)
deriving DecidableEq

/-- core/debug.go:9-19: the start. -/
def init (p : Policy) : St := ⟨p, false, [], [], [], [], []⟩

/-- What can happen. -/
inductive Op
  /-- manageHandler.go:546-548 the request to trace `i` saves the policy and sets its own. -/
  | start (i : Nat) (c : Custom)
  /-- manageHandler.go:550 (the time is over or the client gone). -/
  | restore (i : Nat)
  /-- manageHandler.go:551, core/debug.go:106-113 `GetTraceContexts`. -/
  | collect (i : Nat)
  /-- server/motanserver.go:227 request `t` asks the policy. -/
  | ask (t rid : Nat) (e : Ext) (n : Nat)
  /-- core/debug.go:85-88 `once.Do` and reading the holder. -/
  | load (t : Nat)
  /-- core/debug.go:49-65 `newTrace`. -/
  | add (t : Nat)
  /-- The program sets the policy. -/
  | set (p : Policy)

/-- One step; none: it cannot happen now. `max` is `MaxTraceSize` (core/debug.go:15). -/
def step (max : Nat) (s : St) : Op → Option St
  | .start i c =>
    match AMap.load s.tracers i with
    | none => some { s with tracers := AMap.store s.tracers i (.waiting s.policy), policy := .custom c }
    | some _ => none
  | .restore i =>
    match AMap.load s.tracers i with
    | some (.waiting old) => some { s with policy := old, tracers := AMap.store s.tracers i .restored }
    | _ => none
  | .collect i =>
    match AMap.load s.tracers i with
    | some .restored => some { s with
        tracers := AMap.erase s.tracers i
        holders := s.holders ++ [[]]
        taken := s.taken ++ [s.holders.getLast?.getD []] }
    | _ => none
  | .ask t rid e n =>
    match AMap.load s.calls t with
    | none => some (if s.policy.wants e n then { s with calls := AMap.store s.calls t (.asked rid) } else s)
    | some _ => none
  | .load t =>
    match AMap.load s.calls t with
    | some (.asked rid) =>
      if s.once then some { s with calls := AMap.store s.calls t (.holds rid (s.holders.length - 1)) }
      else some { s with once := true, holders := s.holders ++ [[]], calls := AMap.store s.calls t (.holds rid s.holders.length) }
    | _ => none
  | .add t =>
    match AMap.load s.calls t with
    | some (.holds rid h) =>
      let tcs := s.holders[h]?.getD []
      if tcs.length ≤ max then
        let c : Ctx := (s.made.length, rid)
        some { s with calls := AMap.erase s.calls t, holders := s.holders.set h (tcs ++ [c]), made := s.made ++ [c] }
      else some { s with calls := AMap.erase s.calls t }
    | _ => none
  | .set p => some { s with policy := p }

/-- A schedule, oldest first. -/
def play (max : Nat) (s : St) : List Op → Option St
  | [] => some s
  | o :: os => (step max s o).bind fun s => play max s os

/-! ## The spans of a context -/

/-- core/debug.go:76-81 `Span`; times in nanoseconds (the arithmetic on `int64` is taken without overflow). -/
structure Span where
  name : Bytes
  addr : Bytes
  time : Int
  duration : Int := 0
deriving DecidableEq

/-- manageHandler.go:571-592 `processReqSpan`: `m` are the last times by address, `last` that of the spans without one. -/
def reqSpans (m : AMap Bytes Int) (last : Int) : List Span → List Span
  | [] => []
  | x :: xs =>
    if x.addr = [] then
      { x with duration := if last > 0 then x.time - last else 0 } :: reqSpans m x.time xs
    else
      { x with duration :=
          match AMap.load m x.addr with
          | some t => x.time - t
          | none => if last > 0 then x.time - last else 0 } :: reqSpans (AMap.store m x.addr x.time) last xs

/-- manageHandler.go:594-604 `processResSpan`. -/
def resSpans (last : Int) : List Span → List Span
  | [] => []
  | x :: xs => { x with duration := if last > 0 then x.time - last else 0 } :: resSpans x.time xs

/-- The times `formatTc` adds. -/
structure Times where
  request : Int
  response : Int
  remote : Int
  total : Int
deriving DecidableEq

/-- A context as it is printed: the spans with durations and the times, if there are any. -/
structure Printed where
  req : List Span
  res : List Span
  times : Option Times
deriving DecidableEq

/-- manageHandler.go:558-569 `formatTc` before the JSON encoding. -/
def formatTc (req res : List Span) : Printed :=
  { req := reqSpans [] 0 req
    res := resSpans 0 res
    times :=
      match req.head?, req.getLast?, res.head?, res.getLast? with
      | some q0, some q1, some s0, some s1 =>
        some { request := q1.time - q0.time, response := s1.time - s0.time, remote := s0.time - q1.time,
               total := s1.time - q0.time }
      | _, _, _, _ => none }

end Motan.Trace
