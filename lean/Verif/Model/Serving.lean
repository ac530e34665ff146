import Verif.Basic.AMap
import Verif.Basic.Bytes

/-!
# Serving status and registries (agent.go, server.go, manageHandler.go: StatusHandler)

The agent (or a server) tells its registries to list or to withdraw all services, keeps the status that says which, and
repeats what failed. Registries that tell a status for each service (`RegistryStatusManager`) are not part of the
repository; what is taken for granted of them is `command` and `Registry` below, after the one in agent_test.go:900-1010,
but that a command for one service is about that service alone. Range orders, results of commands and the schedule are
given from outside. Logs are left out.
-/

namespace Motan.Serving

/-- core/constants.go:87-91. -/
inductive Stat
  | notRegister | registered | registerFailed | unregistered | unregisterFailed
deriving DecidableEq

/-- core/motan.go:225-231 as far as it is used, and whether the service is listed where clients look. -/
structure Entry where
  stat : Stat := .notRegister
  listed : Bool := false
  check : Bool := false
deriving DecidableEq

/-- The services of a registry by their identities. -/
abbrev Registry := AMap Bytes Entry

/-- What comes of a command; after a failure the service may be listed or not. -/
inductive Outcome
  | ok
  | failed (listed : Bool)
deriving DecidableEq

/-- What a registry does with `Available` (true) and `Unavailable` (false) for a service (core/motan.go:198-203). -/
def command (b : Bool) (o : Outcome) (e : Entry) : Entry :=
  match b, o with
  | true, .ok => { e with stat := .registered, listed := true }
  | true, .failed l => { e with stat := .registerFailed, listed := l }
  | false, .ok => { e with stat := .unregistered, listed := false }
  | false, .failed l => { e with stat := .unregisterFailed, listed := l }

/-- Where a round of the failback (agent.go:244-261, server.go:281-297) is. It holds `registryLock`. -/
structure Failback where
  /-- the registries the range has yet to come to -/
  registries : List Nat
  /-- the registry it is at -/
  current : Nat := 0
  /-- what is left of its `statusMap` -/
  entries : List (Bytes × Stat) := []
  /-- agent.go:249 `curStatus` for the first of these, once loaded -/
  seen : Option Nat := none
deriving DecidableEq

/-- agent.go:47-80 as far as it is used: `status`, `serviceRegistries`, and `registryLock` (held exactly during a round of
the failback; the other holders are modelled as one step). `pending`: calls that have changed the services and have yet
to change the status. -/
structure St where
  status : Nat := 503
  regs : List Registry := []
  pending : List Bool := []
  failback : Option Failback := none
deriving DecidableEq

/-- The status that stands for listed services (net/http). -/
def code (b : Bool) : Nat := if b then 200 else 503

inductive Op
  /-- agent.go:957-963, server.go:186-192: a registry comes in, with services that were registered with it -/
  | addRegistry (services : List (Bytes × Bool))
  /-- `Register` of a service with registry `r` (server/server.go:96), with its `check` parameter -/
  | register (r : Nat) (k : Bytes) (check : Bool)
  /-- `UnRegister` (server/server.go:119) -/
  | unregister (r : Nat) (k : Bytes)
  /-- agent.go:897-913, server.go:248-262 up to the unlocking -/
  | switchAll (b : Bool) (o : Nat → Bytes → Outcome)
  /-- agent.go:174, 180 and manageHandler.go:61, 66: the i-th pending call changes the status -/
  | store (i : Nat)
  /-- agent.go:244: a round begins; the registries in the order of the range -/
  | fbStart (order : List Nat)
  /-- agent.go:246-247 for the next registry, with the order of its status map, or the end of the round (261) -/
  | fbNext (entries : List (Bytes × Stat))
  /-- agent.go:249 -/
  | fbRead
  /-- agent.go:250-256 -/
  | fbAct (o : Outcome)

/-- agent.go:247: the status of each service. -/
def statusMap (r : Registry) : List (Bytes × Stat) := r.map fun x => (x.1, x.2.stat)

/-- A command for one service; a service that is not there is left alone. -/
def commandOne (r : Registry) (k : Bytes) (b : Bool) (o : Outcome) : Registry :=
  match AMap.load r k with
  | none => r
  | some e => AMap.store r k (command b o e)

/-- agent.go:250-256: what the failback does for a service with this status: the command it gives, if any. -/
def repair (cur : Nat) (s : Stat) : Option Bool :=
  if cur = 200 ∧ s = .registerFailed then some true
  else if cur = 503 ∧ s = .unregisterFailed then some false
  else none

/-- One step; none: the step is not possible. `server`: server.go:248-262, where the status is changed before the lock is
given up (server.go:252, 260); else the agent. -/
def step (server : Bool) (s : St) : Op → Option St
  | .addRegistry ks => some { s with regs := s.regs ++ [AMap.storeAll [] (ks.map fun k => (k.1, { check := k.2 }))] }
  | .register r k c =>
    match s.regs[r]? with
    | none => none
    | some g => some { s with regs := s.regs.set r (AMap.store g k { check := c }) }
  | .unregister r k =>
    match s.regs[r]? with
    | none => none
    | some g => some { s with regs := s.regs.set r (AMap.erase g k) }
  | .switchAll b o =>
    if s.failback.isSome then none
    else
      let regs := s.regs.mapIdx fun r g => g.map fun x => (x.1, command b (o r x.1) x.2)
      if server then some { s with regs := regs, status := code b }
      else some { s with regs := regs, pending := s.pending ++ [b] }
  | .store i =>
    match s.pending[i]? with
    | none => none
    | some b => some { s with status := code b, pending := s.pending.eraseIdx i }
  | .fbStart order =>
    if s.failback.isNone ∧ order.isPerm (List.range s.regs.length) then some { s with failback := some { registries := order } } else none
  | .fbNext entries =>
    match s.failback with
    | none => none
    | some f =>
      if f.entries ≠ [] then none
      else
        match f.registries with
        | [] => some { s with failback := none }
        | r :: rs =>
          if entries.isPerm (statusMap (s.regs.getD r [])) then
            some { s with failback := some { registries := rs, current := r, entries := entries } }
          else none
  | .fbRead =>
    match s.failback with
    | none => none
    | some f => if f.entries = [] then none else some { s with failback := some { f with seen := some s.status } }
  | .fbAct o =>
    match s.failback with
    | none => none
    | some f =>
      match f.entries, f.seen with
      | (k, st) :: rest, some cur =>
        let regs := match repair cur st with
          | none => s.regs
          | some b => s.regs.modify f.current fun g => commandOne g k b o
        some { s with regs := regs, failback := some { f with entries := rest, seen := none } }
      | _, _ => none

/-- A schedule. -/
def play (server : Bool) (s : St) : List Op → Option St
  | [] => some s
  | op :: ops => (step server s op).bind fun s => play server s ops

/-! ## The page -/

/-- manageHandler.go:100-104 and 117-128: the summary, over the services in the order of the ranges. -/
def summary (status : Nat) (entries : List Entry) : Stat :=
  entries.foldl (fun res e =>
    if e.check then
      if status = 200 then
        if e.stat = .registerFailed then e.stat
        else if e.stat = .notRegister ∧ res ≠ .registerFailed then e.stat
        else res
      else
        if e.stat = .unregisterFailed then e.stat
        else if e.stat = .notRegister ∧ res ≠ .unregisterFailed then e.stat
        else res
    else res) (if status = 200 then .registered else .unregistered)

end Motan.Serving
