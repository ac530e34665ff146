import Verif.Model.Serving
import Verif.Model.Ext

/-!
# The failback and the status page over registries of any type (agent.go:239-278, server.go:264-298, manageHandler.go:81-138)

Serving.lean has the failback over registries that tell a status for each service. Here registries are of the types the
extension factory makes, and the type decides whether the failback and the page learn anything. A round is one step (the
interleavings are those of Serving.lean).
-/

namespace Motan.Told

open Motan.Serving

/-- The types of registries in the repository (registry/*.go). -/
def shipped : List Ext.Ctor := [b!"DirectRegistry", b!"LocalRegistry", b!"ZkRegistry", b!"ConsulRegistry", b!"MeshRegistry"]

/-- agent.go:246, 271 and server.go:269, 283: the assertion that a registry is a `RegistryStatusManager` (core/motan.go:221-223).
None of the types in the repository has a method `GetRegistryStatus`; `own` are the types of the application that do.
(`CommandRegistryWrapper`, cluster/command.go:193-198, has one, but is made by clusters, not by the factory.) -/
def tells (own : List Ext.Ctor) (c : Ext.Ctor) : Bool := c ∈ own ∧ c ∉ shipped

/-- A registry of the agent or server: its type and its services. -/
structure Reg where
  ctor : Ext.Ctor
  services : Registry
deriving DecidableEq

/-- agent.go:248-256, server.go:285-293: one service. -/
def repeatOne (status : Nat) (o : Bytes → Outcome) (g : Registry) (x : Bytes × Stat) : Registry :=
  match repair status x.2 with
  | some b => commandOne g x.1 b (o x.1)
  | none => g

/-- agent.go:246-258, server.go:283-294: one registry. -/
def roundOne (own : List Ext.Ctor) (status : Nat) (o : Bytes → Outcome) (r : Reg) : Reg :=
  if tells own r.ctor then { r with services := (statusMap r.services).foldl (repeatOne status o) r.services } else r

/-- agent.go:897-913, server.go:248-262: all services of one registry are switched. -/
def switchOne (b : Bool) (o : Bytes → Outcome) (r : Reg) : Reg :=
  { r with services := r.services.map fun x => (x.1, command b (o x.1) x.2) }

structure St where
  status : Nat := 503
  regs : List Reg
deriving DecidableEq

inductive Op
  /-- all services are switched, and the status with them -/
  | switchAll (b : Bool) (o : Nat → Bytes → Outcome)
  /-- a round of the failback -/
  | round (o : Nat → Bytes → Outcome)

def step (own : List Ext.Ctor) (s : St) : Op → St
  | .switchAll b o => { status := code b, regs := s.regs.mapIdx fun i r => switchOne b (o i) r }
  | .round o => { s with regs := s.regs.mapIdx fun i r => roundOne own s.status (o i) r }

def play (own : List Ext.Ctor) (s : St) (ops : List Op) : St := ops.foldl (step own) s

/-- agent.go:266-278 `GetRegistryStatus`: what is told of the services. -/
def told (own : List Ext.Ctor) (regs : List Reg) : List Entry :=
  regs.flatMap fun r => if tells own r.ctor then r.services.map (·.2) else []

/-- manageHandler.go:81-138: the summary and the list of `/registry/status`. -/
def page (own : List Ext.Ctor) (s : St) : Stat × List Entry := (summary s.status (told own s.regs), told own s.regs)

end Motan.Told
