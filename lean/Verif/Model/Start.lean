import Verif.Model.Reload

/-!
# The start of the agent's clusters, and the table by which they are told things (agent.go)

At the start a goroutine for every configured reference builds its cluster. The agent waits for all of them, but not
longer than a given time. `Model/Reload.lean` models the table that requests are routed by (`serviceMap`). Here the
second table (`clusterMap`) is added: commands for all clusters, filters of servers and the information pages go by it.
-/

namespace Motan.Start

open Motan.Url Motan.Reload Motan.Routing

/-- agent.go:1047-1053 `getClusterKey`, of a reference (agent.go:522 and 621). -/
def clusterKey (u : URL) : Bytes :=
  u.group ++ b!"_" ++ getStringParamsWithDefault u b!"version" b!"1.0" ++ b!"_" ++
    (if u.protocol = b!"cedrus" then b!"motan2" else u.protocol) ++ b!"_" ++ u.path

/-- Where the goroutine of a reference is (agent.go:581-584, 600-625): it builds the cluster; it has put it into
`serviceMap` and is about to put it into `clusterMap` under a key; it has ended; it has ended by a panic. -/
inductive Phase
  | building
  | listed (key : Bytes) (cluster : Nat)
  | done
  | failed
deriving DecidableEq, Repr

/-- The goroutine of a reference. -/
structure Task where
  url : URL
  phase : Phase := .building

/-- The phases in which the goroutine has ended. (`wg.Done` is deferred first, so that it runs after a panic too,
agent.go:582.) -/
def Task.ended (t : Task) : Bool :=
  match t.phase with
  | .done | .failed => true
  | _ => false

/-- The `select` at agent.go:591-597: it waits; the time is over; all clusters have been built. -/
inductive Main
  | waiting | timeout | complete
deriving DecidableEq, Repr

/-- The goroutine at agent.go:587-590: it waits for the others; it sends; it has ended. The channel has no buffer. -/
inductive Waiter
  | waiting | sending | ended
deriving DecidableEq, Repr

/-- The state: what `Model/Reload.lean` has, `clusterMap`, and the map that a reload under way makes (agent.go:504). -/
structure St where
  core : Reload.St := {}
  clusterMap : AMap Bytes Nat := []
  newMap : AMap Bytes Nat := []
  tasks : List Task := []
  main : Main := .waiting
  waiter : Waiter := .waiting

/-- What may happen. -/
inductive Op
  /-- the cluster of a reference is built and put into `serviceMap` -/
  | build (i : Nat)
  /-- building it panics -/
  | crash (i : Nat)
  /-- it is put into `clusterMap` -/
  | store (i : Nat)
  /-- the time is over -/
  | timer
  /-- `wg.Wait` returns -/
  | wait
  /-- the channel passes on that all have ended -/
  | join
  /-- a reload: it begins, goes on by a reference, ends -/
  | begin (ids : List Bytes) (refs : List URL)
  | next
  | swap

/-- agent.go:600-620: `NewCluster` and the append under the lock of `serviceMap`. (What happens before the append is
seen by nobody else.) -/
def build (E : Env) (s : St) (i : Nat) : St :=
  match s.tasks[i]? with
  | some ⟨u, .building⟩ =>
    let (core, v) := initCluster E s.core u
    { s with core := core, tasks := s.tasks.set i ⟨u, .listed (clusterKey v) s.core.next⟩ }
  | _ => s

/-- agent.go:582-583: `HandlePanic` ends the panic of this goroutine. -/
def crash (s : St) (i : Nat) : St :=
  match s.tasks[i]? with
  | some ⟨u, .building⟩ => { s with tasks := s.tasks.set i ⟨u, .failed⟩ }
  | _ => s

/-- agent.go:621-624: `clsLock` is free, that is no reload is under way. -/
def store (s : St) (i : Nat) : St :=
  match s.tasks[i]?, s.core.pending with
  | some ⟨u, .listed k c⟩, none =>
    { s with clusterMap := AMap.store s.clusterMap k c, tasks := s.tasks.set i ⟨u, .done⟩ }
  | _, _ => s

/-- agent.go:497-515. -/
def begin (s : St) (ids : List Bytes) (refs : List URL) : St :=
  match s.core.pending with
  | some _ => s
  | none => { s with core := Reload.begin s.core ids refs, newMap := [] }

/-- agent.go:516-556 for the next reference; the entry of `clusterMap` is made at line 548, under the key of the
reference as it was before its cluster was built. -/
def next (E : Env) (s : St) : St :=
  match s.core.pending with
  | some { todo := (_, u) :: _, .. } =>
    let c := match lookup s.core.table (fill E u) with
      | some i => i.cluster
      | none => s.core.next
    { s with core := Reload.next E s.core, newMap := AMap.store s.newMap (clusterKey (fill E u)) c }
  | _ => s

/-- agent.go:558-570. (The two maps are swapped one after the other; what sees the one and not the other is left out.) -/
def swap (s : St) : St :=
  match s.core.pending with
  | some { todo := [], .. } => { s with core := Reload.swap s.core, clusterMap := s.newMap }
  | _ => s

/-- One action; one that cannot happen leaves the state as it is. -/
def step (E : Env) (s : St) : Op → St
  | .build i => build E s i
  | .crash i => crash s i
  | .store i => store s i
  | .timer => if s.main = .waiting then { s with main := .timeout } else s
  | .wait => if s.waiter = .waiting ∧ s.tasks.all Task.ended = true then { s with waiter := .sending } else s
  | .join => if s.waiter = .sending ∧ s.main = .waiting then { s with waiter := .ended, main := .complete } else s
  | .begin ids refs => begin s ids refs
  | .next => next E s
  | .swap => swap s

/-- A history. -/
def run (E : Env) (s : St) (os : List Op) : St := os.foldl (step E) s

/-- agent.go:573-585: the references of the configuration, in the order of their map. -/
def launch (s : St) (refs : List URL) : St := { s with tasks := refs.map fun u => ⟨u, .building⟩, main := .waiting, waiter := .waiting }

/-- A reload that nothing interrupts. -/
def reload (E : Env) (s : St) (ids : List Bytes) (refs : List URL) : St :=
  let s := begin s ids refs
  let n := (s.core.pending.map fun p => p.todo.length).getD 0
  swap ((List.replicate n ()).foldl (fun s _ => next E s) s)

/-- The clusters that are told a command for the agent (agent.go:1146-1154) or filters of servers
(manageHandler.go:959-968). -/
def told (s : St) : List Nat := s.clusterMap.map (·.2)

/-- manageHandler.go:236-247 `getReferService`: the entries of the page. -/
def referPage (avail : Nat → Bool) (s : St) : List (Bytes × Bool) := s.clusterMap.map fun p => (p.1, avail p.2)

end Motan.Start
