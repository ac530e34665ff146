import Verif.Basic.Bytes

/-!
# Commands to the agent (agent.go)

The agent subscribes to the commands of the registry it is registered with and hands each new one to the registries of all its
clusters, unless command handlers of the embedding program take it.
-/

namespace Motan.AgentCommand

/-- What a handler does with a command: `CanServe` says no, or it serves and `Serve` says which command is now in force, or one
of the two panics. -/
inductive Answer
  | pass
  | serve (now : Bytes)
  | panic
deriving DecidableEq

/-- agent.go:93-96 `CommandHandler`: its answer to a command of a registry. (A handler with a state of its own is left out.) -/
abbrev Handler := Bytes → Bytes → Answer

/-- A registry of a cluster: its name, whether it takes commands (`CommandNotifyListener`), and whether taking this command
panics. -/
structure Sink where
  name : Nat
  listens : Bool := true
  panics : Bytes → Bytes → Bool := fun _ _ => false

/-- What one notification leaves: the command in force, which handlers served (with the command each was given), and which
registries were told what. -/
structure Outcome where
  current : Bytes
  served : List Bytes := []
  told : List (Nat × Bytes × Bytes) := []
deriving DecidableEq

/-- agent.go:1134-1139: the handlers in order: the command afterwards, what was served, whether one panicked. -/
def handle (url : Bytes) : List Handler → Bytes → Bytes × List Bytes × Bool
  | [], info => (info, [], false)
  | h :: hs, info =>
    match h url info with
    | .pass => handle url hs info
    | .serve now =>
      let (i, l, p) := handle url hs now
      (i, info :: l, p)
    | .panic => (info, [], true)

/-- agent.go:1146-1154: the registries of all clusters, in the order met; a panic (recovered in line 1127) ends the loop. -/
def tell (url info : Bytes) : List Sink → List (Nat × Bytes × Bytes)
  | [] => []
  | k :: ks =>
    if k.listens then
      if k.panics url info then [(k.name, url, info)] else (k.name, url, info) :: tell url info ks
    else tell url info ks

/-- agent.go:1119-1155 `NotifyCommand`. The deferred function stores the variable `commandInfo`, which handlers may have
changed, also after a panic. -/
def notify (hs : List Handler) (ks : List Sink) (current url info : Bytes) : Outcome :=
  if info = current then { current := current }
  else
    let (i, l, p) := handle url hs info
    if p then { current := i, served := l }
    else if l ≠ [] then { current := i, served := l }
    else { current := i, told := tell url i ks }

/-- Notifications one after another: the command in force and all that was told. The start is agent.go:702 (the empty
command). -/
def notifyAll (hs : List Handler) (ks : List Sink) (url : Bytes) : Bytes → List Bytes → Bytes × List (Nat × Bytes × Bytes)
  | cur, [] => (cur, [])
  | cur, i :: is =>
    let o := notify hs ks cur url i
    let (c, t) := notifyAll hs ks url o.current is
    (c, o.told ++ t)

/-- agent.go:702-705, with the notifications that arrive between the reading of the first command and its delivery, and later
ones: the first command is read after the subscription and delivered after what came in between. -/
def subscribe (found : Bytes) (between later : List Bytes) : List Bytes := between ++ [found] ++ later

end Motan.AgentCommand
