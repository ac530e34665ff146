import Verif.Basic.Bytes

/-!
# The zookeeper registry: subscriptions and watches

registry/zkRegistry.go 81-95, 115-135, 178-394: listeners subscribe to the servers of a service (the children of the
service's `server` node) or to its commands (the data of a command node). A goroutine per watch reads again when the
watch fires and notifies the listeners. The callers (cluster/motanCluster.go:330-333, cluster/command.go:214-247)
subscribe, then discover, then hand the discovered list to the same listener.

Zookeeper and its client library are the environment. A watch is set together with a read, and fires once, for the
first change after that read: its channel then holds one event and is closed. When the session expires, the watches
that are set get the event `EventNotWatching`. While the connection is only interrupted, watches are kept.

What is not modelled: the conversion of nodes to URLs (see Model/Zk), the client node that a subscriber creates, the
snapshot file, and the unsynchronised accesses of the goroutines to the maps, which are taken to be atomic.
-/

namespace Motan.Watch

/-- The path of a service's `server` node, or of a command node. -/
abbrev Path := Bytes

/-- A listener: a cluster, or the command wrapper of a cluster. -/
abbrev Lis := Nat

/-- What is watched: the names of the children of a `server` node; for a command node, nothing if it has no data, else
the data. (Both are passed on only if they are not empty, zkRegistry.go:230, 348.) -/
abbrev Content := List Bytes

/-- A map with one entry replaced. -/
def upd {α β : Type} [DecidableEq α] (f : α → β) (a : α) (b : β) : α → β := fun x => if x = a then b else f x

/-- The events of a watch: the children (or the data) have changed, the node was deleted, or the session expired. -/
inductive Ev
  | changed
  | deleted
  | notWatching
deriving DecidableEq

/-- The channel of a watch: the watch is set; it has fired and the event is to be received; or the event was received
and the channel is closed. (A closed channel yields a zero event at once: zkRegistry.go:224-239 ignore it and loop.) -/
inductive Chan
  | armed
  | fired (e : Ev)
  | spent
deriving DecidableEq

/-- Where a watching goroutine is, zkRegistry.go:220-251 and 340-370. -/
inductive Pc
  /-- the select, 223, 343 -/
  | wait
  /-- `EventNodeChildrenChanged` was received: before `ChildrenW`, 226 (`GetW`, 346) -/
  | reading
  /-- in the range over the listeners, 231, 350; `gen`: which map is ranged over; `told`: the listeners met so far -/
  | telling (gen : Nat) (c : Content) (told : List Lis)
  /-- in `lis.Notify`, 232 (`NotifyCommand`, 351) -/
  | calling (gen : Nat) (c : Content) (told : List Lis) (l : Lis)
  /-- false was received: before `close`, 245, 364 -/
  | stopping
  /-- before `delete`, 246, 365 -/
  | closing
  | done
deriving DecidableEq

/-- A watching goroutine: `ch`, `switcherChan` (channels are numbered) and where it is. -/
structure Gor where
  path : Path
  sw : Nat
  watch : Chan
  pc : Pc
deriving DecidableEq

/-- The registry, zkRegistry.go:35-47, its goroutines, zookeeper and the callers. -/
structure St where
  available : Bool := true
  /-- the session has expired and the watches were not set again yet -/
  lost : Bool := false
  /-- a session was obtained, `recoverSubscribe` is to be run, 88-92 -/
  recovering : Bool := false
  /-- zookeeper: the nodes and their contents -/
  tree : Path → Option Content := fun _ => none
  /-- `subscribedServiceMap`, `subscribedCommandMap`: the listeners; the inner maps are numbered -/
  subs : Path → Option (Nat × List Lis) := fun _ => none
  nextGen : Nat := 0
  /-- `switcherMap` -/
  switcher : Path → Option Nat := fun _ => none
  closed : Nat → Bool := fun _ => false
  nextCh : Nat := 0
  gor : Nat → Option Gor := fun _ => none
  nextG : Nat := 0
  /-- `subscribeLock` is held by an `Unsubscribe` that is sending false, 266, 390: the path, the channel, the listener.
  (All other holders are modelled as one step.) -/
  lock : Option (Path × Nat × Lis) := none
  /-- a listener's own lock is held: cluster/motanCluster.go:165, 283 `notifyLock` -/
  held : Lis → Bool := fun _ => false
  /-- `Discover` has returned this and the caller has not passed it on yet, cluster/motanCluster.go:332-333 -/
  found : Path → Lis → Option Content := fun _ _ => none
  /-- what a listener was last notified of -/
  seen : Path → Lis → Option Content := fun _ _ => none

/-- What can happen next. `ok`: the calls of zookeeper succeed. -/
inductive Op
  | subscribe (p : Path) (l : Lis) (ok : Bool)
  | unsubscribe (p : Path) (l : Lis)
  | discover (p : Path) (l : Lis)
  | deliver (p : Path) (l : Lis)
  /-- `recoverSubscribe`: the listeners in the order of the ranges -/
  | recover (order : List (Path × Lis × Bool))
  | disconnect
  | expire
  | reconnect
  /-- somebody changes the servers of a service, or its command -/
  | write (p : Path) (c : Content)
  /-- somebody deletes the node -/
  | remove (p : Path)
  | hold (l : Lis)
  | release (l : Lis)
  /-- goroutine `i` receives from `ch`, 224-242 -/
  | take (i : Nat)
  | read (i : Nat) (ok : Bool)
  | pick (i : Nat) (l : Lis)
  /-- `ok`: the call returns; it may panic, 232 and Model/Zk `nodeURL` -/
  | tell (i : Nat) (ok : Bool)
  | endTell (i : Nat)
  | recv (i : Nat)
  | recvClosed (i : Nat)
  | close (i : Nat)
  | forget (i : Nat)
deriving DecidableEq

/-- A watch of `p` fires. -/
def fire (p : Path) (e : Ev) (g : Gor) : Gor :=
  if g.path = p ∧ g.watch = .armed then { g with watch := .fired e } else g

/-- The watches of `p` fire. -/
def fireAll (s : St) (p : Path) (e : Ev) : Nat → Option Gor := fun i => (s.gor i).map (fire p e)

/-- All watches get `EventNotWatching`. -/
def expireOne (g : Gor) : Gor := if g.watch = .armed then { g with watch := .fired .notWatching } else g

/-- zkRegistry.go:220, 340: `go func()`. -/
def start (s : St) (p : Path) (w : Nat) : St :=
  { s with gor := upd s.gor s.nextG (some ⟨p, w, .armed, .wait⟩), nextG := s.nextG + 1 }

/-- zkRegistry.go:209-220, 334-340: the channel of the path is used again if there is one. -/
def watchOn (s : St) (p : Path) : St :=
  match s.switcher p with
  | some w => start s p w
  | none => start { s with switcher := upd s.switcher p (some s.nextCh), nextCh := s.nextCh + 1 } p s.nextCh

/-- zkRegistry.go:198-252 `doSubscribe` and 314-371 `doSubscribeCommand`: the node of a command is created if it does
not exist. `ok`: the calls succeed; otherwise the error is logged. (If a node was created and a later call failed, that
is a `write` by somebody.) -/
def doSubscribe (cmd : Path → Bool) (s : St) (p : Path) (ok : Bool) : St :=
  if ok then
    match s.tree p with
    | some _ => watchOn s p
    | none => if cmd p then watchOn { s with tree := upd s.tree p (some []) } p else s
  else s

/-- zkRegistry.go:179-196 `Subscribe`, 290-312 `SubscribeCommand`. -/
def subscribe (cmd : Path → Bool) (s : St) (p : Path) (l : Lis) (ok : Bool) : St :=
  match s.subs p with
  | some (g, ls) => { s with subs := upd s.subs p (some (g, l :: ls.filter (· ≠ l))) }
  | none => doSubscribe cmd { s with subs := upd s.subs p (some (s.nextGen, [l])), nextGen := s.nextGen + 1 } p ok

/-- zkRegistry.go:255-270 `Unsubscribe`, 374-394 `UnSubscribeCommand`: the last listener waits until a goroutine
receives false. A send on a closed channel panics; the lock is released by the defer. -/
def unsubscribe (s : St) (p : Path) (l : Lis) : St :=
  match s.subs p with
  | none => s
  | some (g, ls) =>
    match s.switcher p with
    | some w =>
      if ls.filter (· ≠ l) = [] ∧ s.closed w = false then
        { s with subs := upd s.subs p (some (g, ls.filter (· ≠ l))), lock := some (p, w, l) }
      else { s with subs := upd s.subs p (some (g, ls.filter (· ≠ l))) }
    | none => { s with subs := upd s.subs p (some (g, ls.filter (· ≠ l))) }

/-- The goroutine `i`, changed. -/
def setG (s : St) (i : Nat) (g : Gor) : St := { s with gor := upd s.gor i (some g) }

/-- zkRegistry.go:224-242, 344-361: an event is received at the select. -/
def takeEv (g : Gor) : Ev → Gor
  | .changed => { g with watch := .spent, pc := .reading }
  | .deleted => { g with watch := .spent }
  | .notWatching => { g with watch := .spent, pc := .done }

/-- zkRegistry.go:226-238, 346-357: the content is read and the watch set again; after an error the goroutine goes on
with the old channel. Nothing is passed on if the content is empty or there is no subscription. -/
def readOn (s : St) (g : Gor) (ok : Bool) : Gor :=
  if ok then
    match s.tree g.path with
    | none => { g with pc := .wait }
    | some c =>
      match s.subs g.path with
      | some (gen, _) => if c = [] then { g with watch := .armed, pc := .wait } else { g with watch := .armed, pc := .telling gen c [] }
      | none => { g with watch := .armed, pc := .wait }
  else { g with pc := .wait }

/-- The listeners in the map numbered `gen`: a map that was replaced is empty. -/
def members (s : St) (p : Path) (gen : Nat) : List Lis :=
  match s.subs p with
  | some (g, ls) => if g = gen then ls else []
  | none => []

/-- cluster/motanCluster.go:215-221, cluster/command.go 247: an empty list from `Discover` is ignored. -/
def delivered (s : St) (p : Path) (l : Lis) (c : Content) : St :=
  { s with
    found := upd s.found p (upd (s.found p) l none)
    seen := if c = [] then s.seen else upd s.seen p (upd (s.seen p) l (some c)) }

/-- One step; none: the operation cannot happen now. -/
def step (cmd : Path → Bool) (s : St) : Op → Option St
  | .subscribe p l ok =>
    if s.available then if s.lock = none then some (subscribe cmd s p l ok) else none else some s
  | .unsubscribe p l =>
    if s.available then if s.lock = none then some (unsubscribe s p l) else none else some s
  | .discover p l =>
    -- zkRegistry.go:273-287 `Discover`, 397-420 `DiscoverCommand` (which does not take the lock)
    if s.available then
      if s.lock = none ∨ cmd p then some { s with found := upd s.found p (upd (s.found p) l (some ((s.tree p).getD []))) } else none
    else some { s with found := upd s.found p (upd (s.found p) l (some [])) }
  | .deliver p l =>
    match s.found p l with
    | some c => if s.held l then none else some (delivered s p l c)
    | none => none
  | .recover order =>
    if s.recovering ∧ s.lock = none then
      some { order.foldl (fun t o => doSubscribe cmd t o.1 o.2.2) s with recovering := false, lost := false }
    else none
  | .disconnect => some { s with available := false }
  | .expire =>
    if s.available then none else some { s with lost := true, gor := fun i => (s.gor i).map expireOne }
  | .reconnect => if s.available then none else some { s with available := true, recovering := true }
  | .write p c => some { s with tree := upd s.tree p (some c), gor := fireAll s p .changed }
  | .remove p => some { s with tree := upd s.tree p none, gor := fireAll s p .deleted }
  | .hold l => if s.held l then none else some { s with held := upd s.held l true }
  | .release l =>
    -- cluster/motanCluster.go:281-299 `Destroy` holds the lock until `Unsubscribe` has returned
    if s.held l = true ∧ s.lock.map (·.2.2) ≠ some l then some { s with held := upd s.held l false } else none
  | .take i =>
    match s.gor i with
    | some g =>
      match g.pc, g.watch with
      | .wait, .fired e => some (setG s i (takeEv g e))
      | _, _ => none
    | none => none
  | .read i ok =>
    match s.gor i with
    | some g => if g.pc = .reading then some (setG s i (readOn s g ok)) else none
    | none => none
  | .pick i l =>
    match s.gor i with
    | some g =>
      match g.pc with
      | .telling gen c told =>
        if l ∈ members s g.path gen ∧ l ∉ told then some (setG s i { g with pc := .calling gen c told l }) else none
      | _ => none
    | none => none
  | .tell i ok =>
    match s.gor i with
    | some g =>
      match g.pc with
      | .calling gen c told l =>
        if ok then
          if s.held l then none
          else
            some (setG { s with seen := upd s.seen g.path (upd (s.seen g.path) l (some c)) } i
              { g with pc := .telling gen c (l :: told) })
        else some (setG s i { g with pc := .done })
      | _ => none
    | none => none
  | .endTell i =>
    match s.gor i with
    | some g =>
      match g.pc with
      | .telling gen _ told =>
        if ∀ l ∈ members s g.path gen, l ∈ told then some (setG s i { g with pc := .wait }) else none
      | _ => none
    | none => none
  | .recv i =>
    -- 243-244, 362-363 together with 266-267, 390-391
    match s.gor i, s.lock with
    | some g, some (p, w, _) =>
      if g.pc = .wait ∧ g.sw = w then
        some (setG { s with subs := upd s.subs p none, lock := none } i { g with pc := .stopping })
      else none
    | _, _ => none
  | .recvClosed i =>
    -- a closed channel yields false; closing it again panics, 245, 364
    match s.gor i with
    | some g => if g.pc = .wait ∧ s.closed g.sw = true then some (setG s i { g with pc := .done }) else none
    | none => none
  | .close i =>
    match s.gor i with
    | some g =>
      if g.pc = .stopping then
        if s.closed g.sw then some (setG s i { g with pc := .done })
        else some (setG { s with closed := upd s.closed g.sw true } i { g with pc := .closing })
      else none
    | none => none
  | .forget i =>
    match s.gor i with
    | some g =>
      if g.pc = .closing then some (setG { s with switcher := upd s.switcher g.path none } i { g with pc := .done })
      else none
    | none => none

/-- The order of an operation is one in which the maps can be ranged over: every subscribed listener is met once. -/
def Ranges (s : St) : Op → Prop
  | .recover order =>
    (order.map fun o => (o.1, o.2.1)).Nodup ∧
    ∀ p l, (∃ ok, (p, l, ok) ∈ order) ↔ ∃ g ls, s.subs p = some (g, ls) ∧ l ∈ ls
  | _ => True

/-- The histories from one state to another, in which every step meets `P`. -/
inductive Steps (cmd : Path → Bool) (P : St → Op → Prop) : St → List Op → St → Prop
  | nil (s : St) : Steps cmd P s [] s
  | snoc {s : St} {h : List Op} {t u : St} (op : Op) (hr : Steps cmd P s h t) (ho : Ranges t op) (hp : P t op)
      (hs : step cmd t op = some u) : Steps cmd P s (h ++ [op]) u

end Motan.Watch
