/-!
# Locks: who waits for whom

The locks of clusters, command wrappers, the zookeeper registry, load balancers, the agent, dynamic configuration, http
clusters, switchers and snapshots, and the operations that hold one while taking another. What the operations do with
the data under the locks is the subject of the other models; here only the taking and releasing is kept.

`sync.Mutex` and `sync.RWMutex` are modelled as documented: writers exclude each other, a writer that has announced
itself keeps new readers out and waits for the readers that are in. (A `Mutex` is a `RWMutex` without readers.) Which of
the waiting goroutines is next is left open. All unlocks in the code are deferred or follow without a return in between,
so the holding of locks is properly nested; a panic releases the locks in the same order.

A watching goroutine of the zookeeper registry is taken as a lock as well: it is held while an event is handled, and
`switcherChan <- false` (registry/zkRegistry.go:266, 390) waits until it is free, since the goroutine then receives at
its select. (Goroutines that have ended while their channel is still in the map are the subject of Model/Watch.)

What is not modelled: calls of zookeeper, of http and of endpoints under locks (they take time, but are taken to
return), the locks of endpoints, metrics and filters (no code takes another of these locks while holding one of them),
and the initialisation of a registry under `newRegistryLock` (it takes no lock).
-/

namespace Motan.Locks

/-- The locks. Clusters, registries, paths and so on are numbered. -/
inductive Lock
  /-- dynamicConfig.go:29-31 `saveLock`, `regLock`, `subLock` -/
  | dynSave
  | dynReg
  | dynSub
  /-- agent.go:84-86 `clsLock`, `svcLock`, `registryLock` -/
  | cls
  | svc
  | agentReg
  /-- cluster/httpCluster.go:67 `lock`; 19 `clusterHolder.lock` of a service of the http cluster -/
  | http (h : Nat)
  | holder (h s : Nat)
  /-- the watching goroutine of a path, registry/zkRegistry.go:220, 340 -/
  | watch (p : Nat)
  /-- core/motan.go:759 `newRegistryLock` -/
  | newReg
  /-- server/server.go:49 `DefaultExporter.lock` -/
  | exporter (e : Nat)
  /-- cluster/command.go:45 `mux` of the wrapper of a registry for a cluster -/
  | mux (c r : Nat)
  /-- registry/zkRegistry.go:41-42 `registerLock`, `subscribeLock` -/
  | regs (r : Nat)
  | sub (r : Nat)
  /-- cluster/motanCluster.go:29 `notifyLock` -/
  | notify (c : Nat)
  /-- registry/registry.go:60 `nodeRsSnapshotLock` -/
  | snap
  /-- lb/lb.go:29 `lbmutex` -/
  | lbAll
  /-- lb/weightedEpRefresher.go:30 `mutex`, lb/weightRoundRobinLb.go:13 `mutex` of the balancer of a group of a cluster -/
  | lbRef (c g : Nat)
  | lbSel (c g : Nat)
  /-- core/motan.go:1273 `CircularRecorder.lock` of a wrapper: of commands, of notifications -/
  | cmdRec (c r : Nat)
  | ntfRec (c r : Nat)
  /-- core/switcher.go:13 `switcherLock`, 112 `listenerLock` -/
  | switchers
  | listeners (n : Nat)
  /-- core/map.go:90 `mu` of a map of the agent -/
  | cow (n : Nat)
deriving DecidableEq

/-- What an operation does with locks. -/
inductive Code
  | skip
  | seq (a b : Code)
  /-- `Lock`, the body, `Unlock` -/
  | hold (l : Lock) (body : Code)
  /-- `RLock`, the body, `RUnlock` -/
  | share (l : Lock) (body : Code)
deriving DecidableEq

/-- One after another. -/
def all : List Code → Code
  | [] => .skip
  | c :: cs => .seq c (all cs)

/-- Conditional. -/
def onlyIf (b : Bool) (c : Code) : Code := if b then c else .skip

/-! ## The functions -/

/-- registry/registry.go:173-187 `SaveSnapshot`. -/
def saveSnapshot : Code := .hold .snap .skip

/-- registry/zkRegistry.go:179-196 `Subscribe`, 290-312 `SubscribeCommand`. -/
def zkSubscribe (r : Nat) : Code := .hold (.sub r) .skip

/-- registry/zkRegistry.go:273-287 `Discover`. -/
def zkDiscover (r : Nat) : Code := .hold (.sub r) saveSnapshot

/-- A subscription that is given up: the path and whether nobody else listens to it. -/
structure Drop where
  path : Nat
  last : Bool
deriving DecidableEq

/-- registry/zkRegistry.go:255-270 `Unsubscribe`, 374-394 `UnSubscribeCommand`. -/
def zkUnsubscribe (r : Nat) (d : Drop) : Code := .hold (.sub r) (onlyIf d.last (.hold (.watch d.path) .skip))

/-- cluster/command.go:504-511 `newSubscribe`, 122-126 `subscribe`. -/
def newSubscribe (r : Nat) : Code := .seq (zkSubscribe r) (zkDiscover r)

/-- lb/weightRoundRobinLb.go:58-107 `NotifyWeightChange`: the selector is read, and it may be set. -/
def weightChange (c g : Nat) : Code := .seq (.share (.lbSel c g) .skip) (.hold (.lbSel c g) .skip)

/-- lb/weightedEpRefresher.go:50-55 `notifyWeightChange`. -/
def notifyWeight (c g : Nat) : Code := .hold (.lbRef c g) (weightChange c g)

/-- How a cluster balances: groups with weights, or one group; the balancer keeps weights of its own or not. -/
structure Lb where
  /-- the number of groups, if the command gives weights, lb/lb.go:88-119 -/
  groups : Option Nat
  weighted : Bool
deriving DecidableEq

/-- lb/lb.go:81-160 `OnRefresh`, 162-172 `onRefreshSingleGroup`, lb/weightRoundRobinLb.go:23-25: the balancers of groups
are made anew under `lbmutex`. -/
def onRefresh (c : Nat) (b : Lb) : Code :=
  match b.groups with
  | none => onlyIf b.weighted (notifyWeight c 0)
  | some n => .hold .lbAll (all ((List.range n).map fun g => onlyIf b.weighted (notifyWeight c (g + 1))))

/-- cluster/motanCluster.go:163-233 `Notify`: with `refresh`, 125-138, unless the list is empty. -/
def clusterNotify (c : Nat) (b : Option Lb) : Code :=
  .hold (.notify c) (match b with | none => .skip | some b => onRefresh c b)

/-- What happens in a wrapper that works out its list: how many groups are subscribed to for the first time, whether the
cluster is notified, and how it balances then. -/
structure Work where
  fresh : Nat
  tell : Bool
  lb : Option Lb
deriving DecidableEq

/-- cluster/command.go:284-337 `getResultWithCommand`. -/
def getResult (c r : Nat) (w : Work) : Code :=
  .hold (.mux c r) (.seq (all (List.replicate w.fresh (newSubscribe r)))
    (onlyIf w.tell (.seq (clusterNotify c w.lb) (.hold (.ntfRec c r) .skip))))

/-- What a new command changes: groups subscribed to, groups given up, and the switchers looked up. -/
structure Change where
  same : Bool
  fresh : Nat
  gone : List Drop
  switchers : Nat
deriving DecidableEq

/-- cluster/command.go:404-456 `processCommand`, 458-502 `processTcCommand`, 524-553 `processSwitcherCommand` (the
listeners of a switcher are told by another goroutine, core/switcher.go:141-150). -/
def processCommand (c r : Nat) (k : Change) : Code :=
  .seq (.hold (.cmdRec c r) .skip)
    (.hold (.mux c r) (onlyIf (!k.same)
      (.seq (all (List.replicate k.fresh (newSubscribe r)))
        (.seq (all (k.gone.map (zkUnsubscribe r)))
          (all (List.replicate k.switchers (.share .switchers .skip)))))))

/-- cluster/command.go:586-592 `NotifyCommand`. -/
def notifyCommand (c r : Nat) (k : Change) (w : Option Work) : Code :=
  .seq (processCommand c r k) (match w with | none => .skip | some w => getResult c r w)

/-- A listener of a service in a registry: the wrapper of a cluster, or the listener a wrapper has for another group; in
both cases the wrapper works out its list, cluster/command.go:594-613, 105-113. -/
structure Lis where
  cluster : Nat
  work : Option Work
deriving DecidableEq

/-- cluster/command.go:594-613 `Notify`, 105-113 `serviceListener.Notify`. -/
def lisNotify (r : Nat) (l : Lis) : Code := match l.work with | none => .skip | some w => getResult l.cluster r w

/-- The listener of a command: the wrapper of a cluster. -/
structure CmdLis where
  cluster : Nat
  change : Change
  work : Option Work
deriving DecidableEq

/-- cluster/command.go:236-247 `CommandRegistryWrapper.Discover`, 220-226 `Subscribe`, cluster/motanCluster.go:324-335:
one registry of a new cluster. -/
structure Join where
  registry : Nat
  change : Change
  work : Work
  lb : Option Lb
deriving DecidableEq

/-- cluster/motanCluster.go:319-339: `GetRegistry`, `Subscribe` (of the servers and the commands), `Discover`, `Notify`. -/
def joinRegistry (c : Nat) (j : Join) : Code :=
  all [.hold .newReg .skip, zkSubscribe j.registry, zkSubscribe j.registry, zkDiscover j.registry,
    processCommand c j.registry j.change, getResult c j.registry { j.work with tell := false }, clusterNotify c j.lb]

/-- cluster/motanCluster.go:44-54 `NewCluster`. -/
def newCluster (c : Nat) (js : List Join) : Code := all (js.map (joinRegistry c))

/-- One registry of a cluster that is destroyed: the servers and commands it listened to, and the other groups. -/
structure Leave where
  registry : Nat
  own : List Drop
  others : List Drop
deriving DecidableEq

/-- cluster/command.go:228-234 `Unsubscribe`, 257-274 `clear`. -/
def leaveRegistry (c : Nat) (v : Leave) : Code :=
  .seq (all (v.own.map (zkUnsubscribe v.registry)))
    (.hold (.mux c v.registry) (all (v.others.map (zkUnsubscribe v.registry))))

/-- cluster/motanCluster.go:281-299 `Destroy`. -/
def destroyCluster (c : Nat) (vs : List Leave) : Code := .hold (.notify c) (all (vs.map (leaveRegistry c)))

/-- cluster/motanCluster.go:376-429 `GetRuntimeInfo`, with cluster/command.go:57-70. -/
def clusterInfo (c : Nat) (rs : List Nat) : Code :=
  .hold (.notify c) (all (rs.map fun r => .seq (.share (.cmdRec c r) .skip) (.share (.ntfRec c r) .skip)))

/-- agent.go:600-625 `initCluster`. -/
def agentCluster (c : Nat) (js : List Join) : Code :=
  all [newCluster c js, .hold (.cow 0) .skip, .hold .cls (.hold (.cow 1) .skip)]

/-- agent.go:915-963 `doExportService`, server/server.go:66-111 `Export`. -/
def exportService (e : Nat) (rs : List Nat) : Code :=
  .hold .svc (.seq (.hold (.cow 2) .skip) (.seq (.hold (.exporter e) (all (rs.map fun r =>
    .seq (.hold .newReg .skip) (.hold (.regs r) .skip)))) (.seq (.hold (.cow 3) .skip) (.hold (.cow 4) .skip))))

/-- agent.go:1321-1332 `UnexportService`, server/server.go:116-129 `Unexport`. -/
def unexportService (e : Nat) (rs : List Nat) : Code :=
  .hold .svc (.seq (.hold (.cow 3) .skip) (.hold (.exporter e) (.seq (all (rs.map fun r => .hold (.regs r) .skip))
    (.hold (.cow 2) .skip))))

/-- dynamicConfig.go:162-176 `saveSnapshot`, 178-199 `getRegistryInfo`. -/
def saveDynamic : Code := .hold .dynSave (.hold .dynReg (.hold .dynSub .skip))

/-! ## The operations -/

/-- The operations that can run at the same time. -/
inductive Op
  /-- a watcher is told that the servers of a path have changed, registry/zkRegistry.go:220-251 -/
  | serverEvent (r p : Nat) (ls : List Lis)
  /-- a watcher is told that a command has changed, registry/zkRegistry.go:340-370 -/
  | commandEvent (r p : Nat) (ls : List CmdLis)
  /-- cluster/motanCluster.go:368-374 `NotifyAgentCommand` -/
  | agentCommand (c : Nat) (ks : List (Nat × Change × Option Work))
  /-- cluster/motanCluster.go:44-54 `NewCluster` -/
  | create (c : Nat) (js : List Join)
  /-- cluster/motanCluster.go:281-299 `Destroy` -/
  | destroy (c : Nat) (vs : List Leave)
  /-- cluster/motanCluster.go:376-429 `GetRuntimeInfo` -/
  | info (c : Nat) (rs : List Nat)
  /-- cluster/motanCluster.go:431-440 `SetRefersFilter` -/
  | setFilter (c : Nat) (b : Option Lb)
  /-- lb/weightRoundRobinLb.go:27-33 `Select`, in a call of a cluster -/
  | call (c g : Nat)
  /-- lb/weightedEpRefresher.go:193-202: weights are refreshed -/
  | weightTick (c g : Nat)
  /-- agent.go:497-571 `reloadClusters` -/
  | reload (new : List (Nat × List Join)) (gone : List (Nat × List Leave))
  /-- registry/zkRegistry.go:81-135 `handleNewSession` -/
  | newSession (r : Nat)
  /-- registry/zkRegistry.go:138-176, 423-489: `Register`, `UnRegister`, `Available`, `Unavailable`, `GetRegisteredServices` -/
  | registration (r : Nat)
  /-- agent.go:897-913 `availableAllServices`, `unavailableAllServices`; 239-278 failback and `GetRegistryStatus` -/
  | allServices (rs : List Nat)
  /-- dynamicConfig.go:82-108 `Register`, 110-128 `Unregister`, 130-160 `Subscribe` -/
  | dynRegister (e : Nat) (rs : List Nat)
  | dynUnregister (e : Nat) (rs : List Nat)
  | dynSubscribe (cs : List (Nat × List Join))
  /-- cluster/httpCluster.go:193-199 `Call` with 165-185 `getMotanCluster` and 26-40 `getCluster`: whether the service was
  known, and the cluster if it has to be made -/
  | httpCall (h s : Nat) (known : Bool) (c : Option (Nat × List Join))
  /-- cluster/httpCluster.go:120-140 `CanServe`, 187-191 `removeMotanCluster` -/
  | httpServe (h : Nat)
  | httpRemove (h : Nat)
  /-- cluster/httpCluster.go:201-208 `Destroy`, 42-50 `destroy` -/
  | httpDestroy (h : Nat) (cs : List (Nat × Option (Nat × List Leave)))
  /-- registry/registry.go:75-102: the snapshot files are written -/
  | flush
  /-- core/switcher.go:39-55 `Register`, 57-76, 88-95 reading, 124-131 `Watch`; 141-150: the listeners are
  told, and may watch other switchers -/
  | switchRegister (n : Nat) (watched : Bool)
  | switchRead
  | switchWatch (n : Nat)
  | switchTell (n : Nat) (watching : List Nat)
deriving DecidableEq

/-- What an operation does with locks. -/
def code : Op → Code
  | .serverEvent r p ls => .hold (.watch p) (.seq saveSnapshot (all (ls.map (lisNotify r))))
  | .commandEvent r p ls => .hold (.watch p) (all (ls.map fun l => notifyCommand l.cluster r l.change l.work))
  | .agentCommand c ks => all (ks.map fun k => notifyCommand c k.1 k.2.1 k.2.2)
  | .create c js => newCluster c js
  | .destroy c vs => destroyCluster c vs
  | .info c rs => clusterInfo c rs
  | .setFilter c b => clusterNotify c b
  | .call c g => .share (.lbSel c g) .skip
  | .weightTick c g => notifyWeight c g
  | .reload new gone =>
    .hold .cls (all [all (new.map fun n => newCluster n.1 n.2), .hold (.cow 0) .skip, .hold (.cow 1) .skip,
      all (gone.map fun n => destroyCluster n.1 n.2)])
  | .newSession r => .seq (.hold (.regs r) .skip) (.hold (.sub r) .skip)
  | .registration r => .hold (.regs r) .skip
  | .allServices rs => .hold .agentReg (all (rs.map fun r => .hold (.regs r) .skip))
  | .dynRegister e rs => .seq (.hold .dynReg (exportService e rs)) saveDynamic
  | .dynUnregister e rs => .seq (.hold .dynReg (unexportService e rs)) saveDynamic
  | .dynSubscribe cs => .seq (all (cs.map fun c => .hold .dynSub (agentCluster c.1 c.2))) saveDynamic
  | .httpCall h s known c =>
    .seq (.share (.http h) .skip) (.seq (onlyIf (!known) (.hold (.http h) .skip))
      (match c with | none => .skip | some (c, js) => .hold (.holder h s) (newCluster c js)))
  | .httpServe h => .share (.http h) .skip
  | .httpRemove h => .hold (.http h) .skip
  | .httpDestroy h cs =>
    .hold (.http h) (all (cs.map fun c => .hold (.holder h c.1) (match c.2 with
      | none => .skip
      | some (c, vs) => destroyCluster c vs)))
  | .flush => .share .snap .skip
  | .switchRegister n watched => .hold .switchers (onlyIf watched (.hold (.listeners n) .skip))
  | .switchRead => .share .switchers .skip
  | .switchWatch n => .hold (.listeners n) .skip
  | .switchTell n ws => .share (.listeners n) (all (ws.map fun w => .hold (.listeners w) .skip))

/-! ## Running them -/

/-- The steps of a goroutine. `Lock` is two steps: after the first, other writers wait and new readers are kept out; the
second waits for the readers that are in. -/
inductive Act
  | ask (l : Lock)
  | drain (l : Lock)
  | unlock (l : Lock)
  | rlock (l : Lock)
  | runlock (l : Lock)
deriving DecidableEq

/-- The steps of an operation. -/
def acts : Code → List Act
  | .skip => []
  | .seq a b => acts a ++ acts b
  | .hold l b => .ask l :: .drain l :: (acts b ++ [.unlock l])
  | .share l b => .rlock l :: (acts b ++ [.runlock l])

/-- The goroutines with what they have still to do, the writer and the readers of each lock. -/
structure St where
  todo : Nat → List Act
  writer : Lock → Option Nat := fun _ => none
  readers : Lock → List Nat := fun _ => []

/-- A map with one entry replaced. -/
def upd {α β : Type} [DecidableEq α] (f : α → β) (a : α) (b : β) : α → β := fun x => if x = a then b else f x

/-- The operations, not begun. -/
def start (ops : List Op) : St := { todo := fun i => match ops[i]? with | some op => acts (code op) | none => [] }

/-- The next step of goroutine `i`; none if it has to wait, or is done. -/
def step (s : St) (i : Nat) : Option St :=
  match s.todo i with
  | [] => none
  | .ask l :: r => if s.writer l = none then some { s with todo := upd s.todo i r, writer := upd s.writer l (some i) } else none
  | .drain l :: r => if s.readers l = [] then some { s with todo := upd s.todo i r } else none
  | .unlock l :: r =>
    -- a lock is released by the goroutine that holds it, since locking is nested
    if s.writer l = some i then some { s with todo := upd s.todo i r, writer := upd s.writer l none } else none
  | .rlock l :: r =>
    if s.writer l = none then some { s with todo := upd s.todo i r, readers := upd s.readers l (i :: s.readers l) } else none
  | .runlock l :: r => some { s with todo := upd s.todo i r, readers := upd s.readers l ((s.readers l).erase i) }

/-- A schedule: which goroutine moves next. -/
def run (s : St) : List Nat → Option St
  | [] => some s
  | i :: is => (step s i).bind fun t => run t is

end Motan.Locks
