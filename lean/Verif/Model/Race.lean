/-!
# Memory shared by goroutines

What the operations of shared objects do with memory and with locks: which fields they read and write, plainly or with
`sync/atomic`, and which mutexes they hold then. What the values are is the subject of the other models. Conditions are
left open: a program may take either branch of an `if` and run a loop any number of times. An object that is not yet
reachable for other goroutines (a new map, a new entry) is not listed among the fields.

`sync.Mutex` and `sync.RWMutex` are modelled as documented: writers exclude each other and readers. A goroutine may use
an object again and again, in any order of operations; any number of goroutines may do so at the same time.

What is not modelled: that work is ordered by channels or by `go` statements (so nothing is claimed here about data that
is handed over that way), the memory inside of objects of other packages, and `sync.Pool`.
-/

namespace Motan.Race

/-- What a goroutine does with memory `V` and locks `L`. -/
inductive Act (L V : Type)
  | lock (l : L)
  | unlock (l : L)
  | rlock (l : L)
  | runlock (l : L)
  /-- a plain read or write of a field (for a map or a slice: of its header or its content) -/
  | read (x : V)
  | write (x : V)
  /-- a read or write by `sync/atomic` -/
  | aread (x : V)
  | awrite (x : V)
deriving DecidableEq

/-- A program, without its conditions. -/
inductive Prog (L V : Type)
  | skip
  | act (a : Act L V)
  | seq (p q : Prog L V)
  /-- one of two branches -/
  | alt (p q : Prog L V)
  /-- a loop -/
  | star (p : Prog L V)
deriving DecidableEq

/-- The sequences of actions that a program may perform. -/
inductive Does {L V : Type} : Prog L V → List (Act L V) → Prop
  | skip : Does .skip []
  | act (a : Act L V) : Does (.act a) [a]
  | seq {p q : Prog L V} {u v : List (Act L V)} : Does p u → Does q v → Does (.seq p q) (u ++ v)
  | altL {p q : Prog L V} {u : List (Act L V)} : Does p u → Does (.alt p q) u
  | altR {p q : Prog L V} {u : List (Act L V)} : Does q u → Does (.alt p q) u
  | done {p : Prog L V} : Does (.star p) []
  | more {p : Prog L V} {u v : List (Act L V)} : Does p u → Does (.star p) v → Does (.star p) (u ++ v)

/-- One after another. -/
def all {L V : Type} : List (Prog L V) → Prog L V
  | [] => .skip
  | [p] => p
  | p :: ps => .seq p (all ps)

/-- Any of these. -/
def any {L V : Type} : List (Prog L V) → Prog L V
  | [] => .skip
  | [p] => p
  | p :: ps => .alt p (any ps)

/-- `if` without `else`. -/
def opt {L V : Type} (p : Prog L V) : Prog L V := .alt p .skip

/-- `l.Lock(); defer l.Unlock()` and the body. -/
def hold {L V : Type} (l : L) (ps : List (Prog L V)) : Prog L V := .seq (.act (.lock l)) (.seq (all ps) (.act (.unlock l)))

/-- `l.RLock(); defer l.RUnlock()` and the body. -/
def share {L V : Type} (l : L) (ps : List (Prog L V)) : Prog L V :=
  .seq (.act (.rlock l)) (.seq (all ps) (.act (.runlock l)))

/-- A plain read, a plain write, a read and a write by `sync/atomic`. -/
def rd {L V : Type} (x : V) : Prog L V := .act (.read x)
def wr {L V : Type} (x : V) : Prog L V := .act (.write x)
def ard {L V : Type} (x : V) : Prog L V := .act (.aread x)
def awr {L V : Type} (x : V) : Prog L V := .act (.awrite x)

/-- A kind of goroutine: the operations it performs, again and again; and whether there is only one of the kind. -/
structure Role (L V : Type) where
  ops : List (Prog L V)
  single : Bool := false

/-- All that a goroutine of the role does. -/
def Role.prog {L V : Type} (r : Role L V) : Prog L V := .star (any r.ops)

/-- The locks that a goroutine holds (`true`: exclusively) after an action. -/
def held1 {L V : Type} [DecidableEq L] (h : List (L × Bool)) : Act L V → List (L × Bool)
  | .lock l => (l, true) :: h
  | .unlock l => h.erase (l, true)
  | .rlock l => (l, false) :: h
  | .runlock l => h.erase (l, false)
  | _ => h

/-- … after its actions so far. -/
def held {L V : Type} [DecidableEq L] (u : List (Act L V)) : List (L × Bool) := u.foldl held1 []

/-- What a goroutine has done in an execution: the actions of all goroutines, in the order in which they happened. -/
def own {L V : Type} (e : List (Nat × Act L V)) (t : Nat) : List (Act L V) := (e.filter fun a => a.1 == t).map Prod.snd

/-- When an action may happen: a lock must be free. -/
def Free {L V : Type} [DecidableEq L] (e : List (Nat × Act L V)) : Act L V → Prop
  | .lock l => ∀ t b, (l, b) ∉ held (own e t) 
  | .rlock l => ∀ t, (l, true) ∉ held (own e t)
  | _ => True

/-- The orders of actions that the locks admit. -/
inductive Ordered {L V : Type} [DecidableEq L] : List (Nat × Act L V) → Prop
  | nil : Ordered []
  | snoc {e : List (Nat × Act L V)} (t : Nat) {a : Act L V} : Ordered e → Free e a → Ordered (e ++ [(t, a)])

/-- The executions of a system with these roles, any number of goroutines, each with its role: everyone follows its
program, and the locks are respected. -/
structure Runs {L V : Type} [DecidableEq L] (S : List (Role L V)) (role : Nat → Nat) (e : List (Nat × Act L V)) : Prop where
  /-- what a goroutine has done so far is the beginning of something its program may do -/
  follows : ∀ t, own e t ≠ [] → ∃ r, S[role t]? = some r ∧ ∃ rest, Does r.prog (own e t ++ rest)
  /-- only one goroutine has a role that there is once -/
  once : ∀ t t' r, S[role t]? = some r → r.single = true → role t' = role t → own e t ≠ [] → own e t' ≠ [] → t' = t
  ordered : Ordered e

/-! ## The objects -/

section StringMap
/-- core/map.go:11-14 -/
inductive SmLock | mu deriving DecidableEq
inductive SmVar | innerMap deriving DecidableEq
open SmLock SmVar

/-- core/map.go:23-27 `Store`, 37-41 `Delete` -/
def smStore : Prog SmLock SmVar := hold mu [wr innerMap]
/-- core/map.go:29-35 `Reset` -/
def smReset : Prog SmLock SmVar := hold mu [.star (all [rd innerMap, wr innerMap])]
/-- core/map.go:43-48 `Load`, 50-53 `LoadOrEmpty`, 83-87 `Len` -/
def smLoad : Prog SmLock SmVar := share mu [rd innerMap]
/-- core/map.go:59-67 `Range` (the function given is taken not to use the map), 69-77 `RawMap`, 79-81 `Copy` -/
def smRange : Prog SmLock SmVar := share mu [.star (rd innerMap)]

/-- core/map.go:11-87 `StringMap`: any goroutines use it. -/
def stringMap : List (Role SmLock SmVar) := [{ ops := [smStore, smReset, smLoad, smRange] }]
end StringMap

section Attachments
/-- core/motan.go:484-496, 628-636: the mutex of a request or response, and its field `Attachment` -/
inductive AtLock | mu deriving DecidableEq
inductive AtVar | field deriving DecidableEq
open AtLock AtVar

/-- core/motan.go:551-565, 685-699 `GetAttachments`, so 519-522, 665-667 `SetAttachment` -/
def atGetAll : Prog AtLock AtVar := all [ard field, opt (hold mu [rd field, .alt (awr field) (rd field)])]
/-- core/motan.go:511-517, 658-663 `GetAttachment`; 582-584 in `Clone` -/
def atGet : Prog AtLock AtVar := all [rd field, opt (rd field)]

/-- core/motan.go: the attachments are made, as long as nobody reads one by its name -/
def attachmentCalls : List (Role AtLock AtVar) := [{ ops := [atGetAll] }]
/-- core/motan.go: the attachments of a request or response -/
def attachments : List (Role AtLock AtVar) := [{ ops := [atGetAll, atGet] }]
end Attachments

section CowMap
/-- core/map.go:89-92 -/
inductive CowLock | mu deriving DecidableEq
inductive CowVar | innerMap deriving DecidableEq
open CowLock CowVar

/-- core/map.go:98-104 `data`, so 106-121 `Load`, `LoadOrNil`, `Range`, 158-160 `Len`; the map that is loaded is not
changed any more -/
def cowLoad : Prog CowLock CowVar := ard innerMap
/-- core/map.go:129-137 `UnsafeStore` -/
def cowUnsafeStore : Prog CowLock CowVar := all [ard innerMap, awr innerMap]
/-- core/map.go:123-127 `Store` -/
def cowStore : Prog CowLock CowVar := hold mu [cowUnsafeStore]
/-- core/map.go:139-156 `Delete` -/
def cowDelete : Prog CowLock CowVar := hold mu [ard innerMap, opt (awr innerMap)]
/-- core/map.go:162-168 `Swap` -/
def cowSwap : Prog CowLock CowVar := hold mu [ard innerMap, awr innerMap]
/-- core/map.go:170-174 `SafeDoFunc` with a function that stores and loads -/
def cowDo : Prog CowLock CowVar := hold mu [.star (any [cowUnsafeStore, cowLoad])]

/-- core/map.go:89-174 `CopyOnWriteMap` -/
def cowMap : List (Role CowLock CowVar) := [{ ops := [cowLoad, cowUnsafeStore, cowStore, cowDelete, cowSwap, cowDo] }]
end CowMap

section Switcher
/-- core/switcher.go:12-15, 109-114 -/
inductive SwLock | switcherLock | listenerLock deriving DecidableEq
inductive SwVar | switcherMap | value | listeners deriving DecidableEq
open SwLock SwVar

/-- core/switcher.go:39-55 `Register` (the fields of the new switcher are not shared yet) -/
def swRegister : Prog SwLock SwVar := hold switcherLock [rd switcherMap, opt (wr switcherMap)]
/-- core/switcher.go:57-65 `GetAllSwitchers` -/
def swGetAll : Prog SwLock SwVar := share switcherLock [.star (all [rd switcherMap, rd value])]
/-- core/switcher.go:68-76 `GetSwitcher` -/
def swGet : Prog SwLock SwVar := share switcherLock [rd switcherMap]
/-- core/switcher.go:79-85 `GetOrRegister` -/
def swGetOrRegister : Prog SwLock SwVar := all [swGet, opt swRegister, swGet]
/-- core/switcher.go:120-122 `Switcher.IsOpen` -/
def swIsOpen1 : Prog SwLock SwVar := rd value
/-- core/switcher.go:88-95 `SwitcherManager.IsOpen` -/
def swIsOpen : Prog SwLock SwVar := share switcherLock [rd switcherMap, opt swIsOpen1]
/-- core/switcher.go:133-152 `Switcher.SetValue` (the listeners are told by another goroutine, from the slice read here) -/
def swSetValue1 : Prog SwLock SwVar := all [rd value, opt (all [wr value, rd listeners])]
/-- core/switcher.go:98-100 `SwitcherManager.SetValue` -/
def swSetValue : Prog SwLock SwVar := all [swGetOrRegister, swSetValue1]
/-- core/switcher.go:124-131 `Watch` -/
def swWatch : Prog SwLock SwVar := hold listenerLock [.star (all [rd listeners, wr listeners])]
/-- core/switcher.go:103-107 `clear` -/
def swClear : Prog SwLock SwVar := hold switcherLock [wr switcherMap]

/-- core/switcher.go: the manager and one of its switchers -/
def switchers : List (Role SwLock SwVar) :=
  [{ ops := [swRegister, swGetAll, swGet, swGetOrRegister, swIsOpen1, swIsOpen, swSetValue1, swSetValue, swWatch, swClear] }]
end Switcher

section Trace
/-- core/debug.go:42-47, 65-72, 17-18 -/
inductive TrLock | holderLock | contextLock deriving DecidableEq
inductive TrVar | holder | size | tcs | reqSpans | resSpans deriving DecidableEq
open TrLock TrVar

/-- core/debug.go:84-89 `NewTraceContext` after the first time, 49-63 `newTrace` -/
def trNew : Prog TrLock TrVar :=
  all [rd holder, rd size, opt (hold holderLock [rd size, opt (all [rd tcs, wr tcs, rd size, wr size])])]
/-- core/debug.go:92-96 `PutReqSpan` -/
def trPutReq : Prog TrLock TrVar := hold contextLock [rd reqSpans, wr reqSpans]
/-- core/debug.go:99-103 `PutResSpan` -/
def trPutRes : Prog TrLock TrVar := hold contextLock [rd resSpans, wr resSpans]
/-- core/debug.go:106-113 `GetTraceContexts`, manageHandler.go:551-563 `formatTc` of each of them -/
def trGet : Prog TrLock TrVar := all [rd holder, wr holder, rd tcs, .star (all [rd reqSpans, rd resSpans])]

/-- core/debug.go: calls that are traced, and the manage handler -/
def trace : List (Role TrLock TrVar) := [{ ops := [trNew, trPutReq, trPutRes] }, { ops := [trGet] }]
/-- core/debug.go:92-103: the calls alone, while nobody looks at the traces -/
def traceCalls : List (Role TrLock TrVar) := [{ ops := [trPutReq, trPutRes] }]
end Trace

section Samplers
/-- metrics/sampler/sampler.go:7-10 -/
inductive SaLock | registerLock deriving DecidableEq
inductive SaVar | samplers deriving DecidableEq
open SaLock SaVar

/-- metrics/sampler/sampler.go:26-36 `RegisterStatusSampler`, `UnregisterStatusSampler` -/
def saRegister : Prog SaLock SaVar := hold registerLock [wr samplers]
/-- metrics/sampler/sampler.go:38-46 `RangeDo` -/
def saRange : Prog SaLock SaVar := hold registerLock [.star (rd samplers)]

/-- metrics/sampler/sampler.go -/
def samplerTable : List (Role SaLock SaVar) := [{ ops := [saRegister, saRange] }]
end Samplers

section LogFilters
/-- log/filter.go:29-30 -/
inductive LfLock | asyncFilterLock deriving DecidableEq
inductive LfVar | asyncFilters deriving DecidableEq
open LfLock LfVar

/-- log/filter.go:56-60 `AddAsyncFilter` -/
def lfAdd : Prog LfLock LfVar := hold asyncFilterLock [wr asyncFilters]
/-- log/filter.go:62-75 `startAsyncFilterConsumer` -/
def lfConsume : Prog LfLock LfVar := share asyncFilterLock [.star (rd asyncFilters)]
/-- log/filter.go:94-97 `doAsyncFilters`: `len(asyncFilters)` -/
def lfDo : Prog LfLock LfVar := rd asyncFilters

/-- log/filter.go: everyone who logs or adds a filter, and the goroutine that passes the lines on -/
def logFilters : List (Role LfLock LfVar) := [{ ops := [lfAdd, lfDo] }, { ops := [lfConsume], single := true }]
end LogFilters

section Backup
/-- ha/backupRequestHA.go:22-29 -/
inductive BrLock | counterLock deriving DecidableEq
inductive BrVar | total | retry | lastReset deriving DecidableEq
open BrLock BrVar

/-- ha/backupRequestHA.go:146-156 `updateCallRecord` -/
def brUpdate : Prog BrLock BrVar :=
  hold counterLock [rd total, opt (rd lastReset), .alt (all [wr total, wr retry, wr lastReset]) (all [rd total, wr total])]
/-- ha/backupRequestHA.go:158-166 `tryAcquirePermit` -/
def brPermit : Prog BrLock BrVar := hold counterLock [rd retry, opt (all [rd retry, wr retry])]
/-- ha/backupRequestHA.go:47-134 `Call` -/
def brCall : Prog BrLock BrVar := opt (all [brUpdate, .star brPermit])

/-- ha/backupRequestHA.go: the counters of the strategy -/
def backup : List (Role BrLock BrVar) := [{ ops := [brCall] }]
end Backup

section Weighted
/-- lb/weightRoundRobinLb.go:11-15, 129-132, lb/weightedEpRefresher.go:23-31, 205-210: one holder stands for all -/
inductive WrLock | mutex | refreshMutex deriving DecidableEq
inductive WrVar | selector | epHolders | rrHolders | idx | dynamicWeight | supportDynamic deriving DecidableEq
open WrLock WrVar

/-- lb/weightRoundRobinLb.go:46-50 `getSelector` -/
def wrGetSelector : Prog WrLock WrVar := share mutex [rd selector]
/-- lb/weightRoundRobinLb.go:52-56 `setSelector` -/
def wrSetSelector : Prog WrLock WrVar := hold mutex [wr selector]
/-- lb/weightRoundRobinLb.go:27-33 `Select`, 140-159, 202-217, 254-295 `DoSelect` -/
def wrSelect : Prog WrLock WrVar := all [wrGetSelector, opt (all [opt (ard rrHolders), awr idx])]
/-- lb/weightRoundRobinLb.go:58-107 `NotifyWeightChange`, lb/weightedEpRefresher.go:220-225 `getWeight` -/
def wrChange : Prog WrLock WrVar :=
  all [ard epHolders, .star (all [rd dynamicWeight, opt (rd dynamicWeight)]),
    .alt (all [wrGetSelector, awr rrHolders]) (all [opt wrGetSelector, wrSetSelector])]
/-- lb/weightedEpRefresher.go:50-55 `notifyWeightChange` -/
def wrNotify : Prog WrLock WrVar := hold refreshMutex [wrChange]
/-- lb/weightedEpRefresher.go:57-88 `RefreshWeightedHolders`; 98 the loop of `refreshDynamicWeight` reads of each new
holder whether it has dynamic weights -/
def wrOnRefresh : Prog WrLock WrVar := all [ard epHolders, awr epHolders, wrNotify]
/-- lb/weightedEpRefresher.go:193-203 `refreshHolderDynamicWeightTask`, with the loop 97-118 of `refreshDynamicWeight` -/
def wrTask : Prog WrLock WrVar := all [ard epHolders, .star (rd supportDynamic), opt wrNotify]
/-- lb/weightedEpRefresher.go:99-114: the goroutine that asks a node for its weight. It is given up after a time, but it
goes on. -/
def wrWorker : Prog WrLock WrVar :=
  all [rd dynamicWeight, .alt (opt (wr supportDynamic)) (all [wr dynamicWeight, rd dynamicWeight])]

/-- lb/weightRoundRobinLb.go, lb/weightedEpRefresher.go: calls; notifications; the refreshing goroutine (177-191); its
helpers -/
def weightedLb : List (Role WrLock WrVar) :=
  [{ ops := [wrSelect] }, { ops := [wrOnRefresh] }, { ops := [wrTask], single := true }, { ops := [wrWorker] }]
end Weighted

section PlainLb
/-- lb/roundrobinLb.go:9-14, lb/lb.go:51-59; no locks but `lbmutex` (lb/lb.go:29) and the cluster's `notifyLock`, neither of
which calls take -/
inductive LbLock | lbmutex | notifyLock deriving DecidableEq
inductive LbVar | endpoints | index | refers | weightString deriving DecidableEq
open LbLock LbVar

/-- lb/roundrobinLb.go:20-49 `Select`, `SelectArray` through lb/lb.go:174-180 -/
def lbSelect : Prog LbLock LbVar := all [rd refers, opt (awr index), rd endpoints, opt (awr index)]
/-- lb/lb.go:162-172 `onRefreshSingleGroup`, lb/roundrobinLb.go:16-18 `OnRefresh` -/
def lbSingle : Prog LbLock LbVar := all [rd refers, .alt (wr endpoints) (all [rd refers, wr refers])]
/-- lb/lb.go:81-160 `OnRefresh` -/
def lbOnRefresh : Prog LbLock LbVar :=
  all [rd weightString, .alt lbSingle (all [rd weightString, .alt lbSingle (hold lbmutex [rd refers, wr refers])])]
/-- lb/lb.go:182-184 `SetWeight` -/
def lbSetWeight : Prog LbLock LbVar := wr weightString

/-- lb/lb.go, lb/roundrobinLb.go: calls; the notifications of registries, under the cluster's lock
(cluster/motanCluster.go:163-233); traffic control commands (cluster/command.go:458-502) -/
def plainLb : List (Role LbLock LbVar) :=
  [{ ops := [lbSelect] }, { ops := [hold notifyLock [lbOnRefresh]] }, { ops := [lbSetWeight] }]
end PlainLb

section HttpCluster
/-- cluster/httpCluster.go:16-24, 61-71 -/
inductive HcLock | lock | holderLock deriving DecidableEq
inductive HcVar | upstream | initialized | cluster deriving DecidableEq
open HcLock HcVar

/-- cluster/httpCluster.go:26-40 `getCluster` -/
def hcGetCluster : Prog HcLock HcVar :=
  all [rd initialized, .alt (rd cluster) (hold holderLock [rd initialized, .alt (rd cluster)
    (all [wr cluster, wr initialized, rd cluster])])]
/-- cluster/httpCluster.go:42-50 `destroy` -/
def hcDestroyHolder : Prog HcLock HcVar := hold holderLock [rd initialized, opt (all [rd cluster, wr initialized])]
/-- cluster/httpCluster.go:165-185 `getMotanCluster`, 193-199 `Call` -/
def hcGet : Prog HcLock HcVar :=
  all [share lock [rd upstream], opt (hold lock [rd upstream, opt (wr upstream)]), hcGetCluster]
/-- cluster/httpCluster.go:120-140 `CanServe` -/
def hcCanServe : Prog HcLock HcVar := opt (share lock [rd upstream])
/-- cluster/httpCluster.go:187-191 `removeMotanCluster` -/
def hcRemove : Prog HcLock HcVar := hold lock [wr upstream]
/-- cluster/httpCluster.go:201-208 `Destroy` -/
def hcDestroy : Prog HcLock HcVar := hold lock [.star (all [rd upstream, hcDestroyHolder]), wr upstream]

/-- cluster/httpCluster.go: an http cluster and the holder of one of its services -/
def httpCluster : List (Role HcLock HcVar) := [{ ops := [hcGet, hcCanServe, hcRemove, hcDestroy] }]
end HttpCluster

section Command
/-- cluster/command.go:34-55, 31: the wrappers of two clusters, of which the second is there for the switchers -/
inductive CmLock | mux | mux2 deriving DecidableEq
inductive CmVar
  | ownGroupURLs | tcCommand | weights | agentInfo | serviceInfo | otherListeners | degrade | switcherCommand | recorders
  | available | oldSwitchers
deriving DecidableEq
open CmLock CmVar

/-- cluster/command.go:57-70 `GetRuntimeInfo` -/
def cmInfo : Prog CmLock CmVar := all [rd weights, rd agentInfo, rd serviceInfo, rd recorders]
/-- cluster/command.go:274-282 `getCurrentTcCommand` -/
def cmCurrent : Prog CmLock CmVar := rd tcCommand
/-- cluster/command.go:284-337 `getResultWithCommand` -/
def cmResult : Prog CmLock CmVar :=
  hold mux [cmCurrent, .star (any [rd ownGroupURLs, all [rd otherListeners, opt (wr otherListeners)]]), opt (rd ownGroupURLs),
    opt (rd recorders), rd degrade]
/-- cluster/command.go:458-502 `processTcCommand` -/
def cmTc : Prog CmLock CmVar :=
  all [.star (rd otherListeners), opt (all [.star (rd otherListeners), wr weights]), wr otherListeners, wr tcCommand]
/-- cluster/command.go:513-522 `processDegradeCommand` -/
def cmDegrade : Prog CmLock CmVar := all [wr degrade, rd degrade, wr available]
/-- cluster/command.go:524-553 `processSwitcherCommand` -/
def cmSwitcher : Prog CmLock CmVar :=
  all [.star (all [rd oldSwitchers, opt (wr oldSwitchers)]), .star (rd oldSwitchers), wr oldSwitchers]
/-- cluster/command.go:404-456 `processCommand` -/
def cmProcess : Prog CmLock CmVar :=
  all [rd recorders, hold mux [any [.skip, all [rd agentInfo, opt (wr agentInfo)], all [rd serviceInfo, opt (wr serviceInfo)]],
    opt (all [rd agentInfo, rd serviceInfo, opt (rd tcCommand), cmTc, cmDegrade, cmSwitcher, wr switcherCommand])]]
/-- cluster/command.go:586-592 `NotifyCommand` -/
def cmNotifyCommand : Prog CmLock CmVar := all [cmProcess, opt cmResult]
/-- cluster/command.go:594-613 `Notify` -/
def cmNotify : Prog CmLock CmVar := all [wr ownGroupURLs, cmCurrent, opt cmResult]
/-- cluster/command.go:236-247 `Discover` -/
def cmDiscover : Prog CmLock CmVar := all [wr ownGroupURLs, .alt (all [cmProcess, cmResult]) (rd ownGroupURLs)]
/-- cluster/command.go:257-272 `clear`, from 228-234 `Unsubscribe` -/
def cmClear : Prog CmLock CmVar :=
  hold mux [wr tcCommand, wr degrade, wr agentInfo, wr serviceInfo, wr ownGroupURLs, .star (rd otherListeners), wr weights,
    wr recorders, wr otherListeners]
/-- cluster/motanCluster.go:68-78 `Call`, 41-43 `IsAvailable` of the cluster -/
def cmCall : Prog CmLock CmVar := rd available
/-- cluster/command.go:404-456 `processCommand` of the wrapper of another cluster -/
def cmOther : Prog CmLock CmVar := hold mux2 [opt cmSwitcher]

/-- cluster/command.go: calls; the goroutines of registries; the manage handler; another cluster -/
def command : List (Role CmLock CmVar) :=
  [{ ops := [cmCall] }, { ops := [cmNotifyCommand, cmNotify, cmDiscover, cmClear] }, { ops := [cmInfo] }, { ops := [cmOther] }]
end Command

section Cluster
/-- cluster/motanCluster.go:18-39 -/
inductive ClLock | notifyLock deriving DecidableEq
inductive ClVar | refers | registryRefers | closed | identity deriving DecidableEq
open ClLock ClVar

/-- cluster/motanCluster.go:270-279 `GetIdentity` -/
def clIdentity : Prog ClLock ClVar := all [ard identity, opt (awr identity)]
/-- cluster/motanCluster.go:121-133 `refresh` -/
def clRefresh : Prog ClLock ClVar := all [.star (rd registryRefers), wr refers]
/-- cluster/motanCluster.go:163-233 `Notify` -/
def clNotify : Prog ClLock ClVar :=
  all [clIdentity, hold notifyLock [rd registryRefers, .star clIdentity,
    .alt (all [rd registryRefers, opt (all [wr registryRefers, clRefresh])]) (all [wr registryRefers, clRefresh])]]
/-- cluster/motanCluster.go:117-119 `GetRefers` -/
def clGetRefers : Prog ClLock ClVar := rd refers
/-- cluster/motanCluster.go:281-299 `Destroy` -/
def clDestroy : Prog ClLock ClVar := all [rd closed, opt (hold notifyLock [rd refers, wr closed])]

/-- cluster/motanCluster.go: a cluster after its start -/
def cluster : List (Role ClLock ClVar) := [{ ops := [clIdentity, clNotify, clGetRefers, clDestroy] }]
end Cluster

section Metrics
/-- metrics/metrics.go: `items`, `itemsLock`; 339-347; 570-578; 840-847 -/
inductive MtLock | itemsLock | statLock | cacheLock | writersLock deriving DecidableEq
inductive MtVar | items | holder | lastSnapshot | cache | writers deriving DecidableEq
open MtLock MtVar

/-- metrics/metrics.go:120-124 `GetStatItem`, 159-169 `StatItemSize`, `safeGet` -/
def mtGet : Prog MtLock MtVar := share itemsLock [rd items]
/-- metrics/metrics.go:171-180 `safePutAbsent` -/
def mtPut : Prog MtLock MtVar := hold itemsLock [rd items, opt (wr items)]
/-- metrics/metrics.go:111-118 `GetOrRegisterStatItem` -/
def mtGetOrRegister : Prog MtLock MtVar := all [mtGet, opt mtPut]
/-- metrics/metrics.go:182-186 `safeDelete` -/
def mtDelete : Prog MtLock MtVar := hold itemsLock [wr items]
/-- metrics/metrics.go:349-351 `getRegistry` of an item, so 383-405 `AddCounter`, `AddHistograms`, `AddGauge`, 455-461 `Clear` -/
def mtUse : Prog MtLock MtVar := ard holder
/-- metrics/metrics.go:131-138 `RMStatItem` -/
def mtRm : Prog MtLock MtVar := all [mtGet, opt (all [mtDelete, mtUse])]
/-- metrics/metrics.go:188-194 `safeExchangeNew`, 140-145 `ClearStatItems` (nobody else has the old map) -/
def mtClear : Prog MtLock MtVar := all [hold itemsLock [rd items, wr items], .star mtUse]
/-- metrics/metrics.go:413-431 `SnapshotAndClear` -/
def mtSnapshot : Prog MtLock MtVar := hold statLock [awr holder, wr lastSnapshot, rd lastSnapshot]
/-- metrics/metrics.go:441-445 `LastSnapshot` -/
def mtLast : Prog MtLock MtVar := hold statLock [rd lastSnapshot]
/-- metrics/metrics.go:584-616 `getCache` of a snapshot -/
def mtCache : Prog MtLock MtVar :=
  .alt (share cacheLock [rd cache]) (all [share cacheLock [rd cache], hold cacheLock [rd cache, opt (all [ard holder, opt (wr cache)])]])
/-- metrics/metrics.go:147-157 `RangeAllStatItem`, 902-912 `snapshot` -/
def mtSnapshots : Prog MtLock MtVar := all [mtGet, opt (share itemsLock [.star (all [rd items, mtSnapshot])])]
/-- metrics/metrics.go:858-865 `addWriter` -/
def mtAddWriter : Prog MtLock MtVar := hold writersLock [wr writers]
/-- metrics/metrics.go:882-900 `sink` -/
def mtSink : Prog MtLock MtVar := all [mtSnapshots, opt (all [rd writers, opt (share writersLock [.star (all [rd writers, .star mtCache])])])]

/-- metrics/metrics.go: the table, an item, its last snapshot, and the reporter -/
def metrics : List (Role MtLock MtVar) :=
  [{ ops := [mtGetOrRegister, mtGet, mtRm, mtClear, mtUse, mtSnapshot, mtLast, mtCache, mtSnapshots, mtAddWriter] },
   { ops := [mtSink], single := true }]
end Metrics

section Snapshot
/-- registry/registry.go:34, 58-63 -/
inductive RsLock | snapshotLock | confLock deriving DecidableEq
inductive RsVar | snapshot | nodes | conf deriving DecidableEq
open RsLock RsVar

/-- registry/registry.go:173-187 `SaveSnapshot` -/
def rsSave : Prog RsLock RsVar := hold snapshotLock [rd snapshot, opt (wr snapshot), rd nodes, opt (wr nodes), wr nodes]
/-- registry/registry.go:79-101 a round of `flushSnapshot` -/
def rsFlush : Prog RsLock RsVar :=
  all [rd snapshot, opt (share snapshotLock [rd snapshot, .star (rd nodes), .star (rd conf)])]
/-- registry/registry.go:104-109 `SetSnapshotConf` -/
def rsSetConf : Prog RsLock RsVar := hold confLock [wr conf]

/-- registry/registry.go: registries, configuration; and the goroutine that writes the files -/
def nodeSnapshot : List (Role RsLock RsVar) := [{ ops := [rsSave, rsSetConf] }, { ops := [rsFlush], single := true }]
end Snapshot

section Zk
/-- registry/zkRegistry.go:36-48; the parameters of a subscribed url, core/url.go:17 -/
inductive ZkLock | registerLock | subscribeLock deriving DecidableEq
inductive ZkVar | available | registered | availableServices | subscribed | subscribedCommands | watchMarks | urlParams
deriving DecidableEq
open ZkLock ZkVar

/-- registry/zkRegistry.go:138-149 `Register`, 164-176 `UnRegister` -/
def zkRegister : Prog ZkLock ZkVar :=
  all [rd available, opt (hold registerLock [rd registered, opt (wr registered)])]
/-- registry/zkRegistry.go:437-450 `doAvailable`, 466-478 `doUnavailable` -/
def zkDoAvailable : Prog ZkLock ZkVar := .alt (.star (all [rd registered, wr availableServices])) (wr availableServices)
/-- registry/zkRegistry.go:423-435 `Available`, 452-464 `Unavailable`: the lock is taken and given back at once -/
def zkAvailable : Prog ZkLock ZkVar :=
  all [rd available, opt (all [hold registerLock [], opt (rd registered), zkDoAvailable])]
/-- registry/zkRegistry.go:481-489 `GetRegisteredServices` -/
def zkRegisteredServices : Prog ZkLock ZkVar := hold registerLock [.star (rd registered)]
/-- registry/zkRegistry.go:98-113 `recoverService` -/
def zkRecoverService : Prog ZkLock ZkVar :=
  hold registerLock [.star (rd registered), .star (all [rd availableServices, zkDoAvailable])]
/-- registry/zkRegistry.go:198-219 `doSubscribe` up to the start of the watching goroutine -/
def zkDoSubscribe : Prog ZkLock ZkVar := opt (all [rd watchMarks, opt (wr watchMarks), wr urlParams])
/-- registry/zkRegistry.go:179-196 `Subscribe` -/
def zkSubscribe : Prog ZkLock ZkVar :=
  all [rd available, opt (hold subscribeLock [rd subscribed, wr subscribed, opt zkDoSubscribe])]
/-- registry/zkRegistry.go:255-270 `Unsubscribe` -/
def zkUnsubscribe : Prog ZkLock ZkVar :=
  all [rd available, opt (hold subscribeLock [rd subscribed, opt (all [wr subscribed, rd watchMarks, opt (wr subscribed)])])]
/-- registry/zkRegistry.go:220-251 the goroutine that watches the nodes of a service -/
def zkWatch : Prog ZkLock ZkVar := .alt (.star (rd subscribed)) (wr watchMarks)
/-- registry/zkRegistry.go:290-338 `SubscribeCommand`, `doSubscribeCommand` -/
def zkSubscribeCommand : Prog ZkLock ZkVar :=
  all [rd available, opt (hold subscribeLock [rd subscribedCommands, wr subscribedCommands, opt (all [rd watchMarks, opt (wr watchMarks)])])]
/-- registry/zkRegistry.go:339-371 the goroutine that watches commands -/
def zkWatchCommand : Prog ZkLock ZkVar := .alt (.star (rd subscribedCommands)) (wr watchMarks)
/-- registry/zkRegistry.go:116-135 `recoverSubscribe` -/
def zkRecoverSubscribe : Prog ZkLock ZkVar :=
  hold subscribeLock [.star (all [rd subscribed, zkDoSubscribe]), .star (all [rd subscribedCommands, rd watchMarks, opt (wr watchMarks)])]
/-- registry/zkRegistry.go:82-95 `handleNewSession` -/
def zkSession : Prog ZkLock ZkVar :=
  .alt (wr available) (all [rd available, opt (all [wr available, zkRecoverService, zkRecoverSubscribe])])
/-- core/url.go `GetParam` of the url by calls of the cluster that subscribed, e.g. through `GetMethodIntValue` -/
def zkCallParam : Prog ZkLock ZkVar := rd urlParams

/-- registry/zkRegistry.go: users of the registry; the watching goroutines; the goroutine of the session; calls -/
def zk : List (Role ZkLock ZkVar) :=
  [{ ops := [zkRegister, zkAvailable, zkRegisteredServices, zkSubscribe, zkUnsubscribe, zkSubscribeCommand] },
   { ops := [zkWatch, zkWatchCommand] }, { ops := [zkSession], single := true }, { ops := [zkCallParam] }]
end Zk

section Mesh
/-- registry/meshRegistry.go:25-33 -/
inductive MeLock | registerLock | subscribeLock deriving DecidableEq
inductive MeVar | registered | subscribed deriving DecidableEq
open MeLock MeVar

/-- registry/meshRegistry.go:129-186 `Register`, `UnRegister` -/
def meRegister : Prog MeLock MeVar := hold registerLock [rd registered, opt (wr registered)]
/-- registry/meshRegistry.go:86-117 `Subscribe` -/
def meSubscribe : Prog MeLock MeVar := hold subscribeLock [rd subscribed, opt (wr subscribed)]
/-- registry/meshRegistry.go:216-224 `GetRegisteredServices` -/
def meServices : Prog MeLock MeVar := hold registerLock [.star (rd registered)]

/-- registry/meshRegistry.go after the start -/
def meshRegistry : List (Role MeLock MeVar) := [{ ops := [meRegister, meSubscribe, meServices] }]
end Mesh

section Dynamic
/-- dynamicConfig.go:24-33; `file` is the snapshot file -/
inductive DyLock | regLock | subLock | saveLock deriving DecidableEq
inductive DyVar | registerNodes | subscribeNodes | file deriving DecidableEq
open DyLock DyVar

/-- dynamicConfig.go:178-198 `getRegistryInfo` -/
def dyInfo : Prog DyLock DyVar := hold regLock [.star (rd registerNodes), hold subLock [.star (rd subscribeNodes)]]
/-- dynamicConfig.go:162-176 `saveSnapshot` -/
def dySave : Prog DyLock DyVar := hold saveLock [dyInfo, opt (wr file)]
/-- dynamicConfig.go:82-128 `Register`, `Unregister` -/
def dyRegister : Prog DyLock DyVar := all [hold regLock [rd registerNodes, opt (wr registerNodes)], dySave]
/-- dynamicConfig.go:148-160 `doSubscribe` -/
def dyDoSubscribe : Prog DyLock DyVar := hold subLock [rd subscribeNodes, opt (wr subscribeNodes)]
/-- dynamicConfig.go:130-146 `Subscribe` -/
def dySubscribe : Prog DyLock DyVar := all [dyDoSubscribe, opt dyDoSubscribe, dySave]

/-- dynamicConfig.go: the requests of the manage port -/
def dynamic : List (Role DyLock DyVar) := [{ ops := [dyRegister, dySubscribe, dyInfo] }]
end Dynamic

section Exporter
/-- server/server.go:42-54, 163-166 -/
inductive ExLock | lock deriving DecidableEq
inductive ExVar | exported | registries | available | url | providers deriving DecidableEq
open ExLock ExVar

/-- server/server.go:198-203 `RmProvider` -/
def exRmProvider : Prog ExLock ExVar := all [rd providers, opt (wr providers)]
/-- server/server.go:193-196 `AddProvider` -/
def exAddProvider : Prog ExLock ExVar := wr providers
/-- server/server.go:66-114 `Export` -/
def exExport : Prog ExLock ExVar :=
  hold lock [rd exported, opt (all [wr url, rd url, opt (all [wr registries, wr exported, wr available, rd url])])]
/-- server/server.go:116-129 `Unexport` -/
def exUnexport : Prog ExLock ExVar :=
  hold lock [rd exported, opt (all [rd registries, .star (rd url), exRmProvider, wr exported])]
/-- server/server.go:139-149 `Available`, `Unavailable` -/
def exAvailable : Prog ExLock ExVar := hold lock [wr available]
/-- server/server.go:151-153 `IsAvailable` -/
def exIsAvailable : Prog ExLock ExVar := rd available
/-- server/server.go:155-157 `GetURL` -/
def exGetURL : Prog ExLock ExVar := rd url
/-- server/server.go:209-229 `Call` of the message handler -/
def exCall : Prog ExLock ExVar := opt (rd providers)

/-- server/server.go: an exporter and the message handler of its server; calls; and those who manage services -/
def exporter : List (Role ExLock ExVar) :=
  [{ ops := [exCall] }, { ops := [exAddProvider, exExport, exUnexport, exAvailable, exIsAvailable, exGetURL] }]
end Exporter

section Connection
/-- endpoint/motanCommonEndpoint.go:369-394, 796-802, 34-59 -/
inductive CoLock | streamLock | heartbeatLock | shutdownLock | channelsLock | epLock deriving DecidableEq
inductive CoVar
  | streams | heartbeats | shutdown | shutdownErr | pool | factory | config
  | epChannels | epDestroyed | epAvailable | epErrorCount | epKeepaliveType | epKeepaliveRunning | epHeartbeatVersion
deriving DecidableEq
open CoLock CoVar

/-- endpoint/motanCommonEndpoint.go:657-659 `IsClosed` -/
def coIsClosed : Prog CoLock CoVar := rd shutdown
/-- endpoint/motanCommonEndpoint.go:784-794 `Close` -/
def coClose : Prog CoLock CoVar := hold shutdownLock [rd shutdown, opt (wr shutdown)]
/-- endpoint/motanCommonEndpoint.go:769-782 `closeOnErr` -/
def coCloseOnErr : Prog CoLock CoVar :=
  all [hold shutdownLock [rd shutdownErr, opt (wr shutdownErr), rd shutdown], opt coClose]
/-- endpoint/motanCommonEndpoint.go:610-626 `RemoveFromChannel` -/
def coRemove : Prog CoLock CoVar :=
  .alt (hold heartbeatLock [rd heartbeats, opt (wr heartbeats)]) (hold streamLock [rd streams, opt (wr streams)])
/-- endpoint/motanCommonEndpoint.go:631-642 `Call`, 574-591 `newStream`, 487-517 `Recv` -/
def coCall : Prog CoLock CoVar := all [coIsClosed, opt (all [hold streamLock [wr streams], opt coRemove])]
/-- endpoint/motanCommonEndpoint.go:644-655 `HeartBeat`, 593-608 `newHeartbeatStream` -/
def coHeartbeat : Prog CoLock CoVar := all [coIsClosed, opt (all [hold heartbeatLock [wr heartbeats], opt coRemove])]
/-- endpoint/motanCommonEndpoint.go:697-735 `handleMsg` -/
def coHandle : Prog CoLock CoVar :=
  .alt (hold heartbeatLock [rd heartbeats, wr heartbeats]) (hold streamLock [rd streams, wr streams])
/-- endpoint/motanCommonEndpoint.go:809-833 `Get` of the pool -/
def coGet : Prog CoLock CoVar := all [rd pool, opt (all [coIsClosed, opt (all [rd factory, rd config]), opt coCloseOnErr])]
/-- endpoint/motanCommonEndpoint.go:848-865 `Close` of the pool -/
def coClosePool : Prog CoLock CoVar := all [hold channelsLock [rd pool, wr pool, wr factory, wr config], opt (.star coClose)]
/-- endpoint/motanCommonEndpoint.go:252-273 `recordErrAndKeepalive`, `setKeepaliveType` -/
def coRecord : Prog CoLock CoVar := opt (all [awr epErrorCount, opt (all [awr epAvailable, awr epKeepaliveType])])
/-- endpoint/motanCommonEndpoint.go:149-202 `Call` of the endpoint -/
def coEpCall : Prog CoLock CoVar :=
  all [rd epChannels, .alt coRecord (all [coGet, opt coCall,
    .alt coRecord (all [awr epErrorCount, rd epHeartbeatVersion, opt (wr epHeartbeatVersion)])])]
/-- endpoint/motanCommonEndpoint.go:319-333 `heartbeat` -/
def coEpHeartbeat : Prog CoLock CoVar :=
  all [rd epChannels, coGet, opt (all [rd epHeartbeatVersion, coHeartbeat, opt (all [awr epAvailable, awr epErrorCount])])]
/-- endpoint/motanCommonEndpoint.go:279-317 `keepalive` -/
def coKeepalive : Prog CoLock CoVar :=
  .alt (hold epLock [rd epDestroyed, opt (ard epKeepaliveRunning)])
    (all [hold epLock [rd epDestroyed, ard epKeepaliveRunning, awr epKeepaliveRunning],
      .star (all [ard epKeepaliveType, opt coEpHeartbeat]), hold epLock [awr epKeepaliveRunning]])
/-- endpoint/motanCommonEndpoint.go:114-127 `Destroy` -/
def coDestroy : Prog CoLock CoVar :=
  hold epLock [rd epDestroyed, opt (all [awr epAvailable, wr epDestroyed, rd epChannels, opt coClosePool])]
/-- endpoint/motanCommonEndpoint.go:219-250 `initChannelPoolWithRetry`, when it runs in its own goroutine -/
def coInit : Prog CoLock CoVar := opt (all [wr epChannels, awr epAvailable])
/-- endpoint/motanCommonEndpoint.go:362-367 `IsAvailable` -/
def coEpIsAvailable : Prog CoLock CoVar := all [ard epAvailable, opt (ard epAvailable)]
/-- endpoint/motanCommonEndpoint.go:61-68 `GetRuntimeInfo` -/
def coEpInfo : Prog CoLock CoVar := all [ard epErrorCount, ard epKeepaliveRunning, ard epKeepaliveType]

/-- endpoint/motanCommonEndpoint.go: an endpoint, its pool and a connection: calls and whoever manages the endpoint; the
goroutines that handle messages, receive and send (661-668, 737-767); those that keep alive; the one that connects -/
def connection : List (Role CoLock CoVar) :=
  [{ ops := [coEpCall, coEpIsAvailable, coEpInfo, coDestroy] }, { ops := [coHandle, coCloseOnErr] }, { ops := [coKeepalive] },
   { ops := [coInit], single := true }]
end Connection

section Core
/-- core/motan.go:757-759, 1101-1108, 1130-1133, 1271-1275 -/
inductive CrLock | newRegistryLock | groupCacheLock | groupsLock | recorderLock deriving DecidableEq
inductive CrVar | registries | cachedGroups | groups | lastUpdTime | ring | keyBuf deriving DecidableEq
open CrLock CrVar

/-- core/motan.go:802-818 `GetRegistry` -/
def crGetRegistry : Prog CrLock CrVar := hold newRegistryLock [rd registries, opt (wr registries)]
/-- core/motan.go:762-774 `GetRuntimeInfo` -/
def crInfo : Prog CrLock CrVar := hold newRegistryLock [.star (rd registries)]
/-- core/motan.go:1135-1145, 1116-1128 `getGroups` -/
def crGroups : Prog CrLock CrVar :=
  all [hold groupCacheLock [rd cachedGroups, opt (wr cachedGroups)], ard lastUpdTime,
    opt (hold groupsLock [opt (all [awr groups, awr lastUpdTime])]), ard groups]
/-- core/motan.go:1285-1296 `AddRecord` -/
def crAdd : Prog CrLock CrVar := opt (hold recorderLock [rd ring, wr ring])
/-- core/motan.go:1298-1321 `GetRecords`, `generateRecordKey` -/
def crRecords : Prog CrLock CrVar := share recorderLock [rd ring, .star (all [rd keyBuf, wr keyBuf])]

/-- core/motan.go: the registries of the extension factory, the cache of groups, and a recorder -/
def core : List (Role CrLock CrVar) := [{ ops := [crGetRegistry, crInfo, crGroups, crAdd, crRecords] }]
end Core

section Agent
/-- agent.go `status` -/
inductive AgLock | none deriving DecidableEq
inductive AgVar | status deriving DecidableEq
open AgVar

/-- agent.go:172-183 `SetAllServicesAvailable`, `SetAllServicesUnavailable` -/
def agSet : Prog AgLock AgVar := awr status
/-- agent.go:231 `StartMotanAgentFromConfig`, 249 `startRegistryFailback`, manageHandler.go:98 `getRegistryStatus` -/
def agLoad : Prog AgLock AgVar := ard status
/-- manageHandler.go:57-79 `ServeHTTP` of `/200`, `/503`; and of `/status` (157) or anything else -/
def agSwitch : Prog AgLock AgVar := wr status
def agShow : Prog AgLock AgVar := all [rd status, rd status]

/-- agent.go, manageHandler.go: the status of the agent, once the manage port is open (so without 318-347, where the status
is found at the start) -/
def agent : List (Role AgLock AgVar) := [{ ops := [agSet, agLoad, agSwitch, agShow] }]
end Agent

end Motan.Race
