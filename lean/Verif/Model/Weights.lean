import Verif.Model.LoadBalance
import Verif.Basic.Query

/-!
# The weights of the endpoints (lb/weightedEpRefresher.go, lb/weightRoundRobinLb.go:58-104)

The refresher of a weighted load balancer keeps one holder per endpoint with its static weight (from the parameters of
the endpoint's URL) and its dynamic weight (asked for from the server). Three kinds of goroutine act on it:

* whoever calls `OnRefresh` (one at a time: the cluster calls it under its lock),
* the goroutine of `doRefresh`, at every tick,
* one goroutine per holder being asked, and one that waits for them.

They are interleaved by an arbitrary list of operations `Op`; each is a piece of code between two points where another
goroutine can act. Holders live in a heap (`St.heap`) and are referred to by their index, as pointers are in the code.
An endpoint is an element of a type `E`; the endpoints of two lists are compared with `==`, that is by identity.
Whether an answer comes, when and which, is the argument of the operation.
-/

namespace Motan.Weights

open Motan.Lb

/-- core/constants.go:154 `DefaultMetaPrefix`. -/
def defaultMetaPrefix : Bytes := b!"META_"
/-- core/constants.go:162 `WeightMetaSuffixKey`. -/
def weightSuffix : Bytes := b!"WEIGHT"
/-- lb/weightedEpRefresher.go:16 `defaultEpWeight`. -/
def defaultEpWeight : Int := 10

/-- meta/meta.go:97-107 `GetMetaValue`; a missing key reads as the empty string. -/
def getMetaValue (envPrefix : Bytes) (m : AMap Bytes Bytes) (suffix : Bytes) : Bytes :=
  match m.load (envPrefix ++ suffix) with
  | some v => v
  | none => (m.load (defaultMetaPrefix ++ suffix)).getD []

/-- meta/meta.go:122-135 `GetEpStaticMeta`, of an endpoint whose URL has these parameters. -/
def getEpStaticMeta (envPrefix : Bytes) (params : AMap Bytes Bytes) : AMap Bytes Bytes :=
  params.filter fun p => defaultMetaPrefix.isPrefixOf p.1 || envPrefix.isPrefixOf p.1

/-- lb/weightedEpRefresher.go:144-157 `getEpWeight(ep, false, defaultEpWeight)`. -/
def staticWeight (envPrefix : Bytes) (params : AMap Bytes Bytes) : Int :=
  adjustWeight (getMetaValue envPrefix (getEpStaticMeta envPrefix params) weightSuffix) defaultEpWeight

/-- lb/weightedEpRefresher.go:144-157 `getEpWeight(ep, true, 0)`, when the server answers with the metadata `m`. -/
def dynamicWeight (envPrefix : Bytes) (m : AMap Bytes Bytes) : Int :=
  adjustWeight (getMetaValue envPrefix m weightSuffix) 0

/-- What the refresher is given: the prefix of metadata keys (meta/meta.go:48), the parameters of an endpoint's URL, whether
an endpoint's URL asks for dynamic weights (lb/weightedEpRefresher.go:216), and whether the cluster's does (line 38). -/
structure Env (E : Type) where
  envPrefix : Bytes
  params : E → AMap Bytes Bytes
  supports : E → Bool
  dynamicOn : Bool

/-- lb/weightedEpRefresher.go:205-210 `WeightedEpHolder`. -/
structure Holder (E : Type) where
  ep : E
  static : Int
  support : Bool
  dynamic : Int
deriving DecidableEq

/-- lb/weightedEpRefresher.go:220-225 `getWeight`. -/
def Holder.weight {E : Type} (h : Holder E) : Int := holderWeight h.static h.dynamic

/-- lb/weightedEpRefresher.go:76-77, 212-218: `getEpWeight` and `BuildWeightedEpHolder`. -/
def newHolder {E : Type} (env : Env E) (e : E) : Holder E :=
  ⟨e, staticWeight env.envPrefix (env.params e), env.supports e, 0⟩

/-- What `getEpWeight(ep, true, 0)` brings (lb/weightedEpRefresher.go:100-108): metadata, the error that says that the
server has no such service, or another error. -/
inductive Answer
  | found (m : AMap Bytes Bytes)
  | notSupported
  | failed
deriving DecidableEq

/-- Where a goroutine of lb/weightedEpRefresher.go:96-113 is: not started; it has read the old weight (line 98) and asks;
it has written the new one (line 109); it has ended. -/
inductive Prog
  | start
  | asking (old : Int)
  | wrote (old : Int)
  | done
deriving DecidableEq

/-- One goroutine of lb/weightedEpRefresher.go:96-113, and its holder. -/
structure Task where
  holder : Nat
  prog : Prog
deriving DecidableEq

/-- A call of `refreshDynamicWeight` that waits (lb/weightedEpRefresher.go:90-142): its goroutines, `needNotify`, and
whether the goroutine of lines 122-135 has passed `wg.Wait()` and is sending on `finishChan` (line 132). -/
structure Batch where
  tasks : List Task
  flag : Bool
  sending : Bool
deriving DecidableEq

/-- Where a caller of the refresher is. -/
inductive Phase
  | idle
  /-- In `refreshDynamicWeight`; `all` are the holders of `OnRefresh` (line 63), nothing for a tick. -/
  | fetching (all : List Nat) (b : Batch)
  /-- Before line 86. -/
  | storing (all : List Nat)
  /-- Before `w.mutex.Lock()` (line 51). -/
  | locking
  /-- In `NotifyWeightChange`, having loaded the holders `hs` and read the weights of the first of them. -/
  | reading (hs : List Nat) (ws : List Int)
deriving DecidableEq

/-- The state: the holders ever made; `weightedEpHolders`; the selector of the load balancer, as the holders and the weights
it was made from (lb/weightRoundRobinLb.go:76-103; how it selects is `Lb.chooseSelector`); the two callers; the
goroutines that outlived the call that started them; whether the process has died of a panic. -/
structure St (E : Type) where
  heap : List (Holder E)
  current : Option (List Nat)
  selector : Option (List Nat × List Int)
  refresh : Phase
  tick : Phase
  stray : List Task
  crashed : Bool
deriving DecidableEq

/-- lb/weightedEpRefresher.go:33-44, lb/weightRoundRobinLb.go:17-21. -/
def init {E : Type} : St E := ⟨[], none, none, .idle, .idle, [], false⟩

/-- The two callers of the refresher. -/
inductive Who | refresh | tick
deriving DecidableEq

/-- A caller's goroutines, or those left over. -/
inductive Owner | of (w : Who) | stray
deriving DecidableEq

/-- What can happen next. `reads`, `answers` and `compares` are the steps of the `i`-th goroutine of a caller, and name its
holder. -/
inductive Op (E : Type)
  | onRefresh (eps : List E)
  | tick
  | reads (o : Owner) (i h : Nat)
  | answers (o : Owner) (i h : Nat) (a : Answer)
  | compares (o : Owner) (i h : Nat)
  | waited (w : Who)
  | finish (w : Who)
  | timeout (w : Who)
  | stores
  | locks (w : Who)
  | readsWeight (w : Who)
  | sets (w : Who)

variable {E : Type}

/-- lb/weightedEpRefresher.go:66-74: the first of the old holders whose endpoint is `e`. -/
def findHolder [DecidableEq E] (heap : List (Holder E)) (old : List Nat) (e : E) : Option Nat :=
  old.find? fun i => (heap[i]?).map Holder.ep = some e

/-- lb/weightedEpRefresher.go:64-81: the heap, `allHolder` and `newHolder` after the loop. -/
def build [DecidableEq E] (env : Env E) (old : List Nat) : List E → List (Holder E) →
    List (Holder E) × List Nat × List Nat
  | [], heap => (heap, [], [])
  | e :: eps, heap =>
    match findHolder heap old e with
    | some i =>
      match build env old eps heap with
      | (heap', all, new) => (heap', i :: all, new)
    | none =>
      match build env old eps (heap ++ [newHolder env e]) with
      | (heap', all, new) => (heap', heap.length :: all, heap.length :: new)

/-- lb/weightedEpRefresher.go:90-117: the goroutines started, one for each holder that supports it. -/
def launch (heap : List (Holder E)) (hs : List Nat) : Batch :=
  ⟨(hs.filter fun i => ((heap[i]?).map Holder.support).getD false).map fun i => ⟨i, .start⟩, false, false⟩

def St.phase (s : St E) : Who → Phase
  | .refresh => s.refresh
  | .tick => s.tick

def St.setPhase (s : St E) : Who → Phase → St E
  | .refresh, p => { s with refresh := p }
  | .tick, p => { s with tick := p }

def Who.other : Who → Who
  | .refresh => .tick
  | .tick => .refresh

/-- The goroutines of an owner. -/
def St.tasks (s : St E) : Owner → List Task
  | .stray => s.stray
  | .of w => match s.phase w with
    | .fetching _ b => b.tasks
    | _ => []

/-- Replace the goroutines of an owner; `flag`: `needNotify.Store(true)` of the call they belong to, which nobody reads any
more if it has returned. -/
def St.setTasks (s : St E) (ts : List Task) (flag : Bool) : Owner → St E
  | .stray => { s with stray := ts }
  | .of w => match s.phase w with
    | .fetching all b => s.setPhase w (.fetching all { b with tasks := ts, flag := b.flag || flag })
    | _ => s

/-- What follows `refreshDynamicWeight` (lb/weightedEpRefresher.go:84-86, 200-202). -/
def after (w : Who) (all : List Nat) (flag : Bool) : Phase :=
  match w with
  | .refresh => .storing all
  | .tick => if flag then .locking else .idle

/-- One operation; `none` if it cannot happen now. -/
def step [DecidableEq E] (env : Env E) (s : St E) : Op E → Option (St E)
  -- lb/weightedEpRefresher.go:57-85
  | .onRefresh eps =>
    if s.crashed = true ∨ s.refresh ≠ .idle then none
    else match build env (s.current.getD []) eps s.heap with
      | (heap, all, new) =>
        some { s with heap := heap, refresh := if new = [] then .storing all else .fetching all (launch heap new) }
  -- lb/weightedEpRefresher.go:185-200
  | .tick =>
    if s.crashed = true ∨ s.tick ≠ .idle ∨ env.dynamicOn = false then none
    else some { s with tick := .fetching [] (launch s.heap (s.current.getD [])) }
  -- lb/weightedEpRefresher.go:98
  | .reads o i h =>
    if s.crashed = true then none
    else match (s.tasks o)[i]?, s.heap[h]? with
      | some ⟨h', .start⟩, some hd =>
        if h' = h then some (s.setTasks ((s.tasks o).set i ⟨h, .asking hd.dynamic⟩) false o) else none
      | _, _ => none
  -- lb/weightedEpRefresher.go:100-109
  | .answers o i h a =>
    if s.crashed = true then none
    else match (s.tasks o)[i]?, s.heap[h]? with
      | some ⟨h', .asking old⟩, some hd =>
        if h' = h then
          match a with
          | .found m =>
            some ({ s with heap := s.heap.set h { hd with dynamic := dynamicWeight env.envPrefix m } }.setTasks
              ((s.tasks o).set i ⟨h, .wrote old⟩) false o)
          | .notSupported =>
            some ({ s with heap := s.heap.set h { hd with support := false } }.setTasks
              ((s.tasks o).set i ⟨h, .done⟩) false o)
          | .failed => some (s.setTasks ((s.tasks o).set i ⟨h, .done⟩) false o)
        else none
      | _, _ => none
  -- lb/weightedEpRefresher.go:110-112, 97
  | .compares o i h =>
    if s.crashed = true then none
    else match (s.tasks o)[i]?, s.heap[h]? with
      | some ⟨h', .wrote old⟩, some hd =>
        if h' = h then some (s.setTasks ((s.tasks o).set i ⟨h, .done⟩) (decide (old ≠ hd.dynamic)) o) else none
      | _, _ => none
  -- lb/weightedEpRefresher.go:123-132
  | .waited w =>
    if s.crashed = true then none
    else match s.phase w with
      | .fetching all b =>
        if b.sending = false ∧ b.tasks.all (fun t => t.prog = .done) then
          some (s.setPhase w (.fetching all { b with sending := true }))
        else none
      | _ => none
  -- lb/weightedEpRefresher.go:138-141
  | .finish w =>
    if s.crashed = true then none
    else match s.phase w with
      | .fetching all b => if b.sending then some (s.setPhase w (after w all b.flag)) else none
      | _ => none
  -- lb/weightedEpRefresher.go:137, 141, 121: `close(finishChan)` makes the goroutine that is sending panic
  | .timeout w =>
    if s.crashed = true then none
    else match s.phase w with
      | .fetching all b =>
        if b.sending then some { s with crashed := true }
        else some ({ s with stray := s.stray ++ b.tasks }.setPhase w (after w all b.flag))
      | _ => none
  -- lb/weightedEpRefresher.go:86
  | .stores =>
    if s.crashed = true then none
    else match s.refresh with
      | .storing all => some { s with current := some all, refresh := .locking }
      | _ => none
  -- lb/weightedEpRefresher.go:51, lb/weightRoundRobinLb.go:60-65
  | .locks w =>
    if s.crashed = true then none
    else match s.phase w, s.phase w.other with
      | .locking, .reading _ _ => none
      | .locking, _ =>
        match s.current with
        | none => some (s.setPhase w .idle)
        | some hs => some (s.setPhase w (.reading hs []))
      | _, _ => none
  -- lb/weightRoundRobinLb.go:69-70
  | .readsWeight w =>
    if s.crashed = true then none
    else match s.phase w with
      | .reading hs ws =>
        match hs[ws.length]? with
        | some h =>
          match s.heap[h]? with
          | some hd => some (s.setPhase w (.reading hs (ws ++ [hd.weight])))
          | none => none
        | none => none
      | _ => none
  -- lb/weightRoundRobinLb.go:76-103, lb/weightedEpRefresher.go:52
  | .sets w =>
    if s.crashed = true then none
    else match s.phase w with
      | .reading hs ws =>
        if ws.length = hs.length then some ({ s with selector := some (hs, ws) }.setPhase w .idle) else none
      | _ => none

/-- A schedule: `none` if an operation is not possible when its turn comes. -/
def run [DecidableEq E] (env : Env E) : St E → List (Op E) → Option (St E)
  | s, [] => some s
  | s, op :: ops => (step env s op).bind fun s' => run env s' ops

/-- lb/weightedEpRefresher.go:178: `time.NewTicker` panics, in a goroutine that does not recover, unless the period is
positive. (`time.Second * time.Duration(refreshPeriod)` is computed in 64 bits.) -/
def tickerPanics (refreshPeriod : BitVec 64) : Bool := decide ((refreshPeriod * 1000000000#64).toInt ≤ 0)

end Motan.Weights
