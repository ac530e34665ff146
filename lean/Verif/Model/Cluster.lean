import Verif.Basic.Rotate
import Verif.Model.RefersFilter

/-!
# The cluster's endpoints (cluster/motanCluster.go)

The cluster keeps one list of endpoints per registry, and the filtered and shuffled union it calls through. All
changes happen under `notifyLock`, so an execution is a sequence of whole notifications, filter changes, delayed
destructions (the goroutine started at the end of `Notify`) and `Destroy`.

Endpoints are numbered in creation order: two endpoints are the same object iff their numbers agree. What an
endpoint does (connections, filters: `addFilter`, `Initialize`, proxy flag, serialization) is modelled elsewhere or
left out; here an endpoint has the URL it was created with.
-/

namespace Motan.Cluster

open Motan.Url Motan.RefersFilter

/-- An endpoint object and its URL. -/
structure Ep where
  obj : Nat
  url : URL
deriving DecidableEq, Repr

/-- What does not change: the cluster's URL, and for which protocols `extFactory.GetEndPoint` has a constructor
(core/motan.go:819-826). -/
structure Env where
  url : URL
  known : Bytes → Bool

/-- The cluster (cluster/motanCluster.go:18-39), with the state of the world it acts on: what the load balancer was
last given (`OnRefresh`, `SetWeight`), the endpoints waiting to be destroyed (one list per goroutine of 226-232),
and the numbers of the destroyed ones in order. -/
structure State (N : Net) where
  registryRefers : AMap Bytes (List Ep) := []
  refers : List Ep := []
  refersFilter : Option (Filter N) := none
  closed : Bool := false
  balanced : List Ep := []
  weight : Bytes := []
  next : Nat := 0
  pending : List (List Ep) := []
  destroyed : List Nat := []

/-- `u.GetIdentity()`; the cache it fills is not tracked in the announced URLs. -/
def idOf (u : URL) : Bytes := (getIdentity u).1

/-- cluster/motanCluster.go:236-245 `processWeight`: what remains of the URLs, and the weight set. -/
def processWeight (urls : List (Option URL)) : List (Option URL) × Bytes :=
  match urls.getLast? with
  | some (some u) => if u.protocol = b!"rule" then (urls.dropLast, (u.param b!"weight").getD []) else (urls, [])
  | _ => (urls, [])

/-- cluster/motanCluster.go:193-195: the URL a new endpoint gets. (`Copy` never leaves a nil map.) -/
def endpointURL (env : Env) (u : URL) : URL :=
  (mergeParams (copy u) (env.url.params.getD [])).getD (copy u)

/-- cluster/motanCluster.go:170-175: the endpoints held for the registry, by identity. -/
def endpointMap (eps : List Ep) : AMap Bytes Ep := AMap.storeAll [] (eps.map fun e => (idOf e.url, e))

/-- cluster/motanCluster.go:177-213: the loop over the announced URLs, returning the new list, what is left of the
map, and the next free number. -/
def place (env : Env) : List (Option URL) → AMap Bytes Ep → Nat → List Ep × AMap Bytes Ep × Nat
  | [], m, n => ([], m, n)
  | none :: us, m, n => place env us m n
  | some u :: us, m, n =>
    if ¬ canServe u env.url then place env us m n
    else
      match AMap.load m (idOf u) with
      | some ep =>
        let r := place env us (AMap.erase m (idOf u)) n
        (ep :: r.1, r.2)
      | none =>
        if env.known (endpointURL env u).protocol then
          let r := place env us m (n + 1)
          ({ obj := n, url := endpointURL env u } :: r.1, r.2)
        else place env us m n

variable {N : Net}

/-- cluster/motanCluster.go:121-133 `refresh`: Go's map order and the shuffle are both arbitrary exchanges. -/
def refresh (s : State N) (order swaps : List (Nat × Nat)) : State N :=
  let all := (shuffle s.registryRefers order).flatMap Prod.snd
  let r := shuffle (filterRefers s.refersFilter Ep.url all) swaps
  { s with refers := r, balanced := r }

/-- cluster/motanCluster.go:163-233 `Notify`. `reg` is the identity of the registry's URL. -/
def notify (env : Env) (s : State N) (reg : Bytes) (urls : List (Option URL)) (order swaps : List (Nat × Nat)) :
    State N :=
  let (urls, w) := processWeight urls
  let s := { s with weight := w }
  let m := endpointMap ((AMap.load s.registryRefers reg).getD [])
  let (eps, m', n) := place env urls m s.next
  let s := { s with next := n }
  if eps.length = 0 then
    if s.registryRefers.length > 1 then
      let s := refresh { s with registryRefers := AMap.erase s.registryRefers reg } order swaps
      { s with pending := s.pending ++ [m'.map Prod.snd] }
    else s
  else
    let s := refresh { s with registryRefers := AMap.store s.registryRefers reg eps } order swaps
    { s with pending := s.pending ++ [m'.map Prod.snd] }

/-- cluster/motanCluster.go:431-440 `SetRefersFilter`. -/
def setRefersFilter (s : State N) (f : Option (Filter N)) (order swaps : List (Nat × Nat)) : State N :=
  if f.isNone ∧ s.refersFilter.isNone then s
  else refresh { s with refersFilter := f } order swaps

/-- cluster/motanCluster.go:226-232: the `k`-th waiting goroutine wakes up and destroys its endpoints. -/
def wake (s : State N) (k : Nat) : State N :=
  match s.pending[k]? with
  | none => s
  | some l => { s with pending := s.pending.eraseIdx k, destroyed := s.destroyed ++ l.map Ep.obj }

/-- cluster/motanCluster.go:281-299 `Destroy`. (Unsubscribing and destroying the load balancer are left out.) -/
def destroy (s : State N) : State N :=
  if s.closed then s
  else { s with destroyed := s.destroyed ++ s.refers.map Ep.obj, closed := true }

/-- One thing that happens to a cluster. -/
inductive Event (N : Net)
  | notify (reg : Bytes) (urls : List (Option URL)) (order swaps : List (Nat × Nat))
  | setFilter (f : Option (Filter N)) (order swaps : List (Nat × Nat))
  | wake (k : Nat)
  | destroy

/-- The effect of an event. -/
def step (env : Env) (s : State N) : Event N → State N
  | .notify reg urls o w => notify env s reg urls o w
  | .setFilter f o w => setRefersFilter s f o w
  | .wake k => wake s k
  | .destroy => destroy s

/-- A new cluster (cluster/motanCluster.go:80-110 `initCluster`, before any notification) after a history. -/
def run (env : Env) (h : List (Event N)) : State N := h.foldl (step env) {}

end Motan.Cluster
