import Verif.Model.Url

/-!
# The rate-limit filter (filter/rateLimit.go)

The filter takes a token from the service's bucket and one from the method's bucket, sleeping until they are there,
and passes the call on. The buckets are those of github.com/juju/ratelimit v1.0.1, whose source is not in the
repository: `Bucket` and `take` follow its documented behaviour. How it picks a filling interval and a quantum for a
rate (within one percent) is a parameter. Times are in nanoseconds.

Rates are the finite numbers that `strconv.ParseFloat` reads; its `NaN` and `Inf` are left out.
-/

namespace Motan.RateLimit

open Motan.Strings
open Motan.Url

/-- ratelimit.Bucket: `quantum` tokens arrive every `fill` nanoseconds after `start`, up to `capacity`. A negative
`avail` counts tokens promised to callers that wait. -/
structure Bucket where
  start : Int
  capacity : Int
  quantum : Int
  fill : Int
  avail : Int
  latest : Int
deriving DecidableEq, Repr

/-- ratelimit.Bucket.currentTick. (Times before `start` do not occur.) -/
def Bucket.tick (b : Bucket) (now : Int) : Int := (now - b.start) / b.fill

/-- ratelimit.Bucket.adjustavailableTokens. -/
def Bucket.adjust (b : Bucket) (tick : Int) : Bucket :=
  if b.avail ≥ b.capacity then { b with latest := tick }
  else
    let a := b.avail + (tick - b.latest) * b.quantum
    { b with latest := tick, avail := if a > b.capacity then b.capacity else a }

/-- ratelimit.Bucket.take for one token: how long to wait, or none if that is longer than `maxWait`. -/
def Bucket.take (b : Bucket) (now maxWait : Int) : Option Int × Bucket :=
  let tick := b.tick now
  let b := b.adjust tick
  let avail := b.avail - 1
  if avail ≥ 0 then (some 0, { b with avail := avail })
  else
    let endTick := tick + (-avail + b.quantum - 1) / b.quantum
    let wait := b.start + endTick * b.fill - now
    if wait > maxWait then (none, b) else (some wait, { b with avail := avail })

/-- ratelimit.NewBucketWithRate: full at its start. `pace` is the choice of quantum and filling interval. -/
def newBucket (pace : Rat → Int × Int) (now : Int) (rate : Rat) (capacity : Int) : Bucket :=
  { start := now, capacity := capacity, quantum := (pace rate).1, fill := (pace rate).2, avail := capacity, latest := 0 }

/-- filter/rateLimit.go:172-184 `getDefaultCapacity`. -/
def defaultCapacity (rate : Rat) : Int :=
  let c := rate * 2
  if c ≥ 1000 ∧ c ≤ 5000 then c.floor
  else if c < 1000 then 1000
  else 5000

/-- filter/rateLimit.go:141-161 `getKeyValue`: method and rate of a parameter. -/
def getKeyValue (parseFloat : Bytes → Option Rat) (key value pre : Bytes) : Option (Bytes × Rat) :=
  if hasPrefix key pre then
    match split pre key with
    | [_, m] =>
      match parseFloat value with
      | some r => if m ≠ [] ∧ r > 0 then some (m, r) else none
      | none => none
    | _ => none
  else none

/-- core/url.go:211-218 `GetTimeDuration` in milliseconds (the number must fit in 32 bits). -/
def getTimeMs (u : URL) (k : Bytes) (dflt : Int) : Int :=
  match (u.param k).map parseInt64 with
  | some (n, none) => if -2 ^ 31 ≤ n ∧ n < 2 ^ 31 then n else dflt
  | _ => dflt

/-- filter/rateLimit.go:23-30: the filter. Only the buckets and the switch change. -/
structure Filter where
  service : Option Bucket
  maxWait : Int
  methods : AMap Bytes Bucket
  switch : Bool
  url : URL
deriving DecidableEq, Repr

/-- filter/rateLimit.go:39-55: the service's limit. -/
def serviceBucket (parseFloat : Bytes → Option Rat) (pace : Rat → Int × Int) (now : Int) (u : URL) : Option Bucket :=
  let rlp := getParam u b!"rateLimit" []
  if rlp = [] then none
  else
    match parseFloat rlp with
    | some rate =>
      if rate ≤ 0 then none
      else some (newBucket pace now rate (getPositiveIntValue u b!"capacity" (defaultCapacity rate)).1)
    | none => none

/-- filter/rateLimit.go:57-71: the methods' limits. -/
def methodBuckets (parseFloat : Bytes → Option Rat) (pace : Rat → Int × Int) (now : Int) (u : URL) : AMap Bytes Bucket :=
  let rates : AMap Bytes Rat := AMap.storeAll []
    ((u.params.getD []).filterMap fun kv => getKeyValue parseFloat kv.1 kv.2 b!"rateLimit.")
  rates.map fun mr =>
    (mr.1, newBucket pace now mr.2 (getMethodPositiveIntValue u mr.1 [] b!"capacity" (defaultCapacity mr.2)).1)

/-- filter/rateLimit.go:36-82 `NewFilter`. The switch is on unless it was registered before (79). (Buckets made at one
time; Go's map order does not matter, see `limit_config`.) -/
def newFilter (parseFloat : Bytes → Option Rat) (pace : Rat → Int × Int) (now : Int) (switch : Bool) (u : URL) : Filter where
  service := serviceBucket parseFloat pace now u
  maxWait := getTimeMs u b!"requestTimeout" 1000 * 1000000
  methods := methodBuckets parseFloat pace now u
  switch := switch
  url := u

/-- A request, as far as the filter looks at it: method, descriptor and the timeout attachment (empty: absent). -/
structure Req where
  method : Bytes
  desc : Bytes
  tmo : Bytes
deriving DecidableEq, Repr

/-- A 64-bit signed product wraps around. -/
def wrap64 (n : Int) : Int := (n + 2 ^ 63) % 2 ^ 64 - 2 ^ 63

/-- filter/rateLimit.go:93-103: how long to wait for the method's token. -/
def methodWait (f : Filter) (r : Req) : Int :=
  let ms :=
    if r.tmo ≠ [] then
      match parseInt64 r.tmo with
      | (v, none) => v
      | (_, some _) => 0
    else (getMethodPositiveIntValue f.url r.method r.desc b!"requestTimeout" 1000).1
  wrap64 (ms * 1000000)

/-- What has become of a call: sleeping until its service token or its method token is there, passed on, refused. The
times: when the filter was entered, and when the tokens were due. -/
inductive Phase
  | sleepService (arrived due : Int)
  | sleepMethod (arrived : Int) (sDue : Option Int) (due : Int)
  | passed (arrived : Int) (sDue mDue : Option Int) (time : Int)
  | refused (arrived : Int) (sDue : Option Int) (time : Int)
deriving DecidableEq, Repr

/-- One filter, the clock, and all calls so far. -/
structure St where
  now : Int
  filter : Filter
  calls : AMap Nat (Req × Phase) := []
deriving DecidableEq, Repr

/-- What can happen: time passes, the switch is set, a call enters the filter, a sleeping call wakes up. -/
inductive Op
  | time (t : Int)
  | setSwitch (b : Bool)
  | enter (id : Nat) (r : Req)
  | wake (id : Nat)
deriving DecidableEq, Repr

/-- filter/rateLimit.go:92-110: the part after the service's bucket. -/
def second (s : St) (id : Nat) (r : Req) (arrived : Int) (sDue : Option Int) : St :=
  match s.filter.methods.load r.method with
  | none => { s with calls := s.calls.store id (r, .passed arrived sDue none s.now) }
  | some b =>
    match b.take s.now (methodWait s.filter r) with
    | (none, b') => { s with
        filter := { s.filter with methods := s.filter.methods.store r.method b' }
        calls := s.calls.store id (r, .refused arrived sDue s.now) }
    | (some w, b') => { s with
        filter := { s.filter with methods := s.filter.methods.store r.method b' }
        calls := s.calls.store id (r, if w > 0 then .sleepMethod arrived sDue (s.now + w)
          else .passed arrived sDue (some s.now) s.now) }

/-- filter/rateLimit.go:85-91: the switch and the service's bucket. -/
def first (s : St) (id : Nat) (r : Req) : St :=
  if s.filter.switch then
    match s.filter.service with
    | none => second s id r s.now none
    | some b =>
      match b.take s.now s.filter.maxWait with
      | (none, b') => { s with
          filter := { s.filter with service := some b' }, calls := s.calls.store id (r, .refused s.now none s.now) }
      | (some w, b') =>
        let s' := { s with filter := { s.filter with service := some b' } }
        if w > 0 then { s' with calls := s'.calls.store id (r, .sleepService s.now (s.now + w)) }
        else second s' id r s.now (some s.now)
  else { s with calls := s.calls.store id (r, .passed s.now none none s.now) }

/-- filter/rateLimit.go:84-111 `Filter`, called by any number of goroutines. A token is taken under the bucket's lock,
so in one step; a sleep may last longer than asked for. Ids are not used twice. -/
def step (s : St) : Op → Option St
  | .time t => if s.now ≤ t then some { s with now := t } else none
  | .setSwitch b => some { s with filter := { s.filter with switch := b } }
  | .enter id r => if s.calls.load id = none then some (first s id r) else none
  | .wake id =>
    match s.calls.load id with
    | some (r, .sleepService arrived due) => if due ≤ s.now then some (second s id r arrived (some due)) else none
    | some (r, .sleepMethod arrived sDue due) =>
      if due ≤ s.now then some { s with calls := s.calls.store id (r, .passed arrived sDue (some due) s.now) } else none
    | _ => none

/-- A history. -/
def play (s : St) : List Op → Option St
  | [] => some s
  | o :: os => (step s o).bind fun s' => play s' os

end Motan.RateLimit
