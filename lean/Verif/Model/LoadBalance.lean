import Verif.Basic.Rotate
import Verif.Basic.Strings
import Verif.Basic.Decimal
import Verif.Basic.AMap

/-!
# Load balancers (lb/)

Endpoints are elements of any type `E`; `avail` answers `IsAvailable` (fixed during one selection). Every `rand.Intn(n)`
is an explicit number, reduced modulo `n`. Map iteration orders are explicit lists.
-/

namespace Motan.Lb

variable {E : Type}

/-- lb/lb.go:23 `MaxSelectArraySize`. -/
def maxSelectArraySize : Nat := 3

/-! ## Selecting from a list (lb/lb.go:247-278) -/

/-- The loop of lb/lb.go:272-276: `n` more positions from `r + i` on. -/
def scanFrom (avail : E → Bool) (eps : List E) (r : Nat) : Nat → Nat → Option (Nat × E)
  | _, 0 => none
  | i, n + 1 =>
    match eps[(r + i) % eps.length]? with
    | some e => if avail e then some ((r + i) % eps.length, e) else scanFrom avail eps r (i + 1) n
    | none => none

/-- lb/lb.go:262-278 `SelectOneAtRandom`: the draws are `r1` and `r2`; `none` is (-1, nil). -/
def selectOneAtRandom (avail : E → Bool) (eps : List E) (r1 r2 : Nat) : Option (Nat × E) :=
  if eps.length = 0 then none
  else match eps[r1 % eps.length]? with
    | some e => if avail e then some (r1 % eps.length, e) else scanFrom avail eps (r2 % eps.length) 0 eps.length
    | none => none

/-- The loop of lb/lb.go:253-257: `n` more positions, with the endpoints found so far. -/
def collectFrom (avail : E → Bool) (eps : List E) (k : Nat) : Nat → Nat → List E → List E
  | _, 0, acc => acc
  | i, n + 1, acc =>
    if acc.length < maxSelectArraySize then
      match eps[(k + i) % eps.length]? with
      | some e => collectFrom avail eps k (i + 1) n (if avail e then acc ++ [e] else acc)
      | none => acc
    else acc

/-- lb/lb.go:247-259 `SelectArrayFromIndex`. -/
def selectArrayFromIndex (avail : E → Bool) (eps : List E) (k : Int) : List E :=
  if eps.length = 0 ∨ k < 0 then [] else collectFrom avail eps k.toNat 0 eps.length []

/-! ## Random and round robin (lb/randomLb.go, lb/roundrobinLb.go) -/

/-- lb/randomLb.go:17-21 `RandomLB.Select`. -/
def randomSelect (avail : E → Bool) (eps : List E) (r1 r2 : Nat) : Option E :=
  (selectOneAtRandom avail eps r1 r2).map Prod.snd

/-- lb/randomLb.go:23-30 `RandomLB.SelectArray`. -/
def randomSelectArray (avail : E → Bool) (eps : List E) (r1 r2 : Nat) : List E :=
  match selectOneAtRandom avail eps r1 r2 with
  | none => []
  | some (i, _) => selectArrayFromIndex avail eps i

/-- lb/roundrobinLb.go:39-49 `roundrobinSelect` with the counter before; the counter after comes with the result. -/
def roundrobinSelect (avail : E → Bool) (eps : List E) (idx : UInt32) (r1 r2 : Nat) : Option (Nat × E) × UInt32 :=
  if eps.length = 0 then (none, idx)
  else
    let next := idx + 1
    match eps[next.toNat % eps.length]? with
    | some e => if avail e then (some (next.toNat % eps.length, e), next) else (selectOneAtRandom avail eps r1 r2, next)
    | none => (none, next)

/-- lb/roundrobinLb.go:20-24 `RoundrobinLB.Select`. -/
def rrSelect (avail : E → Bool) (eps : List E) (idx : UInt32) (r1 r2 : Nat) : Option E × UInt32 :=
  let (x, i) := roundrobinSelect avail eps idx r1 r2
  (x.map Prod.snd, i)

/-- lb/roundrobinLb.go:26-33 `RoundrobinLB.SelectArray`. -/
def rrSelectArray (avail : E → Bool) (eps : List E) (idx : UInt32) (r1 r2 : Nat) : List E × UInt32 :=
  match roundrobinSelect avail eps idx r1 r2 with
  | (none, i) => ([], i)
  | (some (k, _), i) => (selectArrayFromIndex avail eps k, i)

/-! ## Consistent hash (lb/consistentHashKeyLb.go) -/

/-- The hash ring of github.com/buraksezer/consistent, by its two look-ups (not modelled further). `closest` is `none`
when the library returns an error. -/
structure HashRing (E : Type) where
  locate : Bytes → E
  closest : Bytes → Nat → Option (List E)

/-- lb/consistentHashKeyLb.go:65-78 `ConsistentHashLB.Select` for a request with this hash key ("" if it has none). -/
def hashSelect (avail : E → Bool) (ring : HashRing E) (eps : List E) (key : Bytes) (r1 r2 : Nat) : Option E :=
  match eps with
  | [e] => some e
  | _ =>
    if key ≠ [] ∧ avail (ring.locate key) = true then some (ring.locate key)
    else (selectOneAtRandom avail eps r1 r2).map Prod.snd

/-- lb/consistentHashKeyLb.go:80-99 `ConsistentHashLB.SelectArray`; `none` is the panic of `rand.Intn(0)`. -/
def hashSelectArray (avail : E → Bool) (ring : HashRing E) (eps : List E) (key : Bytes) (r : Nat) : Option (List E) :=
  let fallback : Option (List E) :=
    if eps.length = 0 then none else some (selectArrayFromIndex avail eps (r % eps.length : Nat))
  if eps.length > maxSelectArraySize ∧ key ≠ [] then
    match ring.closest key maxSelectArraySize with
    | some ms => some (ms.filter avail)
    | none => fallback
  else fallback

/-! ## Groups with weights (lb/lb.go:48-245) -/

/-- lb/lb.go:98-109 the weight of one group: a number clamped to 1..100, 1 if it is not a number. -/
def clampWeight (w : Bytes) : Nat :=
  match parseInt64 w with
  | (n, none) => if n < 1 then 1 else if n > 100 then 100 else n.toNat
  | (_, some _) => 1

/-- lb/lb.go:92-111 one part of the weight string. -/
def weightPart (acc : Bool × AMap Bytes Nat) (part : Bytes) : Bool × AMap Bytes Nat :=
  if part = [] then acc
  else match Strings.split b!":" part with
    | [g] => (acc.1, AMap.store acc.2 g 1)
    | g :: w :: _ => (false, AMap.store acc.2 g (clampWeight w))
    | [] => acc

/-- lb/lb.go:88-113 the weight string: whether groups are mixed, and the weight of every group it names. -/
def parseWeights (s : Bytes) : Bool × AMap Bytes Nat := (Strings.split b!"," s).foldl weightPart (true, [])

/-- lb/lb.go:123-130 endpoints by group. -/
def groupEp (group : E → Bytes) : List E → AMap Bytes (List E) → AMap Bytes (List E)
  | [], m => m
  | e :: es, m => groupEp group es (AMap.store m (group e) ((AMap.load m (group e)).getD [] ++ [e]))

/-- lb/lb.go:240-245 `basegcd` (on non-negative numbers). -/
def basegcd (n m : Nat) : Nat := if h : n = 0 ∨ m = 0 then m + n else basegcd m (n % m)
termination_by m
decreasing_by exact Nat.mod_lt _ (by omega)

/-- lb/lb.go:231-238 `findGcd`; `none` is the panic on an empty list. -/
def findGcd : List Nat → Option Nat
  | [] => none
  | v :: vs => some (vs.foldl basegcd v)

/-- The panics of `OnRefresh`. -/
inductive Panic
  | indexOutOfRange
  | divideByZero
deriving DecidableEq, Repr

/-- lb/lb.go:186-229 what selections use: one list, or a ring of groups with the endpoints of every group. The load
balancer of each group is one of the others, here only its endpoints. -/
inductive Refers (E : Type)
  | single (eps : List E)
  | weighted (ring : List Bytes) (eps : AMap Bytes (List E))

/-- lb/lb.go:81-160 `WeightedLbWrapper.OnRefresh`: `order` and `order'` are the orders in which the two loops over maps
visit the groups, `draws` the random numbers of the shuffle (core/util.go:94-101). -/
def onRefresh (group : E → Bytes) (weightString : Bytes) (eps : List E) (order order' : List Bytes)
    (draws : List (Nat × Nat)) : Except Panic (Refers E) :=
  if weightString = [] then .ok (.single eps)
  else
    let (mix, gws) := parseWeights weightString
    if mix then .ok (.single eps)
    else
      let byGroup := groupEp group eps []
      match findGcd (order.map fun g => (AMap.load gws g).getD 0) with
      | none => .error .indexOutOfRange
      | some gcd =>
        if gcd = 0 then .error .divideByZero
        else .ok (.weighted
          (shuffle (order'.flatMap fun g => List.replicate ((AMap.load gws g).getD 0 / gcd) g) draws) byGroup)

/-- lb/lb.go:211-215 and 217-221 the group the next call goes to, and the counter afterwards. `none` is the panic of an
empty ring. -/
def nextGroup (ring : List Bytes) (idx : UInt32) : Option Bytes × UInt32 :=
  let next := idx + 1
  (ring[next.toNat % ring.length]?, next)

/-! ## Weighted round robin (lb/weightRoundRobinLb.go, lb/weightedEpRefresher.go) -/

/-- core/util.go:310-315 `GetNonNegative`. -/
def getNonNegative (x : BitVec 64) : Nat := if 0 < x.toInt then x.toInt.toNat else (0x7fffffffffffffff#64 &&& x).toNat

/-- lb/weightedEpRefresher.go:159-175 `adjustWeight`. -/
def adjustWeight (weight : Bytes) (dflt : Int) : Int :=
  if weight = [] then dflt
  else match parseInt64 weight with
    | (n, none) => if n < 1 then 1 else if n > 500 then 500 else n
    | (_, some _) => dflt

/-- lb/weightedEpRefresher.go:220-225 `getWeight`: the dynamic weight if positive, else the static one. -/
def holderWeight (static dynamic : Int) : Int := if dynamic > 0 then dynamic else static

/-- The three ways of selecting. -/
inductive Selector
  | roundRobin
  | ring (weightRing : List UInt8)
  | window (windowSize : Nat) (weights : List Nat)
deriving DecidableEq

/-- lb/weightRoundRobinLb.go:187-194 the ring before shuffling: `byte(i)`, `weights[i]` times. -/
def ringOf : Nat → List Nat → List UInt8
  | _, [] => []
  | i, w :: ws => List.replicate w (UInt8.ofNat i) ++ ringOf (i + 1) ws

/-- lb/weightRoundRobinLb.go:235-243 the window size for `n` endpoints. -/
def shrink (n : Nat) : Nat → Nat
  | 0 => 0
  | w + 1 => if n % (w + 1) = 0 then shrink n w else w + 1

/-- lb/weightRoundRobinLb.go:235-243. -/
def windowSize (n : Nat) : Nat := if n > 50 then shrink n 50 else n

/-- lb/weightRoundRobinLb.go:58-107 `NotifyWeightChange` with these weights (they are positive). -/
def chooseSelector (weights : List Nat) (draws : List (Nat × Nat)) : Option Selector :=
  if weights.all (fun w => some w = weights.head?) then some .roundRobin
  else match findGcd weights with
    | none => none
    | some gcd =>
      let ws := if gcd > 1 then weights.map (· / gcd) else weights
      if ws.length ≤ 256 ∧ ws.sum ≤ 5120 then some (.ring (shuffle (ringOf 0 ws) draws))
      else some (.window (windowSize ws.length) ws)

/-- lb/weightRoundRobinLb.go:140-159 `roundRobinSelector.DoSelect`; the outer `none` is the panic of `% 0`. -/
def roundRobinDoSelect (avail : E → Bool) (eps : List E) (idx : BitVec 64) (r : Nat) :
    Option (Option E) × BitVec 64 :=
  let next := idx + 1
  if eps.length = 0 then (none, next)
  else match eps[getNonNegative next % eps.length]? with
    | some e =>
      if avail e then (some (some e), next)
      else (some ((scanFrom avail eps (r % eps.length) 0 eps.length).map Prod.snd), next)
    | none => (none, next)

/-- The loop of lb/weightRoundRobinLb.go:209-216. -/
def scanRing (avail : E → Bool) (eps : List E) (ring : List UInt8) (start : Nat) : Nat → Nat → Option E
  | _, 0 => none
  | i, n + 1 =>
    match ring[(start + i) % ring.length]? with
    | some b =>
      match eps[b.toNat]? with
      | some e => if avail e then some e else scanRing avail eps ring start (i + 1) n
      | none => none
    | none => none

/-- lb/weightRoundRobinLb.go:202-222 `weightedRingSelector.DoSelect`; the outer `none` is an index panic. -/
def ringDoSelect (avail : E → Bool) (eps : List E) (ring : List UInt8) (idx : BitVec 64) (r : Nat) :
    Option (Option E) × BitVec 64 :=
  let next := idx + 1
  match ring[getNonNegative next % ring.length]? with
  | none => (none, next)
  | some b =>
    match eps[b.toNat]? with
    | none => (none, next)
    | some e =>
      if avail e then (some (some e), next)
      else (some (scanRing avail eps ring (r % ring.length) 0 ring.length), next)

/-- lb/weightRoundRobinLb.go:297-301 `selectorItem`. -/
structure Item (E : Type) where
  ep : E
  weight : Nat
  current : Int

/-- lb/weightRoundRobinLb.go:266-277 the loop over the window: `n` more items from `start + i` on, with the total weight,
the greatest current weight and its index so far. One caller at a time; `int64` does not overflow for weights up to 500
(each addition is at most 500 and sums are bounded as proved). -/
def windowLoop (avail : E → Bool) (start : Nat) : Nat → Nat → List (Item E) → Int → Int → Nat →
    List (Item E) × Int × Int × Nat
  | _, 0, items, total, best, bi => (items, total, best, bi)
  | i, n + 1, items, total, best, bi =>
    let idx := (start + i) % items.length
    match items[idx]? with
    | none => (items, total, best, bi)
    | some it =>
      if avail it.ep then
        let c := it.current + it.weight
        let items := items.set idx { it with current := c }
        if c > best then windowLoop avail start (i + 1) n items (total + it.weight) c idx
        else windowLoop avail start (i + 1) n items (total + it.weight) best bi
      else windowLoop avail start (i + 1) n items total best bi

/-- The loop of lb/weightRoundRobinLb.go:288-293: `n` more items from `(idx + i)` on. -/
def windowFallback (avail : E → Bool) (items : List (Item E)) (idx : Nat) : Nat → Nat → Option E
  | _, 0 => none
  | i, n + 1 =>
    match items[(idx + i) % items.length]? with
    | some it => if avail it.ep then some it.ep else windowFallback avail items idx (i + 1) n
    | none => none

/-- lb/weightRoundRobinLb.go:254-295 `slidingWindowWeightedRoundRobinSelector.DoSelect`: the counter and items before
and after; `r` is the random number of the fallback. (`int(windowStartIndex)+i` could overflow only after about 2^63
selections; this is not modelled.) -/
def windowDoSelect (avail : E → Bool) (windowSize : Nat) (idx : BitVec 64) (items : List (Item E)) (r : Nat) :
    Option E × BitVec 64 × List (Item E) :=
  let next := idx + BitVec.ofNat 64 windowSize
  let start := getNonNegative next
  let (items, total, best, bi) := windowLoop avail start 0 windowSize items 0 0 0
  if best > 0 then
    match items[bi]? with
    | some it =>
      let items := items.set bi { it with current := it.current - total }
      if avail it.ep then (some it.ep, next, items)
      else (windowFallback avail items (start + r % windowSize) 1 (items.length - 1), next, items)
    | none => (none, next, items)
  else
    (windowFallback avail items (start + r % windowSize) 1 (items.length - 1), next, items)

/-- lb/weightRoundRobinLb.go:35-38 `WeightRoundRobinLB.SelectArray`. -/
def wrrSelectArray : List E := []

end Motan.Lb
