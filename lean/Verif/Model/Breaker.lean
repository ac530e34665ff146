import Verif.Model.Failfast
import Verif.Model.LoadBalance
import Verif.Model.Ha

/-!
# Fail-fast endpoints under a round-robin load balancer

filter/failfast.go together with core/motan.go 1089-1099 `FilterEndPoint.IsAvailable`, lb/roundrobinLb.go, lb/lb.go 247-278 and
cluster/motanCluster.go 391-402 (the runtime page). Asking a fail-fast endpoint whether it is available changes its state: a yes
for an endpoint that has failed too often is the one probe of its interval. So the load balancer is modelled here with
questions that have an effect; that it selects as in LoadBalance.lean, where they have none, is a theorem.

Simplifications: the fail-fast filter is the only filter with a status; every endpoint has an address of its own; the clock
stands still during one selection or one look at the page.
-/

namespace Motan.Breaker

open Convert (Response)

variable {E : Type} [DecidableEq E]

/-- The questions of a load balancer: the answer, and the state after it. -/
abbrev Ask (S E : Type) := S → E → Bool × S

/-- core/motan.go:1089-1099 `FilterEndPoint.IsAvailable`, with filter/failfast.go:76-89: first the filter, then (if it agrees)
the endpoint itself, `up`. -/
def ask (now : Int) (up : E → Bool) : Ask (E → Failfast.Status) E := fun st e =>
  let r := Failfast.isAvailable (st e) now now
  (r.1 && up e, fun x => if x = e then r.2 else st x)

section
omit [DecidableEq E]
variable {S : Type}

/-- The loop of lb/lb.go:272-276. -/
def scanFrom (q : Ask S E) (eps : List E) (r : Nat) : Nat → Nat → S → Option (Nat × E) × S
  | _, 0, s => (none, s)
  | i, n + 1, s =>
    match eps[(r + i) % eps.length]? with
    | some e => if (q s e).1 then (some ((r + i) % eps.length, e), (q s e).2) else scanFrom q eps r (i + 1) n (q s e).2
    | none => (none, s)

/-- lb/lb.go:262-278 `SelectOneAtRandom`. -/
def selectOneAtRandom (q : Ask S E) (eps : List E) (r1 r2 : Nat) (s : S) : Option (Nat × E) × S :=
  if eps.length = 0 then (none, s)
  else match eps[r1 % eps.length]? with
    | some e =>
      if (q s e).1 then (some (r1 % eps.length, e), (q s e).2)
      else scanFrom q eps (r2 % eps.length) 0 eps.length (q s e).2
    | none => (none, s)

/-- lb/roundrobinLb.go:39-49 `roundrobinSelect`: what is selected, the state and the counter after. -/
def roundrobinSelect (q : Ask S E) (eps : List E) (idx : UInt32) (r1 r2 : Nat) (s : S) : Option (Nat × E) × S × UInt32 :=
  if eps.length = 0 then (none, s, idx)
  else
    let next := idx + 1
    match eps[next.toNat % eps.length]? with
    | some e =>
      if (q s e).1 then (some (next.toNat % eps.length, e), (q s e).2, next)
      else
        let (x, s) := selectOneAtRandom q eps r1 r2 (q s e).2
        (x, s, next)
    | none => (none, s, next)

/-- The loop of lb/lb.go:253-257. -/
def collectFrom (q : Ask S E) (eps : List E) (k : Nat) : Nat → Nat → List E → S → List E × S
  | _, 0, acc, s => (acc, s)
  | i, n + 1, acc, s =>
    if acc.length < Lb.maxSelectArraySize then
      match eps[(k + i) % eps.length]? with
      | some e => collectFrom q eps k (i + 1) n (if (q s e).1 then acc ++ [e] else acc) (q s e).2
      | none => (acc, s)
    else (acc, s)

/-- lb/roundrobinLb.go:26-33 `SelectArray`, with lb/lb.go:247-259. -/
def selectArray (q : Ask S E) (eps : List E) (idx : UInt32) (r1 r2 : Nat) (s : S) : List E × S × UInt32 :=
  match roundrobinSelect q eps idx r1 r2 s with
  | (none, s, i) => ([], s, i)
  | (some (k, _), s, i) => ((collectFrom q eps k 0 eps.length [] s).1, (collectFrom q eps k 0 eps.length [] s).2, i)

end

/-- filter/failfast.go:62 what counts as a failure: no response, or one with an exception. -/
def failed (r : Option Response) : Bool :=
  match r with
  | none => true
  | some r => r.exception.isSome

/-- What happens to the endpoints of a cluster. -/
inductive Event (E : Type)
  /-- A call selects an endpoint; `up` are those that have connections. -/
  | select (now : Int) (up : E → Bool) (r1 r2 : Nat)
  /-- A call to this endpoint has ended, of this cluster or (filter/failfast.go:41-58) of another one with the same address. -/
  | ended (e : E) (r : Option Response) (now : Int)
  /-- The endpoint is asked whether it is available, by the runtime page or by another cluster. -/
  | asked (e : E) (up : Bool) (now : Int)

/-- The fail-fast states, the counter of the load balancer, and (for the specification) the endpoints selected so far with the
time, newest first. -/
structure St (E : Type) where
  status : E → Failfast.Status
  counter : UInt32
  picks : List (Int × E)

/-- A cluster made at time `t0`. -/
def init (t0 : Int) (counter : UInt32) : St E := ⟨fun _ => Failfast.newStatus t0, counter, []⟩

/-- What a call selects now. -/
def pick (eps : List E) (s : St E) (now : Int) (up : E → Bool) (r1 r2 : Nat) : Option E :=
  (roundrobinSelect (ask now up) eps s.counter r1 r2 s.status).1.map Prod.snd

/-- One event: lb/roundrobinLb.go:20-24, filter/failfast.go:60-74, core/motan.go:1089-1099. -/
def step (eps : List E) (s : St E) : Event E → St E
  | .select now up r1 r2 =>
    let x := roundrobinSelect (ask now up) eps s.counter r1 r2 s.status
    { status := x.2.1, counter := x.2.2,
      picks := match x.1 with
        | some (_, e) => (now, e) :: s.picks
        | none => s.picks }
  | .ended e r now => { s with status := fun x => if x = e then Failfast.filter (s.status e) (failed r) now else s.status x }
  | .asked e up now => { s with status := (ask now (fun _ => up) s.status e).2 }

/-- A history, newest event first. -/
def run (t0 : Int) (counter : UInt32) (eps : List E) : List (Event E) → St E
  | [] => init t0 counter
  | ev :: h => step eps (run t0 counter eps h) ev

/-- An attempt of a call: when it selects, when it has ended, and what the selection finds and draws. -/
structure Attempt (E : Type) where
  now : Int
  done : Int
  up : E → Bool
  r1 : Nat
  r2 : Nat

/-- The history of attempts made one after another (newest first), as those of ha/failoverHA.go:30-59 are: each selects, and the
endpoint selected answers what it always answers. `sel` is what the load balancer selects after a history. -/
def serial (sel : List (Event E) → Int → (E → Bool) → Nat → Nat → Option E) (answer : E → Option Response) :
    List (Attempt E) → List (Event E)
  | [] => []
  | a :: l =>
    let h := serial sel answer l
    match sel h a.now a.up a.r1 a.r2 with
    | some e => .ended e (answer e) a.done :: .select a.now a.up a.r1 a.r2 :: h
    | none => .select a.now a.up a.r1 a.r2 :: h

/-- lb/roundrobinLb.go:20-24: what the round robin selects after a history. -/
def rrAfter (t0 : Int) (counter : UInt32) (eps : List E) : List (Event E) → Int → (E → Bool) → Nat → Nat → Option E :=
  fun h now up r1 r2 => pick eps (run t0 counter eps h) now up r1 r2

/-- cluster/motanCluster.go:391-402: the runtime page asks every endpoint (newest event first). -/
def page (eps : List E) (up : E → Bool) (now : Int) : List (Event E) := eps.reverse.map fun e => .asked e (up e) now

/-! ## The sliding window (lb/weightRoundRobinLb.go:254-295) -/

section
omit [DecidableEq E]
variable {S : Type}

/-- lb/weightRoundRobinLb.go:266-277 the loop over the window, as `Lb.windowLoop`. -/
def windowLoop (q : Ask S E) (start : Nat) : Nat → Nat → List (Lb.Item E) → Int → Int → Nat → S →
    (List (Lb.Item E) × Int × Int × Nat) × S
  | _, 0, items, total, best, bi, s => ((items, total, best, bi), s)
  | i, n + 1, items, total, best, bi, s =>
    let idx := (start + i) % items.length
    match items[idx]? with
    | none => ((items, total, best, bi), s)
    | some it =>
      if (q s it.ep).1 then
        let c := it.current + it.weight
        let items := items.set idx { it with current := c }
        if c > best then windowLoop q start (i + 1) n items (total + it.weight) c idx (q s it.ep).2
        else windowLoop q start (i + 1) n items (total + it.weight) best bi (q s it.ep).2
      else windowLoop q start (i + 1) n items total best bi (q s it.ep).2

/-- The loop of lb/weightRoundRobinLb.go:288-293. -/
def windowFallback (q : Ask S E) (items : List (Lb.Item E)) (idx : Nat) : Nat → Nat → S → Option E × S
  | _, 0, s => (none, s)
  | i, n + 1, s =>
    match items[(idx + i) % items.length]? with
    | some it => if (q s it.ep).1 then (some it.ep, (q s it.ep).2) else windowFallback q items idx (i + 1) n (q s it.ep).2
    | none => (none, s)

/-- lb/weightRoundRobinLb.go:254-295 `DoSelect`: the endpoint with the greatest weight is asked a second time (281). -/
def windowDoSelect (q : Ask S E) (windowSize : Nat) (idx : BitVec 64) (items : List (Lb.Item E)) (r : Nat) (s : S) :
    Option E × BitVec 64 × List (Lb.Item E) × S :=
  let next := idx + BitVec.ofNat 64 windowSize
  let start := Lb.getNonNegative next
  let ((items, total, best, bi), s) := windowLoop q start 0 windowSize items 0 0 0 s
  if best > 0 then
    match items[bi]? with
    | some it =>
      let items := items.set bi { it with current := it.current - total }
      if (q s it.ep).1 then (some it.ep, next, items, (q s it.ep).2)
      else
        let x := windowFallback q items (start + r % windowSize) 1 (items.length - 1) (q s it.ep).2
        (x.1, next, items, x.2)
    | none => (none, next, items, s)
  else
    let x := windowFallback q items (start + r % windowSize) 1 (items.length - 1) s
    (x.1, next, items, x.2)

end

/-- The fail-fast states, the window's counter and items, and the endpoints selected so far with the time, newest first. -/
structure Win (E : Type) where
  status : E → Failfast.Status
  idx : BitVec 64
  items : List (Lb.Item E)
  picks : List (Int × E)

/-- One event under the sliding window; the first random number is not used. -/
def winStep (s : Win E) : Event E → Win E
  | .select now up _ r =>
    let x := windowDoSelect (ask now up) (Lb.windowSize s.items.length) s.idx s.items r s.status
    { status := x.2.2.2, idx := x.2.1, items := x.2.2.1,
      picks := match x.1 with
        | some e => (now, e) :: s.picks
        | none => s.picks }
  | .ended e r now => { s with status := fun x => if x = e then Failfast.filter (s.status e) (failed r) now else s.status x }
  | .asked e up now => { s with status := (ask now (fun _ => up) s.status e).2 }

/-- A history from a state on, newest event first. -/
def winRun (s : Win E) : List (Event E) → Win E
  | [] => s
  | ev :: h => winStep (winRun s h) ev

/-! ## The other two modes of the weighted load balancer (lb/weightRoundRobinLb.go:140-222) -/

section
omit [DecidableEq E]
variable {S : Type}

/-- lb/weightRoundRobinLb.go:140-159 `roundRobinSelector.DoSelect`: what is selected, the state and the counter after. (The
panic for no endpoints at all is in `Lb.roundRobinDoSelect`.) -/
def wrrDoSelect (q : Ask S E) (eps : List E) (idx : BitVec 64) (r : Nat) (s : S) : Option E × S × BitVec 64 :=
  let next := idx + 1
  match eps[Lb.getNonNegative next % eps.length]? with
  | some e =>
    if (q s e).1 then (some e, (q s e).2, next)
    else
      let x := scanFrom q eps (r % eps.length) 0 eps.length (q s e).2
      (x.1.map Prod.snd, x.2, next)
  | none => (none, s, next)

/-- The loop of lb/weightRoundRobinLb.go:209-216. -/
def scanRing (q : Ask S E) (eps : List E) (ring : List UInt8) (start : Nat) : Nat → Nat → S → Option E × S
  | _, 0, s => (none, s)
  | i, n + 1, s =>
    match ring[(start + i) % ring.length]? with
    | some b =>
      match eps[b.toNat]? with
      | some e => if (q s e).1 then (some e, (q s e).2) else scanRing q eps ring start (i + 1) n (q s e).2
      | none => (none, s)
    | none => (none, s)

/-- lb/weightRoundRobinLb.go:202-217 `weightedRingSelector.DoSelect`. (The panics for an empty ring, or a number on it that is
no endpoint's, are in `Lb.ringDoSelect`.) -/
def ringDoSelect (q : Ask S E) (eps : List E) (ring : List UInt8) (idx : BitVec 64) (r : Nat) (s : S) :
    Option E × S × BitVec 64 :=
  let next := idx + 1
  match ring[Lb.getNonNegative next % ring.length]? with
  | none => (none, s, next)
  | some b =>
    match eps[b.toNat]? with
    | none => (none, s, next)
    | some e =>
      if (q s e).1 then (some e, (q s e).2, next)
      else
        let x := scanRing q eps ring (r % ring.length) 0 ring.length (q s e).2
        (x.1, x.2, next)

end

/-- The fail-fast states, the selector's counter, and the endpoints selected so far with the time, newest first. -/
structure Wst (E : Type) where
  status : E → Failfast.Status
  idx : BitVec 64
  picks : List (Int × E)

/-- A cluster made at time `t0`, with the counter of its selector. -/
def winit (t0 : Int) (c0 : BitVec 64) : Wst E := ⟨fun _ => Failfast.newStatus t0, c0, []⟩

/-- lb/weightRoundRobinLb.go:27-33 `Select`, in the modes that have no state but a counter. (The window is `winStep`.) -/
def wselect (eps : List E) (sel : Lb.Selector) (s : Wst E) (now : Int) (up : E → Bool) (r : Nat) :
    Option E × (E → Failfast.Status) × BitVec 64 :=
  match sel with
  | .roundRobin => wrrDoSelect (ask now up) eps s.idx r s.status
  | .ring ring => ringDoSelect (ask now up) eps ring s.idx r s.status
  | .window _ _ => (none, s.status, s.idx)

/-- One event; the first random number is not used. -/
def wstep (eps : List E) (sel : Lb.Selector) (s : Wst E) : Event E → Wst E
  | .select now up _ r =>
    let x := wselect eps sel s now up r
    { status := x.2.1, idx := x.2.2,
      picks := match x.1 with
        | some e => (now, e) :: s.picks
        | none => s.picks }
  | .ended e r now => { s with status := fun x => if x = e then Failfast.filter (s.status e) (failed r) now else s.status x }
  | .asked e up now => { s with status := (ask now (fun _ => up) s.status e).2 }

/-- A history, newest event first. -/
def wrun (t0 : Int) (c0 : BitVec 64) (eps : List E) (sel : Lb.Selector) : List (Event E) → Wst E
  | [] => winit t0 c0
  | ev :: h => wstep eps sel (wrun t0 c0 eps sel h) ev

/-- lb/weightRoundRobinLb.go:27-33: what the weighted load balancer selects after a history. -/
def wAfter (t0 : Int) (c0 : BitVec 64) (eps : List E) (sel : Lb.Selector) : List (Event E) → Int → (E → Bool) → Nat → Nat → Option E :=
  fun h now up _ r => (wselect eps sel (wrun t0 c0 eps sel h) now up r).1

/-! ## Load balancers without a state of their own (lb/randomLb.go, lb/consistentHashKeyLb.go) -/

/-- lb/consistentHashKeyLb.go:65-78 `Select`, as `Lb.hashSelect`. -/
def hashSelect {S : Type} (q : Ask S E) (ring : Lb.HashRing E) (eps : List E) (key : Bytes) (r1 r2 : Nat) (s : S) : Option E × S :=
  match eps with
  | [e] => (some e, s)
  | _ =>
    if key ≠ [] then
      if (q s (ring.locate key)).1 then (some (ring.locate key), (q s (ring.locate key)).2)
      else ((selectOneAtRandom q eps r1 r2 (q s (ring.locate key)).2).1.map Prod.snd,
        (selectOneAtRandom q eps r1 r2 (q s (ring.locate key)).2).2)
    else ((selectOneAtRandom q eps r1 r2 s).1.map Prod.snd, (selectOneAtRandom q eps r1 r2 s).2)

/-- A selection: what is selected, and the fail-fast states after it. -/
abbrev Choose (E : Type) := Int → (E → Bool) → Nat → Nat → (E → Failfast.Status) → Option E × (E → Failfast.Status)

/-- lb/randomLb.go:17-21 `Select`. -/
def randomLb (eps : List E) : Choose E := fun now up r1 r2 st =>
  ((selectOneAtRandom (ask now up) eps r1 r2 st).1.map Prod.snd, (selectOneAtRandom (ask now up) eps r1 r2 st).2)

/-- lb/consistentHashKeyLb.go:65-78 `Select`. The first number of an event stands for the request and the first draw: `key` and
`draw` are the key of the request and the draw. -/
def hashLb (ring : Lb.HashRing E) (eps : List E) (key : Nat → Bytes) (draw : Nat → Nat) : Choose E := fun now up r1 r2 st =>
  hashSelect (ask now up) ring eps (key r1) (draw r1) r2 st

/-- The fail-fast states, and (for the specification) what was selected, newest first. -/
structure Xst (E : Type) where
  status : E → Failfast.Status
  picks : List (Int × E)

/-- One event, as `step`: filter/failfast.go:60-74, core/motan.go:1089-1099, and the selection `f`. -/
def xstep (f : Choose E) (s : Xst E) : Event E → Xst E
  | .select now up r1 r2 =>
    let x := f now up r1 r2 s.status
    { status := x.2,
      picks := match x.1 with
        | some e => (now, e) :: s.picks
        | none => s.picks }
  | .ended e r now => { s with status := fun x => if x = e then Failfast.filter (s.status e) (failed r) now else s.status x }
  | .asked e up now => { s with status := (ask now (fun _ => up) s.status e).2 }

/-- A history, newest event first, of a cluster made at time `t0`. -/
def xrun (t0 : Int) (f : Choose E) : List (Event E) → Xst E
  | [] => ⟨fun _ => Failfast.newStatus t0, []⟩
  | ev :: h => xstep f (xrun t0 f h) ev

/-- What is selected after a history. -/
def xAfter (t0 : Int) (f : Choose E) : List (Event E) → Int → (E → Bool) → Nat → Nat → Option E :=
  fun h now up r1 r2 => (f now up r1 r2 (xrun t0 f h).status).1

end Motan.Breaker
