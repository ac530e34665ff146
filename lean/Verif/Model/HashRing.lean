import Verif.Model.LoadBalance

/-!
# The ring of the consistent-hash load balancer

lb/consistentHashKeyLb.go: `OnRefresh`, `buildConsistent`, `buildConsistent0` and `Select`, alone and with callers of
`Select` at the same time. (`SelectArray` is in Model/LoadBalance.lean.)

The library github.com/buraksezer/consistent is a parameter: it makes, from a number of partitions, a number of
replicas, a load and the addresses of the members, a function from keys to members, or it panics. Loads are elements of
any type (the code uses float64). Reads and writes of the fields are taken to be atomic; the code uses no lock, and a
slice can even be read while it is half written.
-/

namespace Motan.HashRing

open Lb

/-- What the load balancer works with: the address of an endpoint (`GetURL().GetAddressStr()`), the parameters
`consistentHashKey.partSize` and `consistentHashKey.replica` of its URL (0 if absent), the load of the first build
(lb/consistentHashKeyLb.go:117-123: the parameter, at least 1.1), a load increased by 0.1, and `consistent.New`
(none: a panic; otherwise which member a key belongs to). -/
structure Conf (E L : Type) where
  addr : E → Bytes
  part : Int
  replica : Int
  firstLoad : L
  more : L → L
  make : Int → Int → L → List Bytes → Option (Bytes → Nat)

variable {E L : Type}

/-- lb/consistentHashKeyLb.go:31-33 `lastPartSize`, `load` (none: 0), `replica`. -/
structure Params (L : Type) where
  part : Int := 0
  load : Option L := none
  replica : Int := 0

/-- lb/consistentHashKeyLb.go:27-34: the endpoints, the ring with its members (none: nil), the parameters. -/
structure St (E L : Type) where
  eps : List E := []
  ring : Option (List E × (Bytes → Nat)) := none
  params : Params L := {}

/-- lb/consistentHashKeyLb.go:105-114. -/
def partSize (c : Conf E L) (last : Int) (n : Nat) : Int :=
  let p := if last = 0 then c.part else last
  if p < n * 2 then n * 5 + 271 else p

/-- lb/consistentHashKeyLb.go:126-136. -/
def replicaOf (c : Conf E L) (cur : Int) (n : Nat) : Int :=
  if cur = 0 then
    if c.replica ≤ 0 then (if n < 100 then 20 else 10) else c.replica
  else cur

/-- lb/consistentHashKeyLb.go:146-158 and `buildConsistent0` 168-183: at most so many attempts. -/
def attempt (c : Conf E L) (part replica : Int) (eps : List E) : Nat → L → Option ((Bytes → Nat) × L)
  | 0, _ => none
  | n + 1, load =>
    match c.make part replica load (eps.map c.addr) with
    | some f => some (f, load)
    | none => attempt c part replica eps n (c.more load)

/-- lb/consistentHashKeyLb.go:104-166 `buildConsistent`: the parameters after it, and the ring (none: false). -/
def build (c : Conf E L) (p : Params L) (eps : List E) : Params L × Option (Bytes → Nat) :=
  let part := partSize c p.part eps.length
  let load := p.load.getD c.firstLoad
  let replica := replicaOf c p.replica eps.length
  match attempt c part replica eps 21 load with
  | some (f, l) => ({ part := part, load := some l, replica := replica }, some f)
  | none => ({ p with load := some load, replica := replica }, none)

/-- lb/consistentHashKeyLb.go:51-63 `OnRefresh`. -/
def refresh (c : Conf E L) (s : St E L) (eps : List E) : St E L :=
  if eps.length = 1 then { s with eps := eps, ring := none }
  else
    match (build c s.params eps).2 with
    | some f => { eps := eps, ring := some (eps, f), params := (build c s.params eps).1 }
    | none => { s with params := (build c s.params eps).1 }

/-- A load balancer after some refreshes. -/
def after (c : Conf E L) (lists : List (List E)) : St E L := lists.foldl (refresh c) {}

/-- lb/consistentHashKeyLb.go:65-78 `Select` for a request with this hash key ("" if it has none); the outer none: a panic,
the inner none: nil. -/
def select (s : St E L) (avail : E → Bool) (key : Bytes) (r1 r2 : Nat) : Option (Option E) :=
  if s.eps.length = 1 then (s.eps[0]?).map some
  else if key = [] then some ((selectOneAtRandom avail s.eps r1 r2).map Prod.snd)
  else
    match s.ring with
    | none => none
    | some (ms, f) =>
      match ms[f key]? with
      | none => none
      | some e => if avail e then some (some e) else some ((selectOneAtRandom avail s.eps r1 r2).map Prod.snd)

/-! ## Callers of `Select` during `OnRefresh` -/

/-- An assignment of `OnRefresh` that is still to be made. -/
inductive Write (E : Type)
  | eps (l : List E)
  | ring (r : Option (List E × (Bytes → Nat)))

/-- Where a caller of `Select` is. -/
inductive Pc (E : Type)
  /-- before 66 -/
  | start (key : Bytes)
  /-- before 67 -/
  | single
  /-- before 72 -/
  | hash (key : Bytes)
  /-- before 75 -/
  | random
  | done (e : Option E)
  | panicked
deriving DecidableEq

structure M (E L : Type) where
  s : St E L := {}
  writes : List (Write E) := []
  pcs : List (Pc E) := []

/-- What happens: a refresh begins (cluster/motanCluster.go:121-133, called with a lock held, so that refreshes do not
overlap); it assigns the next field; somebody calls `Select`; a caller goes on. -/
inductive Op (E : Type)
  | refresh (eps : List E)
  | write
  | call (key : Bytes)
  | go (i : Nat) (avail : E → Bool) (r1 r2 : Nat)

/-- lb/consistentHashKeyLb.go:52-62 and 159: the assignments of a refresh, in order. -/
def writesOf (c : Conf E L) (s : St E L) (eps : List E) : List (Write E) :=
  if eps.length = 1 then [.eps eps, .ring none]
  else
    match (build c s.params eps).2 with
    | some f => [.ring (some (eps, f)), .eps eps]
    | none => []

/-- The parameters after a refresh. (Only `OnRefresh` uses them; they are assigned at its beginning here.) -/
def paramsOf (c : Conf E L) (s : St E L) (eps : List E) : Params L :=
  if eps.length = 1 then s.params else (build c s.params eps).1

def Write.apply (s : St E L) : Write E → St E L
  | .eps l => { s with eps := l }
  | .ring r => { s with ring := r }

/-- lb/consistentHashKeyLb.go:65-78: one read of a field and what follows. -/
def Pc.next (s : St E L) (avail : E → Bool) (r1 r2 : Nat) : Pc E → Option (Pc E)
  | .start key => some (if s.eps.length = 1 then .single else if key = [] then .random else .hash key)
  | .single => some (match s.eps[0]? with | some e => .done (some e) | none => .panicked)
  | .hash key =>
    match s.ring with
    | none => some .panicked
    | some (ms, f) =>
      match ms[f key]? with
      | none => some .panicked
      | some e => some (if avail e then .done (some e) else .random)
  | .random => some (.done ((selectOneAtRandom avail s.eps r1 r2).map Prod.snd))
  | .done _ => none
  | .panicked => none

/-- One step; none: it cannot happen now. -/
def step (c : Conf E L) (m : M E L) : Op E → Option (M E L)
  | .refresh eps =>
    match m.writes with
    | [] => some { m with s := { m.s with params := paramsOf c m.s eps }, writes := writesOf c m.s eps }
    | _ :: _ => none
  | .write =>
    match m.writes with
    | [] => none
    | w :: ws => some { m with s := w.apply m.s, writes := ws }
  | .call key => some { m with pcs := m.pcs ++ [.start key] }
  | .go i avail r1 r2 =>
    ((m.pcs[i]?).bind (Pc.next m.s avail r1 r2)).map fun pc => { m with pcs := m.pcs.set i pc }

def run (c : Conf E L) (m : M E L) : List (Op E) → Option (M E L)
  | [] => some m
  | op :: ops => (step c m op).bind fun t => run c t ops

end Motan.HashRing
