import Verif.Basic.AMap

/-!
# The pool of workers that handles the requests of a server (server/motanserver.go)

The loop of every connection reads one request after the other. A motan2 request is given to a pool of workers that all
servers of the process share. The library of the pool (`github.com/panjf2000/ants/v2` 2.9.0) is not in the repository;
it is modelled by what it documents: a task runs in its own worker, there are at most as many workers as the pool has
size, a caller of `Submit` waits while none is free, and if as many callers as allowed wait already, `Submit` fails.
-/

namespace Motan.Workers

/-- server/motanserver.go:24: the options of the pool. -/
def poolSize : Nat := 50000
def maxBlocking : Nat := 1024

/-- A request (its number) and the connection it was read from. -/
structure Req where
  conn : Nat
  id : Nat
deriving DecidableEq, Repr

/-- The pool, and what became of the requests. -/
structure St where
  size : Nat := poolSize
  /-- requests being handled, each by its worker -/
  running : List Req := []
  /-- requests whose connection waits in `Submit` -/
  waiting : List Req := []
  /-- requests that were handled -/
  handled : List Req := []
  /-- requests whose `Submit` failed -/
  dropped : List Req := []
deriving DecidableEq, Repr

/-- `Submit` of the library, once: a worker takes the task, or the call fails, or it waits. The loop ignores the error
that `Submit` returns (server/motanserver.go:200-202). -/
def submit (max : Nat) (s : St) (r : Req) : St :=
  if s.running.length < s.size then { s with running := s.running ++ [r] }
  else if max ≤ s.waiting.length then { s with dropped := s.dropped ++ [r] }
  else { s with waiting := s.waiting ++ [r] }

/-- What may happen. -/
inductive Op
  /-- the loop of a connection has read a request and submits it; it reads nothing while it waits in `Submit`
  (server/motanserver.go:178-206) -/
  | read (r : Req)
  /-- the handling of a request ends, by a response, without one, or by a panic (`processV2`,
  server/motanserver.go:208-209) -/
  | finish (r : Req)
  /-- a caller that waits in `Submit` is woken and tries again -/
  | wake (r : Req)
  /-- server/motanserver.go:26-28 `SetProcessPoolSize`: `Tune` of the library ignores what is not positive -/
  | resize (n : Int)
deriving DecidableEq, Repr

/-- One action; one that cannot happen leaves the state as it is. -/
def step (max : Nat) (s : St) : Op → St
  | .read r => if r.conn ∈ s.waiting.map Req.conn then s else submit max s r
  | .finish r => if r ∈ s.running then { s with running := s.running.erase r, handled := s.handled ++ [r] } else s
  | .wake r => if r ∈ s.waiting then submit max { s with waiting := s.waiting.erase r } r else s
  | .resize n => if 0 < n then { s with size := n.toNat } else s

/-- A history. -/
def run (max : Nat) (s : St) (ops : List Op) : St := ops.foldl (step max) s

end Motan.Workers
