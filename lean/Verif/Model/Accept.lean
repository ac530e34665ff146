import Verif.Basic.AMap

/-!
# The loop by which a server takes connections, and its end (server/motanserver.go)

What a connection's own goroutine reads and writes is in `Model/Server.lean`.
-/

namespace Motan.Accept

/-- Where the goroutine of a connection is (server/motanserver.go:165-169): started; counted, it handles messages; it has
closed the connection; it is no longer counted. -/
inductive Phase
  | started | handling | closed | over
deriving DecidableEq, Repr

/-- Where the loop is (server/motanserver.go:143-162): in `Accept`; `Accept` has failed and the channel is looked at; it
has returned. -/
inductive Loop
  | accepting | failed | returned
deriving DecidableEq, Repr

/-- Where a call of `Destroy` is (server/motanserver.go:132-140): before `Close`; before the channel is sent to; it has
returned after a successful or a failed `Close`. -/
inductive Destroy
  | called | closed | succeeded | refused
deriving DecidableEq, Repr

/-- A server after `Open`. The channel has room for one value (server/motanserver.go:71). `count` is the number of
connections that the status page shows (server/motanserver.go:21, 34-44); here all of them are of one server. -/
structure St where
  listening : Bool := true
  channel : Bool := false
  loop : Loop := .accepting
  destroys : List Destroy := []
  conns : List Phase := []
  count : Int := 0
  /-- how often the loop has logged that `Accept` failed -/
  logged : Nat := 0
deriving DecidableEq, Repr

/-- What may happen. -/
inductive Op
  /-- a connection arrives and `Accept` returns it -/
  | arrive
  /-- `Accept` fails: the listener is closed, or the system refuses -/
  | fail
  /-- the loop looks at the channel -/
  | look
  /-- `Destroy` is called; call `i` closes the listener; it sends -/
  | destroy
  | close (i : Nat)
  | send (i : Nat)
  /-- the goroutine of connection `i` goes on; `handleConn` ends when its loop ends or panics -/
  | begin (i : Nat)
  | stop (i : Nat)
  | leave (i : Nat)
deriving DecidableEq, Repr

/-- server/motanserver.go:145, 155-160: only an open listener gives connections. -/
def arrive (s : St) : St :=
  if s.loop = .accepting ∧ s.listening = true then { s with conns := s.conns ++ [.started] } else s

/-- server/motanserver.go:145-146. -/
def fail (s : St) : St := if s.loop = .accepting then { s with loop := .failed } else s

/-- server/motanserver.go:147-153. -/
def look (s : St) : St :=
  if s.loop = .failed then
    if s.channel = true then { s with channel := false, loop := .returned }
    else { s with loop := .accepting, logged := s.logged + 1 }
  else s

/-- server/motanserver.go:133: a listener can be closed once. -/
def close (s : St) (i : Nat) : St :=
  match s.destroys[i]? with
  | some .called =>
    if s.listening = true then { s with listening := false, destroys := s.destroys.set i .closed }
    else { s with destroys := s.destroys.set i .refused }
  | _ => s

/-- server/motanserver.go:136: a send to a full channel would wait. -/
def send (s : St) (i : Nat) : St :=
  match s.destroys[i]? with
  | some .closed => if s.channel = true then s else { s with channel := true, destroys := s.destroys.set i .succeeded }
  | _ => s

/-- server/motanserver.go:166. -/
def begin (s : St) (i : Nat) : St :=
  match s.conns[i]? with
  | some .started => { s with conns := s.conns.set i .handling, count := s.count + 1 }
  | _ => s

/-- server/motanserver.go:168-169: deferred calls run after a panic too. -/
def stop (s : St) (i : Nat) : St :=
  match s.conns[i]? with
  | some .handling => { s with conns := s.conns.set i .closed }
  | _ => s

/-- server/motanserver.go:167. -/
def leave (s : St) (i : Nat) : St :=
  match s.conns[i]? with
  | some .closed => { s with conns := s.conns.set i .over, count := s.count - 1 }
  | _ => s

/-- One action; one that cannot happen leaves the state as it is. -/
def step (s : St) : Op → St
  | .arrive => arrive s
  | .fail => fail s
  | .look => look s
  | .destroy => { s with destroys := s.destroys ++ [.called] }
  | .close i => close s i
  | .send i => send s i
  | .begin i => begin s i
  | .stop i => stop s i
  | .leave i => leave s i

/-- A history. -/
def run (s : St) (ops : List Op) : St := ops.foldl step s

end Motan.Accept
