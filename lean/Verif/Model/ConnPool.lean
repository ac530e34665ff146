import Verif.Basic.Bytes

/-!
# The connection pool of an endpoint (endpoint/motanCommonEndpoint.go:796-927)

`ChannelPool` as a machine: goroutines in `Get`, one `Close`, and connections that break at any time. A connection is a
number; the pool's Go channel is the list of what it holds, nil slots included. endpoint/motanEndpoint.go:670-802
(`V2ChannelPool`) is the same code.

Simplifications: `Close` of a connection is one step (lines 784-794); a dialled connection whose configuration is refused
(lines 906-909; the maximal content length of an endpoint is always positive) is not modelled.
-/

namespace Motan.ConnPool

/-- Where a goroutine in `Get` is (lines 809-833). -/
inductive PC where
  /-- Before line 810. -/
  | start
  /-- Before the receive, line 814. -/
  | waiting
  /-- After it, with `ok` and the connection. -/
  | got (ok : Bool) (c : Option Nat)
  /-- Before `c.factory()`, line 816; in it. -/
  | calling
  | dialing
  /-- Before the send, lines 826 and 844; `ok` says whether a slot was taken. -/
  | back (ok : Bool) (c : Option Nat)
  /-- Returned, with an error (`none`) or a connection. -/
  | done (c : Option Nat)
  /-- The call of the nil factory. -/
  | panicked
deriving DecidableEq, Repr

/-- Where `Close` is (lines 848-865). -/
inductive CPC where
  | never
  /-- Before line 858. -/
  | locked
  /-- In the loop of lines 859-863. -/
  | draining
  | done
deriving DecidableEq, Repr

/-- The pool: capacity, contents of the Go channel, whether it is closed, whether the fields were set to nil, which
connections are open, the goroutines. -/
structure St where
  cap : Nat
  slots : List (Option Nat)
  closed : Bool
  released : Bool
  conns : List Bool
  getters : List PC
  closer : CPC
deriving DecidableEq, Repr

/-- The connection is open (`!IsClosed()`, line 657). -/
def St.isOpen (s : St) (c : Nat) : Bool := s.conns[c]?.getD false

/-- Lines 784-794. -/
def closeConn (conns : List Bool) (c : Nat) : List Bool := conns.set c false

/-- What happens. -/
inductive Act where
  /-- Another goroutine calls `Get`. -/
  | call
  /-- Goroutine `i` goes on. -/
  | get (i : Nat)
  /-- Dialling of goroutine `i` ends. -/
  | dialled (i : Nat) (ok : Bool)
  /-- A connection breaks (lines 661-668, 758-761). -/
  | broken (c : Nat)
  /-- `Close` is called; it goes on. -/
  | close
  | closer
deriving DecidableEq, Repr

/-- The condition of line 815: nil or closed. -/
def St.stale (s : St) : Option Nat → Bool
  | none => true
  | some c => !s.isOpen c

/-- Goroutine `i` is now at `pc`. -/
def St.at (s : St) (i : Nat) (pc : PC) : St := { s with getters := s.getters.set i pc }

/-- endpoint/motanCommonEndpoint.go:809-846 `Get` and `retChannelPool`, one step; `none` if it blocks. -/
def getStep (s : St) (i : Nat) (pc : PC) : Option St :=
  match pc with
  | .start => some (s.at i (if s.released then .done none else .waiting))
  | .waiting =>
    match s.slots with
    | c :: rest => some { s.at i (.got true c) with slots := rest }
    | [] => if s.closed then some (s.at i (.got false none)) else none
  | .got ok c =>
    if ok && s.stale c then some (s.at i .calling)
    else some (s.at i (.back ok c))
  | .calling => some (s.at i (if s.released then .panicked else .dialing))
  | .dialing => none
  | .back _ c =>
    if s.closed then
      match c with
      | some c' => some { s.at i (.done c) with conns := closeConn s.conns c' }
      | none => some (s.at i (.done none))
    else if s.slots.length < s.cap then some { s.at i (.done c) with slots := s.slots ++ [c] }
    else none
  | .done _ => none
  | .panicked => none

/-- One step; `none` if it cannot be taken. -/
def step (s : St) : Act → Option St
  | .call => some { s with getters := s.getters ++ [.start] }
  | .get i =>
    match s.getters[i]? with
    | some pc => getStep s i pc
    | none => none
  | .dialled i ok =>
    match s.getters[i]? with
    | some .dialing =>
      if ok then some { s.at i (.back true (some s.conns.length)) with conns := s.conns ++ [true] }
      else some (s.at i (.back true none))
    | _ => none
  | .broken c => some { s with conns := closeConn s.conns c }
  | .close =>
    match s.closer with
    | .never => some { s with released := true, closer := .locked }
    | _ => some s
  | .closer =>
    match s.closer with
    | .locked => some { s with closed := true, closer := .draining }
    | .draining =>
      match s.slots with
      | some c :: rest => some { s with slots := rest, conns := closeConn s.conns c }
      | none :: rest => some { s with slots := rest }
      | [] => some { s with closer := .done }
    | _ => none

/-- A schedule: steps that cannot be taken are left out. -/
def run (s : St) : List Act → St
  | [] => s
  | a :: as => run ((step s a).getD s) as

/-- The pool with these connections made. -/
def made (cap : Nat) (slots : List (Option Nat)) (conns : List Bool) : St :=
  { cap := cap, slots := slots, closed := false, released := false, conns := conns, getters := [], closer := .never }

/-- Lines 859-863 without interruption. -/
def closeAll : List (Option Nat) → List Bool → List Bool
  | [], conns => conns
  | some c :: slots, conns => closeAll slots (closeConn conns c)
  | none :: slots, conns => closeAll slots conns

/-- endpoint/motanCommonEndpoint.go:867-897 `NewChannelPool`; `dials` are the outcomes of dialling. An error is `.error`
with the pool after `Close`, line 887. -/
def newPool (cap : Nat) (lazyInit : Bool) (dials : List Bool) : Except St St :=
  if cap = 0 then .error (made 0 [] [])
  else if lazyInit then .ok (made cap (List.replicate cap none) [])
  else
    let n := (dials.take cap).takeWhile id
    let s := made cap ((List.range n.length).map some) (List.replicate n.length true)
    if n.length < cap then
      .error { s with slots := [], closed := true, released := true, closer := .done,
                      conns := closeAll s.slots s.conns }
    else .ok s

end Motan.ConnPool
