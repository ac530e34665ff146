import Verif.Basic.Bytes

/-!
# Measuring the distance of a node (core/ping.go)

`Ping` sends echo requests and takes the replies from a channel of five places, into which a second goroutine puts every
packet it reads. Each step of one of the two is an operation here; times and packets are parameters of the operations. One
call of `Ping` per pinger is modelled (as `getBestGroup` makes it), after `listen` has succeeded.
-/

namespace Motan.Ping

/-- What `icmp.ParseMessage` makes of a packet, with the address it came from: an error, no echo reply, or an echo reply with
its identifier and the time in its data (none if the data is shorter than eight bytes). -/
inductive Body
  | bad
  | other
  | reply (id : Nat) (stamp : Option Int)
deriving DecidableEq

/-- core/ping.go:89-92 `packet`, with the sender's address (which `recvICMP` throws away, core/ping.go:200). -/
structure Pkt where
  src : Nat
  body : Body
deriving DecidableEq

/-- What `Ping` returns: nil, "ping timed out", or the error of `processPacket`. -/
inductive Res
  | ok
  | timedOut
  | broken
deriving DecidableEq

/-- Where `Ping` is: in the loop, about to close `done`, waiting for the other goroutine (the deferred `wg.Wait`), returned. -/
inductive Main
  | loop
  | closing (r : Res)
  | waiting (r : Res)
  | returned (r : Res)
deriving DecidableEq

/-- Where `recvICMP` is: before its `select`, in `ReadFrom`, sending a packet into the channel, about to close `done`, gone. -/
inductive Rcv
  | check
  | reading
  | pushing (p : Pkt)
  | closing
  | gone
deriving DecidableEq

/-- The two goroutines and what they share; `panicked`: a closed channel was closed again. -/
structure St where
  main : Main := .loop
  rcv : Rcv := .check
  done : Bool := false
  queue : List Pkt := []
  sent : Nat := 1
  recv : Nat := 0
  rtts : List Int := []
  panicked : Bool := false
deriving DecidableEq

/-- core/ping.go:102-121: the state when the loop begins: one request has been sent (144-180: whatever `WriteTo` says,
`PacketsSent` goes up; that a full buffer makes it try again is left out). -/
def init : St := {}

/-- The steps of the two goroutines. -/
inductive Op
  | tick
  | timeout
  | seeDone
  | take (now : Int)
  | close
  | join
  | look
  | read (p : Pkt)
  | readTimeout
  | readError
  | push
  | rcvClose
deriving DecidableEq

/-- core/ping.go:102: the room in the channel. -/
def room : Nat := 5

/-- core/ping.go:222-256 `processPacket`: the replies and times afterwards, and whether it returns an error. -/
def process (id : Nat) (s : St) (b : Body) (now : Int) : St × Bool :=
  match b with
  | .bad => (s, true)
  | .other => (s, false)
  | .reply i stamp =>
    if i ≠ id then (s, false)
    else
      match stamp with
      | none => ({ s with recv := s.recv + 1 }, false)
      | some t => ({ s with recv := s.recv + 1, rtts := s.rtts ++ [now - t] }, false)

/-- core/ping.go:116-142: the loop of `Ping`; core/ping.go:187-220: `recvICMP`. None: the step cannot be taken. -/
def step (count id : Nat) (s : St) (o : Op) : Option St :=
  if s.panicked then none
  else
    match o with
    | .tick =>
      if s.main ≠ .loop then none
      else if 0 < count ∧ s.sent = count then some s
      else some { s with sent := s.sent + 1 }
    | .timeout => if s.main ≠ .loop then none else some { s with main := .closing .timedOut }
    | .seeDone => if s.main ≠ .loop ∨ s.done = false then none else some { s with main := .waiting .ok }
    | .take now =>
      if s.main ≠ .loop then none
      else
        match s.queue with
        | [] => none
        | p :: q =>
          let r := process id { s with queue := q } p.body now
          if r.2 then some { r.1 with main := .closing .broken }
          else if 0 < count ∧ r.1.recv ≥ count then some { r.1 with main := .closing .ok }
          else some r.1
    | .close =>
      match s.main with
      | .closing r => if s.done then some { s with panicked := true } else some { s with main := .waiting r, done := true }
      | _ => none
    | .join =>
      match s.main with
      | .waiting r => if s.rcv = .gone then some { s with main := .returned r } else none
      | _ => none
    | .look =>
      if s.rcv ≠ .check then none
      else if s.done then some { s with rcv := .gone }
      else some { s with rcv := .reading }
    | .read p => if s.rcv ≠ .reading then none else some { s with rcv := .pushing p }
    | .readTimeout => if s.rcv ≠ .reading then none else some { s with rcv := .check }
    | .readError => if s.rcv ≠ .reading then none else some { s with rcv := .closing }
    | .push =>
      match s.rcv with
      | .pushing p => if s.queue.length < room then some { s with queue := s.queue ++ [p], rcv := .check } else none
      | _ => none
    | .rcvClose =>
      if s.rcv ≠ .closing then none
      else if s.done then some { s with panicked := true }
      else some { s with done := true, rcv := .gone }

/-- A schedule. -/
def play (count id : Nat) (s : St) : List Op → Option St
  | [] => some s
  | o :: os => (step count id s o).bind fun s' => play count id s' os

end Motan.Ping
