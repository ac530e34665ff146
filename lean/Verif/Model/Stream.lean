/-!
# Calls over a shared connection (endpoint/motanCommonEndpoint.go:369-735, 929-940) as a concurrent machine

Stream objects are recycled through a global pool; connections (`C`) keep tables from wire ids to stream objects. Callers
and the goroutines that handle received messages are interleaved between any two accesses of shared memory, except that
the fields a caller sets in `newStream` and clears in `Reset` are one step (`stream_private` in Verif/Props/Stream.lean shows
that nobody else reaches the object then). What a message carries besides its id and the heartbeat flag is its number: it is
the `n`th message received.

Simplification: `GenerateRequestID` gives an id that was not given before (see Verif/Props/Endpoint.lean for when that holds).
-/

namespace Motan.Stream

/-- Replace a function's value at one place. -/
def upd {α β : Type} [DecidableEq α] (f : α → β) (a : α) (b : β) : α → β := fun x => if x = a then b else f x

/-- A response object: the number of the message it was made of, and its request id. -/
structure Resp where
  msg : Nat
  rid : UInt64
deriving DecidableEq

/-- 396-408 `Stream`. `req` is the id of the request in it; `token` is whether there is something in `recvNotifyCh`. -/
structure Obj (C : Type) where
  channel : Option C
  streamId : UInt64
  req : Option UInt64
  res : Option Resp
  token : Bool
  canRelease : Bool
  isHeartbeat : Bool

/-- What `streamPool.New` makes. -/
def newObj {C : Type} : Obj C :=
  { channel := none, streamId := 0, req := none, res := none, token := false, canRelease := false, isHeartbeat := false }

/-- A call in progress, for the specification: its connection, the id of its request (none for a heartbeat), its stream
object and its wire id. -/
structure Call (C : Type) where
  chan : C
  rid : Option UInt64
  obj : Nat
  sid : UInt64

/-- Heartbeats are the calls without a request. -/
def Call.heartbeat {C : Type} (k : Call C) : Bool := k.rid.isNone

/-- Where a goroutine is. -/
inductive PC (C : Type)
  | idle
  /-- In `newStream` or `newHeartbeatStream`: before acquiring a stream, before setting its fields, before listing it. -/
  | start (c : C) (rid : Option UInt64)
  | fill (c : C) (rid : Option UInt64) (o : Nat)
  | register (k : Call C)
  /-- In `Send`; in the `select` of `Recv`; before reading `s.res`; before the deferred `RemoveFromChannel`. -/
  | send (k : Call C)
  | recv (k : Call C)
  | took (k : Call C)
  | remove (k : Call C) (r : Option Resp)
  /-- In `releaseStream`; before `streamPool.Put`; about to return. -/
  | release (k : Call C) (r : Option Resp)
  | put (k : Call C) (r : Option Resp)
  | ret (k : Call C) (r : Option Resp)
  /-- In `handleMsg`, before the look-up. -/
  | handle (c : C) (msg : Nat) (hb : Bool) (wid : UInt64)
  /-- In `notify`: before reading the request's id; before line 566; before line 567. -/
  | notify (o : Nat) (msg : Nat) (wid : UInt64)
  | setRes (o : Nat) (r : Resp)
  | signal (o : Nat)

/-- Shared memory and goroutines; `sent`, `failed`, `issued`, `msgs` and `log` are for the specification. -/
structure St (T C : Type) where
  objs : Nat → Obj C
  /-- How many stream objects were ever made. -/
  next : Nat
  pool : List Nat
  /-- The maps `streams` (second argument false) and `heartbeats` (true) of each connection. -/
  table : C → Bool → UInt64 → Option Nat
  closed : C → Bool
  pc : T → PC C
  /-- The wire ids handed to a connection for sending. -/
  sent : C → UInt64 → Bool
  /-- The calls whose `Send` failed, by wire id. -/
  failed : UInt64 → Bool
  /-- The call a wire id was made for. -/
  issued : UInt64 → Option (Call C)
  /-- The messages received, oldest first: connection, heartbeat flag, wire id. -/
  msgs : List (C × Bool × UInt64)
  /-- The calls that have returned, newest first, with their response if there was one. -/
  log : List (Call C × Option Resp)

/-- Nothing has happened. -/
def init {T C : Type} : St T C :=
  { objs := fun _ => newObj, next := 0, pool := [], table := fun _ _ _ => none, closed := fun _ => false,
    pc := fun _ => .idle, sent := fun _ _ => false, failed := fun _ => false, issued := fun _ => none, msgs := [], log := [] }

/-- Replace an entry of a connection's table. -/
def setTable {C : Type} [DecidableEq C] (f : C → Bool → UInt64 → Option Nat) (c : C) (hb : Bool) (i : UInt64) (v : Option Nat) :
    C → Bool → UInt64 → Option Nat :=
  fun c' hb' i' => if c' = c ∧ hb' = hb ∧ i' = i then v else f c' hb' i'

/-- Note that an id was handed over for sending. -/
def setSent {C : Type} [DecidableEq C] (f : C → UInt64 → Bool) (c : C) (i : UInt64) : C → UInt64 → Bool :=
  fun c' i' => if c' = c ∧ i' = i then true else f c' i'

/-- 409-420 `Stream.Reset`. -/
def Obj.reset {C : Type} (x : Obj C) : Obj C := { x with token := false, channel := none, req := none, res := none }

/-- One step of a goroutine. With `solicited`, servers answer only ids that they were sent. -/
inductive Step {T C : Type} [DecidableEq T] [DecidableEq C] (solicited : Bool) : St T C → T → St T C → Prop
  /-- 631, 644 a call or heartbeat begins. -/
  | call {s t} (c : C) (rid : Option UInt64) : s.pc t = .idle → Step solicited s t { s with pc := upd s.pc t (.start c rid) }
  /-- 575-577, 594-596 the connection is closed. -/
  | callClosed {s t c rid} : s.pc t = .start c rid → s.closed c = true → Step solicited s t { s with pc := upd s.pc t .idle }
  /-- 578 from the pool. -/
  | acquire {s t c rid} (o : Nat) : s.pc t = .start c rid → s.closed c = false → o ∈ s.pool →
      Step solicited s t { s with pool := s.pool.erase o, pc := upd s.pc t (.fill c rid o) }
  /-- 578 with the pool's `New`. -/
  | acquireNew {s t c rid} : s.pc t = .start c rid → s.closed c = false →
      Step solicited s t { s with objs := upd s.objs s.next newObj, next := s.next + 1, pc := upd s.pc t (.fill c rid s.next) }
  /-- 580-586, 598-602 (a heartbeat does not set `req`). -/
  | fill {s t c rid o} (id : UInt64) : s.pc t = .fill c rid o → s.issued id = none →
      Step solicited s t { s with
        objs := upd s.objs o { s.objs o with
          streamId := id, channel := some c, isHeartbeat := rid.isNone,
          req := if rid.isNone then (s.objs o).req else rid, canRelease := true }
        issued := upd s.issued id (some ⟨c, rid, o, id⟩)
        pc := upd s.pc t (.register ⟨c, rid, o, id⟩) }
  /-- 587-589, 604-606. -/
  | register {s t k} : s.pc t = .register k →
      Step solicited s t { s with table := setTable s.table k.chan k.heartbeat k.sid (some k.obj), pc := upd s.pc t (.send k) }
  /-- 468-476 the message is handed over. -/
  | sendOk {s t k} : s.pc t = .send k →
      Step solicited s t { s with sent := setSent s.sent k.chan k.sid, pc := upd s.pc t (.recv k) }
  /-- 441-452, 477-481 the request cannot be encoded, or the time is up, or the connection is closed. -/
  | sendFail {s t k} : s.pc t = .send k →
      Step solicited s t { s with failed := upd s.failed k.sid true, pc := upd s.pc t (.release k none) }
  /-- 502 notified. -/
  | recvToken {s t k} : s.pc t = .recv k → (s.objs k.obj).token = true →
      Step solicited s t { s with objs := upd s.objs k.obj { s.objs k.obj with token := false }, pc := upd s.pc t (.took k) }
  /-- 503-507. -/
  | recvRes {s t k} : s.pc t = .took k → Step solicited s t { s with pc := upd s.pc t (.remove k (s.objs k.obj).res) }
  /-- 508-515 the time is up or the connection is closed. -/
  | recvGiveUp {s t k} : s.pc t = .recv k →
      Step solicited s t { s with
        objs := upd s.objs k.obj { s.objs k.obj with canRelease := false }
        pc := upd s.pc t (.remove k none) }
  /-- 488-494, 610-626. -/
  | remove {s t k r c} : s.pc t = .remove k r → (s.objs k.obj).channel = some c →
      (s.table c (s.objs k.obj).isHeartbeat (s.objs k.obj).streamId).isSome = true →
      Step solicited s t { s with
        table := setTable s.table c (s.objs k.obj).isHeartbeat (s.objs k.obj).streamId none
        objs := upd s.objs k.obj { s.objs k.obj with canRelease := true }
        pc := upd s.pc t (.release k r) }
  /-- 488-494, 610-626 the stream is not listed. -/
  | removeNot {s t k r c} : s.pc t = .remove k r → (s.objs k.obj).channel = some c →
      (s.table c (s.objs k.obj).isHeartbeat (s.objs k.obj).streamId).isSome = false →
      Step solicited s t { s with pc := upd s.pc t (.release k r) }
  /-- 935-936. -/
  | reset {s t k r} : s.pc t = .release k r → (s.objs k.obj).canRelease = true →
      Step solicited s t { s with objs := upd s.objs k.obj (s.objs k.obj).reset, pc := upd s.pc t (.put k r) }
  /-- 935. -/
  | keep {s t k r} : s.pc t = .release k r → (s.objs k.obj).canRelease = false →
      Step solicited s t { s with pc := upd s.pc t (.ret k r) }
  /-- 937. -/
  | put {s t k r} : s.pc t = .put k r → Step solicited s t { s with pool := k.obj :: s.pool, pc := upd s.pc t (.ret k r) }
  /-- The call returns. -/
  | ret {s t k r} : s.pc t = .ret k r → Step solicited s t { s with log := (k, r) :: s.log, pc := upd s.pc t .idle }
  /-- `sync.Pool` forgets an object. -/
  | forget {s t} (o : Nat) : o ∈ s.pool → Step solicited s t { s with pool := s.pool.erase o }
  /-- 769-794 the connection is closed. -/
  | close {s t} (c : C) : Step solicited s t { s with closed := upd s.closed c true }
  /-- 670-694 a message is received and a goroutine of the pool takes it. -/
  | receive {s t} (c : C) (hb : Bool) (wid : UInt64) : s.pc t = .idle → (solicited = true → s.sent c wid = true) →
      Step solicited s t { s with msgs := s.msgs ++ [(c, hb, wid)], pc := upd s.pc t (.handle c s.msgs.length hb wid) }
  /-- 702-703 decoding a version 1 message panics (Model/Motan1.lean); one that is refused with an error goes on as below. -/
  | handlePanic {s t c m hb wid} : s.pc t = .handle c m hb wid → Step solicited s t { s with pc := upd s.pc t .idle }
  /-- 719-733 an id that is not listed. -/
  | handleMiss {s t c m hb wid} : s.pc t = .handle c m hb wid → s.table c hb wid = none →
      Step solicited s t { s with pc := upd s.pc t .idle }
  /-- 719-734. -/
  | handleHit {s t c m hb wid o} : s.pc t = .handle c m hb wid → s.table c hb wid = some o →
      Step solicited s t { s with table := setTable s.table c hb wid none, pc := upd s.pc t (.notify o m wid) }
  /-- 519-557 the response is made, with the id of the request in the stream if there is one. -/
  | notify {s t o m wid} : s.pc t = .notify o m wid → (s.objs o).channel ≠ none →
      Step solicited s t { s with pc := upd s.pc t (.setRes o ⟨m, (s.objs o).req.getD wid⟩) }
  /-- 533, 536 the stream has no connection; the goroutine panics. -/
  | notifyPanic {s t o m wid} : s.pc t = .notify o m wid → (s.objs o).channel = none →
      Step solicited s t { s with pc := upd s.pc t .idle }
  /-- 566. -/
  | setRes {s t o r} : s.pc t = .setRes o r →
      Step solicited s t { s with objs := upd s.objs o { s.objs o with res := some r }, pc := upd s.pc t (.signal o) }
  /-- 567 (blocks while there is something in the channel). -/
  | signal {s t o} : s.pc t = .signal o → (s.objs o).token = false →
      Step solicited s t { s with objs := upd s.objs o { s.objs o with token := true }, pc := upd s.pc t .idle }

/-- All executions. -/
inductive Reach {T C : Type} [DecidableEq T] [DecidableEq C] (solicited : Bool) : St T C → Prop
  | init : Reach solicited init
  | step {s t s'} : Reach solicited s → Step solicited s t s' → Reach solicited s'

end Motan.Stream
