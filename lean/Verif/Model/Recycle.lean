import Verif.Basic.Bytes

/-!
# The life of a proxied request's message

An agent reads a request into a pooled `Message`, forwards that same object on a channel of the chosen endpoint (once per
attempt), and puts it back into the pool after it has answered. The channel's writer is another goroutine that may get to
the object later. `M` is the metadata, as in `Model/Motan2.lean` without its inside; the encoding of a head is the head.

Simplifications: one pool without eviction (the runtime may drop pooled objects, which only makes `reuse := none` more
frequent); a `WriteTo` is one step that reads the object when the bytes go out (the slices it holds alias the object's
buffer and body); the gzip of the body and the store of the group are inside `md'`/`body'` given to `convert`.
-/

namespace Motan.Recycle

variable {M : Type}

/-- What `Encode0` writes before the body: request id, metadata and the body's size (protocol/motanProtocol.go:280-326). -/
structure Head (M : Type) where
  id : UInt64
  md : M
  size : Nat
deriving DecidableEq, Repr

/-- The bytes of one `GetEncodedBytes` (protocol/motanProtocol.go:331-336): the buffer and the body. -/
structure Frame (M : Type) where
  head : Head M
  body : Bytes
deriving DecidableEq, Repr

/-- protocol/motanProtocol.go:85-93 `Message` with `bytesBuffer` as `head` (none is nil). -/
structure Obj (M : Type) where
  id : UInt64
  md : M
  body : Bytes
  head : Option (Head M) := none
  canRelease : Bool := false
deriving DecidableEq, Repr

/-- protocol/motanProtocol.go:280-326 `Encode0`. -/
def Obj.encode (o : Obj M) : Obj M :=
  { o with head := some ⟨o.id, o.md, o.body.length⟩ }

/-- protocol/motanProtocol.go:331-336 `GetEncodedBytes`. -/
def Obj.frame (o : Obj M) : Frame M :=
  match o.head with
  | some h => ⟨h, o.body⟩
  | none => ⟨⟨o.id, o.md, o.body.length⟩, o.body⟩

/-- protocol/motanProtocol.go:349-359 `Reset` when the message may be released: everything but the buffer. -/
def Obj.reset (empty : M) (o : Obj M) : Obj M :=
  { o with id := 0, md := empty, body := [], canRelease := false }

/-- protocol/motanProtocol.go:399-496 `DecodeWithTime` into a message of the pool. -/
def Obj.decode (id : UInt64) (md : M) (body : Bytes) (o : Obj M) : Obj M :=
  { o with id := id, md := md, body := body }

/-- A `sendReady` with its channel (endpoint/motanCommonEndpoint.go:459-462). `want` is a ghost: the frame of the request
at the time it was encoded for this attempt. -/
structure Entry (M : Type) where
  chan : Nat
  obj : Nat
  want : Frame M
deriving DecidableEq, Repr

/-- One `processV2` (server/motanserver.go:210-310): its message and the attempts it made (ghost); closed after line 299. -/
structure Call where
  obj : Nat
  attempts : Nat := 0
  closed : Bool := false
deriving DecidableEq, Repr

/-- All messages ever made, the pool, the calls, the attempts before `sendCh <-`, those in a `sendCh`, the messages
written but not yet marked, and (ghost) what was written: channel, frame wanted, frame sent. -/
structure St (M : Type) where
  objs : List (Obj M) := []
  free : List Nat := []
  calls : List Call := []
  encoded : List (Entry M) := []
  queued : List (Entry M) := []
  marking : List Nat := []
  sent : List (Nat × Frame M × Frame M) := []
deriving Repr

/-- The steps of the goroutines. -/
inductive Op (M : Type) where
  /-- A request was read, into the object `reuse` of the pool or into a new one. -/
  | receive (reuse : Option Nat) (id : UInt64) (md : M) (body : Bytes)
  /-- An attempt of a call: convert, set the stream id and encode. -/
  | convert (call chan : Nat) (sid : UInt64) (md' : M) (body' : Bytes)
  /-- `sendCh <- ready` of the n-th attempt that waits for it. -/
  | enqueue (n : Nat)
  /-- The attempt gives up: timeout or channel shut down. -/
  | giveUp (n : Nat)
  /-- The channel's writer takes the next message and writes it. -/
  | write (chan : Nat)
  /-- The channel's writer marks the message. -/
  | mark (n : Nat)
  /-- The channel shuts down; what is queued is never written. -/
  | shut (chan : Nat)
  /-- The call has been answered and releases its message. -/
  | release (call : Nat)

/-- server/motanserver.go:165-203 with `DecodeWithTime`: protocol/motanProtocol.go:412, 824-826 `AcquireMessage`. -/
def receive (s : St M) (reuse : Option Nat) (id : UInt64) (md : M) (body : Bytes) : St M :=
  match reuse with
  | some k =>
    if k ∈ s.free then
      { s with
        objs := s.objs.modify k (Obj.decode id md body)
        free := s.free.erase k
        calls := s.calls ++ [{ obj := k }] }
    else s
  | none =>
    { s with
      objs := s.objs ++ [{ id := id, md := md, body := body }]
      calls := s.calls ++ [{ obj := s.objs.length }] }

/-- protocol/motanProtocol.go:642-650 `ConvertToReqMessage` of a proxied request and
endpoint/motanCommonEndpoint.go:452-462 in `Stream.Send`. A closed call makes no attempt. -/
def convert (s : St M) (c ch : Nat) (sid : UInt64) (md' : M) (body' : Bytes) : St M :=
  match s.calls[c]? with
  | some call =>
    if call.closed then s
    else
      { s with
        objs := s.objs.modify call.obj fun o => ({ o with id := sid, md := md', body := body' } : Obj M).encode
        calls := s.calls.set c { call with attempts := call.attempts + 1 }
        encoded := s.encoded ++ [⟨ch, call.obj, ⟨⟨sid, md', body'.length⟩, body'⟩⟩] }
  | none => s

/-- endpoint/motanCommonEndpoint.go:469-478: the channel accepts the message. -/
def enqueue (s : St M) (n : Nat) : St M :=
  match s.encoded[n]? with
  | some e => { s with encoded := s.encoded.eraseIdx n, queued := s.queued ++ [e] }
  | none => s

/-- endpoint/motanCommonEndpoint.go:479-482: it does not. -/
def giveUp (s : St M) (n : Nat) : St M :=
  { s with encoded := s.encoded.eraseIdx n }

/-- endpoint/motanCommonEndpoint.go:743-753 `Channel.send`: take the first message of the channel and write it. -/
def write (s : St M) (ch : Nat) : St M :=
  match s.queued.find? (fun e => e.chan == ch) with
  | some e =>
    match s.objs[e.obj]? with
    | some o =>
      { s with
        queued := s.queued.eraseP (fun e => e.chan == ch)
        marking := s.marking ++ [e.obj]
        sent := s.sent ++ [(ch, e.want, o.frame)] }
    | none => s
  | none => s

/-- endpoint/motanCommonEndpoint.go:754-757: `SetCanRelease` after the write (protocol/motanProtocol.go:373-375). -/
def mark (s : St M) (n : Nat) : St M :=
  match s.marking[n]? with
  | some k =>
    { s with
      objs := s.objs.modify k fun o => { o with canRelease := true }
      marking := s.marking.eraseIdx n }
  | none => s

/-- endpoint/motanCommonEndpoint.go:763-764: the writer returns. -/
def shut (s : St M) (ch : Nat) : St M :=
  { s with queued := s.queued.filter fun e => e.chan != ch }

/-- server/motanserver.go:299 `ReleaseMessage` (protocol/motanProtocol.go:828-832, 349-359): into the pool if it may be
released, otherwise left to the garbage collector. -/
def release (empty : M) (s : St M) (c : Nat) : St M :=
  match s.calls[c]? with
  | some call =>
    if call.closed then s
    else
      match s.objs[call.obj]? with
      | some o =>
        if o.canRelease then
          { s with
            objs := s.objs.modify call.obj (Obj.reset empty)
            free := s.free ++ [call.obj]
            calls := s.calls.set c { call with closed := true } }
        else { s with calls := s.calls.set c { call with closed := true } }
      | none => s
  | none => s

/-- One step. `empty` is the metadata after a reset. -/
def step (empty : M) (s : St M) : Op M → St M
  | .receive reuse id md body => receive s reuse id md body
  | .convert c ch sid md body => convert s c ch sid md body
  | .enqueue n => enqueue s n
  | .giveUp n => giveUp s n
  | .write ch => write s ch
  | .mark n => mark s n
  | .shut ch => shut s ch
  | .release c => release empty s c

/-- A schedule. -/
def run (empty : M) (ops : List (Op M)) : St M :=
  ops.foldl (step empty) {}

end Motan.Recycle
