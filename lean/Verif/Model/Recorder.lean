import Verif.Basic.AMap
import Verif.Basic.Decimal

/-!
# The circular recorder

core/motan.go:1266-1321. A `container/ring` is the list of its elements and the position of the current one; the empty
list is the nil ring that `ring.New` returns for sizes below one.
-/

namespace Motan.Recorder

/-- core/motan.go:1271-1275 `CircularRecorder`; an element is nil or a time stamp and a value. -/
structure Recorder (V : Type) where
  slots : List (Option (Int × V))
  pos : Nat := 0
  keyBuf : Bytes := []

variable {V : Type}

/-- core/motan.go:1277-1283 `NewCircularRecorder`. -/
def new (V : Type) (size : Int) : Recorder V := { slots := List.replicate size.toNat none }

/-- core/motan.go:1285-1296 `AddRecord` at the time `now` (milliseconds); none: panic (nil ring). -/
def addRecord (c : Recorder V) (now : Int) (item : Option V) : Option (Recorder V) :=
  match item with
  | none => some c
  | some v =>
    if c.slots = [] then none
    else some { c with slots := c.slots.set c.pos (some (now, v)), pos := (c.pos + 1) % c.slots.length }

/-- core/motan.go:1315-1321 `generateRecordKey`: the new buffer, which is the key. -/
def generateKey (_buf : Bytes) (idx : Nat) (ts : Int) : Bytes :=
  let buf : Bytes := []
  let buf := buf ++ formatInt idx
  let buf := buf ++ b!":"
  buf ++ formatInt ts

/-- The elements `ring.Do` visits, in order. -/
def visited (c : Recorder V) : List (Option (Int × V)) := c.slots.drop c.pos ++ c.slots.take c.pos

/-- core/motan.go:1303-1311: the function given to `ring.Do`, over the buffer, the index and the map. -/
def visit (s : Bytes × Nat × AMap Bytes V) : Option (Int × V) → Bytes × Nat × AMap Bytes V
  | none => s
  | some (ts, v) =>
    let buf := generateKey s.1 s.2.1 ts
    (buf, s.2.1 + 1, AMap.store s.2.2 buf v)

/-- core/motan.go:1298-1313 `GetRecords`, with nobody else at the buffer. -/
def getRecords (c : Recorder V) : AMap Bytes V := ((visited c).foldl visit (c.keyBuf, 0, [])).2.2

/-! ## Several readers

`GetRecords` holds the lock for reading only, so that several run at a time and share the buffer. A step is a statement
of `generateRecordKey`, or the conversion of the buffer with the store into the reader's own map. -/

/-- The statement a reader is at in `generateRecordKey`. -/
inductive Pc
  | clear | idx | colon | ts | take
  deriving DecidableEq

/-- One call of `GetRecords`. -/
structure Reader (V : Type) where
  todo : List (Int × V)
  idx : Nat := 0
  pc : Pc := .clear
  out : AMap Bytes V := []

/-- core/motan.go:1316-1320, 1307: one statement of one reader, with the shared buffer. -/
def readerStep (buf : Bytes) (r : Reader V) : Bytes × Reader V :=
  match r.todo with
  | [] => (buf, r)
  | (ts, v) :: todo =>
    match r.pc with
    | .clear => ([], { r with pc := .idx })
    | .idx => (buf ++ formatInt r.idx, { r with pc := .colon })
    | .colon => (buf ++ b!":", { r with pc := .ts })
    | .ts => (buf ++ formatInt ts, { r with pc := .take })
    | .take => (buf, { todo, idx := r.idx + 1, pc := .clear, out := AMap.store r.out buf v })

/-- The statements of several readers in the given order. -/
def readersRun (s : Bytes × List (Reader V)) (sched : List Nat) : Bytes × List (Reader V) :=
  sched.foldl (fun s i =>
    match s.2[i]? with
    | none => s
    | some r => ((readerStep s.1 r).1, s.2.set i (readerStep s.1 r).2)) s

end Motan.Recorder
