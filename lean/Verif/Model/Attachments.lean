import Verif.Spec.CowMap

/-!
# The attachments of a request or response as a concurrent machine (core/motan.go:511-522, 551-565, 582-584,
658-667, 685-699)

The map of attachments is made when it is first needed: the pointer is loaded, and if it is nil it is looked at again under
the mutex of the request, where the map is made and published. Goroutines are interleaved between any two of these accesses.
The operations of the map itself (core/map.go:11-87) are one step each: they take its mutex (`string_map_sections`, C94).
Requests and responses have the same code. `GetAttachment` reads the field without `sync/atomic`; here the pointer is read in
one piece all the same (`attachment_race_violated`, C94). `Reset`, which forgets the map, is left out: a request that is
recycled is taken to be in use no more.
-/

namespace Motan.Attachments

open Motan.Spec.CowMap

variable {K V : Type} [DecidableEq K] {T : Type} [DecidableEq T]

/-- Where a goroutine is inside an operation. -/
inductive PC (K V : Type)
  | idle
  | start (op : Op K V)
  | again (op : Op K V)
  | waiting (op : Op K V)
  | locked (op : Op K V)
  | made (op : Op K V) (p : Nat)
  | unlocking (op : Op K V) (p : Nat)
  | inUse (op : Op K V) (p : Nat)
  | returning (r : Res K V)
  | panicked

/-- Shared memory and all goroutines: the maps by address, the next address, the field `Attachment`, the mutex. -/
structure St (T K V : Type) where
  heap : Nat → AMap K V
  next : Nat
  cur : Option Nat
  lock : Option T
  pc : T → PC K V

/-- A new request or response, without attachments. -/
def init : St T K V := { heap := fun _ => [], next := 0, cur := none, lock := none, pc := fun _ => .idle }

/-- The operations: `GetAttachment` is `load`; `SetAttachment` is `store`; `GetAttachments()` followed by `Delete`,
`Range` or `RawMap`, and `Len` are the others. -/
def Offered : Op K V → Prop
  | .swap _ | .update _ _ => False
  | _ => True

/-- The operations that look at the map only if there is one: `GetAttachment`, and the copy of the attachments that `Clone`
makes, which is a `range`. -/
def Looks : Op K V → Prop
  | .load _ | .range => True
  | _ => False

/-- The operations that make the map if there is none: all but `GetAttachment`. -/
def Makes : Op K V → Prop
  | .load _ => False
  | _ => True

/-- core/map.go:23-87: one operation of the map, its result and the map afterwards. (Go's `Delete` returns nothing; here it
returns the old value. An absent key is `none`, where `LoadOrEmpty` returns an empty string. Go visits keys in any order.) -/
inductive Use : AMap K V → Op K V → Res K V → AMap K V → Prop
  | load {m k} : Use m (.load k) (.val (AMap.load m k)) m
  | store {m k v} : Use m (.store k v) .unit (AMap.store m k v)
  | delete {m k} : Use m (.delete k) (.val (AMap.load m k)) (AMap.erase m k)
  | range {m l} : l.Perm m → Use m .range (.pairs l) m
  | len {m} : Use m .len (.num m.length) m

/-- One step of goroutine `t`, with the event it shows to callers. -/
inductive Step : St T K V → T → Option (Event T K V) → St T K V → Prop
  /-- A caller invokes an operation. -/
  | invoke {s t op} : s.pc t = .idle → Offered op → Step s t (some (.inv t op)) { s with pc := upd s.pc t (.start op) }
  /-- core/motan.go:513-515 (659-661) `GetAttachment` without attachments. -/
  | getNil {s t k} : s.pc t = .start (.load k) → s.cur = none →
      Step s t none { s with pc := upd s.pc t (.returning (.val none)) }
  /-- core/motan.go:582 `Clone` without attachments. -/
  | cloneNil {s t} : s.pc t = .start .range → s.cur = none → Step s t none { s with pc := upd s.pc t (.returning (.pairs [])) }
  /-- core/motan.go:513 (659), 582 with attachments. -/
  | getSome {s t op p} : s.pc t = .start op → Looks op → s.cur = some p → Step s t none { s with pc := upd s.pc t (.again op) }
  /-- core/motan.go:516 (662), 583: the field is read again. -/
  | getAgain {s t op p} : s.pc t = .again op → s.cur = some p → Step s t none { s with pc := upd s.pc t (.inUse op p) }
  /-- core/motan.go:516 (662), 583: a nil map of attachments is locked. -/
  | getPanic {s t op} : s.pc t = .again op → s.cur = none → Step s t none { s with pc := upd s.pc t .panicked }
  /-- core/motan.go:552-555 (686-689): the map is there. -/
  | find {s t op p} : s.pc t = .start op → Makes op → s.cur = some p → Step s t none { s with pc := upd s.pc t (.inUse op p) }
  /-- core/motan.go:552-553 (686-687): it is not. -/
  | miss {s t op} : s.pc t = .start op → Makes op → s.cur = none → Step s t none { s with pc := upd s.pc t (.waiting op) }
  /-- core/motan.go:556 (690) `mu.Lock()`. -/
  | lock {s t op} : s.pc t = .waiting op → s.lock = none →
      Step s t none { s with lock := some t, pc := upd s.pc t (.locked op) }
  /-- core/motan.go:558, 562 (692, 696): another goroutine has made it. -/
  | found {s t op p} : s.pc t = .locked op → s.cur = some p → Step s t none { s with pc := upd s.pc t (.unlocking op p) }
  /-- core/motan.go:558-559 (692-693) `NewStringMap`. -/
  | make {s t op} : s.pc t = .locked op → s.cur = none →
      Step s t none { s with heap := upd s.heap s.next [], next := s.next + 1, pc := upd s.pc t (.made op s.next) }
  /-- core/motan.go:560 (694) `StorePointer`. -/
  | publish {s t op p} : s.pc t = .made op p → Step s t none { s with cur := some p, pc := upd s.pc t (.unlocking op p) }
  /-- The deferred `mu.Unlock()`. -/
  | unlock {s t op p} : s.pc t = .unlocking op p → Step s t none { s with lock := none, pc := upd s.pc t (.inUse op p) }
  /-- The operation of the map. -/
  | use {s t op p r m} : s.pc t = .inUse op p → Use (s.heap p) op r m →
      Step s t none { s with heap := upd s.heap p m, pc := upd s.pc t (.returning r) }
  /-- The operation returns to its caller. -/
  | ret {s t r} : s.pc t = .returning r → Step s t (some (.ret t r)) { s with pc := upd s.pc t .idle }

/-- All executions from a new request or response, with their histories. -/
inductive Exec : List (Event T K V) → St T K V → Prop
  | init : Exec [] init
  | step {h s t s'} : Exec h s → Step s t none s' → Exec h s'
  | visible {h s t e s'} : Exec h s → Step s t (some e) s' → Exec (h ++ [e]) s'

end Motan.Attachments
