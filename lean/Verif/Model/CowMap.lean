import Verif.Spec.CowMap

/-!
# The copy-on-write map (core/map.go:89-174) as a concurrent machine

Go maps live in a heap and are reached through pointers; `innerMap` is an atomic pointer. Goroutines are interleaved
between any two accesses of shared memory: acquiring and releasing the mutex, loading and storing the pointer, and
each single read or write of a map entry.
-/

namespace Motan.CowMap

open Motan.Spec.CowMap

variable {K V : Type} [DecidableEq K] {T : Type} [DecidableEq T]

/-- Where a goroutine is inside an operation. A pointer is `none` before anything was stored (Go: a nil map, which
reads as empty). -/
inductive PC (K V : Type)
  | idle
  | start (op : Op K V)
  | reading (k : K) (p : Option Nat)
  | counting (p : Option Nat)
  | ranging (p : Option Nat) (acc : AMap K V) (rem : List K)
  | locked (op : Op K V)
  | copying (op : Op K V) (key : K) (new : Option V) (p : Option Nat) (q : Nat) (rem : List K) (pv : Option V)
  | filled (op : Op K V) (q : Nat) (r : Res K V)
  | unlocking (r : Res K V)
  | returning (r : Res K V)

/-- Shared memory and all goroutines. -/
structure St (T K V : Type) where
  heap : Nat → AMap K V
  next : Nat
  cur : Option Nat
  lock : Option T
  pc : T → PC K V

/-- core/map.go:94-96 `NewCopyOnWriteMap`. -/
def init : St T K V := { heap := fun _ => [], next := 0, cur := none, lock := none, pc := fun _ => .idle }

/-- The map behind a pointer. -/
def St.deref (s : St T K V) : Option Nat → AMap K V
  | none => []
  | some p => s.heap p

/-- The operations that take the mutex. -/
def Writes : Op K V → Prop
  | .load _ | .range | .len => False
  | _ => True

/-- One step of goroutine `t`, with the event it shows to callers. -/
inductive Step : St T K V → T → Option (Event T K V) → St T K V → Prop
  /-- A caller invokes an operation (the map given to `Swap` has distinct keys, as every Go map). -/
  | invoke {s t op} : s.pc t = .idle → (∀ m, op = .swap m → m.NodupKeys) → Step s t (some (.inv t op)) { s with pc := upd s.pc t (.start op) }
  /-- core/map.go:107 `m.data()` in `Load` (and 112 in `LoadOrNil`). -/
  | loadPtr {s t k} : s.pc t = .start (.load k) → Step s t none { s with pc := upd s.pc t (.reading k s.cur) }
  /-- core/map.go:107 indexing the map. -/
  | loadIdx {s t k p} : s.pc t = .reading k p →
      Step s t none { s with pc := upd s.pc t (.returning (.val (AMap.load (s.deref p) k))) }
  /-- core/map.go:159 `m.data()` in `Len`. -/
  | lenPtr {s t} : s.pc t = .start .len → Step s t none { s with pc := upd s.pc t (.counting s.cur) }
  /-- core/map.go:159 `len`. -/
  | lenGet {s t p} : s.pc t = .counting p →
      Step s t none { s with pc := upd s.pc t (.returning (.num (s.deref p).length)) }
  /-- core/map.go:116 `m.data()` in `Range`; the iteration visits the keys in any order. -/
  | rangePtr {s t l} : s.pc t = .start .range → l.Perm (s.deref s.cur).keys →
      Step s t none { s with pc := upd s.pc t (.ranging s.cur [] l) }
  /-- core/map.go:116-120 one iteration (the callback returns true and does not touch this map). -/
  | rangeNext {s t p acc k v rem} : s.pc t = .ranging p acc (k :: rem) → AMap.load (s.deref p) k = some v →
      Step s t none { s with pc := upd s.pc t (.ranging p (acc ++ [(k, v)]) rem) }
  /-- core/map.go:121 the end of `Range`. -/
  | rangeEnd {s t p acc} : s.pc t = .ranging p acc [] →
      Step s t none { s with pc := upd s.pc t (.returning (.pairs acc)) }
  /-- core/map.go:124, 140, 163, 171 `m.mu.Lock()`. -/
  | lock {s t op} : s.pc t = .start op → Writes op → s.lock = none →
      Step s t none { s with lock := some t, pc := upd s.pc t (.locked op) }
  /-- core/map.go:130-131 `Store`: load the pointer, make a new map; the copying loop visits keys in any order. -/
  | storeBegin {s t k v l} : s.pc t = .locked (.store k v) → l.Perm (s.deref s.cur).keys →
      Step s t none { s with heap := upd s.heap s.next [], next := s.next + 1,
                             pc := upd s.pc t (.copying (.store k v) k (some v) s.cur s.next l none) }
  /-- agent.go:611-619 the function given to `SafeDoFunc`: `Load`, then `UnsafeStore` of a value computed from it. -/
  | updateBegin {s t k g l} : s.pc t = .locked (.update k g) → l.Perm (s.deref s.cur).keys →
      Step s t none { s with heap := upd s.heap s.next [], next := s.next + 1,
                             pc := upd s.pc t (.copying (.update k g) k (some (g (AMap.load (s.deref s.cur) k)))
                               s.cur s.next l none) }
  /-- core/map.go:142-145 `Delete` of an absent key. -/
  | deleteMiss {s t k} : s.pc t = .locked (.delete k) → AMap.load (s.deref s.cur) k = none →
      Step s t none { s with pc := upd s.pc t (.unlocking (.val none)) }
  /-- core/map.go:142-146 `Delete` of a present key. -/
  | deleteBegin {s t k x l} : s.pc t = .locked (.delete k) → AMap.load (s.deref s.cur) k = some x →
      l.Perm (s.deref s.cur).keys →
      Step s t none { s with heap := upd s.heap s.next [], next := s.next + 1,
                             pc := upd s.pc t (.copying (.delete k) k none s.cur s.next l none) }
  /-- core/map.go:165-166 `Swap`: the new map is the caller's, not used by them afterwards. -/
  | swapBegin {s t m} : s.pc t = .locked (.swap m) →
      Step s t none { s with heap := upd s.heap s.next m, next := s.next + 1,
                             pc := upd s.pc t (.filled (.swap m) s.next (.pairs (s.deref s.cur))) }
  /-- core/map.go:132-134 copying one entry; 147-153 with the deleted key left out and its value remembered. -/
  | copyNext {s t op key new p q k rem pv v} : s.pc t = .copying op key new p q (k :: rem) pv →
      AMap.load (s.deref p) k = some v →
      Step s t none
        (if new = none ∧ k = key then { s with pc := upd s.pc t (.copying op key new p q rem (some v)) }
         else { s with heap := upd s.heap q (AMap.store (s.heap q) k v),
                       pc := upd s.pc t (.copying op key new p q rem pv) })
  /-- core/map.go:135 the new entry. -/
  | copyEndStore {s t op key v p q pv} : s.pc t = .copying op key (some v) p q [] pv →
      Step s t none { s with heap := upd s.heap q (AMap.store (s.heap q) key v),
                             pc := upd s.pc t (.filled op q .unit) }
  /-- core/map.go:153 the end of the loop in `Delete`. -/
  | copyEndDelete {s t op key p q pv} : s.pc t = .copying op key none p q [] pv →
      Step s t none { s with pc := upd s.pc t (.filled op q (.val pv)) }
  /-- core/map.go:136, 154, 166 `m.innerMap.Store`. -/
  | publish {s t op q r} : s.pc t = .filled op q r →
      Step s t none { s with cur := some q, pc := upd s.pc t (.unlocking r) }
  /-- The deferred `m.mu.Unlock()`. -/
  | unlock {s t r} : s.pc t = .unlocking r →
      Step s t none { s with lock := none, pc := upd s.pc t (.returning r) }
  /-- The operation returns to its caller. -/
  | ret {s t r} : s.pc t = .returning r → Step s t (some (.ret t r)) { s with pc := upd s.pc t .idle }

/-- All executions from the new map, with their histories. -/
inductive Exec : List (Event T K V) → St T K V → Prop
  | init : Exec [] init
  | step {h s t s'} : Exec h s → Step s t none s' → Exec h s'
  | visible {h s t e s'} : Exec h s → Step s t (some e) s' → Exec (h ++ [e]) s'

end Motan.CowMap
