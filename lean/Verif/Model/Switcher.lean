import Verif.Basic.AMap
import Verif.Basic.Bytes

/-!
# Switchers (core/switcher.go)

Listeners are called by a goroutine started at each change, so calls of listeners interleave with everything else.
-/

namespace Motan.Switcher

variable {L : Type}

/-- core/switcher.go:107-112 `Switcher` (its name is its key in the manager's table). -/
structure Sw (L : Type) where
  value : Bool
  listeners : List L

/-- core/switcher.go:9-16 the manager's table, the notifying goroutines (the value and the listeners they still have to
call) and, for the specification, the calls of `Notify` so far, oldest first. -/
structure St (L : Type) where
  switchers : AMap Bytes (Sw L)
  running : List (Bool × List L)
  log : List (L × Bool)

/-- core/switcher.go:9 the new manager. -/
def init : St L := ⟨[], [], []⟩

/-- core/switcher.go:38-54 `SwitcherManager.Register`. -/
def register (s : St L) (name : Bytes) (value : Bool) (ls : List L) : St L :=
  if name = [] then s
  else match AMap.load s.switchers name with
    | some _ => s
    | none => { s with switchers := AMap.store s.switchers name ⟨value, ls⟩ }

/-- core/switcher.go:66-75 `SwitcherManager.GetSwitcher`; `none` is nil. -/
def getSwitcher (s : St L) (name : Bytes) : Option (Sw L) := AMap.load s.switchers name

/-- core/switcher.go:87-94 `SwitcherManager.IsOpen`. -/
def isOpen (s : St L) (name : Bytes) : Bool :=
  match AMap.load s.switchers name with
  | some sw => sw.value
  | none => false

/-- core/switcher.go:56-64 `SwitcherManager.GetAllSwitchers`. -/
def getAllSwitchers (s : St L) : AMap Bytes Bool := s.switchers.map fun x => (x.1, x.2.value)

/-- core/switcher.go:131-149 `Switcher.SetValue` of the switcher with this name. The goroutine is started with the
listeners of this moment; its list is never nil (47). -/
def setSwitcher (s : St L) (name : Bytes) (sw : Sw L) (value : Bool) : St L :=
  if value = sw.value then s
  else { s with switchers := AMap.store s.switchers name { sw with value := value }
                running := s.running ++ [(value, sw.listeners)] }

/-- core/switcher.go:78-84 `GetOrRegister` without listeners and 97-99 `SwitcherManager.SetValue`: with an empty name
nothing is registered and `SetValue` is called on nil, a panic (`none`). -/
def setValue (s : St L) (name : Bytes) (value : Bool) : Option (St L) :=
  let s := match getSwitcher s name with
    | some _ => s
    | none => register s name value []
  match getSwitcher s name with
  | some sw => some (setSwitcher s name sw value)
  | none => none

/-- core/switcher.go:122-129 `Switcher.Watch` on the switcher with this name (only a registered switcher can be
watched; the lock that makes `Watch` wait for running notifications is left out, which only adds behaviours). -/
def watch (s : St L) (name : Bytes) (ls : List L) : St L :=
  match AMap.load s.switchers name with
  | some sw => { s with switchers := AMap.store s.switchers name { sw with listeners := sw.listeners ++ ls } }
  | none => s

/-- core/switcher.go:140-146 the goroutine number `i` calls its next listener. -/
def notify (s : St L) (i : Nat) : St L :=
  match s.running[i]? with
  | some (v, l :: ls) => { s with running := s.running.set i (v, ls), log := s.log ++ [(l, v)] }
  | _ => s

/-- What can happen. -/
inductive Op (L : Type)
  | register (name : Bytes) (value : Bool) (ls : List L)
  | watch (name : Bytes) (ls : List L)
  | set (name : Bytes) (value : Bool)
  | notify (i : Nat)

/-- One step; `none` is a panic. -/
def step (s : St L) : Op L → Option (St L)
  | .register n v ls => some (register s n v ls)
  | .watch n ls => some (watch s n ls)
  | .set n v => setValue s n v
  | .notify i => some (notify s i)

/-- A history, oldest first. -/
def run (s : St L) : List (Op L) → Option (St L)
  | [] => some s
  | o :: os => (step s o).bind fun s => run s os

/-! ## Concurrent `SetValue` on one switcher

`Switcher.value` is read and written without a lock (core/switcher.go:133-136), so calls can interleave between the
comparison, the write and the start of the notifying goroutine. -/

/-- Where a caller is inside `SetValue`. -/
inductive Place
  | idle
  | called (v : Bool)
  | checked (v : Bool)
  | written (v : Bool)
deriving DecidableEq

/-- One switcher, its callers and the values for which notifying goroutines were started. -/
structure Race (T : Type) where
  value : Bool
  place : T → Place
  sent : List Bool

/-- Replace one caller's place. -/
def move {T : Type} [DecidableEq T] (f : T → Place) (t : T) (p : Place) : T → Place := fun x => if x = t then p else f x

/-- core/switcher.go:131-149, one access of shared memory at a time. -/
inductive RaceStep {T : Type} [DecidableEq T] : Race T → Race T → Prop
  /-- The call. -/
  | call {s t v} : s.place t = .idle → RaceStep s { s with place := move s.place t (.called v) }
  /-- 133-135 no change: return. -/
  | same {s t v} : s.place t = .called v → v = s.value → RaceStep s { s with place := move s.place t .idle }
  /-- 133 a change. -/
  | differs {s t v} : s.place t = .called v → v ≠ s.value → RaceStep s { s with place := move s.place t (.checked v) }
  /-- 136 the write. -/
  | write {s t v} : s.place t = .checked v → RaceStep s { s with value := v, place := move s.place t (.written v) }
  /-- 138-147 the goroutine is started; return. -/
  | spawn {s t v} : s.place t = .written v → RaceStep s { s with sent := s.sent ++ [v], place := move s.place t .idle }

/-- Any number of steps. -/
inductive RaceRun {T : Type} [DecidableEq T] : Race T → Race T → Prop
  | refl {s} : RaceRun s s
  | tail {s s' s''} : RaceRun s s' → RaceStep s' s'' → RaceRun s s''

end Motan.Switcher
