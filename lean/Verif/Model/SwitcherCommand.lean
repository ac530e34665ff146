import Verif.Basic.Strings
import Verif.Model.Switcher
import Verif.Model.Url

/-!
# Switcher commands (cluster/command.go)

The values to restore are kept in one package variable, `oldSwitcherMap` (cluster/command.go:36), shared by all
clusters of the process and not locked; here calls are atomic.
-/

namespace Motan.SwitcherCommand

open Motan.Strings Motan.Switcher

variable {L : Type}

/-- The switchers of the process and `oldSwitcherMap` (cluster/command.go:36). -/
structure State (L : Type) where
  sws : St L
  old : AMap Bytes Bool

/-- cluster/command.go:530-541 one item of the pattern, with the names recorded so far (`newSwitcherMap`). -/
def applyItem (a : State L × AMap Bytes Bool) (item : Bytes) : State L × AMap Bytes Bool :=
  match split b!":" item with
  | name :: v :: _ =>
    match Url.parseBool v with
    | some value =>
      match getSwitcher a.1.sws name with
      | some sw =>
        let old := match AMap.load a.1.old name with
          | some _ => a.1.old
          | none => AMap.store a.1.old name sw.value
        (⟨setSwitcher a.1.sws name sw value, old⟩, AMap.store a.2 name true)
      | none => a
    | none => a
  | _ => a

/-- cluster/command.go:545-549 one saved value: restored, or carried over if its switcher is still named. (A name
without a switcher would be a nil dereference; names are saved only for registered switchers, which are never
removed.) -/
def restoreItem (a : St L × AMap Bytes Bool) (p : Bytes × Bool) : St L × AMap Bytes Bool :=
  match AMap.load a.2 p.1 with
  | none =>
    match getSwitcher a.1 p.1 with
    | some sw => (setSwitcher a.1 p.1 sw p.2, a.2)
    | none => a
  | some _ => (a.1, AMap.store a.2 p.1 p.2)

/-- cluster/command.go:524-553 `processSwitcherCommand`; the argument is the pattern of the command, if there is
one. Go's map order (544) only affects the order in which listeners are told. -/
def processSwitcherCommand (s : State L) (pattern : Option Bytes) : State L :=
  let a := match pattern with
    | some p => (split b!"," p).foldl applyItem (s, [])
    | none => (s, [])
  let r := a.1.old.foldl restoreItem (a.1.sws, a.2)
  ⟨r.1, r.2⟩

/-- What happens to the switchers: a cluster processes its switcher command, or anything else the process does with
switchers. -/
inductive Event (L : Type)
  | command (pattern : Option Bytes)
  | op (o : Op L)

/-- One event. (An operation that panics changes nothing.) -/
def step (s : State L) : Event L → State L
  | .command p => processSwitcherCommand s p
  | .op o => { s with sws := (Switcher.step s.sws o).getD s.sws }

/-- A history, oldest first. -/
def run (s : St L) (h : List (Event L)) : State L := h.foldl step ⟨s, []⟩

end Motan.SwitcherCommand
