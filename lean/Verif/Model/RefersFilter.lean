import Verif.Basic.Trim
import Verif.Model.Url

/-!
# Include and exclude rules on a cluster's endpoints (cluster/RefersFilter.go)

`net.ParseIP`, `net.ParseCIDR` and `IPNet.Contains` are parameters of the model (`Net`): nothing is assumed of
them. An endpoint is anything with a URL. Logging is left out.
-/

namespace Motan.RefersFilter

open Motan.Strings Motan.Url

/-- The three functions of package net the filter uses. -/
structure Net where
  IP : Type
  Subnet : Type
  parseIP : Bytes → Option IP
  parseCIDR : Bytes → Option Subnet
  contains : Subnet → IP → Bool

/-- cluster/RefersFilter.go:18-23 `RefersFilterConfig`. -/
structure Config where
  group : Bytes := []
  service : Bytes := []
  mode : Bytes
  rule : Bytes
deriving DecidableEq, Repr

/-- cluster/RefersFilter.go:25-35 `Verify` (true: no error). -/
def verify (l : List Config) : Bool :=
  l.all fun c => c.rule ≠ [] ∧ (c.mode = b!"include" ∨ c.mode = b!"exclude")

/-- cluster/RefersFilter.go:59-63 `filterRule` (the mode is only used for logging once the rules are sorted into
include and exclude rules). -/
structure Rule (N : Net) where
  prefixes : List Bytes := []
  subnets : List N.Subnet := []

/-- cluster/RefersFilter.go:108-119: one item of a rule. -/
def addItem (N : Net) (r : Rule N) (item : Bytes) : Rule N :=
  if Strings.contains item b!"/" then
    match N.parseCIDR item with
    | none => r
    | some s => { r with subnets := r.subnets ++ [s] }
  else { r with prefixes := r.prefixes ++ [item] }

/-- cluster/RefersFilter.go:102-119: one configured rule. -/
def parseRule (N : Net) (rule : Bytes) : Rule N := (trimSplit rule b!",").foldl (addItem N) {}

/-- cluster/RefersFilter.go:65-91 `filterRule.IsMatch`. -/
def Rule.isMatch {N : Net} (r : Rule N) (host : Bytes) : Bool :=
  if r.prefixes.any (fun p => hasPrefix host p) then true
  else if r.subnets.length = 0 then false
  else
    match N.parseIP host with
    | none => false
    | some ip => r.subnets.any fun s => N.contains s ip

/-- cluster/RefersFilter.go:93-96 `DefaultRefersFilter`. -/
structure Filter (N : Net) where
  excludeRules : List (Rule N) := []
  includeRules : List (Rule N) := []

/-- cluster/RefersFilter.go:98-127 `NewDefaultRefersFilter`. -/
def newFilter (N : Net) (l : List Config) : Filter N :=
  l.foldl (fun f c =>
    if c.mode = b!"exclude" then { f with excludeRules := f.excludeRules ++ [parseRule N c.rule] }
    else { f with includeRules := f.includeRules ++ [parseRule N c.rule] }) {}

/-- cluster/RefersFilter.go:37-53 `ParseRefersFilters`; none is the nil filter. -/
def parseRefersFilters (N : Net) (l : List Config) (clusterURL : URL) : Option (Filter N) :=
  let rules := l.filter fun c =>
    if c.group ≠ [] ∧ c.group ≠ clusterURL.group then false
    else if c.service ≠ [] ∧ c.service ≠ clusterURL.path then false
    else true
  if rules.length = 0 then none else some (newFilter N rules)

/-- The loops of cluster/RefersFilter.go:134-139 and 148-153: the value of the last rule tried, where trying stops
at the first match. -/
def tryRules {N : Net} (host : Bytes) : Bool → List (Rule N) → Bool
  | acc, [] => acc
  | _, r :: rs => if r.isMatch host then true else tryRules host false rs

/-- cluster/RefersFilter.go:129-161 `Filter`. -/
def Filter.filter {N : Net} {α : Type} (f : Filter N) (urlOf : α → URL) : List α → List α
  | [] => []
  | refer :: rest =>
    if tryRules (urlOf refer).host false f.excludeRules then f.filter urlOf rest
    else if tryRules (urlOf refer).host (f.includeRules.length = 0) f.includeRules then
      refer :: f.filter urlOf rest
    else f.filter urlOf rest

/-- cluster/motanCluster.go:135-151 `filterRefers`: no filter, or a filter that leaves nothing, changes nothing.
(The deferred `HandlePanic` is left out: the filter modelled here does not panic.) -/
def filterRefers {N : Net} {α : Type} (f : Option (Filter N)) (urlOf : α → URL) (newRefers : List α) : List α :=
  match f with
  | none => newRefers
  | some f =>
    let after := f.filter urlOf newRefers
    if after.length > 0 then after else newRefers

end Motan.RefersFilter
