import Verif.Basic.AMap
import Verif.Basic.Strings
import Verif.Basic.Decimal

/-!
# The HTTP proxy: locations, rewriting, the HTTP provider

http/httpProxy.go and provider/httpProvider.go. Regular expressions and query parsing are parameters (`Lib`); the two
fixed expressions of httpProxy.go:65-66 are modelled by what they match.
-/

namespace Motan.HttpProxy

open Strings

/-- The library functions used, over compiled expressions `R` and submatch positions `I`. -/
structure Lib (R I : Type) where
  /-- `regexp.Compile` -/
  compile : Bytes → Option R
  /-- `MatchString` -/
  isMatch : R → Bytes → Bool
  /-- `FindStringSubmatchIndex` -/
  find : R → Bytes → Option I
  /-- `ExpandString(nil, template, src, match)` -/
  expand : R → Bytes → Bytes → I → Bytes
  /-- `url.ParseQuery` and then `Get` of a key: the first value, or empty -/
  query : Bytes → Bytes → Bytes

variable {R I : Type}

/-! ## Rewrite rules -/

/-- The class `\s` of httpProxy.go:65. -/
def isWs (c : UInt8) : Bool := c = 9 ∨ c = 10 ∨ c = 12 ∨ c = 13 ∨ c = 32

/-- `FindAllStringIndex` of `\s+`: the maximal runs of white space as (begin, end); `open` is where the current run
began, `off` the position of the next byte. -/
def wsRuns : Nat → Option Nat → Bytes → List (Nat × Nat)
  | _, none, [] => []
  | off, some b, [] => [(b, off)]
  | off, none, c :: s => if isWs c then wsRuns (off + 1) (some off) s else wsRuns (off + 1) none s
  | off, some b, c :: s => if isWs c then wsRuns (off + 1) (some b) s else (b, off) :: wsRuns (off + 1) none s

/-- httpProxy.go:134-144: the loop of `PatternSplit`, with the variables `beg` and `end`. -/
def splitLoop (s : Bytes) : List (Nat × Nat) → Nat → Nat → List Bytes
  | [], beg, e => if e ≠ s.length then [s.drop beg] else []
  | m :: ms, beg, _ =>
    let rest := splitLoop s ms m.2 m.1
    if m.2 ≠ 0 then (s.take m.1).drop beg :: rest else rest

/-- httpProxy.go:129-147 `PatternSplit` with `WhitespaceSplitPattern`. -/
def patternSplit (s : Bytes) : List Bytes := splitLoop s (wsRuns 0 none s) 0 0

/-- httpProxy.go:235-242: the condition of a rule; the string and the compiled expression are kept together. -/
inductive Cond (R : Type)
  | exact (s : Bytes)
  | start (s : Bytes)
  | regexp (r : R)
  | iregexp (r : R)
  | regexpVar (r : R)

/-- httpProxy.go:235-242 `rewriteRule`. -/
structure Rule (R : Type) where
  neg : Bool
  cond : Cond R
  pattern : R
  replace : Bytes

/-- httpProxy.go:204-219, 256-273: the condition; none: an error. -/
def newCond (lib : Lib R I) (t s : Bytes) : Option (Cond R) :=
  if t = b!"regexp" then (lib.compile s).map .regexp
  else if t = b!"iregexp" then (lib.compile (b!"(?i)" ++ s)).map .iregexp
  else if t = b!"start" then some (.start s)
  else if t = b!"exact" then some (.exact s)
  else if t = b!"regexpVar" then (lib.compile s).map .regexpVar
  else none

/-- httpProxy.go:244-281 `newRewriteRule`; none: an error. -/
def newRewriteRule (lib : Lib R I) (rule : Bytes) : Option (Rule R) :=
  match patternSplit rule with
  | [t, c, p, r] =>
    let neg := hasPrefix t b!"!"
    let t := if neg then t.drop 1 else t
    match newCond lib t c with
    | none => none
    | some cond =>
      match lib.compile p with
      | none => none
      | some pattern => some { neg, cond, pattern, replace := r }
  | _ => none

/-- The class `[0-9a-zA-Z_-]` of httpProxy.go:66. -/
def isVarByte (c : UInt8) : Bool :=
  (48 ≤ c ∧ c ≤ 57) ∨ (65 ≤ c ∧ c ≤ 90) ∨ (97 ≤ c ∧ c ≤ 122) ∨ c = 95 ∨ c = 45

/-- The name of a variable holder at the beginning of what follows a `{`. -/
def varAt (s : Bytes) : Option Bytes :=
  if s.takeWhile isVarByte ≠ [] ∧ (s.dropWhile isVarByte).head? = some 125 then some (s.takeWhile isVarByte) else none

/-- `findRewriteVarPattern.FindAllString(uri, -1)`, without the braces; `skip` bytes belong to the last match. -/
def findVars : Nat → Bytes → List Bytes
  | _, [] => []
  | skip + 1, _ :: s => findVars skip s
  | 0, c :: s =>
    if c = 123 then
      match varAt s with
      | some k => k :: findVars (k.length + 1) s
      | none => findVars 0 s
    else findVars 0 s

/-- `strings.Replace(s, old, new, -1)`, for a non-empty `old`; `skip` bytes belong to the last match. -/
def replaceAll (old new : Bytes) : Nat → Bytes → Bytes
  | _, [] => []
  | skip + 1, _ :: s => replaceAll old new skip s
  | 0, c :: s =>
    if old.isPrefixOf (c :: s) then new ++ replaceAll old new (old.length - 1) s
    else c :: replaceAll old new 0 s

/-- httpProxy.go:84-90: the substitution of the query's variables. -/
def substVars (q : Bytes → Bytes) (uri : Bytes) : Bytes :=
  (findVars 0 uri).foldl (fun uri k => replaceAll (b!"{" ++ k ++ b!"}") (q k) 0 uri) uri

/-- httpProxy.go:80-91 `rewriteVarFunc`. -/
def rewriteVar (lib : Lib R I) (c : Cond R) (uri query : Bytes) : Bytes :=
  match c with
  | .regexpVar _ => if query = [] then uri else substVars (lib.query query) uri
  | _ => uri

/-- httpProxy.go:285-292: whether the condition holds, before the negation. -/
def Cond.holds (lib : Lib R I) (uri : Bytes) : Cond R → Bool
  | .exact s => s = uri
  | .start s => hasPrefix uri s
  | .regexp r => lib.isMatch r uri
  | .iregexp r => lib.isMatch r uri
  | .regexpVar r => lib.isMatch r uri

/-- httpProxy.go:283-305 `rewrite`. -/
def Rule.rewrite (lib : Lib R I) (r : Rule R) (uri query : Bytes) : Bytes × Bool :=
  let ruleMatched := r.cond.holds lib uri
  let ruleMatched := if r.neg then !ruleMatched else ruleMatched
  if ruleMatched then
    match lib.find r.pattern uri with
    | none => (rewriteVar lib r.cond uri query, false)
    | some i => (rewriteVar lib r.cond (lib.expand r.pattern r.replace uri i) query, true)
  else (rewriteVar lib r.cond uri query, false)

/-! ## Locations -/

/-- httpProxy.go:221-225: a location as configured. -/
structure Config where
  upstream : Bytes
  «match» : Bytes
  type : Bytes := []
  rules : List Bytes := []

/-- httpProxy.go:221-231 `ProxyLocation`, compiled; a regexp location is kept with its expression. -/
structure Location (R : Type) where
  upstream : Bytes
  «match» : Bytes
  rules : List (Rule R)
  length : Nat

/-- httpProxy.go:319-325 `LocationMatcher`. -/
structure Matcher (R : Type) where
  exact : List (Location R) := []
  start : List (Location R) := []
  regexp : List (Location R × R) := []
  needQuery : Bool := false

/-- httpProxy.go:307-317 `DeterminePath`. -/
def determinePath (lib : Lib R I) (rules : List (Rule R)) (path query : Bytes) (doRewrite : Bool) : Bytes :=
  if !doRewrite then path
  else loop rules
where
  loop : List (Rule R) → Bytes
    | [] => path
    | r :: rs => if (r.rewrite lib path query).2 then (r.rewrite lib path query).1 else loop rs

/-- httpProxy.go:362-379: the rules of a location. -/
def compileRules (lib : Lib R I) (rules : List Bytes) : List (Rule R) :=
  rules.filterMap fun rule => if rule = [] then none else newRewriteRule lib rule

/-- httpProxy.go:373. -/
def isRegexpVar : Cond R → Bool
  | .regexpVar _ => true
  | _ => false

/-- httpProxy.go:360-413: one location. -/
def addLocation (lib : Lib R I) (m : Matcher R) (c : Config) : Matcher R :=
  let rules := compileRules lib c.rules
  let l : Location R := { upstream := c.upstream, «match» := c.match, rules, length := c.match.length }
  let m := { m with needQuery := m.needQuery || rules.any fun r => isRegexpVar r.cond }
  let type := if c.type = [] then b!"start" else c.type
  if type = b!"exact" then { m with exact := m.exact ++ [l] }
  else if type = b!"start" then { m with start := m.start ++ [l] }
  else if type = b!"regexp" then
    match lib.compile c.match with
    | none => m
    | some r => { m with regexp := m.regexp ++ [(l, r)] }
  else if type = b!"iregexp" then
    match lib.compile (b!"(?i)" ++ c.match) with
    | none => m
    | some r => { m with regexp := m.regexp ++ [(l, r)] }
  else m

/-- httpProxy.go:356-415 `NewLocationMatcher`. -/
def newMatcher (lib : Lib R I) (cs : List Config) : Matcher R := cs.foldl (addLocation lib) {}

/-- httpProxy.go:439-446: one step of the loop over the prefixes. -/
def longest (path : Bytes) (s : Option (Location R) × Nat) (l : Location R) : Option (Location R) × Nat :=
  if hasPrefix path l.match then
    if l.length > s.2 then (some l, l.length) else s
  else s

/-- httpProxy.go:420-452 `Pick`; none: no match. -/
def pick (lib : Lib R I) (m : Matcher R) (path query : Bytes) (doRewrite : Bool) : Option (Bytes × Bytes) :=
  match m.exact.find? fun l => path = l.match with
  | some l => some (l.upstream, determinePath lib l.rules path query doRewrite)
  | none =>
    match m.regexp.find? fun l => lib.isMatch l.2 path with
    | some l => some (l.1.upstream, determinePath lib l.1.rules path query doRewrite)
    | none =>
      match (m.start.foldl (longest path) (none, 0)).1 with
      | some l => some (l.upstream, determinePath lib l.rules path query doRewrite)
      | none => none

/-- httpProxy.go:454-459 `URIToServiceName`. -/
def uriToServiceName (lib : Lib R I) (m : Matcher R) (uri query : Bytes) : Bytes :=
  match pick lib m uri query false with
  | some (s, _) => s
  | none => []

/-- provider/httpProvider.go:154-168 `rewrite`; none: service not found. -/
def providerRewrite (lib : Lib R I) (enable : Bool) (m : Matcher R) (method queryString : Bytes) : Option Bytes :=
  if enable then
    let query := if m.needQuery then queryString else []
    (pick lib m method query true).map Prod.snd
  else some method

end Motan.HttpProxy
