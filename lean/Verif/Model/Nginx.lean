import Verif.Model.HttpProxy
import Verif.Model.Config

/-!
# The tool that translates nginx configurations

tools/nginx/parser.go: it reads an nginx configuration and prints its locations as `http-locations` of an agent. The count
of lines, the echo of `-v` and the remarks on standard error are left out.
-/

namespace Motan.Nginx

open Strings

/-- What a function of the tool ends with. -/
inductive Outcome (α : Type)
  | ok (a : α)
  | error
  | panic
deriving DecidableEq

/-! ## Tokens -/

/-- tools/nginx/parser.go:25-31: the kinds of tokens; `panic` for an index out of range. -/
inductive Tok
  | blockStart
  | blockDone
  | fileDone
  | ok
  | error
  | panic
deriving DecidableEq

/-- tools/nginx/parser.go:84-86. -/
def isSpace (c : UInt8) : Bool := c = 32 ∨ c = 9 ∨ c = 13 ∨ c = 10

/-- tools/nginx/parser.go:75-83: the variables of `readToken`. (`found` is false at the end of each turn; `singleQuoted` is
never set; `dollar` is `variable`.) -/
structure Lx where
  buf : Bytes := []
  sharp : Bool := false
  quoted : Bool := false
  double : Bool := false
  needSpace : Bool := false
  lastIsSpace : Bool := true
  dollar : Bool := false
deriving DecidableEq

/-- tools/nginx/parser.go:195-219: a word without its escapes; none: `word[i+1]` is out of range. -/
def unescape : Bytes → Option Bytes
  | [] => some []
  | c :: r =>
    if c = 92 then
      match r with
      | [] => none
      | d :: r' =>
        if d = 34 ∨ d = 39 ∨ d = 92 then (unescape r').map (d :: ·)
        else if d = 116 then (unescape r').map (9 :: ·)
        else if d = 114 then (unescape r').map (13 :: ·)
        else if d = 110 then (unescape r').map (10 :: ·)
        else (unescape (d :: r')).map (c :: ·)
    else (unescape r).map (c :: ·)

/-- How a turn of the loop ends. -/
inductive Next
  | go (args : List Bytes) (x : Lx)
  | stop (t : Tok) (args : List Bytes)

/-- tools/nginx/parser.go:194-231: the word is done, at `ch`. -/
def endWord (args : List Bytes) (x : Lx) (ch : UInt8) : Next :=
  match unescape x.buf with
  | none => .stop .panic args
  | some w =>
    if ch = 59 then .stop .ok (args ++ [w])
    else if ch = 123 then .stop .blockStart (args ++ [w])
    else .go (args ++ [w]) { x with buf := [] }

/-- tools/nginx/parser.go:161-234: a byte in a word. -/
def inWord (args : List Bytes) (x : Lx) (ch : UInt8) : Next :=
  if ch = 123 ∧ x.dollar then .go args { x with buf := x.buf ++ [ch] }
  else
    let x := { x with dollar := false }
    if ch = 92 then .go args { x with quoted := true, buf := x.buf ++ [ch] }
    else if ch = 36 then .go args { x with dollar := true, buf := x.buf ++ [ch] }
    else if x.double then
      if ch = 34 then endWord args { x with double := false, needSpace := true } ch
      else .go args { x with buf := x.buf ++ [ch] }
    else if isSpace ch ∨ ch = 59 ∨ ch = 123 then endWord args { x with lastIsSpace := true } ch
    else .go args { x with buf := x.buf ++ [ch] }

/-- tools/nginx/parser.go:127-160: a byte after white space. -/
def atSpace (args : List Bytes) (x : Lx) (ch : UInt8) : Next :=
  if isSpace ch then .go args x
  else if ch = 59 ∨ ch = 123 then
    if args = [] then .stop .error args
    else if ch = 123 then .stop .blockStart args
    else .stop .ok args
  else if ch = 125 then
    if args ≠ [] then .stop .error args else .stop .blockDone args
  else if ch = 35 then .go args { x with sharp := true }
  else if ch = 92 then .go args { x with quoted := true, lastIsSpace := false, buf := x.buf ++ [ch] }
  else if ch = 34 then .go args { x with double := true, lastIsSpace := false }
  else .go args { x with lastIsSpace := false, buf := x.buf ++ [ch] }

/-- tools/nginx/parser.go:127, 161: which of both. -/
def plain (args : List Bytes) (x : Lx) (ch : UInt8) : Next :=
  if x.lastIsSpace then atSpace args x ch else inWord args x ch

/-- tools/nginx/parser.go:88-235: one turn of the loop. -/
def turn (args : List Bytes) (x : Lx) (ch : UInt8) : Next :=
  let x := if ch = 10 then { x with sharp := false } else x
  if x.sharp then .go args x
  else if x.quoted then .go args { x with quoted := false, buf := x.buf ++ [ch] }
  else if x.needSpace then
    if isSpace ch then .go args { x with lastIsSpace := true, needSpace := false }
    else if ch = 59 then .stop .ok args
    else if ch = 123 then .stop .blockStart args
    else if ch = 41 then plain args { x with lastIsSpace := true, needSpace := false } ch
    else .stop .error args
  else plain args x ch

/-- tools/nginx/parser.go:74-237 `readToken`: the token, the words, and what is left. -/
def readToken (args : List Bytes) (x : Lx) : Bytes → Tok × List Bytes × Bytes
  | [] => (.fileDone, args, [])
  | ch :: s =>
    match turn args x ch with
    | .go args x => readToken args x s
    | .stop t args => (t, args, s)

/-! ## Directives -/

/-- tools/nginx/parser.go:38-42 `Directive`. (No block and an empty block are treated alike by what follows.) -/
inductive Directive
  | mk (name : Bytes) (args : List Bytes) (body : List Directive)

/-- tools/nginx/parser.go:39. -/
def Directive.name : Directive → Bytes
  | .mk n _ _ => n

/-- tools/nginx/parser.go:40. -/
def Directive.args : Directive → List Bytes
  | .mk _ a _ => a

/-- tools/nginx/parser.go:41. -/
def Directive.body : Directive → List Directive
  | .mk _ _ b => b

theorem readToken_le (args : List Bytes) (x : Lx) (s : Bytes) : (readToken args x s).2.2.length ≤ s.length := by
  induction s generalizing args x with
  | nil => simp [readToken]
  | cons c s ih =>
    rw [readToken]
    split
    · exact Nat.le_trans (ih _ _) (by simp)
    · simp

theorem readToken_lt (args : List Bytes) (x : Lx) (s : Bytes) (h : (readToken args x s).1 ≠ .fileDone) :
    (readToken args x s).2.2.length < s.length := by
  cases s with
  | nil => simp [readToken] at h
  | cons c s =>
    rw [readToken]
    split
    · exact Nat.lt_of_le_of_lt (readToken_le _ _ s) (by simp)
    · simp

/-- tools/nginx/parser.go:243-290 `parseFromStat`. The recursion is written with a stack of the blocks that are open: name,
arguments, and the directives before. (`p.args` is empty whenever a token is read: 264, 280 and 143-145.) -/
def parseLoop (stack : List (Bytes × List Bytes × List Directive)) (acc : List Directive) (s : Bytes) :
    Outcome (List Directive) :=
  match h : readToken [] {} s with
  | (.error, _, _) => .error
  | (.panic, _, _) => .panic
  | (.blockDone, _, r) =>
    match stack with
    | [] => .error
    | (n, a, out) :: st => parseLoop st (out ++ [.mk n a acc]) r
  | (.fileDone, _, _) => if stack = [] then .ok acc else .error
  | (.blockStart, [], _) => .panic
  | (.blockStart, n :: a, r) => parseLoop ((n, a, acc) :: stack) [] r
  | (.ok, [], _) => .panic
  | (.ok, n :: a, r) => parseLoop stack (acc ++ [.mk n a []]) r
termination_by s.length
decreasing_by
  all_goals
    have := readToken_lt [] {} s (by rw [h]; simp)
    rw [h] at this
    exact this

/-- tools/nginx/parser.go:239-241 `Parse`. -/
def parse (s : Bytes) : Outcome (List Directive) := parseLoop [] [] s

/-! ## Locations -/

/-- tools/nginx/parser.go:307-348: type and match of a location; none: panic. -/
def header (args : List Bytes) : Option (Bytes × Bytes) :=
  match args with
  | [] => none
  | [a, b] =>
    if a = b!"=" then some (b!"exact", b)
    else if a = b!"~" then some (b!"regexp", b)
    else if a = b!"~*" then some (b!"iregexp", b)
    else none
  | a :: _ =>
    match a with
    | [] => none
    | c :: r =>
      if c = 61 then some (b!"exact", r)
      else if c = 94 then
        match r with
        | [] => none
        | d :: _ => if d = 126 then none else some (b!"start", a)
      else if c = 126 then
        match r with
        | [] => none
        | d :: r' => if d = 42 then some (b!"iregexp", r') else some (b!"regexp", r)
      else some (b!"start", a)

/-- tools/nginx/parser.go:354-376: the words of a condition without the parentheses; none: panic. -/
def unparen (args : List Bytes) : Option (List Bytes) :=
  match args with
  | [] => some []
  | a :: rest =>
    match a with
    | [] => none
    | c :: r =>
      if c ≠ 40 then none
      else
        let first := if r = [] then [] else [r]
        match rest.getLast? with
        | none => some first
        | some l =>
          let last := if l ≠ b!")" ∧ l.getLast? = some 41 then [l.take (l.length - 1)] else []
          some (first ++ rest.dropLast ++ last)

/-- tools/nginx/parser.go:387-398. -/
def condType (op : Bytes) : Option Bytes :=
  if op = b!"~" then some b!"regexp"
  else if op = b!"~*" then some b!"iregexp"
  else if op = b!"!~" then some b!"!regexp"
  else if op = b!"!~*" then some b!"!iregexp"
  else none

/-- tools/nginx/parser.go:402-407: the last `rewrite` of a block; none: panic. -/
def lastRewrite : Bytes × Bytes → List Directive → Option (Bytes × Bytes)
  | r, [] => some r
  | r, d :: ds =>
    if d.name = b!"rewrite" then
      match d.args with
      | m :: p :: _ => lastRewrite (m, p) ds
      | _ => none
    else lastRewrite r ds

/-- tools/nginx/parser.go:354-411: the rules of an `if`; none: panic. -/
def ifRules (d : Directive) : Option (List Bytes) :=
  match unparen d.args with
  | none => none
  | some [v, op, re] =>
    if v ≠ b!"$request_uri" then some []
    else
      match condType op with
      | none => none
      | some t =>
        match lastRewrite ([], []) d.body with
        | none => none
        | some (m, p) => if m ≠ [] then some [t ++ b!" " ++ re ++ b!" " ++ m ++ b!" " ++ p] else some []
  | some _ => some []

/-- tools/nginx/parser.go:349-415: the directives of a location, after upstream and rules so far; none: panic. -/
def locationBody : Bytes × List Bytes → List Directive → Option (Bytes × List Bytes)
  | s, [] => some s
  | s, d :: ds =>
    if d.name = b!"proxy_pass" then
      match d.args with
      | [] => none
      | a :: _ => if a.length < 7 then none else locationBody (a.drop 7, s.2) ds
    else if d.name = b!"if" then
      match ifRules d with
      | none => none
      | some rs => locationBody (s.1, s.2 ++ rs) ds
    else if d.name = b!"rewrite" then
      match d.args with
      | m :: p :: _ => locationBody (s.1, s.2 ++ [b!"start / " ++ m ++ b!" " ++ p]) ds
      | _ => none
    else locationBody s ds

/-- tools/nginx/parser.go:305-423 `visitLocation`: the location, if it has an upstream; none: panic. -/
def visitLocation (d : Directive) : Option (List HttpProxy.Config) :=
  match header d.args with
  | none => none
  | some (t, m) =>
    match locationBody ([], []) d.body with
    | none => none
    | some (up, rules) => if up = [] then some [] else some [{ upstream := up, «match» := m, type := t, rules }]

mutual
/-- tools/nginx/parser.go:292-303 `visitDirectives`: one directive; none: panic. -/
def visitOne : Directive → Option (List HttpProxy.Config)
  | .mk n a b => if n = b!"location" then visitLocation (.mk n a b) else visitAll b

/-- tools/nginx/parser.go:292-303 `visitDirectives`. -/
def visitAll : List Directive → Option (List HttpProxy.Config)
  | [] => some []
  | d :: ds => (visitOne d).bind fun l => (visitAll ds).map (l ++ ·)
end

/-- tools/nginx/parser.go:440-471 `main`: the locations that are printed. (An error is reported with `panic`.) -/
def translate (s : Bytes) : Outcome (List HttpProxy.Config) :=
  match parse s with
  | .ok ds =>
    match visitAll ds with
    | some cs => .ok cs
    | none => .panic
  | .error => .error
  | .panic => .panic

/-! ## Reading them -/

/-- gopkg.in/yaml.v2 `Marshal` of a `ProxyLocation` with the names of http/httpProxy.go:221-225, as it is read again. -/
def toYaml (c : HttpProxy.Config) : Config.V :=
  .map [(b!"upstream", .str c.upstream), (b!"match", .str c.match), (b!"type", .str c.type),
    (b!"rewriteRules", .list (c.rules.map .str))]

/-- `v.(string)`; none: panic. -/
def asString : Config.V → Option Bytes
  | .str s => some s
  | _ => none

/-- http/httpProxy.go:344-348: the rules; none: panic. -/
def rulesOf : Option Config.V → Option (List Bytes)
  | none => some []
  | some (.list l) => l.mapM asString
  | some _ => none

/-- http/httpProxy.go:338-350: one location; none: panic. -/
def fromYaml : Config.V → Option HttpProxy.Config
  | .map m => do
    let up ← (AMap.load m b!"upstream").bind asString
    let ma ← (AMap.load m b!"match").bind asString
    let ty ← match AMap.load m b!"type" with
      | none => some []
      | some t => asString t
    let rs ← rulesOf (AMap.load m b!"rewriteRules")
    some { upstream := up, «match» := ma, type := ty, rules := rs }
  | _ => none

/-- http/httpProxy.go:327-354 `NewLocationMatcherFromContext`: the locations of a domain; none: panic. -/
def fromContext (conf : Config.Conf) (domain : Bytes) : Option (List HttpProxy.Config) :=
  match AMap.load conf b!"http-locations" with
  | some (.map sect) =>
    match AMap.load sect domain with
    | some (.list l) => l.mapM fromYaml
    | _ => some []
  | _ => some []

/-- tools/nginx/parser.go:465-470: what is printed, as it is read again. -/
def printed (domain : Bytes) (cs : List HttpProxy.Config) : Config.Conf :=
  [(b!"http-locations", .map [(domain, .list (cs.map toYaml))])]

end Motan.Nginx
