import Verif.Basic.Trim
import Verif.Model.Url

/-!
# Traffic commands (cluster/command.go)

The registry of a cluster is wrapped: what the cluster is told depends on the registry's content for its own group
and for other groups, and on commands from the registry or from the agent. JSON decoding of commands, regular
expressions and the local IP are parameters; so is `sort.Sort`, of which the theorems assume that it sorts.

The registry answers `Discover` for another group with an argument of each event. Listeners are numbered, and the
ones subscribed and not unsubscribed are listed, so that leaks can be seen. Calls are atomic (they hold `mux`; the
unlocked writes of `ownGroupURLs` and of a listener's URLs are the events themselves). Recorders are left out.
-/

namespace Motan.Command

open Motan.Strings Motan.Url

/-- cluster/command.go:72-81 `ClientCommand` (the fields never read are left out). -/
structure Cmd where
  index : Int
  type : Int
  pattern : Bytes := []
  mergeGroups : List Bytes := []
  routeRules : List Bytes := []
deriving DecidableEq, Repr

/-- What does not change. -/
structure Env where
  /-- the cluster's URL -/
  url : URL
  /-- cluster/command.go:159-166 `ParseCommand` -/
  parse : Bytes → Option (List Cmd)
  /-- `regexp.MatchString(pattern, s)`; an invalid pattern does not match -/
  re : Bytes → Bytes → Bool
  /-- `sort.Sort` on `CmdList` (128-140) -/
  sort : List Cmd → List Cmd
  /-- `motan.GetLocalIP()` -/
  localIP : Bytes

/-- cluster/command.go:142-157 `MatchCmdPattern`. -/
def matchCmdPattern (env : Env) (c : Cmd) : Bool :=
  if c.type = 2 then true
  else if c.pattern = b!"*" ∨ hasPrefix env.url.path c.pattern then true
  else env.re c.pattern env.url.path

/-- The three commands in force: traffic control, degrade, switcher. -/
structure Chosen where
  tc : Option Cmd := none
  degrade : Option Cmd := none
  switcher : Option Cmd := none
deriving DecidableEq, Repr

/-- cluster/command.go:563-581 one command of the sorted list. -/
def choose (env : Env) (r : Chosen) (c : Cmd) : Chosen :=
  if matchCmdPattern env c then
    if c.type = 0 then
      match r.tc with
      | none => { r with tc := some c }
      | some _ => r
    else if c.type = 1 then { r with degrade := some c }
    else if c.type = 2 then { r with switcher := some c }
    else r
  else r

/-- cluster/command.go:555-584 `mergeCommand`. -/
def mergeCommand (env : Env) (info : Bytes) : Chosen :=
  match env.parse info with
  | none => {}
  | some l => (env.sort l).foldl (choose env) {}

/-- cluster/command.go:377-394 `isMatch`. -/
def isMatch (router s : Bytes) : Bool :=
  let inverse := hasPrefix router b!"!"
  let router := if inverse then router.drop 1 else router
  let m :=
    if router = b!"*" then true
    else match index b!"*" router with
      | some i => hasPrefix s (router.take i)
      | none => s = router
  if inverse then !m else m

/-- cluster/command.go:353-370 one route rule of `processRoute`. -/
def routeStep (localIP : Bytes) (urls : List URL) (r : Bytes) : List URL :=
  match split b!"to" r with
  | [a, b] =>
    let src := trimSpace a
    let dst := trimSpace b
    if src.length > 0 ∧ dst.length > 0 ∧ isMatch src localIP then
      urls.filter fun u => u.protocol = b!"rule" ∨ isMatch dst u.host
    else urls
  | _ => urls

/-- cluster/command.go:350-374 `processRoute`. -/
def processRoute (localIP : Bytes) (urls : List URL) (routers : List Bytes) : List URL :=
  if urls.length > 0 ∧ routers.length > 0 then routers.foldl (routeStep localIP) urls else urls

/-- cluster/command.go:397-402 `buildRuleURL`. -/
def buildRuleURL (weight : Bytes) : URL := { protocol := b!"rule", params := some [(b!"weight", weight)] }

/-- cluster/command.go:87-94 `serviceListener` for another group. -/
structure Listener where
  id : Nat
  urls : List URL
deriving DecidableEq, Repr

/-- cluster/command.go:39-55 `CommandRegistryWrapper`, with the cluster's degrade state (`available`), the numbers
of the live subscriptions, the lists the cluster was given, and the switcher commands processed (see
`SwitcherCommand`). -/
structure State where
  serviceInfo : Bytes := []
  agentInfo : Bytes := []
  own : List URL := []
  listeners : AMap Bytes Listener := []
  static : Option Cmd := none
  tc : Option Cmd := none
  degrade : Option Cmd := none
  switcher : Option Cmd := none
  weights : AMap Bytes Bytes := []
  available : Bool := true
  next : Nat := 0
  subs : List Nat := []
  told : List (List URL) := []
  switched : List (Option Cmd) := []

/-- `strings.Split(group, ":")[0]`. -/
def groupName (g : Bytes) : Bytes := (split b!":" g).headD []

/-- cluster/command.go:168-191 `GetCommandRegistryWrapper`: the static command from mixGroups. -/
def newWrapper (env : Env) : State :=
  let mix := getParam env.url b!"mixGroups" []
  if mix ≠ [] then
    let others := ((split b!"," mix).map trimSpace).filter fun g => g ≠ [] ∧ g ≠ env.url.group
    let groups := env.url.group :: others
    if groups.length > 1 then { static := some { index := 0, type := 0, mergeGroups := groups } } else {}
  else {}

/-- cluster/command.go:274-282 `getCurrentTcCommand`. -/
def currentTc (s : State) : Option Cmd :=
  match s.tc with
  | some c => some c
  | none => s.static

/-- cluster/command.go:504-511 `newSubscribe` and 122-126 `subscribe`. -/
def newSubscribe (disc : Bytes → List URL) (s : State) (g : Bytes) : Listener × State :=
  (⟨s.next, disc g⟩, { s with next := s.next + 1, subs := s.subs ++ [s.next] })

/-- cluster/command.go:293-312 one merged group: its URLs, subscribing if needed. -/
def groupURLs (env : Env) (disc : Bytes → List URL) (s : State) (group : Bytes) : List URL × State :=
  if env.url.group = groupName group then (s.own, s)
  else
    match AMap.load s.listeners (groupName group) with
    | some l => (l.urls, s)
    | none =>
      let (l, s) := newSubscribe disc s (groupName group)
      (l.urls, { s with listeners := AMap.store s.listeners (groupName group) l })

/-- cluster/command.go:292-318 the loop over the merged groups: the URLs and the state. -/
def mergeURLs (env : Env) (disc : Bytes → List URL) (s : State) : List Bytes → List URL × State
  | [] => ([], s)
  | g :: gs =>
    let (us, s) := groupURLs env disc s g
    let (rest, s) := mergeURLs env disc s gs
    (us ++ rest, s)

/-- cluster/command.go:291, 313-317 the weight string: the merged groups, separated by commas. -/
def weightString (groups : List Bytes) : Bytes :=
  groups.foldl (fun b g => (if b.length > 0 then b ++ b!"," else b) ++ g) []

/-- cluster/command.go:284-337 `getResultWithCommand`, without the notification. -/
def getResult (env : Env) (disc : Bytes → List URL) (s : State) : List URL × State :=
  match currentTc s with
  | none => (s.own, s)
  | some c =>
    let (result, s) := mergeURLs env disc s c.mergeGroups
    let result := if result.length > 0 then result ++ [buildRuleURL (weightString c.mergeGroups)] else result
    let result := processRoute env.localIP result c.routeRules
    (if result.length = 0 then s.own else result, s)

/-- The same with `needNotify` (331-334). -/
def notifyResult (env : Env) (disc : Bytes → List URL) (s : State) : State :=
  let (r, s) := getResult env disc s
  { s with told := s.told ++ [r] }

/-- The loop of cluster/command.go:476-491: new listeners, listeners to remove, weights, state. -/
def tcGroups (env : Env) (disc : Bytes → List URL) (old : AMap Bytes Listener) :
    List Bytes → AMap Bytes Listener × AMap Bytes Listener × AMap Bytes Bytes × State →
    AMap Bytes Listener × AMap Bytes Listener × AMap Bytes Bytes × State
  | [], a => a
  | g :: gs, (new, rm, ws, s) =>
    let ws := match split b!":" g with
      | n :: w :: _ => AMap.store ws n w
      | _ => ws
    if env.url.group = groupName g then tcGroups env disc old gs (new, rm, ws, s)
    else
      match AMap.load old (groupName g) with
      | some l =>
        tcGroups env disc old gs (AMap.store new (groupName g) l, AMap.erase rm (groupName g), ws, s)
      | none =>
        let (l, s) := newSubscribe disc s (groupName g)
        tcGroups env disc old gs (AMap.store new (groupName g) l, rm, ws, s)

/-- cluster/command.go:494-501 the new listeners and command are set and the unused listeners unsubscribed. -/
def finishTc (tc : Option Cmd) (new rm : AMap Bytes Listener) (ws : AMap Bytes Bytes) (s : State) : State :=
  { s with listeners := new, tc := tc, weights := ws,
           subs := s.subs.filter fun i => i ∉ rm.map fun p => p.2.id }

/-- cluster/command.go:458-502 `processTcCommand`. -/
def processTc (env : Env) (disc : Bytes → List URL) (s : State) (tc : Option Cmd) : State :=
  match tc.or s.static with
  | none => finishTc tc [] s.listeners s.weights s
  | some c =>
    let r := tcGroups env disc s.listeners c.mergeGroups ([], s.listeners, [], s)
    finishTc tc r.1 r.2.1 r.2.2.1 r.2.2.2

/-- cluster/command.go:513-522 `processDegradeCommand`. -/
def processDegrade (s : State) (d : Option Cmd) : State := { s with degrade := d, available := d.isNone }

/-- cluster/command.go:404-456 `processCommand`: whether to notify, and the state. -/
def processCommand (env : Env) (disc : Bytes → List URL) (s : State) (agent : Bool) (info : Bytes) : Bool × State :=
  if (if agent then s.agentInfo else s.serviceInfo) = info then (false, s)
  else
    let s := if agent then { s with agentInfo := info } else { s with serviceInfo := info }
    let a : Chosen := if s.agentInfo ≠ [] then mergeCommand env s.agentInfo else {}
    let r : Chosen :=
      if s.serviceInfo ≠ [] then
        let b := mergeCommand env s.serviceInfo
        { tc := match a.tc with | some c => some c | none => b.tc
          degrade := match a.degrade with | some c => some c | none => b.degrade
          switcher := match a.switcher with | some c => some c | none => b.switcher }
      else a
    let need := r.tc.isSome || (s.tc.isSome && r.tc.isNone)
    let s := processTc env disc s r.tc
    let s := processDegrade s r.degrade
    (need, { s with switcher := r.switcher, switched := s.switched ++ [r.switcher] })

/-- cluster/command.go:586-592 `NotifyCommand`. -/
def notifyCommand (env : Env) (disc : Bytes → List URL) (s : State) (agent : Bool) (info : Bytes) : State :=
  let (need, s) := processCommand env disc s agent info
  if need then notifyResult env disc s else s

/-- cluster/command.go:597-608 whether a change of the own group is passed on. -/
def ownNeeded (env : Env) (s : State) : Bool :=
  match currentTc s with
  | some c => c.mergeGroups.any fun g => groupName g = env.url.group
  | none => true

/-- cluster/command.go:594-613 `Notify` for the own group. -/
def notifyOwn (env : Env) (disc : Bytes → List URL) (s : State) (urls : List URL) : State :=
  if ownNeeded env s then notifyResult env disc { s with own := urls } else { s with own := urls }

/-- cluster/command.go:105-113 `serviceListener.Notify`: an unsubscribed listener ignores it. -/
def notifyOther (env : Env) (disc : Bytes → List URL) (s : State) (id : Nat) (urls : List URL) : State :=
  if id ∈ s.subs then
    notifyResult env disc
      { s with listeners := s.listeners.map fun p => if p.2.id = id then (p.1, { p.2 with urls := urls }) else p }
  else s

/-- cluster/command.go:236-247 `Discover` of a registry with commands, whose result the cluster notifies itself of
(cluster/motanCluster.go:332-333). For a registry without commands see `discoverPlain`. -/
def discover (env : Env) (disc : Bytes → List URL) (s : State) (own : List URL) (info : Bytes) : State :=
  let s := { s with own := own }
  let (_, s) := processCommand env disc s false info
  notifyResult env disc s

/-- cluster/command.go:244-245 `Discover` of a registry without commands (every registry but zookeeper): the own group,
whatever the command of the configuration. Not one of the events below. -/
def discoverPlain (s : State) (own : List URL) : State := { s with own := own, told := s.told ++ [own] }

/-- cluster/command.go:228-234 `Unsubscribe` and 257-272 `clear`. -/
def clear (s : State) : State :=
  { s with tc := none, degrade := none, agentInfo := [], serviceInfo := [], own := [], weights := [],
           listeners := [], subs := s.subs.filter fun i => i ∉ s.listeners.map fun p => p.2.id }

/-- One thing that happens; each carries what the registry would answer for other groups. -/
inductive Event
  | discover (own : List URL) (info : Bytes) (disc : Bytes → List URL)
  | own (urls : List URL) (disc : Bytes → List URL)
  | other (id : Nat) (urls : List URL) (disc : Bytes → List URL)
  | command (agent : Bool) (info : Bytes) (disc : Bytes → List URL)
  | unsubscribe

/-- Its effect. -/
def step (env : Env) (s : State) : Event → State
  | .discover own info disc => discover env disc s own info
  | .own urls disc => notifyOwn env disc s urls
  | .other id urls disc => notifyOther env disc s id urls
  | .command agent info disc => notifyCommand env disc s agent info
  | .unsubscribe => clear s

/-- A history of a new wrapper, oldest first. -/
def run (env : Env) (h : List Event) : State := h.foldl (step env) (newWrapper env)

end Motan.Command
