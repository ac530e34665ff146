import Verif.Model.ConfUrl

/-!
# The start parameters of the agent

agent.go 349-460 `initParam`, 1055-1099 `initLog`, 642-668 `initAgentURL`, 1193-1247 (the address of the management
server), config/config.go 53-179 (typed access to the configuration), log/level.go.

The command line is given by the values the flag package found; the environment and the outcome of system calls are
arguments. `none` is a panic (a failed type assertion): nothing recovers from it before the agent serves. Messages are left
out.
-/

namespace Motan.Params

open Motan.Strings Motan.Url Motan.ConfUrl

/-! ## Typed access (config/config.go) -/

/-- config/config.go:62-63: the texts that mean true. -/
def yes : List Bytes :=
  [b!"1", b!"t", b!"T", b!"true", b!"TRUE", b!"True", b!"YES", b!"yes", b!"Yes", b!"Y", b!"y", b!"ON", b!"on", b!"On"]

/-- config/config.go:64-65: the texts that mean false. -/
def no : List Bytes :=
  [b!"0", b!"f", b!"F", b!"false", b!"FALSE", b!"False", b!"NO", b!"no", b!"No", b!"N", b!"n", b!"OFF", b!"off", b!"Off"]

/-- config/config.go:56-85 `ParseBool`; none is an error. A float is given by its decimal text (the shortest one, so that 1
is `1` and 0 is `0` or `-0`). The integers of a YAML file are of type `int`, which the code does not look at (67: `int8`,
`int32`, `int64`; and there it compares with `%!s(int64=1)`). -/
def parseBool : Val → Option Bool
  | .bool b => some b
  | .str s => if s ∈ yes then some true else if s ∈ no then some false else none
  | .num t => if t = b!"1" then some true else if t = b!"0" ∨ t = b!"-0" then some false else none
  | _ => none

/-- config/config.go:171-179 `getData`. -/
def getData (c : AMap Bytes Val) (key : Bytes) : Option Val := if key = [] then none else AMap.load c key

/-- config/config.go:88-94 `Bool`. -/
def getBool (c : AMap Bytes Val) (key : Bytes) : Option Bool := (getData c key).bind parseBool

/-- config/config.go:97-106 `Int`: `asInt` is `v.(int)`; no value of a YAML file has the type `int64` on a 64 bit system. -/
def getInt (c : AMap Bytes Val) (key : Bytes) : Option Int := (getData c key).bind asInt

/-- config/config.go:110-116 `DefaultInt`. -/
def defaultInt (c : AMap Bytes Val) (key : Bytes) (dflt : Int) : Int := (getInt c key).getD dflt

/-- config/config.go:136-143 `GetStringWithDefault`. -/
def stringWithDefault (c : AMap Bytes Val) (key dflt : Bytes) : Bytes := ((getData c key).bind asString).getD dflt

/-! ## Log levels (log/level.go) -/

/-- An ASCII letter in lower case. -/
def lower (c : UInt8) : UInt8 := if 65 ≤ c ∧ c ≤ 90 then c + 32 else c

/-- log/level.go:9-18 and 22-43: the levels and their names. -/
def levels : List (Int × Bytes) :=
  [(-2, b!"trace"), (-1, b!"debug"), (0, b!"info"), (1, b!"warn"), (2, b!"error"), (3, b!"dpanic"), (4, b!"panic"), (5, b!"fatal")]

/-- log/level.go:22-43 `String`. -/
def levelString (l : Int) : Bytes :=
  match levels.find? (·.1 = l) with
  | some p => p.2
  | none => b!"Level(" ++ formatInt l ++ b!")"

/-- `strings.ToLower`, as far as the names of the levels can tell: of the letters outside ASCII only the capital I with a
dot (C4 B0) becomes a letter that occurs in them. -/
def toLower : Bytes → Bytes
  | 0xC4 :: 0xB0 :: r => 105 :: toLower r
  | c :: r => lower c :: toLower r
  | [] => []

/-- log/level.go:45-72 `Set`; none is an error. -/
def levelSet (s : Bytes) : Option Int :=
  let s := toLower s
  if s = [] then some 0 else (levels.find? (·.2 = s)).map (·.1)

/-- log/log.go:265-269: the level a logger starts with. -/
def startLevel (flag : Bytes) : Int := (levelSet flag).getD 0

/-! ## The parameters (agent.go) -/

/-- The flags of the log (log/log.go:24-30). -/
structure LogFlags where
  dir : Bytes := b!"."
  async : Bool := true
  structured : Bool := false
  perHour : Bool := true
  caller : Bool := false
  level : Bytes := b!"info"
  bufferSize : Int := 5000
deriving DecidableEq

/-- The command line: what the flag package found (core/globalContext.go:83-87), and the words themselves. -/
structure Cmd where
  port : Int := 0
  eport : Int := 0
  hport : Int := 0
  mport : Int := 0
  pidfile : Bytes := []
  log : LogFlags := {}
  args : List Bytes := []

/-- `section != nil && section[k] != nil`, and the value. -/
def setting (sect : Option Info) (k : Bytes) : Option Val :=
  match sect.bind fun m => AMap.load m k with
  | some .nil => none
  | v => v

/-- `v.(bool)` -/
def asBool : Val → Option Bool
  | .bool b => some b
  | _ => none

/-- A setting that must have a type if it is there: none is a panic. -/
def typed {α : Type} (as : Val → Option α) (sect : Option Info) (k : Bytes) (absent : α) : Option α :=
  match setting sect k with
  | none => some absent
  | some v => as v

/-- agent.go:1055-1092: the flags of the log after the section has been read. An empty text leaves `log_level` alone
(1077). -/
def logSettings (f : LogFlags) (sect : Option Info) : Option LogFlags :=
  (typed asBool sect b!"log_async" f.async).bind fun async =>
  (typed asBool sect b!"log_structured" f.structured).bind fun structured =>
  (typed asBool sect b!"rotate_per_hour" f.perHour).bind fun perHour =>
  (typed asString sect b!"log_level" []).bind fun level =>
  (typed asBool sect b!"log_filter_caller" f.caller).bind fun caller =>
  (typed asInt sect b!"log_buffer_size" f.bufferSize).map fun size =>
  { f with async := async, structured := structured, perHour := perHour, caller := caller, bufferSize := size,
           level := if level = [] then f.level else level }

/-- agent.go:1055-1099 `initLog`: the flags, and whether the log is started. -/
def initLog (f : LogFlags) (dir : Bytes) (sect : Option Info) : Option (LogFlags × Bool) :=
  (logSettings f sect).map fun f => if dir = b!"stdout" then (f, false) else ({ f with dir := dir }, true)

/-- agent.go:356-371: the directory of the log. -/
def logDir (c : Cmd) (sect : Option Info) : Option Bytes :=
  (if b!"-log_dir" ∈ c.args then some c.log.dir else typed asString sect b!"log_dir" []).map fun d =>
  if d = [] then b!"." else d

/-- agent.go:383-389, 406-412, 414-420: a port. -/
def port (cmd : Int) (sect : Option Info) (k : Bytes) (dflt : Int) : Option Int :=
  (if cmd = 0 then typed asInt sect k 0 else some cmd).map fun p => if p = 0 then dflt else p

/-- `strconv.Atoi`; none is an error. -/
def atoi (s : Bytes) : Option Int :=
  match parseInt64 s with
  | (n, none) => some n
  | _ => none

/-- agent.go:391-404: the management port. `env` is the environment variable `mport`. -/
def managePort (cmd : Int) (env : Option Bytes) (sect : Option Info) : Option Int :=
  (if cmd = 0 then
    match env with
    | some s => some ((atoi s).getD 0)
    | none => typed asInt sect b!"mport" 0
  else some cmd).map fun p => if p = 0 then 8002 else p

/-- agent.go:422-428, 430-436: a name. -/
def name (cmd : Bytes) (sect : Option Info) (k dflt : Bytes) : Option Bytes :=
  (if cmd = [] then typed asString sect k [] else some cmd).map fun p => if p = [] then dflt else p

/-- What the agent starts with. `workers` is what `SetProcessPoolSize` (379-381) is called with. -/
structure Started where
  logdir : Bytes
  log : LogFlags
  logStarted : Bool
  workers : Option Int
  port : Int
  mport : Int
  eport : Int
  hport : Int
  pidfile : Bytes
  runtimedir : Bytes
  asyncInit : Bool
deriving DecidableEq

/-- agent.go:349-460 `initParam`. `mkdir` tells whether the directory can be made (438-441 panics otherwise). -/
def initParam (c : Cmd) (env : Option Bytes) (mkdir : Bytes → Bool) (sect : Option Info) : Option Started :=
  (logDir c sect).bind fun dir =>
  (initLog c.log dir sect).bind fun log =>
  (typed asInt sect b!"processPoolSize" 0).bind fun workers =>
  (port c.port sect b!"port" 9981).bind fun port_ =>
  (managePort c.mport env sect).bind fun mport =>
  (port c.eport sect b!"eport" 9982).bind fun eport =>
  (port c.hport sect b!"hport" 9983).bind fun hport =>
  (name c.pidfile sect b!"pidfile" b!"./agent.pid").bind fun pidfile =>
  (name [] sect b!"runtime_dir" b!"./agent_runtime").bind fun runtimedir =>
  if mkdir runtimedir then
    some {
      logdir := dir, log := log.1, logStarted := log.2, workers := if 0 < workers then some workers else none,
      port := port_, mport := mport, eport := eport, hport := hport, pidfile := pidfile, runtimedir := runtimedir,
      asyncInit := ((setting sect b!"motanEpAsyncInit").bind asBool).getD true }
  else none

/-! ## The agent's own URL -/

/-- `u.Parameters[k] = v` (not `PutParam`: the caches stay). -/
def setParam (u : URL) (k v : Bytes) : URL := { u with params := some (AMap.store (u.params.getD []) k v) }

/-- agent.go:642-668 `initAgentURL`: the URL and the application of the process (649). The agent's URL always has a
parameter map (`confToURL`); the cache filled by the message (667) is left out. -/
def agentURL (u : URL) : URL × Bytes :=
  let u := match u.param b!"application" with
    | some a => { u with group := a }
    | none => setParam u b!"application" u.group
  let app := (u.param b!"application").getD []
  let u := if u.group = [] then setParam { u with group := b!"default_agent_group" } b!"application" b!"default_agent_group" else u
  let u := if u.path = [] then { u with path := u.group } else u
  let u := match (u.param b!"mport").bind atoi with
    | some p => { u with port := p }
    | none => u
  (setParam u b!"nodeType" b!"agent", app)

/-! ## The management server -/

/-- Where the management server listens. -/
inductive Address
  | unix (path : Bytes)
  | tcp (port : Int)
deriving DecidableEq

/-- What became of the management server: where it listens, the port the agent keeps, and the port other parts are told
(`SetMport`, 1241). None: it does not run. -/
structure Managed where
  address : Option Address
  mport : Int
  told : Option Int
deriving DecidableEq

/-- agent.go:1218-1226: the first port from `p` on, among `n`, that can be had. -/
def firstFree (free : Int → Bool) (p : Int) : Nat → Option Int
  | 0 => none
  | n + 1 => if free p then some p else firstFree free (p + 1) n

/-- agent.go:1193-1241: where the management server listens. `unixOk` and `free` are the outcomes of listening. (A range that
ends with the largest `int` and has no free port keeps the code looping; here it ends.) -/
def manage (u : URL) (mport : Int) (unixOk : Bytes → Bool) (free : Int → Bool) : Managed :=
  let unix := getParam u b!"managementUnixSock" []
  let range := getParam u b!"managementPortRange" []
  if unix ≠ [] then
    if unixOk unix then { address := some (.unix unix), mport := mport, told := some 0 }
    else { address := none, mport := mport, told := none }
  else if range ≠ [] then
    match trimSplit range b!"-" with
    | a :: b :: _ =>
      match atoi a, atoi b with
      | some s, some e =>
        match firstFree free s (e - s + 1).toNat with
        | some p => { address := some (.tcp p), mport := p, told := some p }
        | none => { address := none, mport := mport, told := none }
      | _, _ => { address := none, mport := mport, told := none }
    | _ => { address := none, mport := mport, told := none }
  else if free mport then { address := some (.tcp mport), mport := mport, told := some mport }
  else { address := none, mport := mport, told := none }

end Motan.Params
