import Verif.Model.Config
import Verif.Model.Url

/-!
# The contexts of clients and servers (client.go, server.go, core/switcher.go)

`GetClientContext` and `GetMotanServerContext` keep one context for each name of a file, in two tables of the process. The content of
the file when it is looked at is an argument of the step. Contexts and clusters are numbered in the order they are made; a cluster
is live from then on, since nothing here destroys one. The operations hold locks, so they are taken one at a time.
-/

namespace Motan.Context

open Motan.Config Motan.Url

/-- What the sections of references, services and registries of a configuration stand for: the references by key, none if parsing a
section panics (C65). -/
structure World where
  refers : Conf → Option (AMap Bytes URL)

/-! ### Switchers -/

/-- A value that YAML reads as a boolean. -/
def asBool : V → Option Bool
  | .other s => if s = b!"true" then some true else if s = b!"false" then some false else none
  | _ => none

/-- core/switcher.go:39-55 `Register`. -/
def register (t : AMap Bytes Bool) (n : Bytes) (v : Bool) : AMap Bytes Bool :=
  if n = [] then t else if (AMap.load t n).isSome then t else AMap.store t n v

/-- config/config.go:144-151 `GetSection`: nothing if it is missing or not a map. -/
def sectionOf (c : Conf) (k : Bytes) : List (Bytes × V) :=
  match AMap.load c k with
  | some (.map m) => m
  | _ => []

/-- mapstructure's decoding of a value into a bool: nil leaves it false, other types are errors. -/
def decodeBool : V → Option Bool
  | .nil => some false
  | v => asBool v

/-- core/switcher.go:27-37 `initSwitcher`: none of them if one is not a boolean. -/
def initSwitcher (t : AMap Bytes Bool) (c : Conf) : AMap Bytes Bool :=
  let l := sectionOf c b!"switchers"
  if l.all (fun p => (decodeBool p.2).isSome) then l.foldl (fun t p => register t p.1 ((decodeBool p.2).getD false)) t else t

/-- agent.go:1101-1107 `registerSwitchers`, over the entries in the order visited: the table afterwards, and whether it came to the end. -/
def registerSwitchers (t : AMap Bytes Bool) : List (Bytes × V) → AMap Bytes Bool × Bool
  | [] => (t, true)
  | (n, v) :: r =>
    match asBool v with
    | some b => registerSwitchers (register t n b) r
    | none => (t, false)

/-! ### Options of the log -/

/-- The types asserted of the options. -/
inductive Ty
  | text
  | bool
  | int

/-- Whether the value passes the assertion. (An integer is a scalar of decimal digits, perhaps with a sign.) -/
def isTy : Ty → V → Bool
  | .text, .str _ => true
  | .bool, v => (asBool v).isSome
  | .int, .other s =>
    let d := if s.head? = some 45 then s.drop 1 else s
    decide (d ≠ []) && d.all fun b => 48 ≤ b ∧ b ≤ 57
  | _, _ => false

/-- client.go:109-111, server.go:57-59, agent.go:1053-1092 `initLog`: the options that are looked at. -/
def logOptions : List (Bytes × Ty) :=
  [(b!"log_dir", .text), (b!"log_async", .bool), (b!"log_structured", .bool), (b!"rotate_per_hour", .bool),
   (b!"log_level", .text), (b!"log_filter_caller", .bool), (b!"log_buffer_size", .int)]

/-- Whether no assertion panics. An option that is missing or without a value is passed over. -/
def logOk (c : Conf) (sect : Bytes) : Bool :=
  logOptions.all fun o =>
    match value (AMap.load (sectionOf c sect) o.1) with
    | none => true
    | some v => isTy o.2 v

/-! ### Contexts -/

/-- client.go:20-28 `MCContext`: its configuration, the references, and the clients by key, each with its cluster. -/
structure Ctx where
  conf : Conf
  refers : AMap Bytes URL
  clients : AMap Bytes (URL × Nat) := []

/-- client.go:15-18, server.go:41-44: the tables of contexts by file; the contexts made (client.go, server.go: `MSContext` of server.go
keeps the configuration only, here), the clusters made with the reference of each; the switchers. -/
structure St where
  clientTable : AMap Bytes Nat := []
  serverTable : AMap Bytes Nat := []
  ctxs : List Ctx := []
  clusters : List URL := []
  switchers : AMap Bytes Bool := []

/-- What a call gives. -/
inductive Out
  | ctx (n : Nat)
  | nil
  | panic
deriving DecidableEq, Repr

/-- client.go:101-119 `NewClientContextFromConfig`, server.go:46-69 `NewMotanServerContextFromConfig`: none if it panics, with the
switchers it leaves. Since the context is given a configuration, core/globalContext.go:226-265 is skipped and the configuration is
used as it is. -/
def newContext (w : World) (t : AMap Bytes Bool) (sect : Bytes) (c : Conf) : Option Ctx × AMap Bytes Bool :=
  match w.refers c with
  | none => (none, t)
  | some rs =>
    let t1 := initSwitcher t c
    if logOk c sect then
      match registerSwitchers t1 (sectionOf c b!"switcher") with
      | (t2, true) => (some { conf := c, refers := rs }, t2)
      | (t2, false) => (none, t2)
    else (none, t1)

/-- client.go:125-142 `GetClientContextWithFlagParse`, with the content of the file (none: it cannot be read or parsed). -/
def getClientContext (w : World) (s : St) (file : Bytes) (content : Option Conf) : Out × St :=
  match AMap.load s.clientTable file with
  | some n => (.ctx n, s)
  | none =>
    match content with
    | none => (.nil, s)
    | some c =>
      match newContext w s.switchers b!"motan-client" c with
      | (some x, t) =>
        (.ctx s.ctxs.length,
          { s with clientTable := AMap.store s.clientTable file s.ctxs.length, ctxs := s.ctxs ++ [x], switchers := t })
      | (none, t) => (.panic, { s with switchers := t })

/-- server.go:78-97 `GetMotanServerContextWithFlagParse`. -/
def getServerContext (w : World) (s : St) (file : Bytes) (content : Option Conf) : Out × St :=
  match content with
  | none => (.nil, s)
  | some c =>
    match AMap.load s.serverTable file with
    | some n => (.ctx n, s)
    | none =>
      match newContext w s.switchers b!"motan-server" c with
      | (some x, t) =>
        (.ctx s.ctxs.length,
          { s with serverTable := AMap.store s.serverTable file s.ctxs.length, ctxs := s.ctxs ++ [x], switchers := t })
      | (none, t) => (.panic, { s with switchers := t })

/-- client.go:162-165: a cluster and a client for each reference, over the references in the order visited. -/
def startLoop (s : St) (n : Nat) : List (Bytes × URL) → St
  | [] => s
  | (k, u) :: r =>
    startLoop { s with
      ctxs := s.ctxs.modify n fun x => { x with clients := AMap.store x.clients k (u, s.clusters.length) }
      clusters := s.clusters ++ [u] } n r

/-- client.go:154-166 `Start`. -/
def start (s : St) (n : Nat) : St :=
  match s.ctxs[n]? with
  | none => s
  | some x => startLoop s n x.refers

/-- client.go:168-170 `GetClient`: the reference and the cluster of the client. -/
def getClient (s : St) (n : Nat) (key : Bytes) : Option (URL × Nat) :=
  (s.ctxs[n]?).bind fun x => AMap.load x.clients key

/-- What a program does. -/
inductive Op
  | client (file : Bytes) (content : Option Conf)
  | server (file : Bytes) (content : Option Conf)
  | start (n : Nat)

/-- One operation. -/
def step (w : World) (s : St) : Op → St
  | .client f c => (getClientContext w s f c).2
  | .server f c => (getServerContext w s f c).2
  | .start n => start s n

/-- A history from the start of the process. -/
def run (w : World) (ops : List Op) : St := ops.foldl (step w) {}

end Motan.Context
