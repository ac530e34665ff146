import Verif.Basic.Trim
import Verif.Model.Url
import Verif.Model.Dynamic

/-!
# Starting a server: exporting the configured services (server.go, server/server.go, server/motanserver.go)

`Start` exports the configured services one after another, in the order in which Go lists a map, so in any order.
A service ends up as a provider of a server that listens on an address, and as an entry in each of its registries.

Left out: filters around the provider, the environment's meta parameters (off unless `registerMeta` is set), and
what the provider does with a call (see `Model/Provider.lean`, `Model/Server.lean`). Registering with a registry is
taken to record the URL there.
-/

namespace Motan.Export

open Motan.Strings
open Motan.Url

/-- What a listener is bound to: `net.Listen("tcp", host:port)` or `net.Listen("unix", path)`. -/
inductive Addr
  | tcp (host : Bytes) (port : Int)
  | unix (path : Bytes)
deriving DecidableEq, Repr

/-- What the process is given: the registered implementations by `ref` (server.go `RegisterService`; a number
stands for an implementation), the names with a factory (core/motan.go `providerFactories`, `servers`,
`registryFactories`), the registry URLs of the configuration, the machine's address, and the addresses on which the
operating system lets this process listen as far as other processes are concerned. -/
structure Env where
  impls : AMap Bytes Nat
  providers : List Bytes
  servers : List Bytes
  registryTypes : List Bytes
  registryURLs : AMap Bytes URL
  localIP : Bytes
  free : Addr → Bool

/-- What a program hands to `RegisterService`: nothing, something that is no pointer, a nil pointer, or a pointer to an
object (a number stands for it) with the name of its type. -/
inductive Arg
  | nothing
  | value
  | nilPointer
  | pointer (typeName : Bytes) (impl : Nat)
deriving DecidableEq, Repr

/-- What `RegisterService` does: it returns nil, it returns an error, it panics. -/
inductive Registration
  | ok
  | refused
  | panics
deriving DecidableEq, Repr

/-- server.go:216-245 `RegisterService`, with the table of implementations it leaves; `us` are the configured services.
A nil pointer has no element, and asking for its type panics. -/
def registerService (us : List URL) (m : AMap Bytes Nat) (a : Arg) (sid : Bytes) : Registration × AMap Bytes Nat :=
  match a with
  | .nothing | .value => (.refused, m)
  | .nilPointer => (.panics, m)
  | .pointer t impl =>
    let ref := if sid = [] then t else sid
    if us.any fun u => u.params ≠ none ∧ (u.param b!"ref").getD [] = ref then (.ok, AMap.store m ref impl) else (.refused, m)

/-- The table after these calls. -/
def registerAll (us : List URL) (m : AMap Bytes Nat) (calls : List (Arg × Bytes)) : AMap Bytes Nat :=
  calls.foldl (fun m c => (registerService us m c.1 c.2).2) m

/-- A provider: its URL and the implementation behind it (server.go:159-161). -/
structure Prov where
  url : URL
  impl : Nat
deriving DecidableEq, Repr

/-- A server (server/motanserver.go:45-55) with its message handler (server/server.go:164-167). `providers = none`:
the handler was never set, because `Open` failed. -/
structure Server where
  url : URL
  providers : Option (AMap Bytes Prov)
deriving DecidableEq, Repr

/-- server.go:25-37 `MSContext` and what it does to the world: `servers` is `portServer`; `bound` says which server
(by its key) owns a listening address; `registered` lists registry identity and URL of every `Register` call. -/
structure St where
  servers : AMap Bytes Server := []
  bound : AMap Addr Bytes := []
  registered : List (Bytes × URL) := []
deriving DecidableEq, Repr

/-- server.go:122-136: protocol and port text from the `export` parameter. -/
def protoPort (e : Bytes) : Bytes × Bytes :=
  if e = [] then (b!"motan2", b!"9982")
  else
    match trimSplit e b!":" with
    | [p] => (b!"motan2", p)
    | [a, p] => (if a ≠ [] then a else b!"motan2", p)
    | _ => (b!"motan2", b!"9982")

/-- server.go:138-155: the port of the URL and the key of the server; none when the port is not a number. -/
def portKey (u : URL) (port : Bytes) : Option (Int × Bytes) :=
  let ph := getParam u b!"proxy.host" []
  let us := getParam u b!"unixSock" []
  if hasPrefix ph b!"unix://" then some (0, ph)
  else if us ≠ [] then some (0, us)
  else
    match parseInt64 port with
    | (n, none) => some (n, port)
    | (_, some _) => none

/-- server.go:137, 156-160: the URL as exported. -/
def placed (E : Env) (u : URL) (protocol : Bytes) (port : Int) : URL :=
  clearCachedInfo { u with protocol := protocol, port := port, host := if u.host = [] then E.localIP else u.host }

/-- core/motan.go:828-842 `GetProvider`: the name looked up. -/
def providerName (u : URL) : Bytes :=
  let p := getParam u b!"provider" []
  if p = [] then
    let x := getParam u b!"proxy" []
    if x ≠ [] then (Dynamic.parseExportInfo x).1 else b!"default"
  else p

/-- server/motanserver.go:78-93: the address `Open` listens on (registry/registry.go:137-145 `IsAgent`). -/
def listenAddr (u : URL) : Addr :=
  let us := getParam u b!"unixSock" []
  if us ≠ [] then .unix us
  else .tcp (if u.param b!"nodeType" = some b!"agent" then u.host else []) u.port

/-- Listening for server `key` (server/motanserver.go:78-98, core/util.go:230-242): a Unix socket file that exists is
removed first, so the newcomer takes the address over; a TCP port in use is refused, and port 0 stands for any free
port. -/
def listen (E : Env) (bound : AMap Addr Bytes) (a : Addr) (key : Bytes) : Option (AMap Addr Bytes) :=
  if E.free a then
    match a with
    | .unix _ => some (bound.store a key)
    | .tcp _ port =>
      if port = 0 then some bound
      else if (bound.load a).isSome then none
      else some (bound.store a key)
  else none

/-- core/motan.go:845-849: the name under which `GetServer` looks for a server. -/
def serverName (protocol : Bytes) : Bytes := if protocol = [] then b!"motan2" else protocol

/-- server.go:171-178 with core/motan.go:844-857 `GetServer`: a new server with the provider; the result of `Open` is
not looked at. None: no such server, a nil dereference that `export` recovers from. -/
def newServer (E : Env) (s : St) (key : Bytes) (p : Prov) : Option St :=
  if serverName p.url.protocol ∈ E.servers then
    match listen E s.bound (listenAddr p.url) key with
    | some b => some { s with bound := b, servers := s.servers.store key ⟨p.url, some [(p.url.path, p)]⟩ }
    | none => some { s with servers := s.servers.store key ⟨p.url, none⟩ }
  else none

/-- server.go:302-310 `canShareChannel`. -/
def canShareChannel (u v : URL) : Bool :=
  u.protocol = v.protocol ∧ isSame u.params v.params b!"serialization" []

/-- server.go:168-186, server/server.go:193-196: the provider reaches a server. None: `export` stops here (an error, or
a nil handler, from which it recovers). -/
def addProvider (E : Env) (s : St) (key : Bytes) (p : Prov) : Option St :=
  match s.servers.load key with
  | none => newServer E s key p
  | some srv =>
    if canShareChannel p.url srv.url then
      srv.providers.map fun ps =>
        { s with servers := s.servers.store key { srv with providers := some (ps.store p.url.path p) } }
    else none

/-- core/motan.go:802-817 `GetRegistry` for a registry id: its identity, when it is configured and of a known type. -/
def registryOf (E : Env) (id : Bytes) : Option Bytes :=
  (E.registryURLs.load id).bind fun r => if r.protocol ∈ E.registryTypes then some (getIdentity r).1 else none

/-- server/server.go:66-114 `Export`: mark the URL as a service and register it with each listed registry that exists.
A missing `registry` parameter is an error; an unknown id is only logged. -/
def exporter (E : Env) (s : St) (u : URL) : St :=
  let v := putParam u b!"nodeType" b!"service"
  match v.param b!"registry" with
  | none => s
  | some regs => { s with
      registered := s.registered ++ ((trimSplit regs b!",").filterMap (registryOf E)).map fun r => (r, v) }

/-- server.go:117-195 `export`. -/
def export1 (E : Env) (s : St) (u : URL) : St :=
  match E.impls.load ((u.param b!"ref").getD []) with
  | none => s
  | some impl =>
    let pp := protoPort (getParam u b!"export" [])
    match portKey { u with protocol := pp.1 } pp.2 with
    | none => s
    | some (port, key) =>
      let v := placed E u pp.1 port
      if providerName v ∈ E.providers then
        match addProvider E s key ⟨v, impl⟩ with
        | none => s
        | some s' => exporter E s' v
      else s

/-- server.go:105-107 `Start`: all configured services, in the order Go happens to list them. -/
def start (E : Env) (us : List URL) : St := us.foldl (export1 E) {}

/-- A request that reaches the address and names a service path (server/server.go:209-230 `Call` looks the provider
up by the service name): the provider that gets it. -/
def reached (s : St) (a : Addr) (path : Bytes) : Option Prov :=
  (s.bound.load a).bind fun key => (s.servers.load key).bind fun srv => srv.providers.bind fun ps => ps.load path

end Motan.Export
