import Verif.Model.Dynamic

/-!
# Two of the agent's administrative pages: dynamic registration (dynamicConfig.go) and runtime information
(manageHandler.go)

Which handler a request comes to is modelled in `Model/Manage.lean`, the calls of a registration request and the tables
in `Model/Dynamic.lean`.
-/

namespace Motan.Admin

open Motan.Strings Motan.Url

/-! ## Dynamic registration -/

/-- What the body of an answer carries besides code and message (dynamicConfig.go:419-431). -/
inductive Extra
  | nothing
  | listing (sn : Dynamic.Snap)
  | port (n : Int)

/-- An answer: the status line, and the JSON object of the body if there is one. -/
structure Answer where
  status : Nat
  body : Option (Nat × Bytes × Extra)

/-- dynamicConfig.go:419-431 `writeHandlerResponse`. -/
def respond (code : Nat) (message : Bytes) (extra : Extra) : Answer := { status := code, body := some (code, message, extra) }

/-- dynamicConfig.go:353-403 `register`, `unregister`, `subscribe`, run alone. `body`: what the request's body parses
to; none: it cannot be read or parsed. The message of an error is left out. -/
def change (E : Dynamic.Env) (s : Dynamic.St) (k : Dynamic.Kind) (body : Option URL) : Answer × Dynamic.St :=
  match body.bind (Dynamic.requestCalls E k) with
  | none => (respond 400 [] .nothing, s)
  | some calls => (respond 200 b!"ok" .nothing, calls.foldl (Dynamic.run E) s)

/-- dynamicConfig.go:211-227 `ServeHTTP`: by the request URI as it was sent, with its query. `sn` is the listing that
`getRegistryInfo` gives, `port` the agent's port (dynamicConfig.go:405-413). -/
def serveRegistry (E : Dynamic.Env) (port : Int) (sn : Dynamic.Snap) (s : Dynamic.St) (uri : Bytes) (body : Option URL) :
    Answer × Dynamic.St :=
  if uri = b!"/registry/register" then change E s .register body
  else if uri = b!"/registry/unregister" then change E s .unregister body
  else if uri = b!"/registry/subscribe" then change E s .subscribe body
  else if uri = b!"/registry/list" then (respond 200 b!"ok" (.listing sn), s)
  else if uri = b!"/registry/info" then (respond 200 b!"ok" (.port port), s)
  else ({ status := 404, body := none }, s)

/-! ## Runtime information -/

/-- A value of the page; `info` is what a part of the agent says about itself. -/
inductive Value (α : Type)
  | text (b : Bytes)
  | info (a : α)
  | empty
deriving DecidableEq, Repr

/-- What the parts of the agent say: `some none` is the nil map, `none`: asking panics. (`Model/Runtime.lean` has what they
say and when they panic.) -/
structure Parts (α : Type) where
  clusters : Option (Option α)
  httpClusters : Option (Option α)
  exporters : Option (Option α)
  servers : Option (Option α)
  extensionFactory : Option (Option α)
  basic : Option (Option α)

/-- manageHandler.go:819-835: the function of a key, `none` if there is none; its outcome, `none` if it panics. -/
def part {α : Type} (p : Parts α) (k : Bytes) : Option (Option (Option α)) :=
  if k = b!"clusters" then some p.clusters
  else if k = b!"httpClusters" then some p.httpClusters
  else if k = b!"exporters" then some p.exporters
  else if k = b!"servers" then some p.servers
  else if k = b!"extensionFactory" then some p.extensionFactory
  else if k = b!"basic" then some p.basic
  else none

/-- manageHandler.go:803-812. -/
def defaultKeys : List Bytes :=
  [b!"clusters", b!"httpClusters", b!"exporters", b!"servers", b!"extensionFactory", b!"basic"]

/-- manageHandler.go:912-918 `addInfos`. -/
def addInfos {α : Type} (info : Option α) (k : Bytes) (page : AMap Bytes (Value α)) : AMap Bytes (Value α) :=
  match info with
  | some a => AMap.store page k (.info a)
  | none => AMap.store page k .empty

/-- manageHandler.go:850-855: the loop over the keys; none: a panic. -/
def fill {α : Type} (p : Parts α) : List Bytes → AMap Bytes (Value α) → Option (AMap Bytes (Value α))
  | [], page => some page
  | k :: ks, page =>
    match part p k with
    | none => fill p ks page
    | some none => none
    | some (some info) => fill p ks (addInfos info k page)

/-- manageHandler.go:837-860 `ServeHTTP`: what is written, `none` if nothing; the outer `none`: a panic, which
agent.go:1265-1269 recovers from and answers with the text of the panic. `keys` is the value of the form. -/
def runtimeInfo {α : Type} (p : Parts α) (path keys : Bytes) : Option (Option (AMap Bytes (Value α))) :=
  if path = b!"/runtime/info" then
    (fill p (if keys = [] then defaultKeys else split b!"," keys)
      [(b!"result", .text b!"ok"), (b!"instanceType", .text b!"motan-agent")]).map some
  else some none

end Motan.Admin
