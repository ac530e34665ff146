import Verif.Model.Direct
import Verif.Model.Dynamic

/-!
# Registration through the local mesh (registry/meshRegistry.go)

A process that does not talk to the registry itself asks the agent ("mesh") on its machine: the registry of protocol
`mesh` posts its services to the agent's `/registry/…` pages (Model/Dynamic) and finds every service at the agent's own
port. `Register`, `UnRegister` and `GetRegisteredServices` hold one lock for all they do, so calls follow one another;
`Subscribe` holds another one and shares no state with them.

The body of a request is the JSON of a URL. JSON is assumed to give back what was written; the caches of a URL are not
written. The requests of other processes are left out.
-/

namespace Motan.Mesh

open Motan.Strings Motan.Url

/-- registry/meshRegistry.go:24-32. -/
structure Client where
  url : URL := {}
  meshPort : Int := 0
  proxyRegistry : Bytes := []
  registered : AMap Bytes URL := []
  subscribed : AMap Bytes URL := []

/-- What comes of one request for `/registry/info` (62-71). -/
inductive Info
  /-- no answer: wait a second and go on -/
  | silent
  /-- an answer that cannot be read: the structure stays as it is (its error is ignored) -/
  | garbled
  /-- the agent's port -/
  | port (n : Int)

/-- registry/meshRegistry.go:54-71: three requests, the second component is `info.Body.MeshPort`. All three are made
even if the first succeeds. (A garbled answer that is read in part is left out.) -/
def fetch (st : Int × Int) : Info → Int × Int
  | .silent => st
  | .garbled => (st.2, st.2)
  | .port n => (n, n)

/-- registry/meshRegistry.go:41-72 `Initialize`; none: the panic of 52. -/
def setUp (url : URL) (i1 i2 i3 : Info) : Option Client :=
  let url := if url.host = [] then { url with host := b!"localhost" } else url
  let url := if url.port = 0 then { url with port := 8002 } else url
  let proxy := getParam url b!"proxyRegistry" []
  if proxy = [] then none
  else some { url, proxyRegistry := proxy, meshPort := (fetch (fetch (fetch (0, 0) i1) i2) i3).1 }

/-- registry/meshRegistry.go:122-127 `Discover`. -/
def discover (c : Client) (url : URL) : List URL := [{ copy url with host := c.url.host, port := c.meshPort }]

/-- registry/meshRegistry.go:188-192 `initRegistryRequest`, as the agent reads it. -/
def body (c : Client) (u : URL) : URL := putParam (copy u) b!"proxyRegistry" c.proxyRegistry

/-- `url.GetIdentity()`. -/
def idOf (u : URL) : Bytes := (getIdentity u).1

/-- The client and the agent. -/
structure Sys where
  client : Client
  mesh : Dynamic.St := {}

/-- How one HTTP request goes. -/
inductive Exchange
  /-- it does not reach the agent -/
  | refused
  /-- the agent serves it, but the answer is not read -/
  | unheard
  /-- the answer is read -/
  | heard
deriving DecidableEq

/-- dynamicConfig.go:353-407: the agent serves a request and answers with this code. -/
def serve (E : Dynamic.Env) (m : Dynamic.St) (k : Dynamic.Kind) (b : URL) : Dynamic.St × Int :=
  match Dynamic.requestCalls E k b with
  | none => (m, 400)
  | some rs => (rs.foldl (Dynamic.run E) m, 200)

/-- registry/meshRegistry.go:93-116, 136-158: the request is made again until an answer is read. None: the call has not
returned after these requests. -/
def ask (E : Dynamic.Env) (k : Dynamic.Kind) (b : URL) (m : Dynamic.St) : List Exchange → Option (Dynamic.St × Int)
  | [] => none
  | .refused :: es => ask E k b m es
  | .unheard :: es => ask E k b (serve E m k b).1 es
  | .heard :: _ => some (serve E m k b)

/-- registry/meshRegistry.go:129-159 `Register`. -/
def register (E : Dynamic.Env) (s : Sys) (u : URL) (es : List Exchange) : Option Sys :=
  if (AMap.load s.client.registered (idOf u)).isSome then some s
  else
    (ask E .register (body s.client u) s.mesh es).map fun r =>
      { mesh := r.1
        client := if r.2 = (200 : Int) then { s.client with registered := AMap.store s.client.registered (idOf u) u } else s.client }

/-- registry/meshRegistry.go:161-186 `UnRegister`: one request. -/
def unregister (E : Dynamic.Env) (s : Sys) (u : URL) (e : Exchange) : Sys :=
  if (AMap.load s.client.registered (idOf u)).isNone then s
  else
    let r := serve E s.mesh .unregister (body s.client u)
    match e with
    | .refused => s
    | .unheard => { s with mesh := r.1 }
    | .heard =>
      { mesh := r.1
        client := if r.2 = (200 : Int) then { s.client with registered := AMap.erase s.client.registered (idOf u) } else s.client }

/-- registry/meshRegistry.go:86-117 `Subscribe`. -/
def subscribe (E : Dynamic.Env) (s : Sys) (u : URL) (es : List Exchange) : Option Sys :=
  if (AMap.load s.client.subscribed (idOf u)).isSome then some s
  else
    (ask E .subscribe (body s.client u) s.mesh es).map fun r =>
      { mesh := r.1
        client := if r.2 = (200 : Int) then { s.client with subscribed := AMap.store s.client.subscribed (idOf u) u } else s.client }

/-- registry/meshRegistry.go:216-224 `GetRegisteredServices`, in the order in which the map is listed. -/
def registeredServices (s : Sys) : List URL := s.client.registered.map Prod.snd

/-- A call that has returned, with its requests; or a restart of the agent that recovers nothing. -/
inductive Op
  | register (u : URL) (es : List Exchange)
  | unregister (u : URL) (e : Exchange)
  | subscribe (u : URL) (es : List Exchange)
  | restart

/-- One of them. -/
def step (E : Dynamic.Env) (s : Sys) : Op → Option Sys
  | .register u es => register E s u es
  | .unregister u e => some (unregister E s u e)
  | .subscribe u es => subscribe E s u es
  | .restart => some { s with mesh := Dynamic.start E {} .missing }

/-- A history. -/
def play (E : Dynamic.Env) (s : Sys) : List Op → Option Sys
  | [] => some s
  | o :: os => (step E s o).bind fun s => play E s os

end Motan.Mesh
