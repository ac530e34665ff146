import Verif.Model.HttpProvider

/-!
# The second HTTP client and the RPC door of the HTTP proxy

provider/httpxProvider.go 44-217 (`HTTPXProvider`, the client on fasthttp) and server/httpProxyServer.go 229-285
(`doRPC`, the path `/proxy_to_rpc`), with the answer to a panic, 100-105.

As in HttpProvider.lean the HTTP library is outside the model (`Lib`), and a header is a list of added entries where the
code uses `Header.Add`. Processing times and the text of the errors the code makes itself are left out.
-/

namespace Motan.HttpX

open HttpProvider

/-! ## The client -/

/-- The settings: `urlFormat` and `method` are the parameters `URL_FORMAT` (the empty string when absent) and
`HTTP_REQUEST_METHOD` of the service, `conf` is what `http-service` says for its `conf-id`, provider/httpxProvider.go:53-71.
-/
structure Settings where
  urlFormat : Bytes := []
  method : Option Bytes := none
  conf : Option (AMap Bytes (AMap Bytes Bytes)) := none
  mixVars : List Bytes := []

/-- provider/httpxProvider.go:76-82 (the default is provider/httpProvider.go:60). The rest of `buildReqURLX`, 83-117, is
line by line `buildReqURL` (`HttpProvider.buildURL`). -/
def Settings.toConf (c : Settings) : Conf :=
  { proxyAddr := [], domain := [], httpException := false, urlFormat := c.urlFormat,
    defaultMethod := c.method.getD b!"GET", conf := c.conf, mixVars := c.mixVars }

/-- provider/httpxProvider.go:172-177: the header of an attachment; none: it is passed over. -/
def attHeader (lib : Lib) (p : Bytes × Bytes) : Option (Bytes × Bytes) :=
  if replaceM p.1 = hostKey then none else some (lib.norm (replaceM p.1), p.2)

/-- provider/httpxProvider.go:159 and 171-178: the headers. -/
def headers (lib : Lib) (r : Req) (method : Bytes) : AMap Bytes Bytes :=
  (if method = b!"POST" then [(lib.norm b!"Content-Type", formType)] else []) ++ r.attachments.filterMap (attHeader lib)

/-- provider/httpxProvider.go:186-188: the caller's address is added when the header is absent. -/
def forwarded (lib : Lib) (h : AMap Bytes Bytes) (ip : Bytes) : AMap Bytes Bytes :=
  match h.load (lib.norm xffKey) with
  | some _ => h
  | none => h ++ [(lib.norm xffKey, ip)]

/-- provider/httpxProvider.go:153-188: the request. -/
def request (lib : Lib) (r : Req) (url method query : Bytes) : HttpReq :=
  { method := method
    path := formatURL url method query
    headers := forwarded lib (headers lib r method) (clientIP r)
    body := if method = b!"POST" then Query.encode (Query.parse query) else [] }

/-- provider/httpProvider.go:518-521, 532-534 `fillException`. -/
def unavailable (rid : Nat) : Resp := { requestID := rid, exception := some ⟨503, 503⟩ }

/-- provider/httpxProvider.go:133-217 `Call`. (The error tested at 204 is that of 189: it is nil there.) -/
def call (lib : Lib) (c : Settings) (r : Req) (up : HttpReq → Option HttpRes) : Out :=
  match r.args with
  | none => { resp := some (unavailable 0) }
  | some args =>
    match buildURL lib c.toConf r with
    | none => { resp := some (unavailable r.requestID) }
    | some (url, method) =>
      match buildQuery r args c.mixVars with
      | none => { resp := none }
      | some query =>
        let q := request lib r url method query
        { sent := [q]
          resp := some (match up q with
            | none => unavailable r.requestID
            | some res =>
              { requestID := r.requestID
                value := some (.str res.body)
                attachments := AMap.storeAll (AMap.storeAll [] r.attachments) res.headers }) }

/-! ## The RPC door -/

/-- What `FormValue` gives for the five names (the empty string when absent), and the headers of the request in the order
they are visited. -/
structure Form where
  service : Bytes
  method : Bytes
  group : Bytes := []
  argType : Bytes
  arg : Bytes := []
  headers : AMap Bytes Bytes := []
deriving DecidableEq

/-- The request given to the mesh; its only argument is a string. -/
structure MeshReq where
  service : Bytes
  method : Bytes
  arg : Bytes
  attachments : AMap Bytes Bytes
deriving DecidableEq

/-- The value of the mesh's response after `ProcessDeserializable`. -/
inductive MeshValue
  | nil
  | bytes (b : Bytes)
  | other
deriving DecidableEq

/-- The mesh's response: an exception (its message), a value that cannot be deserialized (none) or a value. -/
structure MeshResp where
  exception : Option Bytes := none
  value : Option MeshValue := some .nil
  attachments : AMap Bytes Bytes := []

/-- The answer to the HTTP client; the body is none where the code makes an error text of its own. -/
structure Answer where
  status : Nat
  headers : AMap Bytes Bytes := []
  body : Option Bytes := none
deriving DecidableEq

/-- server/httpProxyServer.go:247-263: the request to the mesh. -/
def meshReq (f : Form) : MeshReq :=
  { service := f.service, method := f.method, arg := f.arg
    attachments := AMap.storeAll [(b!"M_g", f.group), (b!"M_p", f.service), (b!"M_m", f.method), (b!"M_pp", b!"motan2")]
      (f.headers.filter fun p => p.2 ≠ []) }

/-- server/httpProxyServer.go:278-282: the headers of the answer. -/
def answerHeaders (norm : Bytes → Bytes) (atts : AMap Bytes Bytes) : AMap Bytes Bytes :=
  (AMap.storeAll [] (atts.map fun p => (norm p.1, p.2))).store (norm b!"Content-Type") b!"text/plain"

/-- server/httpProxyServer.go:264-285: what the mesh answered becomes the answer. A value that is not a byte slice panics
in 283, which 100-105 answers with 502. -/
def answer (norm : Bytes → Bytes) (m : MeshResp) : Answer :=
  match m.exception with
  | some msg => { status := 502, body := some msg }
  | none =>
    match m.value with
    | none => { status := 502 }
    | some (.bytes b) => { status := 200, headers := answerHeaders norm m.attachments, body := some b }
    | some _ => { status := 502, headers := answerHeaders norm m.attachments }

/-- server/httpProxyServer.go:229-285 `doRPC`; `mesh` is `messageHandler.Call`. -/
def door (norm : Bytes → Bytes) (f : Form) (mesh : MeshReq → MeshResp) : List MeshReq × Answer :=
  if f.service = [] ∨ f.method = [] then ([], { status := 400 })
  else if f.argType ≠ b!"string" then ([], { status := 400 })
  else ([meshReq f], answer norm (mesh (meshReq f)))

end Motan.HttpX
