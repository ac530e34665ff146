import Verif.Basic.AMap
import Verif.Basic.Decimal
import Verif.Basic.Query

/-!
# The HTTP provider: a Motan request becomes an HTTP request

http/httpProxy.go 474-569 and provider/httpProvider.go 145-538. The HTTP library (fasthttp, net/http)
is outside the model: the canonical form of a header name, the reading of a raw header, the writing of a
header and the addition of query arguments are parameters of the model (`Lib`), and so are the rewriting
of the path (modelled in HttpProxy.lean) and the upstream server.

Simplifications: a header is one value per canonical name where the code uses `Header.Set`, and a list of
added entries where it uses `Header.Add`; the names the HTTP library treats specially (`Content-Length`,
`Transfer-Encoding`, `Cookie`, `User-Agent`) are like any other. Processing times and the text of errors
are left out, and so is the recycling of the library's request and response objects.
-/

namespace Motan.HttpProvider

open Strings

/-- http/httpProxy.go:68-79 `InnerAttachmentsConvertMap`. -/
def innerMap : AMap Bytes Bytes :=
  [(b!"M_p", b!"MOTAN-p"), (b!"M_m", b!"MOTAN-m"), (b!"M_md", b!"MOTAN-md"), (b!"M_g", b!"MOTAN-g"),
   (b!"M_pp", b!"MOTAN-pp"), (b!"M_v", b!"MOTAN-v"), (b!"M_mdu", b!"MOTAN-mdu"), (b!"M_s", b!"MOTAN-s"),
   (b!"M_rid", b!"MOTAN-rid"), (b!"M_tmo", b!"MOTAN-tmo")]

/-- http/httpProxy.go:20 `Proxy`. -/
def proxyKey : Bytes := b!"HTTP_PROXY"
/-- http/httpProxy.go:21 `Method`; provider/httpProvider.go:62 `MotanRequestHTTPMethodKey` is the same key. -/
def methodKey : Bytes := b!"HTTP_Method"
/-- http/httpProxy.go:22 `QueryString`. -/
def queryKey : Bytes := b!"HTTP_QueryString"
/-- core/constants.go:52 `HostKey`. -/
def hostKey : Bytes := b!"host"
/-- core/constants.go:53 `RemoteIPKey`. -/
def remoteIPKey : Bytes := b!"remoteIP"
/-- core/constants.go:81 `XForwardedFor`. -/
def xffKey : Bytes := b!"X-Forwarded-For"
/-- core/constants.go:131 `MetaUpstreamCode`. -/
def upstreamKey : Bytes := b!"upstreamCode"

/-- http/httpProxy.go:67 `httpProxySpecifiedAttachments`. -/
def specified : List Bytes := [proxyKey, methodKey, queryKey, hostKey, b!"Host"]

/-- An argument of the request, after deserialization. A map is the list of its entries in the order the
code ranges over them. -/
inductive Arg
  | nil
  | strMap (m : AMap Bytes Bytes)
  | str (s : Bytes)
  | bytes (s : Bytes)
  | other
  deriving DecidableEq

/-- An HTTP request or the part of it the provider fills. -/
structure HttpReq where
  method : Bytes := []
  path : Bytes := []
  query : Bytes := []
  headers : AMap Bytes Bytes := []
  body : Bytes := []
  deriving DecidableEq

/-- What the upstream server answered; `readable` is false when its body could not be read. -/
structure HttpRes where
  status : Nat
  headers : AMap Bytes Bytes
  body : Bytes
  readable : Bool := true
  deriving DecidableEq

/-- The library and environment functions. -/
structure Lib where
  /-- canonical form of a header name -/
  norm : Bytes → Bytes
  /-- `URI().QueryArgs().Add` of each entry to a query string -/
  addArgs : Bytes → AMap Bytes Bytes → Bytes
  /-- `Header.Read` of raw bytes into an empty request -/
  readHeader : Bytes → HttpReq
  /-- `Header.WriteTo`: the bytes of a response's status line and header -/
  writeHeader : Nat → AMap Bytes Bytes → Bytes
  /-- provider/httpProvider.go:154-168 `rewrite` (HttpProxy.lean `providerRewrite`): the path for a method
  and a query string; none: no service matches -/
  rewrite : Bytes → Bytes → Option Bytes
  /-- `fmt.Sprintf(format, s)` -/
  sprintf : Bytes → Bytes → Bytes
  /-- whether `http.NewRequest` accepts a method and a URL -/
  validURL : Bytes → Bytes → Bool

/-- The Motan request the provider is called with. `args` is what `ProcessDeserializable` leaves in the
arguments (none: it fails), `raw` what it leaves in the two byte slices of the transparent proxy. -/
structure Req where
  requestID : Nat
  method : Bytes
  attachments : AMap Bytes Bytes
  args : Option (List Arg)
  raw : Option (Bytes × Bytes)

/-- `request.GetAttachment(k)`: the empty string when absent. -/
def Req.attachment (r : Req) (k : Bytes) : Bytes := (r.attachments.load k).getD []

/-- http/httpProxy.go:485-509: the header an attachment is written to, before the library's
canonicalisation; none: it is not a header. -/
def headerOf (k : Bytes) : Option Bytes :=
  match innerMap.load k with
  | some k' => some k'
  | none =>
    if k ∈ specified then none
    else if k = b!"http_" ++ hostKey ∨ k = b!"http_" ++ b!"Host" then some b!"Host"
    else if k = b!"Content-Type" ∨ k = b!"content-type" then some b!"Content-Type"
    else if hasPrefix k b!"http_" then some (k.drop 5)
    else some k

/-- `Header.Set`. -/
def setHeader (lib : Lib) (h : AMap Bytes Bytes) (k v : Bytes) : AMap Bytes Bytes := h.store (lib.norm k) v

/-- http/httpProxy.go:484-511: one attachment. -/
def setOne (lib : Lib) (h : AMap Bytes Bytes) (p : Bytes × Bytes) : AMap Bytes Bytes :=
  match headerOf p.1 with
  | some k => setHeader lib h k p.2
  | none => h

/-- http/httpProxy.go:484-511: the attachments, in the order they are ranged over. -/
def setHeaders (lib : Lib) (h : AMap Bytes Bytes) (atts : AMap Bytes Bytes) : AMap Bytes Bytes :=
  atts.foldl (setOne lib) h

/-- http/httpProxy.go:530-535: `&k=v` for each entry, the first `&` removed. -/
def formBody (m : AMap Bytes Bytes) : Bytes :=
  join b!"&" (m.map fun p => p.1 ++ b!"=" ++ Query.escape p.2)

def formType : Bytes := b!"application/x-www-form-urlencoded"

/-- http/httpProxy.go:475-478: the HTTP method. -/
def httpMethod (r : Req) (defaultMethod : Bytes) : Bytes :=
  if r.attachment methodKey = [] then defaultMethod else r.attachment methodKey

/-- http/httpProxy.go:479-512: the request before its argument is looked at. -/
def baseReq (lib : Lib) (r : Req) (defaultMethod : Bytes) : HttpReq :=
  { method := httpMethod r defaultMethod
    query := r.attachment queryKey
    headers := (setHeaders lib [] r.attachments).erase (lib.norm b!"Connection") }

/-- http/httpProxy.go:474-552 `MotanRequestToFasthttpRequest` on a new request; none: an error. `args` are
the arguments of the request. -/
def toHttp (lib : Lib) (r : Req) (args : List Arg) (defaultMethod : Bytes) : Option HttpReq :=
  let base := baseReq lib r defaultMethod
  match args with
  | [] => some base
  | [.nil] => some base
  | [.strMap m] =>
    if base.method = b!"GET" then some { base with query := lib.addArgs base.query m }
    else if m = [] then some base
    else some { base with headers := setHeader lib base.headers b!"Content-Type" formType, body := formBody m }
  | [.str s] => some { base with body := s }
  | [.bytes s] => some { base with body := s }
  | _ => none

/-- An exception: its code and its type (core/constants.go:8-13: 2 is `BizException`). -/
structure Exc where
  code : Nat
  type : Nat
  deriving DecidableEq

/-- The value of a response. -/
inductive Value
  | bytes (s : Bytes)
  | str (s : Bytes)
  | pair (header body : Bytes)
  deriving DecidableEq

/-- The Motan response. -/
structure Resp where
  requestID : Nat
  value : Option Value := none
  attachments : AMap Bytes Bytes := []
  exception : Option Exc := none
  deriving DecidableEq

/-- A call of the provider: the HTTP requests sent upstream, in order, and the response; none: a panic. -/
structure Out where
  sent : List HttpReq := []
  resp : Option Resp
  deriving DecidableEq

/-- The settings of the provider (provider/httpProvider.go:29-44, 65-143). `conf` is
`srvURLMap[url.Parameters["conf-id"]]`: for each method the keys of its configuration. -/
structure Conf where
  proxyAddr : Bytes
  domain : Bytes
  defaultMethod : Bytes
  httpException : Bool
  urlFormat : Bytes
  conf : Option (AMap Bytes (AMap Bytes Bytes))
  mixVars : List Bytes

/-- provider/httpProvider.go:528-530 `fillHttpException`. -/
def failed (r : Req) (code : Nat) : Resp := { requestID := r.requestID, exception := some ⟨code, 2⟩ }

/-- provider/httpProvider.go:284-286, 343-345: the header is only set when it is absent. -/
def forwardedFor (lib : Lib) (h : AMap Bytes Bytes) (ip : Bytes) : AMap Bytes Bytes :=
  match h.load (lib.norm xffKey) with
  | some _ => h
  | none => setHeader lib h xffKey ip

/-- provider/httpProvider.go:462-467: the address of the caller. -/
def clientIP (r : Req) : Bytes :=
  match r.attachments.load remoteIPKey with
  | some ip => ip
  | none => r.attachment hostKey

/-- provider/httpProvider.go:277-282: one attachment; only the inner ones become headers. -/
def setInnerOne (lib : Lib) (h : AMap Bytes Bytes) (p : Bytes × Bytes) : AMap Bytes Bytes :=
  match innerMap.load p.1 with
  | some k => setHeader lib h k p.2
  | none => h

/-- provider/httpProvider.go:277-282. -/
def setInner (lib : Lib) (h : AMap Bytes Bytes) (atts : AMap Bytes Bytes) : AMap Bytes Bytes :=
  atts.foldl (setInnerOne lib) h

/-- provider/httpProvider.go:249-309 `DoTransparentProxy`; `up` is the upstream server (none: the exchange
failed). -/
def transparent (lib : Lib) (c : Conf) (r : Req) (ip : Bytes) (up : HttpReq → Option HttpRes) : Out :=
  match r.raw with
  | none => { resp := some (failed r 400) }
  | some (header, body) =>
    let h := lib.readHeader header
    match lib.rewrite r.method h.query with
    | none => { resp := some (failed r 404) }
    | some path =>
      let hs := (setInner lib h.headers r.attachments).erase (lib.norm b!"Connection")
      let q := { h with path := path, headers := forwardedFor lib hs ip, body := body }
      match up q with
      | none => { sent := [q], resp := some (failed r 503) }
      | some res =>
        if c.httpException ∧ 400 ≤ res.status then { sent := [q], resp := some (failed r res.status) }
        else
          { sent := [q]
            resp := some
              { requestID := r.requestID
                value := some (.pair (lib.writeHeader res.status (res.headers.erase (lib.norm b!"Connection"))) res.body)
                attachments := [(upstreamKey, natDigits res.status)] } }

/-- provider/httpProvider.go:312-359 `DoProxy`, with http/httpProxy.go:558-569
`FasthttpResponseToMotanResponse`. The rewriting is given `URI().QueryString()`, which is the string set by
`SetQueryString`: arguments added with `QueryArgs().Add` are only written when the request is sent. -/
def proxy (lib : Lib) (c : Conf) (r : Req) (ip : Bytes) (up : HttpReq → Option HttpRes) : Out :=
  match r.args with
  | none => { resp := some (failed r 400) }
  | some args =>
    match toHttp lib r args c.defaultMethod with
    | none => { resp := some (failed r 400) }
    | some h =>
      match lib.rewrite r.method (r.attachment queryKey) with
      | none => { resp := some (failed r 404) }
      | some path =>
        let hs := if (h.headers.load (lib.norm b!"Host")).getD [] = [] then setHeader lib h.headers b!"Host" c.domain
          else h.headers
        let q := { h with path := path, headers := forwardedFor lib hs ip }
        match up q with
        | none => { sent := [q], resp := some (failed r 503) }
        | some res =>
          if c.httpException ∧ 400 ≤ res.status then { sent := [q], resp := some (failed r res.status) }
          else
            { sent := [q]
              resp := some
                { requestID := r.requestID
                  value := some (.bytes res.body)
                  attachments := (AMap.storeAll [] res.headers).store upstreamKey (natDigits res.status) } }

/-- `strings.Count(s, "%s")`. -/
def countVerb : Bytes → Nat
  | 37 :: 115 :: s => countVerb s + 1
  | _ :: s => countVerb s
  | [] => 0

/-- provider/httpProvider.go:170-206 `buildReqURL`: the URL and the HTTP method; none: an error. The key
`MotanRequestHTTPMethodKey` (provider/httpProvider.go:62) is `HTTP_Method`. -/
def buildURL (lib : Lib) (c : Conf) (r : Req) : Option (Bytes × Bytes) :=
  let specific : AMap Bytes Bytes := match c.conf with
    | none => []
    | some m => match m.load r.method with
      | some s => s
      | none => (m.load b!"http_default_motan_method").getD []
  let format := (specific.load b!"URL_FORMAT").getD c.urlFormat
  let method0 := (specific.load b!"HTTP_REQUEST_METHOD").getD c.defaultMethod
  let method := (r.attachments.load methodKey).getD method0
  if 1 < countVerb format then none
  else if countVerb format = 1 then some (lib.sprintf format r.method, method)
  else some (format, method)

/-- provider/httpProvider.go:225-231: one attachment named by the settings, added to the caller's map when it has no
such key. -/
def mixOne (atts m : AMap Bytes Bytes) (k : Bytes) : AMap Bytes Bytes :=
  match m.load k with
  | some _ => m
  | none => match atts.load k with
    | some v => m.store k v
    | none => m

/-- provider/httpProvider.go:224-232. -/
def mix (vars : List Bytes) (atts m : AMap Bytes Bytes) : AMap Bytes Bytes := vars.foldl (mixOne atts) m

/-- provider/httpProvider.go:208-247 `buildQueryStr`; none: a panic (no argument). A string becomes a piece
without `=`. -/
def buildQuery (r : Req) (args : List Arg) (vars : List Bytes) : Option Bytes :=
  let rid := b!"requestIdFromClient=" ++ natDigits r.requestID
  match args with
  | [] => none
  | .nil :: _ => some []
  | .strMap m :: _ => some (rid ++ (mix vars r.attachments m).flatMap fun p =>
      b!"&" ++ p.1 ++ b!"=" ++ Query.escape p.2)
  | .str s :: _ => some (rid ++ b!"&" ++ Query.escape s)
  | _ => some rid

/-- `strings.Replace(k, "M_", "MOTAN-", -1)`. -/
def replaceM : Bytes → Bytes
  | 77 :: 95 :: s => b!"MOTAN-" ++ replaceM s
  | c :: s => c :: replaceM s
  | [] => []

/-- provider/httpProvider.go:396-401: the headers, one for each attachment, in the order they are ranged over. -/
def addHeaders (lib : Lib) (r : Req) : AMap Bytes Bytes :=
  (lib.norm b!"Content-Type", formType) :: r.attachments.map fun p => (lib.norm (replaceM p.1), p.2)

/-- provider/httpProvider.go:402-404: the caller's address is added when the header is absent or empty. -/
def addForwardedFor (lib : Lib) (h : AMap Bytes Bytes) (ip : Bytes) : AMap Bytes Bytes :=
  if (h.load (lib.norm xffKey)).getD [] = [] then h ++ [(lib.norm xffKey, ip)] else h

/-- provider/httpProvider.go:381-383. -/
def formatURL (url method query : Bytes) : Bytes := if method = b!"GET" then url ++ b!"?" ++ query else url

/-- provider/httpProvider.go:380-404: the request; none: `http.NewRequest` fails. -/
def formatReq (lib : Lib) (r : Req) (ip url method query : Bytes) : Option HttpReq :=
  if lib.validURL method (formatURL url method query) then
    some
      { method := method
        path := formatURL url method query
        headers := addForwardedFor lib (addHeaders lib r) ip
        body := if method = b!"POST" then Query.encode (Query.parse query) else [] }
  else none

/-- provider/httpProvider.go:362-456 `DoFormatURLQuery`. -/
def format (lib : Lib) (c : Conf) (r : Req) (ip : Bytes) (up : HttpReq → Option HttpRes) : Out :=
  match r.args with
  | none => { resp := some (failed r 400) }
  | some args =>
    match buildURL lib c r with
    | none => { resp := some (failed r 503) }
    | some (url, method) =>
      match buildQuery r args c.mixVars with
      | none => { resp := none }
      | some query =>
        match formatReq lib r ip url method query with
        | none => { resp := some (failed r 503) }
        | some q =>
          match up q with
          | none => { sent := [q], resp := some (failed r 503) }
          | some res =>
            if res.readable = false then
              { sent := [q], resp := some { requestID := r.requestID, exception := some ⟨res.status, 503⟩ } }
            else if c.httpException ∧ 400 ≤ res.status then { sent := [q], resp := some (failed r res.status) }
            else
              { sent := [q]
                resp := some
                  { requestID := r.requestID
                    value := some (.str res.body)
                    attachments := (AMap.storeAll (AMap.storeAll [] r.attachments) res.headers).store upstreamKey
                      (natDigits res.status) } }

/-- `strconv.ParseBool` read as false on error. -/
def parseTrue (s : Bytes) : Bool :=
  s = b!"1" || s = b!"t" || s = b!"T" || s = b!"true" || s = b!"TRUE" || s = b!"True"

/-- provider/httpProvider.go:459-476 `Call`. -/
def call (lib : Lib) (c : Conf) (r : Req) (up : HttpReq → Option HttpRes) : Out :=
  if parseTrue (r.attachment proxyKey) then transparent lib c r (clientIP r) up
  else if c.proxyAddr ≠ [] then proxy lib c r (clientIP r) up
  else format lib c r (clientIP r) up

end Motan.HttpProvider
