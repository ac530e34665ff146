import Verif.Model.HttpProvider
import Verif.Basic.Trim

/-!
# The CGI provider (provider/cgiProvider.go): a Motan request becomes a FastCGI request

The FastCGI client (`fcgiclient`) is outside the model: it is the function `up` from the host, the port, the environment
and the body to the bytes the program wrote (none: no connection, or the exchange failed). Requests, arguments and
`buildQueryStr` are those of HttpProvider.lean. Processing times and the text of errors are left out. Maps are ranged over
in the order of their entries.
-/

namespace Motan.Cgi

open Strings HttpProvider

/-- provider/cgiProvider.go:27 `NeededCGIEnv`. -/
def needed : List Bytes := [b!"REQUEST_METHOD", b!"SCRIPT_FILENAME", b!"DOCUMENT_ROOT"]

/-- A FastCGI request. -/
structure CgiReq where
  host : Bytes
  port : Int
  env : AMap Bytes Bytes
  body : Bytes
deriving DecidableEq

/-- provider/cgiProvider.go:67-72: one of the settings. -/
def setting (params env : AMap Bytes Bytes) (key : Bytes) : AMap Bytes Bytes :=
  match params.load (b!"CGI_" ++ key) with
  | some v => env.store key v
  | none => env

/-- provider/cgiProvider.go:60-73: the environment from the settings of the service. -/
def settings (params : AMap Bytes Bytes) : AMap Bytes Bytes :=
  needed.foldl (setting params) (AMap.store [] b!"SERVER_SOFTWARE" b!"Motan / CGI")

/-- provider/cgiProvider.go:75-78: the attachments. -/
def withAttachments (env atts : AMap Bytes Bytes) : AMap Bytes Bytes :=
  env.storeAll (atts.map fun p => (b!"MOTAN_" ++ p.1, p.2))

/-- provider/cgiProvider.go:80-90: the arguments: the environment and the body; none: a panic in `buildQueryStr`
(provider/httpProvider.go:212), which returns no errors. -/
def withArguments (r : Req) (args : List Arg) (env : AMap Bytes Bytes) : Option (AMap Bytes Bytes × Bytes) :=
  if env.load b!"REQUEST_METHOD" = some b!"GET" then
    (buildQuery r args []).map fun q => (env.store b!"QUERY_STRING" q, [])
  else if env.load b!"REQUEST_METHOD" = some b!"POST" then
    (buildQuery r args []).map fun q =>
      ((env.store b!"CONTENT_TYPE" b!"application/x-www-form-urlencoded").store b!"CONTENT_LENGTH" (natDigits q.length), q)
  else some (env, [])

/-- provider/cgiProvider.go:59-100: the request; none: a panic. -/
def build (params : AMap Bytes Bytes) (r : Req) (args : List Arg) : Option CgiReq :=
  (withArguments r args (withAttachments (settings params) r.attachments)).map fun x =>
    { host := (params.load b!"CGI_HOST").getD b!"127.0.0.1"
      port := match params.load b!"CGI_PORT" with
        | some p => (parseInt64 p).1
        | none => 9000
      env := x.1
      body := x.2 }

/-- `strings.SplitN(s, sep, 2)`. -/
def cut (sep s : Bytes) : Option (Bytes × Bytes) :=
  (index sep s).map fun i => (s.take i, s.drop (i + sep.length))

/-- provider/cgiProvider.go:144-147: the status in the first line; none: a panic. -/
def statusOf (line : Bytes) : Option Int :=
  if hasPrefix line b!"Status:" then
    match cut b!" " line with
    | none => none
    | some (_, rest) =>
      match cut b!" " rest with
      | none => some (parseInt64 rest).1
      | some (number, _) => some (parseInt64 number).1
  else some 200

/-- provider/cgiProvider.go:149-163: one line. -/
def header (headers : AMap Bytes Bytes) (line : Bytes) : AMap Bytes Bytes :=
  match cut b!":" line with
  | none => headers
  | some (name, value) => if name = b!"Status" then headers else headers.store name (trimSpace value)

/-- What the bytes of the program mean. -/
structure Answer where
  status : Int
  headers : AMap Bytes Bytes
  body : Bytes
deriving DecidableEq

/-- provider/cgiProvider.go:130-166 `ParseFastCgiResponse`; none: an error. The inner none: a panic. -/
def parse (content : Bytes) : Option (Option Answer) :=
  match cut b!"\r\n\r\n" content with
  | none => none
  | some (head, body) =>
    let lines := split b!"\r\n" head
    some ((statusOf (lines.headD [])).map fun status => { status := status, headers := lines.foldl header [], body := body })

/-- provider/cgiProvider.go:50-128 `Call`. The identifier of the request is 0 when it has not been set. -/
def call (params : AMap Bytes Bytes) (r : Req) (up : CgiReq → Option Bytes) : List CgiReq × Option Resp :=
  match r.args with
  | none => ([], some { requestID := 0, exception := some ⟨503, 503⟩ })
  | some args =>
    match build params r args with
    | none => ([], none)
    | some q =>
      ([q], match up q with
        | none => some { requestID := 0, exception := some ⟨503, 503⟩ }
        | some content =>
          match parse content with
          | none => some { requestID := r.requestID, exception := some ⟨502, 502⟩ }
          | some none => none
          | some (some a) => some { requestID := r.requestID, value := some (.str a.body), attachments := AMap.storeAll [] a.headers })

end Motan.Cgi
