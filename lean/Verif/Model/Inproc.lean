import Verif.Model.Ha
import Verif.Model.Provider

/-!
# Calls of a service in the same process, and calls over gRPC (endpoint/localEndpoint.go, endpoint/grpcEndpoint.go)

Two kinds of endpoints that do not speak the Motan protocol.

The local endpoint: programs register objects (`DefaultProvider` with a service) under names; an endpoint takes the one registered under its
path when it is initialized, and initializes it: the provider's table of methods is made anew and filled, one method after the other. That is
done by the goroutine that makes the endpoint, while others may call; so a history is a list of such steps.

Simplifications: a Go value is an element of a type `V`, an argument that is nil is none; the arguments are the caller's own values (a
serialized argument is C58); a method takes the arguments it accepts (number and types) and gives its results; methods that panic themselves are
not modelled; a provider's service is given once, before it is registered. The gRPC library is a parameter: what an invocation gives.
-/

namespace Motan.Inproc

open Motan.Convert

/-! ## The local endpoint -/

/-- A method of a service. -/
structure Method (V : Type) where
  name : Bytes
  accepts : List V → Bool
  run : List V → List V

/-- The object given to `SetService`: whether it is a pointer, and its methods in the order `reflect` lists them. -/
structure Service (V : Type) where
  pointer : Bool
  methods : List (Method V)

/-- The URL of an endpoint, as far as it matters. -/
structure Url where
  path : Bytes
  group : Bytes
deriving DecidableEq, Repr

/-- An endpoint: its URL, the provider it has taken, and how many methods its initialization has put into the provider's table. -/
structure Ep where
  url : Url
  provider : Option Nat
  filled : Nat := 0
deriving DecidableEq, Repr

/-- The state: core/motan.go:1237 `localProviders`; of each provider the URL and the table of methods (provider/provider.go:52-56); the
endpoints, numbered from 0. -/
structure St (V : Type) where
  table : AMap Bytes Nat := []
  url : Nat → Option Url := fun _ => none
  methods : Nat → AMap Bytes (Method V) := fun _ => []
  eps : List Ep := []

/-- What happens: a provider is registered; an endpoint is made and begins its initialization; an endpoint's initialization enters the next
method. -/
inductive Op
  | regist (service : Bytes) (p : Nat)
  | make (url : Url)
  | fill (e : Nat)
deriving DecidableEq, Repr

/-- The methods that `Initialize` of a provider enters (provider/provider.go:68-78): those of a service that is a pointer. -/
def toFill {V : Type} : Option (Service V) → List (Method V)
  | some s => if s.pointer then s.methods else []
  | none => []

/-- One step. core/motan.go:1239-1241 `RegistLocalProvider`; endpoint/localEndpoint.go:23-31 `Initialize` up to provider/provider.go:67 (the
URL is set and the table made anew); provider/provider.go:73-77, one turn of the loop. `svc` are the services of the providers. -/
def step {V : Type} (svc : Nat → Option (Service V)) (s : St V) : Op → St V
  | .regist service p => { s with table := s.table.store service p }
  | .make u =>
    match s.table.load u.path with
    | none => { s with eps := s.eps ++ [{ url := u, provider := none }] }
    | some p =>
      { s with
        eps := s.eps ++ [{ url := u, provider := some p }]
        url := fun q => if q = p then some u else s.url q
        methods := fun q => if q = p then [] else s.methods q }
  | .fill e =>
    match s.eps[e]? with
    | none => s
    | some ep =>
      match ep.provider with
      | none => s
      | some p =>
        match (toFill (svc p))[ep.filled]? with
        | none => s
        | some m =>
          { s with
            eps := s.eps.set e { ep with filled := ep.filled + 1 }
            methods := fun q => if q = p then (s.methods q).store m.name m else s.methods q }

/-- A history. -/
def run {V : Type} (svc : Nat → Option (Service V)) (s : St V) (ops : List Op) : St V := ops.foldl (step svc) s

/-- What a call gives: a response with the request's id and the first result, if there is one (provider/provider.go:131-135); an exception with
the code 500 and the request's id; a panic (of `reflect`, which the cluster recovers). -/
inductive Result (V : Type)
  | value (id : Nat) (v : Option V)
  | exception (id : Nat) (code : Nat)
  | panic
deriving DecidableEq

/-- provider/provider.go:107-136 `DefaultProvider.Call` with the caller's own values: `request.ProcessDeserializable` (core/motan.go:615-626)
leaves them as they are; a nil argument is a zero `reflect.Value`, with which a call panics. -/
def provide {V : Type} (upper : Bytes → Bytes) (methods : AMap Bytes (Method V)) (id : Nat) (method : Bytes) (args : List (Option V)) :
    Result V :=
  match Provider.firstUpper upper method with
  | none => .panic
  | some n =>
    match methods.load n with
    | none => .exception id 500
    | some m =>
      if args.all Option.isSome ∧ m.accepts (args.filterMap fun a => a) then .value id (m.run (args.filterMap fun a => a)).head?
      else .panic

/-- endpoint/localEndpoint.go:45-54 `Call` of the endpoint `e`; none: there is no such endpoint. -/
def call {V : Type} (upper : Bytes → Bytes) (s : St V) (e : Nat) (id : Nat) (method : Bytes) (args : List (Option V)) : Option (Result V) :=
  match s.eps[e]? with
  | none => none
  | some ep =>
    match ep.provider with
    | none => some (.exception id 500)
    | some p => some (provide upper (s.methods p) id method args)

/-- client.go:49-58 `BaseCall` over such an endpoint: whether there is an error, and what the reply holds, which held `reply`. Only the endpoints
of the Motan protocol write into the reply (endpoint/motanCommonEndpoint.go:197); a panic is an exception of the cluster
(cluster/motanCluster.go `Call`). -/
def clientCall {V R : Type} (r : Result V) (reply : R) : Bool × R :=
  match r with
  | .value _ _ => (false, reply)
  | .exception _ _ => (true, reply)
  | .panic => (true, reply)

/-! ## The gRPC endpoint -/

/-- What is sent to a gRPC server: the method's path, the metadata, the message. -/
structure Invocation where
  path : Bytes
  metadata : AMap Bytes (List Bytes)
  message : Bytes
deriving DecidableEq

/-- `metadata.New`: the entries in the order the map is visited; `lower` is `strings.ToLower`. -/
def metadataOf (lower : Bytes → Bytes) (atts : AMap Bytes Bytes) : AMap Bytes (List Bytes) :=
  atts.foldl (fun md p => md.store (lower p.1) ((md.load (lower p.1)).getD [] ++ [p.2])) []

/-- endpoint/grpcEndpoint.go:53-62: the message for an argument. -/
def messageOf : Arg → Option Bytes
  | .deser body _ => some body
  | .val (.bytes b) => some b
  | _ => none

/-- The answer of a server: the message, or a code and a description. -/
inductive Reply
  | ok (message : Bytes)
  | failed (code : Nat) (desc : Bytes)
deriving DecidableEq

/-- endpoint/grpcEndpoint.go:51-85 `Call`: what is invoked, and the response; none: a panic. `time` is the process time. -/
def grpcCall (lower : Bytes → Bytes) (server : Invocation → Reply) (time : Int) (r : Request) : List Invocation × Option Response :=
  match r.args with
  | [] => ([], none)
  | a :: _ =>
    match messageOf a with
    | none => ([], some (Ha.buildExceptionResponse r.id { errCode := 500, errMsg := b!"grpc argument must be []byte", errType := 1 }))
    | some m =>
      let inv : Invocation := { path := b!"/" ++ r.service ++ b!"/" ++ r.method, metadata := metadataOf lower r.attachment, message := m }
      let resp : Response :=
        { id := r.id, value := none, exception := none, processTime := time, attachment := [], rc := { serialized := true, serializeNum := 1 } }
      match server inv with
      | .ok out => ([inv], some { resp with value := some (.val (.bytes out)) })
      | .failed code desc =>
        ([inv], some { resp with exception := some { errCode := code, errMsg := desc, errType := code } })

end Motan.Inproc
