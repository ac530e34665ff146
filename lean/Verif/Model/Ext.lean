import Verif.Model.Export
import Verif.Model.Reload

/-!
# The extension factory (core/motan.go:733-931, default.go:107-128)

Constructors are registered under names and looked up by what a URL asks for. A constructor is the name of the type it
makes; what it does with the URL is not modelled here, except that the backup request strategy adds a filter to it
(`Reload.haEffect`). Registries are the one kind of extension of which the factory keeps the instances.

`GetRegistry` is one step (it holds `newRegistryLock`); registering is a step too (the maps are written without a lock,
by the application before it starts; C94 exhibits what happens otherwise).
-/

namespace Motan.Ext

open Motan.Strings Motan.Url

/-- The type a constructor makes. -/
abbrev Ctor := Bytes

/-- A registry made by the factory: its constructor, the URL it was made for, and its number among those made. -/
structure Inst where
  ctor : Ctor
  url : URL
  no : Nat
deriving DecidableEq, Repr

/-- The kinds of extensions that are registered under one name. -/
inductive Kind
  | filter | ha | lb | endpoint | provider | registry | server | handler
deriving DecidableEq, Repr

/-- core/motan.go:745-760 `DefaultExtensionFactory`; `made` are the registries constructed so far (each is initialised
when it is made, 811). -/
structure Fac where
  filters : AMap Bytes Ctor := []
  has : AMap Bytes Ctor := []
  lbs : AMap Bytes Ctor := []
  endpoints : AMap Bytes Ctor := []
  providers : AMap Bytes Ctor := []
  registryFactories : AMap Bytes Ctor := []
  servers : AMap Bytes Ctor := []
  messageHandlers : AMap Bytes Ctor := []
  serializations : AMap Bytes Ctor := []
  registries : AMap Bytes Inst := []
  made : List Inst := []

/-- core/motan.go:882-913 `RegistExtFilter` and so on. -/
def regist (f : Fac) (k : Kind) (name : Bytes) (c : Ctor) : Fac :=
  match k with
  | .filter => { f with filters := f.filters.store name c }
  | .ha => { f with has := f.has.store name c }
  | .lb => { f with lbs := f.lbs.store name c }
  | .endpoint => { f with endpoints := f.endpoints.store name c }
  | .provider => { f with providers := f.providers.store name c }
  | .registry => { f with registryFactories := f.registryFactories.store name c }
  | .server => { f with servers := f.servers.store name c }
  | .handler => { f with messageHandlers := f.messageHandlers.store name c }

/-- core/motan.go:915-918 `RegistryExtSerialization`. -/
def registSerialization (f : Fac) (name : Bytes) (id : Int) (c : Ctor) : Fac :=
  { f with serializations := (f.serializations.store name c).store (formatInt id) c }

/-- core/motan.go:776-783 `GetHa`: the constructor called, none: nil. -/
def getHa (f : Fac) (u : URL) : Option Ctor := f.has.load (getParam u b!"haStrategy" b!"failover")

/-- core/motan.go:785-792 `GetLB`. -/
def getLB (f : Fac) (u : URL) : Option Ctor := f.lbs.load (getParam u b!"loadbalance" b!"random")

/-- core/motan.go:794-800 `GetFilter`. -/
def getFilter (f : Fac) (name : Bytes) : Option Ctor := f.filters.load (trimSpace name)

/-- core/motan.go:819-826 `GetEndPoint`. -/
def getEndPoint (f : Fac) (u : URL) : Option Ctor := f.endpoints.load u.protocol

/-- core/motan.go:828-842 `GetProvider`. -/
def getProvider (f : Fac) (u : URL) : Option Ctor := f.providers.load (Export.providerName u)

/-- core/motan.go:844-857 `GetServer`. -/
def getServer (f : Fac) (u : URL) : Option Ctor := f.servers.load (Export.serverName u.protocol)

/-- core/motan.go:859-867 `GetMessageHandler`. -/
def getMessageHandler (f : Fac) (name : Bytes) : Option Ctor := f.messageHandlers.load (trimSpace name)

/-- core/motan.go:869-880 `GetSerialization`. -/
def getSerialization (f : Fac) (name : Bytes) (id : Int) : Option Ctor :=
  if name ≠ [] then f.serializations.load (trimSpace name)
  else if id > -1 then f.serializations.load (formatInt id)
  else none

/-- core/motan.go:802-817 `GetRegistry`. -/
def getRegistry (f : Fac) (u : URL) : Fac × Option Inst :=
  let key := (getIdentity u).1
  match f.registries.load key with
  | some r => (f, some r)
  | none =>
    match f.registryFactories.load u.protocol with
    | some c =>
      let r : Inst := ⟨c, u, f.made.length⟩
      ({ f with registries := f.registries.store key r, made := f.made ++ [r] }, some r)
    | none => (f, none)

/-- What is done with a factory. -/
inductive Op
  | regist (k : Kind) (name : Bytes) (c : Ctor)
  | registSerialization (name : Bytes) (id : Int) (c : Ctor)
  | getRegistry (u : URL)

/-- One step, with the registry it gives. -/
def step (f : Fac) : Op → Fac × Option Inst
  | .regist k name c => (regist f k name c, none)
  | .registSerialization name id c => (registSerialization f name id c, none)
  | .getRegistry u => getRegistry f u

/-- A factory after `Initialize` (core/motan.go:920-931) and a history. -/
def after (h : List Op) : Fac := h.foldl (fun f op => (step f op).1) {}

/-- default.go:116-128 `AddDefaultExt`: filter/filter.go:24-61, ha/ha.go:14-38, lb/lb.go:32-46, endpoint/endpoint.go:28-48,
provider/provider.go:21-50, registry/registry.go:115-135, server/server.go:25-41, serialize/serialize.go:28-41. -/
def defaults : List Op :=
  [.regist .filter b!"accessLog" b!"AccessLogFilter",
   .regist .filter b!"metrics" b!"MetricsFilter",
   .regist .filter b!"circuitBreaker" b!"CircuitBreakerFilter",
   .regist .filter b!"failfast" b!"FailfastFilter",
   .regist .filter b!"trace" b!"TracingFilter",
   .regist .filter b!"rateLimit" b!"RateLimitFilter",
   .regist .filter b!"clusterAccessLog" b!"ClusterAccessLogFilter",
   .regist .filter b!"clusterMetrics" b!"ClusterMetricsFilter",
   .regist .filter b!"clusterCircuitBreaker" b!"ClusterCircuitBreakerFilter",
   .regist .ha b!"failover" b!"FailOverHA",
   .regist .ha b!"backupRequest" b!"BackupRequestHA",
   .regist .lb b!"random" b!"RandomLB",
   .regist .lb b!"roundrobin" b!"RoundrobinLB",
   .regist .lb b!"consistentHashKey" b!"ConsistentHashLB",
   .regist .lb b!"wrr" b!"WeightRoundRobinLB",
   .regist .endpoint b!"motan2" b!"MotanCommonEndpoint",
   .regist .endpoint b!"grpc" b!"GrpcEndPoint",
   .regist .endpoint b!"local" b!"LocalEndpoint",
   .regist .endpoint b!"mockEndpoint" b!"MockEndpoint",
   .regist .endpoint b!"motan" b!"MotanCommonEndpoint",
   .regist .provider b!"cgi" b!"CgiProvider",
   .regist .provider b!"http" b!"HTTPProvider",
   .regist .provider b!"httpx" b!"HTTPXProvider",
   .regist .provider b!"motan2" b!"MotanProvider",
   .regist .provider b!"motan" b!"MotanProvider",
   .regist .provider b!"mockProvider" b!"MockProvider",
   .regist .provider b!"default" b!"DefaultProvider",
   .regist .registry b!"direct" b!"DirectRegistry",
   .regist .registry b!"local" b!"LocalRegistry",
   .regist .registry b!"zookeeper" b!"ZkRegistry",
   .regist .registry b!"consul" b!"ConsulRegistry",
   .regist .registry b!"mesh" b!"MeshRegistry",
   .regist .server b!"motan2" b!"MotanServer",
   .regist .server b!"motan" b!"MotanServer",
   .regist .server b!"cgi" b!"MotanServer",
   .regist .handler b!"default" b!"DefaultMessageHandler",
   .registSerialization b!"simple" 6 b!"SimpleSerialization",
   .registSerialization b!"protobuf" 5 b!"PbSerialization",
   .registSerialization b!"grpc-pb" 1 b!"GrpcPbSerialization",
   .registSerialization b!"breeze" 8 b!"BreezeSerialization"]

/-- What `GetSerialNum` of a serialization gives, the number put in the header of a message: serialize/simple.go:42-44,
pb.go:86-88 and 21-23, breeze.go:12-14, with serialize.go:16-26. -/
def serialNum (c : Ctor) : Option Int :=
  if c = b!"SimpleSerialization" then some 6
  else if c = b!"PbSerialization" then some 5
  else if c = b!"GrpcPbSerialization" then some 1
  else if c = b!"BreezeSerialization" then some 8
  else none

end Motan.Ext
