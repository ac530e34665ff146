import Verif.Model.Config
import Verif.Model.Reload

/-!
# The configuration of a context, at start and at a hot reload (core/globalContext.go, agent.go, manageHandler.go)
-/

namespace Motan.Startup

open Motan.Config Motan.Url

/-- What is outside: the flags `-c`, `-pool` and `-application`, what `os.Stat` says of a path (none: an error; otherwise whether it is
a directory), what a file or a directory (for an application and a pool) gives as configuration (none: an error), and the
references a configuration stands for with the registries in it (C52, C51 and C65 say what these are). -/
structure World where
  cfgFlag : Bytes := []
  poolFlag : Bytes := []
  appFlag : Bytes := []
  isDir : Bytes → Option Bool
  single : Bytes → Option Conf
  pool : Bytes → Bytes → Bytes → Option Conf
  refers : Conf → List URL
  registries : Conf → AMap Bytes Reload.RegKind

/-- core/globalContext.go:54-69 `Context`, as far as it matters here. -/
structure Ctx where
  configFile : Bytes := []
  config : Option Conf := none
  pool : Bytes := []
  application : Bytes := []
  refers : List URL := []
  registries : AMap Bytes Reload.RegKind := []

/-- core/globalContext.go:229-239. -/
def chooseFile (w : World) (given pool : Bytes) : Bytes :=
  let f := if given = [] then w.cfgFlag else given
  if f = [] then (if pool ≠ [] then b!"./" else b!"./motan.yaml") else f

/-- core/globalContext.go:252-254. -/
def slashed (f : Bytes) : Bytes := if b!"/".isSuffixOf f then f else f ++ b!"/"

/-- core/globalContext.go:241-264: the file or directory read, and the configuration if there is one. -/
def read (w : World) (file pool application : Bytes) : Bytes × Option Conf :=
  match w.isDir file with
  | none => (file, none)
  | some true =>
    if application = [] ∧ pool = [] then (file, none)
    else (slashed file, w.pool (slashed file) application pool)
  | some false => (file, w.single file)

/-- core/globalContext.go:212-275 `Initialize`. (Of what the sections become, the references and registries are kept.) -/
def initCtx (w : World) (c : Ctx) : Ctx :=
  let pool := if c.pool = [] then w.poolFlag else c.pool
  let application := if c.application = [] then w.appFlag else c.application
  match c.config with
  | some conf =>
    { c with pool := pool, application := application, refers := w.refers conf, registries := w.registries conf }
  | none =>
    let r := read w (chooseFile w c.configFile pool) pool application
    match r.2 with
    | none =>
      { configFile := r.1, config := none, pool := pool, application := application, refers := [], registries := [] }
    | some conf =>
      { configFile := r.1, config := some conf, pool := pool, application := application, refers := w.refers conf,
        registries := w.registries conf }

/-- agent.go:188-205: the context of an agent started with a configuration or, without one, with a file; none if it gives up. -/
def start (w : World) (agentFile : Bytes) (config : Option Conf) : Option Ctx :=
  let c := match config with
    | some conf => initCtx w { config := some conf }
    | none => initCtx w { configFile := agentFile }
  if c.config.isNone then none else some c

/-- manageHandler.go:785-791 with agent.go:497-571: the clusters after a request to `/reload/clusters`, and the context that takes the place
of the agent's. The configuration is not looked at again. -/
def hotReload (w : World) (agentFile : Bytes) (E : Reload.Env) (s : Reload.St) (ids : List Bytes) : Reload.St × Ctx :=
  let c := initCtx w { configFile := agentFile }
  (Reload.reload { E with registries := c.registries } s ids c.refers, c)

end Motan.Startup
