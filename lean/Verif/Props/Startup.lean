import Verif.Model.Startup
import Verif.Props.Reload

/-!
# C87: which configuration is read at the start and at a hot reload
-/

namespace Motan.Props

open Motan.Startup Motan.Config Motan.Reload Motan.Url Motan.Routing

/-- C87: the file read is the one the program gives, else the one of the flag `-c`, else `./` if there is a pool and `./motan.yaml` if
there is none. -/
theorem startup_file (w : World) (given pool : Bytes) :
    (given ≠ [] → chooseFile w given pool = given) ∧
    (given = [] → w.cfgFlag ≠ [] → chooseFile w given pool = w.cfgFlag) ∧
    (given = [] → w.cfgFlag = [] → pool ≠ [] → chooseFile w given pool = b!"./") ∧
    (given = [] → w.cfgFlag = [] → pool = [] → chooseFile w given pool = b!"./motan.yaml") := by
  refine ⟨fun h => by simp [chooseFile, h], fun h h' => by simp [chooseFile, h, h'], fun h h' h'' => by simp [chooseFile, h, h', h''],
    fun h h' h'' => by simp [chooseFile, h, h', h'']⟩

/-- The pool and the application of a context: its own, else those of the flags. -/
def Spec.poolOf (w : World) (c : Ctx) : Bytes := if c.pool = [] then w.poolFlag else c.pool
def Spec.applicationOf (w : World) (c : Ctx) : Bytes := if c.application = [] then w.appFlag else c.application

/-- C87: a plain file is read as it is. -/
theorem startup_single (w : World) (c : Ctx) (hc : c.config = none) {file : Bytes}
    (hf : chooseFile w c.configFile (Spec.poolOf w c) = file) (hd : w.isDir file = some false) {conf : Conf}
    (hr : w.single file = some conf) :
    (initCtx w c).config = some conf ∧ (initCtx w c).refers = w.refers conf ∧ (initCtx w c).registries = w.registries conf ∧
    (initCtx w c).configFile = file := by
  simp only [Spec.poolOf] at hf
  simp [initCtx, hc, hf, Startup.read, hd, hr]

/-- C87: a directory is read for the application and the pool, with one slash at its end. -/
theorem startup_directory (w : World) (c : Ctx) (hc : c.config = none) {file dir : Bytes}
    (hf : chooseFile w c.configFile (Spec.poolOf w c) = file) (hd : w.isDir file = some true)
    (hn : Spec.applicationOf w c ≠ [] ∨ Spec.poolOf w c ≠ [])
    (hs : (file = dir ∧ ∃ p, dir = p ++ b!"/") ∨ (dir = file ++ b!"/" ∧ ¬ ∃ p, file = p ++ b!"/")) {conf : Conf}
    (hr : w.pool dir (Spec.applicationOf w c) (Spec.poolOf w c) = some conf) :
    (initCtx w c).config = some conf ∧ (initCtx w c).refers = w.refers conf ∧ (initCtx w c).registries = w.registries conf ∧
    (initCtx w c).configFile = dir := by
  have hsl : slashed file = dir := by
    unfold slashed
    rcases hs with ⟨rfl, p, e⟩ | ⟨e, hno⟩
    · rw [if_pos (by rw [List.isSuffixOf_iff_suffix, e]; exact List.suffix_append _ _)]
    · rw [if_neg, e]
      intro h
      obtain ⟨t, ht⟩ := List.isSuffixOf_iff_suffix.mp h
      exact hno ⟨t, ht.symm⟩
  have hn' : ¬ (Spec.applicationOf w c = [] ∧ Spec.poolOf w c = []) := by
    rintro ⟨a, b⟩; rcases hn with h | h <;> contradiction
  simp only [Spec.poolOf, Spec.applicationOf] at hf hn' hr
  simp only [initCtx, hc, hf, Startup.read, hd, hsl, if_neg hn', hr]
  simp

/-- C87: the context has its own pool and application, else those of the flags, whether or not a configuration was given or read. -/
theorem startup_names (w : World) (c : Ctx) :
    (initCtx w c).pool = Spec.poolOf w c ∧ (initCtx w c).application = Spec.applicationOf w c := by
  unfold initCtx Spec.poolOf Spec.applicationOf
  cases c.config with
  | some conf => exact ⟨rfl, rfl⟩
  | none =>
    dsimp only
    split <;> exact ⟨rfl, rfl⟩

/-- What can be wrong with a file or directory: there is none, it is a directory and neither application nor pool is
given, or it cannot be read. -/
inductive Spec.Unreadable (w : World) (application pool file : Bytes) : Prop
  | missing (h : w.isDir file = none)
  | nameless (h : w.isDir file = some true) (h1 : application = []) (h2 : pool = [])
  | badDirectory (h : w.isDir file = some true) (h1 : w.pool (slashed file) application pool = none)
  | badFile (h : w.isDir file = some false) (h1 : w.single file = none)

/-- C87: an agent does not start exactly if no configuration is given and the file chosen cannot be read. -/
theorem startup_refused (w : World) (agentFile : Bytes) (config : Option Conf) :
    Startup.start w agentFile config = none ↔
      config = none ∧ Spec.Unreadable w w.appFlag w.poolFlag (chooseFile w agentFile w.poolFlag) := by
  have key : (Startup.read w (chooseFile w agentFile w.poolFlag) w.poolFlag w.appFlag).2 = none ↔
      Spec.Unreadable w w.appFlag w.poolFlag (chooseFile w agentFile w.poolFlag) := by
    generalize chooseFile w agentFile w.poolFlag = f
    constructor
    · intro h
      unfold Startup.read at h
      cases e : w.isDir f with
      | none => exact .missing e
      | some d =>
        cases d with
        | false => simp [e] at h; exact .badFile e h
        | true =>
          by_cases hn : w.appFlag = [] ∧ w.poolFlag = []
          · exact .nameless e hn.1 hn.2
          · simp only [e, if_neg hn] at h; exact .badDirectory e h
    · intro h
      unfold Startup.read
      cases h with
      | missing e => simp [e]
      | nameless e h1 h2 => simp [e, h1, h2]
      | badDirectory e h1 => simp only [e]; split <;> simp [h1]
      | badFile e h1 => simp [e, h1]
  cases config with
  | some conf => simp [Startup.start, initCtx]
  | none =>
    rw [← key]
    simp only [Startup.start, initCtx, if_true]
    cases e : (Startup.read w (chooseFile w agentFile w.poolFlag) w.poolFlag w.appFlag).2 <;> simp

/-- C87: a configuration the program gives is used, whatever the flags and files are. -/
theorem startup_given (w : World) (agentFile : Bytes) (conf : Conf) :
    ∃ c, Startup.start w agentFile (some conf) = some c ∧ c.config = some conf ∧ c.refers = w.refers conf ∧
      c.registries = w.registries conf := by
  simp [Startup.start, initCtx]

/-- C87: a hot reload reads the configuration as a start with the same file does; if that works, the clusters become those of the
references in it (C61). -/
theorem hot_reload_reads (w : World) (agentFile : Bytes) (E : Reload.Env) (s : Reload.St) (ids : List Bytes) {c : Ctx}
    (h : Startup.start w agentFile none = some c) :
    (hotReload w agentFile E s ids).2 = c ∧
    (hotReload w agentFile E s ids).1 = reload { E with registries := c.registries } s ids c.refers := by
  simp only [Startup.start] at h
  split at h
  · cases h
  · cases h; exact ⟨rfl, rfl⟩

/-- C87 (false of the code): "a reload of a configuration that cannot be read changes nothing" — in every state an agent can reach, it
destroys every cluster that no dynamic subscription refers to, and leaves no service but theirs and no registry. -/
theorem hot_reload_unreadable_violated (w : World) (agentFile : Bytes) (E : Reload.Env) (s : Reload.St)
    (hr : Spec.Reached E s) (hp : s.pending = none) (ids : List Bytes)
    (hu : Spec.Unreadable w w.appFlag w.poolFlag (chooseFile w agentFile w.poolFlag)) :
    (∀ i, Spec.InTable s.table i → (∀ u ∈ Spec.references s ids [], ext (fill E u) ≠ ext i.url) →
      i.cluster ∈ (hotReload w agentFile E s ids).1.destroyed) ∧
    (∀ p, (AMap.load (hotReload w agentFile E s ids).1.table p).isSome → ∃ u ∈ Spec.references s ids [], u.path = p) ∧
    (hotReload w agentFile E s ids).2.registries = [] := by
  have h0 := (startup_refused w agentFile none).mpr ⟨rfl, hu⟩
  have hc : (initCtx w { configFile := agentFile }).refers = [] ∧ (initCtx w { configFile := agentFile }).registries = [] := by
    simp only [Startup.start, initCtx, if_true] at h0 ⊢
    cases e : (Startup.read w (chooseFile w agentFile w.poolFlag) w.poolFlag w.appFlag).2 with
    | none => simp
    | some conf => simp [e] at h0
  simp only [hotReload, hc.1, hc.2]
  refine ⟨fun i hi hno => ?_, fun p h => ?_, trivial⟩
  · rw [destroyed_iff hr.inv hp ids [] hi, mem_kept]
    rintro ⟨u, hu', _, e⟩
    exact hno u hu' e
  · exact (reload_known _ s hp ids [] p).1.mp h

/-! ## Cases -/

namespace StartupCase

def good : Conf := [(b!"motan-refer", .nil)]

/-- A plain file "a.yaml", and nothing else. -/
def world (readable : Bool) : World where
  isDir f := if f = b!"a.yaml" ∧ readable = true then some false else if f = b!"conf" then some true else none
  single f := if f = b!"a.yaml" then some good else none
  pool d _ p := if d = b!"conf/" ∧ p = b!"p-1" then some good else none
  refers _ := [exRef b!"a" b!"g"]
  registries _ := [(b!"r", .other)]

example : (initCtx (world true) { configFile := b!"a.yaml" }).config = some good :=
  (startup_single (world true) { configFile := b!"a.yaml" } rfl rfl rfl rfl).1

/-- The program names a pool, the flag another one. -/
example : (initCtx { world true with poolFlag := b!"p-2", appFlag := b!"app" } { config := some good, pool := b!"p-1" }).pool = b!"p-1" :=
  (startup_names _ _).1

example : (initCtx (world true) { configFile := b!"conf", pool := b!"p-1" }).configFile = b!"conf/" :=
  (startup_directory (world true) { configFile := b!"conf", pool := b!"p-1" } rfl (file := b!"conf") (dir := b!"conf/") rfl (by decide)
    (.inr (by decide)) (.inr ⟨by decide, by
      rintro ⟨p, e⟩
      have := congrArg List.getLast? e
      simp at this⟩) (conf := good) rfl).2.2.2

example : Startup.start (world false) b!"a.yaml" none = none :=
  (startup_refused _ _ _).mpr ⟨rfl, .missing (by decide)⟩

/-- The three clusters of a running agent are destroyed because its file is gone. -/
example : (hotReload (world false) b!"a.yaml" exReloadEnv (Reload.run exReloadEnv {} exOps) []).1.destroyed = [0, 1, 2] := by
  decide +kernel

example : Spec.Unreadable (world false) [] [] (chooseFile (world false) b!"a.yaml" []) := .missing (by decide)

end StartupCase

open StartupCase in
/-- C87 (false of the code): "a hot reload of an agent started with a configuration of the program keeps to that configuration" —
it reads the file of the flag or `./motan.yaml`; if there is none, all the clusters are destroyed. -/
theorem hot_reload_given_violated : ∃ (w : World) (conf : Conf) (c : Ctx) (s : Reload.St),
    Startup.start w [] (some conf) = some c ∧ s = Reload.run exReloadEnv {} (c.refers.map .init) ∧ s.table.items ≠ [] ∧
    ∀ i ∈ s.table.items, i.cluster ∈ (hotReload w [] exReloadEnv s []).1.destroyed :=
  ⟨world true, good, _, _, rfl, rfl, by decide +kernel, by decide +kernel⟩

end Motan.Props
