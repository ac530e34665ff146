import Verif.Model.Params
import Verif.Props.Export

/-!
# C80: What the agent starts with

Ranges over every command line, environment, `motan-agent` section and outcome of the system calls.
-/

namespace Motan.Props

open Motan.Strings Motan.Url Motan.ConfUrl
open Params (Cmd LogFlags Started initParam agentURL manage Address Managed typed setting)

/-! ## Specification -/

/-- The value of a setting; nil if it is not there. -/
def Spec.conf (sect : Option Info) (k : Bytes) : Val := (sect.bind fun m => AMap.load m k).getD .nil

/-- The number in a setting, or 0. -/
def Spec.confInt (sect : Option Info) (k : Bytes) : Int :=
  match Spec.conf sect k with
  | .int n => n
  | _ => 0

/-- The text in a setting, or the empty text. -/
def Spec.confName (sect : Option Info) (k : Bytes) : Bytes :=
  match Spec.conf sect k with
  | .str s => s
  | _ => []

/-- The first number that is not zero. -/
def Spec.firstSet : List Int → Int
  | [] => 0
  | n :: r => if n = 0 then Spec.firstSet r else n

/-- The first text that is not empty. -/
def Spec.firstText : List Bytes → Bytes
  | [] => []
  | s :: r => if s = [] then Spec.firstText r else s

/-- A setting is absent or of the type that is expected. -/
def Spec.IsInt (sect : Option Info) (k : Bytes) : Prop := Spec.conf sect k = .nil ∨ ∃ n, Spec.conf sect k = .int n
def Spec.IsText (sect : Option Info) (k : Bytes) : Prop := Spec.conf sect k = .nil ∨ ∃ s, Spec.conf sect k = .str s
def Spec.IsBool (sect : Option Info) (k : Bytes) : Prop := Spec.conf sect k = .nil ∨ ∃ b, Spec.conf sect k = .bool b

/-- The settings that are looked at have the types that are expected. -/
structure Spec.WellTyped (c : Cmd) (env : Option Bytes) (sect : Option Info) : Prop where
  bools : ∀ k ∈ [b!"log_async", b!"log_structured", b!"rotate_per_hour", b!"log_filter_caller"], Spec.IsBool sect k
  ints : ∀ k ∈ [b!"log_buffer_size", b!"processPoolSize"], Spec.IsInt sect k
  texts : ∀ k ∈ [b!"log_level", b!"runtime_dir"], Spec.IsText sect k
  logdir : b!"-log_dir" ∈ c.args ∨ Spec.IsText sect b!"log_dir"
  pidfile : c.pidfile ≠ [] ∨ Spec.IsText sect b!"pidfile"
  port : c.port ≠ 0 ∨ Spec.IsInt sect b!"port"
  eport : c.eport ≠ 0 ∨ Spec.IsInt sect b!"eport"
  hport : c.hport ≠ 0 ∨ Spec.IsInt sect b!"hport"
  mport : c.mport ≠ 0 ∨ env ≠ none ∨ Spec.IsInt sect b!"mport"

/-! ## Lemmas -/

theorem typed_eq {α : Type} (as : Val → Option α) (sect : Option Info) (k : Bytes) (d : α) :
    typed as sect k d = if Spec.conf sect k = .nil then some d else as (Spec.conf sect k) := by
  unfold typed setting Spec.conf
  cases sect.bind fun m => AMap.load m k with
  | none => rfl
  | some v => cases v <;> rfl

theorem typed_int {sect : Option Info} {k : Bytes} {n : Int} (h : typed asInt sect k 0 = some n) : n = Spec.confInt sect k := by
  rw [typed_eq] at h
  unfold Spec.confInt
  cases hc : Spec.conf sect k <;> simp [hc, asInt] at h <;> exact h.symm

theorem typed_text {sect : Option Info} {k : Bytes} {n : Bytes} (h : typed asString sect k [] = some n) : n = Spec.confName sect k := by
  rw [typed_eq] at h
  unfold Spec.confName
  cases hc : Spec.conf sect k <;> simp [hc, asString] at h <;> first | exact h | exact h.symm

theorem int_ok (sect : Option Info) (k : Bytes) (d : Int) : (typed asInt sect k d).isSome = true ↔ Spec.IsInt sect k := by
  rw [typed_eq]
  unfold Spec.IsInt
  cases hc : Spec.conf sect k <;> simp [asInt]

theorem text_ok (sect : Option Info) (k : Bytes) (d : Bytes) : (typed asString sect k d).isSome = true ↔ Spec.IsText sect k := by
  rw [typed_eq]
  unfold Spec.IsText
  cases hc : Spec.conf sect k <;> simp [asString]

theorem bool_ok (sect : Option Info) (k : Bytes) (d : Bool) : (typed Params.asBool sect k d).isSome = true ↔ Spec.IsBool sect k := by
  rw [typed_eq]
  unfold Spec.IsBool
  cases hc : Spec.conf sect k <;> simp [Params.asBool]

theorem bool_flag {sect : Option Info} {k : Bytes} {d n : Bool} (h : typed Params.asBool sect k d = some n) :
    (Spec.conf sect k = .nil → n = d) ∧ ∀ b, Spec.conf sect k = .bool b → n = b := by
  rw [typed_eq] at h
  cases hc : Spec.conf sect k <;> simp [hc, Params.asBool] at h <;> simp [h]

theorem int_flag {sect : Option Info} {k : Bytes} {d n : Int} (h : typed asInt sect k d = some n) :
    (Spec.conf sect k = .nil → n = d) ∧ ∀ b, Spec.conf sect k = .int b → n = b := by
  rw [typed_eq] at h
  cases hc : Spec.conf sect k <;> simp [hc, asInt] at h <;> simp [h]

theorem port_first {cmd d p : Int} {sect : Option Info} {k : Bytes} (hd : d ≠ 0) (h : Params.port cmd sect k d = some p) :
    p = Spec.firstSet [cmd, Spec.confInt sect k, d] := by
  unfold Params.port at h
  rw [Option.map_eq_some_iff] at h
  obtain ⟨q, h1, h2⟩ := h
  simp only [Spec.firstSet, hd, if_false]
  by_cases hc : cmd = 0
  · rw [if_pos hc] at h1 ⊢
    rw [← typed_int h1, h2]
  · rw [if_neg hc] at h1 ⊢
    cases h1
    rw [if_neg hc] at h2
    exact h2.symm

theorem port_ok (cmd d : Int) (sect : Option Info) (k : Bytes) :
    (Params.port cmd sect k d).isSome = true ↔ cmd ≠ 0 ∨ Spec.IsInt sect k := by
  unfold Params.port
  rw [Option.isSome_map]
  by_cases hc : cmd = 0
  · simp [hc, int_ok]
  · simp [hc]

theorem name_first {cmd d p : Bytes} {sect : Option Info} {k : Bytes} (hd : d ≠ []) (h : Params.name cmd sect k d = some p) :
    p = Spec.firstText [cmd, Spec.confName sect k, d] := by
  unfold Params.name at h
  rw [Option.map_eq_some_iff] at h
  obtain ⟨q, h1, h2⟩ := h
  simp only [Spec.firstText, hd, if_false]
  by_cases hc : cmd = []
  · rw [if_pos hc] at h1 ⊢
    rw [← typed_text h1, h2]
  · rw [if_neg hc] at h1 ⊢
    cases h1
    rw [if_neg hc] at h2
    exact h2.symm

theorem name_ok (cmd d : Bytes) (sect : Option Info) (k : Bytes) :
    (Params.name cmd sect k d).isSome = true ↔ cmd ≠ [] ∨ Spec.IsText sect k := by
  unfold Params.name
  rw [Option.isSome_map]
  by_cases hc : cmd = []
  · simp [hc, text_ok]
  · simp [hc]

theorem atoi_formatInt {n : Int} (h : -2 ^ 63 ≤ n) (h' : n < 2 ^ 63) : Params.atoi (formatInt n) = some n := by
  unfold Params.atoi
  rw [parseInt64_formatInt n h h']

/-- The parts of a start. -/
theorem started {c : Cmd} {env : Option Bytes} {mkdir : Bytes → Bool} {sect : Option Info} {r : Started}
    (h : initParam c env mkdir sect = some r) :
    Params.logDir c sect = some r.logdir ∧ Params.initLog c.log r.logdir sect = some (r.log, r.logStarted) ∧
    (∃ w, typed asInt sect b!"processPoolSize" 0 = some w ∧ r.workers = if 0 < w then some w else none) ∧
    Params.port c.port sect b!"port" 9981 = some r.port ∧ Params.managePort c.mport env sect = some r.mport ∧
    Params.port c.eport sect b!"eport" 9982 = some r.eport ∧ Params.port c.hport sect b!"hport" 9983 = some r.hport ∧
    Params.name c.pidfile sect b!"pidfile" b!"./agent.pid" = some r.pidfile ∧
    Params.name [] sect b!"runtime_dir" b!"./agent_runtime" = some r.runtimedir ∧ mkdir r.runtimedir = true ∧
    r.asyncInit = ((setting sect b!"motanEpAsyncInit").bind Params.asBool).getD true := by
  unfold initParam at h
  simp only [Option.bind_eq_some_iff] at h
  obtain ⟨a1, e1, a2, e2, a3, e3, a4, e4, a5, e5, a6, e6, a7, e7, a8, e8, a9, e9, h⟩ := h
  split at h
  · rename_i hm
    cases h
    exact ⟨e1, e2, ⟨a3, e3, rfl⟩, e4, e5, e6, e7, e8, e9, hm, rfl⟩
  · cases h

/-! ## The theorems -/

/-- **C80, ports and names.** The command line comes before the configuration, the configuration before the default. -/
theorem params_precedence {c : Cmd} {env : Option Bytes} {mkdir : Bytes → Bool} {sect : Option Info} {r : Started}
    (h : initParam c env mkdir sect = some r) :
    r.port = Spec.firstSet [c.port, Spec.confInt sect b!"port", 9981] ∧
    r.eport = Spec.firstSet [c.eport, Spec.confInt sect b!"eport", 9982] ∧
    r.hport = Spec.firstSet [c.hport, Spec.confInt sect b!"hport", 9983] ∧
    r.pidfile = Spec.firstText [c.pidfile, Spec.confName sect b!"pidfile", b!"./agent.pid"] ∧
    r.runtimedir = Spec.firstText [Spec.confName sect b!"runtime_dir", b!"./agent_runtime"] ∧
    r.workers = (if 0 < Spec.confInt sect b!"processPoolSize" then some (Spec.confInt sect b!"processPoolSize") else none) ∧
    (r.asyncInit = false ↔ Spec.conf sect b!"motanEpAsyncInit" = .bool false) := by
  obtain ⟨_, _, ⟨w, hw, ew⟩, h1, _, h2, h3, h4, h5, _, h6⟩ := started h
  refine ⟨port_first (by decide) h1, port_first (by decide) h2, port_first (by decide) h3, name_first (by decide) h4, ?_, ?_, ?_⟩
  · rw [name_first (by decide) h5]; rfl
  · rw [ew, typed_int hw]
  · rw [h6]
    unfold setting Spec.conf
    cases sect.bind fun m => AMap.load m b!"motanEpAsyncInit" with
    | none => simp
    | some v => cases v <;> simp [Params.asBool]

/-- **C80, the management port.** The command line, then the environment, then the configuration, then 8002. -/
theorem params_mport {c : Cmd} {env : Option Bytes} {mkdir : Bytes → Bool} {sect : Option Info} {r : Started}
    (h : initParam c env mkdir sect = some r) :
    (env = none → r.mport = Spec.firstSet [c.mport, Spec.confInt sect b!"mport", 8002]) ∧
    (∀ n, env = some (formatInt n) → -2 ^ 63 ≤ n → n < 2 ^ 63 → r.mport = Spec.firstSet [c.mport, n, 8002]) ∧
    (c.mport ≠ 0 → r.mport = c.mport) := by
  obtain ⟨_, _, _, _, h, _⟩ := started h
  unfold Params.managePort at h
  rw [Option.map_eq_some_iff] at h
  obtain ⟨q, h1, h2⟩ := h
  by_cases hc : c.mport = 0
  · rw [if_pos hc] at h1
    refine ⟨?_, ?_, fun h => absurd hc h⟩
    · intro he
      subst he
      simp only [Spec.firstSet, hc, if_true]
      rw [← typed_int h1, ← h2]; simp
    · intro n he l1 l2
      subst he
      simp only [atoi_formatInt l1 l2, Option.getD_some, Option.some.injEq] at h1
      subst h1
      simp only [Spec.firstSet, hc, if_true]
      rw [← h2]; simp
  · rw [if_neg hc] at h1
    cases h1
    rw [if_neg hc] at h2
    have : ∀ l, r.mport = Spec.firstSet (c.mport :: l) := fun l => by rw [Spec.firstSet, if_neg hc, h2]
    exact ⟨fun _ => this _, fun _ _ _ _ => this _, fun _ => h2.symm⟩

/-- **C80, the settings of the log.** Here the configuration comes before the command line. -/
theorem params_log {c : Cmd} {env : Option Bytes} {mkdir : Bytes → Bool} {sect : Option Info} {r : Started}
    (h : initParam c env mkdir sect = some r) :
    (∀ k (get : LogFlags → Bool), (k, get) ∈ [(b!"log_async", LogFlags.async), (b!"log_structured", LogFlags.structured),
      (b!"rotate_per_hour", LogFlags.perHour), (b!"log_filter_caller", LogFlags.caller)] →
      (Spec.conf sect k = .nil → get r.log = get c.log) ∧ ∀ b, Spec.conf sect k = .bool b → get r.log = b) ∧
    ((Spec.conf sect b!"log_buffer_size" = .nil → r.log.bufferSize = c.log.bufferSize) ∧
      ∀ n, Spec.conf sect b!"log_buffer_size" = .int n → r.log.bufferSize = n) ∧
    r.log.level = (if Spec.confName sect b!"log_level" = [] then c.log.level else Spec.confName sect b!"log_level") ∧
    r.logdir = Spec.firstText [if b!"-log_dir" ∈ c.args then c.log.dir else Spec.confName sect b!"log_dir", b!"."] ∧
    (r.logStarted = true ↔ r.logdir ≠ b!"stdout") ∧ (r.logStarted = true → r.log.dir = r.logdir) := by
  obtain ⟨hd, hl, _⟩ := started h
  unfold Params.initLog at hl
  rw [Option.map_eq_some_iff] at hl
  obtain ⟨f, hf, hl⟩ := hl
  unfold Params.logSettings at hf
  simp only [Option.bind_eq_some_iff, Option.map_eq_some_iff] at hf
  obtain ⟨a1, e1, a2, e2, a3, e3, a4, e4, a5, e5, a6, e6, hf⟩ := hf
  have hr : r.log = (if r.logdir = b!"stdout" then f else { f with dir := r.logdir }) ∧ (r.logStarted = true ↔ r.logdir ≠ b!"stdout") := by
    split at hl <;> rename_i hs <;> injection hl with x y <;> rw [← x, ← y] <;> simp [hs]
  have g1 : r.log.async = a1 := by rw [hr.1, ← hf]; split <;> rfl
  have g2 : r.log.structured = a2 := by rw [hr.1, ← hf]; split <;> rfl
  have g3 : r.log.perHour = a3 := by rw [hr.1, ← hf]; split <;> rfl
  have g4 : r.log.level = if a4 = [] then c.log.level else a4 := by rw [hr.1, ← hf]; split <;> rfl
  have g5 : r.log.caller = a5 := by rw [hr.1, ← hf]; split <;> rfl
  have g6 : r.log.bufferSize = a6 := by rw [hr.1, ← hf]; split <;> rfl
  refine ⟨?_, ?_, ?_, ?_, hr.2, ?_⟩
  · intro k get hm
    simp only [List.mem_cons, List.not_mem_nil, or_false, Prod.mk.injEq] at hm
    rcases hm with ⟨rfl, rfl⟩ | ⟨rfl, rfl⟩ | ⟨rfl, rfl⟩ | ⟨rfl, rfl⟩
    · rw [g1]; exact bool_flag e1
    · rw [g2]; exact bool_flag e2
    · rw [g3]; exact bool_flag e3
    · rw [g5]; exact bool_flag e5
  · rw [g6]; exact int_flag e6
  · rw [g4, typed_text e4]
  · unfold Params.logDir at hd
    rw [Option.map_eq_some_iff] at hd
    obtain ⟨d, h1, h2⟩ := hd
    have : d = if b!"-log_dir" ∈ c.args then c.log.dir else Spec.confName sect b!"log_dir" := by
      split at h1
      · rename_i hm; rw [if_pos hm]; cases h1; rfl
      · rename_i hm; rw [if_neg hm]; exact typed_text h1
    rw [← this, ← h2]
    rfl
  · intro hs
    have := hr.2.1 hs
    rw [hr.1, if_neg this]

/-- **C80, whether it starts.** It starts exactly if the settings it looks at have the right types and the directory can
be made. -/
theorem params_starts {c : Cmd} {env : Option Bytes} {mkdir : Bytes → Bool} {sect : Option Info} :
    (initParam c env mkdir sect).isSome = true ↔ Spec.WellTyped c env sect ∧
      mkdir (Spec.firstText [Spec.confName sect b!"runtime_dir", b!"./agent_runtime"]) = true := by
  constructor
  · intro h
    obtain ⟨r, h⟩ := Option.isSome_iff_exists.1 h
    obtain ⟨hd, hl, ⟨w, hw, _⟩, h1, h2, h3, h4, h5, h6, h7, _⟩ := started h
    unfold Params.initLog at hl
    rw [Option.map_eq_some_iff] at hl
    obtain ⟨f, hf, _⟩ := hl
    unfold Params.logSettings at hf
    simp only [Option.bind_eq_some_iff, Option.map_eq_some_iff] at hf
    obtain ⟨a1, e1, a2, e2, a3, e3, a4, e4, a5, e5, a6, e6, _⟩ := hf
    refine ⟨⟨?_, ?_, ?_, ?_, ?_, ?_, ?_, ?_, ?_⟩, ?_⟩
    · simp only [List.mem_cons, List.not_mem_nil, or_false, forall_eq_or_imp, forall_eq]
      exact ⟨(bool_ok ..).1 (by rw [e1]; rfl), (bool_ok ..).1 (by rw [e2]; rfl), (bool_ok ..).1 (by rw [e3]; rfl), (bool_ok ..).1 (by rw [e5]; rfl)⟩
    · simp only [List.mem_cons, List.not_mem_nil, or_false, forall_eq_or_imp, forall_eq]
      exact ⟨(int_ok ..).1 (by rw [e6]; rfl), (int_ok ..).1 (by rw [hw]; rfl)⟩
    · simp only [List.mem_cons, List.not_mem_nil, or_false, forall_eq_or_imp, forall_eq]
      refine ⟨(text_ok ..).1 (by rw [e4]; rfl), ?_⟩
      rcases (name_ok ..).1 (by rw [h6]; rfl) with h | h
      · exact absurd rfl h
      · exact h
    · unfold Params.logDir at hd
      rw [Option.map_eq_some_iff] at hd
      obtain ⟨d, hd, _⟩ := hd
      split at hd
      · exact .inl (by assumption)
      · exact .inr ((text_ok ..).1 (by rw [hd]; rfl))
    · exact (name_ok ..).1 (by rw [h5]; rfl)
    · exact (port_ok ..).1 (by rw [h1]; rfl)
    · exact (port_ok ..).1 (by rw [h3]; rfl)
    · exact (port_ok ..).1 (by rw [h4]; rfl)
    · unfold Params.managePort at h2
      rw [Option.map_eq_some_iff] at h2
      obtain ⟨q, h2, _⟩ := h2
      by_cases hc : c.mport = 0
      · rw [if_pos hc] at h2
        cases env with
        | some s => exact .inr (.inl (by simp))
        | none =>
          have h2 : typed asInt sect b!"mport" 0 = some q := h2
          exact .inr (.inr ((int_ok ..).1 (by rw [h2]; rfl)))
      · exact .inl hc
    · have := name_first (by decide) h6
      rw [show Spec.firstText [[], Spec.confName sect b!"runtime_dir", b!"./agent_runtime"] = Spec.firstText [Spec.confName sect b!"runtime_dir", b!"./agent_runtime"] from rfl] at this
      rw [← this]; exact h7
  · rintro ⟨hw, hm⟩
    have hb := hw.bools; have hi := hw.ints; have ht := hw.texts
    simp only [List.mem_cons, List.not_mem_nil, or_false, forall_eq_or_imp, forall_eq] at hb hi ht
    obtain ⟨b1, b2, b3, b4⟩ := hb
    obtain ⟨i1, i2⟩ := hi
    obtain ⟨t1, t2⟩ := ht
    obtain ⟨a1, e1⟩ := Option.isSome_iff_exists.1 ((bool_ok sect b!"log_async" c.log.async).2 b1)
    obtain ⟨a2, e2⟩ := Option.isSome_iff_exists.1 ((bool_ok sect b!"log_structured" c.log.structured).2 b2)
    obtain ⟨a3, e3⟩ := Option.isSome_iff_exists.1 ((bool_ok sect b!"rotate_per_hour" c.log.perHour).2 b3)
    obtain ⟨a4, e4⟩ := Option.isSome_iff_exists.1 ((text_ok sect b!"log_level" []).2 t1)
    obtain ⟨a5, e5⟩ := Option.isSome_iff_exists.1 ((bool_ok sect b!"log_filter_caller" c.log.caller).2 b4)
    obtain ⟨a6, e6⟩ := Option.isSome_iff_exists.1 ((int_ok sect b!"log_buffer_size" c.log.bufferSize).2 i1)
    obtain ⟨a7, e7⟩ := Option.isSome_iff_exists.1 ((int_ok sect b!"processPoolSize" 0).2 i2)
    obtain ⟨p1, f1⟩ := Option.isSome_iff_exists.1 ((port_ok c.port 9981 sect b!"port").2 hw.port)
    obtain ⟨p2, f2⟩ := Option.isSome_iff_exists.1 ((port_ok c.eport 9982 sect b!"eport").2 hw.eport)
    obtain ⟨p3, f3⟩ := Option.isSome_iff_exists.1 ((port_ok c.hport 9983 sect b!"hport").2 hw.hport)
    obtain ⟨n1, f4⟩ := Option.isSome_iff_exists.1 ((name_ok c.pidfile b!"./agent.pid" sect b!"pidfile").2 hw.pidfile)
    obtain ⟨n2, f5⟩ := Option.isSome_iff_exists.1 ((name_ok [] b!"./agent_runtime" sect b!"runtime_dir").2 (.inr t2))
    have hd : ∃ d, Params.logDir c sect = some d := by
      unfold Params.logDir
      by_cases hc : b!"-log_dir" ∈ c.args
      · rw [if_pos hc]; exact ⟨_, rfl⟩
      · rw [if_neg hc]
        obtain ⟨d, hd⟩ := Option.isSome_iff_exists.1 ((text_ok sect b!"log_dir" []).2 (hw.logdir.resolve_left hc))
        rw [hd]; exact ⟨_, rfl⟩
    obtain ⟨d, hd⟩ := hd
    have hl : ∃ l, Params.initLog c.log d sect = some l := by
      unfold Params.initLog Params.logSettings
      rw [e1, Option.bind_some, e2, Option.bind_some, e3, Option.bind_some, e4, Option.bind_some, e5, Option.bind_some, e6]
      exact ⟨_, rfl⟩
    obtain ⟨l, hl⟩ := hl
    have hp : ∃ q, Params.managePort c.mport env sect = some q := by
      unfold Params.managePort
      by_cases hc : c.mport = 0
      · rw [if_pos hc]
        cases env with
        | some s => exact ⟨_, rfl⟩
        | none =>
          obtain ⟨q, hq⟩ := Option.isSome_iff_exists.1 ((int_ok sect b!"mport" 0).2 ((hw.mport.resolve_left (fun h => h hc)).resolve_left (fun h => h rfl)))
          simp only [hq]; exact ⟨_, rfl⟩
      · rw [if_neg hc]; exact ⟨_, rfl⟩
    obtain ⟨q, hq⟩ := hp
    have hn2 := name_first (by decide) f5
    rw [show Spec.firstText [[], Spec.confName sect b!"runtime_dir", b!"./agent_runtime"] = Spec.firstText [Spec.confName sect b!"runtime_dir", b!"./agent_runtime"] from rfl] at hn2
    unfold initParam
    rw [hd, Option.bind_some, hl, Option.bind_some, e7, Option.bind_some, f1, Option.bind_some, hq, Option.bind_some, f2,
      Option.bind_some, f3, Option.bind_some, f4, Option.bind_some, f5, Option.bind_some, hn2, if_pos hm]
    rfl

theorem setParam_param (u : URL) (k v k' : Bytes) :
    (Params.setParam u k v).param k' = if k = k' then some v else u.param k' := by
  show AMap.load (AMap.store (u.params.getD []) k v) k' = _
  rw [AMap.load_store, URL.param]
  cases u.params <;> rfl

/-- **C80, the agent's own URL.** Group and application are the same and not empty: the application, else the group, else
`default_agent_group`. The path is the configured one or the group. The port is the configured management port, if there is
one. Nothing else changes. -/
theorem agent_url (u : URL) :
    let v := (agentURL u).1
    v.group = Spec.firstText [(u.param b!"application").getD u.group, b!"default_agent_group"] ∧
    v.param b!"application" = some v.group ∧
    v.path = Spec.firstText [u.path, v.group] ∧
    v.param b!"nodeType" = some b!"agent" ∧
    (∀ k, k ≠ b!"application" → k ≠ b!"nodeType" → v.param k = u.param k) ∧
    v.host = u.host ∧ v.protocol = u.protocol ∧
    (∀ n, u.param b!"mport" = some (formatInt n) → -2 ^ 63 ≤ n → n < 2 ^ 63 → v.port = n) ∧
    (u.param b!"mport" = none → v.port = u.port) := by
  intro v
  -- the four stages
  obtain ⟨u1, h1⟩ : ∃ u1, u1 = (match u.param b!"application" with
    | some a => { u with group := a }
    | none => Params.setParam u b!"application" u.group) := ⟨_, rfl⟩
  obtain ⟨u2, h2⟩ : ∃ u2, u2 = (if u1.group = [] then Params.setParam { u1 with group := b!"default_agent_group" } b!"application" b!"default_agent_group" else u1) := ⟨_, rfl⟩
  obtain ⟨u3, h3⟩ : ∃ u3, u3 = (if u2.path = [] then { u2 with path := u2.group } else u2) := ⟨_, rfl⟩
  obtain ⟨u4, h4⟩ : ∃ u4, u4 = (match (u3.param b!"mport").bind Params.atoi with
    | some p => { u3 with port := p }
    | none => u3) := ⟨_, rfl⟩
  have hv : v = Params.setParam u4 b!"nodeType" b!"agent" := by rw [h4, h3, h2, h1]; rfl
  have a1 : u1.group = (u.param b!"application").getD u.group ∧ u1.param b!"application" = some u1.group ∧
      (∀ k, k ≠ b!"application" → u1.param k = u.param k) ∧ u1.path = u.path ∧ u1.host = u.host ∧ u1.protocol = u.protocol ∧
      u1.port = u.port := by
    rw [h1]
    cases ha : u.param b!"application" with
    | none =>
      refine ⟨rfl, ?_, fun k hk => ?_, rfl, rfl, rfl, rfl⟩
      · simp only [setParam_param, if_true]; rfl
      · simp only [setParam_param, if_neg (Ne.symm hk)]
    | some a => exact ⟨rfl, ha, fun k _ => rfl, rfl, rfl, rfl, rfl⟩
  have a2 : u2.group = Spec.firstText [u1.group, b!"default_agent_group"] ∧ u2.param b!"application" = some u2.group ∧
      (∀ k, k ≠ b!"application" → u2.param k = u1.param k) ∧ u2.path = u1.path ∧ u2.host = u1.host ∧ u2.protocol = u1.protocol ∧
      u2.port = u1.port := by
    rw [h2]
    by_cases hg : u1.group = []
    · rw [if_pos hg]
      refine ⟨?_, ?_, fun k hk => ?_, rfl, rfl, rfl, rfl⟩
      · rw [Spec.firstText, if_pos hg]; rfl
      · rw [setParam_param, if_pos rfl]; rfl
      · rw [setParam_param, if_neg (Ne.symm hk)]; rfl
    · rw [if_neg hg]
      refine ⟨?_, a1.2.1, fun k hk => rfl, rfl, rfl, rfl, rfl⟩
      rw [Spec.firstText, if_neg hg]
  have g2 : u2.group ≠ [] := by
    rw [a2.1, Spec.firstText]
    split
    · decide
    · assumption
  have a3 : u3.group = u2.group ∧ (∀ k, u3.param k = u2.param k) ∧ u3.path = Spec.firstText [u2.path, u2.group] ∧ u3.host = u2.host ∧
      u3.protocol = u2.protocol ∧ u3.port = u2.port := by
    rw [h3]
    by_cases hg : u2.path = []
    · rw [if_pos hg]
      refine ⟨rfl, fun _ => rfl, ?_, rfl, rfl, rfl⟩
      rw [Spec.firstText, if_pos hg, Spec.firstText, if_neg g2]
    · rw [if_neg hg]
      refine ⟨rfl, fun _ => rfl, ?_, rfl, rfl, rfl⟩
      rw [Spec.firstText, if_neg hg]
  have a4 : u4.group = u3.group ∧ (∀ k, u4.param k = u3.param k) ∧ u4.path = u3.path ∧ u4.host = u3.host ∧
      u4.protocol = u3.protocol ∧ u4.port = ((u3.param b!"mport").bind Params.atoi).getD u3.port := by
    rw [h4]
    split <;> rename_i hp <;> rw [hp] <;> exact ⟨rfl, fun _ => rfl, rfl, rfl, rfl, rfl⟩
  have gm : u3.param b!"mport" = u.param b!"mport" := by
    rw [a3.2.1, a2.2.2.1 _ (by decide), a1.2.2.1 _ (by decide)]
  have gv : v.group = u2.group := by rw [hv]; exact a4.1.trans a3.1
  rw [gm] at a4
  have gp : v.port = ((u.param b!"mport").bind Params.atoi).getD u.port := by
    rw [hv]; show u4.port = _; rw [a4.2.2.2.2.2, a3.2.2.2.2.2, a2.2.2.2.2.2.2, a1.2.2.2.2.2.2]
  refine ⟨?_, ?_, ?_, ?_, ?_, ?_, ?_, ?_, ?_⟩
  · rw [gv, a2.1, a1.1]
  · rw [gv, hv, setParam_param, if_neg (by decide), a4.2.1, a3.2.1, a2.2.1]
  · rw [gv, hv]; show u4.path = _; rw [a4.2.2.1, a3.2.2.1, a2.2.2.2.1, a1.2.2.2.1]
  · rw [hv, setParam_param, if_pos rfl]
  · intro k hk hk'
    rw [hv, setParam_param, if_neg (Ne.symm hk'), a4.2.1, a3.2.1, a2.2.2.1 _ hk, a1.2.2.1 _ hk]
  · rw [hv]; show u4.host = _; rw [a4.2.2.2.1, a3.2.2.2.1, a2.2.2.2.2.1, a1.2.2.2.2.1]
  · rw [hv]; show u4.protocol = _; rw [a4.2.2.2.2.1, a3.2.2.2.2.1, a2.2.2.2.2.2.1, a1.2.2.2.2.2.1]
  · intro n hn l1 l2
    rw [gp, hn, Option.bind_some, atoi_formatInt l1 l2]; rfl
  · intro hn
    rw [gp, hn]; rfl

/-- **C80, the management server's port.** If it listens on a port, that is the port the agent keeps and tells. -/
theorem manage_port {u : URL} {mport p : Int} {unixOk : Bytes → Bool} {free : Int → Bool}
    (h : (manage u mport unixOk free).address = some (.tcp p)) :
    free p = true ∧ (manage u mport unixOk free).mport = p ∧ (manage u mport unixOk free).told = some p := by
  have hf : ∀ n q, Params.firstFree free q n = some p → free p = true := by
    intro n
    induction n with
    | zero => intro q h; cases h
    | succ n ih =>
      intro q h
      unfold Params.firstFree at h
      split at h
      · cases h; assumption
      · exact ih _ h
  revert h
  unfold manage
  simp only
  split
  · split <;> intro h <;> cases h
  · split
    · split
      · split
        · split
          · rename_i hp
            intro h; cases h
            exact ⟨hf _ _ hp, rfl, rfl⟩
          · intro h; cases h
        · intro h; cases h
      · intro h; cases h
    · split
      · rename_i hp
        intro h; cases h
        exact ⟨hp, rfl, rfl⟩
      · intro h; cases h

theorem firstFree_spec (free : Int → Bool) (n : Nat) : ∀ s : Int,
    (∀ p, Params.firstFree free s n = some p ↔ s ≤ p ∧ p < s + n ∧ free p = true ∧ ∀ q, s ≤ q → q < p → free q = false) ∧
    (Params.firstFree free s n = none ↔ ∀ p, s ≤ p → p < s + n → free p = false) := by
  induction n with
  | zero =>
    intro s
    refine ⟨fun p => ⟨fun h => (by cases h), fun h => ?_⟩, fun _ p h1 h2 => ?_, fun _ => rfl⟩
    · exact absurd h.2.1 (by have := h.1; omega)
    · omega
  | succ n ih =>
    intro s
    obtain ⟨i1, i2⟩ := ih (s + 1)
    unfold Params.firstFree
    cases hs : free s with
    | true =>
      rw [if_pos rfl]
      refine ⟨fun p => ⟨fun h => ?_, fun h => ?_⟩, fun h => (by cases h), fun h => ?_⟩
      · cases h; exact ⟨by omega, by omega, hs, fun q _ _ => by omega⟩
      · by_cases hp : s = p
        · rw [hp]
        · have := h.2.2.2 s (by omega) (by omega)
          rw [hs] at this; cases this
      · have := h s (by omega) (by omega)
        rw [hs] at this; cases this
    | false =>
      rw [if_neg (by simp)]
      refine ⟨fun p => ?_, ?_⟩
      · rw [i1]
        constructor
        · rintro ⟨h1, h2, h3, h4⟩
          refine ⟨by omega, by omega, h3, fun q l1 l2 => ?_⟩
          by_cases hq : q = s
          · rw [hq, hs]
          · exact h4 q (by omega) l2
        · rintro ⟨h1, h2, h3, h4⟩
          have : p ≠ s := fun e => by rw [e, hs] at h3; cases h3
          exact ⟨by omega, by omega, h3, fun q l1 l2 => h4 q (by omega) l2⟩
      · rw [i2]
        constructor
        · intro h q l1 l2
          by_cases hq : q = s
          · rw [hq, hs]
          · exact h q (by omega) (by omega)
        · intro h q l1 l2
          exact h q (by omega) (by omega)

theorem plain_number {n : Int} (h : 0 ≤ n) : formatInt n ≠ [] ∧ (45 : UInt8) ∉ formatInt n ∧ ∀ c ∈ formatInt n, isSpace c = false := by
  rw [formatInt, if_neg (by omega)]
  refine ⟨natDigits_ne_nil _, fun h => ?_, digit_plain.2⟩
  have := natDigits_digit _ _ h
  revert this
  decide

/-- **C80, a range of ports.** The management server takes the first free port of the range, and does not run if there is
none. -/
theorem manage_range {u : URL} {mport s e : Int} {unixOk : Bytes → Bool} {free : Int → Bool}
    (hu : getParam u b!"managementUnixSock" [] = []) (hs : 0 ≤ s) (he : 0 ≤ e) (hs' : s < 2 ^ 63) (he' : e < 2 ^ 63)
    (hr : getParam u b!"managementPortRange" [] = formatInt s ++ b!"-" ++ formatInt e) :
    (∀ p, (manage u mport unixOk free).address = some (.tcp p) ↔ s ≤ p ∧ p ≤ e ∧ free p = true ∧ ∀ q, s ≤ q → q < p → free q = false) ∧
    ((manage u mport unixOk free).address = none ↔ ∀ p, s ≤ p → p ≤ e → free p = false) := by
  have hsplit : trimSplit (formatInt s ++ b!"-" ++ formatInt e) b!"-" = [formatInt s, formatInt e] := by
    obtain ⟨s1, s2, s3⟩ := plain_number hs
    obtain ⟨e1, e2, e3⟩ := plain_number he
    rw [trimSplit_eq _ _ (by decide), show b!"-" = [45] from rfl, split_cons s2, split_single e2]
    simp [trimSpace_id s3, trimSpace_id e3, s1, e1]
  have hne : getParam u b!"managementPortRange" [] ≠ [] := by rw [hr]; simp
  have hm : (manage u mport unixOk free).address = (Params.firstFree free s (e - s + 1).toNat).map Address.tcp := by
    unfold manage
    simp only [hu, ne_eq, not_true_eq_false, if_false, hne, not_false_eq_true, if_true]
    rw [hr, hsplit]
    simp only [atoi_formatInt (n := s) (by omega) hs', atoi_formatInt (n := e) (by omega) he']
    cases Params.firstFree free s (e - s + 1).toNat <;> rfl
  obtain ⟨f1, f2⟩ := firstFree_spec free (e - s + 1).toNat s
  rw [hm]
  refine ⟨fun p => ?_, ?_⟩
  · rw [Option.map_eq_some_iff]
    constructor
    · rintro ⟨q, h1, h2⟩
      cases h2
      obtain ⟨k1, k2, k3, k4⟩ := (f1 p).1 h1
      exact ⟨k1, by omega, k3, k4⟩
    · rintro ⟨k1, k2, k3, k4⟩
      exact ⟨p, (f1 p).2 ⟨k1, by omega, k3, k4⟩, rfl⟩
  · rw [Option.map_eq_none_iff, f2]
    exact ⟨fun h p l1 l2 => h p l1 (by omega), fun h p l1 l2 => h p l1 (by omega)⟩

/-- **C80, otherwise** it listens on the management port; with a socket file, there and nowhere else. -/
theorem manage_plain {u : URL} {mport : Int} {unixOk : Bytes → Bool} {free : Int → Bool} :
    (getParam u b!"managementUnixSock" [] = [] → getParam u b!"managementPortRange" [] = [] →
      (manage u mport unixOk free).address = if free mport then some (.tcp mport) else none) ∧
    (∀ s, s ≠ [] → getParam u b!"managementUnixSock" [] = s →
      (manage u mport unixOk free).address = if unixOk s then some (.unix s) else none) := by
  constructor
  · intro hu hr
    unfold manage
    simp only [hu, hr, ne_eq, not_true_eq_false, if_false]
    split <;> rfl
  · intro s hs hu
    unfold manage
    simp only [hu, ne_eq, hs, not_false_eq_true, if_true]
    split <;> rfl

/-! ## Typed values -/

/-- **C80, booleans.** The texts `strconv.ParseBool` reads are read in the same way, and so are the words of YAML. -/
theorem conf_bool :
    (∀ b, Params.parseBool (.bool b) = some b) ∧
    (∀ s b, Url.parseBool s = some b → Params.parseBool (.str s) = some b) ∧
    (∀ s ∈ [b!"YES", b!"yes", b!"Yes", b!"Y", b!"y", b!"ON", b!"on", b!"On"], Params.parseBool (.str s) = some true) ∧
    (∀ s ∈ [b!"NO", b!"no", b!"No", b!"N", b!"n", b!"OFF", b!"off", b!"Off"], Params.parseBool (.str s) = some false) := by
  refine ⟨fun _ => rfl, ?_, by decide, by decide⟩
  intro s b h
  unfold Url.parseBool at h
  split at h
  · rename_i hm
    cases h
    revert s; decide
  · split at h
    · rename_i hm
      cases h
      exact (by decide : ∀ s ∈ [b!"0", b!"f", b!"F", b!"FALSE", b!"false", b!"False"], Params.parseBool (.str s) = some false) s hm
    · cases h

/-- **C80, the accessors** give the value under the key if it has the type, and otherwise the default or an error. -/
theorem conf_accessors (c : AMap Bytes Val) {key : Bytes} (hk : key ≠ []) :
    (∀ n, Params.getInt c key = some n ↔ AMap.load c key = some (.int n)) ∧
    (∀ d, Params.defaultInt c key d = match AMap.load c key with | some (.int n) => n | _ => d) ∧
    (∀ d, Params.stringWithDefault c key d = match AMap.load c key with | some (.str s) => s | _ => d) ∧
    (∀ b, AMap.load c key = some (.bool b) → Params.getBool c key = some b) := by
  unfold Params.getInt Params.defaultInt Params.getInt Params.stringWithDefault Params.getBool Params.getData
  simp only [if_neg hk]
  cases AMap.load c key with
  | none => simp
  | some v => cases v <;> simp [asInt, asString, Params.parseBool]

/-- **C80, log levels.** The name of a level means that level, however it is written; a text that is no name leaves the
level at `info`. -/
theorem log_levels :
    (∀ l : Int, -2 ≤ l → l ≤ 5 → Params.levelSet (Params.levelString l) = some l) ∧
    (∀ s t, (∀ c ∈ s, c < 128) → (∀ c ∈ t, c < 128) → s.map Params.lower = t.map Params.lower → Params.levelSet s = Params.levelSet t) ∧
    (∀ s, Params.levelSet s = none → Params.startLevel s = 0) := by
  refine ⟨?_, ?_, ?_⟩
  · intro l h1 h2
    have : l = -2 ∨ l = -1 ∨ l = 0 ∨ l = 1 ∨ l = 2 ∨ l = 3 ∨ l = 4 ∨ l = 5 := by omega
    rcases this with rfl | rfl | rfl | rfl | rfl | rfl | rfl | rfl <;> decide +kernel
  · have h : ∀ s : Bytes, (∀ c ∈ s, c < 128) → Params.toLower s = s.map Params.lower := by
      intro s
      induction s with
      | nil => intro _; rfl
      | cons c s ih =>
        intro h
        have hc := h c (List.mem_cons_self ..)
        have : c ≠ 0xC4 := fun e => by rw [e] at hc; revert hc; decide
        rw [Params.toLower, ih (fun c h' => h c (List.mem_cons_of_mem _ h'))]
        · rfl
        · intro r e; cases e; exact absurd rfl this
    intro s t hs ht he
    unfold Params.levelSet
    rw [h s hs, h t ht, he]
  · intro s h
    rw [Params.startLevel, h]; rfl

/-! ## Where it fails -/

/-- An environment variable that is no number hides the configured management port. -/
theorem params_mport_violated : ∃ (c : Cmd) (sect : Option Info) (r : Started), initParam c (some b!"x") (fun _ => true) sect = some r ∧
    c.mport = 0 ∧ Spec.confInt sect b!"mport" = 9000 ∧ r.mport = 8002 :=
  ⟨{}, some [(b!"mport", .int 9000)], _, rfl, rfl, rfl, by decide +kernel⟩

/-- The directory of the log given as `-log_dir=x` is ignored. -/
theorem params_logdir_violated : ∃ (c : Cmd) (r : Started), initParam c none (fun _ => true) none = some r ∧
    c.args = [b!"agent", b!"-log_dir=/x"] ∧ c.log.dir = b!"/x" ∧ r.logdir = b!"." ∧ r.log.dir = b!"." :=
  ⟨{ args := [b!"agent", b!"-log_dir=/x"], log := { dir := b!"/x" } }, _, rfl, rfl, rfl, by decide +kernel, by decide +kernel⟩

/-- The management port on the command line is not the one the agent registers with. -/
theorem agent_mport_violated : ∃ (c : Cmd) (info : Info) (u : URL) (r : Started), confToURL info = some u ∧
    initParam c none (fun _ => true) (some info) = some r ∧ r.mport = 8003 ∧ (agentURL u).1.port = 8002 :=
  ⟨{ mport := 8003 }, [(b!"mport", .int 8002)], _, _, rfl, rfl, by decide +kernel, by decide +kernel⟩

/-- Without application and group the process is left without application, although the agent's URL has one. -/
theorem agent_application_violated : ∃ u : URL, (agentURL u).2 = [] ∧ (agentURL u).1.param b!"application" = some b!"default_agent_group" :=
  ⟨{ params := some [] }, by decide +kernel, by decide +kernel⟩

/-- The number 1 is not true, although the text is, and the comment says so. -/
theorem conf_bool_violated : Params.parseBool (.int 1) = none ∧ Params.parseBool (.int 0) = none ∧
    Params.parseBool (.str b!"1") = some true ∧ Params.parseBool (.num b!"1") = some true := by decide +kernel

/-! ## The hypotheses are met -/

example : ∃ r, initParam { port := 1 } (some b!"7") (fun _ => true)
    (some [(b!"port", .str b!"x"), (b!"eport", .int 5), (b!"log_async", .bool false), (b!"log_level", .str b!"warn")]) = some r ∧
    r.port = 1 ∧ r.mport = 7 ∧ r.eport = 5 ∧ r.hport = 9983 ∧ r.log.async = false ∧ r.log.level = b!"warn" := by
  refine ⟨_, rfl, ?_⟩
  decide +kernel

example : initParam {} none (fun _ => true) (some [(b!"port", .str b!"9981")]) = none := by decide +kernel

example : (manage { params := some [(b!"managementPortRange", b!"8000-8010")] } 1 (fun _ => true) (fun p => p > 8003)).address = some (.tcp 8004) := by
  decide +kernel

end Motan.Props
