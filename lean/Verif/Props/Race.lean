import Verif.Proof.Race

/-!
# C94: goroutines that use the same object do not race for its memory

Spec: two accesses to a field conflict if one of them writes and one of them is not atomic. The use of a field is
synchronized if between any two conflicting accesses of different goroutines the first one gives a lock back and then the
other one takes it, and not both share it: this is what makes the first access happen before the second one in the sense of
the Go memory model. There is a race if two goroutines make conflicting accesses one right after the other, so that nothing
keeps them from happening at the same time. A lock makes sections out of the use of a field if nobody else touches the field
as long as a goroutine holds the lock, and nobody else writes it as long as a goroutine shares the lock: such a section can
be seen as one step, as the models of this directory do.

The executions are those of any number of goroutines that use the object for any length of time. `kept` and `guarded` are
checks of the programs, not of executions; `synchronized` and `sections` say that they can be relied on, for every execution.

As conditions are left open, the executions here include all of the code's, and more. So what is synchronized here is
synchronized in the code. That the executions of the second part, which race, are possible in the code is not proved: each
takes branches that one call of each operation named takes, as the lines cited with it show.
-/

namespace Motan.Props

open Motan.Race

/-! ## Spec -/

section
variable {L V : Type} [DecidableEq L]

/-- The action reads or writes the field. -/
def Spec.Touches (x : V) (a : Act L V) : Prop := a = .read x ∨ a = .write x ∨ a = .aread x ∨ a = .awrite x

/-- The action writes the field. -/
def Spec.Writes (x : V) (a : Act L V) : Prop := a = .write x ∨ a = .awrite x

/-- The action is not atomic. -/
def Spec.NonAtomic (x : V) (a : Act L V) : Prop := a = .read x ∨ a = .write x

/-- The actions must not happen at the same time. -/
def Spec.Conflict (x : V) (a b : Act L V) : Prop :=
  Spec.Touches x a ∧ Spec.Touches x b ∧ (Spec.Writes x a ∨ Spec.Writes x b) ∧ (Spec.NonAtomic x a ∨ Spec.NonAtomic x b)

/-- Conflicting accesses of different goroutines are ordered: in between, the first one gives a lock back, and the other one
takes the same lock, and not both share it. -/
def Spec.Synced (S : List (Role L V)) (x : V) : Prop :=
  ∀ role e f g t t' a b, t ≠ t' → Spec.Conflict x a b → Runs S role (e ++ (t, a) :: (f ++ (t', b) :: g)) →
    ∃ l f1 f2 f3 rel acq, f = f1 ++ (t, rel) :: (f2 ++ (t', acq) :: f3) ∧
      ((rel = .unlock l ∧ acq = .lock l) ∨ (rel = .unlock l ∧ acq = .rlock l) ∨ (rel = .runlock l ∧ acq = .lock l))

/-- Two goroutines may make conflicting accesses to the field at the same time. -/
def Spec.RaceOn (S : List (Role L V)) (x : V) : Prop :=
  ∃ role e t t' a b, t ≠ t' ∧ Spec.Conflict x a b ∧ Runs S role (e ++ [(t, a), (t', b)])

/-- While a goroutine holds the lock exclusively, nobody else touches the field; while it shares the lock, nobody else
writes it. -/
def Spec.Sections (S : List (Role L V)) (x : V) (l : L) : Prop :=
  ∀ role e f t, Runs S role (e ++ f) →
    ((l, true) ∈ held (own e t) → (t, .unlock l) ∉ f → ∀ p ∈ f, p.1 ≠ t → ¬ Spec.Touches x p.2) ∧
    ((l, false) ∈ held (own e t) → (t, .runlock l) ∉ f → ∀ p ∈ f, p.1 ≠ t → ¬ Spec.Writes x p.2)
end

/-! ## The checks can be relied on -/

section
variable {L V : Type} [DecidableEq L] [DecidableEq V]

omit [DecidableEq L] in
private theorem touches_access {x : V} {a : Act L V} (h : Spec.Touches x a) :
    ∃ w, access x a = some w ∧ (Spec.Writes x a → w.1 = true) ∧ (Spec.NonAtomic x a → w.2 = true) := by
  rcases h with rfl | rfl | rfl | rfl
  · exact ⟨(false, true), by simp [access], by simp [Spec.Writes], by simp⟩
  · exact ⟨(true, true), by simp [access], by simp, by simp⟩
  · exact ⟨(false, false), by simp [access], by simp [Spec.Writes], by simp [Spec.NonAtomic]⟩
  · exact ⟨(true, false), by simp [access], by simp, by simp [Spec.NonAtomic]⟩

/-- Programs that keep conflicting accesses apart by locks are synchronized, in any execution. -/
theorem synchronized {S : List (Role L V)} {x : V} (h : kept S x = true) : Spec.Synced S x := by
  rintro role e f g t t' a b hne ⟨ha, hb, hw, hp⟩ hr
  obtain ⟨w, h1, h2, h3⟩ := touches_access ha
  obtain ⟨w', h1', h2', h3'⟩ := touches_access hb
  have hc : clash w w' = true := by
    simp only [clash, Bool.and_eq_true, Bool.or_eq_true]
    exact ⟨hw.imp h2 h2', hp.imp h3 h3'⟩
  obtain ⟨l, m, m', f1, f2, f3, hx, hf⟩ := kept_spec h hne hr h1 h1' hc
  refine ⟨l, f1, f2, f3, _, _, hf, ?_⟩
  cases m <;> cases m' <;> simp_all [release, acquire]

omit [DecidableEq V] in
/-- What is synchronized does not race. -/
theorem synced_no_race {S : List (Role L V)} {x : V} (h : Spec.Synced S x) : ¬ Spec.RaceOn S x := by
  rintro ⟨role, e, t, t', a, b, hne, hc, hr⟩
  obtain ⟨l, f1, f2, f3, rel, acq, hf, _⟩ := h role e [] [] t t' a b hne hc hr
  simp at hf

/-- If every access to a field is made with a lock held, and every write with the lock held exclusively, the lock makes
sections, in any execution. -/
theorem sections {S : List (Role L V)} {x : V} {l : L} (h : guarded S x l = true) : Spec.Sections S x l := by
  intro role e f t hr
  refine ⟨fun hm hu p hp hpt htouch => ?_, fun hm hu p hp hpt hwrite => ?_⟩
  · obtain ⟨f1, f2, rfl⟩ := List.append_of_mem hp
    obtain ⟨s, a⟩ := p
    have hr' : Runs S role ((e ++ f1) ++ (s, a) :: f2) := by simpa using hr
    obtain ⟨w, h1, _⟩ := touches_access htouch
    have hk : (l, true) ∈ held (own (e ++ f1) t) :=
      held_keeps hm fun q hq => ⟨fun _ hqe => hu (by rw [← hqe]; simp [hq]), fun hb => (by cases hb)⟩
    have ho : Ordered (e ++ f1) := ordered_prefix hr'.ordered
    rcases guarded_spec h hr' h1 with g | ⟨_, g⟩
    · exact exclusive ho (Ne.symm hpt) hk g
    · exact exclusive ho (Ne.symm hpt) hk g
  · obtain ⟨f1, f2, rfl⟩ := List.append_of_mem hp
    obtain ⟨s, a⟩ := p
    have hr' : Runs S role ((e ++ f1) ++ (s, a) :: f2) := by simpa using hr
    have htouch : Spec.Touches x a := by
      rcases hwrite with g | g
      · exact .inr (.inl g)
      · exact .inr (.inr (.inr g))
    obtain ⟨w, h1, h2, _⟩ := touches_access htouch
    have hk : (l, false) ∈ held (own (e ++ f1) t) :=
      held_keeps hm fun q hq => ⟨fun hb => (by cases hb), fun _ hqe => hu (by rw [← hqe]; simp [hq])⟩
    have ho : Ordered (e ++ f1) := ordered_prefix hr'.ordered
    rcases guarded_spec h hr' h1 with g | ⟨g, _⟩
    · exact exclusive ho hpt g hk
    · rw [h2 hwrite] at g; cases g

/-- An execution that ends with conflicting accesses is a race. -/
private theorem race {S : List (Role L V)} {x : V} (role : Nat → Nat) (e : List (Nat × Act L V)) (t t' : Nat) (a b : Act L V)
    (hne : t ≠ t') (hc : Spec.Conflict x a b) (h : runsB S role (e ++ [(t, a), (t', b)]) = true) : Spec.RaceOn S x :=
  ⟨role, e, t, t', a, b, hne, hc, runsB_spec h⟩

/-- A goroutine reads while another one writes. -/
private theorem race_rw {S : List (Role L V)} {x : V} (role : Nat → Nat) (e : List (Nat × Act L V)) (t t' : Nat)
    (hne : t ≠ t') (h : runsB S role (e ++ [(t, .read x), (t', .write x)]) = true) : Spec.RaceOn S x :=
  race role e t t' _ _ hne ⟨.inl rfl, .inr (.inl rfl), .inr (.inl rfl), .inl (.inl rfl)⟩ h

/-- Two goroutines write. -/
private theorem race_ww {S : List (Role L V)} {x : V} (role : Nat → Nat) (e : List (Nat × Act L V)) (t t' : Nat)
    (hne : t ≠ t') (h : runsB S role (e ++ [(t, .write x), (t', .write x)]) = true) : Spec.RaceOn S x :=
  race role e t t' _ _ hne ⟨.inr (.inl rfl), .inr (.inl rfl), .inr (.inl rfl), .inl (.inr rfl)⟩ h
end

/-! ## Objects without races -/

/-- A string map (attachments, environment). -/
theorem string_map_synced : ∀ x, Spec.Synced stringMap x := by
  intro x
  cases x <;> exact synchronized (by decide +kernel)

/-- Its operations are one step each. -/
theorem string_map_sections :
    Spec.Sections stringMap .innerMap .mu :=
  sections (by decide +kernel)

/-- The pointer to the attachments of a request or response, as long as nobody reads one by its name. -/
theorem attachments_synced : Spec.Synced attachmentCalls .field := synchronized (by decide +kernel)

/-- A copy-on-write map. -/
theorem cow_map_synced : ∀ x, Spec.Synced cowMap x := by
  intro x
  cases x <;> exact synchronized (by decide +kernel)

/-- The table of switchers. -/
theorem switchers_synced :
    Spec.Synced switchers .switcherMap :=
  synchronized (by decide +kernel)

/-- Looking switchers up and registering them are one step each. -/
theorem switchers_sections :
    Spec.Sections switchers .switcherMap .switcherLock :=
  sections (by decide +kernel)

/-- The status samplers. -/
theorem sampler_table_synced : ∀ x, Spec.Synced samplerTable x := by
  intro x
  cases x <;> exact synchronized (by decide +kernel)

/-- Each use of the samplers is one step. -/
theorem sampler_table_sections :
    Spec.Sections samplerTable .samplers .registerLock :=
  sections (by decide +kernel)

/-- The counters of the backup request strategy. -/
theorem backup_synced : ∀ x, Spec.Synced backup x := by
  intro x
  cases x <;> exact synchronized (by decide +kernel)

/-- Counting a call and asking for a permit are one step each. -/
theorem backup_sections :
    Spec.Sections backup .total .counterLock ∧ Spec.Sections backup .retry .counterLock ∧ Spec.Sections backup
    .lastReset .counterLock :=
  ⟨sections (by decide +kernel), sections (by decide +kernel), sections (by decide +kernel)⟩

/-- The round robin of weights: its selector, the nodes and the position. -/
theorem weighted_lb_synced :
    Spec.Synced weightedLb .selector ∧ Spec.Synced weightedLb .epHolders ∧ Spec.Synced weightedLb .rrHolders ∧
    Spec.Synced weightedLb .idx :=
  ⟨synchronized (by decide +kernel), synchronized (by decide +kernel), synchronized (by decide +kernel),
   synchronized (by decide +kernel)⟩

/-- The selector is exchanged in one step. -/
theorem weighted_lb_sections :
    Spec.Sections weightedLb .selector .mutex :=
  sections (by decide +kernel)

/-- The position of the round robin. -/
theorem plain_lb_synced :
    Spec.Synced plainLb .index :=
  synchronized (by decide +kernel)

/-- The services that an http cluster has found. -/
theorem http_cluster_synced :
    Spec.Synced httpCluster .upstream :=
  synchronized (by decide +kernel)

/-- Looking a service up and adding it are one step each. -/
theorem http_cluster_sections :
    Spec.Sections httpCluster .upstream .lock :=
  sections (by decide +kernel)

/-- Subscriptions to other groups, and the degrade and switcher commands. -/
theorem command_synced :
    Spec.Synced command .otherListeners ∧ Spec.Synced command .degrade ∧ Spec.Synced command .switcherCommand :=
  ⟨synchronized (by decide +kernel), synchronized (by decide +kernel), synchronized (by decide +kernel)⟩

/-- Commands are processed in one step. -/
theorem command_sections :
    Spec.Sections command .otherListeners .mux ∧ Spec.Sections command .degrade .mux ∧ Spec.Sections command
    .switcherCommand .mux :=
  ⟨sections (by decide +kernel), sections (by decide +kernel), sections (by decide +kernel)⟩

/-- The nodes of a cluster by registry, and its name. -/
theorem cluster_synced :
    Spec.Synced cluster .registryRefers ∧ Spec.Synced cluster .identity :=
  ⟨synchronized (by decide +kernel), synchronized (by decide +kernel)⟩

/-- A notification is processed in one step. -/
theorem cluster_sections :
    Spec.Sections cluster .registryRefers .notifyLock :=
  sections (by decide +kernel)

/-- The items of the statistics, their last snapshots, and what is read from these. -/
theorem metrics_synced :
    Spec.Synced metrics .items ∧ Spec.Synced metrics .holder ∧ Spec.Synced metrics .lastSnapshot ∧ Spec.Synced
    metrics .cache :=
  ⟨synchronized (by decide +kernel), synchronized (by decide +kernel), synchronized (by decide +kernel),
   synchronized (by decide +kernel)⟩

/-- Finding and adding items, and taking a snapshot, are one step each. -/
theorem metrics_sections :
    Spec.Sections metrics .items .itemsLock ∧ Spec.Sections metrics .lastSnapshot .statLock ∧ Spec.Sections
    metrics .cache .cacheLock :=
  ⟨sections (by decide +kernel), sections (by decide +kernel), sections (by decide +kernel)⟩

/-- The nodes that are to be written to the snapshot files. -/
theorem node_snapshot_synced :
    Spec.Synced nodeSnapshot .nodes :=
  synchronized (by decide +kernel)

/-- Nodes are saved and written in one step. -/
theorem node_snapshot_sections :
    Spec.Sections nodeSnapshot .nodes .snapshotLock :=
  sections (by decide +kernel)

/-- The services and subscriptions of a mesh registry. -/
theorem mesh_registry_synced : ∀ x, Spec.Synced meshRegistry x := by
  intro x
  cases x <;> exact synchronized (by decide +kernel)

/-- Registering and subscribing are one step each. -/
theorem mesh_registry_sections :
    Spec.Sections meshRegistry .registered .registerLock ∧ Spec.Sections meshRegistry .subscribed .subscribeLock :=
  ⟨sections (by decide +kernel), sections (by decide +kernel)⟩

/-- What is registered and subscribed through the manage port, and its file. -/
theorem dynamic_synced : ∀ x, Spec.Synced dynamic x := by
  intro x
  cases x <;> exact synchronized (by decide +kernel)

/-- Each change, and writing the file, is one step. -/
theorem dynamic_sections :
    Spec.Sections dynamic .registerNodes .regLock ∧ Spec.Sections dynamic .subscribeNodes .subLock ∧ Spec.Sections
    dynamic .file .saveLock :=
  ⟨sections (by decide +kernel), sections (by decide +kernel), sections (by decide +kernel)⟩

/-- Whether a service is exported, and where. -/
theorem exporter_synced :
    Spec.Synced exporter .exported ∧ Spec.Synced exporter .registries :=
  ⟨synchronized (by decide +kernel), synchronized (by decide +kernel)⟩

/-- Exporting and taking back are one step each. -/
theorem exporter_sections :
    Spec.Sections exporter .exported .lock ∧ Spec.Sections exporter .registries .lock :=
  ⟨sections (by decide +kernel), sections (by decide +kernel)⟩

/-- A connection: requests and heartbeats that wait for an answer, and the first error. An endpoint: whether it is
available or destroyed, the count of errors and the state of keepalive. -/
theorem connection_synced :
    Spec.Synced connection .streams ∧ Spec.Synced connection .heartbeats ∧ Spec.Synced connection .shutdownErr ∧
    Spec.Synced connection .epDestroyed ∧ Spec.Synced connection .epAvailable ∧ Spec.Synced connection
    .epErrorCount ∧ Spec.Synced connection .epKeepaliveType ∧ Spec.Synced connection .epKeepaliveRunning :=
  ⟨synchronized (by decide +kernel), synchronized (by decide +kernel), synchronized (by decide +kernel),
   synchronized (by decide +kernel), synchronized (by decide +kernel), synchronized (by decide +kernel),
   synchronized (by decide +kernel), synchronized (by decide +kernel)⟩

/-- Entering and taking out a request is one step each. -/
theorem connection_sections :
    Spec.Sections connection .streams .streamLock ∧ Spec.Sections connection .heartbeats .heartbeatLock ∧
    Spec.Sections connection .shutdownErr .shutdownLock ∧ Spec.Sections connection .epDestroyed .epLock :=
  ⟨sections (by decide +kernel), sections (by decide +kernel), sections (by decide +kernel), sections
   (by decide +kernel)⟩

/-- The registries in use, the cache of groups, and the records of a recorder. -/
theorem core_synced :
    Spec.Synced core .registries ∧ Spec.Synced core .cachedGroups ∧ Spec.Synced core .groups ∧ Spec.Synced core
    .lastUpdTime ∧ Spec.Synced core .ring :=
  ⟨synchronized (by decide +kernel), synchronized (by decide +kernel), synchronized (by decide +kernel),
   synchronized (by decide +kernel), synchronized (by decide +kernel)⟩

/-- Finding or making a registry is one step; so is adding a record. -/
theorem core_sections :
    Spec.Sections core .registries .newRegistryLock ∧ Spec.Sections core .cachedGroups .groupCacheLock ∧
    Spec.Sections core .ring .recorderLock :=
  ⟨sections (by decide +kernel), sections (by decide +kernel), sections (by decide +kernel)⟩

/-- The spans of a trace, as long as nobody looks at it. -/
theorem trace_calls_synced :
    Spec.Synced traceCalls .reqSpans ∧ Spec.Synced traceCalls .resSpans :=
  ⟨synchronized (by decide +kernel), synchronized (by decide +kernel)⟩

/-! ## Objects with races -/

/-- An attachment is read, without care, while another goroutine sets the first one: core/motan.go:513, 560 (659, 694). -/
theorem attachment_race_violated : Spec.RaceOn attachments .field :=
  race (fun _ => 0) [(1, .aread .field), (1, .lock .mu), (1, .read .field)] 0 1 (.read .field) (.awrite .field) (by decide)
    ⟨.inl rfl, .inr (.inr (.inr rfl)), .inr (.inr rfl), .inl (.inl rfl)⟩ (by decide +kernel)

/-- A switcher is set while it is asked for: core/switcher.go:121, 139. -/
theorem switcher_value_violated : Spec.RaceOn switchers .value :=
  race_rw (fun _ => 0) [(1, .read .value)] 0 1 (by decide)
    (by decide +kernel)

/-- A switcher is set while somebody begins to watch it: core/switcher.go:129, 141. -/
theorem switcher_listeners_violated : Spec.RaceOn switchers .listeners :=
  race_rw (fun _ => 0)
    [(0, .read .value), (0, .write .value), (1, .lock .listenerLock), (1, .read .listeners)]
    0 1 (by decide)
    (by decide +kernel)

/-- The manage handler looks at a trace while the call goes on: a slice is read while it is appended to (core/debug.go:95,
manageHandler.go:551-563). -/
theorem trace_spans_violated : Spec.RaceOn trace .reqSpans :=
  race_rw (fun t => if t = 0 then 1 else 0)
    [(0, .read .holder), (0, .write .holder), (0, .read .tcs), (1, .lock .contextLock), (1, .read .reqSpans)]
    0 1 (by decide)
    (by decide +kernel)

/-- The manage handler exchanges the traces while calls add theirs: core/debug.go:86, 111. -/
theorem trace_holder_violated : Spec.RaceOn trace .holder :=
  race_rw (fun t => if t = 0 then 0 else 1) [(1, .read .holder)] 0 1 (by decide)
    (by decide +kernel)

/-- Whether there are filters is asked without the lock: log/filter.go:58, 95. -/
theorem log_filters_violated : Spec.RaceOn logFilters .asyncFilters :=
  race_rw (fun _ => 0) [(1, .lock .asyncFilterLock)] 0 1 (by decide)
    (by decide +kernel)

/-- A helper that asks a node for its weight is given up but goes on, and sets the weight while the weights are read:
lb/weightedEpRefresher.go:99-114, 220-225. -/
theorem dynamic_weight_violated : Spec.RaceOn weightedLb .dynamicWeight :=
  race_rw (fun t => if t = 0 then 1 else 3)
    [(0, .aread .epHolders), (0, .awrite .epHolders), (0, .lock .refreshMutex), (0, .aread .epHolders),
     (1, .read .dynamicWeight)]
    0 1 (by decide)
    (by decide +kernel)

/-- … and marks the node while the next round looks at the mark. -/
theorem support_dynamic_violated : Spec.RaceOn weightedLb .supportDynamic :=
  race_rw (fun t => if t = 0 then 2 else 3) [(0, .aread .epHolders), (1, .read .dynamicWeight)] 0 1 (by decide)
    (by decide +kernel)

/-- The nodes of a round robin are exchanged while a call selects one: lb/roundrobinLb.go:17, 21. -/
theorem lb_endpoints_violated : Spec.RaceOn plainLb .endpoints :=
  race_rw (fun t => if t = 0 then 0 else 1)
    [(0, .read .refers), (1, .lock .notifyLock), (1, .read .weightString), (1, .read .refers)]
    0 1 (by decide)
    (by decide +kernel)

/-- The groups with weights are exchanged while a call selects one: lb/lb.go:157, 175. -/
theorem lb_refers_violated : Spec.RaceOn plainLb .refers :=
  race_rw (fun t => if t = 0 then 0 else 1)
    [(1, .lock .notifyLock), (1, .read .weightString), (1, .read .weightString), (1, .lock .lbmutex),
     (1, .read .refers)]
    0 1 (by decide)
    (by decide +kernel)

/-- A traffic control command sets the weights while the nodes are refreshed: lb/lb.go:82, 183. -/
theorem lb_weight_violated : Spec.RaceOn plainLb .weightString :=
  race_rw (fun t => if t = 0 then 1 else 2) [(0, .lock .notifyLock)] 0 1 (by decide)
    (by decide +kernel)

/-- The first two calls of a service: one asks without the lock whether the cluster is there, the other one has just made it
(cluster/httpCluster.go:27, 36). -/
theorem holder_initialized_violated : Spec.RaceOn httpCluster .initialized :=
  race_rw (fun _ => 0)
    [(0, .rlock .lock), (0, .read .upstream), (0, .runlock .lock), (1, .rlock .lock), (1, .read .upstream),
     (1, .runlock .lock), (1, .read .initialized), (1, .lock .holderLock), (1, .read .initialized),
     (1, .write .cluster)]
    0 1 (by decide)
    (by decide +kernel)

/-- A notification and a discovery set the nodes of the own group at the same time: cluster/command.go:237, 595. -/
theorem command_own_urls_violated : Spec.RaceOn command .ownGroupURLs :=
  race_ww (fun _ => 1) [] 0 1 (by decide)
    (by decide +kernel)

/-- A notification asks for the traffic control command while a command is processed: cluster/command.go:274-282, 501. -/
theorem command_tc_violated : Spec.RaceOn command .tcCommand :=
  race_rw (fun _ => 1)
    [(0, .write .ownGroupURLs), (1, .read .recorders), (1, .lock .mux), (1, .read .agentInfo),
     (1, .write .agentInfo), (1, .read .agentInfo), (1, .read .serviceInfo), (1, .write .otherListeners)]
    0 1 (by decide)
    (by decide +kernel)

/-- The manage handler reads the commands while they are processed: cluster/command.go:57-70, 412. -/
theorem command_info_violated : Spec.RaceOn command .agentInfo :=
  race_rw (fun t => if t = 0 then 2 else 1)
    [(0, .read .weights), (1, .read .recorders), (1, .lock .mux), (1, .read .agentInfo)]
    0 1 (by decide)
    (by decide +kernel)

/-- A call asks whether the service is degraded while the command is processed: cluster/command.go:513-522,
cluster/motanCluster.go:73. -/
theorem command_available_violated : Spec.RaceOn command .available :=
  race_rw (fun t => if t = 0 then 0 else 1)
    [(1, .read .recorders), (1, .lock .mux), (1, .read .agentInfo), (1, .write .agentInfo), (1, .read .agentInfo),
     (1, .read .serviceInfo), (1, .write .otherListeners), (1, .write .tcCommand), (1, .write .degrade),
     (1, .read .degrade)]
    0 1 (by decide)
    (by decide +kernel)

/-- Two clusters process switcher commands at the same time, each under its own lock, and the table of all is written:
cluster/command.go:31, 524-553. -/
theorem old_switchers_violated : Spec.RaceOn command .oldSwitchers :=
  race_ww (fun t => if t = 0 then 3 else 1)
    [(0, .lock .mux2), (1, .read .recorders), (1, .lock .mux), (1, .read .agentInfo), (1, .write .agentInfo),
     (1, .read .agentInfo), (1, .read .serviceInfo), (1, .write .otherListeners), (1, .write .tcCommand),
     (1, .write .degrade), (1, .read .degrade), (1, .write .available)]
    0 1 (by decide)
    (by decide +kernel)

/-- The nodes of a cluster are asked for while a notification exchanges them: cluster/motanCluster.go:118, 131. -/
theorem cluster_refers_violated : Spec.RaceOn cluster .refers :=
  race_rw (fun _ => 0)
    [(1, .aread .identity), (1, .lock .notifyLock), (1, .read .registryRefers), (1, .write .registryRefers)]
    0 1 (by decide)
    (by decide +kernel)

/-- A cluster is destroyed twice at the same time: cluster/motanCluster.go:282, 296. -/
theorem cluster_closed_violated : Spec.RaceOn cluster .closed :=
  race_rw (fun _ => 0)
    [(1, .read .closed), (1, .lock .notifyLock), (1, .read .refers)]
    0 1 (by decide)
    (by decide +kernel)

/-- A writer of statistics is added while the reporter asks whether there are any: metrics/metrics.go:863, 888. -/
theorem report_writers_violated : Spec.RaceOn metrics .writers :=
  race_rw (fun t => if t = 0 then 1 else 0)
    [(0, .rlock .itemsLock), (0, .read .items), (0, .runlock .itemsLock), (1, .lock .writersLock)]
    0 1 (by decide)
    (by decide +kernel)

/-- The table of nodes is made while the writing goroutine asks for its size: registry/registry.go:77-81, 176-178. -/
theorem snapshot_table_violated : Spec.RaceOn nodeSnapshot .snapshot :=
  race_rw (fun t => if t = 0 then 1 else 0) [(1, .lock .snapshotLock), (1, .read .snapshot)] 0 1 (by decide)
    (by decide +kernel)

/-- The place of the files is changed while they are written: registry/registry.go:97, 107. -/
theorem snapshot_conf_violated : Spec.RaceOn nodeSnapshot .conf :=
  race_rw (fun t => if t = 0 then 1 else 0)
    [(0, .read .snapshot), (0, .rlock .snapshotLock), (0, .read .snapshot), (1, .lock .confLock)]
    0 1 (by decide)
    (by decide +kernel)

/-- A service is registered while the session is lost: registry/zkRegistry.go:82-95, 139. -/
theorem zk_available_violated : Spec.RaceOn zk .available :=
  race_rw (fun t => if t = 0 then 0 else 2) [] 0 1 (by decide)
    (by decide +kernel)

/-- Services are made available, without the lock, while another one is registered: a map is ranged over and written
(registry/zkRegistry.go:138-149, 437-449). -/
theorem zk_registered_violated : Spec.RaceOn zk .registered :=
  race_rw (fun _ => 0)
    [(0, .read .available), (0, .lock .registerLock), (0, .unlock .registerLock), (0, .read .registered),
     (1, .read .available), (1, .lock .registerLock), (1, .read .registered)]
    0 1 (by decide)
    (by decide +kernel)

/-- An event is handled while another service is subscribed: a map is read and written (registry/zkRegistry.go:187, 230). -/
theorem zk_subscribed_violated : Spec.RaceOn zk .subscribed :=
  race_rw (fun t => if t = 0 then 1 else 0)
    [(1, .read .available), (1, .lock .subscribeLock), (1, .read .subscribed)]
    0 1 (by decide)
    (by decide +kernel)

/-- The same with commands: registry/zkRegistry.go:299, 350. -/
theorem zk_subscribed_commands_violated : Spec.RaceOn zk .subscribedCommands :=
  race_rw (fun t => if t = 0 then 1 else 0)
    [(1, .read .available), (1, .lock .subscribeLock), (1, .read .subscribedCommands)]
    0 1 (by decide)
    (by decide +kernel)

/-- Two services are given up at the same time, each by its watching goroutine: registry/zkRegistry.go:246, 366. -/
theorem zk_watch_marks_violated : Spec.RaceOn zk .watchMarks :=
  race_ww (fun _ => 1) [] 0 1 (by decide)
    (by decide +kernel)

/-- The session is recovered while a call reads the parameters of its service: a map is read and written, which ends the
process (registry/zkRegistry.go:214). -/
theorem zk_url_params_violated : Spec.RaceOn zk .urlParams :=
  race_rw (fun t => if t = 0 then 3 else 2)
    [(1, .read .available), (1, .write .available), (1, .lock .registerLock), (1, .unlock .registerLock),
     (1, .lock .subscribeLock), (1, .read .subscribed), (1, .read .watchMarks)]
    0 1 (by decide)
    (by decide +kernel)

/-- A service is made available while somebody asks for it: server/server.go:142, 152. -/
theorem exporter_available_violated : Spec.RaceOn exporter .available :=
  race_rw (fun _ => 1) [(1, .lock .lock)] 0 1 (by decide)
    (by decide +kernel)

/-- A service is exported while calls are served: the map of providers is read and written, which ends the process
(server/server.go:194, 221). -/
theorem exporter_providers_violated : Spec.RaceOn exporter .providers :=
  race_rw (fun t => if t = 0 then 0 else 1) [] 0 1 (by decide)
    (by decide +kernel)

/-- A connection is closed while a call asks whether it is: endpoint/motanCommonEndpoint.go:658, 787. -/
theorem connection_shutdown_violated : Spec.RaceOn connection .shutdown :=
  race_rw (fun t => if t = 0 then 0 else 1)
    [(0, .read .epChannels), (0, .read .pool), (1, .lock .shutdownLock), (1, .read .shutdownErr),
     (1, .read .shutdown), (1, .unlock .shutdownLock), (1, .lock .shutdownLock), (1, .read .shutdown)]
    0 1 (by decide)
    (by decide +kernel)

/-- The pool is closed while a call gets a connection from it: endpoint/motanCommonEndpoint.go:805, 851. -/
theorem pool_closed_violated : Spec.RaceOn connection .pool :=
  race_rw (fun _ => 0)
    [(0, .read .epChannels), (1, .lock .epLock), (1, .read .epDestroyed), (1, .awrite .epAvailable),
     (1, .write .epDestroyed), (1, .read .epChannels), (1, .lock .channelsLock), (1, .read .pool)]
    0 1 (by decide)
    (by decide +kernel)

/-- The pool is made in the background while a call looks for it: endpoint/motanCommonEndpoint.go:154, 235. -/
theorem endpoint_channels_violated : Spec.RaceOn connection .epChannels :=
  race_rw (fun t => if t = 0 then 0 else 3) [] 0 1 (by decide)
    (by decide +kernel)

/-- Two calls learn the version of heartbeats at the same time: endpoint/motanCommonEndpoint.go:188-194. -/
theorem heartbeat_version_violated : Spec.RaceOn connection .epHeartbeatVersion :=
  race_ww (fun _ => 0)
    [(0, .read .epChannels), (0, .read .pool), (0, .awrite .epErrorCount), (0, .read .epHeartbeatVersion),
     (1, .read .epChannels), (1, .read .pool), (1, .awrite .epErrorCount), (1, .read .epHeartbeatVersion)]
    0 1 (by decide)
    (by decide +kernel)

/-- Two requests for the records share the lock, and write into the same buffer: core/motan.go:1298-1321. -/
theorem record_keys_violated : Spec.RaceOn core .keyBuf :=
  race_ww (fun _ => 0)
    [(0, .rlock .recorderLock), (0, .read .ring), (0, .read .keyBuf), (1, .rlock .recorderLock), (1, .read .ring),
     (1, .read .keyBuf)]
    0 1 (by decide)
    (by decide +kernel)

/-- The status of the agent is set and read without care by its status page: manageHandler.go:61, 76. -/
theorem status_race_violated : Spec.RaceOn agent .status :=
  race_rw (fun _ => 0) [] 0 1 (by decide)
    (by decide +kernel)

/-! ## The statements are about something -/

open SmLock SmVar in
/-- An execution of two goroutines on a string map: one stores, both read at the same time, the other one stores. -/
example : Runs stringMap (fun _ => 0)
    [(0, .lock mu), (0, .write innerMap), (0, .unlock mu), (0, .rlock mu), (1, .rlock mu), (0, .read innerMap),
     (1, .read innerMap), (0, .runlock mu), (1, .runlock mu), (1, .lock mu), (1, .write innerMap)] :=
  runsB_spec (by decide +kernel)

/-- Without the lock, a string map would race. -/
example : Spec.RaceOn [{ ops := [smStore, .act (.read .innerMap)] }] SmVar.innerMap :=
  race_rw (fun _ => 0) [(1, .lock .mu)] 0 1 (by decide) (by decide +kernel)

/-- Writing with the lock only shared would race, too. -/
example : Spec.RaceOn [{ ops := [share SmLock.mu [wr SmVar.innerMap]] }] SmVar.innerMap :=
  race_ww (fun _ => 0) [(0, .rlock .mu), (1, .rlock .mu)] 0 1 (by decide) (by decide +kernel)

/-- Two goroutines register services of a mesh registry, one after the other; and a third one has just asked for them. -/
example : Runs meshRegistry (fun _ => 0)
    [(2, .lock .registerLock), (2, .read .registered), (2, .read .registered), (2, .unlock .registerLock),
     (0, .lock .registerLock), (0, .read .registered), (1, .lock .subscribeLock), (0, .write .registered),
     (0, .unlock .registerLock), (2, .lock .registerLock), (1, .read .subscribed)] :=
  runsB_spec (by decide +kernel)

/-- Two calls use an endpoint and its connection while the answer of one comes in. -/
example : Runs connection (fun t => if t = 2 then 1 else 0)
    [(0, .read .epChannels), (1, .read .epChannels), (0, .read .pool), (0, .read .shutdown), (0, .read .shutdown),
     (0, .lock .streamLock), (0, .write .streams), (0, .unlock .streamLock), (1, .read .pool), (1, .read .shutdown),
     (1, .read .shutdown), (2, .lock .streamLock), (2, .read .streams), (2, .write .streams), (2, .unlock .streamLock),
     (1, .lock .streamLock), (1, .write .streams), (0, .awrite .epErrorCount), (0, .read .epHeartbeatVersion)] :=
  runsB_spec (by decide +kernel)

end Motan.Props
