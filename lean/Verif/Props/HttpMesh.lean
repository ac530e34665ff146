import Verif.Model.HttpMesh

/-!
# HTTP requests through the mesh (C68)
-/

namespace Motan.Props

open HttpMesh

namespace Spec

/-- The outcome of the last successful discovery of the services of a group. -/
def lastFound (reg group : Bytes) (evs : List Ev) : Option (List Bytes) :=
  evs.foldl (fun a e =>
    match e with
    | .discovered r g (some l) => if r = reg ∧ g = group then some l else a
    | _ => a) none

/-- The service of the path is to be called by RPC: it is the service that the locations of the domain give for the path,
and it is among those found by the last successful discovery of the group, or, if the registry cannot discover services,
among those to be preloaded. -/
def Served (evs : List Ev) (d : Domain) (path service : Bytes) : Prop :=
  service = d.service path ∧ service ≠ [] ∧
  match d.registry with
  | some reg => ∃ l, lastFound reg d.group evs = some l ∧ service ∈ l
  | none => service ∈ d.preload

/-- No two groups in use have the same key in the cache. -/
def NoClash (cfg : Cfg) : Prop :=
  ∀ n d n' d' r r', (n, d) ∈ cfg.domains → (n', d') ∈ cfg.domains → d.registry = some r → d'.registry = some r' →
    cacheKey r d.group = cacheKey r' d'.group → r = r' ∧ d.group = d'.group

end Spec

namespace Mesh

open Spec

theorem lastFound_append (reg group : Bytes) (a b : List Ev) : lastFound reg group (a ++ b) =
    b.foldl (fun a e =>
      match e with
      | .discovered r g (some l) => if r = reg ∧ g = group then some l else a
      | _ => a) (lastFound reg group a) := by
  simp [lastFound, List.foldl_append]

structure CInv (cfg : Cfg) (s : HttpMesh.St) (evs : List Ev) : Prop where
  entry : ∀ k i, s.cache.load k = some i → k = cacheKey i.reg i.group ∧ i.services = lastFound i.reg i.group evs ∧
    ∃ n d, (n, d) ∈ cfg.domains ∧ d.registry = some i.reg ∧ d.group = i.group
  known : ∀ r g, lastFound r g evs ≠ none → ∃ i, s.cache.load (cacheKey r g) = some i ∧ i.reg = r ∧ i.group = g

theorem CInv.same {cfg : Cfg} {s t : HttpMesh.St} {evs : List Ev} (hI : CInv cfg s evs) (h : t.cache = s.cache) : CInv cfg t evs := by
  constructor
  · rw [h]; exact hI.entry
  · rw [h]; exact hI.known

theorem enqueue_cache (s : HttpMesh.St) (k : Bytes) (i : Info) (now : Int) : (enqueue s k i now).cache = s.cache := by
  unfold enqueue
  repeat' split
  all_goals rfl

theorem enqueue_upstream (s : HttpMesh.St) (k : Bytes) (i : Info) (now : Int) : (enqueue s k i now).upstream = s.upstream := by
  unfold enqueue
  repeat' split
  all_goals rfl

/-- An entry is refreshed, and the others have other keys. -/
theorem CInv.refresh {cfg : Cfg} {s t : HttpMesh.St} {evs : List Ev} (hI : CInv cfg s evs) (hc : NoClash cfg) {i : Info} (now : Int)
    (found : Option (List Bytes))
    (hi : s.cache.load (cacheKey i.reg i.group) = some i ∨ (s.cache.load (cacheKey i.reg i.group) = none ∧ i.services = none))
    (hd : ∃ n d, (n, d) ∈ cfg.domains ∧ d.registry = some i.reg ∧ d.group = i.group)
    (ht : t.cache = s.cache.store (cacheKey i.reg i.group) (i.refresh now found).1) :
    CInv cfg t (evs ++ (i.refresh now found).2) := by
  have hserv : i.services = lastFound i.reg i.group evs := by
    rcases hi with hi | ⟨hi, h0⟩
    · exact (hI.entry _ _ hi).2.1
    · rw [h0]
      cases hl : lastFound i.reg i.group evs with
      | none => rfl
      | some l =>
        obtain ⟨j, hj, _⟩ := hI.known i.reg i.group (by simp [hl])
        rw [hi] at hj
        cases hj
  have hreg : (i.refresh now found).1.reg = i.reg ∧ (i.refresh now found).1.group = i.group := by
    unfold Info.refresh
    repeat' split
    all_goals exact ⟨rfl, rfl⟩
  have hlat : ∀ r g, lastFound r g (evs ++ (i.refresh now found).2) = if r = i.reg ∧ g = i.group then
      (i.refresh now found).1.services else lastFound r g evs := by
    intro r g
    rw [lastFound_append]
    unfold Info.refresh
    split
    · cases found with
      | none =>
        simp only [List.foldl_cons, List.foldl_nil]
        split
        · rename_i h; rw [h.1, h.2, hserv]
        · rfl
      | some l =>
        simp only [List.foldl_cons, List.foldl_nil]
        by_cases h : r = i.reg ∧ g = i.group
        · rw [if_pos h, if_pos ⟨h.1.symm, h.2.symm⟩]
        · rw [if_neg h, if_neg (fun h' => h ⟨h'.1.symm, h'.2.symm⟩)]
    · simp only [List.foldl_nil]
      split
      · rename_i h; rw [h.1, h.2, hserv]
      · rfl
  have huniq : ∀ k j, s.cache.load k = some j → k ≠ cacheKey i.reg i.group → ¬ (j.reg = i.reg ∧ j.group = i.group) := by
    intro k j hj hk h
    exact hk (by rw [(hI.entry k j hj).1, h.1, h.2])
  constructor
  · intro k j hj
    rw [ht, AMap.load_store] at hj
    split at hj
    · rename_i hk
      cases hj
      rw [hreg.1, hreg.2]
      refine ⟨by simp_all, ?_, hd⟩
      rw [hlat, if_pos ⟨rfl, rfl⟩]
    · rename_i hk
      obtain ⟨h1, h2, h3⟩ := hI.entry k j hj
      refine ⟨h1, ?_, h3⟩
      rw [hlat, if_neg (huniq k j hj (by simp_all [eq_comm]))]
      exact h2
  · intro r g hl
    rw [ht]
    by_cases h : r = i.reg ∧ g = i.group
    · obtain ⟨rfl, rfl⟩ := h
      exact ⟨_, AMap.load_store_self _ _ _, hreg⟩
    · rw [hlat, if_neg h] at hl
      obtain ⟨j, hj, h1, h2⟩ := hI.known r g hl
      refine ⟨j, ?_, h1, h2⟩
      rw [AMap.load_store]
      split
      · rename_i hk
        exfalso
        obtain ⟨_, _, n, d, hm, hr, hg⟩ := hI.entry _ _ hj
        obtain ⟨n', d', hm', hr', hg'⟩ := hd
        obtain ⟨e1, e2⟩ := hc n d n' d' _ _ hm hm' hr hr' (by rw [hg, hg', h1, h2]; simp_all)
        exact h ⟨by rw [← h1]; exact e1, by rw [← h2, ← hg, e2, hg']⟩
      · exact hj

theorem CInv.getServices {cfg : Cfg} {s : HttpMesh.St} {evs : List Ev} (hI : CInv cfg s evs) (hc : NoClash cfg) {n : Bytes} {d : Domain}
    {reg : Bytes} (hd : (n, d) ∈ cfg.domains) (hr : d.registry = some reg) (now : Int) (found : Option (List Bytes)) :
    CInv cfg (HttpMesh.getServices s reg d.group now found).1 (evs ++ (HttpMesh.getServices s reg d.group now found).2.2) ∧
    (HttpMesh.getServices s reg d.group now found).2.1 =
      lastFound reg d.group (evs ++ (HttpMesh.getServices s reg d.group now found).2.2) := by
  unfold HttpMesh.getServices
  cases hl : s.cache.load (cacheKey reg d.group) with
  | some i =>
    simp only [List.append_nil]
    refine ⟨hI.same (enqueue_cache _ _ _ _), ?_⟩
    obtain ⟨h1, h2, n', d', hm, hr', hg'⟩ := hI.entry _ _ hl
    obtain ⟨e1, e2⟩ := hc n d n' d' _ _ hd hm hr hr' (by rw [hg']; exact h1)
    rw [h2, ← e1, e2, hg']
  | none =>
    simp only
    have := hI.refresh hc (i := { reg := reg, group := d.group }) (t := enqueue { s with cache := s.cache.store (cacheKey reg d.group) (Info.refresh { reg := reg, group := d.group } now found).1 } (cacheKey reg d.group) (Info.refresh { reg := reg, group := d.group } now found).1 now)
      now found (.inr ⟨hl, rfl⟩) ⟨n, d, hd, hr, rfl⟩ (enqueue_cache _ _ _ _)
    refine ⟨this, ?_⟩
    have h := this.entry (cacheKey reg d.group) (Info.refresh { reg := reg, group := d.group } now found).1
      (by rw [enqueue_cache]; exact AMap.load_store_self _ _ _)
    have hreg : (Info.refresh { reg := reg, group := d.group } now found).1.reg = reg ∧
        (Info.refresh { reg := reg, group := d.group } now found).1.group = d.group := by
      unfold Info.refresh
      repeat' split
      all_goals exact ⟨rfl, rfl⟩
    rw [h.2.1, hreg.1, hreg.2]

theorem CInv.work {cfg : Cfg} {s : HttpMesh.St} {evs : List Ev} (hI : CInv cfg s evs) (hc : NoClash cfg) (now : Int)
    (found : Option (List Bytes)) : CInv cfg (HttpMesh.work s now found).1 (evs ++ (HttpMesh.work s now found).2) := by
  unfold HttpMesh.work
  split
  · simpa using hI
  · rename_i k ks _
    cases hl : s.cache.load k with
    | none =>
      simp only [List.append_nil]
      exact hI.same rfl
    | some i =>
      obtain ⟨h1, _, h3⟩ := hI.entry _ _ hl
      exact hI.refresh hc now found (.inl (h1 ▸ hl)) h3 (by simp only; rw [h1])

/-! ## The services with holders -/

/-- Without a registry that discovers, the services with holders are those to be preloaded. -/
def UInv (cfg : Cfg) (s : HttpMesh.St) : Prop :=
  ∀ n d, (n, d) ∈ cfg.domains → d.registry = none → ∀ p, p ∈ s.upstream n ↔ p ∈ d.preload ∧ p ≠ []

theorem mem_addHolder (s : HttpMesh.St) (name service n p : Bytes) :
    p ∈ (addHolder s name service).upstream n ↔ p ∈ s.upstream n ∨ (n = name ∧ p = service) := by
  unfold addHolder
  simp only
  split
  · rename_i h
    simp [h.1]
  · rename_i h
    constructor
    · exact .inl
    · rintro (h1 | ⟨rfl, rfl⟩)
      · exact h1
      · by_cases hm : p ∈ s.upstream n
        · exact hm
        · exact absurd ⟨rfl, hm⟩ h

theorem mem_initDomain (name : Bytes) (ps : List Bytes) : ∀ (s : HttpMesh.St) (n p : Bytes),
    p ∈ (ps.foldl (fun s p => if p = [] then s else addHolder s name p) s).upstream n ↔
      p ∈ s.upstream n ∨ (n = name ∧ p ∈ ps ∧ p ≠ []) := by
  induction ps with
  | nil => simp
  | cons q ps ih =>
    intro s n p
    simp only [List.foldl_cons]
    rw [ih]
    by_cases hq : q = []
    · simp only [hq, if_true]
      constructor
      · rintro (h | ⟨h1, h2, h3⟩)
        · exact .inl h
        · exact .inr ⟨h1, by simp [h2], h3⟩
      · rintro (h | ⟨h1, h2, h3⟩)
        · exact .inl h
        · refine .inr ⟨h1, ?_, h3⟩
          simpa [h3] using h2
    · simp only [if_neg hq, mem_addHolder]
      constructor
      · rintro ((h | ⟨h1, rfl⟩) | ⟨h1, h2, h3⟩)
        · exact .inl h
        · exact .inr ⟨h1, by simp, hq⟩
        · exact .inr ⟨h1, by simp [h2], h3⟩
      · rintro (h | ⟨h1, h2, h3⟩)
        · exact .inl (.inl h)
        · rcases List.mem_cons.mp h2 with rfl | h2
          · exact .inl (.inr ⟨h1, rfl⟩)
          · exact .inr ⟨h1, h2, h3⟩

theorem mem_start (ds : List (Bytes × Domain)) : ∀ (s : HttpMesh.St) (n p : Bytes),
    p ∈ (ds.foldl (fun s d => initDomain s d.1 d.2) s).upstream n ↔
      p ∈ s.upstream n ∨ ∃ d, (n, d) ∈ ds ∧ p ∈ d.preload ∧ p ≠ [] := by
  induction ds with
  | nil => simp
  | cons e ds ih =>
    intro s n p
    simp only [List.foldl_cons]
    rw [ih]
    unfold initDomain
    rw [mem_initDomain]
    constructor
    · rintro ((h | ⟨h1, h2⟩) | ⟨d, h1, h2⟩)
      · exact .inl h
      · subst h1
        exact .inr ⟨e.2, by simp, h2⟩
      · exact .inr ⟨d, by simp [h1], h2⟩
    · rintro (h | ⟨d, h1, h2⟩)
      · exact .inl (.inl h)
      · rcases List.mem_cons.mp h1 with h1 | h1
        · subst h1
          exact .inl (.inr ⟨rfl, h2⟩)
        · exact .inr ⟨d, h1, h2⟩

theorem start_cache (ds : List (Bytes × Domain)) : ∀ (s : HttpMesh.St), (ds.foldl (fun s d => initDomain s d.1 d.2) s).cache = s.cache := by
  induction ds with
  | nil => intro s; rfl
  | cons e ds ih =>
    intro s
    simp only [List.foldl_cons]
    rw [ih]
    unfold initDomain
    generalize e.2.preload = ps
    induction ps generalizing s with
    | nil => rfl
    | cons q ps ih2 =>
      simp only [List.foldl_cons]
      rw [ih2]
      split <;> rfl

theorem unique_domain {cfg : Cfg} (hn : cfg.domains.NodupKeys) {n : Bytes} {d d' : Domain} (h : (n, d) ∈ cfg.domains)
    (h' : (n, d') ∈ cfg.domains) : d = d' := by
  have h1 := AMap.load_of_mem hn h
  have h2 := AMap.load_of_mem hn h'
  rw [h1] at h2
  exact Option.some.inj h2

/-- What is known of the state after a history. -/
def Inv (cfg : Cfg) (x : HttpMesh.St × List Ev) : Prop := CInv cfg x.1 x.2 ∧ UInv cfg x.1

theorem Inv.start {cfg : Cfg} (hn : cfg.domains.NodupKeys) : Inv cfg (HttpMesh.start cfg, []) := by
  refine ⟨⟨?_, ?_⟩, ?_⟩
  · intro k i h
    unfold HttpMesh.start at h
    rw [start_cache] at h
    cases h
  · intro r g h
    exact absurd rfl h
  · intro n d hd _ p
    unfold HttpMesh.start
    rw [mem_start]
    constructor
    · rintro (h | ⟨d', h1, h2⟩)
      · cases h
      · rw [unique_domain hn hd h1]; exact h2
    · intro h
      exact .inr ⟨d, hd, h⟩

theorem isIn_iff (p : Bytes) (o : Option (List Bytes)) : isIn p o = true ↔ ∃ l, o = some l ∧ p ∈ l := by
  cases o <;> simp [isIn]

/-- `CanServe` says yes exactly to services that are to be called by RPC. -/
theorem canServe_spec {cfg : Cfg} {s : HttpMesh.St} {evs : List Ev} (hI : Inv cfg (s, evs)) (hc : NoClash cfg) {n : Bytes} {d : Domain}
    (hd : (n, d) ∈ cfg.domains) (uri : Bytes) (now : Int) (found : Option (List Bytes)) :
    CInv cfg (canServe s n d uri now found).1 (evs ++ (canServe s n d uri now found).2.2) ∧
    (canServe s n d uri now found).1.upstream = s.upstream ∧
    ∀ p, (canServe s n d uri now found).2.1 = some p ↔ Served (evs ++ (canServe s n d uri now found).2.2) d uri p := by
  unfold canServe
  split
  · rename_i h0
    refine ⟨by simpa using hI.1, rfl, fun p => ?_⟩
    simp only [reduceCtorEq, false_iff]
    rintro ⟨h1, h2, _⟩
    exact h2 (h1.trans h0)
  · rename_i h0
    cases hr : d.registry with
    | none =>
      simp only [List.append_nil]
      refine ⟨hI.1, trivial, fun p => ?_⟩
      have hu := hI.2 n d hd hr (d.service uri)
      unfold Served
      rw [hr]
      simp only
      split
      · rename_i hm
        simp only [Option.some.injEq]
        have := hu.mp hm
        constructor
        · rintro rfl; exact ⟨by simp, this.2, this.1⟩
        · rintro ⟨rfl, _⟩; rfl
      · rename_i hm
        simp only [reduceCtorEq, false_iff]
        rintro ⟨rfl, h2, h3⟩
        exact hm (hu.mpr ⟨h3, h2⟩)
    | some reg =>
      simp only
      obtain ⟨h1, h2⟩ := CInv.getServices hI.1 hc hd hr now found
      simp only at h1 h2
      refine ⟨h1, ?_, fun p => ?_⟩
      · unfold serviceInGroup HttpMesh.getServices
        simp only
        split <;> exact enqueue_upstream _ _ _ _
      · rw [Option.ite_none_right_eq_some]
        unfold Served serviceInGroup
        rw [hr]
        simp only
        rw [← h2]
        rw [isIn_iff]
        simp only [Option.some.injEq]
        constructor
        · rintro ⟨h, rfl⟩
          exact ⟨rfl, h0, h⟩
        · rintro ⟨rfl, _, h⟩
          exact ⟨h, rfl⟩

theorem Inv.serve {cfg : Cfg} {s : HttpMesh.St} {evs : List Ev} (hI : Inv cfg (s, evs)) (hc : NoClash cfg) (hn : cfg.domains.NodupKeys)
    {n : Bytes} {d : Domain} (hd : (n, d) ∈ cfg.domains) (uri : Bytes) (now : Int) (found : Option (List Bytes)) :
    Inv cfg ((canServe s n d uri now found).1, evs ++ (canServe s n d uri now found).2.2) ∧
    ∀ p, (canServe s n d uri now found).2.1 = some p →
      Inv cfg (addHolder (canServe s n d uri now found).1 n p, evs ++ (canServe s n d uri now found).2.2) := by
  obtain ⟨h1, h2, h3⟩ := canServe_spec hI hc hd uri now found
  refine ⟨⟨h1, ?_⟩, fun p hp => ⟨h1.same rfl, ?_⟩⟩
  · intro n' d' hd' hr q
    rw [h2]
    exact hI.2 n' d' hd' hr q
  · intro n' d' hd' hr q
    rw [mem_addHolder, h2]
    have hu := hI.2 n' d' hd' hr q
    refine ⟨?_, fun h => .inl (hu.mpr h)⟩
    rintro (h | ⟨rfl, rfl⟩)
    · exact hu.mp h
    · have hs := (h3 q).mp hp
      have := unique_domain hn hd hd'
      subst this
      unfold Served at hs
      rw [hr] at hs
      exact ⟨hs.2.2, hs.2.1⟩

theorem Inv.handle {E : Type} {cfg : Cfg} {env : Env E} {s : HttpMesh.St} {evs : List Ev} (hI : Inv cfg (s, evs)) (hc : NoClash cfg)
    (hn : cfg.domains.NodupKeys) (r : HttpMesh.Req) (now : Int) (found : Option (List Bytes)) :
    Inv cfg ((HttpMesh.handle cfg env s r now found).1, evs ++ (HttpMesh.handle cfg env s r now found).2.1) := by
  unfold HttpMesh.handle
  split
  · simpa using hI
  · cases hch : chooseDomain cfg env r.host with
    | mk o hp =>
      cases o with
      | none => simpa using hI
      | some nd =>
        obtain ⟨n, d⟩ := nd
        have hd : (n, d) ∈ cfg.domains := by
          unfold chooseDomain at hch
          simp only at hch
          split at hch
          · simp only [Prod.mk.injEq, Option.some.injEq] at hch
            obtain ⟨⟨rfl, rfl⟩, _⟩ := hch
            exact AMap.mem_of_load ‹_›
          · split at hch
            · cases hch
            · simp only [Prod.mk.injEq, Option.map_eq_some_iff] at hch
              obtain ⟨⟨d', h1, rfl, rfl⟩, _⟩ := hch
              exact AMap.mem_of_load h1
        have := Inv.serve hI hc hn hd r.path now found
        simp only
        cases hs : (canServe s n d r.path now found).2.1 with
        | none => exact this.1
        | some p => exact this.2 p hs

theorem Inv.httpCall {E : Type} {cfg : Cfg} {s : HttpMesh.St} {evs : List Ev} (hI : Inv cfg (s, evs)) (hc : NoClash cfg)
    (hn : cfg.domains.NodupKeys) (lib : HttpProvider.Lib) {n : Bytes} {d : Domain} (hd : (n, d) ∈ cfg.domains)
    (call : Bytes → AMap Bytes Bytes → Option Convert.Response × List E) (sv : Option HttpProvider.HttpRes)
    (r : HttpProvider.Req) (now : Int) (found : Option (List Bytes)) :
    Inv cfg ((HttpMesh.httpCall lib n d s call sv r now found).1, evs ++ (HttpMesh.httpCall lib n d s call sv r now found).2.1) := by
  have := Inv.serve hI hc hn hd r.method now found
  unfold HttpMesh.httpCall
  simp only
  cases hs : (canServe s n d r.method now found).2.1 with
  | none => exact this.1
  | some p =>
    simp only
    split
    · exact this.2 p hs
    · split <;> exact this.2 p hs

theorem Inv.run {E : Type} {cfg : Cfg} {env : Env E} {lib : HttpProvider.Lib} (hc : NoClash cfg) (hn : cfg.domains.NodupKeys)
    (ops : List HttpMesh.Op) : Inv cfg (HttpMesh.run cfg env lib ops) := by
  unfold HttpMesh.run
  suffices ∀ x, Inv cfg x → Inv cfg (ops.foldl (fun x op => ((HttpMesh.step cfg env lib x.1 op).1, x.2 ++ (HttpMesh.step cfg env lib x.1 op).2)) x) from
    this _ (Inv.start hn)
  induction ops with
  | nil => exact fun x h => h
  | cons op ops ih =>
    intro x h
    simp only [List.foldl_cons]
    refine ih _ ?_
    cases op with
    | proxy r now found => exact Inv.handle h hc hn r now found
    | work now found =>
      refine ⟨h.1.work hc now found, ?_⟩
      intro n d hd hr p
      rw [← h.2 n d hd hr p]
      unfold HttpMesh.step HttpMesh.work
      simp only
      repeat' split
      all_goals rfl
    | agent name r now found =>
      unfold HttpMesh.step
      simp only
      cases hl : cfg.domains.load name with
      | none => simpa using h
      | some d => exact Inv.httpCall h hc hn lib (AMap.mem_of_load hl) _ _ r now found

end Mesh

namespace Spec

/-- The host is separated from the port. -/
def SplitsHost (f : Bytes → Bytes) : Prop := ∀ h p : Bytes, (58 : UInt8) ∉ h → (58 : UInt8) ∉ p → f (h ++ b!":" ++ p) = h

/-- The header names the host, perhaps with a port. -/
def NamesHost (header h : Bytes) : Prop := (58 : UInt8) ∉ h ∧ (header = h ∨ ∃ p, (58 : UInt8) ∉ p ∧ header = h ++ b!":" ++ p)

/-- The domain of a host: the one configured for it, else the default domain. -/
def domainOf (cfg : Cfg) (h : Bytes) : Option Domain :=
  match cfg.domains.load h with
  | some d => some d
  | none => if cfg.defaultDomain = [] then none else cfg.domains.load cfg.defaultDomain

/-- How often a request may have been executed: once by each endpoint called, once by the HTTP server. -/
def executions {E : Type} (sent : List (Sent E)) : Nat :=
  (sent.map fun x => match x with | .rpc _ eps => eps.length | .http _ => 1 | .tunnel _ => 0).sum

/-- The code of the exception of a response. -/
def codeOf (r : Convert.Response) : Option Int := r.exception.map (·.errCode)

end Spec

namespace Mesh

open Spec

theorem splitHost_of {E : Type} {env : Env E} (hs : SplitsHost env.splitHost) {header h : Bytes} (hh : NamesHost header h) :
    env.splitHost (hostAndPort header) = h := by
  obtain ⟨h0, rfl | ⟨p, hp, rfl⟩⟩ := hh
  · unfold hostAndPort
    rw [if_neg h0]
    have := hs header b!"80" h0 (by decide)
    rwa [List.append_assoc] at this
  · unfold hostAndPort
    rw [if_pos (by simp)]
    exact hs h p h0 hp

theorem chooseDomain_of {E : Type} {cfg : Cfg} {env : Env E} {header h : Bytes} (hs : env.splitHost (hostAndPort header) = h) :
    ((chooseDomain cfg env header).1).map Prod.snd = domainOf cfg h ∧
    ∀ n d, (chooseDomain cfg env header).1 = some (n, d) → (n, d) ∈ cfg.domains := by
  unfold chooseDomain domainOf
  simp only [hs]
  cases hl : cfg.domains.load h with
  | some d =>
    refine ⟨rfl, ?_⟩
    intro n d h
    simp only [Option.some.injEq, Prod.mk.injEq] at h
    obtain ⟨rfl, rfl⟩ := h
    exact AMap.mem_of_load ‹_›
  | none =>
    simp only
    split
    · exact ⟨rfl, fun _ _ h => by cases h⟩
    · refine ⟨?_, ?_⟩
      · cases cfg.domains.load cfg.defaultDomain <;> rfl
      intro n d h
      simp only [Option.map_eq_some_iff, Prod.mk.injEq] at h
      obtain ⟨d', h1, rfl, rfl⟩ := h
      exact AMap.mem_of_load h1

theorem rpcProxy_rpc {E : Type} (env : Env E) (ho n svc p : Bytes) :
    (∃ eps, Sent.rpc p eps ∈ (rpcProxy env ho n svc).1) ↔ p = svc := by
  unfold rpcProxy
  simp only
  repeat' split
  all_goals simp

theorem plain_rpc {E : Type} (cfg : Cfg) (env : Env E) (ho hp p : Bytes) : ¬ ∃ eps, Sent.rpc p eps ∈ (plain cfg env ho hp).1 := by
  unfold plain
  split <;> simp

end Mesh

open Mesh in
/-- **C68.** After any history of requests, discoveries and refreshes: a request of the HTTP proxy is made a call of a service
exactly if there is a domain for its host and the service of its path is to be called by RPC (`Spec.Served`). -/
theorem mesh_rpc_served {E : Type} (cfg : Cfg) (env : Env E) (lib : HttpProvider.Lib) (hc : Spec.NoClash cfg)
    (hn : cfg.domains.NodupKeys) (hs : Spec.SplitsHost env.splitHost) (ops : List HttpMesh.Op) (r : HttpMesh.Req) (now : Int)
    (found : Option (List Bytes)) (hr : r.connect = false) (h : Bytes) (hh : Spec.NamesHost r.host h) (p : Bytes) :
    (∃ eps, Sent.rpc p eps ∈ (handle cfg env (HttpMesh.run cfg env lib ops).1 r now found).2.2.1) ↔
      ∃ d, Spec.domainOf cfg h = some d ∧
        Spec.Served ((HttpMesh.run cfg env lib ops).2 ++ (handle cfg env (HttpMesh.run cfg env lib ops).1 r now found).2.1) d r.path p := by
  have hI := Inv.run (env := env) (lib := lib) hc hn ops
  generalize HttpMesh.run cfg env lib ops = x at hI ⊢
  obtain ⟨h1, h2⟩ := chooseDomain_of (cfg := cfg) (splitHost_of hs hh)
  unfold handle
  rw [if_neg (by simp [hr])]
  cases hch : chooseDomain cfg env r.host with
  | mk o hp =>
    rw [hch] at h1 h2
    simp only at h1 h2
    cases o with
    | none =>
      simp only
      rw [← h1]
      constructor
      · exact fun h => absurd h (plain_rpc _ _ _ _ _)
      · rintro ⟨d, h, _⟩; cases h
    | some nd =>
      obtain ⟨n, d⟩ := nd
      simp only
      rw [← h1]
      obtain ⟨_, _, h3⟩ := canServe_spec (s := x.1) (evs := x.2) hI hc (h2 n d rfl) r.path now found
      cases hs : (canServe x.1 n d r.path now found).2.1 with
      | none =>
        simp only
        constructor
        · exact fun h => absurd h (plain_rpc _ _ _ _ _)
        · rintro ⟨d', h, hser⟩
          simp only [Option.map_some, Option.some.injEq] at h
          subst h
          rw [← h3 p, hs] at hser
          cases hser
      | some q =>
        simp only
        rw [rpcProxy_rpc]
        constructor
        · rintro rfl
          exact ⟨d, rfl, (h3 p).mp hs⟩
        · rintro ⟨d', h, hser⟩
          simp only [Option.map_some, Option.some.injEq] at h
          subst h
          rw [← h3 p, hs] at hser
          exact (Option.some.inj hser).symm

open Mesh in
/-- **C68.** And a Motan request to a domain, with the path as its method, is made a call of a service exactly then too. If it
is not, it is sent to the domain as an HTTP request, or refused. -/
theorem agent_rpc_served {E : Type} (cfg : Cfg) (env : Env E) (lib : HttpProvider.Lib) (hc : Spec.NoClash cfg)
    (hn : cfg.domains.NodupKeys) (ops : List HttpMesh.Op) (name : Bytes) (d : Domain) (hd : cfg.domains.load name = some d)
    (call : Bytes → AMap Bytes Bytes → Option Convert.Response × List E) (sv : Option HttpProvider.HttpRes)
    (r : HttpProvider.Req) (now : Int) (found : Option (List Bytes)) (p : Bytes) :
    (∃ eps, Out.rpc p eps ∈ (httpCall lib name d (HttpMesh.run cfg env lib ops).1 call sv r now found).2.2.1) ↔
      Spec.Served ((HttpMesh.run cfg env lib ops).2 ++ (httpCall lib name d (HttpMesh.run cfg env lib ops).1 call sv r now found).2.1)
        d r.method p := by
  have hI := Inv.run (env := env) (lib := lib) hc hn ops
  generalize HttpMesh.run cfg env lib ops = x at hI ⊢
  obtain ⟨_, _, h3⟩ := canServe_spec (s := x.1) (evs := x.2) hI hc (AMap.mem_of_load hd) r.method now found
  have hv : ∀ r : HttpProvider.Req, ¬ ∃ eps, Out.rpc p eps ∈ (viaHttp (E := E) lib name r sv).1 := by
    intro r
    unfold viaHttp
    repeat' split
    all_goals simp
  unfold httpCall
  simp only
  cases hs : (canServe x.1 name d r.method now found).2.1 with
  | none =>
    simp only
    rw [← h3 p, hs]
    constructor
    · exact fun h => absurd h (hv r)
    · intro h; cases h
  | some q =>
    simp only
    split
    · simp only [List.mem_singleton, Out.rpc.injEq]
      rw [← h3 p, hs]
      constructor
      · rintro ⟨_, rfl, _⟩; rfl
      · intro h; exact ⟨_, (Option.some.inj h).symm, rfl⟩
    · split
      · simp only [List.mem_cons, Out.rpc.injEq]
        rw [← h3 p, hs]
        constructor
        · rintro ⟨eps, h | h⟩
          · rw [h.1]
          · exact absurd ⟨eps, h⟩ (hv _)
        · intro h; exact ⟨_, .inl ⟨(Option.some.inj h).symm, rfl⟩⟩
      · simp only [List.mem_singleton, Out.rpc.injEq]
        rw [← h3 p, hs]
        constructor
        · rintro ⟨_, rfl, _⟩; rfl
        · intro h; exact ⟨_, (Option.some.inj h).symm, rfl⟩

open Mesh in
/-- **C68.** The answer to a request that is made a call: what the service answered, if it answered; an HTTP request is made
instead exactly if there was no endpoint; otherwise the status is 502. -/
theorem mesh_answer {E : Type} (cfg : Cfg) (env : Env E) (s : HttpMesh.St) (r : HttpMesh.Req) (now : Int) (found : Option (List Bytes))
    (p : Bytes) (eps : List E) (hp : Sent.rpc p eps ∈ (handle cfg env s r now found).2.2.1) :
    ∃ n, (if (cfg.domains.load (env.splitHost (hostAndPort r.host))).isSome then n = env.splitHost (hostAndPort r.host)
        else n = cfg.defaultDomain) ∧ eps = (env.call n p).2 ∧
      (∀ header body rest, (env.call n p).1.exception = none → env.decode (env.call n p).1 = some (header :: body :: rest) →
        (handle cfg env s r now found).2.2 = ([.rpc p eps], .rpc header body)) ∧
      (Spec.codeOf (env.call n p).1 = some 1001 → ∃ h, (handle cfg env s r now found).2.2 = ([.rpc p eps, .http h], .http env.http)) ∧
      (∀ c, Spec.codeOf (env.call n p).1 = some c → c ≠ 1001 → (handle cfg env s r now found).2.2 = ([.rpc p eps], .status 502)) := by
  have key : ∀ ho n q, Sent.rpc p eps ∈ (rpcProxy env ho n q).1 → q = p ∧ eps = (env.call n p).2 := by
    intro ho n q h
    unfold rpcProxy at h
    simp only at h
    repeat' split at h
    all_goals simp at h; obtain ⟨rfl, rfl⟩ := h; exact ⟨rfl, rfl⟩
  have key2 : ∀ ho n, eps = (env.call n p).2 →
      (∀ header body rest, (env.call n p).1.exception = none → env.decode (env.call n p).1 = some (header :: body :: rest) →
        rpcProxy env ho n p = ([.rpc p eps], .rpc header body)) ∧
      (Spec.codeOf (env.call n p).1 = some 1001 → ∃ h, rpcProxy env ho n p = ([.rpc p eps, .http h], .http env.http)) ∧
      (∀ c, Spec.codeOf (env.call n p).1 = some c → c ≠ 1001 → rpcProxy env ho n p = ([.rpc p eps], .status 502)) := by
    intro ho n he
    refine ⟨?_, ?_, ?_⟩
    · intro a b rest h1 h2
      unfold rpcProxy
      simp only [h1, h2, replyOf, he]
    · intro h1
      unfold Spec.codeOf at h1
      obtain ⟨e, h2, h3⟩ := Option.map_eq_some_iff.mp h1
      unfold rpcProxy
      simp only [h2]
      rw [if_pos (show e.errCode = Ha.eNoEndpoints from h3), he]
      exact ⟨_, rfl⟩
    · intro c h1 h0
      unfold Spec.codeOf at h1
      obtain ⟨e, h2, h3⟩ := Option.map_eq_some_iff.mp h1
      unfold rpcProxy
      simp only [h2]
      rw [if_neg (show ¬ e.errCode = Ha.eNoEndpoints by rw [h3]; exact h0), he]
  unfold handle at hp ⊢
  split at hp
  · dsimp only at hp
    split at hp <;> simp at hp
  · rename_i hc
    rw [if_neg hc]
    cases hch : chooseDomain cfg env r.host with
    | mk o hp' =>
      rw [hch] at hp
      cases o with
      | none => exact absurd ⟨eps, hp⟩ (plain_rpc _ _ _ _ _)
      | some nd =>
        simp only at hp ⊢
        cases hs : (canServe s nd.1 nd.2 r.path now found).2.1 with
        | none =>
          rw [hs] at hp
          exact absurd ⟨eps, hp⟩ (plain_rpc _ _ _ _ _)
        | some q =>
          rw [hs] at hp
          simp only at hp ⊢
          obtain ⟨rfl, he⟩ := key _ _ _ hp
          refine ⟨nd.1, ?_, he, key2 _ nd.1 he⟩
          unfold chooseDomain at hch
          simp only at hch
          cases hl : cfg.domains.load (env.splitHost (hostAndPort r.host)) with
          | some d =>
            rw [hl] at hch
            simp only [Prod.mk.injEq, Option.some.injEq] at hch
            simp [← hch.1]
          | none =>
            rw [hl] at hch
            simp only at hch
            split at hch
            · cases hch
            · simp only [Prod.mk.injEq] at hch
              obtain ⟨d, _, h2⟩ := Option.map_eq_some_iff.mp hch.1
              simp [← h2]

namespace Mesh

open Spec

/-- One round of failover. -/
theorem one_round {E : Type} (id : UInt64) (att : Nat → Ha.Attempt E)
    (hno : ∀ ep r, att 0 = .call ep (some r) → codeOf r ≠ some 1001) :
    (Ha.failoverLoop id att 0 1 none).2.length ≤ 1 ∧
    (codeOf (Ha.failoverLoop id att 0 1 none).1 = some 1001 → (Ha.failoverLoop id att 0 1 none).2 = []) := by
  unfold Ha.failoverLoop
  split
  · simp
  · rename_i ep _
    simp [Ha.failoverLoop, codeOf, Ha.getErrorResponseWithCode, Ha.buildExceptionResponse]
  · rename_i ep r h
    have := hno ep r h
    split
    · exact ⟨by simp, fun h => absurd h this⟩
    · simp only [Ha.failoverLoop]
      exact ⟨by simp, fun h => absurd h this⟩

theorem handle_sent {E : Type} (cfg : Cfg) (env : Env E) (s : HttpMesh.St) (r : HttpMesh.Req) (now : Int) (found : Option (List Bytes)) :
    (handle cfg env s r now found).2.2.1 = [] ∨ (handle cfg env s r now found).2.2.1 = [.tunnel r.host] ∨
    (handle cfg env s r now found).2.2.1 = [.http (sentHost cfg env r.host)] ∨
    ∃ n p, (handle cfg env s r now found).2.2.1 = [.rpc p (env.call n p).2] ∨
      ((handle cfg env s r now found).2.2.1 = [.rpc p (env.call n p).2, .http (sentHost cfg env r.host)] ∧ codeOf (env.call n p).1 = some 1001) := by
  have hp : ∀ hp, (plain cfg env (sentHost cfg env r.host) hp).1 = [] ∨
      (plain cfg env (sentHost cfg env r.host) hp).1 = [.http (sentHost cfg env r.host)] := by
    intro hp
    unfold plain
    split <;> simp
  unfold handle
  split
  · dsimp only
    split <;> simp
  · split
    · rename_i h _
      rcases hp h with h | h <;> simp [h]
    · rename_i n d h _
      simp only
      split
      · rename_i p _
        right; right; right
        refine ⟨n, p, ?_⟩
        unfold rpcProxy
        simp only
        cases he : (env.call n p).1.exception with
        | some e =>
          simp only
          split
          · rename_i hc
            right
            refine ⟨rfl, ?_⟩
            simp only [codeOf, he, Option.map_some]
            rw [hc]
            rfl
          · exact .inl rfl
        | none =>
          left
          simp only
          repeat' split
          all_goals rfl
      · rcases hp h with h | h <;> simp [h]

end Mesh

open Mesh in
/-- **C68.** With failover and no retries, a request is executed at most once, by a service or by HTTP, if no endpoint that was
called answers that there is no endpoint. -/
theorem mesh_at_most_once {E : Type} (cfg : Cfg) (env : Env E) (s : HttpMesh.St) (r : HttpMesh.Req) (now : Int)
    (found : Option (List Bytes)) (u : Url.URL) (method desc : Bytes) (id : UInt64) (att : Bytes → Bytes → Nat → Ha.Attempt E)
    (hcall : ∀ n p, env.call n p = Ha.failoverCall u method desc id (att n p)) (hret : Ha.failoverRetries u method desc = 0)
    (hno : ∀ n p ep resp, att n p 0 = .call ep (some resp) → Spec.codeOf resp ≠ some 1001) :
    Spec.executions (handle cfg env s r now found).2.2.1 ≤ 1 := by
  have h1 : ∀ n p, env.call n p = Ha.failoverLoop id (att n p) 0 1 none := by
    intro n p
    rw [hcall]
    unfold Ha.failoverCall
    rw [hret]
    rfl
  rcases handle_sent cfg env s r now found with h | h | h | ⟨n, p, h | ⟨h, hc⟩⟩ <;> rw [h]
  · simp [Spec.executions]
  · simp [Spec.executions]
  · simp [Spec.executions]
  · have := (one_round id (att n p) (hno n p)).1
    rw [h1]
    simpa [Spec.executions] using this
  · have := (one_round id (att n p) (hno n p)).2 (by rw [← h1]; exact hc)
    rw [h1, this]
    simp [Spec.executions]

namespace Spec

/-- A failure of the remote service: no answer in time. -/
def timedOut : Convert.Response := Ha.getErrorResponseWithCode 1 503

end Spec

open Spec in
/-- **C68 fails in this case.** With one retry: a server received the request and has perhaps executed it, but no answer came in
time; for the retry there is no endpoint that could be called. This is reported as if no server had been called at all, and
the request is sent once more by HTTP. -/
theorem mesh_repeated_violated : ∃ (cfg : Cfg) (env : Env Nat) (r : HttpMesh.Req) (att : Nat → Ha.Attempt Nat),
    (∀ n p, env.call n p = Ha.failoverCall { params := some [(b!"retries", b!"1")] } [] [] 1 att) ∧
    att 0 = .call 7 (some timedOut) ∧
    (handle cfg env (start cfg) r 0 none).2.2.1 = [.rpc b!"s" [7], .http b!"d"] ∧
    executions (handle cfg env (start cfg) r 0 none).2.2.1 = 2 := by
  refine ⟨{ domains := [(b!"d", { group := [], registry := none, preload := [b!"s"], service := fun _ => b!"s" })], deny := [] },
    { splitHost := fun _ => b!"d",
      call := fun _ _ => Ha.failoverCall { params := some [(b!"retries", b!"1")] } [] [] 1
        (fun i => if i = 0 then .call 7 (some timedOut) else .noEndpoint),
      decode := fun _ => none, http := none }, { host := b!"d", path := b!"/" },
    (fun i => if i = 0 then .call 7 (some timedOut) else .noEndpoint), fun _ _ => rfl, rfl, ?_, ?_⟩
  · decide +kernel
  · decide +kernel

open Mesh in
/-- **C68.** An HTTP request that is passed on carries the host of the request that came in, unless there is no domain for
that host and a default domain is configured: then it carries the default domain. A tunnel leads to the host asked for. -/
theorem mesh_http_host {E : Type} (cfg : Cfg) (env : Env E) (s : HttpMesh.St) (r : HttpMesh.Req) (now : Int)
    (found : Option (List Bytes)) :
    (∀ h, Sent.http h ∈ (handle cfg env s r now found).2.2.1 →
      (cfg.domains.load (env.splitHost (hostAndPort r.host)) = none ∧ cfg.defaultDomain ≠ [] → h = cfg.defaultDomain) ∧
      (cfg.domains.load (env.splitHost (hostAndPort r.host)) ≠ none ∨ cfg.defaultDomain = [] → h = r.host)) ∧
    (∀ h, Sent.tunnel h ∈ (handle cfg env s r now found).2.2.1 → r.connect = true ∧ h = r.host) := by
  refine ⟨fun h hm => ?_, fun h hm => ?_⟩
  · have : h = sentHost cfg env r.host := by
      rcases handle_sent cfg env s r now found with e | e | e | ⟨n, p, e | ⟨e, _⟩⟩ <;> rw [e] at hm <;> simp_all
    subst this
    unfold sentHost
    cases cfg.domains.load (env.splitHost (hostAndPort r.host)) <;> by_cases hd : cfg.defaultDomain = [] <;> simp [hd]
  · refine ⟨?_, ?_⟩
    · cases hc : r.connect with
      | true => rfl
      | false =>
        exfalso
        have hp : ∀ a b, Sent.tunnel h ∉ (plain cfg env a b).1 := by
          intro a b; unfold plain; split <;> simp
        have hq : ∀ a b c, Sent.tunnel h ∉ (rpcProxy env a b c).1 := by
          intro a b c
          unfold rpcProxy
          simp only
          repeat' split
          all_goals simp
        unfold handle at hm
        rw [if_neg (by simp [hc])] at hm
        split at hm
        · exact hp _ _ hm
        · simp only at hm
          split at hm
          · exact hq _ _ _ hm
          · exact hp _ _ hm
    · rcases handle_sent cfg env s r now found with e | e | e | ⟨n, p, e | ⟨e, _⟩⟩ <;> rw [e] at hm <;> simp_all

/-- **C68.** A request that is addressed to the proxy itself and belongs to no domain is rejected, and nothing is sent. -/
theorem mesh_self_rejected {E : Type} (cfg : Cfg) (env : Env E) (s : HttpMesh.St) (r : HttpMesh.Req) (now : Int)
    (found : Option (List Bytes)) (hr : r.connect = false) (hd : cfg.domains.load (env.splitHost (hostAndPort r.host)) = none)
    (h0 : cfg.defaultDomain = []) (hm : hostAndPort r.host ∈ cfg.deny) :
    (handle cfg env s r now found).2.2 = ([], .status 400) := by
  unfold handle
  rw [if_neg (by simp [hr])]
  unfold chooseDomain
  simp only [hd, h0, if_true]
  unfold plain
  rw [if_pos hm]

/-- **C68 fails in these cases.** A request that is addressed to the proxy itself is not rejected, but passed on, if the host is
written with a capital letter, or if there is a default domain. -/
theorem mesh_self_violated :
    (∃ (cfg : Cfg) (env : Env Nat), b!"localhost:9983" ∈ cfg.deny ∧ cfg.domains = [] ∧
      (handle cfg env (start cfg) { host := b!"Localhost:9983", path := b!"/" } 0 none).2.2.1 = [.http b!"Localhost:9983"]) ∧
    (∃ (cfg : Cfg) (env : Env Nat), b!"localhost:9983" ∈ cfg.deny ∧ cfg.domains = [] ∧ cfg.defaultDomain ≠ [] ∧
      (handle cfg env (start cfg) { host := b!"localhost:9983", path := b!"/" } 0 none).2.2.1 = [.http cfg.defaultDomain]) := by
  refine ⟨⟨{ domains := [], deny := [b!"localhost:9983"] },
    { splitHost := id, call := fun _ _ => (Spec.timedOut, []), decode := fun _ => none, http := none }, by simp, rfl, by decide +kernel⟩,
    ⟨{ domains := [], deny := [b!"localhost:9983"], defaultDomain := b!"d" },
    { splitHost := id, call := fun _ _ => (Spec.timedOut, []), decode := fun _ => none, http := none }, by simp, rfl, by simp, by decide +kernel⟩⟩

/-- **C68 fails in this case.** Two groups share an entry of the cache, because the registry's identity and the group are joined
without a separator that they could not contain: a request for one domain is made a call of a service that was never found in
its group. -/
theorem mesh_clash_violated : ∃ (cfg : Cfg) (env : Env Nat) (lib : HttpProvider.Lib) (ops : List HttpMesh.Op) (d : Domain) (reg : Bytes),
    cfg.domains.load b!"e" = some d ∧ d.registry = some reg ∧
    Spec.lastFound reg d.group (HttpMesh.run cfg env lib ops).2 = none ∧
    (handle cfg env (HttpMesh.run cfg env lib ops).1 { host := b!"e", path := b!"/" } 1 none).2.2.1 = [.rpc b!"s" []] := by
  refine ⟨{ domains := [(b!"d", { group := b!"a_b", registry := some b!"zk", preload := [], service := fun _ => b!"s" }),
      (b!"e", { group := b!"b", registry := some b!"zk_a", preload := [], service := fun _ => b!"s" })], deny := [] },
    { splitHost := fun h => h.take 1, call := fun _ _ => (Spec.timedOut, []), decode := fun _ => none, http := none },
    { norm := id, addArgs := fun q _ => q, readHeader := fun _ => {}, writeHeader := fun _ _ => [], rewrite := fun _ _ => none,
      sprintf := fun a _ => a, validURL := fun _ _ => true },
    [.proxy { host := b!"d", path := b!"/" } 0 (some [b!"s"])], _, _, rfl, rfl, ?_, ?_⟩
  · decide +kernel
  · decide +kernel

/-- **C68.** A service that is looked for in a list that is an hour old makes that list be discovered again: the task is queued,
unless a hundred tasks are. -/
theorem mesh_refresh {s : HttpMesh.St} (reg group service : Bytes) (now : Int) (found : Option (List Bytes)) :
    ∃ i, (serviceInGroup s reg group service now found).1.cache.load (cacheKey reg group) = some i ∧
      ((∃ t, i.upd = some t ∧ now - t < 3600 * 1000000000) ∨
        cacheKey reg group ∈ (serviceInGroup s reg group service now found).1.tasks ∨
        100 ≤ (serviceInGroup s reg group service now found).1.tasks.length) := by
  have key : ∀ (t : HttpMesh.St) (i : Info),
      (∃ x, i.upd = some x ∧ now - x < 3600 * 1000000000) ∨ cacheKey reg group ∈ (enqueue t (cacheKey reg group) i now).tasks ∨
        100 ≤ (enqueue t (cacheKey reg group) i now).tasks.length := by
    intro t i
    unfold enqueue
    by_cases hs : i.stale now = true
    · rw [if_pos hs]
      split
      · right; left; simp
      · right; right
        rename_i h
        unfold poolSize at h
        omega
    · left
      unfold Info.stale at hs
      cases hu : i.upd with
      | none => rw [hu] at hs; simp at hs
      | some x =>
        rw [hu] at hs
        refine ⟨x, rfl, ?_⟩
        simp [maxCacheTime] at hs
        have := of_decide_eq_false hs
        omega
  unfold serviceInGroup getServices
  cases hl : s.cache.load (cacheKey reg group) with
  | some i => exact ⟨i, by simp only; rw [Mesh.enqueue_cache]; exact hl, key s i⟩
  | none =>
    refine ⟨(Info.refresh { reg := reg, group := group } now found).1, ?_, key _ _⟩
    simp only
    rw [Mesh.enqueue_cache]
    exact AMap.load_store_self _ _ _

namespace Spec

/-- The first of these that is not empty. -/
def own (a : Option Bytes) (b : Bytes) : Bytes := if a.getD [] = [] then b else a.getD []

/-- The attachments a service is called with for a request to the domain: the service; as group and as source those of the request, or
what it lacks (the group of the domain; the application the request names, or that of the domain); and all others as they came. -/
def CalledWith (d : Domain) (atts : AMap Bytes Bytes) (p : Bytes) (sent : AMap Bytes Bytes) : Prop :=
  sent.load b!"M_p" = some p ∧
  sent.load b!"M_g" = some (own (atts.load b!"M_g") d.group) ∧
  sent.load b!"M_s" = some (own (atts.load b!"M_s") (own (atts.load b!"application") d.app)) ∧
  ∀ k, k ≠ b!"M_s" → k ≠ b!"M_g" → k ≠ b!"M_p" → sent.load k = atts.load k

end Spec

namespace Mesh

open Spec

theorem viaHttp_sent {E : Type} (lib : HttpProvider.Lib) (name : Bytes) (r : HttpProvider.Req) (sv : Option HttpProvider.HttpRes) :
    ((viaHttp (E := E) lib name r sv).1 = [] ∨
      ∃ args q, r.args = some args ∧ HttpProvider.toHttp lib r args b!"GET" = some q ∧
        (viaHttp (E := E) lib name r sv).1 = [.http name r.method q]) ∧
    ∀ resp, (viaHttp (E := E) lib name r sv).2 ≠ .rpc resp := by
  unfold viaHttp
  cases ha : r.args with
  | none => simp
  | some args =>
    simp only
    cases hq : HttpProvider.toHttp lib r args b!"GET" with
    | none => simp
    | some q =>
      cases sv <;> simp [hq]

theorem fill_other (d : Domain) (atts : AMap Bytes Bytes) (k : Bytes) (h1 : k ≠ b!"M_s") (h2 : k ≠ b!"M_g") :
    (fill d atts).load k = atts.load k := by
  unfold fill
  simp only
  repeat' split
  all_goals simp only [AMap.load_store, Ne.symm h1, Ne.symm h2, h1, h2, if_false]

theorem withSource_other (d : Domain) (atts : AMap Bytes Bytes) (k : Bytes) (h : k ≠ b!"M_s") :
    (withSource d atts).load k = atts.load k := by
  unfold withSource
  split
  · exact AMap.load_store_ne _ _ (Ne.symm h)
  · rfl

theorem sent_atts (d : Domain) (atts : AMap Bytes Bytes) (p : Bytes) :
    Spec.CalledWith d atts p (withSource d ((fill d atts).store b!"M_p" p)) := by
  refine ⟨?_, ?_, ?_, ?_⟩
  · rw [withSource_other d _ _ (by decide)]
    exact AMap.load_store_self _ _ _
  · rw [withSource_other d _ _ (by decide), AMap.load_store_ne _ _ (by decide)]
    unfold fill
    simp only
    generalize hx : (if (atts.load b!"M_s").getD [] = [] then _ else atts : AMap Bytes Bytes) = x
    have hg : x.load b!"M_g" = atts.load b!"M_g" := by
      rw [← hx]
      repeat' split
      all_goals first | rfl | exact AMap.load_store_ne _ _ (by decide)
    rw [hg]
    by_cases h0 : (atts.load b!"M_g").getD [] = []
    · rw [if_pos h0, AMap.load_store_self]
      simp [Spec.own, h0]
    · rw [if_neg h0, hg]
      cases hl : atts.load b!"M_g" with
      | none => rw [hl] at h0; exact absurd rfl h0
      | some v => simp_all [Spec.own]
  · have h1 : ∀ x : AMap Bytes Bytes, ((x.store b!"M_p" p).load b!"M_s") = x.load b!"M_s" :=
      fun x => AMap.load_store_ne _ _ (by decide)
    have h2 : (fill d atts).load b!"M_s" =
        if (atts.load b!"M_s").getD [] = [] then
          if (atts.load b!"application").getD [] ≠ [] then some ((atts.load b!"application").getD [])
          else if d.app ≠ [] then some d.app else atts.load b!"M_s"
        else atts.load b!"M_s" := by
      unfold fill
      simp only
      generalize hx : (if (atts.load b!"M_s").getD [] = [] then _ else atts : AMap Bytes Bytes) = x
      have : (if (x.load b!"M_g").getD [] = [] then x.store b!"M_g" d.group else x).load b!"M_s" = x.load b!"M_s" := by
        split
        · exact AMap.load_store_ne _ _ (by decide)
        · rfl
      rw [this, ← hx]
      repeat' split
      all_goals first | rfl | exact AMap.load_store_self _ _ _
    unfold withSource
    rw [h1, h2]
    by_cases ha : (atts.load b!"M_s").getD [] = []
    · simp only [ha, if_true, Spec.own]
      by_cases hb : (atts.load b!"application").getD [] = []
      · by_cases hd : d.app = []
        · simp [hb, hd, ha, AMap.load_store_self]
        · simp [hb, hd, h1, h2, ha]
      · simp [hb, h1, h2, ha]
    · cases hl : atts.load b!"M_s" with
      | none => rw [hl] at ha; exact absurd rfl ha
      | some v =>
        rw [hl] at ha h2
        simp only [Option.getD_some] at ha h2
        simp [Spec.own, ha, h1, h2]
  · intro k hs hg hp
    rw [withSource_other d _ _ hs, AMap.load_store_ne _ _ (Ne.symm hp)]
    exact fill_other d _ k hs hg

end Mesh

open Mesh in
/-- **C68.** What the agent sends by HTTP: one request, to the domain and the path that the caller named, with the arguments of
the caller and the attachments of the caller except for application, group and service; and if a service was called before,
that call found no endpoint. -/
theorem agent_http {E : Type} (lib : HttpProvider.Lib) (name : Bytes) (d : Domain) (s : HttpMesh.St)
    (call : Bytes → AMap Bytes Bytes → Option Convert.Response × List E) (sv : Option HttpProvider.HttpRes)
    (r : HttpProvider.Req) (now : Int) (found : Option (List Bytes)) (host path : Bytes) (q : HttpProvider.HttpReq)
    (h : Out.http host path q ∈ (httpCall lib name d s call sv r now found).2.2.1) :
    host = name ∧ path = r.method ∧
    (∃ args atts, r.args = some args ∧ HttpProvider.toHttp lib { r with attachments := atts } args b!"GET" = some q ∧
      ∀ k, k ∉ [b!"M_s", b!"M_g", b!"M_p"] → atts.load k = r.attachments.load k) ∧
    ((httpCall lib name d s call sv r now found).2.2.1 = [.http host path q] ∨
      ∃ p eps atts resp, (httpCall lib name d s call sv r now found).2.2.1 = [.rpc p eps, .http host path q] ∧
        call p atts = (some resp, eps) ∧ Spec.codeOf resp = some 1001) := by
  unfold httpCall at h ⊢
  simp only at h ⊢
  cases hs : (canServe s name d r.method now found).2.1 with
  | none =>
    rw [hs] at h
    simp only at h ⊢
    rcases (viaHttp_sent (E := E) lib name r sv).1 with h0 | ⟨args, q', h1, h2, h3⟩
    · rw [h0] at h; cases h
    · rw [h3] at h ⊢
      simp only [List.mem_singleton, Out.http.injEq] at h
      obtain ⟨rfl, rfl, rfl⟩ := h
      exact ⟨rfl, rfl, ⟨args, r.attachments, h1, h2, fun _ _ => rfl⟩, .inl rfl⟩
  | some p =>
    rw [hs] at h
    simp only at h ⊢
    split at h
    · simp at h
    · rename_i resp hx
      split at h
      · rename_i hcode
        simp only [hx, hcode, if_true] at h ⊢
        rcases (viaHttp_sent (E := E) lib name { r with attachments := withSource d ((fill d r.attachments).store b!"M_p" p) } sv).1 with
          h0 | ⟨args, q', h1, h2, h3⟩
        · rw [h0] at h; simp at h
        · rw [h3] at h ⊢
          simp only [List.mem_cons, reduceCtorEq, false_or, Out.http.injEq, List.not_mem_nil, or_false] at h
          obtain ⟨rfl, rfl, rfl⟩ := h
          refine ⟨rfl, rfl, ⟨args, _, h1, h2, fun k hk => ?_⟩, .inr ⟨p, _, withSource d ((fill d r.attachments).store b!"M_p" p), resp, rfl, ?_, hcode⟩⟩
          · simp only [List.mem_cons, List.not_mem_nil, or_false, not_or] at hk
            rw [withSource_other d _ k hk.1, AMap.load_store_ne _ _ (Ne.symm hk.2.2)]
            exact fill_other d _ k hk.1 hk.2.1
          · rw [← hx]
      · simp at h

open Mesh in
/-- **C68.** What the agent answers with a response of a service is the response to the only thing it sent: a call of the service with
the attachments of the request and what they lack (`Spec.CalledWith`). -/
theorem agent_answer {E : Type} (lib : HttpProvider.Lib) (name : Bytes) (d : Domain) (s : HttpMesh.St)
    (call : Bytes → AMap Bytes Bytes → Option Convert.Response × List E) (sv : Option HttpProvider.HttpRes)
    (r : HttpProvider.Req) (now : Int) (found : Option (List Bytes)) (resp : Convert.Response)
    (h : (httpCall lib name d s call sv r now found).2.2.2 = .rpc resp) :
    ∃ p eps atts, (httpCall lib name d s call sv r now found).2.2.1 = [.rpc p eps] ∧ call p atts = (some resp, eps) ∧
      Spec.CalledWith d r.attachments p atts ∧ Spec.codeOf resp ≠ some 1001 := by
  unfold httpCall at h ⊢
  simp only at h ⊢
  cases hs : (canServe s name d r.method now found).2.1 with
  | none =>
    rw [hs] at h
    exact absurd h ((viaHttp_sent (E := E) lib name r sv).2 resp)
  | some p =>
    rw [hs] at h
    simp only at h ⊢
    split at h
    · cases h
    · rename_i resp' hx
      split at h
      · exact absurd h ((viaHttp_sent (E := E) lib name _ sv).2 resp)
      · rename_i hcode
        cases h
        simp only [hx, hcode, if_false]
        exact ⟨p, _, withSource d ((fill d r.attachments).store b!"M_p" p), rfl, by rw [← hx], sent_atts d r.attachments p, hcode⟩

/-- **C68.** A client of the mesh sends an HTTP request itself only for a method that is a path, and only if the agent could not
be reached or had no endpoint; otherwise it returns what the agent answered. -/
theorem client_http {E : Type} (lib : HttpProvider.Lib) (service : Bytes) (call : Convert.Response × List E)
    (sv : Option HttpProvider.HttpRes) (rp : HttpMesh.Reply) (r : HttpProvider.Req) :
    ((baseCall lib service call sv rp r).1 = [.rpc service call.2] ∧ (baseCall lib service call sv rp r).2 = .rpc call.1) ∨
    ((47 : UInt8) ∈ r.method ∧ (Spec.codeOf call.1 = some 1001 ∨ Spec.codeOf call.1 = some 1002) ∧
      ((baseCall lib service call sv rp r).1 = [.rpc service call.2] ∨
        ∃ args q, r.args = some args ∧ HttpProvider.toHttp lib r args b!"GET" = some q ∧
          (baseCall lib service call sv rp r).1 = [.rpc service call.2, .http service r.method q])) := by
  unfold baseCall
  split
  · exact .inl ⟨rfl, rfl⟩
  · rename_i hm
    cases he : call.1.exception with
    | none => exact .inl ⟨rfl, rfl⟩
    | some e =>
      simp only
      split
      · rename_i hc
        right
        refine ⟨Classical.not_not.mp hm, ?_, ?_⟩
        · unfold Spec.codeOf
          rw [he]
          simp only [Option.map_some, Option.some.injEq]
          exact hc.symm
        · rcases (Mesh.viaHttp_sent (E := E) lib service r sv).1 with h | ⟨args, q, h1, h2, h3⟩
          · left; simp [h]
          · right; exact ⟨args, q, h1, h2, by simp [h3]⟩
      · exact .inl ⟨rfl, rfl⟩

/-- **C68.** If the agent could not be reached or had no endpoint, a client of the mesh whose method is a path gets an exception exactly if the
request cannot be made an HTTP request or the HTTP exchange fails. -/
theorem client_http_failure {E : Type} (lib : HttpProvider.Lib) (service : Bytes) (call : Convert.Response × List E)
    (sv : Option HttpProvider.HttpRes) (rp : HttpMesh.Reply) (r : HttpProvider.Req) (hm : (47 : UInt8) ∈ r.method)
    (hc : Spec.codeOf call.1 = some 1001 ∨ Spec.codeOf call.1 = some 1002) :
    (baseCall lib service call sv rp r).2 = .error ↔
      sv = none ∨ ∀ args, r.args = some args → HttpProvider.toHttp lib r args b!"GET" = none := by
  unfold Spec.codeOf at hc
  cases he : call.1.exception with
  | none => rw [he] at hc; rcases hc with hc | hc <;> cases hc
  | some e =>
    rw [he] at hc
    simp only [Option.map_some, Option.some.injEq] at hc
    have hcode : e.errCode = eNoChannel ∨ e.errCode = Ha.eNoEndpoints := hc.symm
    simp only [baseCall, if_neg (not_not_intro hm), he, if_pos hcode, viaHttp]
    cases ha : r.args with
    | none => simp
    | some args =>
      cases ht : HttpProvider.toHttp lib r args b!"GET" with
      | none => simp [ht]
      | some q => cases sv <;> cases rp <;> simp [toResponse, ht]

/-- **C68** (false of the code): "the client gets the answer of the HTTP service". It never does: whatever the HTTP server answers, the body is
lost. With a reply that is a byte slice or a string the call panics, and otherwise the response has no value. -/
theorem client_http_body_violated {E : Type} (lib : HttpProvider.Lib) (service : Bytes) (call : Convert.Response × List E)
    (a : HttpProvider.HttpRes) (r : HttpProvider.Req) (args : List HttpProvider.Arg) (q : HttpProvider.HttpReq)
    (hm : (47 : UInt8) ∈ r.method) (hc : Spec.codeOf call.1 = some 1001 ∨ Spec.codeOf call.1 = some 1002)
    (ha : r.args = some args) (hq : HttpProvider.toHttp lib r args b!"GET" = some q) :
    (baseCall lib service call (some a) .bytes r).2 = .panic ∧ (baseCall lib service call (some a) .str r).2 = .panic ∧
    ∃ atts, (baseCall lib service call (some a) .other r).2 = .http none atts := by
  unfold Spec.codeOf at hc
  cases he : call.1.exception with
  | none => rw [he] at hc; rcases hc with hc | hc <;> cases hc
  | some e =>
    rw [he] at hc
    simp only [Option.map_some, Option.some.injEq] at hc
    have hcode : e.errCode = eNoChannel ∨ e.errCode = Ha.eNoEndpoints := hc.symm
    refine ⟨?_, ?_, AMap.storeAll [] a.headers, ?_⟩ <;>
      simp [baseCall, if_neg (not_not_intro hm), he, if_pos hcode, viaHttp, ha, hq, toResponse]

/-- An unreachable agent, a path, an HTTP server that answers "ok": the client panics. -/
example : (baseCall (E := Nat) exHttpLib b!"api.example.com" 
    ({ id := 1, value := none, processTime := 0, attachment := [], exception := some { errCode := 1002, errMsg := b!"no channel", errType := 1 } }, [])
    (some { status := 200, headers := [], body := b!"ok" }) .str
    { requestID := 1, method := b!"/2/users", attachments := [], args := some [], raw := none }).2 = .panic := rfl

/-! ## The clusters of the services -/

namespace Spec

/-- The services asked for by the callers of `getMotanCluster`, in the order of their calls. -/
def asked (ops : List Holders.Op) : List Bytes :=
  ops.filterMap fun o => match o with | .call p => some p | _ => none

end Spec

namespace Mesh

open Spec Holders

/-- What holds of a caller. -/
def PcOk (s : Holders.St) (p : Bytes) : Holders.Pc → Prop
  | .lookup q => q = p
  | .insert q => q = p
  | .peek h => ∃ k, s.holders[h]? = some k ∧ k.service = p
  | .lock h => ∃ k, s.holders[h]? = some k ∧ k.service = p
  | .build h => ∃ k, s.holders[h]? = some k ∧ k.service = p ∧ k.locked = true ∧ k.cluster = none
  | .got c => s.clusters[c]? = some (p, false)

structure HInv (s : Holders.St) (as : List Bytes) : Prop where
  len : s.pcs.length = as.length
  mapped : ∀ p (h : Nat), s.map.load p = some h → ∃ k, s.holders[h]? = some k ∧ k.service = p
  inMap : ∀ (h : Nat) k, s.holders[h]? = some k → s.map.load k.service = some h
  made : ∀ (h : Nat) k c, s.holders[h]? = some k → k.cluster = some c → s.clusters[c]? = some (k.service, false)
  held : ∀ (c : Nat) x, s.clusters[c]? = some x → ∃ (h : Nat) (k : Holders.Holder), s.holders[h]? = some k ∧ k.cluster = some c ∧ k.service = x.1 ∧ x.2 = false
  pcs : ∀ (i : Nat) pc p, s.pcs[i]? = some pc → as[i]? = some p → PcOk s p pc
  one : ∀ (i j : Nat) h, s.pcs[i]? = some (.build h) → s.pcs[j]? = some (.build h) → i = j

theorem HInv.init : HInv {} [] := by
  constructor <;> simp

theorem PcOk.mono {s t : Holders.St} {p : Bytes} {pc : Holders.Pc} (h : PcOk s p pc)
    (hh : ∀ (n : Nat) k, s.holders[n]? = some k → ∃ k', t.holders[n]? = some k' ∧ k'.service = k.service ∧
      (pc = .build n → k'.locked = k.locked ∧ k'.cluster = k.cluster))
    (hc : ∀ (n : Nat) x, s.clusters[n]? = some x → t.clusters[n]? = some x) : PcOk t p pc := by
  cases pc with
  | lookup q => exact h
  | insert q => exact h
  | peek n =>
    obtain ⟨k, h1, h2⟩ := h
    obtain ⟨k', h3, h4, _⟩ := hh n k h1
    exact ⟨k', h3, h4.trans h2⟩
  | lock n =>
    obtain ⟨k, h1, h2⟩ := h
    obtain ⟨k', h3, h4, _⟩ := hh n k h1
    exact ⟨k', h3, h4.trans h2⟩
  | build n =>
    obtain ⟨k, h1, h2, h5, h6⟩ := h
    obtain ⟨k', h3, h4, h7⟩ := hh n k h1
    exact ⟨k', h3, h4.trans h2, (h7 rfl).1.trans h5, (h7 rfl).2.trans h6⟩
  | got c => exact hc c _ h

/-- Only the caller `i` has moved. -/
theorem HInv.move {s : Holders.St} {as : List Bytes} (hI : HInv s as) {i : Nat} {pc : Holders.Pc} (hb : ∀ h, pc ≠ .build h)
    (hp : ∀ p, as[i]? = some p → PcOk s p pc) : HInv (setPc s i pc) as := by
  refine ⟨?_, hI.mapped, hI.inMap, hI.made, hI.held, ?_, ?_⟩
  · simp [setPc, hI.len]
  · intro j pc' p h1 h2
    simp only [setPc, List.getElem?_set] at h1
    split at h1
    · subst i
      split at h1
      · cases h1; exact hp p h2
      · cases h1
    · exact hI.pcs j pc' p h1 h2
  · intro j k h h1 h2
    simp only [setPc, List.getElem?_set] at h1 h2
    have e1 : s.pcs[j]? = some (.build h) := by
      split at h1
      · split at h1
        · cases h1; exact absurd rfl (hb h)
        · cases h1
      · exact h1
    have e2 : s.pcs[k]? = some (.build h) := by
      split at h2
      · split at h2
        · cases h2; exact absurd rfl (hb h)
        · cases h2
      · exact h2
    exact hI.one j k h e1 e2

theorem getElem?_snoc {α : Type} (l : List α) (a : α) (n : Nat) :
    (l ++ [a])[n]? = if n = l.length then some a else l[n]? := by
  rw [List.getElem?_append]
  split
  · rw [if_neg (by omega)]
  · split
    · subst n; simp
    · rw [List.getElem?_eq_none (by simp; omega), List.getElem?_eq_none (by omega)]

theorem HInv.step {s t : Holders.St} {as : List Bytes} {op : Holders.Op} (hI : HInv s as) (hnd : op ≠ .destroy)
    (hs : Holders.step s op = some t) : HInv t (as ++ asked [op]) := by
  cases op with
  | destroy => exact absurd rfl hnd
  | call p =>
    simp only [Holders.step, Option.some.injEq] at hs
    subst hs
    simp only [asked, List.filterMap_cons, List.filterMap_nil]
    refine ⟨by simp [hI.len], hI.mapped, hI.inMap, hI.made, hI.held, ?_, ?_⟩
    · intro i pc q h1 h2
      simp only [getElem?_snoc] at h1 h2
      rw [← hI.len] at h2
      split at h1
      · rename_i hi
        rw [if_pos hi] at h2
        cases h1
        cases h2
        rfl
      · rename_i hi
        rw [if_neg hi] at h2
        exact hI.pcs i pc q h1 h2
    · intro i j h h1 h2
      simp only [getElem?_snoc] at h1 h2
      split at h1
      · cases h1
      · split at h2
        · cases h2
        · exact hI.one i j h h1 h2
  | go i =>
    simp only [asked, List.filterMap_cons, List.filterMap_nil, List.append_nil]
    simp only [Holders.step] at hs
    cases hpc : s.pcs[i]? with
    | none => rw [hpc] at hs; cases hs
    | some pc =>
      rw [hpc] at hs
      have hok := fun p hp => hI.pcs i pc p hpc hp
      cases pc with
      | lookup q =>
        simp only at hs
        split at hs
        · rename_i h hl
          cases hs
          refine hI.move (by simp) fun p hp => ?_
          have : q = p := hok p hp
          subst this
          exact hI.mapped q h hl
        · cases hs
          exact hI.move (by simp) fun p hp => hok p hp
      | insert q =>
        simp only at hs
        split at hs
        · rename_i h hl
          cases hs
          refine hI.move (by simp) fun p hp => ?_
          have : q = p := hok p hp
          subst this
          exact hI.mapped q h hl
        · rename_i hl
          cases hs
          have hI' : HInv { s with map := s.map.store q s.holders.length, holders := s.holders ++ [{ service := q }] } as := by
            refine ⟨hI.len, ?_, ?_, ?_, ?_, ?_, hI.one⟩
            · intro p h h1
              simp only [AMap.load_store] at h1
              split at h1
              · rename_i hq
                cases h1
                exact ⟨{ service := q }, by simp only [getElem?_snoc, if_true], hq⟩
              · obtain ⟨k, h2, h3⟩ := hI.mapped p h h1
                refine ⟨k, ?_, h3⟩
                have := (List.getElem?_eq_some_iff.mp h2).1
                simp only [getElem?_snoc]
                rw [if_neg (by omega)]
                exact h2
            · intro h k h1
              simp only [getElem?_snoc] at h1
              simp only [AMap.load_store]
              split at h1
              · cases h1
                simp only [if_true]
                congr 1
                omega
              · have := hI.inMap h k h1
                split
                · rename_i hq
                  rw [← hq, hl] at this
                  cases this
                · exact this
            · intro h k c h1 h2
              simp only [getElem?_snoc] at h1
              split at h1
              · cases h1; cases h2
              · exact hI.made h k c h1 h2
            · intro c x h1
              obtain ⟨h, k, h2, h3⟩ := hI.held c x h1
              refine ⟨h, k, ?_, h3⟩
              have := (List.getElem?_eq_some_iff.mp h2).1
              simp only [getElem?_snoc]
              rw [if_neg (by omega)]
              exact h2
            · intro j pc p h1 h2
              refine PcOk.mono (hI.pcs j pc p h1 h2) ?_ (fun _ _ h => h)
              intro n k h3
              refine ⟨k, ?_, rfl, fun _ => ⟨rfl, rfl⟩⟩
              have := (List.getElem?_eq_some_iff.mp h3).1
              simp only [getElem?_snoc]
              rw [if_neg (by omega)]
              exact h3
          refine hI'.move (by simp) fun p hp => ?_
          have : q = p := hok p hp
          subst this
          exact ⟨{ service := q }, by simp only [getElem?_snoc, if_true], rfl⟩
      | peek h =>
        simp only at hs
        split at hs
        · rename_i c hc
          cases hs
          obtain ⟨k, h1, h2⟩ := Option.bind_eq_some_iff.mp hc
          refine hI.move (by simp) fun p hp => ?_
          obtain ⟨k', h3, h4⟩ := hok p hp
          rw [h1] at h3
          cases h3
          rw [← h4]
          exact hI.made h k c h1 h2
        · cases hs
          exact hI.move (by simp) fun p hp => hok p hp
      | lock h =>
        simp only at hs
        cases hk : s.holders[h]? with
        | none => rw [hk] at hs; cases hs
        | some k =>
          rw [hk] at hs
          simp only at hs
          split at hs
          · cases hs
          · rename_i hlk
            split at hs
            · rename_i c hc
              cases hs
              refine hI.move (by simp) fun p hp => ?_
              obtain ⟨k', h3, h4⟩ := hok p hp
              rw [hk] at h3
              cases h3
              rw [← h4]
              exact hI.made h k c hk hc
            · rename_i hc
              cases hs
              have hlt := (List.getElem?_eq_some_iff.mp hk).1
              have hget : ∀ n, (s.holders.set h { k with locked := true })[n]? =
                  if n = h then some { k with locked := true } else s.holders[n]? := by
                intro n
                rw [List.getElem?_set]
                by_cases e : h = n
                · simp [e.symm, hlt]
                · simp [e, Ne.symm e]
              have hnob : ∀ (j : Nat), s.pcs[j]? ≠ some (.build h) := by
                intro j hj
                have hjl := (List.getElem?_eq_some_iff.mp hj).1
                rw [hI.len] at hjl
                obtain ⟨k', h3, _, h5, _⟩ := hI.pcs j _ _ hj (List.getElem?_eq_getElem hjl)
                rw [hk] at h3
                cases h3
                exact hlk h5
              refine ⟨by simp [setPc, hI.len], ?_, ?_, ?_, ?_, ?_, ?_⟩
              · intro p n h1
                obtain ⟨k', h2, h3⟩ := hI.mapped p n h1
                simp only [setPc, hget]
                split
                · subst n
                  rw [hk] at h2
                  cases h2
                  exact ⟨_, rfl, h3⟩
                · exact ⟨k', h2, h3⟩
              · intro n k' h1
                simp only [setPc, hget] at h1
                split at h1
                · subst n
                  cases h1
                  exact hI.inMap h k hk
                · exact hI.inMap n k' h1
              · intro n k' c h1 h2
                simp only [setPc, hget] at h1
                split at h1
                · cases h1
                  rw [hc] at h2
                  cases h2
                · exact hI.made n k' c h1 h2
              · intro c x h1
                obtain ⟨n, k', h2, h3⟩ := hI.held c x h1
                refine ⟨n, k', ?_, h3⟩
                simp only [setPc, hget]
                rw [if_neg ?_]
                · exact h2
                · rintro rfl
                  rw [hk] at h2
                  cases h2
                  rw [hc] at h3
                  cases h3.1
              · intro j pc p h1 h2
                simp only [setPc, List.getElem?_set] at h1
                split at h1
                · subst i
                  split at h1
                  · cases h1
                    obtain ⟨k', h3, h4⟩ := hok p h2
                    rw [hk] at h3
                    cases h3
                    exact ⟨{ k with locked := true }, by simp only [setPc, hget, if_true], h4, rfl, hc⟩
                  · cases h1
                · refine PcOk.mono (hI.pcs j pc p h1 h2) ?_ (fun _ _ h => h)
                  intro n k' h3
                  simp only [setPc, hget]
                  split
                  · subst n
                    rw [hk] at h3
                    cases h3
                    refine ⟨_, rfl, rfl, fun hb => ?_⟩
                    rw [hb] at h1
                    exact absurd h1 (hnob j)
                  · exact ⟨k', h3, rfl, fun _ => ⟨rfl, rfl⟩⟩
              · intro j j' n h1 h2
                simp only [setPc, List.getElem?_set] at h1 h2
                split at h1
                · subst i
                  split at h1
                  · cases h1
                    split at h2
                    · assumption
                    · exact absurd h2 (hnob j')
                  · cases h1
                · split at h2
                  · subst i
                    split at h2
                    · cases h2
                      exact absurd h1 (hnob j)
                    · cases h2
                  · exact hI.one j j' n h1 h2
      | build h =>
        simp only at hs
        cases hk : s.holders[h]? with
        | none => rw [hk] at hs; cases hs
        | some k =>
          rw [hk] at hs
          simp only [Option.some.injEq] at hs
          subst hs
          have hlt := (List.getElem?_eq_some_iff.mp hk).1
          have hil := (List.getElem?_eq_some_iff.mp hpc).1
          rw [hI.len] at hil
          obtain ⟨k', hk', hkp, _, hkc⟩ := hok _ (List.getElem?_eq_getElem hil)
          rw [hk] at hk'
          cases hk'
          have hget : ∀ n, (s.holders.set h { k with locked := false, cluster := some s.clusters.length })[n]? =
              if n = h then some { k with locked := false, cluster := some s.clusters.length } else s.holders[n]? := by
            intro n
            rw [List.getElem?_set]
            by_cases e : h = n
            · simp [e.symm, hlt]
            · simp [e, Ne.symm e]
          have hold : ∀ (n : Nat) x, s.clusters[n]? = some x → (s.clusters ++ [(k.service, false)])[n]? = some x := by
            intro n x hx
            have := (List.getElem?_eq_some_iff.mp hx).1
            rw [getElem?_snoc, if_neg (by omega)]
            exact hx
          refine ⟨by simp [setPc, hI.len], ?_, ?_, ?_, ?_, ?_, ?_⟩
          · intro p n h1
            obtain ⟨k', h2, h3⟩ := hI.mapped p n h1
            simp only [setPc, hget]
            split
            · subst n
              rw [hk] at h2
              cases h2
              exact ⟨_, rfl, h3⟩
            · exact ⟨k', h2, h3⟩
          · intro n k' h1
            simp only [setPc, hget] at h1
            split at h1
            · subst n
              cases h1
              exact hI.inMap h k hk
            · exact hI.inMap n k' h1
          · intro n k' c h1 h2
            simp only [setPc, hget] at h1
            split at h1
            · cases h1
              cases h2
              simp only [setPc, getElem?_snoc, if_true]
            · exact hold c _ (hI.made n k' c h1 h2)
          · intro c x h1
            simp only [setPc, getElem?_snoc] at h1
            split at h1
            · cases h1
              subst c
              exact ⟨h, { k with locked := false, cluster := some s.clusters.length }, by simp only [setPc, hget, if_true], rfl, rfl, rfl⟩
            · obtain ⟨n, k', h2, h3⟩ := hI.held c x h1
              refine ⟨n, k', ?_, h3⟩
              simp only [setPc, hget]
              rw [if_neg ?_]
              · exact h2
              · rintro rfl
                rw [hk] at h2
                cases h2
                rw [hkc] at h3
                cases h3.1
          · intro j pc p h1 h2
            simp only [setPc, List.getElem?_set] at h1
            split at h1
            · subst i
              split at h1
              · cases h1
                have : as[j] = p := by
                  rw [List.getElem?_eq_getElem hil] at h2
                  exact Option.some.inj h2
                simp only [PcOk, setPc, getElem?_snoc, if_true]
                rw [hkp, this]
              · cases h1
            · rename_i hij
              refine PcOk.mono (hI.pcs j pc p h1 h2) ?_ hold
              intro n k' h3
              simp only [setPc, hget]
              split
              · subst n
                rw [hk] at h3
                cases h3
                refine ⟨_, rfl, rfl, fun hb => ?_⟩
                rw [hb] at h1
                exact absurd (hI.one i j h hpc h1) hij
              · exact ⟨k', h3, rfl, fun _ => ⟨rfl, rfl⟩⟩
          · intro j j' n h1 h2
            simp only [setPc, List.getElem?_set] at h1 h2
            split at h1
            · split at h1
              · cases h1
              · cases h1
            · split at h2
              · split at h2
                · cases h2
                · cases h2
              · exact hI.one j j' n h1 h2
      | got c => cases hs

theorem HInv.run (ops : List Holders.Op) : ∀ {s t : Holders.St} {as : List Bytes}, HInv s as → .destroy ∉ ops →
    Holders.run s ops = some t → HInv t (as ++ asked ops) := by
  induction ops with
  | nil =>
    intro s t as hI _ h
    cases h
    simpa [asked] using hI
  | cons op ops ih =>
    intro s t as hI hd h
    obtain ⟨u, hu, h⟩ := Option.bind_eq_some_iff.mp h
    have := ih (hI.step (fun e => hd (by simp [e])) hu) (fun e => hd (by simp [e])) h
    rw [List.append_assoc] at this
    have e : asked [op] ++ asked ops = asked (op :: ops) := by
      unfold asked
      rw [← List.filterMap_append]
      rfl
    rwa [e] at this

end Mesh

open Mesh in
/-- **C68.** Whatever the order in which callers ask for the clusters of services, as long as nothing is destroyed: each gets a
cluster of the service it asked for, all that ask for a service get the same one, and no service has two. -/
theorem mesh_one_cluster (ops : List Holders.Op) (s : Holders.St) (hd : .destroy ∉ ops) (hr : Holders.run {} ops = some s) :
    (∀ (i : Nat) c p, s.pcs[i]? = some (.got c) → (Spec.asked ops)[i]? = some p → s.clusters[c]? = some (p, false)) ∧
    (∀ (i j : Nat) c c' p, s.pcs[i]? = some (.got c) → s.pcs[j]? = some (.got c') → (Spec.asked ops)[i]? = some p →
      (Spec.asked ops)[j]? = some p → c = c') ∧
    (∀ (c c' : Nat) x y, s.clusters[c]? = some x → s.clusters[c']? = some y → x.1 = y.1 → c = c') := by
  have hI := HInv.run ops HInv.init hd hr
  simp only [List.nil_append] at hI
  have huniq : ∀ (c c' : Nat) x y, s.clusters[c]? = some x → s.clusters[c']? = some y → x.1 = y.1 → c = c' := by
    intro c c' x y h1 h2 h3
    obtain ⟨h, k, a1, a2, a3, _⟩ := hI.held c x h1
    obtain ⟨h', k', b1, b2, b3, _⟩ := hI.held c' y h2
    have e1 := hI.inMap h k a1
    have e2 := hI.inMap h' k' b1
    rw [a3, h3, ← b3, e2] at e1
    cases e1
    rw [a1] at b1
    cases b1
    rw [a2] at b2
    exact Option.some.inj b2
  refine ⟨fun i c p h1 h2 => hI.pcs i _ p h1 h2, ?_, huniq⟩
  intro i j c c' p h1 h2 h3 h4
  exact huniq c c' _ _ (hI.pcs i _ p h1 h3) (hI.pcs j _ p h2 h4) rfl

/-- **C68 fails in these cases.** `Destroy` while a request is being made: the request goes on with a cluster that was
destroyed; or it makes a cluster that nobody will destroy, also when another request had made one before. -/
theorem mesh_destroy_violated :
    (∃ ops s, Holders.run {} ops = some s ∧ s.pcs[0]? = some (.got 0) ∧ s.clusters[0]? = some (b!"s", true)) ∧
    (∃ ops s, Holders.run {} ops = some s ∧ .destroy ∈ ops ∧ s.map = [] ∧ s.clusters = [(b!"s", false)]) ∧
    (∃ ops s, Holders.run {} ops = some s ∧ .destroy ∈ ops ∧ s.map = [] ∧ s.pcs = [.got 0, .got 1] ∧
      s.clusters = [(b!"s", true), (b!"s", false)]) := by
  refine ⟨⟨[.call b!"s", .go 0, .go 0, .go 0, .go 0, .go 0, .destroy], _, rfl, by decide +kernel, by decide +kernel⟩,
    ⟨[.call b!"s", .go 0, .go 0, .destroy, .go 0, .go 0, .go 0], _, rfl, by simp, by decide +kernel, by decide +kernel⟩,
    ⟨[.call b!"s", .go 0, .go 0, .go 0, .go 0, .go 0, .call b!"s", .go 1, .destroy, .go 1, .go 1, .go 1], _, rfl, by simp,
      by decide +kernel, by decide +kernel, by decide +kernel⟩⟩

/-! ## Examples -/

namespace Mesh.Ex

open Spec

def splitHost (b : Bytes) : Bytes := b.takeWhile (· ≠ 58)

theorem splits : SplitsHost splitHost := by
  intro h p hh _
  unfold splitHost
  induction h with
  | nil => rfl
  | cons a h ih =>
    simp only [List.mem_cons, not_or] at hh
    have ha : a ≠ 58 := fun e => hh.1 e.symm
    simp only [List.cons_append, List.takeWhile_cons, decide_eq_true_eq, ha, ne_eq, not_false_eq_true, if_true]
    rw [ih hh.2]

/-- A domain whose services are discovered, and one whose services are given. -/
def cfg : Cfg :=
  { domains := [(b!"d", { group := b!"g", registry := some b!"zk", preload := [], service := fun p => if p = b!"/a" then b!"s" else [] }),
      (b!"e", { group := b!"g", registry := none, preload := [b!"t"], service := fun _ => b!"t" })], deny := [b!"d:9983"] }

def ok : Convert.Response := { timedOut with exception := none }

def env : Env Nat :=
  { splitHost := splitHost, call := fun _ _ => (ok, [7]), decode := fun _ => some [some b!"h", some b!"b"], http := none }

def lib : HttpProvider.Lib :=
  { norm := id, addArgs := fun q _ => q, readHeader := fun _ => {}, writeHeader := fun _ _ => [], rewrite := fun _ _ => none,
    sprintf := fun a _ => a, validURL := fun _ _ => true }

theorem noClash : NoClash cfg := by
  intro n d n' d' r r' h1 h2 h3 h4 _
  simp only [cfg, List.mem_cons, Prod.mk.injEq, List.not_mem_nil, or_false] at h1 h2
  rcases h1 with ⟨_, rfl⟩ | ⟨_, rfl⟩ <;> rcases h2 with ⟨_, rfl⟩ | ⟨_, rfl⟩
  · simp at h3 h4
    exact ⟨h3.symm.trans h4, rfl⟩
  · simp at h4
  · simp at h3
  · simp at h3

/-- The hypotheses of `mesh_rpc_served` hold of a request that becomes a call, and of one that does not: a service is first
not found, and then found by the discovery an hour later. -/
example : cfg.domains.NodupKeys ∧ NamesHost b!"d:80" b!"d" ∧
    (handle cfg env (HttpMesh.run cfg env lib [.proxy { host := b!"d", path := b!"/a" } 0 (some [])]).1
      { host := b!"d:80", path := b!"/a" } 3600000000000 none).2.2 = ([.http b!"d:80"], .http none) ∧
    (handle cfg env (HttpMesh.run cfg env lib [.proxy { host := b!"d", path := b!"/a" } 0 (some []),
        .proxy { host := b!"d", path := b!"/a" } 3600000000000 none, .work 3600000000001 (some [b!"s"])]).1
      { host := b!"d:80", path := b!"/a" } 3600000000002 none).2.2 = ([.rpc b!"s" [7]], .rpc (some b!"h") (some b!"b")) ∧
    (handle cfg env (start cfg) { host := b!"e", path := b!"/b" } 0 none).2.2 = ([.rpc b!"t" [7]], .rpc (some b!"h") (some b!"b")) :=
  ⟨by unfold AMap.NodupKeys; decide, ⟨by decide, .inr ⟨b!"80", by decide, rfl⟩⟩, by decide +kernel, by decide +kernel, by decide +kernel⟩

/-- Those of `mesh_at_most_once`: an endpoint answers. -/
example : ∃ (u : Url.URL) (att : Bytes → Bytes → Nat → Ha.Attempt Nat),
    Ha.failoverRetries u [] [] = 0 ∧
    (∀ n p ep resp, att n p 0 = .call ep (some resp) → codeOf resp ≠ some 1001) ∧
    (Ha.failoverCall u [] [] 1 (att b!"e" b!"t")).2 = [7] := by
  refine ⟨{}, fun _ _ _ => .call 7 (some ok), by decide +kernel, ?_, by decide +kernel⟩
  intro n p ep resp h
  cases h
  decide

/-- That of `mesh_self_rejected`. -/
example : (handle { cfg with domains := [] } env (start cfg) { host := b!"d:9983", path := b!"/" } 0 none).2.2 = ([], .status 400) := by
  decide +kernel

/-- Those of `agent_http` and `agent_answer`: a path that no service serves, and one that is served. -/
example : (∃ d, cfg.domains.load b!"d" = some d ∧ Out.http b!"d" b!"/x" { method := b!"GET", body := b!"q" } ∈
      (httpCall lib b!"d" d (start cfg) (fun _ _ => (some ok, [7])) none
        { requestID := 1, method := b!"/x", attachments := [], args := some [.str b!"q"], raw := none } 0 none).2.2.1) ∧
    (∃ d resp, cfg.domains.load b!"e" = some d ∧
      (httpCall lib b!"e" d (start cfg) (fun _ _ => (some ok, [7])) none
        { requestID := 1, method := b!"/x", attachments := [], args := some [.str b!"q"], raw := none } 0 none).2.2.2 = .rpc resp) := by
  refine ⟨⟨_, rfl, ?_⟩, ⟨_, ok, rfl, rfl⟩⟩
  exact List.mem_singleton.mpr rfl

/-- Two callers of one service meet, and get one cluster. -/
example : ∃ s, Holders.run {} [.call b!"s", .call b!"s", .go 0, .go 1, .go 1, .go 0, .go 1, .go 0, .go 0, .go 0, .go 1] = some s ∧
    s.pcs = [.got 0, .got 0] ∧ s.clusters = [(b!"s", false)] :=
  ⟨_, rfl, by decide +kernel, by decide +kernel⟩

end Mesh.Ex

end Motan.Props
