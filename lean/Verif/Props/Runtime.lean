import Verif.Model.Runtime
import Verif.Props.Admin
import Verif.Props.ConfUrl
import Verif.Props.EndpointConf

/-!
# C104: the runtime page says what there is, unless one service cannot be passed on
-/

namespace Motan.Props

open Url Runtime

variable {α : Type}

/-! ## Specification -/

/-- A service whose requests are to be passed on, without an endpoint to pass them on to. -/
def Spec.Dangling (p : Prov α) : Prop := ∃ u av, p = .passing u av none

/-- The name of the `i`-th endpoint of a cluster on the page. -/
def Spec.referKey (i : Nat) (e : Refer α) : Bytes := natDigits i ++ b!"-" ++ (getIdentity e.url).1

/-- What a provider says of itself, on the page. -/
def Spec.TellsOf (w : Wrapped α) (i : ProvInfo α) : Prop :=
  i.filters = w.filters ∧
    match w.prov with
    | .passing u av ep =>
      i.name = none ∧ i.url = u.map (fun u => (toExtInfo u).1) ∧ i.available = some av ∧ i.endpoint = ep ∧ ep.isSome = true
    | .other n u => i.name = n ∧ i.url = u.map (fun u => (toExtInfo u).1) ∧ i.available = none ∧ i.endpoint = none

/-! ## Clusters -/

theorem referKey_inj {i j : Nat} {e e' : Refer α} (h : Spec.referKey i e = Spec.referKey j e') : i = j := by
  unfold Spec.referKey at h
  have hd : ∀ n : Nat, (45 : UInt8) ∉ natDigits n := fun n hm => by
    have := natDigits_digit n _ hm
    revert this
    decide
  rw [List.append_assoc, List.append_assoc] at h
  exact natDigits_inj (append_sep_inj h (hd i) (hd j)).1

theorem referKey_eq (i : Nat) (e : Refer α) : formatInt i ++ b!"-" ++ (getIdentity e.url).1 = Spec.referKey i e := by
  unfold Spec.referKey formatInt
  rw [if_neg (by omega)]
  rfl

theorem refersInfo_load (b : Bool) : ∀ (es : List (Refer α)) (i : Nat) (m : AMap Bytes α × AMap Bytes α) (k : Bytes) (x : α),
    AMap.load (if b then (refersInfo i es m).1 else (refersInfo i es m).2) k = some x ↔
      (∃ j e, es[j]? = some e ∧ e.available = b ∧ k = Spec.referKey (i + j) e ∧ x = e.says) ∨
      ((∀ j e, es[j]? = some e → e.available = b → k ≠ Spec.referKey (i + j) e) ∧ AMap.load (if b then m.1 else m.2) k = some x)
  | [], i, m, k, x => by simp [refersInfo]
  | e :: es, i, m, k, x => by
    unfold refersInfo
    dsimp only
    rw [refersInfo_load b es (i + 1), referKey_eq]
    have hsh : ∀ j, i + 1 + j = i + (j + 1) := fun j => by omega
    have hm : AMap.load (if b then (if e.available then (AMap.store m.1 (Spec.referKey i e) e.says, m.2) else (m.1, AMap.store m.2 (Spec.referKey i e) e.says)).1
        else (if e.available then (AMap.store m.1 (Spec.referKey i e) e.says, m.2) else (m.1, AMap.store m.2 (Spec.referKey i e) e.says)).2) k =
        if e.available = b ∧ Spec.referKey i e = k then some e.says else AMap.load (if b then m.1 else m.2) k := by
      cases b <;> cases e.available <;> simp [AMap.load_store]
    rw [hm]
    constructor
    · rintro (⟨j, f, h1, h2, h3, h4⟩ | ⟨h1, h2⟩)
      · exact .inl ⟨j + 1, f, by simpa using h1, h2, by rw [h3, hsh], h4⟩
      · split at h2
        · rename_i hc
          exact .inl ⟨0, e, rfl, hc.1, hc.2.symm, by simpa using h2.symm⟩
        · rename_i hc
          refine .inr ⟨fun j f hf hb hk => ?_, h2⟩
          cases j with
          | zero => simp only [List.getElem?_cons_zero, Option.some.injEq] at hf; subst hf; exact hc ⟨hb, hk.symm⟩
          | succ j => exact h1 j f (by simpa using hf) hb (by rw [hk, hsh])
    · rintro (⟨j, f, h1, h2, h3, h4⟩ | ⟨h1, h2⟩)
      · cases j with
        | zero =>
          simp only [List.getElem?_cons_zero, Option.some.injEq] at h1
          subst h1
          refine .inr ⟨fun j f _ _ hk => ?_, by rw [if_pos ⟨h2, h3.symm⟩, h4]⟩
          have := referKey_inj (h3.symm.trans hk)
          omega
        | succ j => exact .inl ⟨j, f, by simpa using h1, h2, by rw [h3, hsh], h4⟩
      · refine .inr ⟨fun j f hf hb hk => h1 (j + 1) f (by simpa using hf) hb (by rw [hk, hsh]), ?_⟩
        rw [if_neg fun hc => h1 0 e rfl hc.1 hc.2.symm]
        exact h2

/-- C104: a cluster lists each of its endpoints under its number and identity, with what it says, among the available ones if it is
available and among the others if not, and lists nothing else there. -/
theorem cluster_refers (c : Runtime.Cluster α) (k : Bytes) (x : α) :
    (AMap.load (clusterInfo c).available k = some x ↔
      ∃ i e, c.refers[i]? = some e ∧ e.available = true ∧ k = Spec.referKey i e ∧ x = e.says) ∧
    (AMap.load (clusterInfo c).unavailable k = some x ↔
      ∃ i e, c.refers[i]? = some e ∧ e.available = false ∧ k = Spec.referKey i e ∧ x = e.says) := by
  have h1 := refersInfo_load true c.refers 0 ([], []) k x
  have h2 := refersInfo_load false c.refers 0 ([], []) k x
  simp only [Nat.zero_add, if_true, AMap.load_nil, reduceCtorEq, and_false, or_false, Bool.false_eq_true, if_false] at h1 h2
  exact ⟨h1, h2⟩

theorem load_store_length {m : AMap Bytes α} {k : Bytes} (v : α) (h : AMap.load m k = none) : (AMap.store m k v).length = m.length + 1 := by
  induction m with
  | nil => rfl
  | cons p m ih =>
    rw [AMap.load_cons] at h
    unfold AMap.store
    split at h
    · cases h
    · rename_i hne
      rw [if_neg hne]
      simp [ih h]

theorem refersInfo_length : ∀ (es : List (Refer α)) (i : Nat) (m : AMap Bytes α × AMap Bytes α)
    (_ : ∀ j e, i ≤ j → AMap.load m.1 (Spec.referKey j e) = none ∧ AMap.load m.2 (Spec.referKey j (e : Refer α)) = none),
    (refersInfo i es m).1.length + (refersInfo i es m).2.length = m.1.length + m.2.length + es.length
  | [], i, m, _ => by simp [refersInfo]
  | e :: es, i, m, h => by
    unfold refersInfo
    dsimp only
    rw [referKey_eq]
    have h0 := h i e (Nat.le_refl _)
    have hne : ∀ j (f : Refer α), i + 1 ≤ j → Spec.referKey i e ≠ Spec.referKey j f := fun j f hj hk => by
      have := referKey_inj hk
      omega
    rw [refersInfo_length es (i + 1)]
    · split
      · simp only [load_store_length e.says h0.1, List.length_cons]; omega
      · simp only [load_store_length e.says h0.2, List.length_cons]; omega
    · intro j f hj
      have hf := h j f (by omega)
      split
      · exact ⟨by rw [AMap.load_store_ne _ _ (hne j f hj)]; exact hf.1, hf.2⟩
      · exact ⟨hf.1, by rw [AMap.load_store_ne _ _ (hne j f hj)]; exact hf.2⟩

/-- C104: every endpoint of a cluster is listed exactly once; their number is given. -/
theorem cluster_size (c : Runtime.Cluster α) :
    (clusterInfo c).available.length + (clusterInfo c).unavailable.length = c.refers.length ∧
      (clusterInfo c).refererSize = c.refers.length := by
  refine ⟨?_, rfl⟩
  have := refersInfo_length c.refers 0 ([], []) fun _ _ _ => ⟨rfl, rfl⟩
  show (refersInfo 0 c.refers ([], [])).1.length + (refersInfo 0 c.refers ([], [])).2.length = _
  simpa using this

theorem foldl_store_last (ps : List (URL × α)) (m : AMap Bytes α) (k : Bytes) :
    AMap.load (ps.foldl (fun m p => AMap.store m (getIdentity p.1).1 p.2) m) k =
      match (ps.filter fun p => (getIdentity p.1).1 = k).getLast? with
      | some p => some p.2
      | none => AMap.load m k := by
  induction ps generalizing m with
  | nil => rfl
  | cons p ps ih =>
    rw [List.foldl_cons, ih, List.filter_cons]
    by_cases hk : (getIdentity p.1).1 = k
    · simp only [hk, decide_true, if_true]
      cases hf : (ps.filter fun p => (getIdentity p.1).1 = k) with
      | nil => simp [AMap.load_store]
      | cons q qs =>
        rw [List.getLast?_cons_cons]
        cases hl : (q :: qs).getLast? with
        | none => simp at hl
        | some r => rfl
    · simp only [hk, decide_false, Bool.false_eq_true, if_false]
      rw [AMap.load_store_ne _ _ hk]

/-- C104: the rest of what a cluster says: its name, its URL, its filters in order, and its registries by their identities. -/
theorem cluster_rest (c : Runtime.Cluster α) :
    (clusterInfo c).name = c.name ∧ (clusterInfo c).url = c.url.map (fun u => (toExtInfo u).1) ∧
      (clusterInfo c).filters = c.filters ∧ (clusterInfo c).clusterFilters = c.clusterFilters ∧
      ((c.registries.map fun p => (getIdentity p.1).1).Nodup → ∀ id x,
        AMap.load (clusterInfo c).registries id = some x ↔ ∃ u, (u, x) ∈ c.registries ∧ (getIdentity u).1 = id) := by
  refine ⟨rfl, rfl, rfl, rfl, fun hn id x => ?_⟩
  show AMap.load (c.registries.foldl (fun m p => AMap.store m (getIdentity p.1).1 p.2) []) id = some x ↔ _
  rw [foldl_store_last]
  constructor
  · intro h
    split at h
    · rename_i p hp
      have := List.mem_of_getLast? hp
      rw [List.mem_filter] at this
      simp only [decide_eq_true_eq] at this
      simp only [Option.some.injEq] at h
      exact ⟨p.1, by rw [← h]; exact this.1, this.2⟩
    · simp at h
  · rintro ⟨u, hu, hid⟩
    have hone : (c.registries.filter fun p => (getIdentity p.1).1 = id) = [(u, x)] := by
      generalize c.registries = l at hn hu
      induction l with
      | nil => cases hu
      | cons p l ih =>
        simp only [List.map_cons, List.nodup_cons] at hn
        rcases List.mem_cons.1 hu with e | hu
        · subst e
          rw [List.filter_cons, if_pos (by simp [hid])]
          congr 1
          rw [List.filter_eq_nil_iff]
          intro q hq hqid
          simp only [decide_eq_true_eq] at hqid
          exact hn.1 (List.mem_map.2 ⟨q, hq, by rw [hqid, hid]⟩)
        · rw [List.filter_cons, if_neg, ih hn.2 hu]
          simp only [decide_eq_true_eq]
          intro hpid
          exact hn.1 (List.mem_map.2 ⟨(u, x), hu, by rw [hpid, hid]⟩)
    rw [hone]
    rfl

/-! ## Services -/

theorem provInfo_none (p : Prov α) : provInfo p = none ↔ Spec.Dangling p := by
  cases p with
  | passing u av ep =>
    cases ep with
    | none => exact ⟨fun _ => ⟨u, av, rfl⟩, fun _ => rfl⟩
    | some a => exact ⟨fun h => by simp [provInfo] at h, fun ⟨_, _, h⟩ => by cases h⟩
  | other n u => exact ⟨fun h => by simp [provInfo] at h, fun ⟨_, _, h⟩ => by cases h⟩

theorem wrappedInfo_none (w : Wrapped α) : wrappedInfo w = none ↔ Spec.Dangling w.prov := by
  unfold wrappedInfo
  rw [Option.map_eq_none_iff, provInfo_none]

theorem wrappedInfo_tells {w : Wrapped α} {i : ProvInfo α} (h : wrappedInfo w = some i) : Spec.TellsOf w i := by
  unfold wrappedInfo at h
  obtain ⟨j, hj, e⟩ := Option.map_eq_some_iff.1 h
  have hf : i.filters = w.filters ∧ i = { j with filters := w.filters } := by
    split at e
    · exact ⟨by rw [← e], e.symm⟩
    · rename_i hl
      have hnil : w.filters = [] := by
        cases hw : w.filters with
        | nil => rfl
        | cons a l => rw [hw] at hl; simp at hl
      have hjf : j.filters = [] := by
        cases hp : w.prov with
        | passing u av ep => rw [hp] at hj; cases ep <;> simp [provInfo] at hj; rw [← hj]
        | other n u => rw [hp] at hj; simp [provInfo] at hj; rw [← hj]
      refine ⟨by rw [← e, hjf, hnil], ?_⟩
      rw [← e, hnil, ← hjf]
  refine ⟨hf.1, ?_⟩
  cases hp : w.prov with
  | passing u av ep =>
    rw [hp] at hj
    cases ep with
    | none => simp [provInfo] at hj
    | some a =>
      simp only [provInfo, Option.some.injEq] at hj
      rw [hf.2, ← hj]
      exact ⟨rfl, rfl, rfl, rfl, rfl⟩
  | other n u =>
    rw [hp] at hj
    simp only [provInfo, Option.some.injEq] at hj
    rw [hf.2, ← hj]
    exact ⟨rfl, rfl, rfl, rfl⟩

theorem askAll_spec {κ ν μ : Type} [DecidableEq κ] (f : ν → Option μ) : ∀ m : AMap κ ν,
    (askAll f m = none ↔ ∃ p ∈ m, f p.2 = none) ∧
      ∀ r, askAll f m = some r → AMap.keys r = AMap.keys m ∧ ∀ k, AMap.load r k = (AMap.load m k).bind f
  | [] => ⟨by simp [askAll], fun r h => by simp only [askAll, Option.some.injEq] at h; subst h; exact ⟨rfl, fun _ => rfl⟩⟩
  | (k, v) :: m => by
    obtain ⟨h1, h2⟩ := askAll_spec f m
    unfold askAll
    cases hv : f v with
    | none => exact ⟨⟨fun _ => ⟨(k, v), List.mem_cons_self .., hv⟩, fun _ => rfl⟩, fun r h => by cases h⟩
    | some x =>
      refine ⟨?_, fun r h => ?_⟩
      · simp only [Option.bind_some, Option.map_eq_none_iff]
        rw [h1]
        constructor
        · rintro ⟨p, hp, h⟩; exact ⟨p, List.mem_cons_of_mem _ hp, h⟩
        · rintro ⟨p, hp, h⟩
          rcases List.mem_cons.1 hp with e | hp
          · subst e; rw [hv] at h; cases h
          · exact ⟨p, hp, h⟩
      · simp only [Option.bind_some] at h
        obtain ⟨r', hr, e⟩ := Option.map_eq_some_iff.1 h
        subst e
        obtain ⟨hk, hl⟩ := h2 r' hr
        refine ⟨by simp only [AMap.keys, List.map_cons] at hk ⊢; rw [hk], fun k' => ?_⟩
        rw [AMap.load_cons, AMap.load_cons]
        split
        · simp [hv]
        · exact hl k'

/-! ## The page -/

/-- An agent one of whose services, among those a key shows, cannot be passed on; or whose servers are not set. -/
inductive Spec.CannotSay (a : Agent α) : Bytes → Prop
  | service {p : Bytes × Exporter α} (h : p ∈ a.exporters) (hd : Spec.Dangling p.2.prov.prov) : Spec.CannotSay a b!"exporters"
  | starting (h : a.server = none) : Spec.CannotSay a b!"servers"
  | noHttp (h : a.http = none) : Spec.CannotSay a b!"servers"
  | own {s : Server α} {ps : AMap Bytes (Wrapped α)} {q : Bytes × Wrapped α} (h : a.server = some s) (hp : s.providers = some ps)
      (hq : q ∈ ps) (hd : Spec.Dangling q.2.prov) : Spec.CannotSay a b!"servers"
  | port {p : Int × Server α} {ps : AMap Bytes (Wrapped α)} {q : Bytes × Wrapped α} (h : p ∈ a.ports) (hp : p.2.providers = some ps)
      (hq : q ∈ ps) (hd : Spec.Dangling q.2.prov) : Spec.CannotSay a b!"servers"

theorem serverInfo_none (s : Server α) : serverInfo s = none ↔ ∃ ps, s.providers = some ps ∧ ∃ q ∈ ps, Spec.Dangling q.2.prov := by
  unfold serverInfo
  rw [Option.map_eq_none_iff]
  cases h : s.providers with
  | none => simp
  | some ps =>
    simp only [Option.map_eq_none_iff, (askAll_spec wrappedInfo ps).1, wrappedInfo_none, Option.some.injEq]
    constructor
    · intro h; exact ⟨ps, rfl, h⟩
    · rintro ⟨_, e, h⟩; rw [e]; exact h

theorem serversInfo_none (a : Agent α) : serversInfo a = none ↔ Spec.CannotSay a b!"servers" := by
  unfold serversInfo
  constructor
  · intro h
    cases hs : a.server with
    | none => exact .starting hs
    | some s =>
      rw [hs] at h
      dsimp only at h
      cases hsi : serverInfo s with
      | none =>
        obtain ⟨ps, hp, q, hq, hd⟩ := (serverInfo_none s).1 hsi
        exact .own hs hp hq hd
      | some si =>
        rw [hsi, Option.bind_some] at h
        cases hps : askAll serverInfo a.ports with
        | none =>
          obtain ⟨p, hp, hn⟩ := (askAll_spec serverInfo a.ports).1.1 hps
          obtain ⟨ps, hp', q, hq, hd⟩ := (serverInfo_none p.2).1 hn
          exact .port hp hp' hq hd
        | some ps =>
          rw [hps, Option.bind_some] at h
          cases hh : a.http with
          | none => exact .noHttp hh
          | some x => rw [hh] at h; cases h
  · intro h
    generalize hk : (b!"servers" : Bytes) = key at h
    cases h with
    | service h hd => exact absurd hk (by decide)
    | starting h => rw [h]
    | noHttp h =>
      cases a.server with
      | none => rfl
      | some s =>
        dsimp only
        cases serverInfo s with
        | none => rfl
        | some si =>
          cases askAll serverInfo a.ports with
          | none => rfl
          | some ps => simp [h]
    | own h hp hq hd =>
      rw [h]
      dsimp only
      rw [(serverInfo_none _).2 ⟨_, hp, _, hq, hd⟩]
      rfl
    | port h hp hq hd =>
      cases a.server with
      | none => rfl
      | some s =>
        dsimp only
        cases serverInfo s with
        | none => rfl
        | some si =>
          rw [(askAll_spec serverInfo a.ports).1.2 ⟨_, h, (serverInfo_none _).2 ⟨_, hp, _, hq, hd⟩⟩]
          rfl

theorem parts_panic (a : Agent α) (k : Bytes) : Spec.PartOf (parts a) k none ↔ Spec.CannotSay a k := by
  constructor
  · intro h
    generalize ho : none = o at h
    cases h with
    | clusters => simp [parts] at ho
    | httpClusters => simp [parts] at ho
    | exporters =>
      have : askAll exporterInfo a.exporters = none := by
        have := ho.symm
        simpa [parts] using this
      obtain ⟨p, hp, hn⟩ := (askAll_spec exporterInfo a.exporters).1.1 this
      unfold exporterInfo at hn
      rw [Option.map_eq_none_iff, wrappedInfo_none] at hn
      exact .service hp hn
    | servers =>
      refine (serversInfo_none a).1 ?_
      have := ho.symm
      simpa [parts] using this
    | extensionFactory => simp [parts] at ho
    | basic => simp [parts] at ho
  · intro h
    have hserv : Spec.CannotSay a b!"servers" → Spec.PartOf (parts a) b!"servers" none := fun h => by
      have : (parts a).servers = none := by
        show (serversInfo a).map _ = none
        rw [(serversInfo_none a).2 h]
        rfl
      rw [← this]
      exact .servers
    cases h with
    | service h hd =>
      have : (parts a).exporters = none := by
        show (askAll exporterInfo a.exporters).map _ = none
        rw [(askAll_spec exporterInfo a.exporters).1.2 ⟨_, h, ?_⟩]
        · rfl
        · unfold exporterInfo; rw [(wrappedInfo_none _).2 hd]; rfl
      rw [← this]
      exact .exporters
    | starting h => exact hserv (.starting h)
    | noHttp h => exact hserv (.noHttp h)
    | own h hp hq hd => exact hserv (.own h hp hq hd)
    | port h hp hq hd => exact hserv (.port h hp hq hd)

/-- C104: the page is given, unless the servers are asked for before they are set, or a service is shown whose requests are to be passed
on and that has no endpoint for it. -/
theorem page_fails (a : Agent α) (keys : Bytes) :
    Runtime.answer a b!"/runtime/info" keys = .failed ↔ ∃ k, Spec.AskedKey keys k ∧ Spec.CannotSay a k := by
  have h := runtime_given (parts a) keys
  simp only [parts_panic] at h
  rw [← h]
  unfold Runtime.answer
  cases hr : Admin.runtimeInfo (parts a) b!"/runtime/info" keys with
  | none => simp
  | some o => cases o <;> simp

theorem page_part {a : Agent α} {keys : Bytes} {m : AMap Bytes (Admin.Value (Said α))}
    (h : Runtime.answer a b!"/runtime/info" keys = .page m) {k : Bytes} (hk : Spec.AskedKey keys k) {s : Said α}
    (hs : Spec.PartOf (parts a) k (some (some s))) : AMap.load m k = some (.info s) := by
  unfold Runtime.answer at h
  cases hr : Admin.runtimeInfo (parts a) b!"/runtime/info" keys with
  | none => rw [hr] at h; cases h
  | some o =>
    cases o with
    | none => rw [hr] at h; cases h
    | some m' =>
      rw [hr] at h
      cases h
      exact (runtime_page (parts a) keys m hr k).2.2.1 (some s) hk hs

/-- C104: a page on which clusters are asked for has every cluster and no other, with what it says. -/
theorem page_clusters {a : Agent α} {keys : Bytes} {m : AMap Bytes (Admin.Value (Said α))}
    (h : Runtime.answer a b!"/runtime/info" keys = .page m) (hk : Spec.AskedKey keys b!"clusters") :
    ∃ cs, AMap.load m b!"clusters" = some (.info (.clusters cs)) ∧
      ∀ id, AMap.load cs id = (AMap.load a.clusters id).map clusterInfo := by
  refine ⟨_, page_part h hk (s := .clusters (a.clusters.map fun p => (p.1, clusterInfo p.2))) .clusters, fun id => ?_⟩
  induction a.clusters with
  | nil => rfl
  | cons p l ih =>
    rw [List.map_cons, AMap.load_cons]
    obtain ⟨x, y⟩ := p
    rw [AMap.load_cons]
    split
    · rfl
    · exact ih

/-- C104: a page on which exporters are asked for has every exported service and no other, with its URL, whether it is available, and
what its provider says, its filters among it. -/
theorem page_exporters {a : Agent α} {keys : Bytes} {m : AMap Bytes (Admin.Value (Said α))}
    (h : Runtime.answer a b!"/runtime/info" keys = .page m) (hk : Spec.AskedKey keys b!"exporters") :
    ∃ es, AMap.load m b!"exporters" = some (.info (.exporters es)) ∧
      (∀ id, AMap.load es id = none ↔ AMap.load a.exporters id = none) ∧
      ∀ id e i, AMap.load a.exporters id = some e → AMap.load es id = some i →
        i.url = e.url.map (fun u => (toExtInfo u).1) ∧ i.available = e.available ∧ Spec.TellsOf e.prov i.provider := by
  cases hx : askAll exporterInfo a.exporters with
  | none =>
    have hp : Spec.PartOf (parts a) b!"exporters" none := by
      have : (parts a).exporters = none := by show (askAll exporterInfo a.exporters).map _ = none; rw [hx]; rfl
      rw [← this]; exact .exporters
    have := (page_fails a keys).2 ⟨_, hk, (parts_panic a _).1 hp⟩
    rw [h] at this
    cases this
  | some es =>
    have hp : (parts a).exporters = some (some (.exporters es)) := by
      show (askAll exporterInfo a.exporters).map _ = _; rw [hx]; rfl
    obtain ⟨hkeys, hl⟩ := (askAll_spec exporterInfo a.exporters).2 es hx
    refine ⟨es, page_part h hk (by rw [← hp]; exact .exporters), fun id => ?_, fun id e i he hi => ?_⟩
    · rw [AMap.load_eq_none, AMap.load_eq_none, hkeys]
    · rw [hl, he, Option.bind_some] at hi
      unfold exporterInfo at hi
      obtain ⟨p, hp, e'⟩ := Option.map_eq_some_iff.1 hi
      rw [← e']
      exact ⟨rfl, rfl, wrappedInfo_tells hp⟩

/-- What a server says of itself, on the page. -/
def Spec.ServerTells (s : Server α) (i : ServerInfo α) : Prop :=
  i.proxy = s.proxy ∧ i.maxContentLength = s.maxContentLength ∧ i.heartbeat = s.heartbeat ∧
    i.url = s.url.map (fun u => (toExtInfo u).1) ∧ i.handler = s.handler ∧
    match s.providers, i.providers with
    | none, none => True
    | some ps, some is =>
      (∀ path, AMap.load is path = none ↔ AMap.load ps path = none) ∧
        ∀ path w x, AMap.load ps path = some w → AMap.load is path = some x → Spec.TellsOf w x
    | _, _ => False

theorem serverInfo_tells {s : Server α} {i : ServerInfo α} (h : serverInfo s = some i) : Spec.ServerTells s i := by
  unfold serverInfo at h
  obtain ⟨ps, hps, e⟩ := Option.map_eq_some_iff.1 h
  subst e
  refine ⟨rfl, rfl, rfl, rfl, rfl, ?_⟩
  cases hp : s.providers with
  | none =>
    rw [hp] at hps
    simp only [Option.some.injEq] at hps
    rw [← hps]
    trivial
  | some m =>
    rw [hp] at hps
    dsimp only at hps
    obtain ⟨is, his, e⟩ := Option.map_eq_some_iff.1 hps
    rw [← e]
    obtain ⟨hk, hl⟩ := (askAll_spec wrappedInfo m).2 is his
    refine ⟨fun path => by rw [AMap.load_eq_none, AMap.load_eq_none, hk], fun path w x hw hx => ?_⟩
    rw [hl, hw, Option.bind_some] at hx
    exact wrappedInfo_tells hx

theorem askAll_mem {κ ν μ : Type} [DecidableEq κ] {f : ν → Option μ} : ∀ {m : AMap κ ν} {r : AMap κ μ}, askAll f m = some r → ∀ k x,
    (k, x) ∈ r ↔ ∃ v, (k, v) ∈ m ∧ f v = some x
  | [], r, h, k, x => by simp only [askAll, Option.some.injEq] at h; subst h; simp
  | (k', v) :: m, r, h, k, x => by
    unfold askAll at h
    cases hv : f v with
    | none => rw [hv] at h; cases h
    | some y =>
      rw [hv, Option.bind_some] at h
      obtain ⟨r', hr, e⟩ := Option.map_eq_some_iff.1 h
      subst e
      have ih := askAll_mem hr k x
      rw [List.mem_cons, ih]
      constructor
      · rintro (e | ⟨w, hw, hx⟩)
        · cases e; exact ⟨v, List.mem_cons_self .., hv⟩
        · exact ⟨w, List.mem_cons_of_mem _ hw, hx⟩
      · rintro ⟨w, hw, hx⟩
        rcases List.mem_cons.1 hw with e | hw
        · cases e; rw [hv] at hx; cases hx; exact .inl rfl
        · exact .inr ⟨w, hw, hx⟩

/-- C104: a page on which servers are asked for has the agent's own server, the HTTP proxy, and for every other port, written in decimal,
its server with the services it serves, and no other. -/
theorem page_servers {a : Agent α} {keys : Bytes} {m : AMap Bytes (Admin.Value (Said α))}
    (h : Runtime.answer a b!"/runtime/info" keys = .page m) (hk : Spec.AskedKey keys b!"servers") :
    ∃ s, AMap.load m b!"servers" = some (.info (.servers s)) ∧ (∃ own, a.server = some own ∧ Spec.ServerTells own s.agent) ∧
      a.http = some s.http ∧
      (∀ name i, (name, i) ∈ s.ports → ∃ port v, (port, v) ∈ a.ports ∧ name = formatInt port ∧ Spec.ServerTells v i) ∧
      ∀ port v, (port, v) ∈ a.ports → ∃ i, (formatInt port, i) ∈ s.ports ∧ Spec.ServerTells v i := by
  cases hx : serversInfo a with
  | none =>
    have := (page_fails a keys).2 ⟨_, hk, (serversInfo_none a).1 hx⟩
    rw [h] at this
    cases this
  | some s =>
    have hp : (parts a).servers = some (some (.servers s)) := by
      show (serversInfo a).map _ = _; rw [hx]; rfl
    refine ⟨s, page_part h hk (by rw [← hp]; exact .servers), ?_⟩
    unfold serversInfo at hx
    cases hs : a.server with
    | none => rw [hs] at hx; cases hx
    | some own =>
      rw [hs] at hx
      dsimp only at hx
      obtain ⟨si, hsi, hx⟩ := Option.bind_eq_some_iff.1 hx
      obtain ⟨ps, hps, hx⟩ := Option.bind_eq_some_iff.1 hx
      cases hh : a.http with
      | none => rw [hh] at hx; cases hx
      | some ht =>
        rw [hh] at hx
        cases hx
        refine ⟨⟨own, rfl, serverInfo_tells hsi⟩, rfl, fun name i hi => ?_, fun port v hv => ?_⟩
        · obtain ⟨q, hq, e⟩ := List.mem_map.1 hi
          cases e
          obtain ⟨v, hv, hf⟩ := (askAll_mem hps q.1 q.2).1 hq
          exact ⟨q.1, v, hv, rfl, serverInfo_tells hf⟩
        · cases hf : serverInfo v with
          | none =>
            have := (askAll_spec serverInfo a.ports).1.2 ⟨_, hv, hf⟩
            rw [hps] at this
            cases this
          | some i =>
            exact ⟨i, List.mem_map.2 ⟨(port, i), (askAll_mem hps port i).2 ⟨v, hv, hf⟩, rfl⟩, serverInfo_tells hf⟩

/-- C104: the other parts: the HTTP clusters by domain with their names and URLs, the registries of the extension factory, start time and load. -/
theorem page_others {a : Agent α} {keys : Bytes} {m : AMap Bytes (Admin.Value (Said α))}
    (h : Runtime.answer a b!"/runtime/info" keys = .page m) :
    (Spec.AskedKey keys b!"httpClusters" → ∃ hs, AMap.load m b!"httpClusters" = some (.info (.httpClusters hs)) ∧
      ∀ d, AMap.load hs d = (AMap.load a.httpClusters d).map fun p => (p.1, p.2.map fun u => (toExtInfo u).1)) ∧
    (Spec.AskedKey keys b!"extensionFactory" → AMap.load m b!"extensionFactory" = some (.info (.registries a.registries))) ∧
    (Spec.AskedKey keys b!"basic" → AMap.load m b!"basic" = some (.info (.basic a.startTime a.cpu a.rss))) := by
  refine ⟨fun hk => ⟨_, page_part h hk (s := .httpClusters _) .httpClusters, fun d => ?_⟩,
    fun hk => page_part h hk .extensionFactory, fun hk => page_part h hk .basic⟩
  induction a.httpClusters with
  | nil => rfl
  | cons p l ih =>
    rw [List.map_cons, AMap.load_cons]
    obtain ⟨x, y⟩ := p
    rw [AMap.load_cons]
    split
    · rfl
    · exact ih

/-! ## Violations -/

/-- What a user may expect and does not get: one service that is to be passed on, but whose `proxy` setting is wrong or names a protocol
without endpoints, takes the whole page away, whatever else the agent has. (Its provider stays without an endpoint, and the service is
exported all the same.) -/
theorem page_misconfigured_violated (known : Bytes → Bool) (u : URL) (hu : (EndpointConf.initProxy known u).ep = none) (says : URL → α)
    (a : Agent α) (id : Bytes) (e : Exporter α) (he : (id, e) ∈ a.exporters)
    (hp : e.prov.prov = .passing (some u) (EndpointConf.initProxy known u).available ((EndpointConf.initProxy known u).ep.map says)) :
    Runtime.answer a b!"/runtime/info" [] = .failed := by
  refine (page_fails a []).2 ⟨b!"exporters", ?_, .service he ⟨some u, (EndpointConf.initProxy known u).available, ?_⟩⟩
  · unfold Spec.AskedKey; rw [if_pos rfl]; decide
  · rw [hp, hu]; rfl

/-- Nor is it given while the agent starts. -/
theorem page_start_violated (a : Agent α) (h : a.server = none) : Runtime.answer a b!"/runtime/info" [] = .failed := by
  refine (page_fails a []).2 ⟨b!"servers", ?_, .starting h⟩
  unfold Spec.AskedKey; rw [if_pos rfl]; decide

/-- Two registries of one cluster, given by their addresses. -/
def exZk (address : Bytes) : URL := { protocol := b!"zookeeper", path := b!"s", group := b!"g", params := some [(b!"address", address)] }

/-- Nor are all registries shown: of two of one kind that are given by their addresses only the last is. -/
theorem page_registries_violated :
    let c : Runtime.Cluster Nat := ⟨b!"c", none, [], [(exZk b!"10.0.0.1:2181", 1), (exZk b!"10.0.0.2:2181", 2)], [], []⟩
    (clusterInfo c).registries.length = 1 := by
  decide +kernel

/-! ## Cases -/

/-- A service that is passed on to `127.0.0.1:8100`, and one with a setting that is no port. -/
def exPassing (proxy : Bytes) : Exporter URL :=
  let u : URL := { protocol := b!"motan2", path := b!"s", port := 8002, params := some [(b!"proxy", proxy)] }
  let p := EndpointConf.initProxy (fun k => k = b!"motan2") u
  { url := some u, prov := ⟨.passing (some u) p.available p.ep, [⟨b!"lastEndPointFilter", 100, 1⟩]⟩, available := true }

example : ((exPassing b!"motan2:8100").prov.prov matches .passing _ true (some _)) ∧
    ((exPassing b!"motan2:x").prov.prov matches .passing _ false none) := by
  exact ⟨by decide +kernel, by decide +kernel⟩

/-- An agent with one cluster of three endpoints and one service. -/
def exAgent (proxy : Bytes) : Agent URL :=
  let r (h : Bytes) (av : Bool) : Refer URL := ⟨{ host := h, port := 80 }, av, {}⟩
  { clusters := [(b!"c", ⟨b!"c", none, [r b!"a" true, r b!"a" true, r b!"b" false], [], [], [⟨b!"lastClusterFilter", 100, 2⟩]⟩)]
    exporters := [(b!"s", exPassing proxy)]
    server := some ⟨true, 10, true, none, b!"agentMessageHandler", none⟩
    http := some ⟨none, [], true, []⟩ }

/-- Its page is given if the service is set up, and not if it is not; without the services it is given. -/
example : (Runtime.answer (exAgent b!"motan2:8100") b!"/runtime/info" [] matches .page _) ∧
    (Runtime.answer (exAgent b!"motan2:x") b!"/runtime/info" [] matches .failed) ∧
    (Runtime.answer (exAgent b!"motan2:x") b!"/runtime/info" b!"clusters,servers,basic" matches .page _) := by
  refine ⟨by decide +kernel, by decide +kernel, by decide +kernel⟩

/-- Its cluster shows two available endpoints with the same address. -/
example : ((exAgent []).clusters.map fun p => (AMap.keys (clusterInfo p.2).available).length) = [2] := by decide +kernel

end Motan.Props
