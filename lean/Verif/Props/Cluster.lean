import Verif.Model.Cluster
import Verif.Props.RefersFilter
import Verif.Props.Url

/-!
# C35: the cluster's endpoints follow the registries

Histories are arbitrary lists of events: notifications from any registries with any URLs, filter changes, delayed
destructions in any order. Endpoint objects are told apart by their numbers.
-/

namespace Motan.Props

open Motan.Url Motan.RefersFilter Motan.Cluster

/-! ## Who can be called -/

/-- A parameter of a URL, read with a default for an absent one. -/
def Spec.paramOr (u : URL) (k d : Bytes) : Bytes := (u.param k).getD d

/-- When a server can be used by a cluster: a compatible protocol, the same service, the same serialization (which
motan2 does not need), and the same version, where an absent version may count as 0.1 or as 1.0. -/
theorem can_serve_iff (u cluster : URL) : canServe u cluster = true ↔
    (u.protocol = cluster.protocol ∨ u.protocol = b!"local" ∨
      (u.protocol = b!"motan2" ∧ cluster.protocol = b!"motan")) ∧
    u.path = cluster.path ∧
    (u.protocol = b!"motan2" ∨ Spec.paramOr u b!"serialization" [] = Spec.paramOr cluster b!"serialization" []) ∧
    (Spec.paramOr u b!"version" b!"0.1" = Spec.paramOr cluster b!"version" b!"0.1" ∨
      Spec.paramOr u b!"version" b!"1.0" = Spec.paramOr cluster b!"version" b!"1.0") := by
  have same : ∀ k d, isSame u.params cluster.params k d = true ↔ Spec.paramOr u k d = Spec.paramOr cluster k d := by
    intro k d
    rw [isSame]
    unfold Spec.paramOr URL.param
    split
    · rename_i h; simp [h.1, h.2]
    · simp
  have prot : canServeProtocol u cluster = true ↔ (u.protocol = cluster.protocol ∨ u.protocol = b!"local" ∨
      (u.protocol = b!"motan2" ∧ cluster.protocol = b!"motan")) := by
    rw [canServeProtocol]
    split
    · rename_i h; simp [h.1, h.2]
    · rename_i h
      simp only [decide_eq_true_eq]
      constructor
      · rintro (h' | h')
        · exact Or.inl h'
        · exact Or.inr (Or.inl h')
      · rintro (h' | h' | ⟨h1, h2⟩)
        · exact Or.inl h'
        · exact Or.inr h'
        · exact absurd ⟨h2, h1⟩ h
  rw [← prot, ← same, ← same, ← same, canServe]
  by_cases h1 : canServeProtocol u cluster = true <;> by_cases h2 : u.path = cluster.path <;>
    by_cases h3 : u.protocol = b!"motan2" <;>
    by_cases h4 : isSame u.params cluster.params b!"serialization" [] = true <;>
    by_cases h5 : isSame u.params cluster.params b!"version" b!"0.1" = true <;>
    by_cases h6 : isSame u.params cluster.params b!"version" b!"1.0" = true <;>
    simp [h1, h2, h3, h4, h5, h6]

/-! ## Specification -/

/-- An announced URL whose cached identity, if any, is that of its fields, with an ordinary protocol name. -/
def Spec.Ordinary (u : URL) : Prop :=
  (getIdentity u).1 = Spec.identity u ∧ u.protocol ≠ b!"direct" ∧ (58 : UInt8) ∉ u.protocol

/-- The servers of a notification: all but a closing rule URL and nil entries. -/
def Spec.servers (urls : List (Option URL)) : List URL :=
  match urls.getLast? with
  | some (some u) => if u.protocol = b!"rule" then urls.dropLast.filterMap id else urls.filterMap id
  | _ => urls.filterMap id

/-- The servers of a notification the cluster can use, and there is an endpoint implementation for. -/
def Spec.servable (env : Env) (urls : List (Option URL)) : List URL :=
  (Spec.servers urls).filter fun u => canServe u env.url ∧ env.known u.protocol

/-- Their identities. -/
def Spec.ids (env : Env) (urls : List (Option URL)) : List Bytes := (Spec.servable env urls).map Spec.identity

variable {N : Net}

/-- What the registries stand for after a history: for each the identities it last announced; an announcement of
nothing withdraws the registry, unless it is the only one. -/
def Spec.announced (env : Env) (h : List (Event N)) : AMap Bytes (List Bytes) :=
  h.foldl (fun t e =>
    match e with
    | .notify reg urls _ _ =>
      if Spec.ids env urls ≠ [] then AMap.store t reg (Spec.ids env urls)
      else if 2 ≤ t.length then AMap.erase t reg else t
    | _ => t) []

/-- All announced URLs of a history are ordinary. -/
def Spec.OrdinaryHistory (h : List (Event N)) : Prop :=
  ∀ e ∈ h, ∀ reg urls o w, e = .notify reg urls o w → ∀ u, some u ∈ urls → Spec.Ordinary u

/-- No notification names a server twice. -/
def Spec.DistinctHistory (env : Env) (h : List (Event N)) : Prop :=
  ∀ e ∈ h, ∀ reg urls o w, e = .notify reg urls o w → (Spec.ids env urls).Nodup

/-- The cluster is not destroyed. -/
def Spec.Open (h : List (Event N)) : Prop := ∀ e ∈ h, e ≠ .destroy

/-- The endpoints a cluster holds for its registries. -/
def Spec.held (s : State N) : List Ep := s.registryRefers.flatMap Prod.snd

/-- The objects waiting to be destroyed. -/
def Spec.waiting (s : State N) : List Nat := s.pending.flatten.map Ep.obj

/-! ## Sums over maps -/

/-- The sum of a weight over the values of a map. -/
def wsum {κ ν : Type} (f : ν → Nat) : AMap κ ν → Nat
  | [] => 0
  | p :: m => f p.2 + wsum f m

theorem wsum_store {κ ν : Type} [DecidableEq κ] (f : ν → Nat) (m : AMap κ ν) (k : κ) (v : ν) :
    wsum f (AMap.store m k v) + ((AMap.load m k).elim 0 f) = wsum f m + f v := by
  induction m with
  | nil => simp [AMap.store, AMap.load, wsum]
  | cons p m ih =>
    obtain ⟨k', v'⟩ := p
    rw [AMap.store, AMap.load_cons]
    by_cases h : k' = k
    · simp [h, wsum]; omega
    · simp [h, wsum]; omega

theorem wsum_erase_none {κ ν : Type} [DecidableEq κ] (f : ν → Nat) (m : AMap κ ν) (k : κ)
    (h : AMap.load m k = none) : AMap.erase m k = m := by
  have h := AMap.load_eq_none.mp h
  unfold AMap.erase
  rw [List.filter_eq_self]
  intro p hp
  have : p.1 ∈ m.keys := List.mem_map_of_mem hp
  simp only [decide_not, Bool.not_eq_eq_eq_not, Bool.not_true, decide_eq_false_iff_not]
  intro e; rw [e] at this; exact h this

theorem wsum_erase {κ ν : Type} [DecidableEq κ] (f : ν → Nat) (m : AMap κ ν) (hn : m.NodupKeys) (k : κ) :
    wsum f (AMap.erase m k) + ((AMap.load m k).elim 0 f) = wsum f m := by
  induction m with
  | nil => simp [AMap.erase, AMap.load, wsum]
  | cons p m ih =>
    obtain ⟨k', v'⟩ := p
    have hn' : k' ∉ AMap.keys m ∧ AMap.NodupKeys m := by
      simpa [AMap.NodupKeys, AMap.keys] using hn
    rw [AMap.load_cons]
    by_cases h : k' = k
    · subst h
      have e : AMap.erase ((k', v') :: m) k' = AMap.erase m k' := by simp [AMap.erase]
      have h0 : AMap.load m k' = none := AMap.load_eq_none.mpr hn'.1
      rw [e, wsum_erase_none f m k' h0]
      simp [wsum]; omega
    · have e : AMap.erase ((k', v') :: m) k = (k', v') :: AMap.erase m k := by simp [AMap.erase, h]
      have := ih hn'.2
      rw [e]; simp [wsum, h]; omega

/-- How often an object occurs in a list of endpoints. -/
def cnt (o : Nat) (l : List Ep) : Nat := (l.map Ep.obj).count o

theorem cnt_append (o : Nat) (a b : List Ep) : cnt o (a ++ b) = cnt o a + cnt o b := by simp [cnt]

theorem cnt_cons (o : Nat) (a : Ep) (b : List Ep) : cnt o (a :: b) = cnt o [a] + cnt o b :=
  cnt_append o [a] b

theorem cnt_flat (o : Nat) (m : AMap Bytes (List Ep)) : cnt o (m.flatMap Prod.snd) = wsum (cnt o) m := by
  induction m with
  | nil => rfl
  | cons p m ih => rw [List.flatMap_cons, cnt_append, ih]; rfl

theorem cnt_vals (o : Nat) (m : AMap Bytes Ep) : cnt o (m.map Prod.snd) = wsum (fun e => cnt o [e]) m := by
  induction m with
  | nil => rfl
  | cons p m ih => rw [List.map_cons, cnt_cons, ih]; rfl

/-! ## One notification -/

theorem processWeight_servers (urls : List (Option URL)) :
    (processWeight urls).1.filterMap id = Spec.servers urls := by
  unfold processWeight Spec.servers
  cases urls.getLast? with
  | none => rfl
  | some x =>
    cases x with
    | none => rfl
    | some u => simp only; split <;> rfl

/-- The objects of the new list and of the rest of the map: those of the map, and the new ones. -/
theorem place_count (env : Env) (us : List (Option URL)) (m : AMap Bytes Ep) (hn : m.NodupKeys) (n : Nat) (o : Nat) :
    n ≤ (place env us m n).2.2 ∧
    cnt o (place env us m n).1 + cnt o ((place env us m n).2.1.map Prod.snd) =
      cnt o (m.map Prod.snd) + (if n ≤ o ∧ o < (place env us m n).2.2 then 1 else 0) := by
  induction us generalizing m n with
  | nil => rw [place, if_neg (by simp only; omega)]; exact ⟨Nat.le_refl _, by simp [cnt]⟩
  | cons u us ih =>
    cases u with
    | none => rw [place]; exact ih m hn n
    | some u =>
      rw [place]
      split
      · exact ih m hn n
      · cases hl : AMap.load m (idOf u) with
        | some ep =>
          have h := ih (AMap.erase m (idOf u)) (AMap.nodupKeys_erase hn _) n
          have he := wsum_erase (fun e => cnt o [e]) m hn (idOf u)
          rw [hl, ← cnt_vals, ← cnt_vals] at he
          simp only [Option.elim_some] at he
          simp only
          rw [cnt_cons]
          refine ⟨h.1, ?_⟩
          have h2 := h.2
          omega
        | none =>
          simp only
          split
          · have h := ih m hn (n + 1)
            simp only
            rw [cnt_cons]
            have h1 := h.1
            have h2 := h.2
            have h3 : cnt o [({ obj := n, url := endpointURL env u } : Ep)] = if n = o then 1 else 0 := by
              simp [cnt, List.count_cons]
            refine ⟨by omega, ?_⟩
            rw [h3]
            by_cases e1 : n = o
            · rw [if_pos e1, if_pos (by omega)]; rw [if_neg (by omega)] at h2; omega
            · rw [if_neg e1]
              by_cases e2 : n + 1 ≤ o ∧ o < (place env us m (n + 1)).2.2
              · rw [if_pos e2] at h2; rw [if_pos (by omega)]; omega
              · rw [if_neg e2] at h2; rw [if_neg (by omega)]; omega
          · exact ih m hn n

theorem endpointMap_fold (o : Nat) (eps : List Ep) (m : AMap Bytes Ep) :
    cnt o ((AMap.storeAll m (eps.map fun e => (idOf e.url, e))).map Prod.snd) ≤ cnt o (m.map Prod.snd) + cnt o eps ∧
    ((∀ e ∈ eps, AMap.load m (idOf e.url) = none) → (eps.map fun e => idOf e.url).Nodup →
      cnt o ((AMap.storeAll m (eps.map fun e => (idOf e.url, e))).map Prod.snd) =
        cnt o (m.map Prod.snd) + cnt o eps) := by
  induction eps generalizing m with
  | nil => simp [AMap.storeAll, cnt]
  | cons e eps ih =>
    have hs := wsum_store (fun e => cnt o [e]) m (idOf e.url) e
    have h := ih (AMap.store m (idOf e.url) e)
    have eq : AMap.storeAll m ((e :: eps).map fun e => (idOf e.url, e)) =
        AMap.storeAll (AMap.store m (idOf e.url) e) (eps.map fun e => (idOf e.url, e)) := rfl
    rw [← cnt_vals, ← cnt_vals] at hs
    rw [eq, cnt_cons]
    refine ⟨by have := h.1; omega, ?_⟩
    intro hnone hnd
    rw [List.map_cons, List.nodup_cons] at hnd
    have h0 := hnone e (by simp)
    rw [h0] at hs
    simp only [Option.elim_none] at hs
    have := h.2 (by
      intro e' he'
      rw [AMap.load_store, if_neg, hnone e' (by simp [he'])]
      intro h'
      exact hnd.1 (by rw [h']; exact List.mem_map_of_mem (f := fun e => idOf e.url) he')) hnd.2
    omega

theorem endpointMap_count (o : Nat) (eps : List Ep) :
    cnt o ((endpointMap eps).map Prod.snd) ≤ cnt o eps ∧
    ((eps.map fun e => idOf e.url).Nodup → cnt o ((endpointMap eps).map Prod.snd) = cnt o eps) := by
  have h := endpointMap_fold o eps []
  have h0 : cnt o ((([] : AMap Bytes Ep)).map Prod.snd) = 0 := rfl
  rw [h0, Nat.zero_add] at h
  exact ⟨h.1, h.2 (fun _ _ => rfl)⟩

theorem endpointMap_nodup (eps : List Ep) : (endpointMap eps).NodupKeys :=
  AMap.nodupKeys_storeAll AMap.nodupKeys_nil _

theorem endpointMap_load (eps : List Ep) (k : Bytes) (e : Ep) (h : AMap.load (endpointMap eps) k = some e) :
    e ∈ eps ∧ idOf e.url = k := by
  have key : ∀ (eps : List Ep) (m : AMap Bytes Ep),
      AMap.load (AMap.storeAll m (eps.map fun e => (idOf e.url, e))) k = some e →
      AMap.load m k = some e ∨ (e ∈ eps ∧ idOf e.url = k) := by
    intro eps
    induction eps with
    | nil => intro m h; exact Or.inl h
    | cons a eps ih =>
      intro m h
      have h' : AMap.load (AMap.storeAll (AMap.store m (idOf a.url) a) (eps.map fun e => (idOf e.url, e))) k = some e := h
      rcases ih _ h' with h1 | ⟨h1, h2⟩
      · rw [AMap.load_store] at h1
        split at h1
        · rename_i hk
          have := Option.some.inj h1
          subst this
          exact Or.inr ⟨by simp, hk⟩
        · exact Or.inl h1
      · exact Or.inr ⟨by simp [h1], h2⟩
  rcases key eps [] h with h1 | h1
  · exact absurd h1 (by simp [AMap.load])
  · exact h1

/-- A held endpoint: its identity is that of its fields, and there is an implementation for its protocol. -/
def Good (env : Env) (e : Ep) : Prop :=
  idOf e.url = Spec.identity e.url ∧ env.known e.url.protocol = true ∧ e.url.protocol ≠ b!"direct" ∧
  (58 : UInt8) ∉ e.url.protocol

theorem endpointURL_fields (env : Env) (u : URL) :
    (endpointURL env u).protocol = u.protocol ∧ (endpointURL env u).host = u.host ∧
    (endpointURL env u).port = u.port ∧ (endpointURL env u).path = u.path ∧ (endpointURL env u).group = u.group ∧
    (endpointURL env u).identityC = none ∧ (endpointURL env u).portStrC = none := by
  simp [endpointURL, mergeParams, copy]

theorem endpointURL_identity (env : Env) (u : URL) (hd : u.protocol ≠ b!"direct") :
    Spec.identity (endpointURL env u) = Spec.identity u ∧ idOf (endpointURL env u) = Spec.identity u := by
  obtain ⟨h1, h2, h3, h4, h5, h6, h7⟩ := endpointURL_fields env u
  refine ⟨by simp only [Spec.identity, h1, h2, h3, h4, h5, if_neg hd], ?_⟩
  unfold idOf getIdentity getPortStr
  simp only [h6, h7, h1, h2, h3, h4, h5, if_neg hd, Spec.identity, List.append_nil]

theorem identity_protocol {u v : URL} (hu : (58 : UInt8) ∉ u.protocol) (hv : (58 : UInt8) ∉ v.protocol)
    (h : Spec.identity u = Spec.identity v) : u.protocol = v.protocol := by
  simp only [Spec.identity, List.append_assoc, List.cons_append, List.nil_append] at h
  exact (append_sep_inj h hu hv).1

theorem place_ids (env : Env) (us : List (Option URL)) (m : AMap Bytes Ep) (n : Nat)
    (hm : ∀ k e, AMap.load m k = some e → idOf e.url = k ∧ Good env e)
    (hu : ∀ u, some u ∈ us → Spec.Ordinary u) :
    (place env us m n).1.map (fun e => Spec.identity e.url) =
      ((us.filterMap id).filter fun u => canServe u env.url ∧ env.known u.protocol).map Spec.identity ∧
    ∀ e ∈ (place env us m n).1, Good env e := by
  induction us generalizing m n with
  | nil => simp [place]
  | cons x us ih =>
    cases x with
    | none =>
      rw [place]
      have := ih m n hm (fun u hu' => hu u (by simp [hu']))
      simpa using this
    | some u =>
      have ho := hu u (by simp)
      have hu' : ∀ u, some u ∈ us → Spec.Ordinary u := fun v hv => hu v (by simp [hv])
      rw [place, List.filterMap_cons]
      simp only [id]
      rw [List.filter_cons]
      by_cases hc : canServe u env.url = true
      · rw [if_neg (by simpa using hc)]
        cases hl : AMap.load m (idOf u) with
        | some ep =>
          obtain ⟨hid, hg⟩ := hm _ _ hl
          have heq : Spec.identity ep.url = Spec.identity u := by
            rw [← hg.1, hid]; exact ho.1
          have hp := identity_protocol hg.2.2.2 ho.2.2 heq
          have hk : env.known u.protocol = true := by rw [← hp]; exact hg.2.1
          have h := ih (AMap.erase m (idOf u)) n (by
            intro k e he
            rw [AMap.load_erase] at he
            split at he
            · exact absurd he (by simp)
            · exact hm k e he) hu'
          have hck : decide (canServe u env.url = true ∧ env.known u.protocol = true) = true := by simp [hc, hk]
          rw [if_pos hck]
          simp only [List.map_cons, heq, h.1, true_and]
          intro e he
          rcases List.mem_cons.mp he with rfl | he
          · exact hg
          · exact h.2 e he
        | none =>
          simp only
          obtain ⟨hf1, hf⟩ := endpointURL_fields env u
          rw [hf1]
          by_cases hk : env.known u.protocol = true
          · have h := ih m (n + 1) hm hu'
            have hi := endpointURL_identity env u ho.2.1
            have hck : decide (canServe u env.url = true ∧ env.known u.protocol = true) = true := by simp [hc, hk]
            rw [if_pos hk, if_pos hck]
            simp only [List.map_cons, hi.1, h.1, true_and]
            intro e he
            rcases List.mem_cons.mp he with rfl | he
            · exact ⟨by rw [hi.2, hi.1], by rw [hf1]; exact hk, by rw [hf1]; exact ho.2.1, by rw [hf1]; exact ho.2.2⟩
            · exact h.2 e he
          · rw [if_neg hk, if_neg (by simp [hk])]
            exact ih m n hm hu'
      · rw [if_pos (by simpa using hc), if_neg (by simp [hc])]
        exact ih m n hm hu'

/-! ## The list called through -/

/-- Whether a filter keeps a host. -/
def keeps (f : Filter N) (host : Bytes) : Bool :=
  ¬ tryRules host false f.excludeRules ∧ tryRules host (f.includeRules.length = 0) f.includeRules

theorem filter_eq_keeps (f : Filter N) {α : Type} (urlOf : α → URL) (l : List α) :
    f.filter urlOf l = l.filter fun e => keeps f (urlOf e).host := by
  induction l with
  | nil => rfl
  | cons e l ih =>
    rw [Filter.filter, List.filter_cons, ih, keeps]
    by_cases h1 : tryRules (urlOf e).host false f.excludeRules = true <;>
      by_cases h2 : tryRules (urlOf e).host (f.includeRules.length = 0) f.includeRules = true <;> simp [h1, h2]

theorem filterRefers_perm (f : Option (Filter N)) {α : Type} (urlOf : α → URL) {l l' : List α} (h : l.Perm l') :
    (filterRefers f urlOf l).Perm (filterRefers f urlOf l') := by
  cases f with
  | none => exact h
  | some f =>
    have hp : (f.filter urlOf l).Perm (f.filter urlOf l') := by
      rw [filter_eq_keeps, filter_eq_keeps]; exact h.filter _
    show (if (f.filter urlOf l).length > 0 then f.filter urlOf l else l).Perm
      (if (f.filter urlOf l').length > 0 then f.filter urlOf l' else l')
    rw [hp.length_eq]
    split
    · exact hp
    · exact h

theorem filterRefers_sub (f : Option (Filter N)) {α : Type} (urlOf : α → URL) (l : List α) :
    (filterRefers f urlOf l).Sublist l := by
  cases f with
  | none => exact List.Sublist.refl _
  | some f =>
    show (if (f.filter urlOf l).length > 0 then f.filter urlOf l else l).Sublist l
    split
    · rw [filter_eq_keeps]; exact List.filter_sublist
    · exact List.Sublist.refl _

/-- What holds of every cluster at all times: the list called through is the filtered union, the load balancer has
that list, and no registry is held with an empty list. -/
structure Inv (s : State N) : Prop where
  keys : s.registryRefers.NodupKeys
  refers : s.refers.Perm (filterRefers s.refersFilter Ep.url (Spec.held s))
  balanced : s.balanced = s.refers
  nonempty : ∀ k, AMap.load s.registryRefers k ≠ some []

theorem refresh_refers (s : State N) (o w : List (Nat × Nat)) :
    (refresh s o w).refers.Perm (filterRefers s.refersFilter Ep.url (Spec.held s)) := by
  unfold refresh
  refine (shuffle_perm _ _).trans (filterRefers_perm _ _ ?_)
  exact List.Perm.flatMap_right _ (shuffle_perm _ _)

theorem inv_init : Inv ({} : State N) := by
  refine ⟨AMap.nodupKeys_nil, ?_, rfl, ?_⟩
  · show List.Perm [] (filterRefers none Ep.url []); exact List.Perm.refl _
  · intro k; simp [AMap.load]

/-- A notification, in one of its three outcomes. -/
theorem notify_cases (env : Env) (s : State N) (reg : Bytes) (urls : List (Option URL)) (o w : List (Nat × Nat)) :
    let r := place env (processWeight urls).1 (endpointMap ((AMap.load s.registryRefers reg).getD [])) s.next
    let s' := notify env s reg urls o w
    let wt := (processWeight urls).2
    (r.1 = [] ∧ ¬ 1 < s.registryRefers.length ∧ s' = { s with weight := wt, next := r.2.2 }) ∨
    (r.1 = [] ∧ 1 < s.registryRefers.length ∧ ∃ t, t = refresh { s with weight := wt, next := r.2.2, registryRefers := AMap.erase s.registryRefers reg } o w ∧
      s' = { t with pending := s.pending ++ [r.2.1.map Prod.snd] }) ∨
    (r.1 ≠ [] ∧ ∃ t, t = refresh { s with weight := wt, next := r.2.2, registryRefers := AMap.store s.registryRefers reg r.1 } o w ∧
      s' = { t with pending := s.pending ++ [r.2.1.map Prod.snd] }) := by
  intro r s' wt
  have e : s' = notify env s reg urls o w := rfl
  unfold notify at e
  simp only at e
  by_cases h : r.1 = []
  · have hl : r.1.length = 0 := by rw [h]; rfl
    rw [if_pos hl] at e
    by_cases h1 : 1 < s.registryRefers.length
    · rw [if_pos h1] at e
      exact Or.inr (Or.inl ⟨h, h1, _, rfl, e⟩)
    · rw [if_neg h1] at e
      exact Or.inl ⟨h, h1, e⟩
  · have hl : ¬ r.1.length = 0 := by rw [List.length_eq_zero_iff]; exact h
    rw [if_neg hl] at e
    exact Or.inr (Or.inr ⟨h, _, rfl, e⟩)

theorem inv_step (env : Env) (s : State N) (e : Event N) (h : Inv s) : Inv (step env s e) := by
  cases e with
  | notify reg urls o w =>
    show Inv (notify env s reg urls o w)
    rcases notify_cases env s reg urls o w with ⟨_, _, e⟩ | ⟨_, _, t, ht, e⟩ | ⟨hne, t, ht, e⟩
    · rw [e]; exact ⟨h.keys, h.refers, h.balanced, h.nonempty⟩
    · rw [e, ht]
      refine ⟨AMap.nodupKeys_erase h.keys _, refresh_refers _ _ _, rfl, ?_⟩
      intro k
      show AMap.load (AMap.erase s.registryRefers reg) k ≠ some []
      rw [AMap.load_erase]
      split
      · simp
      · exact h.nonempty k
    · rw [e, ht]
      refine ⟨AMap.nodupKeys_store h.keys _ _, refresh_refers _ _ _, rfl, ?_⟩
      intro k
      show AMap.load (AMap.store s.registryRefers reg _) k ≠ some []
      rw [AMap.load_store]
      split
      · intro h'; exact hne (Option.some.inj h')
      · exact h.nonempty k
  | setFilter f o w =>
    show Inv (setRefersFilter s f o w)
    unfold setRefersFilter
    split
    · exact h
    · exact ⟨h.keys, refresh_refers _ _ _, rfl, h.nonempty⟩
  | wake k =>
    show Inv (wake s k)
    unfold wake
    split
    · exact h
    · exact ⟨h.keys, h.refers, h.balanced, h.nonempty⟩
  | destroy =>
    show Inv (destroy s)
    unfold destroy
    split
    · exact h
    · exact ⟨h.keys, h.refers, h.balanced, h.nonempty⟩

theorem run_append (env : Env) (h h' : List (Event N)) : run env (h ++ h') = h'.foldl (step env) (run env h) :=
  List.foldl_append

/-- Induction over histories. -/
theorem run_induct (env : Env) {P : List (Event N) → State N → Prop} (h0 : P [] {})
    (hs : ∀ h e, P h (run env h) → P (h ++ [e]) (step env (run env h) e)) (h : List (Event N)) :
    P h (run env h) := by
  have key : ∀ (h' pre : List (Event N)), P pre (run env pre) → P (pre ++ h') (run env (pre ++ h')) := by
    intro h'
    induction h' with
    | nil => intro pre hp; simpa using hp
    | cons e h' ih =>
      intro pre hp
      have h1 := hs pre e hp
      have h2 : run env (pre ++ [e]) = step env (run env pre) e := by rw [run_append]; rfl
      rw [← h2] at h1
      have := ih (pre ++ [e]) h1
      simpa using this
  simpa using key h [] h0

theorem inv_run (env : Env) (h : List (Event N)) : Inv (run env h) :=
  run_induct env (P := fun _ s => Inv s) inv_init (fun _ e hs => inv_step env _ e hs) h

/-! ## The endpoints are the announced ones -/

theorem map_store {κ ν μ : Type} [DecidableEq κ] (f : ν → μ) (m : AMap κ ν) (k : κ) (v : ν) :
    (AMap.store m k v).map (fun p => (p.1, f p.2)) = AMap.store (m.map fun p => (p.1, f p.2)) k (f v) := by
  induction m with
  | nil => rfl
  | cons p m ih =>
    obtain ⟨k', v'⟩ := p
    rw [AMap.store, List.map_cons, AMap.store]
    split
    · simp
    · rw [List.map_cons, ih]

theorem map_erase {κ ν μ : Type} [DecidableEq κ] (f : ν → μ) (m : AMap κ ν) (k : κ) :
    (AMap.erase m k).map (fun p => (p.1, f p.2)) = AMap.erase (m.map fun p => (p.1, f p.2)) k := by
  unfold AMap.erase
  rw [List.filter_map]
  rfl

/-- The identities held for each registry. -/
def heldIds (s : State N) : AMap Bytes (List Bytes) :=
  s.registryRefers.map fun p => (p.1, p.2.map fun e => Spec.identity e.url)

theorem announced_snoc (env : Env) (h : List (Event N)) (e : Event N) :
    Spec.announced env (h ++ [e]) =
      match e with
      | .notify reg urls _ _ =>
        if Spec.ids env urls ≠ [] then AMap.store (Spec.announced env h) reg (Spec.ids env urls)
        else if 2 ≤ (Spec.announced env h).length then AMap.erase (Spec.announced env h) reg
        else Spec.announced env h
      | _ => Spec.announced env h := by
  rw [Spec.announced, List.foldl_append]
  cases e <;> rfl

theorem ordinary_init {h : List (Event N)} {e : Event N} (ho : Spec.OrdinaryHistory (h ++ [e])) :
    Spec.OrdinaryHistory h := fun e' he' => ho e' (by simp [he'])

theorem processWeight_mem {urls : List (Option URL)} {x : Option URL} (h : x ∈ (processWeight urls).1) : x ∈ urls := by
  unfold processWeight at h
  split at h
  · split at h
    · exact (List.dropLast_sublist _).subset h
    · exact h
  · exact h

/-- The endpoints held carry the announced identities, registry by registry and in the announced order. -/
theorem heldIds_run (env : Env) (h : List (Event N)) (ho : Spec.OrdinaryHistory h) :
    heldIds (run env h) = Spec.announced env h ∧
    ∀ k l, AMap.load (run env h).registryRefers k = some l → ∀ e ∈ l, Good env e := by
  refine run_induct env (P := fun h s => Spec.OrdinaryHistory h →
    heldIds s = Spec.announced env h ∧ ∀ k l, AMap.load s.registryRefers k = some l → ∀ e ∈ l, Good env e) ?_ ?_ h ho
  · intro _; exact ⟨rfl, by intro k l hl; simp [AMap.load] at hl⟩
  · intro h e ih ho
    obtain ⟨ih1, ih2⟩ := ih (ordinary_init ho)
    rw [announced_snoc]
    cases e with
    | setFilter f o w =>
      show heldIds (setRefersFilter (run env h) f o w) = _ ∧ _
      have e1 : (setRefersFilter (run env h) f o w).registryRefers = (run env h).registryRefers := by
        unfold setRefersFilter; split <;> rfl
      refine ⟨by rw [heldIds, e1]; exact ih1, ?_⟩
      show ∀ k l, AMap.load (setRefersFilter (run env h) f o w).registryRefers k = some l → _
      rw [e1]; exact ih2
    | wake k =>
      show heldIds (wake (run env h) k) = _ ∧ _
      have e1 : (wake (run env h) k).registryRefers = (run env h).registryRefers := by unfold wake; split <;> rfl
      refine ⟨by rw [heldIds, e1]; exact ih1, ?_⟩
      show ∀ k' l, AMap.load (wake (run env h) k).registryRefers k' = some l → _
      rw [e1]; exact ih2
    | destroy =>
      show heldIds (destroy (run env h)) = _ ∧ _
      have e1 : (destroy (run env h)).registryRefers = (run env h).registryRefers := by unfold destroy; split <;> rfl
      refine ⟨by rw [heldIds, e1]; exact ih1, ?_⟩
      show ∀ k' l, AMap.load (destroy (run env h)).registryRefers k' = some l → _
      rw [e1]; exact ih2
    | notify reg urls o w =>
      show heldIds (notify env (run env h) reg urls o w) = _ ∧
        ∀ k l, AMap.load (notify env (run env h) reg urls o w).registryRefers k = some l → ∀ e ∈ l, Good env e
      simp only
      have hord : ∀ u, some u ∈ (processWeight urls).1 → Spec.Ordinary u := fun u hu =>
        ho (.notify reg urls o w) (by simp) reg urls o w rfl u (processWeight_mem hu)
      have hmap : ∀ k e, AMap.load (endpointMap ((AMap.load (run env h).registryRefers reg).getD [])) k = some e →
          idOf e.url = k ∧ Good env e := by
        intro k e he
        obtain ⟨h1, h2⟩ := endpointMap_load _ _ _ he
        refine ⟨h2, ?_⟩
        cases hl : AMap.load (run env h).registryRefers reg with
        | none => rw [hl] at h1; exact absurd h1 (by simp)
        | some l => rw [hl] at h1; exact ih2 reg l hl e h1
      have hp := place_ids env (processWeight urls).1 _ (run env h).next hmap hord
      rw [processWeight_servers] at hp
      have hp1 : _ = Spec.ids env urls := hp.1
      have hlen : (Spec.announced env h).length = (run env h).registryRefers.length := by
        rw [← ih1, heldIds, List.length_map]
      rcases notify_cases env (run env h) reg urls o w with ⟨h0, h1, e⟩ | ⟨h0, h1, t, ht, e⟩ | ⟨h0, t, ht, e⟩
      · have hids : Spec.ids env urls = [] := by rw [← hp1, h0]; rfl
        rw [if_neg (by simp [hids]), if_neg (by omega), e]
        exact ⟨ih1, ih2⟩
      · have hids : Spec.ids env urls = [] := by rw [← hp1, h0]; rfl
        rw [if_neg (by simp [hids]), if_pos (by omega), e, ht]
        refine ⟨?_, ?_⟩
        · show (AMap.erase (run env h).registryRefers reg).map _ = _
          rw [← ih1]; exact map_erase _ _ _
        · intro k l hl
          have hl : AMap.load (AMap.erase (run env h).registryRefers reg) k = some l := hl
          rw [AMap.load_erase] at hl
          split at hl
          · exact absurd hl (by simp)
          · exact ih2 k l hl
      · have hids : Spec.ids env urls ≠ [] := by
          rw [← hp1]; intro h'; exact h0 (List.map_eq_nil_iff.mp h')
        rw [if_pos hids, e, ht]
        refine ⟨?_, ?_⟩
        · show (AMap.store (run env h).registryRefers reg _).map _ = _
          rw [← ih1, ← hp1]; exact map_store _ _ _ _
        · intro k l hl
          have hl : AMap.load (AMap.store (run env h).registryRefers reg _) k = some l := hl
          rw [AMap.load_store] at hl
          split at hl
          · rw [← Option.some.inj hl]; exact hp.2
          · exact ih2 k l hl

/-- The filter in force: the last one set. -/
def Spec.filterOf (h : List (Event N)) : Option (Filter N) :=
  h.foldl (fun f e => match e with | .setFilter g _ _ => g | _ => f) none

theorem refersFilter_run (env : Env) (h : List (Event N)) : (run env h).refersFilter = Spec.filterOf h := by
  refine run_induct env (P := fun h s => s.refersFilter = Spec.filterOf h) rfl ?_ h
  intro h e ih
  have e2 : Spec.filterOf (h ++ [e]) = match e with | .setFilter g _ _ => g | _ => Spec.filterOf h := by
    rw [Spec.filterOf, List.foldl_append]
    cases e <;> rfl
  rw [e2]
  cases e with
  | notify reg urls o w =>
    show (notify env (run env h) reg urls o w).refersFilter = _
    rcases notify_cases env (run env h) reg urls o w with ⟨_, _, e⟩ | ⟨_, _, t, ht, e⟩ | ⟨_, t, ht, e⟩
    · rw [e]; exact ih
    · rw [e, ht]; exact ih
    · rw [e, ht]; exact ih
  | setFilter f o w =>
    show (setRefersFilter (run env h) f o w).refersFilter = f
    unfold setRefersFilter
    split
    · rename_i hh
      obtain ⟨h1, h2⟩ := hh
      rw [Option.isNone_iff_eq_none] at h1 h2
      rw [h1, h2]
    · rfl
  | wake k => show (wake (run env h) k).refersFilter = _; unfold wake; split <;> exact ih
  | destroy => show (destroy (run env h)).refersFilter = _; unfold destroy; split <;> exact ih

/-- After any history the endpoints held are, registry by registry, those last announced; the cluster calls through
exactly those of them the filter in force leaves, and has told the load balancer so. -/
theorem cluster_endpoints (env : Env) (h : List (Event N)) (ho : Spec.OrdinaryHistory h) :
    ((Spec.held (run env h)).map fun e => Spec.identity e.url) = (Spec.announced env h).flatMap Prod.snd ∧
    (run env h).refers.Perm (filterRefers (Spec.filterOf h) Ep.url (Spec.held (run env h))) ∧
    (run env h).balanced = (run env h).refers := by
  refine ⟨?_, ?_, (inv_run env h).balanced⟩
  · rw [← (heldIds_run env h ho).1, Spec.held, heldIds, List.map_flatMap, List.flatMap_map]
  · rw [← refersFilter_run env h]; exact (inv_run env h).refers

/-- Without a filter the cluster calls through exactly the announced servers. -/
theorem cluster_endpoints_unfiltered (env : Env) (h : List (Event N)) (ho : Spec.OrdinaryHistory h)
    (hf : Spec.filterOf h = none) :
    ((run env h).refers.map fun e => Spec.identity e.url).Perm ((Spec.announced env h).flatMap Prod.snd) := by
  obtain ⟨h1, h2, _⟩ := cluster_endpoints env h ho
  rw [hf] at h2
  rw [← h1]
  exact h2.map _

/-- With one registry: after a notification naming some servable server, the cluster calls through exactly the
servable servers of that notification. -/
theorem cluster_single_registry (env : Env) (reg : Bytes) (h : List (Event N)) (urls : List (Option URL))
    (o w : List (Nat × Nat)) (ho : Spec.OrdinaryHistory (h ++ [.notify reg urls o w]))
    (hone : ∀ e ∈ h, ∀ reg' urls' o' w', e = .notify reg' urls' o' w' → reg' = reg)
    (hf : Spec.filterOf h = none) (hne : Spec.servable env urls ≠ []) :
    ((run env (h ++ [.notify reg urls o w])).refers.map fun e => Spec.identity e.url).Perm
      ((Spec.servable env urls).map Spec.identity) := by
  have hf' : Spec.filterOf (h ++ [.notify reg urls o w]) = none := by
    simp only [Spec.filterOf, List.foldl_append, List.foldl_cons, List.foldl_nil]; exact hf
  refine (cluster_endpoints_unfiltered env _ ho hf').trans ?_
  have hids : Spec.ids env urls ≠ [] := fun h' => hne (List.map_eq_nil_iff.mp h')
  rw [announced_snoc]
  simp only
  rw [if_pos hids]
  have key : ∀ (h : List (Event N)), (∀ e ∈ h, ∀ reg' urls' o' w', e = .notify reg' urls' o' w' → reg' = reg) →
      Spec.announced env h = [] ∨ ∃ l, Spec.announced env h = [(reg, l)] := by
    intro h
    refine run_induct env (P := fun h _ => (∀ e ∈ h, ∀ reg' urls' o' w', e = .notify reg' urls' o' w' → reg' = reg) →
      Spec.announced env h = [] ∨ ∃ l, Spec.announced env h = [(reg, l)]) (fun _ => Or.inl rfl) ?_ h
    intro h e ih hone
    have ih := ih (fun e' he' => hone e' (by simp [he']))
    rw [announced_snoc]
    cases e with
    | notify reg' urls' o' w' =>
      have hr := hone (.notify reg' urls' o' w') (by simp) reg' urls' o' w' rfl
      subst hr
      simp only
      split
      · rcases ih with ih | ⟨l, ih⟩ <;> rw [ih] <;> exact Or.inr ⟨Spec.ids env urls', by simp [AMap.store]⟩
      · rcases ih with ih | ⟨l, ih⟩ <;> rw [ih]
        · exact Or.inl rfl
        · exact Or.inr ⟨l, rfl⟩
    | setFilter f o w => exact ih
    | wake k => exact ih
    | destroy => exact ih
  rcases key h hone with h0 | ⟨l, h0⟩ <;> rw [h0] <;> simp [AMap.store, Spec.ids]

/-! ## Objects are kept, and destroyed when and only when dropped -/

theorem place_nil (env : Env) (us : List (Option URL)) (m : AMap Bytes Ep) (n : Nat)
    (h : (place env us m n).1 = []) : (place env us m n).2 = (m, n) := by
  induction us generalizing m n with
  | nil => rfl
  | cons x us ih =>
    cases x with
    | none => rw [place] at h ⊢; exact ih m n h
    | some u =>
      rw [place] at h ⊢
      split at h
      · rename_i hc; rw [if_pos hc]; exact ih m n h
      · rename_i hc
        rw [if_neg hc]
        cases hl : AMap.load m (idOf u) with
        | some ep => rw [hl] at h; simp at h
        | none =>
          rw [hl] at h
          simp only at h ⊢
          split at h
          · simp at h
          · rename_i hk; rw [if_neg hk]; exact ih m n h

/-- How often an object occurs among those held, waiting to be destroyed and destroyed. -/
def total (o : Nat) (s : State N) : Nat :=
  cnt o (Spec.held s) + (Spec.waiting s).count o + s.destroyed.count o

theorem total_notify (env : Env) (s : State N) (hk : s.registryRefers.NodupKeys) (reg : Bytes)
    (urls : List (Option URL)) (or w : List (Nat × Nat)) (o : Nat) :
    s.next ≤ (notify env s reg urls or w).next ∧
    total o (notify env s reg urls or w) ≤
      total o s + (if s.next ≤ o ∧ o < (notify env s reg urls or w).next then 1 else 0) ∧
    ((((AMap.load s.registryRefers reg).getD []).map fun e => idOf e.url).Nodup →
      total o (notify env s reg urls or w) =
        total o s + (if s.next ≤ o ∧ o < (notify env s reg urls or w).next then 1 else 0)) := by
  have hc := place_count env (processWeight urls).1
    (endpointMap ((AMap.load s.registryRefers reg).getD [])) (endpointMap_nodup _) s.next o
  have hm := endpointMap_count o ((AMap.load s.registryRefers reg).getD [])
  rcases notify_cases env s reg urls or w with ⟨h0, _, e⟩ | ⟨h0, _, t, ht, e⟩ | ⟨h0, t, ht, e⟩
  · have hn := place_nil _ _ _ _ h0
    rw [e, hn]
    simp only [total, Spec.held, Spec.waiting]
    rw [if_neg (by omega)]
    exact ⟨Nat.le_refl _, Nat.le_refl _, fun _ => rfl⟩
  · have hw := wsum_erase (cnt o) s.registryRefers hk reg
    have hl : (AMap.load s.registryRefers reg).elim 0 (cnt o) =
        cnt o ((AMap.load s.registryRefers reg).getD []) := by
      cases AMap.load s.registryRefers reg <;> rfl
    rw [hl, ← cnt_flat, ← cnt_flat] at hw
    have h1 : (notify env s reg urls or w).next = (place env (processWeight urls).1
        (endpointMap ((AMap.load s.registryRefers reg).getD [])) s.next).2.2 := by rw [e, ht]; rfl
    have h2 : total o (notify env s reg urls or w) = cnt o ((AMap.erase s.registryRefers reg).flatMap Prod.snd) +
        ((Spec.waiting s).count o + cnt o ((place env (processWeight urls).1
        (endpointMap ((AMap.load s.registryRefers reg).getD [])) s.next).2.1.map Prod.snd)) + s.destroyed.count o := by
      rw [e, ht]; simp [total, Spec.held, Spec.waiting, refresh, cnt]
    rw [h1, h2]
    rw [h0] at hc
    have h3 : cnt o [] = 0 := rfl
    simp only [total, Spec.held]
    have hm1 := hm.1
    refine ⟨hc.1, by omega, fun hnd => ?_⟩
    have hm2 := hm.2 hnd
    omega
  · have hw := wsum_store (cnt o) s.registryRefers reg (place env (processWeight urls).1
        (endpointMap ((AMap.load s.registryRefers reg).getD [])) s.next).1
    have hl : (AMap.load s.registryRefers reg).elim 0 (cnt o) =
        cnt o ((AMap.load s.registryRefers reg).getD []) := by
      cases AMap.load s.registryRefers reg <;> rfl
    rw [hl, ← cnt_flat, ← cnt_flat] at hw
    have h1 : (notify env s reg urls or w).next = (place env (processWeight urls).1
        (endpointMap ((AMap.load s.registryRefers reg).getD [])) s.next).2.2 := by rw [e, ht]; rfl
    have h2 : total o (notify env s reg urls or w) = cnt o ((AMap.store s.registryRefers reg
          (place env (processWeight urls).1
            (endpointMap ((AMap.load s.registryRefers reg).getD [])) s.next).1).flatMap Prod.snd) +
        ((Spec.waiting s).count o + cnt o ((place env (processWeight urls).1
        (endpointMap ((AMap.load s.registryRefers reg).getD [])) s.next).2.1.map Prod.snd)) + s.destroyed.count o := by
      rw [e, ht]; simp [total, Spec.held, Spec.waiting, refresh, cnt]
    rw [h1, h2]
    simp only [total, Spec.held]
    have hm1 := hm.1
    have hc2 := hc.2
    refine ⟨hc.1, by omega, fun hnd => ?_⟩
    have hm2 := hm.2 hnd
    omega

theorem total_wake (s : State N) (k : Nat) (o : Nat) : total o (wake s k) = total o s ∧ (wake s k).next = s.next := by
  unfold wake
  cases h : s.pending[k]? with
  | none => exact ⟨rfl, rfl⟩
  | some l =>
    refine ⟨?_, rfl⟩
    have key : ∀ (p : List (List Ep)) (k : Nat), p[k]? = some l →
        ((p.eraseIdx k).flatten.map Ep.obj).count o + (l.map Ep.obj).count o = (p.flatten.map Ep.obj).count o := by
      intro p
      induction p with
      | nil => intro k h; simp at h
      | cons a p ih =>
        intro k h
        cases k with
        | zero => simp at h; subst h; simp; omega
        | succ k =>
          have := ih k (by simpa using h)
          simp only [List.eraseIdx_cons_succ, List.flatten_cons, List.map_append, List.count_append]
          omega
    have := key s.pending k h
    simp only [total, Spec.held, Spec.waiting, List.count_append]
    omega

theorem total_setFilter (s : State N) (f : Option (Filter N)) (or w : List (Nat × Nat)) (o : Nat) :
    total o (setRefersFilter s f or w) = total o s ∧ (setRefersFilter s f or w).next = s.next := by
  unfold setRefersFilter
  split
  · exact ⟨rfl, rfl⟩
  · exact ⟨rfl, rfl⟩

theorem total_le (env : Env) (h : List (Event N)) (hop : Spec.Open h) (o : Nat) :
    total o (run env h) ≤ if o < (run env h).next then 1 else 0 := by
  refine run_induct env (P := fun h s => Spec.Open h → total o s ≤ if o < s.next then 1 else 0) ?_ ?_ h hop
  · intro _; simp [total, Spec.held, Spec.waiting, cnt]
  · intro h e ih hop
    have ih := ih (fun e' he' => hop e' (by simp [he']))
    cases e with
    | notify reg urls or w =>
      have ht := total_notify env (run env h) (inv_run env h).keys reg urls or w o
      have h1 := ht.1
      have h2 := ht.2.1
      show total o (notify env (run env h) reg urls or w) ≤ if o < (notify env (run env h) reg urls or w).next then 1 else 0
      by_cases c1 : o < (run env h).next
      · rw [if_pos c1] at ih; rw [if_neg (by omega)] at h2; rw [if_pos (by omega)]; omega
      · rw [if_neg c1] at ih
        by_cases c2 : o < (notify env (run env h) reg urls or w).next
        · rw [if_pos c2]; rw [if_pos (by omega)] at h2; omega
        · rw [if_neg c2]; rw [if_neg (by omega)] at h2; omega
    | setFilter f or w =>
      have ht := total_setFilter (run env h) f or w o
      show total o (setRefersFilter (run env h) f or w) ≤ _
      rw [ht.1]; show _ ≤ if o < (setRefersFilter (run env h) f or w).next then 1 else 0; rw [ht.2]; exact ih
    | wake k =>
      have ht := total_wake (run env h) k o
      show total o (wake (run env h) k) ≤ _
      rw [ht.1]; show _ ≤ if o < (wake (run env h) k).next then 1 else 0; rw [ht.2]; exact ih
    | destroy => exact absurd rfl (hop .destroy (by simp))

/-- No endpoint in use is destroyed or waiting to be destroyed, whatever the notifications; nothing is destroyed
twice. -/
theorem in_use_not_destroyed (env : Env) (h : List (Event N)) (hop : Spec.Open h) :
    (∀ e ∈ (run env h).refers, e.obj ∉ (run env h).destroyed ∧ e.obj ∉ Spec.waiting (run env h)) ∧
    ((run env h).refers.map Ep.obj).Nodup ∧ (run env h).destroyed.Nodup := by
  have hsub : ∀ o, cnt o (run env h).refers ≤ cnt o (Spec.held (run env h)) := by
    intro o
    have h1 := (inv_run env h).refers
    have h2 : cnt o (run env h).refers = cnt o (filterRefers (run env h).refersFilter Ep.url (Spec.held (run env h))) :=
      (h1.map _).count_eq _
    rw [h2]
    exact ((filterRefers_sub _ _ _).map Ep.obj).count_le _
  have hone : ∀ o, total o (run env h) ≤ 1 := by
    intro o; have := total_le env h hop o; split at this <;> omega
  refine ⟨fun e he => ?_, ?_, ?_⟩
  · have hpos : 0 < cnt e.obj (run env h).refers := List.count_pos_iff.mpr (List.mem_map_of_mem he)
    have h1 := hsub e.obj
    have h2 := hone e.obj
    unfold total at h2
    constructor
    · intro hd; have := List.count_pos_iff.mpr hd; omega
    · intro hd; have := List.count_pos_iff.mpr hd; omega
  · rw [List.nodup_iff_count]
    intro o
    have h1 := hsub o; have h2 := hone o; unfold total at h2; unfold cnt at h1 h2; omega
  · rw [List.nodup_iff_count]
    intro o
    have h2 := hone o; unfold total at h2; omega

theorem announced_nodup (env : Env) (h : List (Event N)) (hd : Spec.DistinctHistory env h) :
    ∀ k l, AMap.load (Spec.announced env h) k = some l → l.Nodup := by
  refine run_induct env (P := fun h _ => Spec.DistinctHistory env h →
    ∀ k l, AMap.load (Spec.announced env h) k = some l → l.Nodup) ?_ ?_ h hd
  · intro _ k l hl; simp [Spec.announced, AMap.load] at hl
  · intro h e ih hd
    have ih := ih (fun e' he' => hd e' (by simp [he']))
    rw [announced_snoc]
    cases e with
    | notify reg urls or w =>
      simp only
      intro k l
      split
      · rw [AMap.load_store]
        split
        · intro hl; rw [← Option.some.inj hl]; exact hd (.notify reg urls or w) (by simp) reg urls or w rfl
        · exact ih k l
      · split
        · rw [AMap.load_erase]
          split
          · intro hl; exact absurd hl (by simp)
          · exact ih k l
        · exact ih k l
    | setFilter f or w => exact ih
    | wake k => exact ih
    | destroy => exact ih

theorem load_map {κ ν μ : Type} [DecidableEq κ] (f : ν → μ) (m : AMap κ ν) (k : κ) :
    AMap.load (m.map fun p => (p.1, f p.2)) k = (AMap.load m k).map f := by
  induction m with
  | nil => rfl
  | cons p m ih =>
    rw [List.map_cons, AMap.load_cons, ih]
    obtain ⟨k', v⟩ := p
    rw [AMap.load_cons]
    split <;> rfl

theorem held_nodup (env : Env) (h : List (Event N)) (ho : Spec.OrdinaryHistory h) (hd : Spec.DistinctHistory env h)
    (reg : Bytes) (l : List Ep) (hl : AMap.load (run env h).registryRefers reg = some l) :
    (l.map fun e => idOf e.url).Nodup := by
  obtain ⟨h1, h2⟩ := heldIds_run env h ho
  have h3 := announced_nodup env h hd reg (l.map fun e => Spec.identity e.url) (by
    rw [← h1, heldIds, load_map, hl]; rfl)
  have : (l.map fun e => idOf e.url) = l.map fun e => Spec.identity e.url :=
    List.map_congr_left fun e he => (h2 reg l hl e he).1
  rw [this]; exact h3

/-- Nothing is lost: when no notification names a server twice, every endpoint ever created is held, waiting to be
destroyed or destroyed, and exactly one of these. -/
theorem endpoints_accounted (env : Env) (h : List (Event N)) (ho : Spec.OrdinaryHistory h)
    (hd : Spec.DistinctHistory env h) (hop : Spec.Open h) :
    ((Spec.held (run env h)).map Ep.obj ++ Spec.waiting (run env h) ++ (run env h).destroyed).Perm
      (List.range (run env h).next) := by
  rw [List.perm_iff_count]
  intro o
  have hr : (List.range (run env h).next).count o = if o < (run env h).next then 1 else 0 := by
    have hnd := List.nodup_range (n := (run env h).next)
    split
    · rename_i hlt
      have h1 : o ∈ List.range (run env h).next := List.mem_range.mpr hlt
      have := List.nodup_iff_count.mp hnd o
      have := List.count_pos_iff.mpr h1
      omega
    · rename_i hlt
      exact List.count_eq_zero.mpr (fun hm => hlt (List.mem_range.mp hm))
  rw [hr, List.count_append, List.count_append]
  show total o (run env h) = _
  refine run_induct env (P := fun h s => Spec.OrdinaryHistory h → Spec.DistinctHistory env h → Spec.Open h →
    total o s = if o < s.next then 1 else 0) ?_ ?_ h ho hd hop
  · intro _ _ _; simp [total, Spec.held, Spec.waiting, cnt]
  · intro h e ih ho hd hop
    have ho' := ordinary_init ho
    have hd' : Spec.DistinctHistory env h := fun e' he' => hd e' (by simp [he'])
    have ih := ih ho' hd' (fun e' he' => hop e' (by simp [he']))
    cases e with
    | notify reg urls or w =>
      have ht := total_notify env (run env h) (inv_run env h).keys reg urls or w o
      have h1 := ht.1
      have h2 := ht.2.2 (by
        cases hl : AMap.load (run env h).registryRefers reg with
        | none => simp
        | some l => exact held_nodup env h ho' hd' reg l hl)
      show total o (notify env (run env h) reg urls or w) = if o < (notify env (run env h) reg urls or w).next then 1 else 0
      by_cases c1 : o < (run env h).next
      · rw [if_pos c1] at ih; rw [if_neg (by omega)] at h2; rw [if_pos (by omega)]; omega
      · rw [if_neg c1] at ih
        by_cases c2 : o < (notify env (run env h) reg urls or w).next
        · rw [if_pos c2]; rw [if_pos (by omega)] at h2; omega
        · rw [if_neg c2]; rw [if_neg (by omega)] at h2; omega
    | setFilter f or w =>
      have ht := total_setFilter (run env h) f or w o
      show total o (setRefersFilter (run env h) f or w) = _
      rw [ht.1]; show _ = if o < (setRefersFilter (run env h) f or w).next then 1 else 0; rw [ht.2]; exact ih
    | wake k =>
      have ht := total_wake (run env h) k o
      show total o (wake (run env h) k) = _
      rw [ht.1]; show _ = if o < (wake (run env h) k).next then 1 else 0; rw [ht.2]; exact ih
    | destroy => exact absurd rfl (hop .destroy (by simp))

theorem place_keeps (env : Env) (us : List (Option URL)) (m : AMap Bytes Ep) (n : Nat)
    (k : Bytes) (e : Ep) (hl : AMap.load m k = some e)
    (hu : ∃ u, some u ∈ us ∧ canServe u env.url = true ∧ idOf u = k) :
    e ∈ (place env us m n).1 := by
  induction us generalizing m n with
  | nil => obtain ⟨u, h, _⟩ := hu; exact absurd h (by simp)
  | cons x us ih =>
    obtain ⟨u, hmem, hc, hid⟩ := hu
    cases x with
    | none =>
      rw [place]
      exact ih m n hl ⟨u, by simpa using hmem, hc, hid⟩
    | some v =>
      rw [place]
      by_cases hcv : canServe v env.url = true
      · rw [if_neg (by simpa using hcv)]
        by_cases hvk : idOf v = k
        · rw [hvk, hl]; simp
        · have hu' : ∃ u, some u ∈ us ∧ canServe u env.url = true ∧ idOf u = k := by
            refine ⟨u, ?_, hc, hid⟩
            rcases List.mem_cons.mp hmem with h' | h'
            · exact absurd (by rw [← Option.some.inj h']; exact hid) hvk
            · exact h'
          cases hlv : AMap.load m (idOf v) with
          | some ep =>
            simp only
            exact List.mem_cons_of_mem _ (ih _ n (by rw [AMap.load_erase, if_neg hvk]; exact hl) hu')
          | none =>
            simp only
            split
            · exact List.mem_cons_of_mem _ (ih m (n + 1) hl hu')
            · exact ih m n hl hu'
      · rw [if_pos (by simpa using hcv)]
        refine ih m n hl ⟨u, ?_, hc, hid⟩
        rcases List.mem_cons.mp hmem with h' | h'
        · exact absurd (by rw [← Option.some.inj h']; exact hc) hcv
        · exact h'

theorem place_drops (env : Env) (us : List (Option URL)) (m : AMap Bytes Ep) (n : Nat)
    (k : Bytes) (e : Ep) (hl : AMap.load m k = some e)
    (hu : ∀ u, some u ∈ us → canServe u env.url = true → idOf u ≠ k) :
    AMap.load (place env us m n).2.1 k = some e := by
  induction us generalizing m n with
  | nil => exact hl
  | cons x us ih =>
    have hu' : ∀ u, some u ∈ us → canServe u env.url = true → idOf u ≠ k := fun u hm => hu u (by simp [hm])
    cases x with
    | none => rw [place]; exact ih m n hl hu'
    | some v =>
      rw [place]
      by_cases hcv : canServe v env.url = true
      · rw [if_neg (by simpa using hcv)]
        have hvk := hu v (by simp) hcv
        cases hlv : AMap.load m (idOf v) with
        | some ep => exact ih _ n (by rw [AMap.load_erase, if_neg hvk]; exact hl) hu'
        | none =>
          simp only
          split
          · exact ih m (n + 1) hl hu'
          · exact ih m n hl hu'
      · rw [if_pos (by simpa using hcv)]
        exact ih m n hl hu'

theorem endpointMap_has (eps : List Ep) (hn : (eps.map fun e => idOf e.url).Nodup) (e : Ep) (he : e ∈ eps) :
    AMap.load (endpointMap eps) (idOf e.url) = some e := by
  unfold endpointMap
  rw [AMap.load_storeAll]
  · have hk : AMap.NodupKeys (eps.map fun e => (idOf e.url, e)) := by
      simpa [AMap.NodupKeys, AMap.keys, List.map_map, Function.comp_def] using hn
    rw [AMap.load_of_mem hk (List.mem_map_of_mem (f := fun e => (idOf e.url, e)) he)]
  · simpa [AMap.NodupKeys, AMap.keys, List.map_map, Function.comp_def] using hn

/-- The endpoints held for one registry. -/
def Spec.heldFor (s : State N) (reg : Bytes) : List Ep := (AMap.load s.registryRefers reg).getD []

theorem mem_servers {urls : List (Option URL)} {u : URL} :
    u ∈ Spec.servers urls ↔ some u ∈ (processWeight urls).1 := by
  rw [← processWeight_servers, List.mem_filterMap]
  constructor
  · rintro ⟨x, hx, he⟩; rw [← show x = some u from he]; exact hx
  · intro h; exact ⟨some u, h, rfl⟩

theorem ordinary_last {h : List (Event N)} {reg : Bytes} {urls : List (Option URL)} {o w : List (Nat × Nat)}
    (ho : Spec.OrdinaryHistory (h ++ [.notify reg urls o w])) {u : URL} (hu : u ∈ Spec.servers urls) :
    Spec.Ordinary u :=
  ho (.notify reg urls o w) (by simp) reg urls o w rfl u (processWeight_mem (mem_servers.mp hu))

/-- An endpoint held for a registry whose server is announced again by that registry stays: the same object. -/
theorem endpoint_kept (env : Env) (h : List (Event N)) (reg : Bytes) (urls : List (Option URL))
    (o w : List (Nat × Nat)) (ho : Spec.OrdinaryHistory (h ++ [.notify reg urls o w]))
    (hd : Spec.DistinctHistory env h) (e : Ep) (he : e ∈ Spec.heldFor (run env h) reg)
    (hid : Spec.identity e.url ∈ Spec.ids env urls) :
    e ∈ Spec.heldFor (run env (h ++ [.notify reg urls o w])) reg := by
  have ho' := ordinary_init ho
  obtain ⟨_, hgood⟩ := heldIds_run env h ho'
  cases hl : AMap.load (run env h).registryRefers reg with
  | none => rw [Spec.heldFor, hl] at he; exact absurd he (by simp)
  | some l =>
    rw [Spec.heldFor, hl] at he
    simp only [Option.getD_some] at he
    have hg := hgood reg l hl e he
    have hm := endpointMap_has l (held_nodup env h ho' hd reg l hl) e he
    obtain ⟨u, hu, hue⟩ := List.mem_map.mp hid
    obtain ⟨hu1, hu2⟩ := List.mem_filter.mp hu
    have hu2 : canServe u env.url = true ∧ env.known u.protocol = true := by simpa using hu2
    have hkeep := place_keeps env (processWeight urls).1 (endpointMap l) (run env h).next _ e hm
      ⟨u, mem_servers.mp hu1, hu2.1, by rw [hg.1, ← hue]; exact (ordinary_last ho hu1).1⟩
    have hrun : run env (h ++ [.notify reg urls o w]) = notify env (run env h) reg urls o w := by
      rw [run_append]; rfl
    rw [hrun]
    have hne : (place env (processWeight urls).1 (endpointMap ((AMap.load (run env h).registryRefers reg).getD []))
        (run env h).next).1 ≠ [] := by
      rw [hl]; intro h0; simp only [Option.getD_some] at h0; rw [h0] at hkeep; exact absurd hkeep (by simp)
    rcases notify_cases env (run env h) reg urls o w with ⟨h0, _, eq⟩ | ⟨h0, _, t, ht, eq⟩ | ⟨h0, t, ht, eq⟩
    · exact absurd h0 hne
    · exact absurd h0 hne
    · rw [eq, ht]
      show e ∈ (AMap.load (AMap.store (run env h).registryRefers reg _) reg).getD []
      rw [AMap.load_store, if_pos rfl, hl]
      exact hkeep

/-- An endpoint held for a registry whose server that registry no longer announces is taken out of use at once and
handed to a goroutine that destroys it, unless the notification is one of the ignored ones. -/
theorem endpoint_removed (env : Env) (h : List (Event N)) (reg : Bytes) (urls : List (Option URL))
    (o w : List (Nat × Nat)) (ho : Spec.OrdinaryHistory (h ++ [.notify reg urls o w]))
    (hd : Spec.DistinctHistory env h) (hop : Spec.Open h) (e : Ep) (he : e ∈ Spec.heldFor (run env h) reg)
    (hid : Spec.identity e.url ∉ Spec.ids env urls)
    (hnot : Spec.ids env urls ≠ [] ∨ 2 ≤ (Spec.announced env h).length) :
    let s' := run env (h ++ [.notify reg urls o w])
    (∀ e' ∈ s'.refers, e'.obj ≠ e.obj) ∧
    e.obj ∈ (run env (h ++ [.notify reg urls o w, .wake (run env h).pending.length])).destroyed := by
  intro s'
  have ho' := ordinary_init ho
  obtain ⟨hids, hgood⟩ := heldIds_run env h ho'
  have hlen : (Spec.announced env h).length = (run env h).registryRefers.length := by
    rw [← hids, heldIds, List.length_map]
  cases hl : AMap.load (run env h).registryRefers reg with
  | none => rw [Spec.heldFor, hl] at he; exact absurd he (by simp)
  | some l =>
    rw [Spec.heldFor, hl] at he
    simp only [Option.getD_some] at he
    have hg := hgood reg l hl e he
    have hm := endpointMap_has l (held_nodup env h ho' hd reg l hl) e he
    have hdrop := place_drops env (processWeight urls).1 (endpointMap l) (run env h).next _ e hm (by
      intro u hu hc heq
      have hu' := mem_servers.mpr hu
      have hord := ordinary_last ho hu'
      have hi : Spec.identity u = Spec.identity e.url := by rw [← hg.1, ← heq]; exact hord.1.symm
      have hp := identity_protocol hord.2.2 hg.2.2.2 hi
      apply hid
      rw [← hi]
      exact List.mem_map_of_mem (List.mem_filter.mpr ⟨hu', by simp [hc, hp, hg.2.1]⟩))
    have hmem : e ∈ (place env (processWeight urls).1 (endpointMap l) (run env h).next).2.1.map Prod.snd :=
      List.mem_map.mpr ⟨_, AMap.mem_of_load hdrop, rfl⟩
    have hrun : s' = notify env (run env h) reg urls o w := by
      show run env (h ++ [.notify reg urls o w]) = _
      rw [run_append]; rfl
    have hmap : ∀ k e, AMap.load (endpointMap ((AMap.load (run env h).registryRefers reg).getD [])) k = some e →
        idOf e.url = k ∧ Good env e := by
      intro k e he
      obtain ⟨h1, h2⟩ := endpointMap_load _ _ _ he
      rw [hl] at h1
      exact ⟨h2, hgood reg l hl e h1⟩
    have hp := place_ids env (processWeight urls).1 _ (run env h).next hmap
      (fun u hu => ordinary_last ho (mem_servers.mpr hu))
    rw [processWeight_servers] at hp
    have hp1 : _ = Spec.ids env urls := hp.1
    have hpend : s'.pending = (run env h).pending ++
        [(place env (processWeight urls).1 (endpointMap l) (run env h).next).2.1.map Prod.snd] := by
      rw [hrun]
      rcases notify_cases env (run env h) reg urls o w with ⟨h0, h1, eq⟩ | ⟨h0, _, t, ht, eq⟩ | ⟨h0, t, ht, eq⟩
      · exfalso
        rcases hnot with hnot | hnot
        · exact hnot (by rw [← hp1, h0]; rfl)
        · omega
      · rw [eq]; show _ ++ _ = _; rw [hl]; rfl
      · rw [eq]; show _ ++ _ = _; rw [hl]; rfl
    have hop' : Spec.Open (h ++ [.notify reg urls o w]) := by
      intro e' he'
      rcases List.mem_append.mp he' with h1 | h1
      · exact hop e' h1
      · rw [List.mem_singleton.mp h1]; simp
    have hwait : e.obj ∈ Spec.waiting s' := by
      unfold Spec.waiting
      rw [hpend]
      simp only [List.flatten_append, List.map_append, List.mem_append]
      refine Or.inr (List.mem_map_of_mem (f := Ep.obj) (a := e) ?_)
      rw [List.flatten_cons, List.flatten_nil, List.append_nil]
      exact hmem
    refine ⟨fun e' he' heq => ?_, ?_⟩
    · exact ((in_use_not_destroyed env _ hop').1 e' he').2 (by rw [heq]; exact hwait)
    · have e1 : run env (h ++ [.notify reg urls o w, .wake (run env h).pending.length]) =
          wake s' (run env h).pending.length := by
        have : h ++ [Event.notify reg urls o w, .wake (run env h).pending.length] =
          (h ++ [.notify reg urls o w]) ++ [.wake (run env h).pending.length] := by simp
        rw [this, run_append]; rfl
      rw [e1, wake, hpend]
      simp only [List.getElem?_append_right (Nat.le_refl _), Nat.sub_self, List.getElem?_cons_zero]
      exact List.mem_append.mpr (Or.inr (List.mem_map_of_mem hmem))

/-! ## A cluster that has endpoints keeps some -/

theorem held_nil (s : State N) (hi : Inv s) : s.refers = [] ↔ s.registryRefers = [] := by
  constructor
  · intro h
    have hp := hi.refers
    rw [h] at hp
    have h1 : filterRefers s.refersFilter Ep.url (Spec.held s) = [] := hp.symm.eq_nil
    have h2 : Spec.held s = [] := by
      by_cases hh : Spec.held s = []
      · exact hh
      · exact absurd h1 (refers_filter_nonempty _ _ _ hh)
    cases hr : s.registryRefers with
    | nil => rfl
    | cons p m =>
      obtain ⟨k, l⟩ := p
      have h3 : l = [] := by
        unfold Spec.held at h2; rw [hr] at h2; simp at h2; exact h2.1
      exact absurd (by rw [hr, h3]; simp [AMap.load]) (hi.nonempty k)
  · intro h
    have hp := hi.refers
    have h2 : Spec.held s = [] := by unfold Spec.held; rw [h]; rfl
    rw [h2] at hp
    have h3 : filterRefers s.refersFilter Ep.url ([] : List Ep) = [] := by
      cases s.refersFilter <;> rfl
    rw [h3] at hp
    exact hp.eq_nil

theorem length_erase {κ ν : Type} [DecidableEq κ] (m : AMap κ ν) (hn : m.NodupKeys) (k : κ) :
    m.length ≤ (AMap.erase m k).length + 1 := by
  have h := wsum_erase (fun _ => 1) m hn k
  have e : ∀ (m : AMap κ ν), wsum (fun _ => 1) m = m.length := by
    intro m; induction m with
    | nil => rfl
    | cons p m ih => rw [wsum, ih, List.length_cons]; omega
  rw [e, e] at h
  cases hl : AMap.load m k with
  | none => rw [hl] at h; simp at h; omega
  | some v => rw [hl] at h; simp at h; omega

/-- Once a cluster has endpoints to call through, no sequence of notifications, filter changes or destructions
leaves it with none. -/
theorem cluster_never_emptied (env : Env) (h h' : List (Event N)) (hne : (run env h).refers ≠ []) :
    (run env (h ++ h')).refers ≠ [] := by
  have key : ∀ (h' : List (Event N)) (s : State N), Inv s → s.registryRefers ≠ [] →
      (h'.foldl (step env) s).registryRefers ≠ [] := by
    intro h'
    induction h' with
    | nil => intro s _ hs; exact hs
    | cons e h' ih =>
      intro s hi hs
      rw [List.foldl_cons]
      refine ih _ (inv_step env s e hi) ?_
      cases e with
      | notify reg urls o w =>
        show (notify env s reg urls o w).registryRefers ≠ []
        rcases notify_cases env s reg urls o w with ⟨_, _, e⟩ | ⟨_, h1, t, ht, e⟩ | ⟨_, t, ht, e⟩
        · rw [e]; exact hs
        · rw [e, ht]
          show AMap.erase s.registryRefers reg ≠ []
          have := length_erase s.registryRefers hi.keys reg
          intro h0; rw [h0] at this; simp only [List.length_nil] at this; omega
        · rw [e, ht]
          show AMap.store s.registryRefers reg _ ≠ []
          intro h0
          have h1 := AMap.load_store s.registryRefers reg reg (place env (processWeight urls).1
            (endpointMap ((AMap.load s.registryRefers reg).getD [])) s.next).1
          rw [h0] at h1
          simp [AMap.load] at h1
      | setFilter f o w =>
        show (setRefersFilter s f o w).registryRefers ≠ []
        unfold setRefersFilter; split <;> exact hs
      | wake k => show (wake s k).registryRefers ≠ []; unfold wake; split <;> exact hs
      | destroy => show (destroy s).registryRefers ≠ []; unfold destroy; split <;> exact hs
  have h1 : (run env h).registryRefers ≠ [] := fun h0 => hne ((held_nil _ (inv_run env h)).mpr h0)
  have h2 := key h' (run env h) (inv_run env h) h1
  rw [← run_append] at h2
  exact fun h0 => h2 ((held_nil _ (inv_run env _)).mp h0)

/-- A notification that names nothing usable, when at most one registry has endpoints, changes nothing in use and
destroys nothing. -/
theorem empty_notification_ignored (env : Env) (h : List (Event N)) (reg : Bytes) (urls : List (Option URL))
    (o w : List (Nat × Nat)) (ho : Spec.OrdinaryHistory (h ++ [.notify reg urls o w]))
    (hone : (Spec.announced env h).length ≤ 1) (hids : Spec.ids env urls = []) :
    let s' := run env (h ++ [.notify reg urls o w])
    s'.refers = (run env h).refers ∧ s'.balanced = (run env h).balanced ∧
    Spec.held s' = Spec.held (run env h) ∧ s'.pending = (run env h).pending ∧
    s'.destroyed = (run env h).destroyed := by
  intro s'
  have ho' := ordinary_init ho
  obtain ⟨hi, hgood⟩ := heldIds_run env h ho'
  have hlen : (Spec.announced env h).length = (run env h).registryRefers.length := by
    rw [← hi, heldIds, List.length_map]
  have hmap : ∀ k e, AMap.load (endpointMap ((AMap.load (run env h).registryRefers reg).getD [])) k = some e →
      idOf e.url = k ∧ Good env e := by
    intro k e he
    obtain ⟨h1, h2⟩ := endpointMap_load _ _ _ he
    refine ⟨h2, ?_⟩
    cases hl : AMap.load (run env h).registryRefers reg with
    | none => rw [hl] at h1; exact absurd h1 (by simp)
    | some l => rw [hl] at h1; exact hgood reg l hl e h1
  have hp := place_ids env (processWeight urls).1 _ (run env h).next hmap
    (fun u hu => ordinary_last ho (mem_servers.mpr hu))
  rw [processWeight_servers] at hp
  have hp1 : _ = Spec.ids env urls := hp.1
  rw [hids] at hp1
  have hnil := List.map_eq_nil_iff.mp hp1
  have hrun : s' = notify env (run env h) reg urls o w := by
    show run env (h ++ [.notify reg urls o w]) = _
    rw [run_append]; rfl
  rcases notify_cases env (run env h) reg urls o w with ⟨_, _, eq⟩ | ⟨_, h1, _⟩ | ⟨h0, _⟩
  · rw [hrun, eq]; exact ⟨rfl, rfl, rfl, rfl, rfl⟩
  · omega
  · exact absurd hnil h0

/-- The weight rule in force after a notification: that of its closing rule URL, or none. -/
theorem notification_weight (env : Env) (h : List (Event N)) (reg : Bytes) (urls : List (Option URL)) (rule : URL)
    (o w : List (Nat × Nat)) (hr : rule.protocol = b!"rule") :
    (run env (h ++ [.notify reg (urls ++ [some rule]) o w])).weight = (rule.param b!"weight").getD [] ∧
    ((∀ u, urls.getLast? = some (some u) → u.protocol ≠ b!"rule") →
      (run env (h ++ [.notify reg urls o w])).weight = []) := by
  have hrun : ∀ urls, (run env (h ++ [.notify reg urls o w])).weight = (processWeight urls).2 := by
    intro urls
    have : run env (h ++ [.notify reg urls o w]) = notify env (run env h) reg urls o w := by rw [run_append]; rfl
    rw [this]
    rcases notify_cases env (run env h) reg urls o w with ⟨_, _, eq⟩ | ⟨_, _, t, ht, eq⟩ | ⟨_, t, ht, eq⟩
    · rw [eq]
    · rw [eq, ht]; rfl
    · rw [eq, ht]; rfl
  rw [hrun, hrun]
  constructor
  · simp [processWeight, hr]
  · intro hn
    unfold processWeight
    split
    · rename_i u hu; rw [if_neg (hn u hu)]
    · rfl

/-! ## Destroying the cluster -/

/-- Destroying a cluster whose filter leaves everything in use destroys, with what the waiting goroutines still
destroy, every endpoint it ever created. -/
theorem cluster_destroy (env : Env) (h : List (Event N)) (ho : Spec.OrdinaryHistory h)
    (hd : Spec.DistinctHistory env h) (hop : Spec.Open h)
    (hall : (filterRefers (Spec.filterOf h) Ep.url (Spec.held (run env h))) = Spec.held (run env h)) :
    (Spec.waiting (run env (h ++ [.destroy])) ++ (run env (h ++ [.destroy])).destroyed).Perm
      (List.range (run env (h ++ [.destroy])).next) := by
  have hcl : (run env h).closed = false := by
    refine run_induct env (P := fun h s => Spec.Open h → s.closed = false) (fun _ => rfl) ?_ h hop
    intro h e ih hop
    have ih := ih (fun e' he' => hop e' (by simp [he']))
    cases e with
    | notify reg urls o w =>
      show (notify env (run env h) reg urls o w).closed = _
      rcases notify_cases env (run env h) reg urls o w with ⟨_, _, eq⟩ | ⟨_, _, t, ht, eq⟩ | ⟨_, t, ht, eq⟩
      · rw [eq]; exact ih
      · rw [eq, ht]; exact ih
      · rw [eq, ht]; exact ih
    | setFilter f o w =>
      show (setRefersFilter (run env h) f o w).closed = _
      unfold setRefersFilter; split <;> exact ih
    | wake k => show (wake (run env h) k).closed = _; unfold wake; split <;> exact ih
    | destroy => exact absurd rfl (hop .destroy (by simp))
  have hrun : run env (h ++ [.destroy]) =
      { run env h with destroyed := (run env h).destroyed ++ (run env h).refers.map Ep.obj, closed := true } := by
    rw [run_append]; show destroy (run env h) = _; rw [destroy, hcl]; rfl
  have hr := (cluster_endpoints env h ho).2.1
  rw [hall] at hr
  have ha := endpoints_accounted env h ho hd hop
  rw [hrun]
  show (Spec.waiting (run env h) ++ ((run env h).destroyed ++ (run env h).refers.map Ep.obj)).Perm
    (List.range (run env h).next)
  refine List.Perm.trans ?_ ha
  rw [← List.append_assoc, List.append_assoc _ (Spec.waiting _)]
  exact (List.perm_append_comm).trans (List.Perm.append_right _ (hr.map _))

/-! ## Examples and counterexamples -/

def exCluster : URL :=
  { protocol := b!"motan2", path := b!"svc", group := b!"g", params := some [(b!"requestTimeout", b!"500")] }

def exEnv : Env := { url := exCluster, known := fun p => p = b!"motan2" }

def server (host : Bytes) : URL :=
  { protocol := b!"motan2", host := host, port := 8002, path := b!"svc", group := b!"g",
    params := some [(b!"weight", b!"1")] }

def ev (reg : Bytes) (hosts : List Bytes) : Event exNet := .notify reg (hosts.map fun h => some (server h)) [] []

/-- Two registries; the first moves from servers a, b to b, c, the second announces d and then nothing; one delayed
destruction runs. -/
def exHistory : List (Event exNet) :=
  [ev b!"r1" [b!"a", b!"b"], ev b!"r2" [b!"d"], ev b!"r1" [b!"b", b!"c"], .wake 2, ev b!"r2" []]

theorem server_ordinary (host : Bytes) : Spec.Ordinary (server host) := by
  refine ⟨?_, by simp [server], by simp [server]⟩
  simp [getIdentity, getPortStr, server, Spec.identity]

example : Spec.OrdinaryHistory exHistory ∧ Spec.DistinctHistory exEnv exHistory ∧ Spec.Open exHistory := by
  refine ⟨?_, ?_, ?_⟩
  · intro e he reg urls o w heq u hu
    have : ∀ hosts : List Bytes, ∀ u, some u ∈ hosts.map (fun h => some (server h)) → Spec.Ordinary u := by
      intro hosts u hu
      obtain ⟨x, _, hx⟩ := List.mem_map.mp hu
      rw [← Option.some.inj hx]; exact server_ordinary x
    simp only [exHistory, List.mem_cons, List.not_mem_nil, or_false, ev] at he
    rcases he with rfl | rfl | rfl | rfl | rfl <;> first | (injection heq with _ h2; subst h2; exact this _ u hu) |
      exact absurd heq (by simp)
  · intro e he reg urls o w heq
    simp only [exHistory, List.mem_cons, List.not_mem_nil, or_false, ev] at he
    rcases he with rfl | rfl | rfl | rfl | rfl <;> first | (injection heq with _ h2; subst h2; decide +kernel) |
      exact absurd heq (by simp)
  · intro e he
    simp only [exHistory, List.mem_cons, List.not_mem_nil, or_false, ev] at he
    rcases he with rfl | rfl | rfl | rfl | rfl <;> simp

/-- In that history b is kept (object 1), a (object 0) is destroyed, and d (object 2) waits to be destroyed. -/
example : (run exEnv exHistory).refers.map Ep.obj = [1, 3] ∧ (run exEnv exHistory).destroyed = [0] ∧
    Spec.waiting (run exEnv exHistory) = [2] ∧ (run exEnv exHistory).next = 4 := by decide +kernel

/-- A server named twice in a notification gets two endpoints; at the next notification one of them is dropped
without ever being destroyed: its connections leak. -/
theorem duplicate_server_leaks_counterexample :
    let s := run exEnv [ev b!"r1" [b!"a", b!"a"], ev b!"r1" [b!"a"], .wake 0, .wake 0]
    s.next = 2 ∧ (Spec.held s).map Ep.obj = [1] ∧ Spec.waiting s = [] ∧ s.destroyed = [] ∧ s.pending = [] := by
  decide +kernel

/-- `Destroy` only reaches the endpoints in use: one the filter keeps out of use is never destroyed. -/
theorem destroy_leaks_filtered_counterexample :
    let f := parseRefersFilters exNet [{ mode := b!"exclude", rule := b!"a" }] exCluster
    let s := run exEnv [ev b!"r1" [b!"a", b!"b"], .setFilter f [] [], .wake 0, .destroy]
    s.next = 2 ∧ s.closed = true ∧ s.pending = [] ∧ s.destroyed = [1] := by
  decide +kernel

/-- A notification that arrives after `Destroy` (it waits for the lock) creates endpoints nobody will destroy. -/
theorem notify_after_destroy_counterexample :
    let s := run exEnv [ev b!"r1" [b!"a"], .destroy, ev b!"r1" [b!"a", b!"b"]]
    s.closed = true ∧ (Spec.held s).map Ep.obj = [0, 1] ∧ s.destroyed = [0] ∧ Spec.waiting s = [] := by
  decide +kernel

/-- A kept endpoint keeps the parameters it was created with: new parameters a registry announces for a known
server are ignored. -/
theorem kept_endpoint_ignores_parameters_counterexample :
    let u := server b!"a"
    let s := run (N := exNet) exEnv [.notify b!"r1" [some u] [] [],
      .notify b!"r1" [some { u with params := some [(b!"weight", b!"9")] }] [] []]
    s.refers.map (fun e => e.url.param b!"weight") = [some b!"1"] := by
  decide +kernel

/-- The cluster's parameters win over those a server announces. -/
theorem new_endpoint_params (env : Env) (u : URL) (k v : Bytes) (hn : (env.url.params.getD []).NodupKeys)
    (h : env.url.param k = some v) : (endpointURL env u).param k = some v := by
  unfold endpointURL mergeParams copy URL.param
  simp only [Option.getD_some, Option.bind_some]
  rw [AMap.load_storeAll _ _ hn]
  cases hp : env.url.params with
  | none => rw [URL.param, hp] at h; exact absurd h (by simp)
  | some m =>
    rw [URL.param, hp] at h
    simp only [Option.bind_some] at h
    simp [h]

end Motan.Props
