import Verif.Model.Ha
import Verif.Props.Url

/-!
# C27, C28: failover and backup requests
-/

namespace Motan.Props

open Motan.Ha
open Motan.Convert (Exn Response)
open Motan.Url (URL)

variable {E : Type}

/-! ## C27 -/

/-- A response the caller is to see: no exception, or one thrown by the business logic (error type 2). -/
def Spec.GoodResponse (r : Response) : Prop := r.exception = none ∨ ∃ e, r.exception = some e ∧ e.errType = 2

/-- An attempt that called an endpoint and got no response or an exception of another kind. -/
def Spec.FailedAttempt (a : Attempt E) : Prop := ∃ ep o, a = .call ep o ∧ ∀ r, o = some r → ¬ Spec.GoodResponse r

/-- An error made by the client itself, for this request. -/
def Spec.OwnError (id : UInt64) (code : Int) (r : Response) : Prop :=
  r.id = id ∧ ∃ e, r.exception = some e ∧ e.errCode = code ∧ e.errType = 1

private theorem accepted_iff (r : Response) : accepted r = true ↔ Spec.GoodResponse r := by
  unfold accepted Spec.GoodResponse
  cases h : r.exception with
  | none => simp
  | some e => simp [bizException]; exact decide_eq_true_iff

private theorem own (id : UInt64) (code : Int) : Spec.OwnError id code (getErrorResponseWithCode id code) :=
  ⟨rfl, _, rfl, rfl, rfl⟩

private def FOut (id : UInt64) (env : Nat → Attempt E) (i n : Nat) (last : Option Response) (x : Response × List E) : Prop :=
  x.2.length ≤ n ∧
  (∀ (k : Nat) (ep : E), x.2[k]? = some ep → ∃ o, env (i + k) = .call ep o) ∧
  (∀ k, k + 1 < x.2.length → Spec.FailedAttempt (env (i + k))) ∧
  ((∃ k ep r, x.2.length = k + 1 ∧ env (i + k) = .call ep (some r) ∧ Spec.GoodResponse r ∧ x.1 = r) ∨
   (∃ k, x.2.length = k ∧ k < n ∧ env (i + k) = .noEndpoint ∧
      (∀ j, j < k → Spec.FailedAttempt (env (i + j))) ∧ Spec.OwnError id 1001 x.1) ∨
   (x.2.length = n ∧ (∀ j, j < n → Spec.FailedAttempt (env (i + j))) ∧
      ((n = 0 ∧ ((∃ r, last = some r ∧ x.1 = r) ∨ (last = none ∧ Spec.OwnError id 500 x.1))) ∨
       ∃ m, n = m + 1 ∧ ((∃ ep r, env (i + m) = .call ep (some r) ∧ x.1 = r) ∨
         (∃ ep, env (i + m) = .call ep none ∧ Spec.OwnError id 500 x.1)))))

private theorem failover_loop (id : UInt64) (env : Nat → Attempt E) : ∀ n i (last : Option Response),
    FOut id env i n last (failoverLoop id env i n last) := by
  intro n
  induction n with
  | zero =>
    intro i last
    cases last with
    | none =>
      refine ⟨Nat.le_refl _, fun k ep h => ?_, fun k h => ?_, .inr (.inr ⟨rfl, fun j h => by omega, .inl ⟨rfl, .inr ⟨rfl, own _ _⟩⟩⟩)⟩
      · simp [failoverLoop] at h
      · simp [failoverLoop] at h
    | some r =>
      refine ⟨Nat.le_refl _, fun k ep h => ?_, fun k h => ?_, .inr (.inr ⟨rfl, fun j h => by omega, .inl ⟨rfl, .inl ⟨r, rfl, rfl⟩⟩⟩)⟩
      · simp [failoverLoop] at h
      · simp [failoverLoop] at h
  | succ n ih =>
    intro i last
    -- the step over a failed attempt
    have fail : ∀ (ep : E) (o : Option Response), env i = .call ep o → (∀ r, o = some r → ¬ Spec.GoodResponse r) →
        failoverLoop id env i (n + 1) last =
          ((failoverLoop id env (i + 1) n o).1, ep :: (failoverLoop id env (i + 1) n o).2) →
        FOut id env i (n + 1) last (failoverLoop id env i (n + 1) last) := by
      intro ep o he ho heq
      have hf : Spec.FailedAttempt (env i) := ⟨ep, o, he, ho⟩
      obtain ⟨h1, h2, h3, h4⟩ := ih (i + 1) o
      have hadd : ∀ k, i + 1 + k = i + (k + 1) := fun k => by omega
      simp only [hadd] at h2 h3 h4
      · unfold FOut
        rw [heq]
        generalize failoverLoop id env (i + 1) n o = x at h1 h2 h3 h4
        obtain ⟨res, cs⟩ := x
        simp only [List.length_cons] at h1 h2 h3 h4 ⊢
        refine ⟨by omega, ?_, ?_, ?_⟩
        · intro k ep' hk
          cases k with
          | zero => simp at hk; subst hk; exact ⟨o, he⟩
          | succ k => simp at hk; exact h2 k ep' hk
        · intro k hk
          cases k with
          | zero => exact hf
          | succ k => exact h3 k (by omega)
        · rcases h4 with ⟨k, ep', r, a, b, c, d⟩ | ⟨k, a, b, c, d, e⟩ | ⟨a, b, c⟩
          · exact .inl ⟨k + 1, ep', r, by omega, b, c, d⟩
          · refine .inr (.inl ⟨k + 1, by omega, by omega, c, fun j hj => ?_, e⟩)
            cases j with
            | zero => exact hf
            | succ j => exact d j (by omega)
          · refine .inr (.inr ⟨by omega, fun j hj => ?_, .inr ?_⟩)
            · cases j with
              | zero => exact hf
              | succ j => exact b j (by omega)
            · rcases c with ⟨hn, c⟩ | ⟨m, hn, c⟩
              · subst hn
                refine ⟨0, rfl, ?_⟩
                rcases c with ⟨r, hr, hx⟩ | ⟨hr, hx⟩
                · subst hr; exact .inl ⟨ep, r, he, hx⟩
                · subst hr; exact .inr ⟨ep, he, hx⟩
              · subst hn
                exact ⟨m + 1, rfl, c⟩
    cases he : env i with
    | noEndpoint =>
      have heq : failoverLoop id env i (n + 1) last = (getErrorResponseWithCode id eNoEndpoints, []) := by
        rw [failoverLoop, he]
      rw [heq]
      refine ⟨by simp, fun k ep h => by simp at h, fun k h => by simp at h, .inr (.inl ⟨0, rfl, by omega, he, fun j h => by omega, own _ _⟩)⟩
    | call ep o =>
      cases o with
      | none =>
        exact fail ep none he (fun r h => by cases h) (by rw [failoverLoop, he])
      | some r =>
        by_cases ha : accepted r = true
        · have heq : failoverLoop id env i (n + 1) last = (r, [ep]) := by
            rw [failoverLoop, he]; simp only; rw [if_pos ha]
          rw [heq]
          refine ⟨by simp, fun k ep' h => ?_, fun k h => by simp at h, .inl ⟨0, ep, r, rfl, he, (accepted_iff r).mp ha, rfl⟩⟩
          cases k with
          | zero => simp at h; subst h; exact ⟨some r, he⟩
          | succ k => simp at h
        · refine fail ep (some r) he (fun r' h => ?_) (by rw [failoverLoop, he]; simp only; rw [if_neg ha])
          cases h
          exact fun hg => ha ((accepted_iff r).mpr hg)

/-- **C27.** The number of retries is the positive setting in force for the method (the method's own or else the
service's), and zero otherwise. -/
theorem failover_retries_setting (u : URL) (hu : Spec.Fresh u) (h : List Spec.UrlOp) (method desc : Bytes) :
    failoverRetries (Spec.runAll u h) method desc = Spec.positive (Spec.setting u h method desc b!"retries") 0 ∧
    0 ≤ failoverRetries (Spec.runAll u h) method desc := by
  have := (settings_getMethodPositiveInt (settings_run u hu h) method desc b!"retries" 0).1
  rw [failoverRetries, this]
  refine ⟨rfl, ?_⟩
  unfold Spec.positive
  split
  · split <;> omega
  · omega

/-- **C27.** Whatever load balancer and endpoints do (`env k` is what attempt number `k` meets), a failover call with `n`
retries calls at most `n + 1` endpoints, one per attempt and in order; every call but the last one failed; and

* the last call gave a success or business exception, which is the answer; or
* the next attempt found no endpoint: the answer is an error for this request with code 1001; or
* all `n + 1` attempts failed: the answer is the last one's response, or an error for this request with code 500 if the
  last one gave none. -/
theorem failover_spec (u : URL) (method desc : Bytes) (id : UInt64) (env : Nat → Attempt E) (n : Nat)
    (hn : failoverRetries u method desc = n) :
    (failoverCall u method desc id env).2.length ≤ n + 1 ∧
    (∀ k ep, (failoverCall u method desc id env).2[k]? = some ep → ∃ o, env k = .call ep o) ∧
    (∀ k, k + 1 < (failoverCall u method desc id env).2.length → Spec.FailedAttempt (env k)) ∧
    ((∃ k ep r, (failoverCall u method desc id env).2.length = k + 1 ∧ env k = .call ep (some r) ∧ Spec.GoodResponse r ∧
        (failoverCall u method desc id env).1 = r) ∨
     (∃ k, (failoverCall u method desc id env).2.length = k ∧ k ≤ n ∧ env k = .noEndpoint ∧
        (∀ j, j < k → Spec.FailedAttempt (env j)) ∧ Spec.OwnError id 1001 (failoverCall u method desc id env).1) ∨
     ((failoverCall u method desc id env).2.length = n + 1 ∧ (∀ j, j ≤ n → Spec.FailedAttempt (env j)) ∧
        ((∃ ep r, env n = .call ep (some r) ∧ (failoverCall u method desc id env).1 = r) ∨
         (∃ ep, env n = .call ep none ∧ Spec.OwnError id 500 (failoverCall u method desc id env).1)))) := by
  have heq : failoverCall u method desc id env = failoverLoop id env 0 (n + 1) none := by
    rw [failoverCall, hn]
    rfl
  rw [heq]
  obtain ⟨h1, h2, h3, h4⟩ := failover_loop id env (n + 1) 0 none
  simp only [Nat.zero_add] at h2 h3 h4
  refine ⟨h1, h2, h3, ?_⟩
  rcases h4 with h | ⟨k, a, b, c, d, e⟩ | ⟨a, b, c⟩
  · exact .inl h
  · exact .inr (.inl ⟨k, a, by omega, c, d, e⟩)
  · refine .inr (.inr ⟨a, fun j hj => b j (by omega), ?_⟩)
    rcases c with ⟨h, _⟩ | ⟨m, hm, c⟩
    · omega
    · have : m = n := by omega
      subst this; exact c

/-! ## C28 -/

private structure BInv (id : UInt64) (retries : Nat) (s : St E) : Prop where
  bound : s.calls.length ≤ retries + 1
  index : ∀ i, s.pc = .top i ∨ s.pc = .waiting i → (s.pc = .top i → s.calls.length ≤ i) ∧
    (s.pc = .waiting i → s.calls.length ≤ i + 1 ∧ i ≤ retries)
  succ : s.success.length ≤ (s.calls.filter fun c => c.ended).length
  real : ∀ r ∈ s.success, Spec.GoodResponse r ∧ ∃ c ∈ s.calls, c.ended = true ∧ c.result = some r
  pend : (∀ r, s.pc ≠ .done r) → ∀ c ∈ s.calls, ∀ r, c.result = some r → Spec.GoodResponse r → r ∈ s.success
  ans : ∀ r, s.pc = .done r → r = timeoutError id ∨ (Spec.GoodResponse r ∧ ∃ c ∈ s.calls, c.ended = true ∧ c.result = some r)
  fresh : ∀ c ∈ s.calls, c.ended = false → c.result = none

private theorem filter_set_length (l : List (Issued E)) (k : Nat) (c c' : Issued E) (h : l[k]? = some c)
    (h0 : c.ended = false) (h1 : c'.ended = true) :
    ((l.set k c').filter fun c => c.ended).length = (l.filter fun c => c.ended).length + 1 := by
  induction l generalizing k with
  | nil => simp at h
  | cons a l ih =>
    cases k with
    | zero => simp at h; subst h; simp [h0, h1]
    | succ k =>
      simp at h
      rw [List.set_cons_succ, List.filter_cons, List.filter_cons]
      split
      · simp [ih k h]
      · exact ih k h

private theorem binv {id : UInt64} {retries : Nat} {ep0 : E} {s : St E} (h : Reach id retries ep0 s) : BInv id retries s := by
  induction h with
  | init =>
    refine ⟨by simp [init], fun i h => ⟨fun h' => by simp [init], fun h' => by simp [init] at h'⟩, by simp [init],
      fun r h => by simp [init] at h, fun _ c h => by simp [init] at h, fun r h => by simp [init] at h,
      fun c h => by simp [init] at h⟩
  | @step s w s' hr hs ih =>
    obtain ⟨b1, b2, b3, b4, b5, b6, b7⟩ := ih
    -- a step that only moves the caller to a place that is not an answer
    have move : ∀ pc', (∀ r, s.pc ≠ .done r) → (∀ r, pc' ≠ .done r) →
        (∀ i, pc' = .top i → s.calls.length ≤ i) → (∀ i, pc' = .waiting i → s.calls.length ≤ i + 1 ∧ i ≤ retries) →
        BInv id retries { s with pc := pc' } := by
      intro pc' h0 h1 h2 h3
      exact ⟨b1, fun i _ => ⟨h2 i, h3 i⟩, b3, b4, fun _ => b5 h0, fun r h => absurd h (h1 r), b7⟩
    -- a new call
    have newCall : ∀ ep i, (∀ r, s.pc ≠ .done r) → s.calls.length ≤ i → i ≤ retries →
        BInv id retries { s with calls := s.calls ++ [⟨ep, false, none, none⟩], pc := .waiting i } := by
      intro ep i h0 h1 h2
      refine ⟨by simp; omega, fun j _ => ⟨fun h => by simp at h, fun h => ?_⟩, ?_, fun r hr => ?_, fun _ c hc r hcr hg => ?_,
        fun r h => by simp at h, fun c hc hce => ?_⟩
      · simp at h; subst h; simp; omega
      · simpa [List.filter_append] using b3
      · obtain ⟨hg, c, hc, hce⟩ := b4 r hr
        exact ⟨hg, c, by simp [hc], hce⟩
      · simp only [List.mem_append, List.mem_singleton] at hc
        rcases hc with hc | rfl
        · exact b5 h0 c hc r hcr hg
        · cases hcr
      · simp only [List.mem_append, List.mem_singleton] at hc
        rcases hc with hc | rfl
        · exact b7 c hc hce
        · rfl
    cases hs with
    | issueFirst hpc =>
      exact newCall _ _ (by simp [hpc]) ((b2 0 (.inl hpc)).1 hpc) (by omega)
    | @skip i hpc hi =>
      exact move _ (by simp [hpc]) (by simp) (fun j h => by
        simp at h; have := (b2 _ (.inl hpc)).1 hpc; omega) (fun j h => by simp at h)
    | noPermit hpc hi => exact move _ (by simp [hpc]) (by simp) (by simp) (by simp)
    | issue ep hpc hi => exact newCall _ _ (by simp [hpc]) ((b2 _ (.inl hpc)).1 hpc) hi
    | exit hpc hi => exact move _ (by simp [hpc]) (by simp) (by simp) (by simp)
    | @finish k c out hk hce =>
      have hmem : c ∈ s.calls := List.mem_of_getElem? hk
      have hklt : k < s.calls.length := (List.getElem?_eq_some_iff.mp hk).1
      -- what an ended call looked like stays
      have keep : ∀ (c' c1 : Issued E), c1 ∈ s.calls → c1.ended = true → c1 ∈ s.calls.set k c' := by
        intro c' c1 h1 h2
        obtain ⟨j, hj, hje⟩ := List.getElem_of_mem h1
        have hjk : j ≠ k := by
          intro e; subst e
          rw [List.getElem?_eq_getElem hj, hje] at hk
          cases hk; rw [h2] at hce; cases hce
        exact List.mem_of_getElem? (i := j) (by
          rw [List.getElem?_set_ne (fun e => hjk e.symm), List.getElem?_eq_getElem hj, hje])
      have common : ∀ (c' : Issued E) (sc : List Response), c'.ended = true →
          sc.length ≤ (s.calls.filter fun c => c.ended).length + 1 →
          (∀ r ∈ s.success, r ∈ sc) → (∀ r, c'.result = some r → Spec.GoodResponse r → r ∈ sc) →
          (∀ r ∈ sc, r ∈ s.success ∨ (Spec.GoodResponse r ∧ c'.result = some r)) →
          BInv id retries { s with calls := s.calls.set k c', success := sc } := by
        intro c' sc e1 e2 e3 e4 e5
        have hc' : c' ∈ s.calls.set k c' := by
          exact List.mem_of_getElem? (i := k) (by rw [List.getElem?_set_self hklt])
        refine ⟨by simpa using b1, fun i h => by simpa using b2 i h, ?_, fun r hr => ?_, fun h0 c1 hc1 r hr hg => ?_,
          fun r h => ?_, fun c1 hc1 h => ?_⟩
        · simp only
          rw [filter_set_length _ _ _ _ hk hce e1]; exact e2
        · rcases e5 r hr with hr | ⟨hg, hr⟩
          · obtain ⟨hg, c1, h1, h2, h3⟩ := b4 r hr
            exact ⟨hg, c1, keep c' c1 h1 h2, h2, h3⟩
          · exact ⟨hg, c', hc', e1, hr⟩
        · rcases List.mem_or_eq_of_mem_set hc1 with hm | rfl
          · exact e3 r (b5 h0 c1 hm r hr hg)
          · exact e4 r hr hg
        · rcases b6 r h with h | ⟨hg, c1, h1, h2, h3⟩
          · exact .inl h
          · exact .inr ⟨hg, c1, keep c' c1 h1 h2, h2, h3⟩
        · rcases List.mem_or_eq_of_mem_set hc1 with hm | rfl
          · exact b7 c1 hm h
          · rw [e1] at h; cases h
      cases out with
      | none =>
        exact common { c with ended := true } s.success rfl (by omega) (fun _ h => h)
          (fun r h => by simp [b7 c hmem hce] at h) (fun r h => .inl h)
      | some r =>
        simp only
        by_cases ha : accepted r = true
        · rw [if_pos ha]
          refine common { c with ended := true, result := some r } (s.success ++ [r]) rfl (by simp; omega)
            (fun _ h => by simp [h]) (fun r' h _ => by simp at h; simp [h]) (fun r' h => ?_)
          simp only [List.mem_append, List.mem_singleton] at h
          rcases h with h | rfl
          · exact .inl h
          · exact .inr ⟨(accepted_iff _).mp ha, rfl⟩
        · rw [if_neg ha]
          refine common { c with ended := true, result := some r, err := doCall id (some r) } s.success rfl (by omega)
            (fun _ h => h) (fun r' h hg => ?_) (fun r h => .inl h)
          simp at h; subst h
          exact absurd ((accepted_iff _).mpr hg) ha
    | @recvSuccess r rs hpc hsc =>
      refine ⟨b1, fun i h => by simp at h, ?_, fun r' hr' => b4 r' (by rw [hsc]; simp [hr']), fun h => absurd rfl (h r),
        fun r' h => ?_, b7⟩
      · rw [hsc] at b3; simp at b3 ⊢; omega
      · simp at h; subst h
        exact .inr (b4 r (by rw [hsc]; simp))
    | @recvError i cs c e hpc hcs he =>
      have hmemc : ∀ c1, c1 ∈ cs ++ [{ c with err := none }] → ∃ c0 ∈ s.calls, c0.ended = c1.ended ∧ c0.result = c1.result := by
        intro c1 h
        simp only [List.mem_append, List.mem_singleton] at h
        rcases h with h | rfl
        · exact ⟨c1, by rw [hcs]; simp [h], rfl, rfl⟩
        · exact ⟨c, by rw [hcs]; simp, rfl, rfl⟩
      have hmemc' : ∀ c0 ∈ s.calls, ∃ c1 ∈ cs ++ [{ c with err := none }], c0.ended = c1.ended ∧ c0.result = c1.result := by
        intro c0 h
        rw [hcs] at h
        simp only [List.mem_append, List.mem_singleton] at h
        rcases h with h | rfl
        · exact ⟨c0, by simp [h], rfl, rfl⟩
        · exact ⟨{ c0 with err := none }, by simp, rfl, rfl⟩
      have hlen : (cs ++ [{ c with err := none }]).length = s.calls.length := by rw [hcs]; simp
      have hfl : ((cs ++ [{ c with err := none }]).filter fun c : Issued E => c.ended).length = (s.calls.filter fun c => c.ended).length := by
        rw [hcs, List.filter_append, List.filter_append]
        simp [List.filter_cons]
        split <;> rfl
      refine ⟨by simp only; omega, fun j h => ⟨fun h => ?_, fun h => by simp at h⟩, by simp only; omega, fun r hr => ?_,
        fun _ c1 hc1 r hr hg => ?_, fun r h => by simp at h, fun c1 hc1 h => ?_⟩
      · simp at h; have := ((b2 i (.inr hpc)).2 hpc).1; simp only; omega
      · obtain ⟨hg, c0, h1, h2, h3⟩ := b4 r hr
        obtain ⟨c1, k1, k2, k3⟩ := hmemc' c0 h1
        exact ⟨hg, c1, k1, by rw [← k2]; exact h2, by rw [← k3]; exact h3⟩
      · obtain ⟨c0, k1, k2, k3⟩ := hmemc c1 hc1
        exact b5 (by simp [hpc]) c0 k1 r (by rw [k3]; exact hr) hg
      · obtain ⟨c0, k1, k2, k3⟩ := hmemc c1 hc1
        rw [← k3]; exact b7 c0 k1 (by rw [k2]; exact h)
    | @recvErrorFinal cs c e hpc hcs he =>
      have hmemc' : ∀ c0 ∈ s.calls, ∃ c1 ∈ cs ++ [{ c with err := none }], c0.ended = c1.ended ∧ c0.result = c1.result := by
        intro c0 h
        rw [hcs] at h
        simp only [List.mem_append, List.mem_singleton] at h
        rcases h with h | rfl
        · exact ⟨c0, by simp [h], rfl, rfl⟩
        · exact ⟨{ c0 with err := none }, by simp, rfl, rfl⟩
      have hmemc : ∀ c1, c1 ∈ cs ++ [{ c with err := none }] → ∃ c0 ∈ s.calls, c0.ended = c1.ended ∧ c0.result = c1.result := by
        intro c1 h
        simp only [List.mem_append, List.mem_singleton] at h
        rcases h with h | rfl
        · exact ⟨c1, by rw [hcs]; simp [h], rfl, rfl⟩
        · exact ⟨c, by rw [hcs]; simp, rfl, rfl⟩
      have hlen : (cs ++ [{ c with err := none }]).length = s.calls.length := by rw [hcs]; simp
      have hfl : ((cs ++ [{ c with err := none }]).filter fun c : Issued E => c.ended).length = (s.calls.filter fun c => c.ended).length := by
        rw [hcs, List.filter_append, List.filter_append]
        simp [List.filter_cons]
        split <;> rfl
      refine ⟨by simp only; omega, fun j h => by simp at h, by simp only; omega, fun r hr => ?_,
        fun h => absurd rfl (h _), fun r h => ?_, fun c1 hc1 h => ?_⟩
      · obtain ⟨hg, c0, h1, h2, h3⟩ := b4 r hr
        obtain ⟨c1, k1, k2, k3⟩ := hmemc' c0 h1
        exact ⟨hg, c1, k1, by rw [← k2]; exact h2, by rw [← k3]; exact h3⟩
      · simp at h; exact .inl h.symm
      · obtain ⟨c0, k1, k2, k3⟩ := hmemc c1 hc1
        rw [← k3]; exact b7 c0 k1 (by rw [k2]; exact h)
    | @delayOver i hpc =>
      exact move _ (by simp [hpc]) (by simp) (fun j h => by
        simp at h; have := ((b2 i (.inr hpc)).2 hpc).1; omega) (by simp)
    | deadline hpc =>
      exact ⟨b1, fun i h => by simp at h, b3, b4, fun h => absurd rfl (h _), fun r h => .inl (by simp at h; exact h.symm), b7⟩

/-- **C28.** A hedged call issues at most retries + 1 endpoint calls, in every execution. -/
theorem backup_calls_bounded {id : UInt64} {retries : Nat} {ep0 : E} {s : St E} (h : Reach id retries ep0 s) :
    s.calls.length ≤ retries + 1 := (binv h).bound

/-- **C28.** Its answer is a success or business exception that one of its endpoint calls returned, or the timeout error
for this request. -/
theorem backup_answer_real {id : UInt64} {retries : Nat} {ep0 : E} {s : St E} {r : Response}
    (h : Reach id retries ep0 s) (hr : s.pc = .done r) :
    (Spec.GoodResponse r ∧ ∃ c ∈ s.calls, c.result = some r) ∨ Spec.OwnError id 400 r := by
  rcases (binv h).ans r hr with rfl | ⟨hg, c, hc, _, hcr⟩
  · exact .inr (own _ _)
  · exact .inl ⟨hg, c, hc, hcr⟩

/-- **C28.** A good response is never lost: until the caller has an answer, every good response an endpoint gave is in
the channel the caller reads; and the channel (capacity retries + 1) never fills up, so that no goroutine blocks. -/
theorem backup_good_response_waits {id : UInt64} {retries : Nat} {ep0 : E} {s : St E} (h : Reach id retries ep0 s)
    (hnd : ∀ r, s.pc ≠ .done r) :
    (∀ c ∈ s.calls, ∀ r, c.result = some r → Spec.GoodResponse r → r ∈ s.success) ∧
    (∀ c ∈ s.calls, c.ended = false → s.success.length < retries + 1) := by
  have hb := binv h
  refine ⟨hb.pend hnd, fun c hc hce => ?_⟩
  have h1 : (s.calls.filter fun c => c.ended).length < s.calls.length := by
    apply Decidable.byContradiction
    intro hn
    have := List.length_filter_le (fun c : Issued E => c.ended) s.calls
    have h2 := List.length_filter_eq_length_iff.mp (by omega : (s.calls.filter fun c => c.ended).length = s.calls.length) c hc
    rw [hce] at h2; cases h2
  have := hb.succ
  have := hb.bound
  omega

/-- **C28.** The caller never gets stuck: after the deadline timer has fired it always has a next step. -/
theorem backup_progress {id : UInt64} {retries : Nat} (ep0 : E) (s : St E) (hnd : ∀ r, s.pc ≠ .done r) :
    ∃ w s', Step id retries ep0 s w s' ∧ (w = .caller ∨ w = .deadline) := by
  cases hpc : s.pc with
  | top i =>
    cases i with
    | zero => exact ⟨_, _, .issueFirst hpc, .inl rfl⟩
    | succ i =>
      by_cases hi : i + 1 ≤ retries
      · exact ⟨_, _, .skip hpc hi, .inl rfl⟩
      · exact ⟨_, _, .exit hpc (by omega), .inl rfl⟩
  | waiting i => exact ⟨_, _, .deadline (.inl ⟨i, hpc⟩), .inr rfl⟩
  | final => exact ⟨_, _, .deadline (.inr hpc), .inr rfl⟩
  | done r => exact absurd hpc (hnd r)

/-- **C28.** An ordinary call (without retries, or without a delay to go by) answers what its endpoint returned if that is
a success or a business exception; any other exception is replaced by one for this request with code 400; it panics only
if the endpoint returned nothing. -/
theorem backup_direct_answer (id : UInt64) (out : Option Response) :
    (∀ r, out = some r → Spec.GoodResponse r → doCall id out = some r) ∧
    (∀ r, out = some r → ¬ Spec.GoodResponse r → ∃ e, doCall id out = some e ∧ Spec.OwnError id 400 e) ∧
    (doCall id out = none ↔ out = none) := by
  refine ⟨?_, ?_, ?_⟩
  · rintro r rfl h; simp [doCall, (accepted_iff r).2 h]
  · rintro r rfl h
    have : accepted r ≠ true := fun e => h ((accepted_iff r).1 e)
    exact ⟨_, by simp [doCall, this], own id 400⟩
  · cases out with
    | none => simp [doCall]
    | some r => simp only [doCall]; split <;> simp

/-- A failed call and its replacement. -/
example : ∃ e, doCall 7 (some (getErrorResponseWithCode 9 503)) = some e ∧ e.id = 7 := ⟨_, rfl, rfl⟩

/-- What a user might expect but does not get: when all endpoint calls have failed at once, the caller still waits for
the deadline, because the last error was already taken from its channel inside the loop. Here with one retry: both calls
have ended with errors, and nothing but the deadline can happen. -/
theorem backup_waits_for_deadline_counterexample :
    ∃ s : St Nat, Reach 7 1 0 s ∧ s.calls.length = 2 ∧ (∀ c ∈ s.calls, c.ended = true ∧ c.result.isSome) ∧
      (∀ r, s.pc ≠ .done r) ∧ ∀ w s', Step 7 1 0 s w s' → w = .deadline := by
  let bad : Response := getErrorResponseWithCode 7 503
  let e1 : Issued Nat := ⟨0, true, some bad, none⟩
  let e2 : Issued Nat := ⟨5, true, some bad, none⟩
  have r1 : Reach 7 1 (0 : Nat) ⟨[⟨0, false, none, none⟩], [], .waiting 0⟩ := .step .init (.issueFirst rfl)
  have r2 : Reach 7 1 (0 : Nat) ⟨[⟨0, true, some bad, doCall 7 (some bad)⟩], [], .waiting 0⟩ :=
    .step r1 (.finish (k := 0) (c := ⟨0, false, none, none⟩) (some bad) rfl rfl)
  have r3 : Reach 7 1 (0 : Nat) ⟨[e1], [], .top 1⟩ :=
    .step r2 (.recvError (cs := []) (c := ⟨0, true, some bad, doCall 7 (some bad)⟩) rfl rfl rfl)
  have r4 : Reach 7 1 (0 : Nat) ⟨[e1, ⟨5, false, none, none⟩], [], .waiting 1⟩ := .step r3 (.issue 5 rfl (by decide))
  have r5 : Reach 7 1 (0 : Nat) ⟨[e1, ⟨5, true, some bad, doCall 7 (some bad)⟩], [], .waiting 1⟩ :=
    .step r4 (.finish (k := 1) (c := ⟨5, false, none, none⟩) (some bad) rfl rfl)
  have r6 : Reach 7 1 (0 : Nat) ⟨[e1, e2], [], .top 2⟩ :=
    .step r5 (.recvError (cs := [e1]) (c := ⟨5, true, some bad, doCall 7 (some bad)⟩) rfl rfl rfl)
  have r7 : Reach 7 1 (0 : Nat) ⟨[e1, e2], [], .final⟩ := .step r6 (.exit rfl (by decide))
  refine ⟨_, r7, rfl, ?_, by simp, ?_⟩
  · intro c hc
    simp only [List.mem_cons, List.not_mem_nil, or_false] at hc
    rcases hc with rfl | rfl <;> exact ⟨rfl, rfl⟩
  · intro w s' hs
    cases hs with
    | deadline _ => rfl
    | issueFirst h => simp at h
    | skip h => simp at h
    | noPermit h => simp at h
    | issue _ h => simp at h
    | exit h => simp at h
    | @finish k c out hk hce =>
      exfalso
      match k, hk with
      | 0, hk => simp at hk; subst hk; cases hce
      | 1, hk => simp at hk; subst hk; cases hce
      | k + 2, hk => simp at hk
    | recvSuccess _ h => simp at h
    | recvError h => simp at h
    | @recvErrorFinal cs c e _ hcs he =>
      exfalso
      have : c = e2 := by
        have h1 := congrArg List.getLast? hcs
        simp at h1
        exact h1.symm
      subst this; cases he
    | delayOver h => simp at h

/-! ### The decision before calling -/

/-- **C28.** What a call does before anything is sent, from the settings in force for its method: without an endpoint it
answers with an error; without retries, or without a delay to go by, it is an ordinary call; otherwise it is hedged with
exactly the configured number of retries, the configured delay (or the latency the metrics give for the configured
share, or the configured initial delay, these two being at least ten milliseconds) and the configured timeout. -/
theorem backup_plan (u : URL) (hu : Spec.Fresh u) (h : List Spec.UrlOp) (method desc : Bytes) (id : UInt64)
    (selected : Option E) (p : Option (Int → Int)) :
    let retries := (Spec.setting u h method desc b!"retries").getD 0
    let delay := (Spec.setting u h method desc b!"backupRequestDelayTime").getD 0
    let share := Spec.positive (Spec.setting u h method desc b!"backupRequestDelayRatio") 90
    let initial := Spec.positive (Spec.setting u h method desc b!"backupRequestInitDelayTime") 0
    let timeout := Spec.positive (Spec.setting u h method desc b!"requestTimeout") 1000
    (selected = none → ∃ r, plan (Spec.runAll u h) method desc id selected p = .answer r ∧ Spec.OwnError id 1001 r) ∧
    ∀ ep, selected = some ep →
      (retries ≤ 0 → plan (Spec.runAll u h) method desc id selected p = .direct ep) ∧
      (0 < retries → 0 < delay →
        plan (Spec.runAll u h) method desc id selected p = .hedged ep retries.toNat delay timeout) ∧
      (0 < retries → delay ≤ 0 → ∀ lat, p = some lat →
        plan (Spec.runAll u h) method desc id selected p = .hedged ep retries.toNat (max 10 (lat share)) timeout) ∧
      (0 < retries → delay ≤ 0 → p = none → 0 < initial →
        plan (Spec.runAll u h) method desc id selected p = .hedged ep retries.toNat (max 10 initial) timeout) ∧
      (0 < retries → delay ≤ 0 → p = none → initial ≤ 0 →
        plan (Spec.runAll u h) method desc id selected p = .direct ep) := by
  intro retries delay share initial timeout
  constructor
  · rintro rfl
    exact ⟨_, rfl, own _ _⟩
  · rintro ep rfl
    have s0 := settings_run u hu h
    generalize Spec.runAll u h = v0 at s0
    obtain ⟨e1, s1⟩ := settings_getMethodInt s0 method desc b!"retries" 0
    unfold plan
    simp only
    generalize Url.getMethodIntValue v0 method desc b!"retries" 0 = g1 at e1 s1
    obtain ⟨r1, v1⟩ := g1
    obtain ⟨e2, s2⟩ := settings_getMethodPositiveInt s1 method desc b!"backupRequestDelayRatio" 90
    simp only at e1 e2 s2 ⊢
    generalize Url.getMethodPositiveIntValue v1 method desc b!"backupRequestDelayRatio" 90 = g2 at e2 s2
    obtain ⟨r2, v2⟩ := g2
    obtain ⟨e3, s3⟩ := settings_getMethodInt s2 method desc b!"backupRequestDelayTime" 0
    simp only at e2 e3 s3 ⊢
    generalize Url.getMethodIntValue v2 method desc b!"backupRequestDelayTime" 0 = g3 at e3 s3
    obtain ⟨r3, v3⟩ := g3
    obtain ⟨e4, s4⟩ := settings_getMethodPositiveInt s3 method desc b!"requestTimeout" 1000
    simp only at e3 e4 s4 ⊢
    generalize Url.getMethodPositiveIntValue v3 method desc b!"requestTimeout" 1000 = g4 at e4 s4
    obtain ⟨r4, v4⟩ := g4
    obtain ⟨e5, s5⟩ := settings_getMethodPositiveInt s4 method desc b!"backupRequestInitDelayTime" 0
    simp only at e4 e5 s5 ⊢
    generalize Url.getMethodPositiveIntValue v4 method desc b!"backupRequestInitDelayTime" 0 = g5 at e5 s5
    obtain ⟨r5, v5⟩ := g5
    simp only at e5 ⊢
    replace e1 : r1 = retries := e1
    replace e2 : r2 = share := e2
    replace e3 : r3 = delay := e3
    replace e4 : r4 = timeout := e4
    replace e5 : r5 = initial := e5
    rw [e1, e2, e3, e4, e5]
    have hi0 : 0 ≤ initial := by
      show 0 ≤ Spec.positive _ 0
      unfold Spec.positive
      split
      · split <;> omega
      · omega
    clear_value retries delay share initial timeout
    have hmax : ∀ x : Int, (if x < 10 then (10 : Int) else x) = max 10 x := by
      intro x; split <;> omega
    refine ⟨fun hr => by rw [if_pos hr], fun hr hd => by rw [if_neg (by omega), if_neg (by omega)], fun hr hd lat hp => ?_,
      fun hr hd hp hin => ?_, fun hr hd hp hin => ?_⟩
    · subst hp; rw [if_neg (by omega), if_pos hd]; simp only [hmax]
    · subst hp; rw [if_neg (by omega), if_pos hd]; simp only [hmax]; rw [if_neg (by omega)]
    · subst hp; rw [if_neg (by omega), if_pos hd]; simp only; rw [if_pos (by omega)]

/-! ### The budget -/

/-- What happens to the shared counters: a call is recorded (with the clock read twice), or a permit is asked for. -/
inductive Spec.BudgetOp
  | record (now now' : Int)
  | ask (limit : Int)

/-- Run a history; the answers to the questions for permits come with the counters. -/
def Spec.budgetRun (c : Counter) : List Spec.BudgetOp → Counter × List Bool
  | [] => (c, [])
  | .record a b :: ops => Spec.budgetRun (updateCallRecord c a b) ops
  | .ask l :: ops =>
    let x := Spec.budgetRun (tryAcquirePermit c l).2 ops
    (x.1, (tryAcquirePermit c l).1 :: x.2)

/-- The number of recorded calls. -/
def Spec.recorded (ops : List Spec.BudgetOp) : Nat :=
  (ops.filter fun o => match o with | .record _ _ => true | .ask _ => false).length

/-- How many permits a stretch can grant in the worst case from this state on, as a function of the calls recorded. -/
private theorem budget_aux (L : Nat) (T : Int) (ops : List Spec.BudgetOp) : ∀ c : Counter, 
    (∀ o ∈ ops, match o with | .record a b => T ≤ a ∧ a < T + 20 * 10 ^ 9 ∧ T ≤ b ∧ b < T + 20 * 10 ^ 9 | .ask l => l ≤ L) →
    T ≤ c.lastReset → 
    (Spec.budgetRun c ops).2.count true ≤ (L - c.retry) + L * ((c.total + Spec.recorded ops - 1) / 101) := by
  induction ops with
  | nil => intro c _ _; simp [Spec.budgetRun]
  | cons o ops ih =>
    intro c hall hT
    have hall' := fun o' h' => hall o' (List.mem_cons_of_mem _ h')
    have ho := hall o (by simp)
    cases o with
    | record a b =>
      simp only at ho
      rw [Spec.budgetRun]
      have hrec : Spec.recorded (Spec.BudgetOp.record a b :: ops) = Spec.recorded ops + 1 := by
        simp [Spec.recorded]
      rw [hrec]
      by_cases ht : c.total > 100
      · have hu : updateCallRecord c a b = ⟨1, 0, b⟩ := by rw [updateCallRecord, if_pos (.inl ht)]
        rw [hu]
        have := ih ⟨1, 0, b⟩ hall' ho.2.2.1
        simp only at this
        refine Nat.le_trans this ?_
        have hdiv : (1 + Spec.recorded ops - 1) / 101 + 1 ≤ (c.total + (Spec.recorded ops + 1) - 1) / 101 := by omega
        have := Nat.mul_le_mul_left L hdiv
        rw [Nat.mul_add] at this
        omega
      · have hu : updateCallRecord c a b = { c with total := c.total + 1 } := by
          rw [updateCallRecord, if_neg]
          omega
        rw [hu]
        have := ih { c with total := c.total + 1 } hall' hT
        simp only at this
        have he : c.total + 1 + Spec.recorded ops - 1 = c.total + (Spec.recorded ops + 1) - 1 := by omega
        rw [he] at this
        exact this
    | ask l =>
      simp only at ho
      have hrec : Spec.recorded (Spec.BudgetOp.ask l :: ops) = Spec.recorded ops := by simp [Spec.recorded]
      rw [hrec, Spec.budgetRun]
      by_cases hr : (c.retry : Int) ≥ l
      · have hu : tryAcquirePermit c l = (false, c) := by rw [tryAcquirePermit, if_pos hr]
        rw [hu]
        simpa using ih c hall' hT
      · have hu : tryAcquirePermit c l = (true, { c with retry := c.retry + 1 }) := by rw [tryAcquirePermit, if_neg hr]
        rw [hu]
        have := ih { c with retry := c.retry + 1 } hall' hT
        simp only [List.count_cons] at this ⊢
        simp
        omega

/-- **C28.** In any stretch of time shorter than twenty seconds, whatever the calls before it and however concurrent calls
interleave, with permits limited to at most `L`: if `n` calls are recorded in the stretch, at most `L` times
`2 + n / 101` retries are permitted. -/
theorem backup_budget (L : Nat) (T : Int) (c : Counter) (ops : List Spec.BudgetOp)
    (htime : ∀ o ∈ ops, match o with
      | .record a b => T ≤ a ∧ a < T + 20 * 10 ^ 9 ∧ T ≤ b ∧ b < T + 20 * 10 ^ 9
      | .ask l => l ≤ L) :
    (Spec.budgetRun c ops).2.count true ≤ L * (2 + Spec.recorded ops / 101) := by
  -- up to the first reset
  have main : ∀ (ops : List Spec.BudgetOp) (c : Counter), (∀ o ∈ ops, match o with
      | .record a b => T ≤ a ∧ a < T + 20 * 10 ^ 9 ∧ T ≤ b ∧ b < T + 20 * 10 ^ 9
      | .ask l => l ≤ L) →
      (Spec.budgetRun c ops).2.count true ≤ (L - c.retry) + (L + L * (Spec.recorded ops / 101)) := by
    intro ops
    induction ops with
    | nil => intro c _; simp [Spec.budgetRun]
    | cons o ops ih =>
      intro c hall
      have hall' := fun o' h' => hall o' (List.mem_cons_of_mem _ h')
      have ho := hall o (by simp)
      cases o with
      | record a b =>
        simp only at ho
        have hrec : Spec.recorded (Spec.BudgetOp.record a b :: ops) = Spec.recorded ops + 1 := by
          simp [Spec.recorded]
        rw [Spec.budgetRun, hrec]
        have hmono : L * (Spec.recorded ops / 101) ≤ L * ((Spec.recorded ops + 1) / 101) :=
          Nat.mul_le_mul_left L (by omega)
        by_cases hc : c.total > 100 ∨ a - c.lastReset ≥ 20 * 10 ^ 9
        · have hu : updateCallRecord c a b = ⟨1, 0, b⟩ := by rw [updateCallRecord, if_pos hc]
          rw [hu]
          have := budget_aux L T ops ⟨1, 0, b⟩ hall' ho.2.2.1
          simp only at this
          have he : 1 + Spec.recorded ops - 1 = Spec.recorded ops := by omega
          rw [he] at this
          omega
        · have hu : updateCallRecord c a b = { c with total := c.total + 1 } := by rw [updateCallRecord, if_neg hc]
          rw [hu]
          have := ih { c with total := c.total + 1 } hall'
          simp only at this
          omega
      | ask l =>
        simp only at ho
        have hrec : Spec.recorded (Spec.BudgetOp.ask l :: ops) = Spec.recorded ops := by simp [Spec.recorded]
        rw [hrec, Spec.budgetRun]
        by_cases hr : (c.retry : Int) ≥ l
        · have hu : tryAcquirePermit c l = (false, c) := by rw [tryAcquirePermit, if_pos hr]
          rw [hu]
          simpa using ih c hall'
        · have hu : tryAcquirePermit c l = (true, { c with retry := c.retry + 1 }) := by
            rw [tryAcquirePermit, if_neg hr]
          rw [hu]
          have := ih { c with retry := c.retry + 1 } hall'
          simp only [List.count_cons] at this ⊢
          simp
          omega
  have := main ops c htime
  have he : L * (2 + Spec.recorded ops / 101) = L + (L + L * (Spec.recorded ops / 101)) := by
    rw [Nat.mul_add]; omega
  rw [he]
  omega

/-- The budget is a number per round of up to 101 calls, not a share of the calls made so far: with the default limit of
15, all of the first fifteen calls may be retried. -/
theorem backup_budget_share_counterexample :
    let one : List Spec.BudgetOp := [.record 0 0, .ask 15]
    let ops := (List.replicate 15 one).flatten
    (Spec.budgetRun ⟨0, 0, 0⟩ ops).2.count true = 15 ∧ Spec.recorded ops = 15 := by decide +kernel

/-! ## Non-vacuity -/

/-- A failover call with two retries: a service error, then a missing response, then a success. -/
example : (failoverCall { protocol := [], host := [], port := 0, path := [], group := [], params := some [(b!"retries", b!"2")] }
      b!"m" [] 9 (fun k => match k with
        | 0 => .call 10 (some (getErrorResponseWithCode 9 503))
        | 1 => .call 11 none
        | 2 => .call 12 (some { id := 9, value := none, exception := none, processTime := 0, attachment := [] })
        | _ => (.noEndpoint : Attempt Nat))).2 = [10, 11, 12] := by decide +kernel

/-- A method with two retries and a delay of its own is hedged. -/
example : (match plan (E := Nat) { params := some [(b!"retries", b!"2"), (b!"m().backupRequestDelayTime", b!"30")] } b!"m" [] 9 (some 5) none with
    | .hedged ep r d t => decide (ep = 5 ∧ r = 2 ∧ d = 30 ∧ t = 1000)
    | _ => false) = true := by decide +kernel

/-- A hedged call whose retry answers first. -/
example : ∃ s : St Nat, Reach 7 2 0 s ∧ s.pc = .done { id := 7, value := none, exception := none, processTime := 3, attachment := [] } ∧
    s.calls.length = 2 := by
  let good : Response := { id := 7, value := none, exception := none, processTime := 3, attachment := [] }
  have r1 : Reach 7 2 (0 : Nat) ⟨[⟨0, false, none, none⟩], [], .waiting 0⟩ := .step .init (.issueFirst rfl)
  have r2 : Reach 7 2 (0 : Nat) ⟨[⟨0, false, none, none⟩], [], .top 1⟩ := .step r1 (.delayOver rfl)
  have r3 : Reach 7 2 (0 : Nat) ⟨[⟨0, false, none, none⟩, ⟨4, false, none, none⟩], [], .waiting 1⟩ :=
    .step r2 (.issue 4 rfl (by decide))
  have r4 : Reach 7 2 (0 : Nat) ⟨[⟨0, false, none, none⟩, ⟨4, true, some good, none⟩], [good], .waiting 1⟩ :=
    .step r3 (.finish (k := 1) (c := ⟨4, false, none, none⟩) (some good) rfl rfl)
  exact ⟨_, .step r4 (.recvSuccess (.inl ⟨1, rfl⟩) rfl), rfl, rfl⟩

end Motan.Props
