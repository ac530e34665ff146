import Verif.Model.Rotation
import Verif.Props.Retry
import Verif.Props.Select
import Verif.Props.Cluster

/-!
# C108 Failover with round robin gets past the servers that fail
-/

namespace Motan.Props

open Convert (Lib Request Response Err)
open Call
open Retry
open Rotation (Ring Site)

variable {E : Type}

namespace Spec

/-- In round `k` the endpoint `e` fails: it is not available, so that it is not chosen, or there is nobody behind it, or the
handler of its server panics or answers with an exception that is not the business's. -/
def FailsAt (req : Request) (vs : List Simple.Val) (g : Ring E) (site : E → Site) (sid : Nat → UInt64) (e : E) (k : Nat) : Prop :=
  g.avail k e = false ∨ RoundFails req vs ⟨(site e).ep, sid k, (site e).net⟩

/-- The endpoint is available in all rounds, and the handler of its server answers the caller's request, with a value or a
business exception. -/
def Works (req : Request) (vs : List Simple.Val) (g : Ring E) (site : E → Site) (sid : Nat → UInt64) (e : E) : Prop :=
  (∀ k, g.avail k e = true) ∧ ∃ p buf maxLen, (site e).net = .server p buf maxLen ∧
    ∀ k r, Sees (site e).ep p.ip (sid k) req vs r →
      ∃ res, p.handler r = .returned (some res) ∧ Answerable p maxLen res.r ∧ ¬ Failed res.r

/-- The answer is the one the handler of the server behind `e` gave in round `k`, to the caller's request. -/
def AnsweredBy (req : Request) (vs : List Simple.Val) (site : E → Site) (sid : Nat → UInt64) (e : E) (k : Nat)
    (answer : Response) : Prop :=
  ∃ p buf maxLen r res out, (site e).net = .server p buf maxLen ∧ Sees (site e).ep p.ip (sid k) req vs r ∧
    p.handler r = .returned (some res) ∧ Delivered req res.r out ∧ answer = out.resp

end Spec

/-- The answer of failover when the outcome of all rounds is known. -/
theorem failover_first (u : Url.URL) (method desc : Bytes) (id : UInt64) (env : Nat → Ha.Attempt E) (e : Nat → E)
    (r : Nat → Response) {k n : Nat} (hr : Ha.failoverRetries u method desc = n) (hkn : k ≤ n)
    (henv : ∀ j, j ≤ k → env j = .call (e j) (some (r j))) (hgood : Spec.GoodResponse (r k))
    (hbad : ∀ j, j < k → ¬ Spec.GoodResponse (r j)) :
    Ha.failoverCall u method desc id env = (r k, (List.range (k + 1)).map e) := by
  have spec := failover_spec u method desc id env n hr
  generalize Ha.failoverCall u method desc id env = x at spec
  obtain ⟨x1, x2⟩ := x
  obtain ⟨-, s2, s3, s4⟩ := spec
  have notFailed : ¬ Spec.FailedAttempt (env k) := by
    rintro ⟨ep, o, e1, e2⟩
    rw [henv k (Nat.le_refl _)] at e1
    simp only [Ha.Attempt.call.injEq] at e1
    exact e2 _ e1.2.symm hgood
  rcases s4 with ⟨m, ep, r', t1, t2, t3, t4⟩ | ⟨m, t1, -, t3, t4, -⟩ | ⟨t1, t2, -⟩
  · have hmk : m = k := by
      rcases Nat.lt_trichotomy m k with h | h | h
      · rw [henv m (Nat.le_of_lt h)] at t2
        simp only [Ha.Attempt.call.injEq, Option.some.injEq] at t2
        exact absurd (t2.2 ▸ t3) (hbad m h)
      · exact h
      · exact absurd (s3 k (by simp only at t1 ⊢; omega)) notFailed
    subst hmk
    rw [henv m (Nat.le_refl _)] at t2
    simp only [Ha.Attempt.call.injEq, Option.some.injEq] at t2
    have e1 : x1 = r' := t4
    have e2 : x2 = (List.range (m + 1)).map e := by
      apply List.ext_getElem?
      intro i
      have hl : x2.length = m + 1 := t1
      by_cases hi : i < m + 1
      · have h4 : x2[i]? = some x2[i] := List.getElem?_eq_getElem (by omega)
        obtain ⟨o, ho⟩ := s2 i _ h4
        rw [henv i (by omega)] at ho
        simp only [Ha.Attempt.call.injEq] at ho
        rw [h4, ← ho.1]
        simp [hi]
      · rw [List.getElem?_eq_none (by omega), List.getElem?_eq_none (by simp; omega)]
    rw [e1, ← t2.2, e2]
  · rcases Nat.lt_or_ge k m with h | h
    · exact absurd (t4 k h) notFailed
    · rw [henv m h] at t3; cases t3
  · exact absurd (t2 k hkn) notFailed

/-! ### The rotation -/

/-- A selection moves the counter by one, and takes the endpoint there if it is available. -/
theorem rr_step (avail : E → Bool) (eps : List E) (i : UInt32) (r1 r2 : Nat) (h : eps ≠ []) :
    (Lb.rrSelect avail eps i r1 r2).2 = i + 1 ∧
    ∀ e, eps[(i + 1).toNat % eps.length]? = some e → avail e = true → (Lb.rrSelect avail eps i r1 r2).1 = some e := by
  have hl : eps.length ≠ 0 := fun h' => h (List.eq_nil_of_length_eq_zero h')
  have hlt : (i + 1).toNat % eps.length < eps.length := Nat.mod_lt _ (by omega)
  unfold Lb.rrSelect Lb.roundrobinSelect
  simp only [if_neg hl, List.getElem?_eq_getElem hlt]
  refine ⟨by split <;> rfl, ?_⟩
  intro e he ha
  cases he
  rw [if_pos ha]
  rfl

private theorem counter_alone (g : Ring E) (hne : g.eps ≠ []) (n : Nat) (halone : ∀ k, 0 < k → k ≤ n → g.others k = 0)
    (hwrap : (g.counter 0).toNat + n + 1 < 2 ^ 32) : ∀ k, k ≤ n → (g.counter k).toNat = (g.counter 0).toNat + k := by
  intro k
  induction k with
  | zero => intro _; rfl
  | succ k ih =>
    intro hk
    have := ih (by omega)
    show ((Lb.rrSelect (g.avail k) g.eps (g.counter k) (g.r1 k) (g.r2 k)).2 + g.others (k + 1)).toNat = _
    rw [(rr_step _ g.eps _ _ _ hne).1, halone (k + 1) (by omega) hk, UInt32.add_zero, UInt32.toNat_add, this]
    simp only [UInt32.toNat_one]
    omega

/-- Among consecutive positions of the ring, one more than there are elements that are not `p`, there is one with `p`. -/
theorem ring_finds (l : List E) (p : E → Bool) (c : Nat) (h : ∃ e ∈ l, p e = true) :
    ∃ k e, k ≤ l.countP (fun e => !p e) ∧ l[(c + k) % l.length]? = some e ∧ p e = true := by
  have hlt : l.countP (fun e => !p e) < l.length := by
    obtain ⟨e, he, hp⟩ := h
    have h1 := List.length_eq_countP_add_countP (p := p) (l := l)
    have h2 : 0 < l.countP p := List.countP_pos_iff.mpr ⟨e, he, hp⟩
    have h3 : l.countP (fun a => decide ¬ p a = true) = l.countP (fun e => !p e) := by
      apply List.countP_congr; intro x _; simp
    omega
  refine Classical.byContradiction fun hno => ?_
  have hall : ∀ e ∈ (rot l c).take (l.countP (fun e => !p e) + 1), (fun e => !p e) e = true := by
    intro e he
    obtain ⟨k, hk, hke⟩ := List.mem_iff_getElem.mp he
    rw [List.length_take, length_rot] at hk
    rw [List.getElem_take] at hke
    have h1 : (rot l c)[k]? = some e := by rw [List.getElem?_eq_getElem (by rw [length_rot]; omega), hke]
    rw [getElem?_rot l c k (by omega)] at h1
    cases hp : p e with
    | false => simp [hp]
    | true => exact absurd ⟨k, e, by omega, h1, hp⟩ hno
  have h1 := List.countP_eq_length.mpr hall
  have h2 := (List.take_sublist (l.countP (fun e => !p e) + 1) (rot l c)).countP_le (p := fun e => !p e)
  rw [(rot_perm l c).countP_eq, h1, List.length_take, length_rot] at h2
  omega

/-- **C108.** A caller alone at a round-robin load balancer (no other call selects between its rounds, and the counter does
not pass 2^32) calls through failover with `n` retries. Some server works, and each of the others fails or is not
available. If those are at most `n`, the caller gets the answer that a working server gave to its request; the servers
called before it have failed. -/
theorem rr_failover_passes {lib : Lib} (errText : Err → Bytes) (version : Nat → Int) (u : Url.URL) {req : Request}
    {vs : List Simple.Val} (hn : req.rc.original = none) (g : Ring E) (site : E → Site) (sid : Nat → UInt64) {n : Nat}
    (hr : Ha.failoverRetries u req.method req.desc = n) (hc : ∀ k, k ≤ n → Spec.Callable lib req vs (g.round site sid) k)
    (works : E → Bool) (hw : ∀ e ∈ g.eps, works e = true → Spec.Works req vs g site sid e)
    (hf : ∀ e ∈ g.eps, works e = false → ∀ k, k ≤ n → Spec.FailsAt req vs g site sid e k)
    (hsome : ∃ e ∈ g.eps, works e = true) (hcount : g.eps.countP (fun e => !works e) ≤ n)
    (halone : ∀ k, 0 < k → k ≤ n → g.others k = 0) (hwrap : (g.counter 0).toNat + n + 1 < 2 ^ 32) :
    ∃ before e, (Rotation.failover lib errText version u req g site sid).2 = before ++ [e] ∧
      (∀ b ∈ before, b ∈ g.eps ∧ works b = false) ∧ e ∈ g.eps ∧ works e = true ∧
      Spec.AnsweredBy req vs site sid e before.length (Rotation.failover lib errText version u req g site sid).1 := by
  have hne : g.eps ≠ [] := by rintro h; obtain ⟨e, he, -⟩ := hsome; rw [h] at he; cases he
  have hctr := counter_alone g hne n halone hwrap
  -- every round has an endpoint, an available one
  have hpick : ∀ k, ∃ e, g.pick k = some e ∧ e ∈ g.eps ∧ g.avail k e = true := by
    intro k
    obtain ⟨h1, h2⟩ := rr_select_good (g.avail k) g.eps (g.counter k) (g.r1 k) (g.r2 k)
    cases hp : g.pick k with
    | none =>
      obtain ⟨e, he, hwe⟩ := hsome
      have := h2 hp e he
      rw [(hw e he hwe).1 k] at this; cases this
    | some e => exact ⟨e, rfl, h1 e hp⟩
  let pk : Nat → E := fun k => (hpick k).choose
  have hpk : ∀ k, g.pick k = some (pk k) ∧ pk k ∈ g.eps ∧ g.avail k (pk k) = true := fun k => (hpick k).choose_spec
  -- a working one comes in time
  have hfound : ∃ k, k ≤ n ∧ works (pk k) = true := by
    obtain ⟨k, e, hk, he, hwe⟩ := ring_finds g.eps works ((g.counter 0).toNat + 1) hsome
    refine ⟨k, by omega, ?_⟩
    have hcpos : (g.counter k + 1).toNat = (g.counter 0).toNat + 1 + k := by
      rw [UInt32.toNat_add, hctr k (by omega)]; simp only [UInt32.toNat_one]; omega
    have hmem : e ∈ g.eps := List.mem_of_getElem? he
    have := (rr_step (g.avail k) g.eps (g.counter k) (g.r1 k) (g.r2 k) hne).2 e (by rw [hcpos]; exact he)
      ((hw e hmem hwe).1 k)
    have h2 := (hpk k).1
    rw [Ring.pick, this] at h2
    cases h2; exact hwe
  obtain ⟨k, ⟨hkn, hkw⟩, hmin⟩ : ∃ k, (k ≤ n ∧ works (pk k) = true) ∧ ∀ j, j < k → works (pk j) = false := by
    obtain ⟨m, hm⟩ := hfound
    clear hcount
    induction m using Nat.strongRecOn with
    | ind m ih =>
      by_cases hx : ∃ j, j < m ∧ works (pk j) = true
      · obtain ⟨j, h1, h2⟩ := hx; exact ih j h1 ⟨by omega, h2⟩
      · refine ⟨m, hm, fun j hj => ?_⟩
        cases h : works (pk j) with
        | false => rfl
        | true => exact absurd ⟨j, hj, h⟩ hx
  have hround : ∀ j, g.round site sid j = ⟨(site (pk j)).ep, sid j, (site (pk j)).net⟩ := by
    intro j; rw [Ring.round, (hpk j).1]
  have hbad : ∀ j, j < k → ¬ Spec.GoodResponse (resultAt lib errText version req (g.round site sid) j).resp := by
    intro j hj
    refine not_good (resultAt_fails hn (hc j (by omega)) ?_)
    rw [hround j]
    rcases hf _ (hpk j).2.1 (hmin j hj) j (by omega) with h | h
    · rw [(hpk j).2.2] at h; cases h
    · exact h
  obtain ⟨-, p, buf, maxLen, hs, ha⟩ := hw _ (hpk k).2.1 hkw
  have hs' : (g.round site sid k).net = .server p buf maxLen := by rw [hround k]; exact hs
  obtain ⟨r, h1, h2, -⟩ := resultAt_server (errText := errText) (version := version) hn (hc k hkn) hs'
  rw [hround k] at h1
  obtain ⟨res, g1, g2, g3⟩ := ha k r h1
  have hd := h2 res g1 g2
  have hgood : Spec.GoodResponse (resultAt lib errText version req (g.round site sid) k).resp := by
    cases he : res.r.exception with
    | none => exact .inl (hd.exception.trans he)
    | some e =>
      refine .inr ⟨e, hd.exception.trans he, ?_⟩
      exact Classical.byContradiction fun h => g3 ⟨e, he, h⟩
  have hfin : Rotation.failover lib errText version u req g site sid
      = ((resultAt lib errText version req (g.round site sid) k).resp, (List.range (k + 1)).map pk) := by
    refine failover_first u req.method req.desc req.id _ pk
      (fun j => (resultAt lib errText version req (g.round site sid) j).resp) hr hkn ?_ hgood hbad
    intro j _
    simp only [(hpk j).1]
  refine ⟨(List.range k).map pk, pk k, ?_, ?_, (hpk k).2.1, hkw, ?_⟩
  · rw [hfin, List.range_succ, List.map_append]; rfl
  · intro b hb
    obtain ⟨j, hj, rfl⟩ := List.mem_map.mp hb
    exact ⟨(hpk j).2.1, hmin j (List.mem_range.mp hj)⟩
  · rw [List.length_map, List.length_range, hfin]
    exact ⟨p, buf, maxLen, r, res, _, hs, h1, g1, hd, rfl⟩

/-- **C108.** Whatever the servers and the other callers do, the endpoints failover calls are endpoints of the list the load
balancer has been told, and in a cluster these are servers the registries have announced. -/
theorem rr_failover_announced {N : RefersFilter.Net} (env : Cluster.Env) (h : List (Cluster.Event N)) (ho : Spec.OrdinaryHistory h)
    {lib : Lib} (errText : Err → Bytes) (version : Nat → Int) (u : Url.URL) (req : Request) (g : Ring Cluster.Ep)
    (hg : g.eps = (Cluster.run env h).balanced) (site : Cluster.Ep → Site) (sid : Nat → UInt64) {n : Nat}
    (hr : Ha.failoverRetries u req.method req.desc = n) :
    ∀ e ∈ (Rotation.failover lib errText version u req g site sid).2,
      Spec.identity e.url ∈ (Spec.announced env h).flatMap Prod.snd := by
  intro e he
  obtain ⟨k, hk, hke⟩ := List.mem_iff_getElem.mp he
  obtain ⟨o, ho'⟩ := (failover_spec u req.method req.desc req.id _ n hr).2.1 k e (by
    rw [← hke]; exact List.getElem?_eq_getElem hk)
  obtain ⟨h1, h2, h3⟩ := cluster_endpoints env h ho
  have hmem : e ∈ g.eps := by
    cases hp : g.pick k with
    | none => simp only [hp] at ho'; cases ho'
    | some e' =>
      simp only [hp, Ha.Attempt.call.injEq] at ho'
      rw [← ho'.1]
      exact ((rr_select_good (g.avail k) g.eps (g.counter k) (g.r1 k) (g.r2 k)).1 e' hp).1
  rw [hg, h3] at hmem
  rw [← h1]
  exact List.mem_map_of_mem (f := fun e : Cluster.Ep => Spec.identity e.url)
    ((filterRefers_sub _ _ _).subset (h2.mem_iff.mp hmem))

/-! ### Cases -/

namespace RotationEx

/-- Behind `false` there is no connection, behind `true` the server of C62's example. -/
def site : Bool → Site
  | false => ⟨RetryEx.clientEp b!"g2", .down .refused⟩
  | true => ⟨callEp, .server callPeer none 1000⟩

def req : Request := { sampleRequest with method := b!"say" }
def vs : List Simple.Val := [.str b!"hello", .int 5]
def once : Url.URL := { params := some [(b!"retries", b!"1")] }

def ring (eps : List Bool) (start between : UInt32) : Ring Bool :=
  { eps := eps, avail := fun _ _ => true, start := start, others := fun k => if k = 1 then between else 0,
    r1 := fun _ => 0, r2 := fun _ => 0 }

def ask (g : Ring Bool) : Response × List Bool :=
  Rotation.failover toyLib (fun _ => []) (fun _ => -1) once req g site (fun _ => 77)

end RotationEx

open RotationEx in
private theorem ex_works (eps : List Bool) (start between : UInt32) :
    Spec.Works req vs (ring eps start between) site (fun _ => 77) true ∧
    ∀ k, Spec.FailsAt req vs (ring eps start between) site (fun _ => 77) false k := by
  refine ⟨⟨fun _ => rfl, callPeer, none, 1000, rfl, ?_⟩, ?_⟩
  · intro _ r hs
    obtain ⟨a, h1, h2, h3⟩ := callPeer_answers r (hs.method.trans (by decide))
    refine ⟨a, h1, h2, ?_⟩
    rintro ⟨e, h4, -⟩
    rw [h3] at h4; cases h4
  · intro k
    refine .inr ?_
    show ∀ got, Chan.refused ≠ .answered got
    intro got h; cases h

open RotationEx in
/-- The hypotheses of `rr_failover_passes`: two endpoints, one retry, the failing one comes first. -/
example : let g := ring [false, true] 1 0
    req.rc.original = none ∧ Ha.failoverRetries once req.method req.desc = (1 : Nat) ∧
    (∀ k, k ≤ 1 → Spec.Callable toyLib req vs (g.round site fun _ => 77) k) ∧
    (∀ e ∈ g.eps, id e = true → Spec.Works req vs g site (fun _ => 77) e) ∧
    (∀ e ∈ g.eps, id e = false → ∀ k, k ≤ 1 → Spec.FailsAt req vs g site (fun _ => 77) e k) ∧
    (∃ e ∈ g.eps, id e = true) ∧ g.eps.countP (fun e => !id e) ≤ 1 ∧ (∀ k, 0 < k → k ≤ 1 → g.others k = 0) ∧
    (g.counter 0).toNat + 1 + 1 < 2 ^ 32 := by
  intro g
  refine ⟨rfl, by decide +kernel, ?_, ?_, ?_, ⟨true, by decide, rfl⟩, by decide, ?_, by decide +kernel⟩
  · intro k hk p buf maxLen hs
    match k, hk with
    | 0, _ =>
      have : (g.round site (fun _ => 77) 0) = ⟨RetryEx.clientEp b!"g2", 77, .down .refused⟩ := by
        have hp : g.pick 0 = some false := by decide +kernel
        rw [Ring.round, hp]; rfl
      rw [this] at hs; cases hs
    | 1, _ =>
      have e : (g.round site (fun _ => 77) 1) = ⟨callEp, 77, .server callPeer none 1000⟩ := by
        have hp : g.pick 1 = some true := by decide +kernel
        rw [Ring.round, hp]; rfl
      rw [e] at hs ⊢
      cases hs
      refine ⟨callPeer_plain _ (by decide), rfl, trivial, trivial, by decide, ?_⟩
      intro msg h
      have : ((requestMessage toyLib callEp 77 (requestAt toyLib req (g.round site fun _ => 77) 1)).map fun x =>
          decide (metaSize x.metadata ≤ callPeer.maxLen ∧ x.body.length ≤ callPeer.maxLen)).toOption = some true := by
        decide +kernel
      have h' : requestMessage toyLib callEp 77 (requestAt toyLib req (g.round site fun _ => 77) 1) = .ok msg := h
      rw [h'] at this
      simpa [Except.map, Except.toOption] using this
  · intro e _ h
    have : e = true := h
    subst this; exact (ex_works _ _ _).1
  · intro e _ h k _
    have : e = false := h
    subst this; exact (ex_works _ _ _).2 k
  · intro k h1 h2
    have : k = 1 := by omega
    subst this; rfl

open RotationEx in
example : textOf (ask (ring [false, true] 1 0)).1 = some b!"world" ∧ (ask (ring [false, true] 1 0)).2 = [false, true] := by
  decide +kernel

open RotationEx in
/-- **C108, where it fails.** Of two servers one fails and one works, and there is one retry. If another call selects a
server between the two rounds the counter comes back to the failing server: it is asked twice, the other one not at all. -/
theorem rr_failover_shared_violated : ∃ g : Ring Bool, g.eps = [false, true] ∧ (g.counter 0).toNat < 10 ∧ g.others 1 = 1 ∧
    Spec.Works req vs g site (fun _ => 77) true ∧ (∀ k, Spec.FailsAt req vs g site (fun _ => 77) false k) ∧
    Ha.failoverRetries once req.method req.desc = 1 ∧ (ask g).2 = [false, false] ∧ Spec.Failed (ask g).1 := by
  refine ⟨ring [false, true] 1 1, rfl, by decide +kernel, rfl, (ex_works _ _ _).1, (ex_works _ _ _).2, by decide +kernel,
    by decide +kernel, ?_⟩
  have : (ask (ring [false, true] 1 1)).1.exception = some ⟨1002, b!"can not get a channel", 1⟩ := by decide +kernel
  exact ⟨_, this, by decide⟩

open RotationEx in
/-- **C108, where it fails.** The counter is a number of 32 bits. With three servers the step from 2^32 - 1 to 0 stays at the
same server: it is asked twice although the two others work and nobody else is calling. -/
theorem rr_failover_wrap_violated : ∃ g : Ring Bool, g.eps = [false, true, true] ∧ (∀ k, g.others k = 0) ∧
    Spec.Works req vs g site (fun _ => 77) true ∧ (∀ k, Spec.FailsAt req vs g site (fun _ => 77) false k) ∧
    Ha.failoverRetries once req.method req.desc = 1 ∧ (ask g).2 = [false, false] ∧ Spec.Failed (ask g).1 := by
  refine ⟨ring [false, true, true] 4294967294 0, rfl, ?_, (ex_works _ _ _).1, (ex_works _ _ _).2, by decide +kernel,
    by decide +kernel, ?_⟩
  · intro k; show (if k = 1 then (0 : UInt32) else 0) = 0; split <;> rfl
  · have : (ask (ring [false, true, true] 4294967294 0)).1.exception = some ⟨1002, b!"can not get a channel", 1⟩ := by
      decide +kernel
    exact ⟨_, this, by decide⟩

end Motan.Props
