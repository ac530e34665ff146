import Verif.Props.Rotation

/-!
# C28 end to end: what a caller with backup requests gets
-/

namespace Motan.Props

open Convert (Lib Request Response Err)
open Call
open Retry
open Rotation (Site hedgedResult)

variable {E : Type}

namespace Spec

/-- The handlers behind the endpoint `e`, given the caller's request, panic or answer with something that can be sent. -/
def HandlersEnd (req : Request) (vs : List Simple.Val) (site : E → Site) (sid : Nat → UInt64) (e : E) : Prop :=
  match (site e).net with
  | .down c => ∀ got, c ≠ .answered got
  | .server p _ maxLen => ∀ k r, Sees (site e).ep p.ip (sid k) req vs r →
      p.handler r = .panicked ∨ ∃ res, p.handler r = .returned (some res) ∧ Answerable p maxLen res.r

end Spec

/-- **C28, end to end.** A client calls with backup requests, and each of the calls made for it returns what comes back from
the server behind its endpoint (`hedgedResult`). Then in every execution, when the call has ended, its answer is the answer
that the handler of one of these servers gave to the caller's request, with a value or a business exception; or it is the
timeout error for this request. -/
theorem backup_end_to_end {lib : Lib} (errText : Err → Bytes) (version : Nat → Int) {req : Request} {vs : List Simple.Val}
    (hn : req.rc.original = none) (site : E → Site) (sid : Nat → UInt64) {retries : Nat} {ep0 : E} {s : Ha.St E} {r : Response}
    (h : Ha.Reach req.id retries ep0 s) (hd : s.pc = .done r)
    (hc : ∀ k c, s.calls[k]? = some c →
      Spec.Callable lib req vs (fun _ => ⟨(site c.ep).ep, sid k, (site c.ep).net⟩) 0 ∧ Spec.HandlersEnd req vs site sid c.ep)
    (hres : ∀ k c x, s.calls[k]? = some c → c.result = some x → x = hedgedResult lib errText version req site sid k c.ep) :
    (∃ k c, s.calls[k]? = some c ∧ c.result = some r ∧ Spec.AnsweredBy req vs site sid c.ep k r ∧ Spec.GoodResponse r) ∨
    Spec.OwnError req.id 400 r := by
  rcases backup_answer_real h hd with ⟨hg, c, hcm, hcr⟩ | h1
  · refine .inl ?_
    obtain ⟨k, hk, hkc⟩ := List.mem_iff_getElem.mp hcm
    have hkc' : s.calls[k]? = some c := by rw [← hkc]; exact List.getElem?_eq_getElem hk
    obtain ⟨h2, h3⟩ := hc k c hkc'
    have hr : r = (resultAt lib errText (fun _ => version k) req (fun _ => ⟨(site c.ep).ep, sid k, (site c.ep).net⟩) 0).resp :=
      hres k c r hkc' hcr
    refine ⟨k, c, hkc', hcr, ?_, hg⟩
    rw [Spec.HandlersEnd] at h3
    cases hs : (site c.ep).net with
    | down ch =>
      rw [hs] at h3
      refine absurd (hr ▸ hg) (not_good (resultAt_fails hn h2 ?_))
      show Spec.RoundFails req vs ⟨(site c.ep).ep, sid k, (site c.ep).net⟩
      rw [hs]; exact h3
    | server p buf maxLen =>
      rw [hs] at h3
      obtain ⟨rq, g1, g2, g3⟩ := resultAt_server (errText := errText) (version := fun _ => version k) hn h2
        (p := p) (buf := buf) (maxLen := maxLen) (by exact hs)
      rcases h3 k rq g1 with g | ⟨res, e1, e2⟩
      · exact absurd (hr ▸ hg) (not_good (g3 g))
      · exact ⟨p, buf, maxLen, rq, res, _, hs, g1, e1, g2 res e1 e2, hr⟩
  · exact .inr h1

/-! ### Cases -/

namespace HedgeEx

open RotationEx

/-- What the second call returns. -/
def answer : Response := hedgedResult toyLib (fun _ => []) (fun _ => -1) req site (fun _ => 77) 1 true

/-- The first endpoint has not answered when the second one's answer is taken. -/
def last : Ha.St Bool := ⟨[⟨false, false, none, none⟩, ⟨true, true, some answer, none⟩], [], .done answer⟩

end HedgeEx

open RotationEx HedgeEx in
/-- The hypotheses of `backup_end_to_end`: the call to `false` is without an answer, the backup request goes to `true`. -/
example : req.rc.original = none ∧ Ha.Reach req.id 1 false last ∧ last.pc = .done answer ∧
    (∀ (k : Nat) (c : Ha.Issued Bool), last.calls[k]? = some c →
      Spec.Callable toyLib req vs (fun _ => ⟨(site c.ep).ep, 77, (site c.ep).net⟩) 0 ∧
      Spec.HandlersEnd req vs site (fun _ => 77) c.ep) ∧
    (∀ (k : Nat) (c : Ha.Issued Bool) x, last.calls[k]? = some c → c.result = some x →
      x = hedgedResult toyLib (fun _ => []) (fun _ => -1) req site (fun _ => 77) k c.ep) ∧
    textOf answer = some b!"world" := by
  refine ⟨rfl, ?_, rfl, ?_, ?_, by decide +kernel⟩
  · have hacc : Ha.accepted answer = true := by decide +kernel
    have h1 : Ha.Reach req.id 1 false (⟨[⟨false, false, none, none⟩], [], .waiting 0⟩ : Ha.St Bool) := .step .init (.issueFirst rfl)
    have h2 : Ha.Reach req.id 1 false (⟨[⟨false, false, none, none⟩], [], .top 1⟩ : Ha.St Bool) := .step h1 (.delayOver rfl)
    have h3 : Ha.Reach req.id 1 false
        (⟨[⟨false, false, none, none⟩, ⟨true, false, none, none⟩], [], .waiting 1⟩ : Ha.St Bool) :=
      .step h2 (.issue true rfl (Nat.le_refl 1))
    have h4 := Ha.Reach.step h3 (.finish (k := 1) (c := ⟨true, false, none, none⟩) (some answer) rfl rfl)
    simp only [hacc, if_true] at h4
    exact .step h4 (.recvSuccess (.inl ⟨1, rfl⟩) rfl)
  · have hall : ∀ b, Spec.Callable toyLib req vs (fun _ => ⟨(site b).ep, 77, (site b).net⟩) 0 ∧
        Spec.HandlersEnd req vs site (fun _ => 77) b := by
      intro b
      cases b
      · refine ⟨fun p buf maxLen hs => (by cases hs), ?_⟩
        show ∀ got, Chan.refused ≠ .answered got
        intro got h; cases h
      · refine ⟨?_, ?_⟩
        · intro p buf maxLen hs
          cases hs
          refine ⟨callPeer_plain _ (by decide), rfl, trivial, trivial, by decide, ?_⟩
          intro msg h
          have : ((requestMessage toyLib callEp 77 req).map fun x =>
              decide (metaSize x.metadata ≤ callPeer.maxLen ∧ x.body.length ≤ callPeer.maxLen)).toOption = some true := by
            decide +kernel
          have h' : requestMessage toyLib callEp 77 req = .ok msg := h
          rw [h'] at this
          simpa [Except.map, Except.toOption] using this
        · show ∀ (k : Nat) r, Spec.Sees callEp callPeer.ip 77 req vs r →
            callPeer.handler r = .panicked ∨
              ∃ res, callPeer.handler r = .returned (some res) ∧ Spec.Answerable callPeer 1000 res.r
          intro _ r hs
          obtain ⟨a, g1, g2, -⟩ := callPeer_answers r (hs.method.trans (by decide))
          exact .inr ⟨a, g1, g2⟩
    intro k c _
    exact hall c.ep
  · intro k c x hk hx
    match k, hk with
    | 0, hk => cases hk; cases hx
    | 1, hk => cases hk; cases hx; rfl

end Motan.Props
