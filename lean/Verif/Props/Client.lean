import Verif.Model.Client

/-!
# C88: calls of a client that do not wait give each result once
-/

namespace Motan.Props

open Motan.Client Motan.Url

namespace Spec

/-- The channels given to the calls, in the order of the calls. -/
def goes (ops : List Client.Op) : List (Option Nat) := ops.filterMap fun o => match o with | .go d => some d | _ => none

/-- The exceptions (none: no exception) with which the cluster answered a call. -/
def answersTo (k : Nat) (ops : List Client.Op) : List (Option Exn) :=
  ops.filterMap fun o => match o with | .answer j e => if j = k then some e else none | _ => none

/-- The results of a call, received or waiting, on all channels: how many on each. -/
def results (s : Client.St) (x : ChanId) : List Nat := s.got x ++ s.queue x

end Spec

theorem client_play_snoc {cap : Nat → Nat} {s s' : Client.St} {ops : List Client.Op} {o : Client.Op} :
    Client.play cap s (ops ++ [o]) = some s' ↔ ∃ m, Client.play cap s ops = some m ∧ Client.step cap m o = some s' := by
  induction ops generalizing s with
  | nil => simp [Client.play]
  | cons a ops ih =>
    simp only [List.cons_append, Client.play]
    cases Client.step cap s a with
    | none => simp
    | some m => simpa using ih

theorem client_induct {cap : Nat → Nat} {P : List Client.Op → Client.St → Prop} (h0 : P [] {})
    (hs : ∀ ops o s s', P ops s → Client.step cap s o = some s' → P (ops ++ [o]) s') :
    ∀ ops s, Client.play cap {} ops = some s → P ops s := by
  intro ops
  suffices H : ∀ rs : List Client.Op, ∀ s, Client.play cap {} rs.reverse = some s → P rs.reverse s by
    simpa using H ops.reverse
  intro rs
  induction rs with
  | nil => intro s h; simp [Client.play] at h; subst h; exact h0
  | cons o rs ih =>
    intro s h
    rw [List.reverse_cons] at h ⊢
    obtain ⟨m, h1, h2⟩ := client_play_snoc.mp h
    exact hs _ _ _ _ (ih m h1) h2

/-- The answers that go with a stage. -/
def stageAnswers : Stage → List (Option Bytes)
  | .running => []
  | .answered e => [e]
  | .sent e => [e]

/-- Whether a result has been sent. -/
def isSent : Stage → Bool
  | .sent _ => true
  | _ => false

structure ClientInv (cap : Nat → Nat) (ops : List Client.Op) (s : Client.St) : Prop where
  len : s.calls.length = (Spec.goes ops).length
  chan : ∀ k c, s.calls[k]? = some c → ∃ d, (Spec.goes ops)[k]? = some d ∧ c.chan = chanFor cap k d
  stage : ∀ k c, s.calls[k]? = some c → (Spec.answersTo k ops).map (·.map Exn.msg) = stageAnswers c.stage
  none : ∀ k, s.calls[k]? = none → Spec.answersTo k ops = []
  once : ∀ x k, (Spec.results s x).count k =
    match s.calls[k]? with
    | some c => if c.chan = x ∧ isSent c.stage = true then 1 else 0
    | none => 0
  room : ∀ x, (s.queue x).length ≤ roomOf cap x

theorem goes_snoc (ops : List Client.Op) (o : Client.Op) : Spec.goes (ops ++ [o]) = Spec.goes ops ++ Spec.goes [o] := by
  simp [Spec.goes]

theorem answersTo_snoc (k : Nat) (ops : List Client.Op) (o : Client.Op) :
    Spec.answersTo k (ops ++ [o]) = Spec.answersTo k ops ++ Spec.answersTo k [o] := by
  simp [Spec.answersTo]

theorem clientInv (cap : Nat → Nat) (ops : List Client.Op) (s : Client.St) (h : Client.play cap {} ops = some s) :
    ClientInv cap ops s := by
  refine client_induct (P := ClientInv cap) ?_ ?_ ops s h
  · constructor <;> simp [Spec.goes, Spec.answersTo, Spec.results]
  · clear h ops s
    intro ops o s s' ⟨hlen, hchan, hstage, hnone, honce, hroom⟩ hs
    cases o with
    | go d =>
      cases hs
      have hg : Spec.goes (ops ++ [.go d]) = Spec.goes ops ++ [d] := by rw [goes_snoc]; rfl
      have ha : ∀ k, Spec.answersTo k (ops ++ [.go d]) = Spec.answersTo k ops := by
        intro k; rw [answersTo_snoc]; simp [Spec.answersTo]
      have hget : ∀ k, (s.calls ++ [({ chan := chanFor cap s.calls.length d } : Call)])[k]? =
          if k < s.calls.length then s.calls[k]? else if k = s.calls.length then some { chan := chanFor cap s.calls.length d } else none := by
        intro k
        rw [List.getElem?_append]
        split
        · rfl
        · rename_i hk
          by_cases e : k = s.calls.length
          · subst e; simp
          · rw [if_neg e]
            exact List.getElem?_eq_none (by simp; omega)
      refine ⟨by simp [hg, hlen], ?_, ?_, ?_, ?_, hroom⟩
      · intro k c hk
        simp only [hget] at hk
        rw [hg]
        split at hk
        · rename_i hl
          obtain ⟨d', h1, h2⟩ := hchan k c hk
          refine ⟨d', ?_, h2⟩
          rw [List.getElem?_append_left (by omega)]; exact h1
        · split at hk
          · rename_i e
            cases hk
            refine ⟨d, ?_, by rw [e]⟩
            rw [e, hlen]; simp
          · cases hk
      · intro k c hk
        simp only [hget] at hk
        rw [ha]
        split at hk
        · exact hstage k c hk
        · split at hk
          · rename_i e
            cases hk
            rw [hnone k (by rw [e]; simp)]; rfl
          · cases hk
      · intro k hk
        simp only [hget] at hk
        rw [ha]
        apply hnone
        split at hk
        · exact hk
        · rename_i hl; exact List.getElem?_eq_none (by omega)
      · intro x k
        have := honce x k
        simp only [Spec.results, hget] at this ⊢
        rw [this]
        by_cases hl : k < s.calls.length
        · rw [if_pos hl]
        · rw [if_neg hl, List.getElem?_eq_none (by omega)]
          by_cases ek : k = s.calls.length
          · simp [ek, isSent]
          · simp [ek]
    | answer j e =>
      simp only [Client.step] at hs
      split at hs
      · rename_i c hc
        split at hs
        · rename_i hrun
          cases hs
          have hj : j < s.calls.length := (List.getElem?_eq_some_iff.mp hc).1
          have hg : Spec.goes (ops ++ [.answer j e]) = Spec.goes ops := by rw [goes_snoc]; simp [Spec.goes]
          have hget : ∀ k, (s.calls.set j { c with stage := .answered (callError e) })[k]? =
              if k = j then some { c with stage := .answered (callError e) } else s.calls[k]? := by
            intro k
            rw [List.getElem?_set]
            by_cases ek : j = k
            · subst ek; simp [hj]
            · have : ¬ k = j := fun x => ek x.symm
              simp [ek, this]
          refine ⟨by simp [hg, hlen], ?_, ?_, ?_, ?_, hroom⟩
          · intro k c' hk
            simp only [hget] at hk
            rw [hg]
            split at hk
            · rename_i ek
              cases hk; subst ek
              exact hchan k c hc
            · exact hchan k c' hk
          · intro k c' hk
            simp only [hget] at hk
            rw [answersTo_snoc]
            split at hk
            · rename_i ek
              cases hk; subst ek
              have := hstage k c hc
              rw [hrun] at this
              rw [List.map_append, this]; cases e <;> simp [Spec.answersTo, stageAnswers, callError]
            · rename_i ek
              have : ¬ j = k := fun x => ek x.symm
              rw [List.map_append, hstage k c' hk]; simp [Spec.answersTo, this]
          · intro k hk
            simp only [hget] at hk
            rw [answersTo_snoc]
            split at hk
            · cases hk
            · rename_i ek
              have : ¬ j = k := fun x => ek x.symm
              rw [hnone k hk]; simp [Spec.answersTo, this]
          · intro x k
            have := honce x k
            simp only [Spec.results, hget] at this ⊢
            rw [this]
            by_cases ek : k = j
            · subst ek; simp [hc, hrun, isSent]
            · simp [ek]
        · cases hs
      · cases hs
    | send j =>
      simp only [Client.step] at hs
      split at hs
      · rename_i c hc
        split at hs
        · rename_i e hst
          split at hs
          · rename_i hrm
            cases hs
            have hj : j < s.calls.length := (List.getElem?_eq_some_iff.mp hc).1
            have hg : Spec.goes (ops ++ [.send j]) = Spec.goes ops := by rw [goes_snoc]; simp [Spec.goes]
            have ha : ∀ k, Spec.answersTo k (ops ++ [.send j]) = Spec.answersTo k ops := by
              intro k; rw [answersTo_snoc]; simp [Spec.answersTo]
            have hget : ∀ k, (s.calls.set j { c with stage := .sent e })[k]? =
                if k = j then some { c with stage := .sent e } else s.calls[k]? := by
              intro k
              rw [List.getElem?_set]
              by_cases ek : j = k
              · subst ek; simp [hj]
              · have : ¬ k = j := fun x => ek x.symm
                simp [ek, this]
            refine ⟨by simp [hg, hlen], ?_, ?_, ?_, ?_, ?_⟩
            · intro k c' hk
              simp only [hget] at hk
              rw [hg]
              split at hk
              · rename_i ek
                cases hk; subst ek
                exact hchan k c hc
              · exact hchan k c' hk
            · intro k c' hk
              simp only [hget] at hk
              rw [ha]
              split at hk
              · rename_i ek
                cases hk; subst ek
                rw [hstage k c hc, hst]; rfl
              · exact hstage k c' hk
            · intro k hk
              simp only [hget] at hk
              rw [ha]
              split at hk
              · cases hk
              · exact hnone k hk
            · intro x k
              have := honce x k
              simp only [Spec.results, hget] at this ⊢
              by_cases ex : x = c.chan
              · subst ex
                simp only [if_true, ← List.append_assoc, List.count_append] at this ⊢
                rw [this]
                by_cases ek : k = j
                · subst ek; simp [hc, hst, isSent]
                · have ek' : ¬ j = k := fun y => ek y.symm
                  simp [ek, ek', List.count_cons]
              · simp only [if_neg ex]
                rw [this]
                by_cases ek : k = j
                · subst ek
                  have ex' : ¬ c.chan = x := fun y => ex y.symm
                  simp [hc, ex']
                · simp [ek]
            · intro x
              by_cases ex : x = c.chan
              · subst ex; simp; omega
              · simp [ex]; exact hroom x
          · cases hs
        · cases hs
      · cases hs
    | receive c =>
      simp only [Client.step] at hs
      split at hs
      · rename_i j q hq
        cases hs
        have hg : Spec.goes (ops ++ [.receive c]) = Spec.goes ops := by rw [goes_snoc]; simp [Spec.goes]
        have ha : ∀ k, Spec.answersTo k (ops ++ [.receive c]) = Spec.answersTo k ops := by
          intro k; rw [answersTo_snoc]; simp [Spec.answersTo]
        refine ⟨by simp [hg, hlen], by simpa [hg] using hchan, by simpa [ha] using hstage, by simpa [ha] using hnone, ?_, ?_⟩
        · intro x k
          have := honce x k
          simp only [Spec.results] at this ⊢
          rw [← this]
          by_cases ex : x = c
          · subst ex; simp [hq]
          · simp [ex]
        · intro x
          by_cases ex : x = c
          · subst ex
            have := hroom x
            simp [hq] at this ⊢; omega
          · simp [ex]; exact hroom x
      · cases hs

/-! ## The property -/

/-- C88: the request of a client: its service, the method, and five attachments. The application is that of the client's own section,
else that of the section motan-client. -/
theorem client_request (url clientURL : URL) (method : Bytes) :
    (buildRequest url clientURL method).service = url.path ∧ (buildRequest url clientURL method).method = method ∧
    (buildRequest url clientURL method).attachment.load b!"M_p" = some url.path ∧
    (buildRequest url clientURL method).attachment.load b!"M_g" = some url.group ∧
    (buildRequest url clientURL method).attachment.load b!"M_v" = some (getParam url b!"version" []) ∧
    (buildRequest url clientURL method).attachment.load b!"M_mdu" = some (getParam url b!"module" []) ∧
    (getParam url b!"application" [] ≠ [] →
      (buildRequest url clientURL method).attachment.load b!"M_s" = some (getParam url b!"application" [])) ∧
    (getParam url b!"application" [] = [] →
      (buildRequest url clientURL method).attachment.load b!"M_s" = some (getParam clientURL b!"application" [])) ∧
    ∀ k, k ∉ [b!"M_p", b!"M_g", b!"M_v", b!"M_mdu", b!"M_s"] → (buildRequest url clientURL method).attachment.load k = none := by
  refine ⟨rfl, rfl, ?_, ?_, ?_, ?_, fun h => ?_, fun h => ?_, fun k hk => ?_⟩
  all_goals simp only [buildRequest, AMap.load_store]
  · rfl
  · rfl
  · rfl
  · rfl
  · simp [h]
  · simp [h]
  · simp only [List.mem_cons, List.not_mem_nil, or_false, not_or] at hk
    obtain ⟨h1, h2, h3, h4, h5⟩ := hk
    simp only [AMap.load_nil]
    split <;> rename_i a <;> (first | exact absurd a.symm h1 | exact absurd a h1 | skip)
    split <;> rename_i a <;> (first | exact absurd a.symm h2 | exact absurd a h2 | skip)
    split <;> rename_i a <;> (first | exact absurd a.symm h5 | exact absurd a h5 | skip)
    split <;> rename_i a <;> (first | exact absurd a.symm h4 | exact absurd a h4 | skip)
    split <;> rename_i a <;> (first | exact absurd a.symm h3 | exact absurd a h3 | rfl)

/-- C88: a call that waits gives an error exactly if the answer has an exception: its message. -/
theorem client_call_error (e : Option Exn) : callError e = e.map Exn.msg := by cases e <;> rfl

/-- C88: however calls, answers and receivers interleave, the result of a call arrives at most once, on the channel of that call only,
and not before the cluster answered; the error in it is that of this call's one answer. -/
theorem async_once {cap : Nat → Nat} {ops : List Client.Op} {s : Client.St} (h : Client.play cap {} ops = some s) (x : ChanId)
    (k : Nat) :
    (Spec.results s x).count k ≤ 1 ∧
    (k ∈ Spec.results s x → ∃ c e, s.calls[k]? = some c ∧ c.chan = x ∧ c.stage = .sent e ∧
      ∃ a, Spec.answersTo k ops = [a] ∧ e = a.map Exn.msg) := by
  have inv := clientInv cap ops s h
  have ho := inv.once x k
  refine ⟨?_, fun hk => ?_⟩
  · rw [ho]; split
    · split <;> omega
    · omega
  · have hp := List.count_pos_iff.mpr hk
    rw [ho] at hp
    split at hp
    · rename_i c hc
      split at hp
      · rename_i hh
        have hst := inv.stage k c hc
        cases e : c.stage with
        | sent e' =>
          rw [e] at hst
          obtain ⟨a, ha, hm⟩ := List.map_eq_singleton_iff.mp hst
          exact ⟨c, e', hc, hh.1, e, a, ha, hm.symm⟩
        | running => simp [e, isSent] at hh
        | answered e' => simp [e, isSent] at hh
      · omega
    · omega

/-- C88: a result that has been sent is on its channel, received or waiting: none is lost. -/
theorem async_kept {cap : Nat → Nat} {ops : List Client.Op} {s : Client.St} (h : Client.play cap {} ops = some s) {k : Nat} {c : Call}
    {e : Option Bytes} (hc : s.calls[k]? = some c) (hs : c.stage = .sent e) : k ∈ Spec.results s c.chan := by
  have := (clientInv cap ops s h).once c.chan k
  rw [hc] at this
  simp only [hs, isSent, and_self, if_true] at this
  exact List.count_pos_iff.mp (by omega)

/-- C88: the channel of a call is the one given if it has room for anything; otherwise (none given, or one without buffer) one made for
this call. -/
theorem async_channel {cap : Nat → Nat} {ops : List Client.Op} {s : Client.St} (h : Client.play cap {} ops = some s) {k : Nat} {c : Call}
    (hc : s.calls[k]? = some c) : ∃ d, (Spec.goes ops)[k]? = some d ∧
      (∀ n, d = some n → 0 < cap n → c.chan = .given n) ∧ (d = none → c.chan = .own k) ∧
      (∀ n, d = some n → cap n = 0 → c.chan = .own k) := by
  obtain ⟨d, h1, h2⟩ := (clientInv cap ops s h).chan k c hc
  refine ⟨d, h1, fun n e hn => ?_, fun e => ?_, fun n e hn => ?_⟩
  · rw [h2, e]; simp [chanFor]; omega
  · rw [h2, e]; rfl
  · rw [h2, e]; simp [chanFor, hn]

/-- C88: `Go` itself never waits. -/
theorem async_go_never_waits (cap : Nat → Nat) (s : Client.St) (d : Option Nat) : ∃ s', Client.step cap s (.go d) = some s' ∧
    s'.calls.length = s.calls.length + 1 ∧ s'.queue = s.queue ∧ s'.got = s.got := ⟨_, rfl, by simp, rfl, rfl⟩

/-- C88: an answered call can be sent at once if its channel has room; on a channel of its own it always can. -/
theorem async_send {cap : Nat → Nat} {ops : List Client.Op} {s : Client.St} (h : Client.play cap {} ops = some s) {k : Nat} {c : Call}
    {e : Option Bytes} (hc : s.calls[k]? = some c) (hs : c.stage = .answered e)
    (hr : c.chan = .own k ∨ ∃ n, c.chan = .given n ∧ (s.queue c.chan).length < cap n) :
    ∃ s', Client.step cap s (.send k) = some s' ∧ k ∈ Spec.results s' c.chan := by
  have inv := clientInv cap ops s h
  have hroom : (s.queue c.chan).length < roomOf cap c.chan := by
    rcases hr with hr | ⟨n, hn, hl⟩
    · -- only call `k` sends into its own channel, and it has not yet
      have hnone : s.queue (.own k) = [] := by
        rw [List.eq_nil_iff_forall_not_mem]
        intro j hj
        obtain ⟨c', e', a, b, d, _⟩ := (async_once h (.own k) j).2 (by simp [Spec.results, hj])
        obtain ⟨d', _, hd⟩ := inv.chan j c' a
        have hjk : j = k := by
          rw [b] at hd
          unfold chanFor at hd
          split at hd
          · injection hd with hd; exact hd.symm
          · split at hd
            · injection hd with hd; exact hd.symm
            · cases hd
        subst hjk
        rw [hc] at a; cases a
        rw [hs] at d; cases d
      rw [hr, hnone]; simp [roomOf]
    · rw [hn] at hl ⊢; exact hl
  have hstep : Client.step cap s (.send k) = some
      { s with
        calls := s.calls.set k { c with stage := .sent e }
        queue := fun x => if x = c.chan then s.queue x ++ [k] else s.queue x } := by
    simp only [Client.step, hc, hs, if_pos hroom]
  exact ⟨_, hstep, by simp [Spec.results]⟩

/-- C88: no matter how many results wait, if the receiver of a channel keeps receiving, an answered call is sent: there are receives after
which it can be. -/
theorem async_drains {cap : Nat → Nat} {ops : List Client.Op} {s : Client.St} (h : Client.play cap {} ops = some s) {k : Nat} {c : Call}
    {e : Option Bytes} (hc : s.calls[k]? = some c) (hs : c.stage = .answered e) :
    ∃ n s', Client.play cap s (List.replicate n (.receive c.chan) ++ [.send k]) = some s' ∧ k ∈ Spec.results s' c.chan := by
  have inv := clientInv cap ops s h
  have hpos : 0 < roomOf cap c.chan := by
    obtain ⟨d, _, hd⟩ := inv.chan k c hc
    rw [hd]
    unfold chanFor
    split
    · simp [roomOf]
    · split
      · simp [roomOf]
      · simp [roomOf]; omega
  have drain : ∀ (q : List Nat) (t : Client.St), t.queue c.chan = q → t.calls = s.calls →
      ∃ t', Client.play cap t (List.replicate q.length (.receive c.chan)) = some t' ∧ t'.queue c.chan = [] ∧ t'.calls = s.calls := by
    intro q
    induction q with
    | nil => intro t ht hcalls; exact ⟨t, rfl, ht, hcalls⟩
    | cons j q ih =>
      intro t ht hcalls
      obtain ⟨t', a, b⟩ := ih
        { t with
          queue := fun x => if x = c.chan then q else t.queue x
          got := fun x => if x = c.chan then t.got x ++ [j] else t.got x } (by simp) hcalls
      exact ⟨t', by simp only [List.length_cons, List.replicate_succ, Client.play, Client.step, ht, Option.bind_some]; exact a, b⟩
  obtain ⟨t, ht, hq, hcalls⟩ := drain _ s rfl rfl
  have hstep : Client.step cap t (.send k) = some
      { t with
        calls := t.calls.set k { c with stage := .sent e }
        queue := fun x => if x = c.chan then t.queue x ++ [k] else t.queue x } := by
    simp only [Client.step, hcalls, hc, hs]
    rw [if_pos (by rw [hq]; exact hpos)]
  exact ⟨_, _, client_play_snoc.mpr ⟨t, ht, hstep⟩, by simp [Spec.results]⟩

/-! ## Cases -/

namespace ClientCase

def caps : Nat → Nat := fun n => if n = 0 then 1 else 0

/-- Two calls share a channel with room for one: the second waits until the first result is received. -/
def ops : List Client.Op := [.go (some 0), .go (some 0), .answer 1 (some ⟨503, b!"no", 1⟩), .answer 0 none, .send 1]

def view (s : Client.St) : List Call × List Nat × List Nat × List Nat :=
  (s.calls, s.got (.given 0), s.queue (.given 0), s.queue (.own 0))

theorem client_shown (ops : List Client.Op) (v : List Call × List Nat × List Nat × List Nat)
    (h : (Client.play caps {} ops).map view = some v) : ∃ s, Client.play caps {} ops = some s ∧ view s = v := by
  cases e : Client.play caps {} ops with
  | none => simp [e] at h
  | some s => exact ⟨s, rfl, by simpa [e] using h⟩

example : ∃ s, Client.play caps {} ops = some s ∧
    view s = ([⟨.given 0, .answered none⟩, ⟨.given 0, .sent (some b!"no")⟩], [], [1], []) := client_shown _ _ (by decide +kernel)

example : (Client.play caps {} (ops ++ [.send 0])).isNone = true := by decide +kernel

example : ∃ s, Client.play caps {} (ops ++ [.receive (.given 0), .send 0]) = some s ∧
    view s = ([⟨.given 0, .sent none⟩, ⟨.given 0, .sent (some b!"no")⟩], [1], [0], []) := client_shown _ _ (by decide +kernel)

end ClientCase

open ClientCase in
/-- C88 (false of the code): "the result arrives on the channel the caller gives" — not on a channel without buffer: one made in its place
gets it, and the caller's never does, whatever happens. -/
theorem async_unbuffered_violated : (∃ s, Client.play caps {} [.go (some 1), .answer 0 none, .send 0] = some s ∧
      0 ∈ Spec.results s (.own 0)) ∧
    ∀ ops s, Client.play caps {} ops = some s → Spec.results s (.given 1) = [] := by
  refine ⟨?_, fun ops s h => ?_⟩
  · obtain ⟨s, h1, h2⟩ := client_shown [.go (some 1), .answer 0 none, .send 0] ([⟨.own 0, .sent none⟩], [], [], [0]) (by decide +kernel)
    simp only [view, Prod.mk.injEq] at h2
    exact ⟨s, h1, by simp [Spec.results, h2.2.2.2]⟩
  · rw [List.eq_nil_iff_forall_not_mem]
    intro k hk
    obtain ⟨c, e, hc, hx, _⟩ := (async_once h (.given 1) k).2 hk
    obtain ⟨d, _, hd⟩ := (clientInv caps ops s h).chan k c hc
    rw [hx] at hd
    unfold chanFor at hd
    split at hd
    · cases hd
    · split at hd
      · cases hd
      · rename_i n hn
        injection hd with hd
        subst hd
        exact hn (by decide)

end Motan.Props
