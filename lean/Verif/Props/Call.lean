import Verif.Model.Call
import Verif.Props.Server

/-!
# C62 A call through an endpoint: the handler gets the caller's call, the caller gets the handler's answer
-/

namespace Motan.Props

open Server (Env Outcome Res received finishRes)
open Motan2 (Header Message Meta encode decode Reusable)
open Convert (Lib Ser Exn Request Response RC Arg Err loadOrEmpty convertToRequest convertToReqMessage convertToResponse
  convertToResMessage simpleSer)
open Simple (Val Hint)
open Call

/-! ## One call, whatever the connection does -/

theorem notify_id (lib : Lib) (ep : Ep) (req : Request) (got : Got) : (notify lib ep req got).id = req.id := by
  cases got with
  | v1 r => rfl
  | unknown => rfl
  | v2 m =>
    rw [notify]
    split
    · rename_i r hr
      rw [convertToResponse] at hr
      simp only at hr
      split at hr
      · cases hr
      · split at hr
        · cases hr
        · simp only [Except.ok.injEq] at hr
          rw [← hr]
          simp only
          split
          · rw [Convert.gunzipMessage]; split <;> rfl
          · rfl
    · rfl

theorem finish_id (errText : Err → Bytes) (ep : Ep) (req : Request) (reply : Hint) (r : Response) (h : r.id = req.id) :
    (finish errText ep req reply r).id = req.id := by
  rw [finish]
  split
  · exact h
  · split
    · rename_i r' hr
      unfold Convert.Response.processDeserializable at hr
      split at hr
      · split at hr
        · cases hr
        · split at hr
          · cases hr
          · simp only [Except.ok.injEq] at hr; rw [← hr]; exact h
      · simp only [Except.ok.injEq] at hr; rw [← hr]; exact h
    · rfl

/-- **C62.** Whatever happens to a call — no pool, no channel, an error, an answer, an answer that cannot be understood — the
response carries the id of the caller's request, never the id the connection used for it. -/
theorem call_keeps_id (lib : Lib) (errText : Err → Bytes) (ep : Ep) (req : Request) (reply : Hint) (version : Int) (c : Chan) :
    (call lib errText ep req reply version c).resp.id = req.id := by
  cases c with
  | null => rfl
  | refused => rfl
  | failed err => rfl
  | answered got =>
    rw [call]
    split <;> exact finish_id _ _ _ _ _ (notify_id _ _ _ _)

namespace Spec

/-- A failure of the call: an exception other than a business exception (type 2). -/
def Failed (r : Response) : Prop := ∃ e, r.exception = some e ∧ e.errType ≠ 2

end Spec

theorem failure_iff (r : Response) : (Call.failure r = none ↔ ¬ Spec.Failed r) ∧
    ∀ e, Call.failure r = some e ↔ r.exception = some e ∧ e.errType ≠ 2 := by
  rw [Call.failure]
  simp only [Spec.Failed]
  cases h : r.exception with
  | none => simp
  | some e =>
    by_cases h2 : e.errType = 2
    · simp only [BizException, h2, ne_eq, not_true_eq_false, if_false, Option.some.injEq]
      refine ⟨by simp [h2], fun e' => ⟨by simp, ?_⟩⟩
      rintro ⟨rfl, h3⟩; exact absurd h2 h3
    · simp only [BizException, h2, ne_eq, not_false_eq_true, if_true, Option.some.injEq]
      refine ⟨by simp [h2], fun e' => ⟨?_, ?_⟩⟩
      · rintro rfl; exact ⟨rfl, h2⟩
      · rintro ⟨rfl, -⟩; rfl

theorem gunzip_status (lib : Lib) (m : Message) : (Convert.gunzipMessage lib m).header.getStatus = m.header.getStatus := by
  rw [Convert.gunzipMessage]
  split
  · exact congrArg HeaderView.status (hv_setGzip m.header false)
  · rfl

theorem convertToResponse_exception {lib : Lib} {ser : Option Ser} {m : Message} {r : Response} {e : Exn}
    (hr : convertToResponse lib ser m = .ok r) (h : r.exception = some e) : r.value = none := by
  rw [convertToResponse] at hr
  simp only at hr
  split at hr
  · cases hr
  · split at hr
    · cases hr
    · rename_i exn hex
      simp only [Except.ok.injEq] at hr
      rw [← hr] at h ⊢
      simp only at h ⊢
      have hs : (if m.header.getStatus = 0 ∧ m.body.length > 0 then Convert.gunzipMessage lib m else m).header.getStatus =
          m.header.getStatus := by
        by_cases hc : m.header.getStatus = 0 ∧ m.body.length > 0
        · rw [if_pos hc]; exact gunzip_status lib m
        · rw [if_neg hc]
      by_cases h0 : m.header.getStatus = 0
      · exfalso
        rw [Convert.exceptionOf, hs, h0, if_neg (by decide)] at hex
        simp only [Except.ok.injEq] at hex
        rw [← hex] at h; cases h
      · rw [if_neg (by simp [h0])]

/-- A response with an exception has no value to be deserialized. -/
theorem notify_exception (lib : Lib) (ep : Ep) (req : Request) (got : Got) (e : Exn)
    (h : (notify lib ep req got).exception = some e) : (notify lib ep req got).value = none := by
  cases got with
  | v1 r => rfl
  | unknown => rfl
  | v2 m =>
    rw [notify] at h ⊢
    split
    · rename_i r hr
      rw [hr] at h
      exact convertToResponse_exception hr h
    · rfl

theorem finish_noValue (errText : Err → Bytes) (ep : Ep) (req : Request) (reply : Hint) (r : Response) (h : r.value = none) :
    finish errText ep req reply r = r := by
  rw [finish]
  split
  · rfl
  · have : r.processDeserializable reply = .ok r := by
      unfold Convert.Response.processDeserializable; rw [h]
    rw [this]

/-- **C62.** Every call is accounted for once. Either the endpoint notes a failure, and then it is the exception the caller gets,
and not a business exception; or it clears its count of failures, and then an answer has come, and the caller gets no
failure, except a 400 for an answer whose value cannot be read. -/
theorem call_accounts (lib : Lib) (errText : Err → Bytes) (ep : Ep) (req : Request) (reply : Hint) (version : Int) (c : Chan) :
    let out := call lib errText ep req reply version c
    (∃ e, out.recorded = some e ∧ out.reset = false ∧ out.version = version ∧ out.resp.exception = some e ∧ e.errType ≠ 2) ∨
    (out.recorded = none ∧ out.reset = true ∧ (∃ got, c = .answered got) ∧
      (version ≠ -1 → out.version = version) ∧ (version = -1 → out.version = if isV1 req then 0 else 1) ∧
      (¬ Spec.Failed out.resp ∨ ep.proxy = false ∧ ∃ text, out.resp.exception = some ⟨400, text, 1⟩)) := by
  intro out
  cases c with
  | null => exact .inl ⟨_, rfl, rfl, rfl, rfl, by decide⟩
  | refused => exact .inl ⟨_, rfl, rfl, rfl, rfl, by decide⟩
  | failed err => exact .inl ⟨_, rfl, rfl, rfl, rfl, by show (1 : Int) ≠ 2; decide⟩
  | answered got =>
    cases hf : Call.failure (notify lib ep req got) with
    | some e =>
      have ho : out = ⟨finish errText ep req reply (notify lib ep req got), some e, false, version⟩ := by
        show call _ _ _ _ _ _ _ = _
        rw [call]; simp only [hf]
      obtain ⟨h1, h2⟩ := ((failure_iff _).2 e).mp hf
      have h3 := notify_exception lib ep req got e h1
      left
      rw [ho]
      exact ⟨e, rfl, rfl, rfl, by simp only [finish_noValue _ _ _ _ _ h3, h1], h2⟩
    | none =>
      have ho : out = ⟨finish errText ep req reply (notify lib ep req got), none, true, heartbeatVersion req version⟩ := by
        show call _ _ _ _ _ _ _ = _
        rw [call]; simp only [hf]
      right
      rw [ho]
      have hnf := (failure_iff _).1.mp hf
      refine ⟨rfl, rfl, ⟨got, rfl⟩, fun h => if_neg h, fun h => if_pos h, ?_⟩
      show ¬ Spec.Failed (finish errText ep req reply (notify lib ep req got)) ∨ _ ∧ ∃ text,
        (finish errText ep req reply (notify lib ep req got)).exception = _
      generalize notify lib ep req got = r at hnf
      rw [finish]
      cases hp : ep.proxy with
      | true => left; simpa using hnf
      | false =>
        simp only [Bool.false_eq_true, if_false]
        cases hd : r.processDeserializable reply with
        | error e => right; exact ⟨trivial, _, rfl⟩
        | ok r' =>
          left
          have : r'.exception = r.exception := by
            unfold Convert.Response.processDeserializable at hd
            split at hd
            · split at hd
              · cases hd
              · split at hd
                · cases hd
                · simp only [Except.ok.injEq] at hd; rw [← hd]
            · simp only [Except.ok.injEq] at hd; rw [← hd]
          simpa only [Spec.Failed, this] using hnf

/-- **C62.** The caller of an endpoint that does not relay never gets a value that is still to be deserialized: an answer whose
value cannot be read is an exception (400) without a value. -/
theorem call_value_ready (lib : Lib) (errText : Err → Bytes) (ep : Ep) (req : Request) (reply : Hint) (version : Int) (c : Chan)
    (hp : ep.proxy = false) :
    let out := call lib errText ep req reply version c
    (∀ b s, out.resp.value ≠ some (.deser b s)) ∧
    ∀ got b s, c = .answered got → (notify lib ep req got).value = some (.deser b (some s)) →
      (∀ e, s.deSerialize b reply = .error e → out.resp.value = none ∧ out.resp.exception = some ⟨400, errText (.ser e), 1⟩) ∧
      (∀ v, s.deSerialize b reply = .ok v → out.resp.value = some (.val v.1)) := by
  intro out
  have fin : ∀ r : Response, (∀ b s, (finish errText ep req reply r).value ≠ some (.deser b s)) ∧
      ∀ b s, r.value = some (.deser b (some s)) →
        (∀ e, s.deSerialize b reply = .error e → (finish errText ep req reply r).value = none ∧
          (finish errText ep req reply r).exception = some ⟨400, errText (.ser e), 1⟩) ∧
        (∀ v, s.deSerialize b reply = .ok v → (finish errText ep req reply r).value = some (.val v.1)) := by
    intro r
    have hd : finish errText ep req reply r = match r.processDeserializable reply with
        | .ok r => r
        | .error e => errResponse req (errText e) := by
      rw [finish, hp]; rfl
    rw [hd]
    unfold Convert.Response.processDeserializable
    cases hv : r.value with
    | none => exact ⟨by simp [hv], by intro b s h; cases h⟩
    | some x =>
      cases x with
      | val v => exact ⟨by simp [hv], by intro b s h; cases h⟩
      | deser b s =>
        cases s with
        | none => exact ⟨(by intro b s h; cases h), (by intro b s h; cases h)⟩
        | some s =>
          simp only
          refine ⟨?_, ?_⟩
          · cases s.deSerialize b reply with
            | error e => intro b s h; cases h
            | ok v => intro b s h; cases h
          · intro b' s' h
            simp only [Option.some.injEq, Arg.deser.injEq] at h
            obtain ⟨rfl, rfl⟩ := h
            refine ⟨fun e he => ?_, fun v hv' => ?_⟩
            · rw [he]; exact ⟨rfl, rfl⟩
            · rw [hv']
  cases c with
  | null => exact ⟨(by intro b s h; cases h), (by intro _ _ _ h; cases h)⟩
  | refused => exact ⟨(by intro b s h; cases h), (by intro _ _ _ h; cases h)⟩
  | failed err => exact ⟨(by intro b s h; cases h), (by intro _ _ _ h; cases h)⟩
  | answered got =>
    have ho : out.resp = finish errText ep req reply (notify lib ep req got) := by
      show (call _ _ _ _ _ _ _).resp = _
      rw [call]
      cases Call.failure (notify lib ep req got) <;> rfl
    rw [ho]
    refine ⟨(fin _).1, ?_⟩
    intro got' b s h hv
    cases h
    exact (fin _).2 b s hv

/-- The answer a caller gets for a failure found on this side: its own id, the error, no value, no attachment, no time. -/
def Spec.ownFailure (id : UInt64) (code : Int) (text : Bytes) : Convert.Response :=
  { id := id, value := none, exception := some ⟨code, text, 1⟩, processTime := 0, attachment := [] }

/-- **C62.** The codes of the failures that are not answers of the peer: no channel could be had (1002), the answer cannot be
understood (1003) or converted (1004), and everything else (400). All are of the framework's type and carry nothing else. -/
theorem call_failure_codes (lib : Lib) (errText : Err → Bytes) (ep : Ep) (req : Request) (reply : Hint) (version : Int) :
    let out := fun c => (call lib errText ep req reply version c).resp
    out .null = Spec.ownFailure req.id 400 b!"motanEndpoint error: channels is null" ∧
    out .refused = Spec.ownFailure req.id 1002 b!"can not get a channel" ∧
    (∀ err, out (.failed err) = Spec.ownFailure req.id 400 (b!"channel call error:" ++ err)) ∧
    out (.answered .unknown) = Spec.ownFailure req.id 1003 b!"receive unsupported msg" ∧
    ∀ m e, Convert.convertToResponse lib ep.ser (Server.withId { m with header := m.header.setProxy ep.proxy } req.id) = .error e →
      out (.answered (.v2 m)) = Spec.ownFailure req.id 1004 b!"convert response fail" := by
  have fin : ∀ e : Exn, finish errText ep req reply (exceptionResponse req.id e) = exceptionResponse req.id e := by
    intro e
    unfold finish
    split
    · rfl
    · rfl
  intro out
  refine ⟨rfl, rfl, fun _ => rfl, fin _, ?_⟩
  intro m e h
  show (call _ _ _ _ _ _ _).resp = _
  have hn : notify lib ep req (.v2 m) = exceptionResponse req.id ⟨1004, b!"convert response fail", 1⟩ := by
    simp only [notify, h]; rfl
  rw [call]
  simp only [hn]
  rw [show Call.failure (exceptionResponse req.id ⟨1004, b!"convert response fail", 1⟩) =
    some ⟨1004, b!"convert response fail", 1⟩ from rfl]
  simp only [fin]
  rfl

/-- **C62, motan1 answers.** A call answered by a motan1 peer gets the answer under the call's own id, with the peer's process
time, without a value that is not there, and with the peer's exception, whose kind decides whether it counts as a failure. -/
theorem call_v1_answer (lib : Lib) (errText : Err → Bytes) (ep : Ep) (req : Request) (reply : Hint) (version : Int)
    (r : Motan1.Res) :
    let out := call lib errText ep req reply version (.answered (.v1 r))
    out.resp.id = req.id ∧ out.resp.processTime = r.processTime ∧ out.resp.value = none ∧
    (r.exception = none → out.resp.exception = none ∧ out.recorded = none ∧ out.reset = true) ∧
    (∀ text, r.exception = some (.biz, text) →
      out.resp.exception = some ⟨500, text, 2⟩ ∧ out.recorded = none ∧ out.reset = true) ∧
    (∀ text, r.exception = some (.service, text) →
      out.resp.exception = some ⟨500, text, 1⟩ ∧ out.recorded = some ⟨500, text, 1⟩ ∧ out.reset = false) := by
  have fin : ∀ x : Response, x.value = none → finish errText ep req reply x = x := fun x => finish_noValue errText ep req reply x
  have key : ∀ x, notify lib ep req (.v1 r) = x → x.value = none →
      call lib errText ep req reply version (.answered (.v1 r)) = match Call.failure x with
        | some e => ⟨x, some e, false, version⟩
        | none => ⟨x, none, true, heartbeatVersion req version⟩ := by
    intro x hx hv
    rw [call, hx]
    simp only [fin x hv]
    rfl
  rw [key _ rfl rfl]
  obtain ⟨id, pt, exn, hbt⟩ := r
  cases exn with
  | none => exact ⟨rfl, rfl, rfl, fun _ => ⟨rfl, rfl, rfl⟩, (fun _ h => by cases h), (fun _ h => by cases h)⟩
  | some e =>
    obtain ⟨k, text⟩ := e
    cases k with
    | biz => exact ⟨rfl, rfl, rfl, (fun h => by cases h), (fun _ h => by cases h; exact ⟨rfl, rfl, rfl⟩), (fun _ h => by cases h)⟩
    | service => exact ⟨rfl, rfl, rfl, (fun h => by cases h), (fun _ h => by cases h), (fun _ h => by cases h; exact ⟨rfl, rfl, rfl⟩)⟩

/-! ## The request arrives -/

/-- Clearing the proxy flag of a header that does not have it changes nothing. -/
theorem setProxy_false (h : Header) (hp : h.isProxy = false) : h.setProxy false = h := by
  have : ∀ u : UInt8, (u &&& 0x02 == 0x02) = false → u &&& 0xfd = u := fun u =>
    byte_forall (P := fun u => (u &&& 0x02 == 0x02) = false → u &&& 0xfd = u) (by decide +kernel) u
  cases h with
  | mk a b c d e =>
    show (⟨a, b &&& 0xfd, c, d, e⟩ : Header) = _
    rw [this b hp]

/-- Changing the id of a request that is not relayed changes the id of its message. -/
theorem convertToReqMessage_id {lib : Lib} {ser : Option Ser} {req : Request} (id : UInt64) (hrel : ¬ Relayed req.rc) :
    convertToReqMessage lib ser { req with id := id } =
      (convertToReqMessage lib ser req).map fun m => Server.withId m id := by
  have hrel' : ¬ Relayed ({ req with id := id } : Request).rc := hrel
  rw [convertToReqMessage_fresh lib ser _ hrel, convertToReqMessage_fresh lib ser _ hrel']
  simp only
  cases Convert.serialNum ser req.rc with
  | error e => rfl
  | ok num =>
    simp only
    have e1 : Convert.requestBody ser { req with id := id } = Convert.requestBody ser req := rfl
    rw [e1]
    cases Convert.requestBody ser req with
    | error e => rfl
    | ok body =>
      simp only [Except.map]
      have e3 := encodeMessageGzip_id lib ⟨Motan2.buildHeader Motan2.Req false num req.id Motan2.Normal, [], body, 0⟩
        req.rc.gzipSize id
      have e4 : Server.withId ⟨Motan2.buildHeader Motan2.Req false num req.id Motan2.Normal, [], body, 0⟩ id =
        ⟨Motan2.buildHeader Motan2.Req false num id Motan2.Normal, [], body, 0⟩ := rfl
      rw [e4] at e3
      rw [e3]
      have e5 : Convert.requestMeta { req with id := id } = Convert.requestMeta req := rfl
      rw [e5]
      cases h1 : req.rc.oneway <;> cases h2 : req.rc.proxy <;> simp only [Convert.requestFlags, h1, h2] <;> rfl

theorem nextMessage_v2 {maxLen : Nat} {s : Bytes} {m : Message} {rest : Bytes}
    (hv : Motan2.checkMotanVersion s = .ok 1)
    (hd : (decode maxLen Motan2.DefaultBufferSize 0 s).res = .ok m)
    (hr : (decode maxLen Motan2.DefaultBufferSize 0 s).rest = rest) :
    Server.nextMessage maxLen s = some (.v2 m, rest) := by
  rw [Server.nextMessage, hv]
  simp only
  rw [if_neg (by decide), if_pos (by decide)]
  cases h : decode maxLen Motan2.DefaultBufferSize 0 s with
  | mk a b c =>
    rw [h] at hd hr
    simp only at hd hr
    subst hd; subst hr; rfl

theorem requestIdOf_host (m : Message) (ip : Bytes) (hp : m.header.isProxy = false) :
    Convert.requestIdOf { m with metadata := m.metadata.store Server.HostKey ip } =
      ((Convert.requestIdOf m).1, (Convert.requestIdOf m).2.store Server.HostKey ip) := by
  rw [Convert.requestIdOf, Convert.requestIdOf]
  have : (m.metadata.store Server.HostKey ip).load Convert.MRequestID = m.metadata.load Convert.MRequestID := by
    rw [AMap.load_store, if_neg (by decide)]
  simp only [this, hp, Bool.false_eq_true, if_false]
  cases m.metadata.load Convert.MRequestID <;> rfl

theorem loadOrEmpty_store_ne (m : Meta) {k k' : Bytes} (v : Bytes) (h : k ≠ k') :
    loadOrEmpty (m.store k v) k' = loadOrEmpty m k' := by
  rw [loadOrEmpty, loadOrEmpty, AMap.load_store, if_neg h]

/-- What the server adds to a request before it reads it: the address of the peer. -/
theorem convertToRequest_received {env : Env} {lib : Lib} {ser : Option Ser} {got : Message} (ip : Bytes)
    (hp : env.proxy = false) (hg : got.header.isProxy = false) {r : Request} (h : convertToRequest lib ser got = .ok r) :
    ∃ r2, convertToRequest lib ser (received env ip got) = .ok r2 ∧ r2.id = r.id ∧ r2.service = r.service ∧
      r2.method = r.method ∧ r2.desc = r.desc ∧ r2.args = r.args ∧ r2.attachment = r.attachment.store Server.HostKey ip := by
  have he : received env ip got = { got with metadata := got.metadata.store Server.HostKey ip } := by
    rw [received, hp, setProxy_false _ hg]
  have hid := requestIdOf_host got ip hg
  rw [he]
  rw [convertToRequest] at h ⊢
  rw [hid]
  generalize Convert.requestIdOf got = im at h
  obtain ⟨id, m⟩ := im
  simp only at h ⊢
  rw [loadOrEmpty_store_ne _ _ (by decide), loadOrEmpty_store_ne _ _ (by decide), loadOrEmpty_store_ne _ _ (by decide)]
  by_cases hb : got.body.length > 0
  · rw [if_pos hb] at h ⊢
    by_cases hs : got.header.isProxy = false ∧ ser.isNone = true
    · rw [if_pos hs] at h; cases h
    · rw [if_neg hs] at h ⊢
      simp only [Except.ok.injEq] at h
      rw [← h]
      refine ⟨_, rfl, rfl, rfl, rfl, rfl, ?_, rfl⟩
      simp only [Convert.gunzipMessage]
      cases got.header.isGzip <;> rfl
  · rw [if_neg hb] at h ⊢
    simp only [Except.ok.injEq] at h
    rw [← h]
    exact ⟨_, rfl, rfl, rfl, rfl, rfl, rfl, rfl⟩

namespace Spec

/-- The group a request is for: the attachment `M_g`, or else the attachment `group`. -/
def groupOf (m : Meta) : Bytes :=
  if (m.load b!"M_g").getD [] = [] then (m.load b!"group").getD [] else (m.load b!"M_g").getD []

/-- What the handler of a server is given, `ip` being the address of the client, for the request `req` a client sends
through the endpoint `ep` with the arguments `vs`. -/
structure Sees (ep : Ep) (ip : Bytes) (streamId : UInt64) (req : Request) (vs : List Val) (r : Request) : Prop where
  service : r.service = wireText req.service
  method : r.method = wireText req.method
  desc : req.desc ≠ [] → r.desc = wireText req.desc
  /-- The id of the request is the one the connection uses, unless the caller has set `M_rid`. -/
  id : r.id = specRequestId req.attachment streamId
  /-- The arguments are the caller's (an `int` is an `int64`). -/
  args : ∃ r', r.processDeserializable none = .ok r' ∧ r'.args = vs.map fun v => .val (Simple.norm v)
  /-- The caller's attachments and no others, except those of the framework. -/
  attachments : ∀ k v, k ∉ [b!"M_p", b!"M_m", b!"M_md", b!"M_pp", b!"M_rid", b!"M_g", b!"host"] →
    (r.attachment.load k = some v ↔ req.attachment.load k = some v ∧ Carriable k v)
  host : r.attachment.load b!"host" = some ip
  /-- The group is that of the endpoint, whatever group the caller named. -/
  group : ep.group ≠ [] → (10 : UInt8) ∉ ep.group → groupOf r.attachment = ep.group

/-- The message, if there is one, is not longer than is allowed. -/
def ShortMessage (max : Nat) (m : Except Err Message) : Prop :=
  ∀ msg, m = .ok msg → metaSize msg.metadata ≤ max ∧ msg.body.length ≤ max

end Spec

theorem groupOf_eq (req : Request) : Server.requestGroup req = Spec.groupOf req.attachment := rfl

theorem fitGroup_facts (ep : Ep) (req : Request) (hv1 : isV1 req = false) :
    fitGroup ep req = { req with attachment := (fitGroup ep req).attachment } ∧
    (∀ k, k ≠ b!"M_g" → (fitGroup ep req).attachment.load k = req.attachment.load k) ∧
    (req.attachment.NodupKeys → (fitGroup ep req).attachment.NodupKeys) ∧
    (ep.group ≠ [] → Spec.groupOf (fitGroup ep req).attachment = ep.group) ∧
    (ep.group = [] → fitGroup ep req = req) := by
  rw [fitGroup, hv1]
  simp only [Bool.false_eq_true, if_false]
  by_cases h : Server.requestGroup req ≠ ep.group ∧ ep.group ≠ []
  · rw [if_pos h]
    refine ⟨rfl, ?_, fun hn => AMap.nodupKeys_store hn _ _, ?_, fun h' => absurd h' h.2⟩
    · intro k hk
      exact (AMap.load_store _ _ _ _).trans (if_neg (Ne.symm hk))
    · intro hg
      have : (AMap.store req.attachment Convert.MGroup ep.group).load b!"M_g" = some ep.group := AMap.load_store_self _ _ _
      simp only [Spec.groupOf, this, Option.getD_some]
      rw [if_neg hg]
  · rw [if_neg h]
    refine ⟨rfl, fun _ _ => rfl, fun hn => hn, ?_, fun _ => rfl⟩
    intro hg
    rw [← groupOf_eq]
    by_cases h2 : Server.requestGroup req = ep.group
    · exact h2
    · exact absurd ⟨h2, hg⟩ h

/-- The group survives the wire. -/
theorem groupOf_wire {m r : Meta} {g : Bytes} (h : ∀ k v, (k = b!"M_g" ∨ k = b!"group") → (r.load k = some v ↔ m.load k = some v ∧ Carriable k v))
    (hg : Spec.groupOf m = g) (hne : g ≠ []) (hnl : (10 : UInt8) ∉ g) : Spec.groupOf r = g := by
  rw [Spec.groupOf] at hg ⊢
  have key : ∀ k, (k = b!"M_g" ∨ k = b!"group") → k ≠ [] ∧ (10 : UInt8) ∉ k := by
    rintro k (rfl | rfl) <;> decide
  have empty : ∀ k, (k = b!"M_g" ∨ k = b!"group") → (m.load k).getD [] = [] → (r.load k).getD [] = [] := by
    intro k hk he
    cases hr : r.load k with
    | none => rfl
    | some v =>
      obtain ⟨h1, h2⟩ := (h k v hk).mp hr
      rw [h1] at he
      exact absurd he h2.2.1
  have full : ∀ k, (k = b!"M_g" ∨ k = b!"group") → (m.load k).getD [] = g → (r.load k).getD [] = g := by
    intro k hk he
    cases hm : m.load k with
    | none => rw [hm] at he; exact absurd he.symm hne
    | some v =>
      rw [hm] at he
      simp only [Option.getD_some] at he
      subst he
      rw [(h k v hk).mpr ⟨hm, ?_⟩]; · rfl
      obtain ⟨k1, k2⟩ := key k hk
      exact ⟨k1, hne, k2, hnl⟩
  by_cases h1 : (m.load b!"M_g").getD [] = []
  · rw [if_pos h1] at hg
    rw [if_pos (empty _ (.inl rfl) h1)]
    exact full _ (.inr rfl) hg
  · rw [if_neg h1] at hg
    have := full _ (.inl rfl) hg
    rw [this, if_neg hne]

/-- The bytes of the arguments, with the simple serialization. -/
theorem simple_args (req : Request) (vs : List Val) (hargs : req.args = vs.map .val) (hser : req.rc.serialized = false)
    (hsup : ∀ v ∈ vs, Simple.supported v = true) (hst : ∀ v ∈ vs, Simple.storable v = true) :
    ∃ bs, ArgBytes (some simpleSer) req bs ∧ (∀ b, ArgBytes (some simpleSer) req b → b = bs) ∧
      (bs.length < 2 ^ 32 → ∀ r : Request, r.args = (if bs = [] then [] else [.deser bs (some simpleSer)]) →
        ∃ r', r.processDeserializable none = .ok r' ∧ r'.args = vs.map fun v => .val (Simple.norm v)) := by
  have uniq : ∀ {a b}, ArgBytes (some simpleSer) req a → ArgBytes (some simpleSer) req b → b = a := by
    intro a b ha hb
    have e1 := (requestBody_iff (some simpleSer) req a).mpr ha
    have e2 := (requestBody_iff (some simpleSer) req b).mpr hb
    rw [e1] at e2; simpa using e2.symm
  by_cases hne : vs = []
  · subst hne
    have ha : ArgBytes (some simpleSer) req [] := .none (by rw [hargs]; rfl)
    refine ⟨[], ha, fun b hb => uniq ha hb, fun _ r hr => ⟨r, ?_, by rw [hr]; rfl⟩⟩
    unfold Convert.Request.processDeserializable
    rw [hr]; rfl
  · obtain ⟨bs, hbs, hback⟩ := simple_multi_roundtrip 2048 vs hsup hst
    have hmap : req.args.map Arg.toVal = vs := by rw [hargs, List.map_map]; simp [Function.comp_def, Arg.toVal]
    have hab : ArgBytes (some simpleSer) req bs := by
      refine .enc simpleSer bs hser ?_ rfl ?_
      · rw [hargs]; simpa using hne
      · rw [hmap]; exact hbs
    have hbne : bs ≠ [] := by
      intro h
      rw [h] at hback
      have := hback (by decide)
      have hd : Simple.deSerializeMulti [] none = .ok [] := by decide +kernel
      rw [hd] at this
      simp only [Except.ok.injEq] at this
      cases vs with
      | nil => exact hne rfl
      | cons v l => simp at this
    refine ⟨bs, hab, fun b hb => uniq hab hb, fun hl r hr => ?_⟩
    rw [if_neg hbne] at hr
    refine ⟨{ r with args := vs.map fun v => .val (Simple.norm v) }, ?_, rfl⟩
    unfold Convert.Request.processDeserializable
    rw [hr]
    have hb' : (simpleSer.deSerializeMulti bs none) = .ok (vs.map fun v => (Simple.norm v, none)) := hback hl
    simp only [hb', List.map_map, Function.comp_def]

/-- What is assumed of a call with values: a motan2 client and server that do not relay, both with the simple serialization;
arguments that can be serialized; messages that are not too long. -/
structure Spec.PlainCall (p : Peer) (ep : Ep) (streamId : UInt64) (req : Request) (vs : List Val) : Prop where
  gzip : GzipLawful p.env.lib
  server : p.env.proxy = false
  registered : p.env.sers 6 = some simpleSer
  client : ep.proxy = false
  serialization : ep.ser = some simpleSer
  v2 : isV1 req = false
  raw : req.rc.serialized = false
  args : req.args = vs.map .val
  supported : ∀ v ∈ vs, Simple.supported v = true
  storable : ∀ v ∈ vs, Simple.storable v = true
  short : ∀ bs, ArgBytes (some simpleSer) req bs → bs.length < 2 ^ 32
  attachments : req.attachment.NodupKeys
  fits : Spec.ShortMessage p.maxLen (requestMessage p.env.lib ep streamId req)
  bound : p.maxLen < 2 ^ 32

/-- The message of a request is read by the server and the handler is given the caller's request. -/
theorem request_arrives {p : Peer} {ep : Ep} {streamId : UInt64} {req : Request} {vs : List Val}
    (hp : Spec.PlainCall p ep streamId req vs) (buf : Option BytesBuffer) (hr : Reusable buf) :
    ∃ msg got r, requestMessage p.env.lib ep streamId req = .ok msg ∧
      Server.nextMessage p.maxLen (encode buf msg) = some (.v2 got, []) ∧
      got.header.isHeartbeat = false ∧ got.header.requestID = streamId ∧ got.header.getSerialize = 6 ∧
      convertToRequest p.env.lib (some simpleSer) (received p.env p.ip got) = .ok r ∧
      Spec.Sees ep p.ip streamId req vs r := by
  obtain ⟨f1, f2, f3, f4, f5⟩ := fitGroup_facts ep (withContext ep req) hp.v2
  generalize hq : fitGroup ep (withContext ep req) = q at f1 f2 f3 f4 f5
  have qrc : q.rc = { req.rc with proxy := false, gzipSize := ep.gzipSize } := by
    rw [f1, withContext, hp.client]
  have qargs : q.args = req.args := by rw [f1]; rfl
  have qservice : q.service = req.service := by rw [f1]; rfl
  have qmethod : q.method = req.method := by rw [f1]; rfl
  have qdesc : q.desc = req.desc := by rw [f1]; rfl
  have hrel : ¬ Relayed q.rc := by rintro ⟨h, -⟩; rw [qrc] at h; cases h
  have hrel' : ¬ Relayed ({ q with id := streamId } : Request).rc := hrel
  obtain ⟨bs, hab, huniq, hback⟩ := simple_args req vs hp.args hp.raw hp.supported hp.storable
  have toReq : ∀ b, ArgBytes (some simpleSer) ({ q with id := streamId } : Request) b ↔ ArgBytes (some simpleSer) req b := by
    intro b
    rw [← requestBody_iff, ← requestBody_iff]
    have : Convert.requestBody (some simpleSer) ({ q with id := streamId } : Request) =
        Convert.requestBody (some simpleSer) req := by
      rw [Convert.requestBody.eq_def, Convert.requestBody.eq_def]
      simp only [qargs, qrc]
    rw [this]
  have hqs : ({ q with id := streamId } : Request).rc.serialized = false := by
    show q.rc.serialized = false
    rw [qrc]; exact hp.raw
  obtain ⟨msg, hm⟩ := (request_convertible_iff p.env.lib (some simpleSer) { q with id := streamId } hrel').mpr
    ⟨⟨bs, (toReq bs).mpr hab⟩, .inr rfl⟩
  have hmsg : requestMessage p.env.lib ep streamId req = .ok msg := by
    rw [requestMessage, hq, hp.serialization, ← convertToReqMessage_id streamId hrel, hm]
  obtain ⟨hf1, hf2⟩ := hp.fits msg hmsg
  have hn : ({ q with id := streamId } : Request).attachment.NodupKeys := f3 hp.attachments
  obtain ⟨got, r, body, g1, g2, g3, g4, g5, g6, g7⟩ := request_over_wire p.env.lib hp.gzip (some simpleSer) (some simpleSer)
    { q with id := streamId } hrel' hn msg hm (.inr rfl) buf hr p.maxLen Motan2.DefaultBufferSize 0 [] hf1 hf2 hp.bound
  obtain ⟨body', num, -, hnum, hmm, -, -, g, hv⟩ := reqMessage_facts hp.gzip hrel' hm
  have hver : msg.header.getVersion = 1 := congrArg HeaderView.version hv
  obtain ⟨out, hout, -, got', hres, hgh, -, -, -⟩ := motan2_roundtrip buf hr p.maxLen Motan2.DefaultBufferSize 0 msg []
    hver (congrArg HeaderView.magic hv) (by rw [hmm]; exact nodup_requestMeta hn) hf1 hf2 hp.bound
  rw [← hout, g1] at hres
  simp only [Except.ok.injEq] at hres
  subst hres
  rw [List.append_nil] at g1 g2
  have hcv : Motan2.checkMotanVersion (encode buf msg) = .ok 1 := by
    have := checkVersion_encode buf hr msg []
    rw [List.append_nil, hver] at this; exact this
  have hprox : got.header.isProxy = false := by
    rw [hgh]
    have := congrArg HeaderView.proxy hv
    simp only [qrc] at this
    exact this
  have hnum6 : num = 6 := by
    rw [Convert.serialNum.eq_def, hqs] at hnum
    simp only [Bool.false_eq_true, if_false, Except.ok.injEq] at hnum
    rw [← hnum]; rfl
  obtain ⟨r2, c1, c2, c3, c4, c5, c6, c7⟩ := convertToRequest_received (env := p.env) p.ip hp.server hprox g5
  refine ⟨msg, got, r2, hmsg, nextMessage_v2 hcv g1 g2, ?_, ?_, ?_, c1, ?_⟩
  · rw [hgh]; exact congrArg HeaderView.heartbeat hv
  · rw [hgh]; exact congrArg HeaderView.requestID hv
  · rw [hgh]
    have := congrArg HeaderView.serialize hv
    rw [hnum6] at this
    have h6 : (Motan2.buildHeader Motan2.Req false 6 streamId Motan2.Normal).getSerialize = 6 := by
      show (Motan2.buildHeader Motan2.Req false 6 0 Motan2.Normal).getSerialize = 6
      decide
    exact this.trans h6
  · have hload : ∀ k v, k ∉ [b!"M_p", b!"M_m", b!"M_md", b!"M_pp", b!"M_rid", b!"host"] →
        (r2.attachment.load k = some v ↔ q.attachment.load k = some v ∧ Carriable k v) := by
      intro k v hk
      simp only [List.mem_cons, List.not_mem_nil, or_false, not_or] at hk
      obtain ⟨k1, k2, k3, k4, k5, k6⟩ := hk
      have k6' : Server.HostKey ≠ k := Ne.symm k6
      rw [c7, AMap.load_store_ne _ _ k6']
      exact g7.attachments k v (by simp only [List.mem_cons, List.not_mem_nil, or_false, not_or]; exact ⟨k1, k2, k3, k4, k5⟩)
    have hbody : body = bs := huniq body ((toReq body).mp g6)
    refine ⟨?_, ?_, ?_, ?_, ?_, ?_, ?_, ?_⟩
    · rw [c3, g7.service]; exact congrArg wireText qservice
    · rw [c4, g7.method]; exact congrArg wireText qmethod
    · intro hd
      rw [c5, g7.desc]
      simp only [qdesc]
      rw [if_pos hd]
    · rw [c2, g7.id]
      simp only [specRequestId]
      rw [f2 _ (by decide)]; rfl
    · refine hback (hp.short bs hab) r2 ?_
      rw [c6, g7.args, hbody]
    · intro k v hk
      simp only [List.mem_cons, List.not_mem_nil, or_false, not_or] at hk
      obtain ⟨k1, k2, k3, k4, k5, k6, k7⟩ := hk
      rw [hload k v (by simp only [List.mem_cons, List.not_mem_nil, or_false, not_or]; exact ⟨k1, k2, k3, k4, k5, k7⟩),
        f2 k k6]; rfl
    · rw [c7]; exact AMap.load_store_self _ _ _
    · intro h1 h2
      refine groupOf_wire (m := q.attachment) ?_ (f4 h1) h1 h2
      rintro k v (rfl | rfl)
      · exact hload _ v (by decide)
      · exact hload _ v (by decide)

/-! ## The answer arrives -/

theorem convertToResponse_withId {lib : Lib} {ser : Option Ser} {m : Message} {r : Response} (id : UInt64)
    (h : convertToResponse lib ser m = .ok r) :
    ∃ r2, convertToResponse lib ser (Server.withId m id) = .ok r2 ∧ r2.exception = r.exception ∧ r2.value = r.value ∧
      r2.attachment = r.attachment := by
  have hg : Convert.gunzipMessage lib (Server.withId m id) = Server.withId (Convert.gunzipMessage lib m) id := by
    rw [Convert.gunzipMessage, Convert.gunzipMessage]
    have : (Server.withId m id).header.isGzip = m.header.isGzip := rfl
    rw [this]
    cases m.header.isGzip <;> rfl
  rw [convertToResponse] at h ⊢
  have e1 : (Server.withId m id).header.isProxy = m.header.isProxy := rfl
  have e2 : (Server.withId m id).header.getStatus = m.header.getStatus := rfl
  have e3 : (Server.withId m id).body = m.body := rfl
  rw [e1, e2, e3, hg]
  simp only at h ⊢
  split at h
  · cases h
  · rename_i hn
    rw [if_neg hn]
    by_cases hc : m.header.getStatus = 0 ∧ m.body.length > 0
    · simp only [hc, and_self, if_true] at h ⊢
      have e4 : Convert.exceptionOf lib (Server.withId (Convert.gunzipMessage lib m) id) =
        Convert.exceptionOf lib (Convert.gunzipMessage lib m) := rfl
      rw [e4]
      split at h
      · cases h
      · simp only [Except.ok.injEq] at h
        rw [← h]
        exact ⟨_, rfl, rfl, rfl, rfl⟩
    · simp only [hc, if_false] at h ⊢
      have e4 : Convert.exceptionOf lib (Server.withId m id) = Convert.exceptionOf lib m := rfl
      rw [e4]
      split at h
      · cases h
      · simp only [Except.ok.injEq] at h
        rw [← h]
        exact ⟨_, rfl, rfl, rfl, rfl⟩

/-- What `notify` makes of a message that is understood as `r`. -/
theorem notify_of {lib : Lib} {ep : Ep} {req : Request} {m : Message} {r : Response} (hp : ep.proxy = false)
    (hg : m.header.isProxy = false) (h : convertToResponse lib ep.ser m = .ok r) :
    (notify lib ep req (.v2 m)).exception = r.exception ∧ (notify lib ep req (.v2 m)).value = r.value ∧
    (notify lib ep req (.v2 m)).attachment = r.attachment := by
  obtain ⟨r2, h1, h2, h3, h4⟩ := convertToResponse_withId req.id h
  rw [notify, hp, setProxy_false _ hg, h1]
  exact ⟨h2, h3, h4⟩

/-- The message of an answer is read by the client, and understood. -/
theorem answer_arrives {lib : Lib} (hl : GzipLawful lib) {ep : Ep} (hep : ep.proxy = false) (hes : ep.ser = some simpleSer)
    (req : Request) {ser : Option Ser} {res : Response} (hrp : res.rc.proxy = false) (hn : res.attachment.NodupKeys)
    (hj : ∀ e, res.exception = some e → JsonLawful lib e) {m0 : Message}
    (hc : convertToResMessage lib ser res = .ok m0) (streamId : UInt64) (buf : Option BytesBuffer) (hr : Reusable buf)
    (maxLen : Nat) (hf : metaSize m0.metadata ≤ maxLen ∧ m0.body.length ≤ maxLen) (h32 : maxLen < 2 ^ 32) :
    ∃ got body, receive maxLen streamId (encode buf (Server.withId m0 streamId)) = .answered (.v2 got) ∧
      ValueBytes ser res.rc.serialized res.value body ∧
      (notify lib ep req (.v2 got)).exception = res.exception ∧
      (notify lib ep req (.v2 got)).value =
        (if res.exception.isSome ∨ body = [] then none else some (.deser body (some simpleSer))) ∧
      ∀ k v, k ≠ b!"M_e" →
        ((notify lib ep req (.v2 got)).attachment.load k = some v ↔ res.attachment.load k = some v ∧ Carriable k v) := by
  have hrel : ¬ Relayed res.rc := by rintro ⟨h, -⟩; rw [hrp] at h; cases h
  have hc' := convertToResMessage_id streamId hrel hc
  obtain ⟨got, r, body, g1, g2, g3, g4, g5, g6⟩ := response_over_wire lib hl ser (some simpleSer)
    { res with id := streamId } hj hrel hn _ hc' (.inr rfl) buf hr maxLen Motan2.DefaultBufferSize 0 [] hf.1 hf.2 h32
  obtain ⟨body', sn, -, hmm, -, -, g, hv⟩ := resMessage_facts hl (res := { res with id := streamId }) hrel hc'
  have hver : (Server.withId m0 streamId).header.getVersion = 1 := congrArg HeaderView.version hv
  have hnm : (Server.withId m0 streamId).metadata.NodupKeys := by
    rw [hmm, Convert.exceptionMeta.eq_def]; split
    · exact AMap.nodupKeys_store hn _ _
    · exact hn
  obtain ⟨out, hout, -, got', hres, hgh, -, -, -⟩ := motan2_roundtrip buf hr maxLen Motan2.DefaultBufferSize 0
    (Server.withId m0 streamId) [] hver (congrArg HeaderView.magic hv) hnm hf.1 hf.2 h32
  rw [← hout, g1] at hres
  simp only [Except.ok.injEq] at hres
  subst hres
  rw [List.append_nil] at g1 g2
  have hcv : Motan2.checkMotanVersion (encode buf (Server.withId m0 streamId)) = .ok 1 := by
    have := checkVersion_encode buf hr (Server.withId m0 streamId) []
    rw [List.append_nil, hver] at this; exact this
  have hprox : got.header.isProxy = false := by
    rw [hgh]; exact (congrArg HeaderView.proxy hv).trans hrp
  have hhb : got.header.isHeartbeat = false := by rw [hgh]; exact congrArg HeaderView.heartbeat hv
  have hid : got.header.requestID = streamId := by rw [hgh]; rfl
  obtain ⟨n1, n2, n3⟩ := notify_of (req := req) hep hprox (by rw [hes]; exact g4)
  refine ⟨got, body, ?_, ?_, ?_, ?_, ?_⟩
  · rw [receive, nextMessage_v2 hcv g1 g2]
    simp only
    rw [if_pos ⟨hhb, hid⟩]
  · have e : effSerialized { res with id := streamId } = res.rc.serialized := by
      simp only [effSerialized, hrp, Bool.and_false, Bool.or_false]
    rw [e] at g5; exact g5
  · rw [n1]; exact g6.exception
  · rw [n2]; exact g6.value
  · intro k v hk
    rw [n3]; exact g6.attachments k v hk

theorem buildExceptionResponse_mt (id : UInt64) (m : Bytes) :
    (Convert.buildExceptionResponse id m).header.msgType = 1 := by
  have h1 : ¬ ((Motan2.Version2 : Int) > 31) := by decide
  have h2 : ¬ (Motan2.Exception > 7) := by decide
  have h3 : ¬ ((6 : Int) > 31) := by decide
  simp only [Convert.buildExceptionResponse, Header.setVersion, Header.setStatus, Header.setSerialize, h1, h2, h3,
    if_false, Except.toOption, Option.getD_some, Header.setProxy, Header.setRequest, Bool.false_eq_true, Header.zero]
  decide

/-- The answer for a failure of the server is read by the client, and understood. -/
theorem failure_arrives {lib : Lib} {ep : Ep} (hep : ep.proxy = false) (req : Request) {e : Exn} (hj : JsonLawful lib e)
    (streamId : UInt64) (buf : Option BytesBuffer) (hr : Reusable buf) (maxLen : Nat)
    (hf : 4 + (lib.jsonEnc e).length ≤ maxLen) (h32 : maxLen < 2 ^ 32) :
    ∃ got, receive maxLen streamId (encode buf (Server.withId (Convert.buildExceptionResponse streamId (lib.jsonEnc e)) streamId)) =
        .answered (.v2 got) ∧
      (notify lib ep req (.v2 got)).exception = some e ∧ (notify lib ep req (.v2 got)).value = none := by
  have he : Server.withId (Convert.buildExceptionResponse streamId (lib.jsonEnc e)) streamId =
      Convert.buildExceptionResponse streamId (lib.jsonEnc e) := rfl
  rw [he]
  obtain ⟨got, r, g1, g2, -, g4, g5⟩ := exception_answer lib e hj streamId ep.ser buf hr maxLen Motan2.DefaultBufferSize 0 []
    hf h32
  generalize hmsg : Convert.buildExceptionResponse streamId (lib.jsonEnc e) = msg at g1
  have hmm : msg.metadata = [(Convert.MException, lib.jsonEnc e)] := by rw [← hmsg]; rfl
  have hbb : msg.body = [] := by rw [← hmsg]; rfl
  have hvs : msg.header.versionStatus = 9 := by rw [← hmsg]; exact buildExceptionResponse_vs _ _
  have hmt : msg.header.msgType = 1 := by rw [← hmsg]; exact buildExceptionResponse_mt _ _
  have hid : msg.header.requestID = streamId := by rw [← hmsg]; rfl
  have hver : msg.header.getVersion = 1 := by rw [Header.getVersion, hvs]; decide
  have hms : metaSize msg.metadata ≤ maxLen := by
    rw [hmm, metaSize_formula]
    have : Motan2.keepPair Convert.MException (lib.jsonEnc e) = true := by
      rw [Motan2.keepPair_iff]; exact ⟨by decide, hj.2.1, by decide, hj.2.2⟩
    simp only [List.filter, this, List.map, List.sum_cons, List.sum_nil]
    have : Convert.MException.length = 3 := rfl
    omega
  have hmagic : encode buf msg = encode buf { msg with header := { msg.header with magic := Motan2.MotanMagic } } := rfl
  obtain ⟨out, hout, hrest, got', hres, hgh, -, -, -⟩ := motan2_roundtrip buf hr maxLen Motan2.DefaultBufferSize 0
    { msg with header := { msg.header with magic := Motan2.MotanMagic } } [] hver rfl
    (by simp only [hmm]; simp [AMap.NodupKeys, AMap.keys]) hms (by simp only [hbb]; simp) h32
  rw [← hmagic] at hout
  rw [← hout, g1] at hres
  simp only [Except.ok.injEq] at hres
  subst hres
  rw [← hout] at hrest
  rw [List.append_nil] at g1 hrest
  have hcv : Motan2.checkMotanVersion (encode buf msg) = .ok 1 := by
    have := checkVersion_encode buf hr msg []
    rw [List.append_nil, hver] at this; exact this
  have hprox : got.header.isProxy = false := by
    rw [hgh, Header.isProxy]; simp only [hmt]; decide
  have hhb : got.header.isHeartbeat = false := by
    rw [hgh, Header.isHeartbeat]; simp only [hmt]; decide
  have hgid : got.header.requestID = streamId := by rw [hgh]; exact hid
  obtain ⟨n1, n2, -⟩ := notify_of (req := req) hep hprox g2
  refine ⟨got, ?_, n1.trans g4, ?_⟩
  · rw [receive, nextMessage_v2 hcv g1 hrest]
    simp only
    rw [if_pos ⟨hhb, hgid⟩]
  · rw [n2]; simpa using g5

/-! ## The whole way -/

namespace Spec

/-- What is assumed of the answer `a` of a handler: its value, if any, can be serialized; its exception, if any, can be written
as JSON; its message is not too long. -/
structure Answerable (p : Peer) (maxLen : Nat) (a : Response) : Prop where
  raw : a.rc.serialized = false
  value : ∀ x, a.value = some x → ∃ v, x = .val v ∧ Simple.supported v = true ∧ Simple.storable v = true ∧
    ∀ bs, Simple.serialize 2048 v = .ok bs → bs.length < 2 ^ 32
  exception : ∀ e, a.exception = some e → JsonLawful p.env.lib e
  attachments : a.attachment.NodupKeys
  fits : ShortMessage maxLen (convertToResMessage p.env.lib (some simpleSer) (finishRes false p.pt a))

/-- The caller of `req` has got the answer `a`. -/
structure Delivered (req : Request) (a : Response) (out : Result) : Prop where
  id : out.resp.id = req.id
  exception : out.resp.exception = a.exception
  /-- The value is the handler's (an `int` is an `int64`). -/
  value : ∀ v, a.exception = none → a.value = some (.val v) → out.resp.value = some (.val (Simple.norm v))
  noValue : a.exception.isSome = true ∨ a.value = none → out.resp.value = none
  attachments : ∀ k v, k ≠ b!"M_e" → k ≠ b!"M_pt" →
    (out.resp.attachment.load k = some v ↔ a.attachment.load k = some v ∧ Carriable k v)
  /-- An exception counts against the server, unless it is the business's. -/
  counted : ∀ e, out.recorded = some e ↔ a.exception = some e ∧ e.errType ≠ 2
  cleared : out.reset = true ↔ ¬ Failed a

end Spec

theorem simple_value (v : Val) (hsup : Simple.supported v = true) (hst : Simple.storable v = true)
    (hlen : ∀ bs, Simple.serialize 2048 v = .ok bs → bs.length < 2 ^ 32) :
    ∃ bs, Simple.serialize 2048 v = .ok bs ∧ bs ≠ [] ∧ Simple.deSerialize bs .none = .ok (Simple.norm v, none) := by
  obtain ⟨bs, h1, h2⟩ := simple_roundtrip 2048 v hsup hst
  refine ⟨bs, h1, ?_, h2 (hlen bs h1)⟩
  have := Simple.wire_ne_nil (serialize_wire h1 hst (hlen bs h1))
  intro h; rw [h] at this; exact absurd this (by decide)

theorem call_of_answered {lib : Lib} {errText : Err → Bytes} {ep : Ep} {req : Request} {reply : Hint} {version : Int} {got : Got} :
    (call lib errText ep req reply version (.answered got)).resp = finish errText ep req reply (notify lib ep req got) ∧
    (∀ e, (call lib errText ep req reply version (.answered got)).recorded = some e ↔
      (notify lib ep req got).exception = some e ∧ e.errType ≠ 2) ∧
    ((call lib errText ep req reply version (.answered got)).reset = true ↔ ¬ Spec.Failed (notify lib ep req got)) := by
  rw [call]
  cases hf : Call.failure (notify lib ep req got) with
  | none =>
    simp only [hf]
    refine ⟨trivial, fun e => ?_, ?_⟩
    · rw [← (failure_iff _).2 e, hf]
    · simp [(failure_iff _).1.mp hf]
  | some e0 =>
    simp only [hf]
    refine ⟨trivial, fun e => ?_, ?_⟩
    · rw [← (failure_iff _).2 e, hf]
    · obtain ⟨h1, h2⟩ := ((failure_iff _).2 e0).mp hf
      simp only [Bool.false_eq_true, false_iff, Classical.not_not]
      exact ⟨e0, h1, h2⟩

/-- **C62.** A call through an endpoint, from the caller to the handler of the server and back. The handler is given the caller's
request: service, method, description, arguments, attachments. What it answers, the caller gets under its own id: the value
or the exception, and the attachments. If the handler returns nothing the caller gets an exception that says so, and if it
panics the call fails; both count against the server. -/
theorem call_end_to_end {p : Peer} {ep : Ep} {streamId : UInt64} {req : Request} {vs : List Val}
    (hp : Spec.PlainCall p ep streamId req vs) (buf : Option BytesBuffer) (hr : Reusable buf) (hpb : Reusable p.buf)
    (maxLen : Nat) (h32 : maxLen < 2 ^ 32) (errText : Err → Bytes) (version : Int) :
    let out := call p.env.lib errText ep req .none version (exchange p errText ep maxLen buf streamId req)
    ∃ r, Spec.Sees ep p.ip streamId req vs r ∧
      (∀ res, p.handler r = .returned (some res) → Spec.Answerable p maxLen res.r → Spec.Delivered req res.r out) ∧
      (p.handler r = .returned none →
        JsonLawful p.env.lib ⟨500, b!"convert to response fail. err:handler call return nil", 1⟩ →
        4 + (p.env.lib.jsonEnc ⟨500, b!"convert to response fail. err:handler call return nil", 1⟩).length ≤ maxLen →
        out.resp.id = req.id ∧ out.recorded = out.resp.exception ∧
        out.resp.exception = some ⟨500, b!"convert to response fail. err:handler call return nil", 1⟩) ∧
      (p.handler r = .panicked → out.resp.id = req.id ∧ out.recorded = out.resp.exception ∧
        ∃ text, out.resp.exception = some ⟨400, b!"channel call error:" ++ text, 1⟩) := by
  intro out
  obtain ⟨msg, got, r, h1, h2, h3, h4, h5, h6, h7⟩ := request_arrives hp buf hr
  have hex : exchange p errText ep maxLen buf streamId req =
      match p.handler r with
      | .panicked => .failed b!"timeout"
      | .returned res => receive maxLen streamId (encode p.buf
          (Server.withId (Server.answerMessage p.env (some simpleSer) p.pt streamId res) streamId)) := by
    rw [exchange, h1]
    simp only [h2, Server.process]
    rw [processV2_call h3, h5, hp.registered, h6, h4]
    simp only
    cases p.handler r <;> rfl
  have hid : out.resp.id = req.id := call_keeps_id _ _ _ _ _ _ _
  refine ⟨r, h7, ?_, ?_, ?_⟩
  · intro res hres ha
    rw [hres] at hex
    simp only [Server.answerMessage, hp.server] at hex
    obtain ⟨f1, f2, f3, f4, f5, f6, -⟩ := finishRes_facts false p.pt res.r
    have hrel : ¬ Relayed (finishRes false p.pt res.r).rc := by rintro ⟨h, -⟩; rw [f4] at h; cases h
    have hbody : ∃ bs, Convert.responseBody (some simpleSer) (Convert.exceptionRC (finishRes false p.pt res.r))
        (finishRes false p.pt res.r).value = .ok bs := by
      rw [f2, Convert.responseBody.eq_def]
      cases hv : res.r.value with
      | none => exact ⟨_, rfl⟩
      | some x =>
        obtain ⟨v, rfl, v2, v3, v4⟩ := ha.value x hv
        obtain ⟨bs, b1, -⟩ := simple_value v v2 v3 v4
        have hs : (Convert.exceptionRC (finishRes false p.pt res.r)).serialized = false := by
          rw [exceptionRC_serialized, effSerialized, f3, f4, ha.raw]; simp
        simp only [hs, Bool.false_eq_true, if_false]
        have b1' : simpleSer.serialize (Arg.toVal (.val v)) = .ok bs := b1
        rw [b1']
        exact ⟨bs, rfl⟩
    have hconv : ∃ m0, convertToResMessage p.env.lib (some simpleSer) (finishRes false p.pt res.r) = .ok m0 := by
      rw [convertToResMessage_fresh _ _ _ hrel]
      obtain ⟨bs, hb⟩ := hbody
      have hs : (Convert.exceptionRC (finishRes false p.pt res.r)).serialized = false := by
        rw [exceptionRC_serialized, effSerialized, f3, f4, ha.raw]; simp
      rw [Convert.serialNum.eq_def, hs]
      simp only [Bool.false_eq_true, if_false, hb]
      exact ⟨_, rfl⟩
    obtain ⟨m0, hm0⟩ := hconv
    rw [hm0] at hex
    simp only at hex
    obtain ⟨got2, body, a1, a2, a3, a4, a5⟩ := answer_arrives hp.gzip hp.client hp.serialization req (f4) (f6 ha.attachments)
      (by intro e he; rw [f1] at he; exact ha.exception e he) hm0 streamId p.buf hpb maxLen (ha.fits m0 hm0) h32
    rw [a1] at hex
    have ho : out = call p.env.lib errText ep req .none version (.answered (.v2 got2)) := by
      show call _ _ _ _ _ _ _ = _
      rw [hex]
    obtain ⟨c1, c2, c3⟩ := call_of_answered (lib := p.env.lib) (errText := errText) (ep := ep) (req := req) (reply := .none)
      (version := version) (got := .v2 got2)
    rw [← ho] at c1 c2 c3
    rw [f1] at a3 a4
    rw [f2, f3] at a2
    have hnone : res.r.exception.isSome = true ∨ res.r.value = none → (notify p.env.lib ep req (.v2 got2)).value = none := by
      rintro (h | h)
      · rw [a4, if_pos (.inl h)]
      · rw [h] at a2
        cases a2 with
        | none _ => rw [a4, if_pos (.inr rfl)]
        | raw b _ hb => cases hb
        | enc s v b _ hb => cases hb
    -- what `finish` leaves
    have hfin : (finish errText ep req .none (notify p.env.lib ep req (.v2 got2))).exception = res.r.exception ∧
        (∀ v, res.r.exception = none → res.r.value = some (.val v) →
          (finish errText ep req .none (notify p.env.lib ep req (.v2 got2))).value = some (.val (Simple.norm v))) ∧
        (finish errText ep req .none (notify p.env.lib ep req (.v2 got2))).attachment =
          (notify p.env.lib ep req (.v2 got2)).attachment := by
      by_cases hc : res.r.exception.isSome = true ∨ res.r.value = none
      · rw [finish_noValue _ _ _ _ _ (hnone hc)]
        refine ⟨a3, ?_, rfl⟩
        intro v w1 w2
        rcases hc with h | h
        · rw [w1] at h; cases h
        · rw [w2] at h; cases h
      · simp only [not_or] at hc
        obtain ⟨x, hx⟩ := Option.ne_none_iff_exists'.mp hc.2
        obtain ⟨v, rfl, v2, v3, v4⟩ := ha.value x hx
        obtain ⟨bs, b1, b2, b3⟩ := simple_value v v2 v3 v4
        have hbs : body = bs := by
          rw [hx] at a2
          cases a2 with
          | none hb => cases hb
          | raw b hb _ => rw [ha.raw] at hb; cases hb
          | enc s w b _ hb hs hd =>
            simp only [Option.some.injEq] at hb hs
            subst hb; subst hs
            have hd' : Simple.serialize 2048 v = .ok body := hd
            rw [b1] at hd'
            simpa using hd'.symm
        subst hbs
        rw [if_neg (by simp only [not_or]; exact ⟨hc.1, b2⟩)] at a4
        have hd : (notify p.env.lib ep req (.v2 got2)).processDeserializable .none =
            .ok { notify p.env.lib ep req (.v2 got2) with value := some (.val (Simple.norm v)) } := by
          unfold Convert.Response.processDeserializable
          rw [a4]
          have b3' : simpleSer.deSerialize body .none = .ok (Simple.norm v, none) := b3
          simp only [b3']
        rw [finish, hp.client, hd]
        simp only [Bool.false_eq_true, if_false]
        refine ⟨a3, ?_, trivial⟩
        intro w _ hw
        rw [hx] at hw
        simp only [Option.some.injEq, Arg.val.injEq] at hw
        rw [hw]
    obtain ⟨d1, d2, d3⟩ := hfin
    refine ⟨hid, by rw [c1]; exact d1, fun v w1 w2 => by rw [c1]; exact d2 v w1 w2, ?_, ?_, ?_, ?_⟩
    · intro h
      rw [c1, finish_noValue _ _ _ _ _ (hnone h)]
      exact hnone h
    · intro k v k1 k2
      rw [c1, d3, a5 k v k1, f5 k k2]
    · intro e
      rw [c2, a3]
    · rw [c3]
      simp only [Spec.Failed, a3]
  · intro hnil hj hsz
    rw [hnil] at hex
    simp only [Server.answerMessage, Server.convertFail] at hex
    obtain ⟨got2, a1, a2, a3⟩ := failure_arrives hp.client req hj streamId p.buf hpb maxLen hsz h32
    have a1' : exchange p errText ep maxLen buf streamId req = .answered (.v2 got2) := by rw [hex]; exact a1
    have ho : out = call p.env.lib errText ep req .none version (.answered (.v2 got2)) := by
      show call _ _ _ _ _ _ _ = _
      rw [a1']
    obtain ⟨c1, c2, -⟩ := call_of_answered (lib := p.env.lib) (errText := errText) (ep := ep) (req := req) (reply := .none)
      (version := version) (got := .v2 got2)
    rw [← ho] at c1 c2
    rw [finish_noValue _ _ _ _ _ a3] at c1
    refine ⟨hid, ?_, by rw [c1, a2]⟩
    rw [c1, a2]
    exact (c2 _).mpr ⟨a2, by decide⟩
  · intro hpan
    rw [hpan] at hex
    simp only at hex
    have ho : out = call p.env.lib errText ep req .none version (.failed b!"timeout") := by
      show call _ _ _ _ _ _ _ = _
      rw [hex]
    refine ⟨hid, ?_, b!"timeout", ?_⟩
    · rw [ho]; rfl
    · rw [ho]; rfl

/-! ## The hypotheses can be met -/

/-- A server that answers `say` with a value, `fail` with an exception, `drop` with nothing and panics otherwise. -/
def callHandler (r : Request) : Outcome :=
  if r.method = b!"say" then .returned (some { r := { id := 1, value := some (.val (.str b!"world")), exception := none, processTime := 0, attachment := [(b!"x", b!"y")] } })
  else if r.method = b!"fail" then .returned (some (Server.exceptionRes 1 ⟨503, [], 0⟩))
  else if r.method = b!"drop" then .returned none
  else .panicked

def callPeer : Peer where
  env := { lib := toyLib, sers := fun n => if n = 6 then some simpleSer else none, errText := fun _ => [],
           err1Text := fun _ => [], heartbeatEnabled := true, proxy := false }
  handler := callHandler
  pt := b!"3"
  ip := b!"10.0.0.1"
  maxLen := 1000
  buf := none

def callEp : Ep := ⟨b!"other", false, 2, some simpleSer⟩

theorem callPeer_plain (m : Bytes) (hm : m ∈ [b!"say", b!"fail", b!"drop", b!"crash"]) :
    Spec.PlainCall callPeer callEp 77 { sampleRequest with method := m } [.str b!"hello", .int 5] where
  gzip := toyLib_gzip
  server := rfl
  registered := rfl
  client := rfl
  serialization := rfl
  v2 := rfl
  raw := rfl
  args := rfl
  supported := by decide
  storable := by decide
  short := by
    intro bs h
    have h' := (requestBody_iff _ _ _).mpr h
    have h2 : Convert.requestBody (some simpleSer) { sampleRequest with method := m } = Convert.requestBody (some simpleSer) sampleRequest := rfl
    rw [h2] at h'
    have h3 : ((Convert.requestBody (some simpleSer) sampleRequest).map List.length).toOption = some 12 := by decide +kernel
    rw [h'] at h3
    simp only [Except.map, Except.toOption, Option.some.injEq] at h3
    omega
  attachments := by show sampleRequest.attachment.NodupKeys; decide
  fits := by
    intro msg h
    have : ((requestMessage callPeer.env.lib callEp 77 { sampleRequest with method := m }).map fun x =>
        decide (metaSize x.metadata ≤ 1000 ∧ x.body.length ≤ 1000)).toOption = some true := by
      simp only [List.mem_cons, List.not_mem_nil, or_false] at hm
      rcases hm with rfl | rfl | rfl | rfl <;> decide +kernel
    rw [h] at this
    have h4 : metaSize msg.metadata ≤ 1000 ∧ msg.body.length ≤ 1000 := by
      simpa [Except.map, Except.toOption] using this
    exact h4
  bound := by decide

/-- The value of a result, as text. -/
def textOf (r : Response) : Option Bytes :=
  match r.value with
  | some (.val (.str s)) => some s
  | _ => none

def callOf (m : Bytes) : Result :=
  call toyLib (fun _ => []) callEp { sampleRequest with method := m } .none (-1)
    (exchange callPeer (fun _ => []) callEp 1000 none 77 { sampleRequest with method := m })

example : textOf (callOf b!"say").resp = some b!"world" ∧ (callOf b!"say").resp.id = sampleRequest.id ∧
    (callOf b!"say").resp.attachment.load b!"x" = some b!"y" ∧ (callOf b!"say").reset = true ∧ (callOf b!"say").version = 1 := by
  decide +kernel

example : (callOf b!"fail").resp.exception = some ⟨503, [], 0⟩ ∧ (callOf b!"fail").recorded = some ⟨503, [], 0⟩ := by
  decide +kernel

example : (callOf b!"crash").resp.exception = some ⟨400, b!"channel call error:timeout", 1⟩ := by decide +kernel

theorem callPeer_answers (r : Request) (hm : r.method = b!"say") :
    ∃ a, callHandler r = .returned (some a) ∧ Spec.Answerable callPeer 1000 a.r ∧ a.r.exception = none := by
  refine ⟨_, if_pos hm, ⟨rfl, ?_, ?_, ?_, ?_⟩, rfl⟩
  · rintro x hx
    simp only [Option.some.injEq] at hx
    refine ⟨_, hx.symm, by decide, by decide, ?_⟩
    intro bs hb
    have h3 : ((Simple.serialize 2048 (.str b!"world")).map List.length).toOption = some 10 := by decide +kernel
    rw [hb] at h3
    simp only [Except.map, Except.toOption, Option.some.injEq] at h3
    omega
  · intro e he; cases he
  · decide
  · intro msg h
    have : ((convertToResMessage callPeer.env.lib (some simpleSer) (finishRes false callPeer.pt
        { id := 1, value := some (.val (.str b!"world")), exception := none, processTime := 0, attachment := [(b!"x", b!"y")] })).map
        fun x => decide (metaSize x.metadata ≤ 1000 ∧ x.body.length ≤ 1000)).toOption = some true := by
      decide +kernel
    rw [h] at this
    simpa [Except.map, Except.toOption] using this

end Motan.Props
