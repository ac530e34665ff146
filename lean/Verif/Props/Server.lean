import Verif.Model.Server
import Verif.Props.Convert
import Verif.Props.Motan1
import Verif.Props.Url

/-!
# C39 Every request is answered once, with its own id; C40 requests reach the provider registered for them
-/

namespace Motan.Props

open Server
open Motan2 (Header Message Meta encode decode Reusable)
open Convert (Lib Ser Exn Request Response RC loadOrEmpty convertToRequest convertToResponse convertToResMessage)

/-! ## C39, motan2 -/

namespace Spec

/-- The peer that reads the bytes `m` is written as (whatever the state of the buffers, whatever follows them)
gets exactly one message, which it understands as a response with this id that carries the exception `e`. -/
def ReportsException (lib : Lib) (m : Message) (id : UInt64) (e : Exn) : Prop :=
  ∀ (ser' : Option Ser) (buf : Option BytesBuffer) (maxLen bufCap bodyCap : Nat) (follow : Bytes),
    Reusable buf → 4 + (lib.jsonEnc e).length ≤ maxLen → maxLen < 2 ^ 32 →
    ∃ got r, (decode maxLen bufCap bodyCap (encode buf m ++ follow)).res = .ok got ∧
      convertToResponse lib ser' got = .ok r ∧ r.id = id ∧ r.exception = some e ∧ r.value.isNone = true

/-- A handler that does not panic. -/
def Safe (call : Request → Outcome) : Prop := ∀ r, call r ≠ .panicked

end Spec

theorem hv_received (env : Env) (ip : Bytes) (msg : Message) :
    headerView (received env ip msg).header = { headerView msg.header with proxy := env.proxy } :=
  hv_setProxy msg.header env.proxy

theorem isHeartbeat_received (env : Env) (ip : Bytes) (msg : Message) :
    (received env ip msg).header.isHeartbeat = msg.header.isHeartbeat :=
  congrArg HeaderView.heartbeat (hv_received env ip msg)

theorem id_received (env : Env) (ip : Bytes) (msg : Message) :
    (received env ip msg).header.requestID = msg.header.requestID :=
  congrArg HeaderView.requestID (hv_received env ip msg)

theorem ser_received (env : Env) (ip : Bytes) (msg : Message) :
    (received env ip msg).header.getSerialize = msg.header.getSerialize :=
  congrArg HeaderView.serialize (hv_received env ip msg)

/-- `processV2` for a message that is not a heartbeat. -/
theorem processV2_call {env : Env} {call : Request → Outcome} {pt ip : Bytes} {msg : Message}
    (hb : msg.header.isHeartbeat = false) :
    processV2 env call pt ip msg =
      match convertToRequest env.lib (env.sers msg.header.getSerialize) (received env ip msg) with
      | .error e => .sent (.v2 (withId (deserializeFail env (received env ip msg) e) msg.header.requestID))
      | .ok req =>
        match call req with
        | .panicked => .nothing
        | .returned res => .sent (.v2 (withId (answerMessage env (env.sers msg.header.getSerialize) pt
            msg.header.requestID res) msg.header.requestID)) := by
  rw [processV2]
  simp only [isHeartbeat_received, id_received, ser_received, hb, Bool.false_eq_true, if_false]
  cases convertToRequest env.lib (env.sers msg.header.getSerialize) (received env ip msg) with
  | error e => rfl
  | ok req => simp only; cases call req <;> rfl

theorem header_buildHeartbeat (id : UInt64) :
    (withId (buildHeartbeat id Motan2.Res) id).header = ⟨Motan2.MotanMagic, 0x13, 8, 0x30, id⟩ := by
  have h1 : (buildHeartbeat id Motan2.Res).header.msgType = 0x13 := by
    show (Motan2.buildHeader Motan2.Res true 6 0 Motan2.Normal |>.setHeartbeat true).msgType = _; decide
  have h2 : (buildHeartbeat id Motan2.Res).header.versionStatus = 8 := by
    show (Motan2.buildHeader Motan2.Res true 6 0 Motan2.Normal |>.setHeartbeat true).versionStatus = _; decide
  have h3 : (buildHeartbeat id Motan2.Res).header.serialize = 0x30 := by
    show (Motan2.buildHeader Motan2.Res true 6 0 Motan2.Normal |>.setHeartbeat true).serialize = _; decide
  show (⟨_, _, _, _, _⟩ : Header) = _
  rw [h1, h2, h3]; rfl

/-- **C39.** Every motan2 request (a message that is not a heartbeat) is answered, whatever it contains and
whatever the handler does short of panicking, and the answer carries the id of the request. -/
theorem v2_request_answered (env : Env) (call : Request → Outcome) (hc : Spec.Safe call) (pt ip : Bytes) (msg : Message)
    (hb : msg.header.isHeartbeat = false) :
    ∃ m, processV2 env call pt ip msg = .sent (.v2 m) ∧ m.header.requestID = msg.header.requestID := by
  rw [processV2_call hb]
  cases convertToRequest env.lib (env.sers msg.header.getSerialize) (received env ip msg) with
  | error e => exact ⟨_, rfl, rfl⟩
  | ok req =>
    cases h : call req with
    | panicked => exact absurd h (hc req)
    | returned res => simp only [h]; exact ⟨_, rfl, rfl⟩

/-- **C39.** A heartbeat is answered by a heartbeat response with its id, which the peer recognises as such; if
heartbeats are switched off the connection is closed instead. The handler is not asked. -/
theorem v2_heartbeat_answered (env : Env) (call : Request → Outcome) (pt ip : Bytes) (msg : Message)
    (hb : msg.header.isHeartbeat = true) :
    (env.heartbeatEnabled = false → processV2 env call pt ip msg = .closed) ∧
    (env.heartbeatEnabled = true → ∃ m, processV2 env call pt ip msg = .sent (.v2 m) ∧
      ∀ (buf : Option BytesBuffer) (maxLen bufCap bodyCap : Nat) (follow : Bytes), Reusable buf → maxLen < 2 ^ 32 →
        ∃ got, (decode maxLen bufCap bodyCap (encode buf m ++ follow)).res = .ok got ∧
          (decode maxLen bufCap bodyCap (encode buf m ++ follow)).rest = follow ∧
          got.header.isHeartbeat = true ∧ got.header.isRequest = false ∧ got.header.getStatus = 0 ∧
          got.header.requestID = msg.header.requestID ∧ got.body = []) := by
  rw [processV2]
  simp only [isHeartbeat_received, id_received, hb, if_true]
  constructor
  · intro h; rw [if_pos h]
  · intro h
    rw [if_neg (by simp [h])]
    refine ⟨_, rfl, ?_⟩
    intro buf maxLen bufCap bodyCap follow hr h32
    obtain ⟨out, hout, hrest, got, hres, hgh, hgb, -, -⟩ := motan2_roundtrip buf hr maxLen bufCap bodyCap
      (withId (buildHeartbeat msg.header.requestID Motan2.Res) msg.header.requestID) follow
      (by rw [header_buildHeartbeat]; simp only [Header.getVersion]; decide) (by rw [header_buildHeartbeat])
      (by simp [withId, buildHeartbeat, AMap.NodupKeys, AMap.keys])
      (by rw [metaSize_formula]; simp [withId, buildHeartbeat]) (by simp [withId, buildHeartbeat]) h32
    subst hout
    rw [header_buildHeartbeat] at hgh
    refine ⟨got, hres, hrest, ?_, ?_, ?_, ?_, ?_⟩
    · rw [hgh]; simp only [Header.isHeartbeat]; decide
    · rw [hgh]; simp only [Header.isRequest]; decide
    · rw [hgh]; simp only [Header.getStatus]; decide
    · rw [hgh]
    · rw [hgb]; rfl

theorem reports_build (lib : Lib) (id : UInt64) (e : Exn) (hj : JsonLawful lib e) :
    Spec.ReportsException lib (withId (Convert.buildExceptionResponse id (lib.jsonEnc e)) id) id e := by
  intro ser' buf maxLen bufCap bodyCap follow hr hm h32
  exact exception_answer lib e hj id ser' buf hr maxLen bufCap bodyCap follow hm h32

/-- **C39.** When the request cannot be read, when the handler returns nothing, or when what it returns cannot be
written, the caller gets a service exception (code 500) that says so, with the id of the request. -/
theorem v2_failure_reported (env : Env) (call : Request → Outcome) (pt ip : Bytes) (msg : Message)
    (hj : ∀ text, JsonLawful env.lib ⟨500, text, 1⟩) (hb : msg.header.isHeartbeat = false) :
    (∀ e, convertToRequest env.lib (env.sers msg.header.getSerialize) (received env ip msg) = .error e →
      ∃ m, processV2 env call pt ip msg = .sent (.v2 m) ∧ Spec.ReportsException env.lib m msg.header.requestID
        ⟨500, b!"deserialize fail. err:" ++ env.errText e ++ b!" method:" ++ (msg.metadata.load b!"M_m").getD [], 1⟩) ∧
    (∀ req, convertToRequest env.lib (env.sers msg.header.getSerialize) (received env ip msg) = .ok req →
      call req = .returned none →
      ∃ m, processV2 env call pt ip msg = .sent (.v2 m) ∧ Spec.ReportsException env.lib m msg.header.requestID
        ⟨500, b!"convert to response fail. err:handler call return nil", 1⟩) ∧
    (∀ req res e, convertToRequest env.lib (env.sers msg.header.getSerialize) (received env ip msg) = .ok req →
      call req = .returned (some res) →
      convertToResMessage env.lib (env.sers msg.header.getSerialize) (finishRes env.proxy pt res.r) = .error e →
      ∃ m, processV2 env call pt ip msg = .sent (.v2 m) ∧ Spec.ReportsException env.lib m msg.header.requestID
        ⟨500, b!"convert to response fail. err:" ++ env.errText e, 1⟩) := by
  rw [processV2_call hb]
  refine ⟨?_, ?_, ?_⟩
  · intro e he
    rw [he]
    refine ⟨_, rfl, ?_⟩
    have hm : loadOrEmpty (received env ip msg).metadata Convert.MMethod = (msg.metadata.load b!"M_m").getD [] := by
      show (AMap.load (AMap.store msg.metadata HostKey ip) b!"M_m").getD [] = _
      rw [AMap.load_store, if_neg (by decide)]
    rw [deserializeFail, id_received, hm]
    exact reports_build _ _ _ (hj _)
  · intro req hreq hcall
    rw [hreq]
    simp only [hcall]
    refine ⟨_, rfl, ?_⟩
    rw [answerMessage, convertFail]
    exact reports_build _ _ _ (hj _)
  · intro req res e hreq hcall he
    rw [hreq]
    simp only [hcall]
    refine ⟨_, rfl, ?_⟩
    rw [answerMessage]
    simp only [he]
    rw [convertFail]
    exact reports_build _ _ _ (hj _)

theorem encodeMessageGzip_id (lib : Lib) (m : Message) (n : Int) (id : UInt64) :
    Convert.encodeMessageGzip lib (withId m id) n = withId (Convert.encodeMessageGzip lib m n) id := by
  rw [Convert.encodeMessageGzip, Convert.encodeMessageGzip]
  have h1 : (withId m id).body = m.body := rfl
  have h2 : (withId m id).header.isGzip = m.header.isGzip := rfl
  rw [h1, h2]
  split
  · cases Convert.encodeGzip lib m.body with
    | none => rfl
    | some d => rfl
  · rfl

/-- Changing the id of a response that is not relayed changes the id of its message. -/
theorem convertToResMessage_id {lib : Lib} {ser : Option Ser} {res : Response} {m : Message} (id : UInt64)
    (hrel : ¬ Relayed res.rc) (h : convertToResMessage lib ser res = .ok m) :
    convertToResMessage lib ser { res with id := id } = .ok (withId m id) := by
  have hrel' : ¬ Relayed ({ res with id := id } : Response).rc := hrel
  rw [convertToResMessage_fresh lib ser _ hrel] at h
  rw [convertToResMessage_fresh lib ser _ hrel']
  have e1 : Convert.exceptionRC { res with id := id } = Convert.exceptionRC res := rfl
  have e2 : Convert.exceptionMeta lib { res with id := id } = Convert.exceptionMeta lib res := rfl
  simp only [e1, e2]
  cases h1 : Convert.serialNum ser (Convert.exceptionRC res) with
  | error e => rw [h1] at h; simp at h
  | ok num =>
    rw [h1] at h
    simp only at h ⊢
    cases h2 : Convert.responseBody ser (Convert.exceptionRC res) res.value with
    | error e => rw [h2] at h; simp at h
    | ok body =>
      rw [h2] at h
      simp only [Except.ok.injEq] at h ⊢
      rw [← h]
      have e3 := encodeMessageGzip_id lib ⟨Motan2.buildHeader Motan2.Res false num res.id
        (if res.exception.isSome then Motan2.Exception else Motan2.Normal), [], body, 0⟩ (Convert.exceptionRC res).gzipSize id
      have e4 : withId ⟨Motan2.buildHeader Motan2.Res false num res.id
        (if res.exception.isSome then Motan2.Exception else Motan2.Normal), [], body, 0⟩ id =
        ⟨Motan2.buildHeader Motan2.Res false num id
        (if res.exception.isSome then Motan2.Exception else Motan2.Normal), [], body, 0⟩ := rfl
      rw [e4] at e3
      rw [e3]
      cases (Convert.exceptionRC res).proxy <;> rfl

/-- The response as the server sends it: the attachments except the process time are those of the handler. -/
theorem finishRes_facts (proxy : Bool) (pt : Bytes) (r : Response) :
    (finishRes proxy pt r).exception = r.exception ∧ (finishRes proxy pt r).value = r.value ∧
    (finishRes proxy pt r).rc.serialized = r.rc.serialized ∧ (finishRes proxy pt r).rc.proxy = proxy ∧
    (∀ k, k ≠ b!"M_pt" → (finishRes proxy pt r).attachment.load k = r.attachment.load k) ∧
    (r.attachment.NodupKeys → (finishRes proxy pt r).attachment.NodupKeys) ∧
    ((finishRes proxy pt r).rc.original.isSome = r.rc.original.isSome) := by
  rw [finishRes]
  simp only
  by_cases h : loadOrEmpty r.attachment Convert.MProcessTime = []
  · rw [if_pos h]
    refine ⟨rfl, rfl, rfl, rfl, ?_, fun hn => AMap.nodupKeys_store hn _ _, ?_⟩
    · intro k hk
      exact (AMap.load_store _ _ _ _).trans (if_neg (Ne.symm hk))
    · show (setOriginal r.rc.original _ _).isSome = _
      rw [setOriginal.eq_def]
      split <;> simp_all
  · rw [if_neg h]
    exact ⟨rfl, rfl, rfl, rfl, fun _ _ => rfl, id, rfl⟩

/-- A response that was not received in a motan2 message, or a server that does not relay. -/
def Spec.Fresh2 (proxy : Bool) (r : Response) : Prop := proxy = false ∨ ∀ m, r.rc.original ≠ some (.v2 m)

theorem not_relayed (proxy : Bool) (pt : Bytes) (r : Response) (h : Spec.Fresh2 proxy r) :
    ¬ Relayed (finishRes proxy pt r).rc := by
  rintro ⟨h1, m, h2⟩
  rw [(finishRes_facts proxy pt r).2.2.2.1] at h1
  rcases h with h | h
  · rw [h1] at h; cases h
  · rw [finishRes] at h2
    simp only at h2
    split at h2
    · cases ho : r.rc.original with
      | none => simp [ho, setOriginal] at h2
      | some x =>
        cases x with
        | v2 m' => exact h m' ho
        | other => simp [ho, setOriginal] at h2
    · exact h m h2

/-- **C39.** What the handler returns is what the caller gets, under the id of the request: exception, value and
attachments (other than the exception and process time the server itself adds), for every response that can be
converted. -/
theorem v2_result_delivered (env : Env) (hl : GzipLawful env.lib) (call : Request → Outcome) (pt ip : Bytes) (msg : Message)
    (hb : msg.header.isHeartbeat = false) (req : Request) (res : Res) (m0 : Message)
    (hreq : convertToRequest env.lib (env.sers msg.header.getSerialize) (received env ip msg) = .ok req)
    (hcall : call req = .returned (some res)) (hfresh : Spec.Fresh2 env.proxy res.r) (hn : res.r.attachment.NodupKeys)
    (hj : ∀ e, res.r.exception = some e → JsonLawful env.lib e)
    (hconv : convertToResMessage env.lib (env.sers msg.header.getSerialize) (finishRes env.proxy pt res.r) = .ok m0)
    (ser' : Option Ser) (hser : env.proxy = true ∨ ser'.isSome = true)
    (buf : Option BytesBuffer) (hr : Reusable buf) (maxLen bufCap bodyCap : Nat) (follow : Bytes)
    (hmeta : metaSize m0.metadata ≤ maxLen) (hbody : m0.body.length ≤ maxLen) (h32 : maxLen < 2 ^ 32) :
    ∃ m got r body, processV2 env call pt ip msg = .sent (.v2 m) ∧
      (decode maxLen bufCap bodyCap (encode buf m ++ follow)).res = .ok got ∧
      (decode maxLen bufCap bodyCap (encode buf m ++ follow)).rest = follow ∧
      got.header.isRequest = false ∧ convertToResponse env.lib ser' got = .ok r ∧
      r.id = msg.header.requestID ∧ r.exception = res.r.exception ∧
      ValueBytes (env.sers msg.header.getSerialize) (res.r.rc.serialized || (res.r.exception.isSome && env.proxy))
        res.r.value body ∧
      r.value = (if res.r.exception.isSome ∨ body = [] then none else some (.deser body ser')) ∧
      ∀ k v, k ≠ b!"M_e" → k ≠ b!"M_pt" →
        (r.attachment.load k = some v ↔ res.r.attachment.load k = some v ∧ Carriable k v) := by
  obtain ⟨f1, f2, f3, f4, f5, f6, -⟩ := finishRes_facts env.proxy pt res.r
  have hrel := not_relayed env.proxy pt res.r hfresh
  have hc := convertToResMessage_id msg.header.requestID hrel hconv
  refine ⟨withId m0 msg.header.requestID, ?_⟩
  obtain ⟨got, r, body, g1, g2, g3, g4, g5, g6⟩ := response_over_wire env.lib hl _ ser'
    { finishRes env.proxy pt res.r with id := msg.header.requestID } (by intro e he; exact hj e (by rw [← f1]; exact he))
    hrel (f6 hn) _ hc (by rw [f4]; exact hser) buf hr maxLen bufCap bodyCap follow hmeta hbody h32
  refine ⟨got, r, body, ?_, g1, g2, g3, g4, g6.id, g6.exception.trans f1, ?_, ?_, ?_⟩
  · rw [processV2_call hb, hreq]
    simp only [hcall]
    rw [answerMessage]
    simp only [hconv]
  · have e : effSerialized { finishRes env.proxy pt res.r with id := msg.header.requestID } =
        (res.r.rc.serialized || (res.r.exception.isSome && env.proxy)) := by
      simp only [effSerialized, f1, f3, f4]
    rw [e] at g5
    simpa only [f2] using g5
  · simpa only [f1] using g6.value
  · intro k v h1 h2
    rw [g6.attachments k v h1, f5 k h2]

/-- **C39.** A proxying server passes the message of the backend on as it is (body, status, serialization,
compression and metadata other than the process time), but under the id of the request. -/
theorem v2_relayed_answer (env : Env) (call : Request → Outcome) (pt ip : Bytes) (msg o : Message)
    (hb : msg.header.isHeartbeat = false) (req : Request) (res : Res) (hp : env.proxy = true)
    (hreq : convertToRequest env.lib (env.sers msg.header.getSerialize) (received env ip msg) = .ok req)
    (hcall : call req = .returned (some res)) (ho : res.r.rc.original = some (.v2 o)) :
    ∃ m, processV2 env call pt ip msg = .sent (.v2 m) ∧ m.body = o.body ∧
      headerView m.header = { headerView o.header with proxy := true, requestID := msg.header.requestID } ∧
      ∀ k, k ≠ b!"M_pt" → m.metadata.load k = o.metadata.load k := by
  have hfr : ∃ o', (finishRes true pt res.r).rc.proxy = true ∧ (finishRes true pt res.r).rc.original = some (.v2 o') ∧
      o'.body = o.body ∧ o'.header = o.header ∧ ∀ k, k ≠ b!"M_pt" → o'.metadata.load k = o.metadata.load k := by
    rw [finishRes]
    simp only
    by_cases h : loadOrEmpty res.r.attachment Convert.MProcessTime = []
    · rw [if_pos h]
      refine ⟨{ o with metadata := o.metadata.store Convert.MProcessTime pt }, rfl, ?_, rfl, rfl, ?_⟩
      · simp [setOriginal, ho]
      · intro k hk
        exact (AMap.load_store _ _ _ _).trans (if_neg (Ne.symm hk))
    · rw [if_neg h]
      exact ⟨o, rfl, ho, rfl, rfl, fun _ _ => rfl⟩
  obtain ⟨o', h1, h2, h3, h4, h5⟩ := hfr
  have hconv : convertToResMessage env.lib (env.sers msg.header.getSerialize) (finishRes env.proxy pt res.r) =
      .ok { o' with header := o'.header.setProxy true } := by
    rw [hp, convertToResMessage, h1, h2]
  refine ⟨withId { o' with header := o'.header.setProxy true } msg.header.requestID, ?_, h3, ?_, h5⟩
  · rw [processV2_call hb, hreq]
    simp only [hcall]
    rw [answerMessage]
    simp only [hconv]
  · have := hv_setProxy o'.header true
    rw [h4] at this
    show headerView { (o'.header.setProxy true) with requestID := msg.header.requestID } = _
    rw [h4]
    exact congrArg (fun v : HeaderView => { v with requestID := msg.header.requestID }) this

/-- **C39.** The exceptions the server's own handlers answer with (see C40) reach the caller under the id of the
request, if the request names a serialization the server knows or the server is a proxy. -/
theorem v2_exception_delivered (env : Env) (hl : GzipLawful env.lib) (call : Request → Outcome) (pt ip : Bytes) (msg : Message)
    (hb : msg.header.isHeartbeat = false) (req : Request) (e : Exn) (rid : UInt64)
    (hreq : convertToRequest env.lib (env.sers msg.header.getSerialize) (received env ip msg) = .ok req)
    (hcall : call req = .returned (some (exceptionRes rid e)))
    (hj : JsonLawful env.lib e)
    (hsome : env.proxy = true ∨ (env.sers msg.header.getSerialize).isSome = true)
    (ser' : Option Ser) (hser : env.proxy = true ∨ ser'.isSome = true)
    (buf : Option BytesBuffer) (hr : Reusable buf) (maxLen bufCap bodyCap : Nat) (follow : Bytes)
    (hmeta : pt.length + (env.lib.jsonEnc e).length + 10 ≤ maxLen) (h32 : maxLen < 2 ^ 32) :
    ∃ m got r, processV2 env call pt ip msg = .sent (.v2 m) ∧
      (decode maxLen bufCap bodyCap (encode buf m ++ follow)).res = .ok got ∧
      convertToResponse env.lib ser' got = .ok r ∧
      r.id = msg.header.requestID ∧ r.exception = some e ∧ r.value.isNone = true := by
  have hfin : finishRes env.proxy pt (exceptionRes rid e).r =
      { id := rid, value := none, exception := some e, processTime := 0, attachment := [(b!"M_pt", pt)],
        rc := { proxy := env.proxy } } := rfl
  have hconv : ∃ m0, convertToResMessage env.lib (env.sers msg.header.getSerialize)
      (finishRes env.proxy pt (exceptionRes rid e).r) = .ok m0 ∧
      m0.metadata = AMap.store [(b!"M_pt", pt)] b!"M_e" (env.lib.jsonEnc e) ∧ m0.body = [] := by
    rw [hfin, convertToResMessage_fresh _ _ _ (by rintro ⟨-, m, h⟩; cases h)]
    have hnum : ∃ n, Convert.serialNum (env.sers msg.header.getSerialize) (Convert.exceptionRC
        { id := rid, value := none, exception := some e, processTime := 0, attachment := [(b!"M_pt", pt)],
          rc := { proxy := env.proxy } }) = .ok n := by
      rcases hsome with h | h
      · rw [Convert.exceptionRC, h]; exact ⟨_, rfl⟩
      · obtain ⟨s, hs⟩ := Option.isSome_iff_exists.mp h
        rw [hs, Convert.exceptionRC]
        cases env.proxy <;> exact ⟨_, rfl⟩
    obtain ⟨n, hn⟩ := hnum
    rw [hn]
    simp only [Convert.responseBody]
    refine ⟨_, rfl, rfl, ?_⟩
    have hz : ∀ g h, (Convert.encodeMessageGzip env.lib ⟨h, [], [], 0⟩ g).body = [] := by
      intro g h
      rw [Convert.encodeMessageGzip, if_neg (by
        rintro ⟨h1, h2, -⟩
        simp only [List.length_nil] at h2; omega)]
    exact hz _ _
  obtain ⟨m0, c1, c2, c3⟩ := hconv
  have hms : metaSize m0.metadata ≤ maxLen := by
    rw [c2, metaSize_formula]
    have hk : ((AMap.store [(b!"M_pt", pt)] b!"M_e" (env.lib.jsonEnc e)).map fun p => p.1.length + p.2.length + 2).sum
        ≤ pt.length + (env.lib.jsonEnc e).length + 11 := by
      rw [show AMap.store [(b!"M_pt", pt)] b!"M_e" (env.lib.jsonEnc e) = [(b!"M_pt", pt), (b!"M_e", env.lib.jsonEnc e)] from rfl]
      have a : b!"M_pt".length = 4 := rfl
      have b : b!"M_e".length = 3 := rfl
      simp only [List.map, List.sum_cons, List.sum_nil, a, b]
      omega
    have hs : ∀ l : List (Bytes × Bytes), ((l.filter fun p => Motan2.keepPair p.1 p.2).map
        fun p => p.1.length + p.2.length + 2).sum ≤ (l.map fun p => p.1.length + p.2.length + 2).sum := by
      intro l
      induction l with
      | nil => simp
      | cons x l ih =>
        rw [List.filter_cons]
        split <;> simp only [List.map_cons, List.sum_cons] <;> omega
    exact Nat.le_trans (Nat.sub_le_sub_right (Nat.le_trans (hs _) hk) 1) (by omega)
  obtain ⟨m, got, r, body, d1, d2, -, -, d3, d4, d5, -, d6, -⟩ := v2_result_delivered env hl call pt ip msg hb req
    (exceptionRes rid e) m0 hreq hcall (.inr (by intro m h; cases h))
    (by simp [exceptionRes, AMap.NodupKeys, AMap.keys])
    (by intro e' he'; simp only [exceptionRes, Option.some.injEq] at he'; rw [← he']; exact hj) c1 ser' hser buf hr maxLen bufCap
    bodyCap follow hms (by rw [c3]; simp) h32
  refine ⟨m, got, r, d1, d2, d3, d4, d5, ?_⟩
  rw [d6, if_pos (.inl rfl)]; rfl

/-! ## C39, motan1 -/

namespace Spec

/-- The attachment `k`, or if it is empty the attachment `k'`. -/
def orElse (m : Meta) (k k' : Bytes) : Bytes :=
  if (m.load k).getD [] = [] then (m.load k').getD [] else (m.load k).getD []

end Spec

theorem load_fill (m : Meta) (dst src k : Bytes) :
    ((fillAttachment m dst src).load k).getD [] = if k = dst then Spec.orElse m dst src else (m.load k).getD [] := by
  rw [fillAttachment, Spec.orElse]
  by_cases h : loadOrEmpty m dst = []
  · rw [if_pos h, AMap.load_store]
    have h' : (m.load dst).getD [] = [] := h
    by_cases hk : k = dst
    · rw [if_pos hk.symm, if_pos hk, if_pos h']; rfl
    · rw [if_neg (Ne.symm hk), if_neg hk]
  · rw [if_neg h]
    have h' : ¬ (m.load dst).getD [] = [] := h
    by_cases hk : k = dst
    · rw [if_pos hk, if_neg h', hk]
    · rw [if_neg hk]

/-- The request that a motan1 client sends as a heartbeat. -/
def Spec.V1Heartbeat (st : Motan1.ReqStream) : Prop :=
  st.service = b!"com.weibo.api.motan.rpc.heartbeat" ∧ st.method = b!"heartbeat"

instance (st : Motan1.ReqStream) : Decidable (Spec.V1Heartbeat st) := inferInstanceAs (Decidable (_ ∧ _))

theorem v1Heartbeat_iff (st : Motan1.ReqStream) : Motan1.isHeartbeatReq st.service st.method = true ↔ Spec.V1Heartbeat st := by
  simp [Motan1.isHeartbeatReq, Spec.V1Heartbeat]

theorem not_v1Heartbeat {st : Motan1.ReqStream} (h : ¬ Spec.V1Heartbeat st) :
    Motan1.isHeartbeatReq st.service st.method = false :=
  Bool.eq_false_iff.2 fun h' => h ((v1Heartbeat_iff st).1 h')

/-- The request the handler gets for a decoded motan1 message, and what becomes of the answer. -/
theorem processV1_call {env : Env} {ip : Bytes} {msg : Motan1.Msg} {st : Motan1.ReqStream}
    (hd : Motan1.decodeRequest env.lib msg = .ok st) (hh : ¬ Spec.V1Heartbeat st) :
    ∃ req : Request, (req.id = msg.rid ∧ req.service = st.service ∧ req.method = st.method ∧ req.desc = st.desc ∧
      ∀ k, (req.attachment.load k).getD [] =
        if k = b!"host" then ip
        else if k = b!"M_g" then Spec.orElse st.attachment b!"M_g" b!"group"
        else if k = b!"M_v" then Spec.orElse st.attachment b!"M_v" b!"version"
        else if k = b!"M_s" then Spec.orElse st.attachment b!"M_s" b!"application"
        else (st.attachment.load k).getD []) ∧
      ∀ call, processV1 env call ip msg =
        match call req with
        | .panicked => .nothing
        | .returned none => .nothing
        | .returned (some res) =>
          match Motan1.encodeResponse res.v1 res.r.id (res.r.exception.map (·.errMsg)) with
          | .error _ => .nothing
          | .ok b => if b = [] then .nothing else .sent (.v1 b) := by
  refine ⟨{ setV1Attachments (requestV1 msg st) with
    attachment := (setV1Attachments (requestV1 msg st)).attachment.store HostKey ip }, ⟨rfl, rfl, rfl, rfl, ?_⟩, ?_⟩
  · intro k
    simp only [setV1Attachments, requestV1]
    rw [AMap.load_store]
    by_cases h1 : k = b!"host"
    · rw [if_pos (show HostKey = k from h1.symm), if_pos h1]; rfl
    · rw [if_neg (show ¬ HostKey = k from Ne.symm h1), if_neg h1]
      rw [load_fill, load_fill, load_fill]
      have e1 : Spec.orElse (fillAttachment (fillAttachment st.attachment Convert.MGroup V1Group) MVersion V1Version)
          MSource V1Application = Spec.orElse st.attachment b!"M_s" b!"application" := by
        simp only [Spec.orElse, load_fill]
        rfl
      have e2 : Spec.orElse (fillAttachment st.attachment Convert.MGroup V1Group) MVersion V1Version =
          Spec.orElse st.attachment b!"M_v" b!"version" := by
        simp only [Spec.orElse, load_fill]
        rfl
      rw [e1, e2]
      by_cases hg : k = b!"M_g"
      · subst hg; rfl
      · by_cases hv : k = b!"M_v"
        · subst hv; rfl
        · by_cases hs : k = b!"M_s"
          · subst hs; rfl
          · rw [if_neg hg, if_neg hv, if_neg hs]
            rw [if_neg (show k ≠ MSource from hs), if_neg (show k ≠ MVersion from hv), if_neg (show k ≠ Convert.MGroup from hg)]
  · intro call
    rw [processV1, hd]
    have hh' : Motan1.isHeartbeatReq (setV1Attachments (requestV1 msg st)).service
        (setV1Attachments (requestV1 msg st)).method = false := not_v1Heartbeat hh
    simp only [hh', Bool.false_eq_true, if_false]
    cases call { setV1Attachments (requestV1 msg st) with
      attachment := (setV1Attachments (requestV1 msg st)).attachment.store HostKey ip } with
    | panicked => rfl
    | returned o => cases o <;> rfl

/-- **C39.** A motan1 request that can be read is passed to the handler under its own id, service and method. The
answer of a motan1 backend is passed on byte for byte under the id of the response; an exception becomes an
exception frame with the id of the response. -/
theorem v1_request_answered (env : Env) (ip : Bytes) (msg : Motan1.Msg) (st : Motan1.ReqStream)
    (hd : Motan1.decodeRequest env.lib msg = .ok st) (hh : ¬ Spec.V1Heartbeat st) :
    ∃ req : Request, (req.id = msg.rid ∧ req.service = st.service ∧ req.method = st.method ∧ req.desc = st.desc) ∧
      ∀ (call : Request → Outcome) (res : Res), call req = .returned (some res) →
        (∀ (max : Nat) (s r rest : Bytes) (m : Motan1.Msg), res.v1 = some m → Motan1.readV1Message max s = (.ok m, r) →
          ∃ b m', processV1 env call ip msg = .sent (.v1 b) ∧ Motan1.readV1Message max (b ++ rest) = (.ok m', rest) ∧
            m'.rid = res.r.id ∧ m'.flag = m.flag ∧ m'.innerVersion = m.innerVersion ∧
            m'.origin.drop 32 = m.origin.drop 32) ∧
        (∀ (e : Exn) (max : Nat) (rest : Bytes), res.v1 = none → res.r.exception = some e →
          (∀ b, processV1 env call ip msg = .sent (.v1 b) → b.length < 2 ^ 32 ∧ b.length ≤ max + 16) →
          ∃ b m' r, processV1 env call ip msg = .sent (.v1 b) ∧ Motan1.readV1Message max (b ++ rest) = (.ok m', rest) ∧
            m'.rid = res.r.id ∧ Motan1.decodeResponse env.lib m' = .ok r ∧ r.id = res.r.id ∧
            r.exception = some (.service, b!"v1: has exception, class:" ++ exceptionClass)) := by
  obtain ⟨req, ⟨h1, h2, h3, h4, -⟩, hp⟩ := processV1_call (ip := ip) hd hh
  refine ⟨req, ⟨h1, h2, h3, h4⟩, ?_⟩
  intro call res hcall
  have hp := hp call
  rw [hcall] at hp
  simp only at hp
  refine ⟨?_, ?_⟩
  · intro max s r rest m hm hrd
    obtain ⟨pre, r1, body, hpre, hr1, hb, hmax, ho, hl, -⟩ := (frame_accepted_iff max s r m).mp hrd
    have hw : Motan1.writeV1Rid m.origin res.r.id =
        Spec.Motan1.frame pre res.r.id.toNat res.r.id.toNat m.innerVersion m.flag body := by
      rw [ho, Spec.Motan1.frame]
      exact frame_of_base pre (beBytes 8 r1) (beBytes 8 m.rid.toNat) body _ _ res.r.id hpre (by simp) (by simp)
    have hne : Motan1.writeV1Rid m.origin res.r.id ≠ [] := by
      rw [hw]
      intro h
      have := Motan1.frame_length pre res.r.id.toNat res.r.id.toNat m.innerVersion m.flag body hpre
      rw [h, List.length_nil] at this
      omega
    rw [hm, Motan1.encodeResponse] at hp
    simp only [if_neg hne] at hp
    have hread := Motan1.readV1Message_frame max pre res.r.id.toNat res.r.id.toNat m.innerVersion m.flag body rest hpre
      res.r.id.toNat_lt hb hmax
    rw [← hw] at hread
    refine ⟨_, _, hp, hread, ?_, rfl, rfl, ?_⟩
    · simp
    · have e : ∀ a b, (Spec.Motan1.frame pre a b m.innerVersion m.flag body).drop 32 = body := by
        intro a b
        rw [Spec.Motan1.frame]
        exact List.drop_left' (by simp [hpre])
      show (Motan1.writeV1Rid m.origin res.r.id).drop 32 = _
      rw [hw, e, ho, e]
  · intro e max rest hm he hlen
    have hne : b!"build v1 exception res. org err:" ++ e.errMsg ≠ [] := by simp
    have hbne : Motan1.buildExceptionResponse res.r.id (b!"build v1 exception res. org err:" ++ e.errMsg) ≠ [] := by
      intro h
      have hf := buildExceptionResponse_frame res.r.id _ hne (by rw [h]; decide)
      rw [h] at hf
      have := congrArg List.length hf
      rw [Motan1.frame_length _ _ _ _ _ _ rfl, List.length_nil] at this
      omega
    rw [hm, he, Option.map_some, Motan1.encodeResponse] at hp
    simp only [if_neg hbne] at hp
    obtain ⟨hl1, hl2⟩ := hlen _ hp
    obtain ⟨m', r, body, w1, w2, -, w3, w4, -, w5⟩ := exception_response_wellformed env.lib res.r.id _ hne max rest hl1 hl2
    exact ⟨_, m', r, hp, w1, w2, w3, w4, w5⟩

/-- **C39.** A motan1 heartbeat is answered by a heartbeat with its id (or the connection is closed). -/
theorem v1_heartbeat_answered (env : Env) (call : Request → Outcome) (ip : Bytes) (msg : Motan1.Msg) (st : Motan1.ReqStream)
    (hd : Motan1.decodeRequest env.lib msg = .ok st) (hh : Spec.V1Heartbeat st) :
    (env.heartbeatEnabled = false → processV1 env call ip msg = .closed) ∧
    (env.heartbeatEnabled = true → ∃ b, processV1 env call ip msg = .sent (.v1 b) ∧
      ∀ max rest, 81 ≤ max → ∃ m r, Motan1.readV1Message max (b ++ rest) = (.ok m, rest) ∧ m.rid = msg.rid ∧
        Motan1.decodeResponse env.lib m = .ok r ∧ r.id = msg.rid ∧ r.heartbeat = true ∧ r.exception = none) := by
  have hh' : Motan1.isHeartbeatReq (setV1Attachments (requestV1 msg st)).service
      (setV1Attachments (requestV1 msg st)).method = true := (v1Heartbeat_iff st).2 hh
  rw [processV1, hd]
  simp only [hh', if_true]
  constructor
  · intro h; rw [if_pos h]
  · intro h
    rw [if_neg (by simp [h])]
    refine ⟨_, rfl, ?_⟩
    intro max rest hmax
    obtain ⟨m, r, h1, h2, -, h3, h4, h5, h6⟩ := heartbeat_response_wellformed env.lib msg.rid max hmax rest
    exact ⟨m, r, h1, h2, h3, h4, h5, h6⟩

/-- C39, an exception: a motan1 request that cannot be decoded gets no answer at all (although an answer is
prepared for it in the code), and the connection stays open. -/
theorem v1_undecodable_unanswered_violated (env : Env) (call : Request → Outcome) (ip : Bytes) (msg : Motan1.Msg)
    (e : Motan1.Err) (hd : Motan1.decodeRequest env.lib msg = .error e) : processV1 env call ip msg = .nothing := by
  rw [processV1, hd]

/-- C39, an exception: a motan1 request whose handler returns a normal response that was not received in a motan1
message (a local provider, or a motan2 backend) gets no answer. -/
theorem v1_plain_response_unanswered_violated (env : Env) (ip : Bytes) (msg : Motan1.Msg) (st : Motan1.ReqStream)
    (hd : Motan1.decodeRequest env.lib msg = .ok st) (hh : ¬ Spec.V1Heartbeat st) :
    ∃ req : Request, req.id = msg.rid ∧ ∀ (call : Request → Outcome) (res : Res), call req = .returned (some res) →
      res.v1 = none → res.r.exception = none → processV1 env call ip msg = .nothing := by
  obtain ⟨req, ⟨h1, -⟩, hp⟩ := processV1_call (ip := ip) hd hh
  refine ⟨req, h1, ?_⟩
  intro call res hcall h2 h3
  rw [hp call, hcall]
  simp only [h2, h3, Option.map_none, Motan1.encodeResponse]

/-- A request with an unknown object stream. -/
def undecodableFrame : Motan1.Msg := ⟨List.replicate 32 0 ++ [1, 2, 3, 4], 1, 0, 7, 4⟩

example : (Motan1.decodeRequest noLib undecodableFrame).toOption.isNone = true := by decide +kernel

example : (Motan1.decodeRequest noLib (v1SampleMsg v1SampleArgs)).toOption.map (fun st =>
    decide (Spec.V1Heartbeat st)) = some false := by decide +kernel

/-! ## C39, a connection -/

theorem perm_middle {α : Type} {l r : List α} {x : α} {p w lo rf full : List α}
    (hp : p = l ++ x :: r) (h : (w ++ p ++ rf ++ lo).Perm full) :
    (w ++ [x] ++ (l ++ r) ++ rf ++ lo).Perm full ∧ (w ++ (l ++ r) ++ rf ++ (lo ++ [x])).Perm full := by
  subst hp
  constructor
  · refine List.Perm.trans ?_ h
    refine (((?_ : (w ++ [x] ++ (l ++ r)).Perm (w ++ (l ++ x :: r))).append_right rf).append_right lo)
    rw [List.append_assoc]
    exact (List.perm_middle (a := x) (l₁ := l) (l₂ := r)).symm.append_left w
  · refine List.Perm.trans ?_ h
    have e : (w ++ (l ++ r) ++ rf ++ (lo ++ [x])).Perm (x :: (w ++ (l ++ r) ++ rf ++ lo)) := by
      rw [← List.append_assoc]; exact List.perm_append_singleton _ _
    refine e.trans ?_
    have e2 : x :: (w ++ (l ++ r) ++ rf ++ lo) = (x :: (w ++ (l ++ r))) ++ rf ++ lo := rfl
    rw [e2]
    refine ((?_ : (x :: (w ++ (l ++ r))).Perm (w ++ (l ++ x :: r))).append_right rf).append_right lo
    rw [← List.append_assoc, ← List.append_assoc]
    exact List.perm_middle.symm

/-- The numbers of all messages read: each is answered, in work, refused or unanswered, and only one of these. -/
theorem conn_inv {Ok : (Request → Outcome) → Prop} {env : Env} {maxLen : Nat} {ip s : Bytes} {c : Conn}
    (h : Reach Ok env maxLen ip s c) :
    (c.written.map (·.1) ++ c.pending.map (·.1) ++ c.refused ++ c.lost).Perm (List.range c.seen.length) ∧
    (∀ n m, (n, m) ∈ c.pending → c.seen[n]? = some m) ∧
    (∀ n a, (n, a) ∈ c.written → ∃ m call pt, Ok call ∧ c.seen[n]? = some m ∧ process env call pt ip m = .sent a) ∧
    (∀ n ∈ c.refused, ∃ m, c.seen[n]? = some (.v2 m)) ∧
    (c.isOpen = true → ∀ n ∈ c.lost, ∃ m call pt, Ok call ∧ c.seen[n]? = some m ∧ process env call pt ip m = .nothing) := by
  induction h with
  | start => refine ⟨by simp, ?_, ?_, ?_, ?_⟩ <;> simp
  | @step c c' _ hs ih =>
    obtain ⟨i1, i2, i3, i4, i5⟩ := ih
    have grow : ∀ {n : Nat} {x y : Incoming}, c.seen[n]? = some x → (c.seen ++ [y])[n]? = some x := by
      intro n x y hx
      have := List.getElem?_eq_some_iff.mp hx
      rw [List.getElem?_append_left this.1]; exact hx
    cases hs with
    | read h1 h2 =>
      rename_i m rest
      refine ⟨?_, ?_, ?_, ?_, ?_⟩
      · simp only [List.map_append, List.map_cons, List.map_nil, List.length_append, List.length_cons, List.length_nil,
          List.range_succ]
        have e : (c.written.map (·.1) ++ (c.pending.map (·.1) ++ [c.seen.length]) ++ c.refused ++ c.lost).Perm
            ((c.written.map (·.1) ++ c.pending.map (·.1) ++ c.refused ++ c.lost) ++ [c.seen.length]) := by
          have := List.perm_middle (a := c.seen.length) (l₁ := c.written.map (·.1) ++ c.pending.map (·.1))
            (l₂ := c.refused ++ c.lost)
          refine List.Perm.trans ?_ (List.perm_append_singleton _ _).symm
          refine List.Perm.trans ?_ (this.trans ?_)
          · simp
          · simp
        exact e.trans (i1.append_right _)
      · intro n x hx
        rcases List.mem_append.mp hx with hx | hx
        · exact grow (i2 n x hx)
        · simp only [List.mem_singleton, Prod.mk.injEq] at hx
          rw [hx.1, hx.2]; simp
      · intro n a ha
        obtain ⟨x, call, pt, g0, g1, g2⟩ := i3 n a ha
        exact ⟨x, call, pt, g0, grow g1, g2⟩
      · intro n hn
        obtain ⟨x, g⟩ := i4 n hn
        exact ⟨x, grow g⟩
      · intro ho n hn
        obtain ⟨x, call, pt, g0, g1, g2⟩ := i5 ho n hn
        exact ⟨x, call, pt, g0, grow g1, g2⟩
    | refused h1 h2 =>
      rename_i m rest
      refine ⟨?_, ?_, ?_, ?_, ?_⟩
      · simp only [List.length_append, List.length_cons, List.length_nil, List.range_succ]
        have e : (c.written.map (·.1) ++ c.pending.map (·.1) ++ (c.refused ++ [c.seen.length]) ++ c.lost).Perm
            ((c.written.map (·.1) ++ c.pending.map (·.1) ++ c.refused ++ c.lost) ++ [c.seen.length]) := by
          have := List.perm_middle (a := c.seen.length) (l₁ := c.written.map (·.1) ++ c.pending.map (·.1) ++ c.refused)
            (l₂ := c.lost)
          refine List.Perm.trans ?_ (List.perm_append_singleton _ _).symm
          refine List.Perm.trans ?_ (this.trans ?_)
          · simp
          · simp
        exact e.trans (i1.append_right _)
      · intro n x hx
        exact grow (i2 n x hx)
      · intro n a ha
        obtain ⟨x, call, pt, g0, g1, g2⟩ := i3 n a ha
        exact ⟨x, call, pt, g0, grow g1, g2⟩
      · intro n hn
        rcases List.mem_append.mp hn with hn | hn
        · obtain ⟨x, g⟩ := i4 n hn
          exact ⟨x, grow g⟩
        · simp only [List.mem_singleton] at hn
          exact ⟨m, by rw [hn]; simp⟩
      · intro ho n hn
        obtain ⟨x, call, pt, g0, g1, g2⟩ := i5 ho n hn
        exact ⟨x, call, pt, g0, grow g1, g2⟩
    | stop h1 h2 => exact ⟨i1, i2, i3, i4, fun h => by cases h⟩
    | answer h1 h0 h2 h3 =>
      rename_i l r n m call pt a
      have hm : ∀ x, x ∈ l ++ r → x ∈ c.pending := by
        intro x hx; rw [h1]; rcases List.mem_append.mp hx with hx | hx <;> simp [hx]
      refine ⟨?_, fun k x hx => i2 k x (hm _ hx), ?_, i4, i5⟩
      · have := (perm_middle (by rw [h1, List.map_append, List.map_cons]) i1).1
        simpa using this
      · intro k b hb
        rcases List.mem_append.mp hb with hb | hb
        · exact i3 k b hb
        · simp only [List.mem_singleton, Prod.mk.injEq] at hb
          rw [hb.1, hb.2]
          exact ⟨m, call, pt, h0, i2 n m (by rw [h1]; simp), h3⟩
    | writeFails h1 h0 h2 =>
      rename_i l r n m call pt a
      have hm : ∀ x, x ∈ l ++ r → x ∈ c.pending := by
        intro x hx; rw [h1]; rcases List.mem_append.mp hx with hx | hx <;> simp [hx]
      refine ⟨?_, fun k x hx => i2 k x (hm _ hx), i3, i4, fun h => by cases h⟩
      have := (perm_middle (by rw [h1, List.map_append, List.map_cons]) i1).2
      simpa using this
    | closes h1 h0 h2 =>
      rename_i l r n m call pt
      have hm : ∀ x, x ∈ l ++ r → x ∈ c.pending := by
        intro x hx; rw [h1]; rcases List.mem_append.mp hx with hx | hx <;> simp [hx]
      refine ⟨?_, fun k x hx => i2 k x (hm _ hx), i3, i4, fun h => by cases h⟩
      have := (perm_middle (by rw [h1, List.map_append, List.map_cons]) i1).2
      simpa using this
    | silent h1 h0 h2 =>
      rename_i l r n m call pt
      have hm : ∀ x, x ∈ l ++ r → x ∈ c.pending := by
        intro x hx; rw [h1]; rcases List.mem_append.mp hx with hx | hx <;> simp [hx]
      refine ⟨?_, fun k x hx => i2 k x (hm _ hx), i3, i4, ?_⟩
      · have := (perm_middle (by rw [h1, List.map_append, List.map_cons]) i1).2
        simpa using this
      · intro ho k hk
        rcases List.mem_append.mp hk with hk | hk
        · exact i5 ho k hk
        · simp only [List.mem_singleton] at hk
          rw [hk]
          exact ⟨m, call, pt, h0, i2 n m (by rw [h1]; simp), h2⟩

/-- **C39.** On every connection, however reading and processing interleave: no message is answered twice, and
every answer is the answer to a message that was read on this connection; a motan2 answer carries the id of the
motan2 message it answers. -/
theorem answered_at_most_once (Ok : (Request → Outcome) → Prop) (env : Env) (maxLen : Nat) (ip s : Bytes) (c : Conn)
    (h : Reach Ok env maxLen ip s c) :
    (c.written.map (·.1)).Nodup ∧
    ∀ n a, (n, a) ∈ c.written → ∃ m, c.seen[n]? = some m ∧ (∃ call pt, process env call pt ip m = .sent a) ∧
      (∀ q, m = .v2 q → ∃ r, a = .v2 r ∧ r.header.requestID = q.header.requestID) := by
  obtain ⟨i1, -, i3, -, -⟩ := conn_inv h
  constructor
  · have := i1.nodup_iff.mpr List.nodup_range
    rw [List.append_assoc, List.append_assoc] at this
    exact (List.nodup_append.mp this).1
  · intro n a ha
    obtain ⟨m, call, pt, -, g1, g2⟩ := i3 n a ha
    refine ⟨m, g1, ⟨call, pt, g2⟩, ?_⟩
    rintro q rfl
    simp only [process] at g2
    by_cases hb : q.header.isHeartbeat = true
    · rw [processV2] at g2
      simp only [isHeartbeat_received, id_received, hb, if_true] at g2
      split at g2
      · cases g2
      · simp only [Out.sent.injEq] at g2
        exact ⟨_, g2.symm, rfl⟩
    · rw [processV2_call (by simpa using hb)] at g2
      cases hc : convertToRequest env.lib (env.sers q.header.getSerialize) (received env ip q) with
      | error e =>
        rw [hc] at g2
        simp only [Out.sent.injEq] at g2
        exact ⟨_, g2.symm, rfl⟩
      | ok req =>
        rw [hc] at g2
        simp only at g2
        cases hcall : call req with
        | panicked => rw [hcall] at g2; cases g2
        | returned res =>
          rw [hcall] at g2
          simp only [Out.sent.injEq] at g2
          exact ⟨_, g2.symm, rfl⟩

/-- **C39.** As long as the connection is open and the handlers do not panic, no motan2 message goes missing: each
one read is answered exactly once, or still being processed, or was refused because the pool was exhausted. -/
theorem no_request_lost (env : Env) (maxLen : Nat) (ip s : Bytes) (c : Conn)
    (h : Reach Spec.Safe env maxLen ip s c) (ho : c.isOpen = true) (n : Nat) (q : Message) (hq : c.seen[n]? = some (.v2 q)) :
    ((c.written.map (·.1)).count n + (c.pending.map (·.1)).count n + c.refused.count n) = 1 := by
  obtain ⟨i1, i2, i3, i4, i5⟩ := conn_inv h
  have hn : n < c.seen.length := (List.getElem?_eq_some_iff.mp hq).1
  have h1 : (List.range c.seen.length).count n = 1 := by
    rw [List.nodup_range.count, if_pos (List.mem_range.mpr hn)]
  rw [← i1.count_eq n] at h1
  simp only [List.count_append] at h1
  have h2 : c.lost.count n = 0 := by
    rw [List.count_eq_zero]
    intro hl
    obtain ⟨m, call, pt, g0, g1, g2⟩ := i5 ho n hl
    rw [hq] at g1
    simp only [Option.some.injEq] at g1
    subst g1
    simp only [process] at g2
    by_cases hb : q.header.isHeartbeat = true
    · rw [processV2] at g2
      simp only [isHeartbeat_received, hb, if_true] at g2
      split at g2 <;> cases g2
    · obtain ⟨m, hm, -⟩ := v2_request_answered env call g0 pt ip q (by simpa using hb)
      rw [hm] at g2; cases g2
  omega

/-! ## C40 -/

namespace Spec

/-- Providers are added to and removed from a handler. -/
inductive POp where
  | add (p : Provider)
  | rm (p : Provider)

def POp.provider : POp → Provider
  | .add p => p
  | .rm p => p

/-- A handler to which these things happened. -/
def runDefault (h : Handler) (ops : List POp) : Handler :=
  ops.foldl (fun h op => match op with | .add p => defaultAdd h p | .rm p => defaultRm h p) h

def runAgent (h : Handler) (ops : List POp) : Handler :=
  ops.foldl (fun h op => match op with | .add p => agentAdd h p | .rm p => agentRm h p) h

/-- `q` serves the service `path`: it was added for it, nothing else was since, and it was not removed since. -/
def Serves (ops : List POp) (path : Bytes) (q : Provider) : Prop :=
  ∃ a b, ops = a ++ .add q :: b ∧ q.path = path ∧ (∀ p, .add p ∈ b → p.path ≠ path) ∧
    ∀ p, .rm p ∈ b → p.ref ≠ q.ref

/-- `q` serves `path` in `group`: it was added for it, and since then no provider for it was added or removed. -/
def ServesIn (ops : List POp) (group path : Bytes) (q : Provider) : Prop :=
  ∃ a b, ops = a ++ .add q :: b ∧ q.group = group ∧ q.path = path ∧
    ∀ op ∈ b, ¬ (op.provider.group = group ∧ op.provider.path = path)

/-- A reference identifies a provider. -/
def Identified (ops : List POp) : Prop := ∀ o ∈ ops, ∀ o' ∈ ops, o.provider.ref = o'.provider.ref → o.provider = o'.provider

/-- `out` is what the call of `q` gives: its response (to whose context the gzip size is added), or the exception
"provider call panic" if it panics or returns nothing. -/
def AnswerOf (q : Provider) (req : Request) (out : Option Res) : Prop :=
  match q.call req with
  | .returned (some res) =>
    ∃ res', out = some res' ∧ res'.v1 = res.v1 ∧ res'.r = { res.r with rc := { res.r.rc with gzipSize := q.gzipSize } }
  | _ => ∃ res', out = some res' ∧ res'.r.id = req.id ∧ res'.r.exception = some ⟨500, b!"provider call panic", 1⟩ ∧
      res'.r.value.isNone = true

/-- `out` is the exception "provider not exist". -/
def NotExist (req : Request) (key : Bytes) (out : Option Res) : Prop :=
  ∃ res, out = some res ∧ res.r.id = req.id ∧ res.r.value.isNone = true ∧
    res.r.exception = some ⟨404, b!"provider not exist serviceKey=" ++ key, 1⟩

end Spec

theorem runDefault_snoc (h : Handler) (ops : List Spec.POp) (op : Spec.POp) :
    Spec.runDefault h (ops ++ [op]) =
      match op with | .add p => defaultAdd (Spec.runDefault h ops) p | .rm p => defaultRm (Spec.runDefault h ops) p := by
  rw [Spec.runDefault, List.foldl_append]; cases op <;> rfl

theorem runAgent_snoc (h : Handler) (ops : List Spec.POp) (op : Spec.POp) :
    Spec.runAgent h (ops ++ [op]) =
      match op with | .add p => agentAdd (Spec.runAgent h ops) p | .rm p => agentRm (Spec.runAgent h ops) p := by
  rw [Spec.runAgent, List.foldl_append]; cases op <;> rfl

/-- Induction from the end of a list. -/
@[elab_as_elim]
theorem snocRec {α : Type} {motive : List α → Prop} (nil : motive [])
    (append_singleton : ∀ (l : List α) (a : α), motive l → motive (l ++ [a])) (l : List α) : motive l := by
  rw [← List.reverse_reverse l]
  induction l.reverse with
  | nil => exact nil
  | cons a l ih => rw [List.reverse_cons]; exact append_singleton _ _ ih

theorem snoc_cases {α : Type} {l a b : List α} {x y : α} (h : l ++ [x] = a ++ y :: b) :
    (b = [] ∧ a = l ∧ y = x) ∨ ∃ b', b = b' ++ [x] ∧ l = a ++ y :: b' := by
  rcases List.eq_nil_or_concat b with hb | ⟨b', z, hb⟩
  · subst hb
    have := List.append_inj' h rfl
    simp only [List.cons.injEq, and_true] at this
    exact .inl ⟨rfl, this.1.symm, this.2.symm⟩
  · subst hb
    have e : l ++ [x] = (a ++ y :: b') ++ [z] := by rw [h]; simp
    have := List.append_inj' e rfl
    simp only [List.cons.injEq, and_true] at this
    exact .inr ⟨b', by rw [this.2, List.concat_eq_append], this.1⟩

theorem serves_add (ops : List Spec.POp) (p : Provider) (path : Bytes) (q : Provider) :
    Spec.Serves (ops ++ [.add p]) path q ↔ (p.path = path ∧ q = p) ∨ (p.path ≠ path ∧ Spec.Serves ops path q) := by
  constructor
  · rintro ⟨a, b, h, h1, h2, h3⟩
    rcases snoc_cases h with ⟨rfl, rfl, h4⟩ | ⟨b', rfl, h4⟩
    · cases h4; exact .inl ⟨h1, rfl⟩
    · refine .inr ⟨h2 p (by simp), a, b', h4, h1, fun x hx => h2 x (by simp [hx]), fun x hx => h3 x (by simp [hx])⟩
  · rintro (⟨h1, rfl⟩ | ⟨h1, a, b, rfl, h2, h3, h4⟩)
    · exact ⟨ops, [], rfl, h1, by simp, by simp⟩
    · refine ⟨a, b ++ [.add p], by simp, h2, ?_, ?_⟩
      · intro x hx
        rcases List.mem_append.mp hx with hx | hx
        · exact h3 x hx
        · simp only [List.mem_singleton, Spec.POp.add.injEq] at hx; rw [hx]; exact h1
      · intro x hx
        rcases List.mem_append.mp hx with hx | hx
        · exact h4 x hx
        · simp at hx

theorem serves_rm (ops : List Spec.POp) (p : Provider) (path : Bytes) (q : Provider) :
    Spec.Serves (ops ++ [.rm p]) path q ↔ p.ref ≠ q.ref ∧ Spec.Serves ops path q := by
  constructor
  · rintro ⟨a, b, h, h1, h2, h3⟩
    rcases snoc_cases h with ⟨rfl, rfl, h4⟩ | ⟨b', rfl, h4⟩
    · cases h4
    · refine ⟨h3 p (by simp), a, b', h4, h1, fun x hx => h2 x (by simp [hx]), fun x hx => h3 x (by simp [hx])⟩
  · rintro ⟨h1, a, b, rfl, h2, h3, h4⟩
    refine ⟨a, b ++ [.rm p], by simp, h2, ?_, ?_⟩
    · intro x hx
      rcases List.mem_append.mp hx with hx | hx
      · exact h3 x hx
      · simp at hx
    · intro x hx
      rcases List.mem_append.mp hx with hx | hx
      · exact h4 x hx
      · simp only [List.mem_singleton, Spec.POp.rm.injEq] at hx; rw [hx]; exact h1

theorem serves_mem {ops : List Spec.POp} {path : Bytes} {q : Provider} (h : Spec.Serves ops path q) :
    .add q ∈ ops ∧ q.path = path := by
  obtain ⟨a, b, rfl, h1, -⟩ := h
  exact ⟨by simp, h1⟩

/-- The table of the default handler holds exactly the serving providers. -/
theorem default_table (h0 : Handler) (he : h0.providers = []) (ops : List Spec.POp) (hi : Spec.Identified ops)
    (path : Bytes) (q : Provider) :
    (Spec.runDefault h0 ops).providers.load path = some q ↔ Spec.Serves ops path q := by
  induction ops using snocRec generalizing path q with
  | nil =>
    rw [show Spec.runDefault h0 [] = h0 from rfl, he]
    constructor
    · intro h; cases h
    · rintro ⟨a, b, h, -⟩; simp at h
  | append_singleton ops op ih =>
    have ih := ih (fun o ho o' ho' => hi o (by simp [ho]) o' (by simp [ho']))
    rw [runDefault_snoc]
    cases op with
    | add p =>
      rw [serves_add]
      simp only [defaultAdd, AMap.load_store]
      by_cases hp : p.path = path
      · rw [if_pos hp]; simp [hp, eq_comm]
      · rw [if_neg hp, ih]; simp [hp]
    | rm p =>
      rw [serves_rm]
      simp only [defaultRm]
      cases hl : (Spec.runDefault h0 ops).providers.load p.path with
      | none =>
        simp only
        rw [ih]
        constructor
        · intro hs
          refine ⟨?_, hs⟩
          intro hr
          have hm := serves_mem hs
          have := hi (.rm p) (by simp) (.add q) (by simp [hm.1]) hr
          simp only [Spec.POp.provider] at this
          rw [this, hm.2, (ih path q).mpr hs] at hl
          cases hl
        · exact fun h => h.2
      | some dp =>
        simp only
        have hdp := (ih p.path dp).mp hl
        have hdm := serves_mem hdp
        by_cases hr : p.ref = dp.ref
        · rw [if_pos hr]
          have hpd := hi (.rm p) (by simp) (.add dp) (by simp [hdm.1]) hr
          simp only [Spec.POp.provider] at hpd
          simp only [AMap.load_erase]
          by_cases hpp : p.path = path
          · rw [if_pos hpp]
            constructor
            · intro h; cases h
            · rintro ⟨h1, h2⟩
              rw [← ih, ← hpp, hl] at h2
              simp only [Option.some.injEq] at h2
              rw [← h2] at h1
              exact absurd hr h1
          · rw [if_neg hpp, ih]
            constructor
            · intro hs
              refine ⟨?_, hs⟩
              intro hq
              have hqm := serves_mem hs
              have := hi (.rm p) (by simp) (.add q) (by simp [hqm.1]) hq
              simp only [Spec.POp.provider] at this
              rw [this] at hpp
              exact hpp hqm.2
            · exact fun h => h.2
        · rw [if_neg hr, ih]
          constructor
          · intro hs
            refine ⟨?_, hs⟩
            intro hq
            have hqm := serves_mem hs
            have := hi (.rm p) (by simp) (.add q) (by simp [hqm.1]) hq
            simp only [Spec.POp.provider] at this
            have hql := (ih path q).mpr hs
            rw [this, hqm.2, hql] at hl
            simp only [Option.some.injEq] at hl
            rw [hl] at hq
            exact hr hq
          · exact fun h => h.2

theorem serviceKey_inj {g g' p p' : Bytes} (h1 : (95 : UInt8) ∉ g) (h2 : (95 : UInt8) ∉ g')
    (h : serviceKey g p = serviceKey g' p') : g = g' ∧ p = p' := by
  simp only [serviceKey] at h
  exact append_sep_inj (c := 95) (by simpa using h) h1 h2

theorem servesIn_snoc (ops : List Spec.POp) (op : Spec.POp) (g s : Bytes) (q : Provider) :
    Spec.ServesIn (ops ++ [op]) g s q ↔ (op = .add q ∧ q.group = g ∧ q.path = s) ∨
      (¬ (op.provider.group = g ∧ op.provider.path = s) ∧ Spec.ServesIn ops g s q) := by
  constructor
  · rintro ⟨a, b, h, h1, h2, h3⟩
    rcases snoc_cases h with ⟨rfl, rfl, h4⟩ | ⟨b', rfl, h4⟩
    · exact .inl ⟨h4.symm, h1, h2⟩
    · exact .inr ⟨h3 op (by simp), a, b', h4, h1, h2, fun x hx => h3 x (by simp [hx])⟩
  · rintro (⟨rfl, h1, h2⟩ | ⟨h1, a, b, rfl, h2, h3, h4⟩)
    · exact ⟨ops, [], rfl, h1, h2, by simp⟩
    · refine ⟨a, b ++ [op], by simp, h2, h3, ?_⟩
      intro x hx
      rcases List.mem_append.mp hx with hx | hx
      · exact h4 x hx
      · simp only [List.mem_singleton] at hx; rw [hx]; exact h1

/-- The table of the agent's handler holds exactly the serving providers, if no group contains an underscore. -/
theorem agent_table (h0 : Handler) (he : h0.providers = []) (ops : List Spec.POp)
    (hu : ∀ o ∈ ops, (95 : UInt8) ∉ o.provider.group) (g s : Bytes) (hg : (95 : UInt8) ∉ g) (q : Provider) :
    (Spec.runAgent h0 ops).providers.load (serviceKey g s) = some q ↔ Spec.ServesIn ops g s q := by
  induction ops using snocRec generalizing q with
  | nil =>
    rw [show Spec.runAgent h0 [] = h0 from rfl, he]
    constructor
    · intro h; cases h
    · rintro ⟨a, b, h, -⟩; simp at h
  | append_singleton ops op ih =>
    have ih := ih (fun o ho => hu o (by simp [ho]))
    have hop := hu op (by simp)
    have key : ∀ p : Provider, (95 : UInt8) ∉ p.group → (serviceKey p.group p.path = serviceKey g s ↔ p.group = g ∧ p.path = s) := by
      intro p hp
      constructor
      · exact serviceKey_inj hp hg
      · rintro ⟨rfl, rfl⟩; rfl
    rw [runAgent_snoc, servesIn_snoc]
    cases op with
    | add p =>
      simp only [Spec.POp.provider] at hop ⊢
      simp only [agentAdd, AMap.load_store, key p hop]
      by_cases hp : p.group = g ∧ p.path = s
      · rw [if_pos hp]
        simp only [hp, and_self, not_true_eq_false, false_and, or_false, Option.some.injEq, Spec.POp.add.injEq]
        constructor
        · rintro rfl; exact ⟨rfl, hp⟩
        · exact fun h => h.1
      · rw [if_neg hp, ih]
        constructor
        · intro h; exact .inr ⟨hp, h⟩
        · rintro (⟨h1, h2⟩ | h)
          · cases h1; exact absurd h2 hp
          · exact h.2
    | rm p =>
      simp only [Spec.POp.provider] at hop ⊢
      simp only [agentRm, AMap.load_erase, key p hop]
      by_cases hp : p.group = g ∧ p.path = s
      · rw [if_pos hp]; simp [hp]
      · rw [if_neg hp, ih]; simp [hp]

theorem callKey_plain (h : Handler) (key : Bytes) (req : Request) (hf : (req.attachment.load b!"M_fws").getD [] = []) :
    (∀ q, h.providers.load key = some q → Spec.AnswerOf q req (callKey h key req)) ∧
    (h.providers.load key = none → Spec.NotExist req key (callKey h key req)) := by
  have hf' : ¬ (loadOrEmpty req.attachment MFrameworkService ≠ []) := fun h => h hf
  constructor
  · intro q hq
    rw [callKey, if_neg hf', hq, Spec.AnswerOf]
    simp only [providerCall]
    cases hc : q.call req with
    | panicked => exact ⟨_, rfl, rfl, rfl, rfl⟩
    | returned o =>
      cases o with
      | none => exact ⟨_, rfl, rfl, rfl, rfl⟩
      | some res => exact ⟨_, rfl, rfl, rfl⟩
  · intro hq
    rw [callKey, if_neg hf', hq]
    exact ⟨_, rfl, rfl, rfl, rfl⟩

theorem load_none_of {m : AMap Bytes Provider} {k : Bytes} (h : ∀ q, m.load k ≠ some q) : m.load k = none := by
  cases e : m.load k with
  | none => rfl
  | some q => exact absurd e (h q)

/-- **C40.** For every history of additions and removals, a request is answered by the provider that serves its
service, and by the exception "provider not exist" if there is none. -/
theorem default_routing (h0 : Handler) (he : h0.providers = []) (ops : List Spec.POp) (hi : Spec.Identified ops)
    (req : Request) (hf : (req.attachment.load b!"M_fws").getD [] = []) :
    (∀ q, Spec.Serves ops req.service q → Spec.AnswerOf q req (defaultCall (Spec.runDefault h0 ops) req)) ∧
    ((∀ q, ¬ Spec.Serves ops req.service q) → Spec.NotExist req req.service (defaultCall (Spec.runDefault h0 ops) req)) := by
  constructor
  · intro q hq
    exact (callKey_plain _ _ req hf).1 q ((default_table h0 he ops hi _ q).mpr hq)
  · intro hn
    exact (callKey_plain _ _ req hf).2 (load_none_of fun q h => hn q ((default_table h0 he ops hi _ q).mp h))

/-- **C40.** The same for the server side of the agent, by group and service, if group names contain no
underscore. -/
theorem agent_routing (h0 : Handler) (he : h0.providers = []) (ops : List Spec.POp)
    (hu : ∀ o ∈ ops, (95 : UInt8) ∉ o.provider.group) (req : Request)
    (hf : (req.attachment.load b!"M_fws").getD [] = []) (group : Bytes)
    (hgr : group = Spec.orElse req.attachment b!"M_g" b!"group") (hg : (95 : UInt8) ∉ group) :
    (∀ q, Spec.ServesIn ops group req.service q → Spec.AnswerOf q req (agentCall (Spec.runAgent h0 ops) req)) ∧
    ((∀ q, ¬ Spec.ServesIn ops group req.service q) →
      Spec.NotExist req (group ++ b!"_" ++ req.service) (agentCall (Spec.runAgent h0 ops) req)) := by
  have hreq : requestGroup req = group := hgr.symm
  rw [agentCall, hreq]
  constructor
  · intro q hq
    exact (callKey_plain _ _ req hf).1 q ((agent_table h0 he ops hu _ _ hg q).mpr hq)
  · intro hn
    exact (callKey_plain _ _ req hf).2 (load_none_of fun q h => hn q ((agent_table h0 he ops hu _ _ hg q).mp h))

/-- **C40.** Removing the serving provider stops exactly its service; removing another one changes nothing. -/
theorem removal_exact (ops : List Spec.POp) (p : Provider) (hi : Spec.Identified (ops ++ [.rm p])) (path : Bytes) (q : Provider) :
    (Spec.Serves ops p.path p → ∀ r, ¬ Spec.Serves (ops ++ [.rm p]) p.path r) ∧
    (path ≠ p.path → (Spec.Serves (ops ++ [.rm p]) path q ↔ Spec.Serves ops path q)) ∧
    (¬ Spec.Serves ops p.path p → (Spec.Serves (ops ++ [.rm p]) path q ↔ Spec.Serves ops path q)) := by
  have hid : ∀ r, Spec.Serves ops path r → p.ref = r.ref → p = r := by
    intro r hr h
    have := hi (.rm p) (by simp) (.add r) (by simp [(serves_mem hr).1]) h
    exact this
  refine ⟨?_, ?_, ?_⟩
  · intro hs r
    rw [serves_rm]
    rintro ⟨h1, h2⟩
    obtain ⟨h0, he⟩ : ∃ h0 : Handler, h0.providers = [] := ⟨⟨[], []⟩, rfl⟩
    have hi' : Spec.Identified ops := fun o ho o' ho' => hi o (by simp [ho]) o' (by simp [ho'])
    have a := (default_table h0 he ops hi' _ _).mpr hs
    have b := (default_table h0 he ops hi' _ _).mpr h2
    rw [a] at b
    simp only [Option.some.injEq] at b
    exact h1 (by rw [b])
  · intro hne
    rw [serves_rm]
    constructor
    · exact fun h => h.2
    · intro h
      refine ⟨?_, h⟩
      intro hr
      have := hid q h hr
      rw [← this] at h
      exact hne (serves_mem h).2.symm
  · intro hns
    rw [serves_rm]
    constructor
    · exact fun h => h.2
    · intro h
      refine ⟨?_, h⟩
      intro hr
      have hq := hid q h hr
      rw [← hq] at h
      have hp := (serves_mem h).2
      rw [← hp] at h
      exact hns h

/-- **C40.** A request marked for the framework never reaches a provider of the application: the answer does not
depend on the table, and is "service not support" if the framework has no such service. -/
theorem framework_requests_separate (h : Handler) (ops : List Spec.POp) (req : Request)
    (hf : (req.attachment.load b!"M_fws").getD [] ≠ []) :
    defaultCall (Spec.runDefault h ops) req = defaultCall h req ∧ agentCall (Spec.runAgent h ops) req = agentCall h req ∧
    (h.framework.load req.service = none → ∀ out, out = defaultCall h req ∨ out = agentCall h req →
      ∃ res, out = some res ∧ res.r.id = req.id ∧ res.r.exception = some ⟨501, b!"service not support", 1⟩) := by
  have hf' : loadOrEmpty req.attachment MFrameworkService ≠ [] := hf
  have e1 : (Spec.runDefault h ops).framework = h.framework := by
    induction ops using snocRec with
    | nil => rfl
    | append_singleton ops op ih =>
      rw [runDefault_snoc]
      cases op with
      | add p => exact ih
      | rm p =>
        simp only [defaultRm]
        split
        · split <;> exact ih
        · exact ih
  have e2 : (Spec.runAgent h ops).framework = h.framework := by
    clear e1
    induction ops using snocRec with
    | nil => rfl
    | append_singleton ops op ih =>
      rw [runAgent_snoc]
      cases op <;> exact ih
  refine ⟨?_, ?_, ?_⟩
  · rw [defaultCall, defaultCall, callKey, callKey, if_pos hf', if_pos hf', e1]
  · rw [agentCall, agentCall, callKey, callKey, if_pos hf', if_pos hf', e2]
  · intro hn out ho
    refine ⟨exceptionRes req.id ⟨501, serviceNotSupport, ServiceException⟩, ?_, rfl, rfl⟩
    rcases ho with ho | ho
    · rw [ho, defaultCall, callKey, if_pos hf', hn]
    · rw [ho, agentCall, callKey, if_pos hf', hn]

/-- **C40.** A request marked for the framework that names one of its services is answered by that service: the answer is the
one it gives, and a panic in it is answered with an exception under the request's id. -/
theorem framework_requests_served (h : Handler) (req : Request) (fp : Provider)
    (hf : (req.attachment.load b!"M_fws").getD [] ≠ []) (hl : h.framework.load req.service = some fp)
    (out : Option Res) (ho : out = defaultCall h req ∨ out = agentCall h req) :
    (∀ res, fp.call req = .returned res → out = res) ∧
    (fp.call req = .panicked → ∃ res, out = some res ∧ res.r.id = req.id ∧ res.r.value = none ∧
      res.r.exception = some ⟨500, b!"provider call panic", 1⟩) := by
  have hf' : loadOrEmpty req.attachment MFrameworkService ≠ [] := hf
  have e : out = frameworkCall fp req := by
    rcases ho with ho | ho
    · rw [ho, defaultCall, callKey, if_pos hf', hl]
    · rw [ho, agentCall, callKey, if_pos hf', hl]
  rw [e, frameworkCall]
  constructor
  · intro res hr; rw [hr]
  · intro hp; rw [hp]; exact ⟨_, rfl, rfl, rfl, rfl⟩

/-- **C39.** With the server's own handlers every motan2 request is answered under its id, whatever the providers do:
panic, return nothing, or be missing. -/
theorem builtin_handlers_answer (env : Env) (h : Handler) (pt ip : Bytes) (msg : Message) (hb : msg.header.isHeartbeat = false)
    (call : Request → Option Res) (hc : call = defaultCall h ∨ call = agentCall h) :
    ∃ m, processV2 env (fun r => .returned (call r)) pt ip msg = .sent (.v2 m) ∧
      m.header.requestID = msg.header.requestID :=
  v2_request_answered env _ (by intro r h; cases h) pt ip msg hb

/-- A provider that answers with its number. -/
def numbered (n : Nat) (group path : Bytes) : Provider :=
  ⟨n, group, path, 0, fun req => .returned (some { r := { id := req.id, value := none, exception := none, processTime := n, attachment := [] } })⟩

/-- A request for a service in a group. -/
def requestFor (group service : Bytes) : Request :=
  { id := 5, service := service, method := b!"m", desc := [], args := [], attachment := [(b!"M_g", group)] }

/-- C40, an exception: with underscores in group or service names, two different services share a key, and a request
for the one is answered by the provider of the other. -/
theorem agent_key_collision_counterexample :
    ∃ (ops : List Spec.POp) (req : Request), ops = [.add (numbered 1 b!"a_b" b!"c")] ∧ req = requestFor b!"a" b!"b_c" ∧
      (agentCall (Spec.runAgent ⟨[], []⟩ ops) req).map (·.r.processTime) = some 1 := by
  refine ⟨_, _, rfl, rfl, ?_⟩
  decide +kernel

/-- C40, an exception: the agent's handler removes whatever is registered under the key. When a service is exported
again before the old export is withdrawn, withdrawing the old provider stops the new one (the default handler keeps
it). -/
theorem agent_stale_removal_counterexample :
    ∃ (old new : Provider) (req : Request), old.ref ≠ new.ref ∧ req = requestFor b!"g" b!"s" ∧
      ((agentCall (Spec.runAgent ⟨[], []⟩ [.add old, .add new, .rm old]) req).bind (·.r.exception)).map (·.errCode) = some 404 ∧
      (defaultCall (Spec.runDefault ⟨[], []⟩ [.add old, .add new, .rm old]) req).map (·.r.processTime) = some 2 := by
  refine ⟨numbered 1 b!"g" b!"s", numbered 2 b!"g" b!"s", _, by decide, rfl, ?_, ?_⟩ <;> decide +kernel

example : Spec.Identified [.add (numbered 1 b!"g" b!"s"), .add (numbered 2 b!"g" b!"t"), .rm (numbered 1 b!"g" b!"s")] := by
  intro o ho o' ho' h
  simp only [List.mem_cons, List.not_mem_nil, or_false] at ho ho'
  rcases ho with rfl | rfl | rfl <;> rcases ho' with rfl | rfl | rfl <;> simp_all [Spec.POp.provider, numbered]

example : Spec.Serves [.add (numbered 1 b!"g" b!"s"), .add (numbered 2 b!"g" b!"t"), .rm (numbered 1 b!"g" b!"s")] b!"t"
    (numbered 2 b!"g" b!"t") :=
  ⟨[.add (numbered 1 b!"g" b!"s")], [.rm (numbered 1 b!"g" b!"s")], rfl, rfl, by simp, by simp [numbered]⟩

/-! ### The hypotheses of C39 can be met -/

/-- A toy encoding of exceptions that can carry every text. -/
def unhex : Bytes → Bytes
  | a :: b :: r => ((a - 65) <<< 4 ||| (b - 65)) :: unhex r
  | _ => []

def hexPair (b : UInt8) : Bytes := [(b >>> 4) + 65, (b &&& 15) + 65]

def hexLib : Lib :=
  { toyLib with
    jsonEnc := fun e => 0x7b :: e.errMsg.flatMap hexPair
    jsonDec := fun s => match s with | 0x7b :: r => some (some ⟨500, unhex r, 1⟩) | _ => some none }

theorem hexPair_facts (b : UInt8) : unhex (hexPair b) = [b] ∧ 10 ∉ hexPair b := by
  have h : ∀ n : Fin 256, unhex (hexPair (UInt8.ofNat n.val)) = [UInt8.ofNat n.val] ∧ 10 ∉ hexPair (UInt8.ofNat n.val) := by
    decide +kernel
  have := h ⟨b.toNat, b.toNat_lt⟩
  simpa using this

theorem hexLib_json (text : Bytes) : JsonLawful hexLib ⟨500, text, 1⟩ := by
  have h2 : ∀ t : Bytes, unhex (t.flatMap hexPair) = t := by
    intro t
    induction t with
    | nil => rfl
    | cons b t ih =>
      have h3 := (hexPair_facts b).1
      simp only [hexPair, unhex] at h3
      rw [List.flatMap_cons, hexPair]
      show _ :: unhex (t.flatMap hexPair) = _
      rw [ih, List.cons.inj h3 |>.1]
  refine ⟨?_, by simp [hexLib], ?_⟩
  · show some (some (Exn.mk 500 (unhex (text.flatMap hexPair)) 1)) = _
    rw [h2]
  · simp only [hexLib, List.mem_cons, not_or]
    refine ⟨by decide, ?_⟩
    intro h
    obtain ⟨b, -, hb⟩ := List.mem_flatMap.mp h
    exact (hexPair_facts b).2 hb

def sampleEnv (proxy : Bool) : Env :=
  { lib := hexLib, sers := fun n => if n = 6 then some Convert.simpleSer else none, errText := fun _ => b!"err",
    err1Text := fun _ => b!"err", heartbeatEnabled := true, proxy := proxy }

/-- A motan2 request with two arguments. -/
def sampleIncoming : Message :=
  ⟨Motan2.buildHeader Motan2.Req false 6 77 0, [(b!"M_p", b!"svc"), (b!"M_m", b!"say"), (b!"M_g", b!"g")], [1, 2, 3], 0⟩

/-- The request can be read and reaches the handler; a request with a body and an unknown serialization cannot. -/
example : (convertToRequest hexLib ((sampleEnv false).sers sampleIncoming.header.getSerialize)
    (received (sampleEnv false) b!"1.2.3.4" sampleIncoming)).toOption.isSome = true ∧
  sampleIncoming.header.isHeartbeat = false := by decide +kernel

example : (convertToRequest hexLib ((sampleEnv false).sers 9)
    (received (sampleEnv false) b!"1.2.3.4" sampleIncoming)).toOption.isSome = false := by decide +kernel

example : (convertToResMessage hexLib (some Convert.simpleSer) (finishRes false b!"3" sampleResponse)).toOption.map
    (fun m => decide (metaSize m.metadata ≤ 100 ∧ m.body.length ≤ 100 ∧ m.body ≠ [])) = some true := by decide +kernel

example : Spec.Safe (fun r => .returned (defaultCall (Spec.runDefault ⟨[], []⟩ [.add (numbered 1 b!"g" b!"svc")]) r)) := by
  intro r h; cases h

/-- A message is read from a connection and answered. -/
example : (nextMessage 1000 (encode none sampleIncoming ++ [1])).map (·.2) = some [1] := by decide +kernel

end Motan.Props
