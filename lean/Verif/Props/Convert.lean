import Verif.Model.Convert
import Verif.Props.Header
import Verif.Props.Motan2
import Verif.Props.Simple

/-!
# C11: a call and its answer survive the conversion to a message, the wire and the conversion back
-/

namespace Motan.Props

open Motan2 Convert
open Simple (Val)

/-! ### Specification -/

/-- What is assumed of `compress/gzip`: decompressing what was compressed gives it back. -/
def GzipLawful (lib : Lib) : Prop :=
  ∀ b z, b ≠ [] → lib.gzip b = some z → z ≠ [] ∧ lib.gunzip z = some b

/-- What is assumed of `encoding/json` on the exception `e`: it can be parsed back, its text is not empty
and contains no raw newline. -/
def JsonLawful (lib : Lib) (e : Exn) : Prop :=
  lib.jsonDec (lib.jsonEnc e) = some (some e) ∧ lib.jsonEnc e ≠ [] ∧ (10 : UInt8) ∉ lib.jsonEnc e

/-- A text as it arrives in a metadata value: unchanged, or absent (read as empty) if it has a newline. -/
def wireText (s : Bytes) : Bytes := if (10 : UInt8) ∈ s then [] else s

/-- The bytes that stand for the arguments of a request. -/
inductive ArgBytes (ser : Option Ser) (req : Request) : Bytes → Prop where
  | none : req.args = [] → ArgBytes ser req []
  | raw (b : Bytes) : req.rc.serialized = true → req.args = [.val (.bytes b)] → ArgBytes ser req b
  | enc (s : Ser) (b : Bytes) : req.rc.serialized = false → req.args ≠ [] → ser = some s →
      s.serializeMulti (req.args.map Arg.toVal) = .ok b → ArgBytes ser req b

/-- The request is forwarded as it came in. -/
def Relayed (rc : RC) : Prop := rc.proxy = true ∧ ∃ m, rc.original = some (.v2 m)

/-- The id the callee sees: the attachment `M_rid`, read as a signed decimal, wins over the header. -/
def specRequestId (m : Meta) (headerId : UInt64) : UInt64 :=
  match m.load MRequestID with
  | none => headerId
  | some s => if s = [] ∨ (10 : UInt8) ∈ s then headerId else ofInt64 (parseInt64 s).1

/-! ### Headers -/

theorem hv_setOneWay (h : Header) (b : Bool) : headerView (h.setOneWay b) = { headerView h with oneWay := b } :=
  congrArg Prod.fst (header_setter h (.oneWay b))
theorem hv_setProxy (h : Header) (b : Bool) : headerView (h.setProxy b) = { headerView h with proxy := b } :=
  congrArg Prod.fst (header_setter h (.proxy b))
theorem hv_setGzip (h : Header) (b : Bool) : headerView (h.setGzip b) = { headerView h with gzip := b } :=
  congrArg Prod.fst (header_setter h (.gzip b))

theorem hv_build (isReq isExn : Bool) (ser : Int) (id : UInt64) :
    headerView (buildHeader (if isReq then Motan2.Req else Motan2.Res) false ser id
        (if isExn then Motan2.Exception else Motan2.Normal))
      = { heartbeat := false, gzip := false, oneWay := false, proxy := false, request := isReq,
          version := 1, status := if isExn then 1 else 0,
          serialize := (buildHeader Motan2.Req false ser id Motan2.Normal).getSerialize, requestID := id,
          magic := 0xf1f1 } := by
  have h := buildHeader_view isReq false 0 (if isExn then 1 else 0) id (by omega) (by split <;> omega)
  have e : headerView (buildHeader (if isReq then Motan2.Req else Motan2.Res) false ser id
        (if isExn then Motan2.Exception else Motan2.Normal))
      = { headerView (buildHeader (if isReq then Motan2.Req else Motan2.Res) false (0 : Nat) id
          ((if isExn then 1 else 0 : Nat) : Int)) with
        serialize := (buildHeader Motan2.Req false ser id Motan2.Normal).getSerialize } := by
    cases isReq <;> cases isExn <;> rfl
  rw [e, h]

/-! ### gzip -/

theorem gunzip_gzip {lib : Lib} (hl : GzipLawful lib) (m : Message) (n : Int) (hg : m.header.isGzip = false) :
    (gunzipMessage lib (encodeMessageGzip lib m n)).body = m.body ∧
    (encodeMessageGzip lib m n).metadata = m.metadata ∧
    ((encodeMessageGzip lib m n).body = [] ↔ m.body = []) ∧
    ∃ g, headerView (encodeMessageGzip lib m n).header = { headerView m.header with gzip := g } := by
  have base : (gunzipMessage lib m).body = m.body ∧ m.metadata = m.metadata ∧ (m.body = [] ↔ m.body = []) ∧
      ∃ g, headerView m.header = { headerView m.header with gzip := g } := by
    refine ⟨by simp [gunzipMessage, hg], rfl, Iff.rfl, m.header.isGzip, rfl⟩
  rw [encodeMessageGzip]
  split
  · rename_i hc
    have hne : m.body ≠ [] := by
      intro h; rw [h] at hc; simp at hc; omega
    cases he : encodeGzip lib m.body with
    | none => simpa only using base
    | some data =>
      have hpos : m.body.length > 0 := List.length_pos_iff.mpr hne
      rw [encodeGzip, if_pos hpos] at he
      obtain ⟨hz, hd⟩ := hl _ _ hne he
      have hgz : (m.header.setGzip true).isGzip = true := by
        have := congrArg HeaderView.gzip (hv_setGzip m.header true); exact this
      refine ⟨?_, rfl, ?_, true, hv_setGzip _ _⟩
      · simp only [gunzipMessage, hgz, if_true, decodeGzipBody, decodeGzip]
        rw [if_pos (List.length_pos_iff.mpr hz), hd]; rfl
      · simp [hz, hne]
  · exact base

/-! ### Metadata of a request -/

theorem load_requestMeta_path (req : Request) : (requestMeta req).load MPath = some req.service := by
  simp only [requestMeta]
  split <;> split <;>
    simp [AMap.load_store, show MPath ≠ MMethodDesc by decide, show MMethodDesc ≠ MPath by decide,
      show MMethod ≠ MPath by decide, show MProxyProtocol ≠ MPath by decide,
      show ¬ MPath = MMethod by decide, show ¬ MPath = MProxyProtocol by decide]

theorem load_requestMeta_method (req : Request) : (requestMeta req).load MMethod = some req.method := by
  simp only [requestMeta]
  split <;> split <;>
    simp [AMap.load_store, show ¬ MMethodDesc = MMethod by decide, show ¬ MMethod = MMethodDesc by decide,
      show ¬ MProxyProtocol = MMethod by decide, show ¬ MMethod = MProxyProtocol by decide]

theorem load_requestMeta_desc (req : Request) : (requestMeta req).load MMethodDesc
    = if req.desc ≠ [] then some req.desc else req.attachment.load MMethodDesc := by
  simp only [requestMeta]
  by_cases hd : req.desc = []
  · simp only [hd, ne_eq, not_true_eq_false, if_false]
    split <;>
    simp [AMap.load_store, show ¬ MPath = MMethodDesc by decide, show ¬ MMethod = MMethodDesc by decide,
      show ¬ MProxyProtocol = MMethodDesc by decide, show ¬ MMethodDesc = MPath by decide,
      show ¬ MMethodDesc = MMethod by decide, show ¬ MMethodDesc = MProxyProtocol by decide]
  · simp [hd]

/-- C11: a request names the protocol it is relayed in under "M_pp": the one attached, "motan2" if none is. -/
theorem request_relay_protocol (req : Request) : (requestMeta req).load b!"M_pp"
    = if loadOrEmpty req.attachment b!"M_pp" = [] then some b!"motan2" else req.attachment.load b!"M_pp" := by
  rw [show (b!"M_pp" : Bytes) = MProxyProtocol from rfl, show (b!"motan2" : Bytes) = defaultProtocol from rfl]
  have e : loadOrEmpty ((req.attachment.store MPath req.service).store MMethod req.method) MProxyProtocol
      = loadOrEmpty req.attachment MProxyProtocol := by
    simp [loadOrEmpty, AMap.load_store, show ¬ MPath = MProxyProtocol by decide,
      show ¬ MMethod = MProxyProtocol by decide, show ¬ MProxyProtocol = MPath by decide,
      show ¬ MProxyProtocol = MMethod by decide]
  simp only [requestMeta, e]
  split <;> split <;>
    simp [AMap.load_store, show ¬ MPath = MProxyProtocol by decide, show ¬ MMethodDesc = MProxyProtocol by decide,
      show ¬ MMethod = MProxyProtocol by decide, show ¬ MProxyProtocol = MPath by decide,
      show ¬ MProxyProtocol = MMethod by decide, show ¬ MProxyProtocol = MMethodDesc by decide]

theorem load_requestMeta_other (req : Request) (k : Bytes) (h1 : k ≠ MPath) (h2 : k ≠ MMethod)
    (h3 : k ≠ MMethodDesc) (h4 : k ≠ MProxyProtocol) :
    (requestMeta req).load k = req.attachment.load k := by
  simp only [requestMeta]
  split <;> split <;>
    simp [AMap.load_store, h1, h2, h3, h4, Ne.symm h1, Ne.symm h2, Ne.symm h3, Ne.symm h4]

theorem nodup_requestMeta {req : Request} (hn : req.attachment.NodupKeys) : (requestMeta req).NodupKeys := by
  simp only [requestMeta]
  have h1 := AMap.nodupKeys_store (AMap.nodupKeys_store hn MPath req.service) MMethod req.method
  split <;> split
  · exact AMap.nodupKeys_store (AMap.nodupKeys_store h1 _ _) _ _
  · exact AMap.nodupKeys_store h1 _ _
  · exact AMap.nodupKeys_store h1 _ _
  · exact h1

/-- Reading a metadata value after the wire. -/
theorem loadOrEmpty_wire {m r : Meta} (h : SameCarriable m r) {k : Bytes} (hk : k ≠ [] ∧ (10 : UInt8) ∉ k) :
    loadOrEmpty r k = wireText (loadOrEmpty m k) := by
  rw [loadOrEmpty, loadOrEmpty]
  cases hr : r.load k with
  | none =>
    cases hm : m.load k with
    | none => simp [wireText]
    | some v =>
      have := mt (h k v).mpr (by rw [hr]; simp)
      simp only [Carriable, hm, true_and, hk, ne_eq, not_false_eq_true, not_and, Decidable.not_not] at this
      simp only [Option.getD_none, Option.getD_some, wireText]
      by_cases hv : v = []
      · simp [hv]
      · rw [if_pos (this hv)]
  | some v =>
    obtain ⟨hm, hc⟩ := (h k v).mp hr
    rw [hm]
    simp [wireText, hc.2.2.2]

theorem load_wire {m r : Meta} (h : SameCarriable m r) {k : Bytes} (hk : k ≠ [] ∧ (10 : UInt8) ∉ k) :
    r.load k = (m.load k).filter fun v => v ≠ [] ∧ (10 : UInt8) ∉ v := by
  apply Option.ext
  intro v
  rw [h k v]
  simp [Carriable, hk, Option.filter_eq_some_iff]

/-! ### A request over the wire -/

/-- The conversion to a message, for a request that is not relayed. -/
theorem convertToReqMessage_fresh (lib : Lib) (ser : Option Ser) (req : Request) (hrel : ¬ Relayed req.rc) :
    convertToReqMessage lib ser req =
      match serialNum ser req.rc with
      | .error e => .error e
      | .ok num =>
        match requestBody ser req with
        | .error e => .error e
        | .ok body =>
          let m : Message := ⟨Motan2.buildHeader Motan2.Req false num req.id Motan2.Normal, [], body, 0⟩
          let m := encodeMessageGzip lib m req.rc.gzipSize
          .ok { m with header := requestFlags m.header req.rc, metadata := requestMeta req } := by
  rw [convertToReqMessage]
  split
  · rename_i h1 h2; exact absurd ⟨h1, _, h2⟩ hrel
  · rfl

theorem requestBody_iff (ser : Option Ser) (req : Request) (b : Bytes) :
    requestBody ser req = .ok b ↔ ArgBytes ser req b := by
  constructor
  · intro h
    rw [requestBody.eq_def] at h
    split at h
    · rename_i hlen
      split at h
      · rename_i hs
        split at h
        · rename_i a ha
          cases a with
          | deser body s => simp [Arg.asBytes] at h
          | val v =>
            cases v <;> simp [Arg.asBytes] at h
            subst h
            exact .raw _ hs ha
        · simp at h
      · rename_i hs
        cases ser with
        | none => simp at h
        | some s =>
          simp only at h
          cases hm : s.serializeMulti (req.args.map Arg.toVal) with
          | error e => rw [hm] at h; simp [Except.mapError] at h
          | ok b' =>
            rw [hm] at h; simp only [Except.mapError, Except.ok.injEq] at h
            subst h
            exact .enc s _ (by simpa using hs) (List.length_pos_iff.mp hlen) rfl hm
    · rename_i hlen
      simp only [Except.ok.injEq] at h
      subst h
      exact .none (by simpa using hlen)
  · intro h
    cases h with
    | none h => simp [requestBody, h]
    | raw b hs ha => simp [requestBody, ha, hs, Arg.asBytes]
    | enc s b hs ha hse hm =>
      rw [requestBody.eq_def, if_pos (List.length_pos_iff.mpr ha), hs]
      simp [hse, hm, Except.mapError]

/-- **C11.** Which requests can be converted: those whose arguments have bytes and, unless they are
already serialized, that come with a serialization. -/
theorem request_convertible_iff (lib : Lib) (ser : Option Ser) (req : Request) (hrel : ¬ Relayed req.rc) :
    (∃ msg, convertToReqMessage lib ser req = .ok msg) ↔
      (∃ b, ArgBytes ser req b) ∧ (req.rc.serialized = true ∨ ser.isSome) := by
  rw [convertToReqMessage_fresh lib ser req hrel]
  constructor
  · rintro ⟨msg, h⟩
    split at h
    · simp at h
    · rename_i num hnum
      split at h
      · simp at h
      · rename_i body hb
        refine ⟨⟨body, (requestBody_iff ser req body).mp hb⟩, ?_⟩
        rw [serialNum.eq_def] at hnum
        split at hnum
        · rename_i hs; exact .inl hs
        · cases ser with
          | none => simp at hnum
          | some s => exact .inr rfl
  · rintro ⟨⟨b, hb⟩, hs⟩
    have hb' := (requestBody_iff ser req b).mpr hb
    have : ∃ num, serialNum ser req.rc = .ok num := by
      rw [serialNum.eq_def]
      by_cases h : req.rc.serialized = true
      · exact ⟨_, if_pos h⟩
      · rw [if_neg h]
        cases ser with
        | none => simp [h] at hs
        | some s => exact ⟨_, rfl⟩
    obtain ⟨num, hnum⟩ := this
    rw [hnum, hb']
    exact ⟨_, rfl⟩

/-- What a received request must look like, given the request that was sent: the property C11. -/
structure SameCall (ser' : Option Ser) (req : Request) (body : Bytes) (r : Request) : Prop where
  service : r.service = wireText req.service
  method : r.method = wireText req.method
  desc : r.desc = wireText (if req.desc ≠ [] then req.desc else loadOrEmpty req.attachment b!"M_md")
  id : r.id = specRequestId req.attachment req.id
  /-- Every attachment of the caller, and no other, except the framework's own five keys. -/
  attachments : ∀ k v, k ∉ [b!"M_p", b!"M_m", b!"M_md", b!"M_pp", b!"M_rid"] →
    (r.attachment.load k = some v ↔ req.attachment.load k = some v ∧ Carriable k v)
  /-- The arguments are lazily deserializable from exactly the sender's bytes. -/
  args : r.args = if body = [] then [] else [.deser body ser']
  proxy : r.rc.proxy = req.rc.proxy

/-- The message a fresh request is converted to, as the getters of its header show it. -/
theorem reqMessage_facts {lib : Lib} (hl : GzipLawful lib) {ser : Option Ser} {req : Request} {msg : Message}
    (hrel : ¬ Relayed req.rc) (hm : convertToReqMessage lib ser req = .ok msg) :
    ∃ body num, ArgBytes ser req body ∧ serialNum ser req.rc = .ok num ∧
      msg.metadata = requestMeta req ∧ (gunzipMessage lib msg).body = body ∧ (msg.body = [] ↔ body = []) ∧
      ∃ g, headerView msg.header
        = { heartbeat := false, gzip := g, oneWay := req.rc.oneway, proxy := req.rc.proxy, request := true,
            version := 1, status := 0,
            serialize := (buildHeader Motan2.Req false num req.id Motan2.Normal).getSerialize,
            requestID := req.id, magic := 0xf1f1 } := by
  rw [convertToReqMessage_fresh lib ser req hrel] at hm
  split at hm
  · simp at hm
  · rename_i num hnum
    split at hm
    · simp at hm
    · rename_i body hb
      simp only [Except.ok.injEq] at hm
      subst hm
      have hv := hv_build true false num req.id
      simp only [if_true, Bool.false_eq_true, if_false] at hv
      generalize hm0 : (⟨buildHeader Motan2.Req false num req.id Motan2.Normal, [], body, 0⟩ : Message) = m0
      have e1 : m0.body = body := by rw [← hm0]
      have e2 : m0.header = buildHeader Motan2.Req false num req.id Motan2.Normal := by rw [← hm0]
      have hg : m0.header.isGzip = false := by rw [e2]; exact congrArg HeaderView.gzip hv
      obtain ⟨h1, h2, h3, g, h4⟩ := gunzip_gzip hl m0 req.rc.gzipSize hg
      generalize encodeMessageGzip lib m0 req.rc.gzipSize = m1 at h1 h2 h3 h4 ⊢
      have hflags : headerView (requestFlags m1.header req.rc)
          = { headerView m1.header with oneWay := req.rc.oneway, proxy := req.rc.proxy } := by
        have ho : (headerView m1.header).oneWay = false := by rw [h4, e2, hv]
        have hp : (headerView m1.header).proxy = false := by rw [h4, e2, hv]
        rw [requestFlags]
        cases h5 : req.rc.oneway <;> cases h6 : req.rc.proxy <;>
          simp only [Bool.false_eq_true, if_false, if_true, hv_setOneWay, hv_setProxy] <;>
          (rcases hh : headerView m1.header with ⟨a, b, c, d, e, f⟩; rw [hh] at ho hp; simp_all)
      refine ⟨body, num, (requestBody_iff ser req body).mp hb, hnum, rfl, ?_, ?_, g, ?_⟩
      · have hgz : (requestFlags m1.header req.rc).isGzip = m1.header.isGzip := congrArg HeaderView.gzip hflags
        simp only [gunzipMessage, hgz] at h1 ⊢
        rw [← e1, ← h1]
        cases m1.header.isGzip <;> rfl
      · rw [← e1]; exact h3
      · rw [hflags, h4, e2, hv]

/-- The receiving side, for a message whose metadata came over the wire. -/
theorem requestIdOf_wire {m : Meta} {msg : Message} (h : SameCarriable m msg.metadata) :
    (requestIdOf msg).1 = specRequestId m msg.header.requestID ∧
    ∀ k, k ≠ MRequestID → (requestIdOf msg).2.load k = msg.metadata.load k := by
  have hl := load_wire h (k := MRequestID) (by decide)
  rw [requestIdOf, specRequestId]
  cases hm : m.load MRequestID with
  | none =>
    rw [hm] at hl
    rw [hl]
    refine ⟨rfl, fun k hk => ?_⟩
    simp only [Option.filter_none]
    split
    · rw [AMap.load_store]; simp [hk, Ne.symm hk]
    · rfl
  | some s =>
    rw [hm] at hl
    simp only [Option.filter_some] at hl
    by_cases hs : s = [] ∨ (10 : UInt8) ∈ s
    · rw [if_neg (by simp only [decide_eq_true_eq]; intro hc; rcases hs with h | h <;> simp_all)] at hl
      rw [hl]
      refine ⟨by simp [hs], fun k hk => ?_⟩
      simp only
      split
      · rw [AMap.load_store]; simp [hk, Ne.symm hk]
      · rfl
    · rw [if_pos (by simp only [decide_eq_true_eq]; exact not_or.mp hs)] at hl
      rw [hl]
      exact ⟨by simp [hs], fun _ _ => rfl⟩

/-- **C11.** A request, converted to a message, written to a connection, read by the peer and converted
back is the same call: for every request, every serialization, with and without compression, whatever
follows on the connection. -/
theorem request_over_wire (lib : Lib) (hl : GzipLawful lib) (ser ser' : Option Ser) (req : Request)
    (hrel : ¬ Relayed req.rc) (hn : req.attachment.NodupKeys) (msg : Message)
    (hm : convertToReqMessage lib ser req = .ok msg) (hser : req.rc.proxy = true ∨ ser'.isSome = true)
    (buf : Option BytesBuffer) (hr : Reusable buf) (maxLen bufCap bodyCap : Nat) (follow : Bytes)
    (hmeta : metaSize msg.metadata ≤ maxLen) (hb : msg.body.length ≤ maxLen) (h32 : maxLen < 2 ^ 32) :
    ∃ got r body, (decode maxLen bufCap bodyCap (encode buf msg ++ follow)).res = .ok got ∧
      (decode maxLen bufCap bodyCap (encode buf msg ++ follow)).rest = follow ∧
      got.header.isRequest = true ∧ got.header.isOneWay = req.rc.oneway ∧
      convertToRequest lib ser' got = .ok r ∧ ArgBytes ser req body ∧ SameCall ser' req body r := by
  obtain ⟨body, num, hab, hnum, hmm, hbody, hempty, g, hv⟩ := reqMessage_facts hl hrel hm
  have hver : msg.header.getVersion = 1 := congrArg HeaderView.version hv
  have hmag : msg.header.magic = MotanMagic := congrArg HeaderView.magic hv
  have hnm : msg.metadata.NodupKeys := by rw [hmm]; exact nodup_requestMeta hn
  obtain ⟨out, hout, hrest, got, hres, hgh, hgb, hgn, hgm⟩ :=
    motan2_roundtrip buf hr maxLen bufCap bodyCap msg follow hver hmag hnm hmeta hb h32
  rw [hmm] at hgm
  obtain ⟨hid, hother⟩ := requestIdOf_wire hgm
  have hprox : got.header.isProxy = req.rc.proxy := by rw [hgh]; exact congrArg HeaderView.proxy hv
  have hrid : got.header.requestID = req.id := by rw [hgh]; exact congrArg HeaderView.requestID hv
  have hgu : (gunzipMessage lib { got with metadata := (requestIdOf got).2 }).body = body := by
    rw [← hbody]
    simp only [gunzipMessage, hgh, hgb]
    cases msg.header.isGzip <;> simp [hgb]
  have spec : ∀ r : Request, r.service = loadOrEmpty (requestIdOf got).2 MPath →
      r.method = loadOrEmpty (requestIdOf got).2 MMethod → r.desc = loadOrEmpty (requestIdOf got).2 MMethodDesc →
      r.id = (requestIdOf got).1 → r.attachment = (requestIdOf got).2 →
      r.args = (if body = [] then [] else [.deser body ser']) → r.rc.proxy = req.rc.proxy →
      SameCall ser' req body r := by
    intro r h1 h2 h3 h4 h5 h6 h7
    refine ⟨?_, ?_, ?_, ?_, ?_, h6, h7⟩
    · rw [h1, loadOrEmpty, hother _ (by decide), ← loadOrEmpty, loadOrEmpty_wire hgm (by decide), loadOrEmpty,
        load_requestMeta_path]; rfl
    · rw [h2, loadOrEmpty, hother _ (by decide), ← loadOrEmpty, loadOrEmpty_wire hgm (by decide), loadOrEmpty,
        load_requestMeta_method]; rfl
    · rw [h3, loadOrEmpty, hother _ (by decide), ← loadOrEmpty, loadOrEmpty_wire hgm (by decide), loadOrEmpty,
        load_requestMeta_desc]
      by_cases hd : req.desc = []
      · simp [hd, loadOrEmpty, MMethodDesc]
      · simp [hd]
    · rw [h4, hid, hrid]
      simp only [specRequestId]
      rw [load_requestMeta_other req MRequestID (by decide) (by decide) (by decide) (by decide)]
    · intro k v hk
      simp only [List.mem_cons, List.not_mem_nil, or_false, not_or] at hk
      obtain ⟨k1, k2, k3, k4, k5⟩ := hk
      rw [h5, hother k k5, hgm k v, load_requestMeta_other req k k1 k2 k3 k4]
  subst hout
  by_cases hbe : body = []
  · have : got.body.length = 0 := by rw [hgb, hempty.mpr hbe]; rfl
    have hc : ∃ r, convertToRequest lib ser' got = .ok r ∧ SameCall ser' req body r := by
      rw [convertToRequest]
      simp only [this, gt_iff_lt, Nat.lt_irrefl, if_false]
      exact ⟨_, rfl, spec _ rfl rfl rfl rfl rfl (by simp [hbe]) hprox⟩
    obtain ⟨r, hc1, hc2⟩ := hc
    refine ⟨got, r, body, hres, hrest, ?_, ?_, hc1, hab, hc2⟩
    · rw [hgh]; exact congrArg HeaderView.request hv
    · rw [hgh]; exact congrArg HeaderView.oneWay hv
  · have : got.body.length > 0 := by
      rw [hgb]; exact List.length_pos_iff.mpr (fun h => hbe (hempty.mp h))
    have hok : ¬ (got.header.isProxy = false ∧ ser'.isNone = true) := by
      rw [hprox]
      rintro ⟨h1, h2⟩
      rcases hser with h | h
      · rw [h] at h1; exact absurd h1 (by decide)
      · cases ser' <;> simp at h h2
    have hc : ∃ r, convertToRequest lib ser' got = .ok r ∧ SameCall ser' req body r := by
      rw [convertToRequest]
      simp only [this, if_true, hok, if_false]
      exact ⟨_, rfl, spec _ rfl rfl rfl rfl rfl (by simp only [hgu, hbe, if_false]) hprox⟩
    obtain ⟨r, hc1, hc2⟩ := hc
    refine ⟨got, r, body, hres, hrest, ?_, ?_, hc1, hab, hc2⟩
    · rw [hgh]; exact congrArg HeaderView.request hv
    · rw [hgh]; exact congrArg HeaderView.oneWay hv

/-- **C11**, with the simple serialization: after lazy deserialization the callee holds the caller's
arguments (an `int` arrives as `int64`, which is what `norm` says). -/
theorem simple_call_over_wire (lib : Lib) (hl : GzipLawful lib) (req : Request) (vs : List Val)
    (hargs : req.args = vs.map .val) (hser : req.rc.serialized = false) (hp : req.rc.proxy = false)
    (hsup : ∀ v ∈ vs, Simple.supported v = true) (hst : ∀ v ∈ vs, Simple.storable v = true) (hne : vs ≠ [])
    (hn : req.attachment.NodupKeys) (buf : Option BytesBuffer) (hr : Reusable buf)
    (maxLen bufCap bodyCap : Nat) (follow : Bytes) (h32 : maxLen < 2 ^ 32) :
    ∃ msg, convertToReqMessage lib (some simpleSer) req = .ok msg ∧
      (metaSize msg.metadata ≤ maxLen → msg.body.length ≤ maxLen →
        (∀ b, ArgBytes (some simpleSer) req b → b.length < 2 ^ 32) →
        ∃ got r r', (decode maxLen bufCap bodyCap (encode buf msg ++ follow)).res = .ok got ∧
          convertToRequest lib (some simpleSer) got = .ok r ∧ r.service = wireText req.service ∧
          r.processDeserializable none = .ok r' ∧ r'.args = vs.map fun v => .val (Simple.norm v)) := by
  have hrel : ¬ Relayed req.rc := by rintro ⟨h, _⟩; rw [hp] at h; exact absurd h (by decide)
  obtain ⟨bs, hbs, hback⟩ := simple_multi_roundtrip 2048 vs hsup hst
  have hmap : req.args.map Arg.toVal = vs := by rw [hargs, List.map_map]; simp [Function.comp_def, Arg.toVal]
  have hab : ArgBytes (some simpleSer) req bs := by
    refine .enc simpleSer bs hser ?_ rfl ?_
    · rw [hargs]; simpa using hne
    · rw [hmap]; exact hbs
  obtain ⟨msg, hm⟩ := (request_convertible_iff lib (some simpleSer) req hrel).mpr ⟨⟨bs, hab⟩, .inr rfl⟩
  refine ⟨msg, hm, fun h1 h2 h3 => ?_⟩
  obtain ⟨got, r, body, g1, -, -, -, g2, g3, g4⟩ := request_over_wire lib hl (some simpleSer) (some simpleSer) req
    hrel hn msg hm (.inr rfl) buf hr maxLen bufCap bodyCap follow h1 h2 h32
  have hbe : body = bs := by
    have e1 := (requestBody_iff (some simpleSer) req body).mpr g3
    have e2 := (requestBody_iff (some simpleSer) req bs).mpr hab
    rw [e1] at e2; simpa using e2
  have hbne : bs ≠ [] := by
    intro h
    rw [h] at hback
    have := hback (by decide)
    have hd : Simple.deSerializeMulti [] none = .ok [] := by decide +kernel
    rw [hd] at this
    simp only [Except.ok.injEq] at this
    cases vs with
    | nil => exact hne rfl
    | cons v l => simp at this
  have ha := g4.args
  rw [hbe, if_neg hbne] at ha
  refine ⟨got, r, { r with args := vs.map fun v => .val (Simple.norm v) }, g1, g2, g4.service, ?_, rfl⟩
  rw [Request.processDeserializable, ha]
  have hb' : (simpleSer.deSerializeMulti bs none) = .ok (vs.map fun v => (Simple.norm v, none)) :=
    hback (h3 bs hab)
  simp only [hb', List.map_map, Function.comp_def]

/-! ### Request ids -/

theorem toInt64_range (x : UInt64) : -2 ^ 63 ≤ toInt64 x ∧ toInt64 x < 2 ^ 63 := by
  have := x.toNat_lt
  rw [toInt64]; split <;> omega

theorem ofInt64_toInt64 (x : UInt64) : ofInt64 (toInt64 x) = x := by
  have := x.toNat_lt
  apply UInt64.toNat_inj.mp
  rw [ofInt64, toInt64]
  split <;> (rw [UInt64.toNat_ofNat']; omega)

/-- **C11.** A proxy records the id of the original call: after a message without `M_rid` passed through
`ConvertToRequest` with the proxy flag set, every later reader of that metadata sees the same id, for all
64-bit ids (including those that are negative as signed numbers). -/
theorem proxy_keeps_id (lib : Lib) (ser : Option Ser) (msg : Message) (r : Request)
    (hp : msg.header.isProxy = true) (hrid : msg.metadata.load b!"M_rid" = none)
    (h : convertToRequest lib ser msg = .ok r) (headerId : UInt64) :
    r.id = msg.header.requestID ∧ specRequestId r.attachment headerId = msg.header.requestID := by
  have e : requestIdOf msg = (msg.header.requestID,
      msg.metadata.store MRequestID (formatInt (toInt64 msg.header.requestID))) := by
    rw [requestIdOf.eq_def, show AMap.load msg.metadata MRequestID = none from hrid]; simp [hp]
  have ids : r.id = msg.header.requestID ∧
      r.attachment = msg.metadata.store MRequestID (formatInt (toInt64 msg.header.requestID)) := by
    rw [convertToRequest, e] at h
    simp only at h
    split at h
    · split at h
      · simp at h
      · simp only [Except.ok.injEq] at h; subst h; exact ⟨rfl, rfl⟩
    · simp only [Except.ok.injEq] at h; subst h; exact ⟨rfl, rfl⟩
  refine ⟨ids.1, ?_⟩
  rw [ids.2, specRequestId]
  simp only [AMap.load_store_self]
  have hne := formatInt_ne_nil (toInt64 msg.header.requestID)
  have hnl : (10 : UInt8) ∉ formatInt (toInt64 msg.header.requestID) := by
    intro hc
    rcases formatInt_mem _ _ hc with h | h
    · exact absurd h (by decide)
    · exact absurd h (by decide)
  rw [if_neg (by simp [hne, hnl]), parseInt64_formatInt _ (toInt64_range _).1 (toInt64_range _).2,
    ofInt64_toInt64]

/-- A malformed `M_rid` does not fall back to the id of the header: the id becomes 0. -/
theorem malformed_rid_counterexample :
    ∃ msg : Message, ∃ r, msg.header.requestID = 77 ∧ msg.metadata.load b!"M_rid" = some b!"abc" ∧
      convertToRequest ⟨some, some, fun _ => [], fun _ => none⟩ none msg = .ok r ∧ r.id = 0 :=
  ⟨⟨{ Header.zero with requestID := 77 }, [(b!"M_rid", b!"abc")], [], 0⟩, _, rfl, rfl, rfl, by decide +kernel⟩

/-! ### Relaying -/

/-- **C11.** A proxied call is forwarded as it came: same header (except the compression flag), same body
after decompression, same metadata except the group (set to the one the request asks for) and the recorded
request id. -/
theorem relay_preserves (lib : Lib) (hl : GzipLawful lib) (ser ser' : Option Ser) (msg : Message) (r : Request)
    (hp : msg.header.isProxy = true)
    (h : convertToRequest lib ser msg = .ok r) (gz : Int) :
    ∃ out, convertToReqMessage lib ser' { r with rc := { r.rc with gzipSize := gz } } = .ok out ∧
      (∃ g, headerView out.header = { headerView msg.header with gzip := g }) ∧
      (msg.body ≠ [] → (gunzipMessage lib out).body = (gunzipMessage lib msg).body) ∧
      (msg.body = [] → out.body = []) ∧
      loadOrEmpty out.metadata b!"M_g" = loadOrEmpty msg.metadata b!"M_g" ∧
      (∀ k, k ≠ b!"M_g" → k ≠ b!"M_rid" → out.metadata.load k = msg.metadata.load k) ∧
      (∀ v, msg.metadata.load b!"M_rid" = some v → out.metadata.load b!"M_rid" = some v) := by
  -- what the request carries
  have key : ∃ m1 : Message, r.rc.original = some (.v2 m1) ∧ r.rc.proxy = true ∧
      r.attachment = (requestIdOf msg).2 ∧ m1.metadata = (requestIdOf msg).2 ∧
      ((msg.body = [] ∧ m1.body = [] ∧ m1.header = msg.header) ∨
        (msg.body ≠ [] ∧ m1.body = (gunzipMessage lib msg).body ∧ m1.header.isGzip = false ∧
          ∃ g, headerView m1.header = { headerView msg.header with gzip := g })) := by
    rw [convertToRequest] at h
    simp only at h
    split at h
    · rename_i hb
      split at h
      · simp at h
      · simp only [Except.ok.injEq] at h
        subst h
        refine ⟨_, rfl, hp, rfl, ?_, .inr ⟨by intro e; rw [e] at hb; simp at hb, ?_, ?_, ?_⟩⟩
        · simp only [gunzipMessage]; split <;> rfl
        · simp only [gunzipMessage]; split <;> rfl
        · simp only [gunzipMessage]
          split
          · exact congrArg HeaderView.gzip (hv_setGzip msg.header false)
          · rename_i hg; simpa using hg
        · simp only [gunzipMessage]
          split
          · exact ⟨false, hv_setGzip _ _⟩
          · exact ⟨msg.header.isGzip, rfl⟩
    · rename_i hb
      simp only [Except.ok.injEq] at h
      subst h
      have hb' : msg.body = [] := by simpa using hb
      exact ⟨_, rfl, hp, rfl, rfl, .inl ⟨hb', hb', rfl⟩⟩
  obtain ⟨m1, ho, hrp, hatt, hmm, hcase⟩ := key
  generalize hm2 : ({ m1 with header := m1.header.setProxy true,
                              metadata := m1.metadata.store MGroup (loadOrEmpty r.attachment MGroup) } : Message) = m2
  have hout : convertToReqMessage lib ser' { r with rc := { r.rc with gzipSize := gz } }
      = .ok (encodeMessageGzip lib m2 gz) := by
    rw [convertToReqMessage]
    simp only [hrp, ho, hm2]
  have hridOther : ∀ k, k ≠ MRequestID → (requestIdOf msg).2.load k = msg.metadata.load k := by
    intro k hk
    rw [requestIdOf]
    split
    · simp only [hp, if_true]; rw [AMap.load_store]; simp [hk, Ne.symm hk]
    · rfl
  have hmeta : ∀ n, (encodeMessageGzip lib m2 n).metadata = m2.metadata := by
    intro n; rw [encodeMessageGzip]; split
    · split <;> rfl
    · rfl
  have hm2m : m2.metadata = (requestIdOf msg).2.store MGroup (loadOrEmpty (requestIdOf msg).2 MGroup) := by
    rw [← hm2]; simp only [hmm, hatt]
  have hh2 : headerView m2.header = { headerView m1.header with proxy := true } := by
    rw [← hm2]; exact hv_setProxy _ _
  refine ⟨_, hout, ?_, ?_, ?_, ?_, ?_, ?_⟩
  · rcases hcase with ⟨_, hb1, hhd⟩ | ⟨_, hb1, hg1, g, hhd⟩
    · have : encodeMessageGzip lib m2 gz = m2 := by
        have : m2.body = [] := by rw [← hm2]; exact hb1
        rw [encodeMessageGzip, if_neg (by rw [this]; simp; omega)]
      refine ⟨msg.header.isGzip, ?_⟩
      rw [this, hh2, hhd]
      have := hp
      show HeaderView.mk _ _ _ _ _ _ _ _ _ _ = HeaderView.mk _ _ _ _ _ _ _ _ _ _
      simp [hp, headerView]
    · have hg2 : m2.header.isGzip = false := by
        have := congrArg HeaderView.gzip hh2; rw [← hg1]; exact this
      obtain ⟨-, -, -, g', hg'⟩ := gunzip_gzip hl m2 gz hg2
      refine ⟨g', ?_⟩
      rw [hg', hh2, hhd]
      show HeaderView.mk _ _ _ _ _ _ _ _ _ _ = HeaderView.mk _ _ _ _ _ _ _ _ _ _
      simp [hp, headerView]
  · intro hne
    rcases hcase with ⟨hb, _, _⟩ | ⟨_, hb1, hg1, g, hhd⟩
    · exact absurd hb hne
    · have hg2 : m2.header.isGzip = false := by
        have := congrArg HeaderView.gzip hh2; rw [← hg1]; exact this
      obtain ⟨h1, -, -, -⟩ := gunzip_gzip hl m2 gz hg2
      rw [h1, ← hm2]; exact hb1
  · intro he
    rcases hcase with ⟨_, hb1, hhd⟩ | ⟨hb, _⟩
    · have : m2.body = [] := by rw [← hm2]; exact hb1
      rw [encodeMessageGzip, if_neg (by rw [this]; simp; omega), this]
    · exact absurd he hb
  · rw [hmeta, hm2m, loadOrEmpty, show (b!"M_g" : Bytes) = MGroup from rfl, AMap.load_store_self]
    simp only [Option.getD_some, loadOrEmpty]
    rw [hridOther _ (by decide)]
  · intro k h1 h2
    rw [hmeta, hm2m, AMap.load_store_ne (k := MGroup) _ _ (Ne.symm h1), hridOther k h2]
  · intro v hv
    rw [hmeta, hm2m, show (b!"M_rid" : Bytes) = MRequestID from rfl, AMap.load_store_ne _ _ (by decide), requestIdOf,
      show AMap.load msg.metadata MRequestID = some v from hv]
    exact hv

/-! ### Responses -/

/-- The bytes that stand for the value of a response. -/
inductive ValueBytes (ser : Option Ser) (serialized : Bool) (value : Option Arg) : Bytes → Prop where
  | none : value = none → ValueBytes ser serialized value []
  | raw (b : Bytes) : serialized = true → value = some (.val (.bytes b)) → ValueBytes ser serialized value b
  | enc (s : Ser) (v : Arg) (b : Bytes) : serialized = false → value = some v → ser = some s →
      s.serialize v.toVal = .ok b → ValueBytes ser serialized value b

/-- What a received response must look like, given the response that was sent. -/
structure SameAnswer (ser' : Option Ser) (res : Response) (body : Bytes) (r : Response) : Prop where
  id : r.id = res.id
  /-- An exception arrives as the same exception, and none arrives if none was sent. -/
  exception : r.exception = res.exception
  /-- A normal answer carries exactly the sender's value bytes; an exception carries no value. -/
  value : r.value = if res.exception.isSome ∨ body = [] then none else some (.deser body ser')
  attachments : ∀ k v, k ≠ b!"M_e" →
    (r.attachment.load k = some v ↔ res.attachment.load k = some v ∧ Carriable k v)
  proxy : r.rc.proxy = res.rc.proxy

theorem responseBody_iff (ser : Option Ser) (rc : RC) (value : Option Arg) (b : Bytes) :
    responseBody ser rc value = .ok b ↔ ValueBytes ser rc.serialized value b := by
  constructor
  · intro h
    rw [responseBody.eq_def] at h
    split at h
    · simp only [Except.ok.injEq] at h; subst h; exact .none rfl
    · rename_i v
      split at h
      · rename_i hs
        cases v with
        | deser body s => simp [Arg.asBytes] at h
        | val v =>
          cases v <;> simp [Arg.asBytes] at h
          subst h
          exact .raw _ hs rfl
      · rename_i hs
        cases ser with
        | none => simp at h
        | some s =>
          simp only at h
          cases hm : s.serialize v.toVal with
          | error e => rw [hm] at h; simp [Except.mapError] at h
          | ok b' =>
            rw [hm] at h; simp only [Except.mapError, Except.ok.injEq] at h
            subst h
            exact .enc s v _ (by simpa using hs) rfl rfl hm
  · intro h
    cases h with
    | none h => simp [responseBody, h]
    | raw b hs ha => simp [responseBody, ha, hs, Arg.asBytes]
    | enc s v b hs ha hse hm => simp [responseBody, ha, hs, hse, hm, Except.mapError]

/-- A response whose exception passes a proxy counts as serialized. -/
def effSerialized (res : Response) : Bool := res.rc.serialized || (res.exception.isSome && res.rc.proxy)

theorem exceptionRC_serialized (res : Response) : (exceptionRC res).serialized = effSerialized res := by
  rw [exceptionRC.eq_def, effSerialized]
  cases res.exception with
  | none => simp
  | some e => cases h : res.rc.proxy <;> simp [h]

theorem exceptionRC_proxy (res : Response) : (exceptionRC res).proxy = res.rc.proxy := by
  rw [exceptionRC.eq_def]; split
  · split <;> rfl
  · rfl

theorem exceptionRC_gzip (res : Response) : (exceptionRC res).gzipSize = res.rc.gzipSize := by
  rw [exceptionRC.eq_def]; split
  · split <;> rfl
  · rfl

theorem convertToResMessage_fresh (lib : Lib) (ser : Option Ser) (res : Response) (hrel : ¬ Relayed res.rc) :
    convertToResMessage lib ser res =
      match serialNum ser (exceptionRC res) with
      | .error e => .error e
      | .ok num =>
        match responseBody ser (exceptionRC res) res.value with
        | .error e => .error e
        | .ok body =>
          let m : Message := ⟨Motan2.buildHeader Motan2.Res false num res.id
            (if res.exception.isSome then Motan2.Exception else Motan2.Normal), [], body, 0⟩
          let m := encodeMessageGzip lib m (exceptionRC res).gzipSize
          .ok { m with header := if (exceptionRC res).proxy then m.header.setProxy true else m.header,
                       metadata := exceptionMeta lib res } := by
  rw [convertToResMessage.eq_def]
  split
  · rename_i h1 h2; exact absurd ⟨h1, _, h2⟩ hrel
  · rfl

theorem resMessage_facts {lib : Lib} (hl : GzipLawful lib) {ser : Option Ser} {res : Response} {msg : Message}
    (hrel : ¬ Relayed res.rc) (hm : convertToResMessage lib ser res = .ok msg) :
    ∃ body sn, ValueBytes ser (effSerialized res) res.value body ∧
      msg.metadata = exceptionMeta lib res ∧ (gunzipMessage lib msg).body = body ∧ (msg.body = [] ↔ body = []) ∧
      ∃ g, headerView msg.header
        = { heartbeat := false, gzip := g, oneWay := false, proxy := res.rc.proxy, request := false,
            version := 1, status := if res.exception.isSome then 1 else 0, serialize := sn,
            requestID := res.id, magic := 0xf1f1 } := by
  rw [convertToResMessage_fresh lib ser res hrel] at hm
  split at hm
  · simp at hm
  · rename_i num hnum
    split at hm
    · simp at hm
    · rename_i body hb
      simp only [Except.ok.injEq] at hm
      subst hm
      have hv := hv_build false res.exception.isSome num res.id
      simp only [Bool.false_eq_true, if_false] at hv
      generalize hm0 : (⟨buildHeader Motan2.Res false num res.id
        (if res.exception.isSome then Motan2.Exception else Motan2.Normal), [], body, 0⟩ : Message) = m0
      have e1 : m0.body = body := by rw [← hm0]
      have e2 : m0.header = buildHeader Motan2.Res false num res.id
        (if res.exception.isSome then Motan2.Exception else Motan2.Normal) := by rw [← hm0]
      have hg : m0.header.isGzip = false := by rw [e2]; exact congrArg HeaderView.gzip hv
      obtain ⟨h1, h2, h3, g, h4⟩ := gunzip_gzip hl m0 (exceptionRC res).gzipSize hg
      generalize encodeMessageGzip lib m0 (exceptionRC res).gzipSize = m1 at h1 h2 h3 h4 ⊢
      rw [exceptionRC_proxy]
      have hflags : headerView (if res.rc.proxy then m1.header.setProxy true else m1.header)
          = { headerView m1.header with proxy := res.rc.proxy } := by
        have hp : (headerView m1.header).proxy = false := by rw [h4, e2, hv]
        cases h6 : res.rc.proxy <;>
          simp only [Bool.false_eq_true, if_false, if_true, hv_setProxy]
        rcases hh : headerView m1.header with ⟨a, b, c, d, e, f⟩; rw [hh] at hp; simp_all
      refine ⟨body, (buildHeader Motan2.Req false num res.id Motan2.Normal).getSerialize, ?_, rfl, ?_, ?_, g, ?_⟩
      · rw [← exceptionRC_serialized]; exact (responseBody_iff _ _ _ _).mp hb
      · have hgz : (if res.rc.proxy then m1.header.setProxy true else m1.header).isGzip = m1.header.isGzip :=
          congrArg HeaderView.gzip hflags
        simp only [gunzipMessage, hgz] at h1 ⊢
        rw [← e1, ← h1]
        cases m1.header.isGzip <;> rfl
      · rw [← e1]; exact h3
      · rw [hflags, h4, e2, hv]

/-- **C11.** A response, converted to a message, written to a connection, read by the peer and converted
back is the same answer. -/
theorem response_over_wire (lib : Lib) (hl : GzipLawful lib) (ser ser' : Option Ser) (res : Response)
    (hj : ∀ e, res.exception = some e → JsonLawful lib e)
    (hrel : ¬ Relayed res.rc) (hn : res.attachment.NodupKeys) (msg : Message)
    (hm : convertToResMessage lib ser res = .ok msg) (hser : res.rc.proxy = true ∨ ser'.isSome = true)
    (buf : Option BytesBuffer) (hr : Reusable buf) (maxLen bufCap bodyCap : Nat) (follow : Bytes)
    (hmeta : metaSize msg.metadata ≤ maxLen) (hb : msg.body.length ≤ maxLen) (h32 : maxLen < 2 ^ 32) :
    ∃ got r body, (decode maxLen bufCap bodyCap (encode buf msg ++ follow)).res = .ok got ∧
      (decode maxLen bufCap bodyCap (encode buf msg ++ follow)).rest = follow ∧
      got.header.isRequest = false ∧
      convertToResponse lib ser' got = .ok r ∧ ValueBytes ser (effSerialized res) res.value body ∧
      SameAnswer ser' res body r := by
  obtain ⟨body, sn, hab, hmm, hbody, hempty, g, hv⟩ := resMessage_facts hl hrel hm
  have hver : msg.header.getVersion = 1 := congrArg HeaderView.version hv
  have hmag : msg.header.magic = MotanMagic := congrArg HeaderView.magic hv
  have hnm : msg.metadata.NodupKeys := by
    rw [hmm, exceptionMeta.eq_def]; split
    · exact AMap.nodupKeys_store hn _ _
    · exact hn
  obtain ⟨out, hout, hrest, got, hres, hgh, hgb, hgn, hgm⟩ :=
    motan2_roundtrip buf hr maxLen bufCap bodyCap msg follow hver hmag hnm hmeta hb h32
  subst hout
  rw [hmm] at hgm
  have hprox : got.header.isProxy = res.rc.proxy := by rw [hgh]; exact congrArg HeaderView.proxy hv
  have hrid : got.header.requestID = res.id := by rw [hgh]; exact congrArg HeaderView.requestID hv
  have hstat : got.header.getStatus = if res.exception.isSome then 1 else 0 := by
    rw [hgh]; exact congrArg HeaderView.status hv
  have hgu : (gunzipMessage lib got).body = body := by
    rw [← hbody]
    simp only [gunzipMessage, hgh, hgb]
    cases msg.header.isGzip <;> simp [hgb]
  have hgmeta : (gunzipMessage lib got).metadata = got.metadata := by
    simp only [gunzipMessage]; split <;> rfl
  have hghd : (gunzipMessage lib got).header.requestID = got.header.requestID ∧
      (gunzipMessage lib got).header.getStatus = got.header.getStatus := by
    simp only [gunzipMessage]; split
    · exact ⟨congrArg HeaderView.requestID (hv_setGzip got.header false),
        congrArg HeaderView.status (hv_setGzip got.header false)⟩
    · exact ⟨rfl, rfl⟩
  have hatt : ∀ k v, k ≠ b!"M_e" →
      (got.metadata.load k = some v ↔ res.attachment.load k = some v ∧ Carriable k v) := by
    intro k v hk
    rw [hgm k v, exceptionMeta.eq_def]
    split
    · rw [AMap.load_store_ne (k := MException) _ _ (Ne.symm hk)]
    · rfl
  have hexn : ∀ m : Message, m.metadata = got.metadata → m.header.getStatus = got.header.getStatus →
      exceptionOf lib m = .ok res.exception := by
    intro m h1 h2
    rw [exceptionOf, h1, h2, hstat]
    cases he : res.exception with
    | none => simp
    | some e =>
      obtain ⟨j1, j2, j3⟩ := hj e he
      have : loadOrEmpty got.metadata MException = lib.jsonEnc e := by
        rw [loadOrEmpty_wire hgm (by decide), loadOrEmpty]
        simp [exceptionMeta, he, wireText, j3]
      simp [this, j1, j2]
  have hok : ¬ (got.header.isProxy = false ∧ ser'.isNone = true) := by
    rw [hprox]
    rintro ⟨h1, h2⟩
    rcases hser with h | h
    · rw [h] at h1; exact absurd h1 (by decide)
    · cases ser' <;> simp at h h2
  have hreq : got.header.isRequest = false := by rw [hgh]; exact congrArg HeaderView.request hv
  by_cases hc : got.header.getStatus = 0 ∧ got.body.length > 0
  · have hnone : res.exception = none := by
      cases he : res.exception with
      | none => rfl
      | some e => rw [hstat, he] at hc; simp at hc
    have hbne : body ≠ [] := by
      intro h; have := hempty.mpr h; rw [hgb, this] at hc; simp at hc
    have hconv : ∃ r, convertToResponse lib ser' got = .ok r ∧ SameAnswer ser' res body r := by
      rw [convertToResponse]
      simp only [hc, and_self, true_and, hok, if_false, if_true, hexn _ hgmeta hghd.2]
      exact ⟨_, rfl, ⟨by rw [← hrid]; exact hghd.1, rfl, by simp [hnone, hbne, hgu],
        by simp only [hgmeta]; exact hatt, hprox⟩⟩
    obtain ⟨r, c1, c2⟩ := hconv
    exact ⟨got, r, body, hres, hrest, hreq, c1, hab, c2⟩
  · have hval : res.exception.isSome = true ∨ body = [] := by
      cases he : res.exception with
      | some e => exact .inl rfl
      | none =>
        right
        rw [hstat, he] at hc
        simp only [Option.isSome_none, Bool.false_eq_true, if_false, true_and, gt_iff_lt, Nat.not_lt,
          Nat.le_zero, List.length_eq_zero_iff] at hc
        exact hempty.mp (by rw [← hgb]; exact hc)
    have hconv : ∃ r, convertToResponse lib ser' got = .ok r ∧ SameAnswer ser' res body r := by
      rw [convertToResponse]
      simp only [hc, false_and, if_false, hexn got rfl rfl]
      exact ⟨_, rfl, ⟨hrid, rfl, by simp [hval], hatt, hprox⟩⟩
    obtain ⟨r, c1, c2⟩ := hconv
    exact ⟨got, r, body, hres, hrest, hreq, c1, hab, c2⟩

/-- **C11, process time.** The process time of an answer is the decimal number in its metadata, and zero if there is none or it is
not a number of 64 bits. -/
theorem answer_process_time (lib : Lib) (ser : Option Ser) (msg : Message) (r : Response)
    (h : convertToResponse lib ser msg = .ok r) :
    (msg.metadata.load b!"M_pt" = none → r.processTime = 0) ∧
    (∀ n : Int, -2 ^ 63 ≤ n → n < 2 ^ 63 → msg.metadata.load b!"M_pt" = some (formatInt n) → r.processTime = n) ∧
    (∀ t n e, msg.metadata.load b!"M_pt" = some t → parseInt64 t = (n, some e) → r.processTime = 0) := by
  have hm : r.processTime = processTimeOf msg.metadata := by
    unfold convertToResponse at h
    dsimp only at h
    split at h
    · cases h
    · split at h
      · cases h
      · cases h
        show processTimeOf _ = _
        split
        · unfold gunzipMessage; split <;> rfl
        · rfl
  rw [hm, processTimeOf]
  refine ⟨fun e => by rw [show msg.metadata.load MProcessTime = none from e], fun n h1 h2 e => ?_, fun t n x e hp => ?_⟩
  · rw [show msg.metadata.load MProcessTime = some (formatInt n) from e]
    simp only [parseInt64_formatInt n h1 h2]
  · rw [show msg.metadata.load MProcessTime = some t from e]
    simp only [hp]

theorem buildExceptionResponse_vs (id : UInt64) (m : Bytes) :
    (buildExceptionResponse id m).header.versionStatus = 9 := by
  have h1 : ¬ ((Motan2.Version2 : Int) > 31) := by decide
  have h2 : ¬ (Motan2.Exception > 7) := by decide
  have h3 : ¬ ((6 : Int) > 31) := by decide
  simp only [buildExceptionResponse, Header.setVersion, Header.setStatus, Header.setSerialize, h1, h2, h3,
    if_false, Except.toOption, Option.getD_some, Header.setProxy, Header.setRequest, Bool.false_eq_true, Header.zero]
  decide

/-- **C11.** An error answer built by the server (`BuildExceptionResponse` with the JSON of the exception)
reaches the client as that exception, with the id of the call. -/
theorem exception_answer (lib : Lib) (e : Exn) (hj : JsonLawful lib e) (id : UInt64) (ser' : Option Ser)
    (buf : Option BytesBuffer) (hr : Reusable buf) (maxLen bufCap bodyCap : Nat) (follow : Bytes)
    (hmeta : 4 + (lib.jsonEnc e).length ≤ maxLen) (h32 : maxLen < 2 ^ 32) :
    ∃ got r, (decode maxLen bufCap bodyCap
        (encode buf (buildExceptionResponse id (lib.jsonEnc e)) ++ follow)).res = .ok got ∧
      convertToResponse lib ser' got = .ok r ∧ r.id = id ∧ r.exception = some e ∧ r.value.isNone = true := by
  obtain ⟨j1, j2, j3⟩ := hj
  have hmagic : encode buf (buildExceptionResponse id (lib.jsonEnc e))
      = encode buf { buildExceptionResponse id (lib.jsonEnc e) with
          header := { (buildExceptionResponse id (lib.jsonEnc e)).header with magic := MotanMagic } } := rfl
  rw [hmagic]
  generalize hmsg : ({ buildExceptionResponse id (lib.jsonEnc e) with
          header := { (buildExceptionResponse id (lib.jsonEnc e)).header with magic := MotanMagic } } : Message) = msg
  have hmm : msg.metadata = [(MException, lib.jsonEnc e)] := by rw [← hmsg]; rfl
  have hbb : msg.body = [] := by rw [← hmsg]; rfl
  have hver : msg.header.getVersion = 1 := by
    rw [← hmsg, Header.getVersion]; simp only [buildExceptionResponse_vs]; decide
  have hst : msg.header.getStatus = 1 := by
    rw [← hmsg, Header.getStatus]; simp only [buildExceptionResponse_vs]; decide
  have hid : msg.header.requestID = id := by rw [← hmsg]; rfl
  have hms : metaSize msg.metadata ≤ maxLen := by
    rw [hmm, metaSize_formula]
    have : keepPair MException (lib.jsonEnc e) = true := by
      rw [keepPair_iff]; exact ⟨by decide, j2, by decide, j3⟩
    simp only [List.filter, this, List.map, List.sum_cons, List.sum_nil]
    have : MException.length = 3 := rfl
    omega
  obtain ⟨out, hout, -, got, hres, hgh, hgb, -, hgm⟩ :=
    motan2_roundtrip buf hr maxLen bufCap bodyCap msg follow hver (by rw [← hmsg])
      (by rw [hmm]; simp [AMap.NodupKeys, AMap.keys]) hms (by rw [hbb]; simp) h32
  subst hout
  have hl : loadOrEmpty got.metadata MException = lib.jsonEnc e := by
    rw [loadOrEmpty_wire hgm (by decide), hmm]
    simp [loadOrEmpty, AMap.load_cons, wireText, j3]
  have hs : got.header.getStatus = 1 := by rw [hgh, hst]
  refine ⟨got, ?_⟩
  have : ∃ r, convertToResponse lib ser' got = .ok r ∧ r.id = id ∧ r.exception = some e ∧ r.value.isNone = true := by
    rw [convertToResponse]
    simp only [hs, show ¬ (1 = 0) by decide, false_and, if_false, exceptionOf, if_true, hl, ne_eq, j2,
      not_false_eq_true, j1]
    exact ⟨_, rfl, by rw [← hid, ← hgh], rfl, rfl⟩
  obtain ⟨r, h1, h2⟩ := this
  exact ⟨r, hres, h1, h2⟩

/-! ### The hypotheses can be met -/

/-- A toy compression and JSON codec that satisfy the assumptions. -/
def toyLib : Lib where
  gzip b := some (0x1f :: b)
  gunzip | 0x1f :: b => some b | _ => none
  jsonEnc e := formatInt e.errCode
  jsonDec s := some (some ⟨(parseInt64 s).1, [], 0⟩)

theorem toyLib_gzip : GzipLawful toyLib := by
  intro b z _ h
  simp only [toyLib, Option.some.injEq] at h
  subst h; exact ⟨by simp, rfl⟩

theorem toyLib_json : JsonLawful toyLib ⟨503, [], 0⟩ := by
  unfold JsonLawful; decide +kernel

/-- A compressed call with two arguments, an attachment and a method description. -/
def sampleRequest : Request where
  id := 0xfedcba9876543210
  service := b!"com.weibo.Hello"
  method := b!"say"
  desc := b!"string"
  args := [.val (.str b!"hello"), .val (.int 5)]
  attachment := [(b!"M_g", b!"group"), (b!"trace", b!"1")]
  rc := { gzipSize := 2 }

example : ∃ msg, convertToReqMessage toyLib (some simpleSer) sampleRequest = .ok msg ∧
    msg.header.isGzip = true ∧ metaSize msg.metadata ≤ 1000 ∧ msg.body.length ≤ 1000 ∧
    ¬ Relayed sampleRequest.rc ∧ sampleRequest.attachment.NodupKeys :=
  ⟨_, rfl, by decide +kernel, by decide +kernel, by decide +kernel, by rintro ⟨h, _⟩; exact absurd h (by decide),
    by decide⟩

def sampleResponse : Response where
  id := 9
  value := some (.val (.str b!"world"))
  exception := none
  processTime := 0
  attachment := [(b!"x", b!"y")]

example : ∃ msg, convertToResMessage toyLib (some simpleSer) sampleResponse = .ok msg ∧
    metaSize msg.metadata ≤ 1000 ∧ msg.body.length ≤ 1000 ∧ msg.body ≠ [] :=
  ⟨_, rfl, by decide +kernel, by decide +kernel, by decide +kernel⟩

example : ∃ msg, convertToResMessage toyLib (some simpleSer) { sampleResponse with exception := some ⟨503, [], 0⟩ } = .ok msg ∧
    msg.header.getStatus = 1 := ⟨_, rfl, by decide +kernel⟩

/-- A proxied message, as `relay_preserves` and `proxy_keeps_id` expect it. -/
example : ∃ msg r, msg.header.isProxy = true ∧ msg.metadata.load b!"M_rid" = none ∧ msg.body ≠ [] ∧
    convertToRequest toyLib none msg = .ok r ∧ r.id = 0xffffffffffffffff :=
  ⟨⟨buildHeader Motan2.Req true 6 0xffffffffffffffff 0, [(b!"M_g", b!"g")], [1, 2], 0⟩, _, by decide,
    by decide, by decide, rfl, by decide⟩

/-- **C11.** The sizes recorded for the logs are those of the bodies as they came, before they are decompressed. -/
theorem recorded_sizes (lib : Lib) (ser : Option Ser) (msg : Message) :
    (∀ r, convertToRequest lib ser msg = .ok r → r.rc.bodySize = msg.body.length) ∧
    (∀ r, convertToResponse lib ser msg = .ok r →
      r.rc.bodySize = if msg.header.getStatus = 0 then msg.body.length else 0) := by
  constructor
  · intro r h
    simp only [convertToRequest] at h
    split at h
    · split at h
      · cases h
      · cases h; rfl
    · rename_i hb
      have hb : msg.body.length = 0 := by
        have : ¬ msg.body.length > 0 := hb
        omega
      cases h; exact hb.symm
  · intro r h
    simp only [convertToResponse] at h
    split at h
    · cases h
    · split at h
      · cases h
      · cases h
        dsimp only
        split
        · rename_i hn; rw [if_pos hn.1]
        · rename_i hn
          split
          · rename_i h0
            have : ¬ msg.body.length > 0 := fun hc => hn ⟨h0, hc⟩
            omega
          · rfl

end Motan.Props
