import Verif.Model.Retry
import Verif.Props.Relay
import Verif.Props.Ha

/-!
# C106 A call that is tried again asks the next server for the same
-/

namespace Motan.Props

open Motan2 (Header Message Meta)
open Convert (Lib Ser Request Response RC Arg Err loadOrEmpty convertToReqMessage encodeMessageGzip gunzipMessage requestMeta
  MGroup MPath MMethod MMethodDesc MProxyProtocol)
open Call
open Retry

namespace Spec

/-- The messages `m` and `m'` ask for the same call: the same header, except that one of them may be compressed; the same
body, once it is decompressed; the same attachments, except for the group. -/
structure AsksSame (lib : Lib) (m m' : Message) : Prop where
  header : { headerView m.header with gzip := false } = { headerView m'.header with gzip := false }
  body : (gunzipMessage lib m).body = (gunzipMessage lib m').body
  attachments : ∀ k, k ≠ b!"M_g" → m.metadata.load k = m'.metadata.load k

/-- The group of the last of the attempts that found a channel to an endpoint with a group, or `g` if there is none. -/
def lastGroup (g : Bytes) : List Attempt → Bytes
  | [] => g
  | a :: l => lastGroup (if a.channel = true ∧ a.ep.group ≠ [] then a.ep.group else g) l

end Spec

theorem groupOf_congr {m m' : Meta} (h1 : (m.load b!"M_g").getD [] = (m'.load b!"M_g").getD [])
    (h2 : m.load b!"group" = m'.load b!"group") : Spec.groupOf m = Spec.groupOf m' := by
  rw [Spec.groupOf, Spec.groupOf, h1, h2]

theorem fitGroup_group (ep : Ep) (req : Request) (hv1 : isV1 req = false) :
    Spec.groupOf (fitGroup ep req).attachment = if ep.group ≠ [] then ep.group else Spec.groupOf req.attachment := by
  obtain ⟨-, -, -, f4, f5⟩ := fitGroup_facts ep req hv1
  by_cases h : ep.group = []
  · rw [f5 h, if_neg (by simp [h])]
  · rw [f4 h, if_pos h]

/-! ### A request an agent relays -/

/-- What the attempts leave of the message of a relayed request: all but the id, the proxy flag, the compression and the
group. -/
structure StillAsks (lib : Lib) (m m0 : Message) : Prop where
  header : { headerView m.header with gzip := false, proxy := true, requestID := 0 }
    = { headerView m0.header with gzip := false, proxy := true, requestID := 0 }
  body : (gunzipMessage lib m).body = (gunzipMessage lib m0).body
  attachments : ∀ k, k ≠ b!"M_g" → m.metadata.load k = m0.metadata.load k

theorem gzip_any {lib : Lib} (hl : GzipLawful lib) (m : Message) (n : Int) :
    (gunzipMessage lib (encodeMessageGzip lib m n)).body = (gunzipMessage lib m).body ∧
    (encodeMessageGzip lib m n).metadata = m.metadata ∧
    { headerView (encodeMessageGzip lib m n).header with gzip := false } = { headerView m.header with gzip := false } := by
  cases hg : m.header.isGzip with
  | true =>
    have : encodeMessageGzip lib m n = m := by
      rw [encodeMessageGzip, if_neg (by rw [hg]; simp)]
    rw [this]; exact ⟨rfl, rfl, rfl⟩
  | false =>
    obtain ⟨g1, g2, -, g, g4⟩ := gunzip_gzip hl m n hg
    refine ⟨?_, g2, by rw [g4]⟩
    rw [g1]; simp [gunzipMessage, hg]

/-- One attempt with a relayed request. -/
theorem relayed_attempt {lib : Lib} (hl : GzipLawful lib) {r : Request} {m1 : Message} (ho : HoldsReq r m1) {ep : Ep}
    (hp : ep.proxy = true) (sid : UInt64) :
    ∃ m, requestMessage lib ep sid r = .ok m ∧
      { headerView m.header with gzip := false } = { headerView m1.header with gzip := false, proxy := true, requestID := sid } ∧
      (gunzipMessage lib m).body = (gunzipMessage lib m1).body ∧
      (∀ k, k ≠ b!"M_g" → m.metadata.load k = m1.metadata.load k) ∧
      Spec.groupOf m.metadata = (if ep.group ≠ [] then ep.group else Spec.groupOf r.attachment) := by
  have hw : HoldsReq (withContext ep r) m1 := ho
  obtain ⟨f1, f2, -, -, -⟩ := fitGroup_facts ep (withContext ep r) hw.v2
  have fgr := fitGroup_group ep (withContext ep r) hw.v2
  have fo : (fitGroup ep (withContext ep r)).rc.original = some (.v2 m1) := by rw [f1]; exact ho.1
  have fp : (fitGroup ep (withContext ep r)).rc.proxy = true := by rw [f1]; exact hp
  generalize hq : fitGroup ep (withContext ep r) = r2 at f1 f2 fgr fo fp
  generalize hgr : loadOrEmpty r2.attachment MGroup = g
  generalize hm2 : ({ m1 with metadata := m1.metadata.store MGroup g, header := m1.header.setProxy true } : Message) = m2
  obtain ⟨z1, z2, z3⟩ := gzip_any hl m2 r2.rc.gzipSize
  refine ⟨Server.withId (encodeMessageGzip lib m2 r2.rc.gzipSize) sid, ?_, ?_, ?_, ?_, ?_⟩
  · rw [requestMessage, hq, convertToReqMessage]
    simp only [fo, fp, hgr, hm2]
    rfl
  · have e : headerView (Server.withId (encodeMessageGzip lib m2 r2.rc.gzipSize) sid).header
        = { headerView (encodeMessageGzip lib m2 r2.rc.gzipSize).header with requestID := sid } := rfl
    have e2 : headerView m2.header = { headerView m1.header with proxy := true } := by
      rw [← hm2]; exact hv_setProxy _ _
    have z4 := congrArg (fun v : HeaderView => { v with requestID := sid }) z3
    simp only at z4
    rw [e, e2] at *
    exact z4
  · have : ∀ w : Message, (gunzipMessage lib (Server.withId w sid)).body = (gunzipMessage lib w).body := by
      intro w
      rw [gunzipMessage, gunzipMessage]
      have : (Server.withId w sid).header.isGzip = w.header.isGzip := rfl
      rw [this]
      cases w.header.isGzip <;> rfl
    rw [this, z1, ← hm2]
    have hgz : (m1.header.setProxy true).isGzip = m1.header.isGzip := congrArg HeaderView.gzip (hv_setProxy m1.header true)
    rw [gunzipMessage, gunzipMessage]
    simp only [hgz]
    cases m1.header.isGzip <;> rfl
  · intro k hk
    show (encodeMessageGzip lib m2 r2.rc.gzipSize).metadata.load k = _
    rw [z2, ← hm2]
    exact AMap.load_store_ne _ _ (Ne.symm hk)
  · show Spec.groupOf (encodeMessageGzip lib m2 r2.rc.gzipSize).metadata = _
    have hfin : Spec.groupOf r2.attachment = if ep.group ≠ [] then ep.group else Spec.groupOf r.attachment := fgr
    rw [z2, ← hfin, ← hm2]
    apply groupOf_congr
    · show ((m1.metadata.store MGroup g).load MGroup).getD [] = _
      rw [AMap.load_store_self]
      exact hgr.symm
    · show (m1.metadata.store MGroup g).load b!"group" = _
      rw [AMap.load_store_ne _ _ (by decide), f2 _ (by decide)]
      show _ = r.attachment.load _
      rw [ho.2]

theorem relayed_after {lib : Lib} (hl : GzipLawful lib) {r : Request} {m0 : Message} (l : List Attempt) :
    ∀ {m1 : Message}, HoldsReq r m1 → StillAsks lib m1 m0 → (∀ b ∈ l, b.ep.proxy = true) →
    ∃ m2, HoldsReq (tried lib r l) m2 ∧ StillAsks lib m2 m0 ∧
      Spec.groupOf (tried lib r l).attachment = Spec.lastGroup (Spec.groupOf r.attachment) l := by
  induction l generalizing r with
  | nil => intro m1 ho hs _; exact ⟨m1, ho, hs, rfl⟩
  | cons a l ih =>
    intro m1 ho hs hp
    have hpa := hp a (List.mem_cons_self ..)
    have hpl : ∀ b ∈ l, b.ep.proxy = true := fun b hb => hp b (List.mem_cons_of_mem _ hb)
    show ∃ m2, HoldsReq (tried lib (attempt lib r a) l) m2 ∧ _ ∧
      Spec.groupOf (tried lib (attempt lib r a) l).attachment = _
    cases hc : a.channel with
    | false =>
      have he : attempt lib r a = withContext a.ep r := by rw [attempt, hc]; simp
      rw [he, Spec.lastGroup, hc]
      simp only [Bool.false_eq_true, false_and, if_false]
      exact ih (r := withContext a.ep r) ho hs hpl
    | true =>
      obtain ⟨m, hm, h1, h2, h3, h4⟩ := relayed_attempt hl ho hpa a.streamId
      have hw : HoldsReq (withContext a.ep r) m1 := ho
      obtain ⟨f1, -, -, -, -⟩ := fitGroup_facts a.ep (withContext a.ep r) hw.v2
      have he : attempt lib r a = sent (fitGroup a.ep (withContext a.ep r)) m := by
        rw [attempt, hc, hm]; rfl
      have fo : (fitGroup a.ep (withContext a.ep r)).rc.original = some (.v2 m1) := by rw [f1]; exact ho.1
      have fp : (fitGroup a.ep (withContext a.ep r)).rc.proxy = true := by rw [f1]; exact hpa
      have ho2 : HoldsReq (attempt lib r a) m := by
        rw [he]
        refine ⟨?_, rfl⟩
        simp only [sent, fo, fp]
      have hs2 : StillAsks lib m m0 := by
        refine ⟨?_, h2.trans hs.body, fun k hk => (h3 k hk).trans (hs.attachments k hk)⟩
        have := congrArg (fun v : HeaderView => { v with proxy := true, requestID := 0 }) h1
        simp only at this
        rw [this]; exact hs.header
      have hga : (attempt lib r a).attachment = m.metadata := by rw [he]; rfl
      obtain ⟨m2, x1, x2, x3⟩ := ih ho2 hs2 hpl
      refine ⟨m2, x1, x2, ?_⟩
      rw [x3, hga, h4, Spec.lastGroup, hc]
      simp only [true_and]

/-- **C106, relayed.** An agent that has received a request in the message `m0` may have tried it at any endpoints before, with
or without a channel, whatever their groups and their settings for compression: the next endpoint is sent what it would
be sent if it were the first, except for the compression and the group. The group is that of the endpoint if it has one. -/
theorem retry_relayed {lib : Lib} (hl : GzipLawful lib) (req : Request) (m0 : Message)
    (hv2 : req.rc.original = some (.v2 m0)) (hatt : req.attachment = m0.metadata)
    (before : List Attempt) (hb : ∀ b ∈ before, b.ep.proxy = true) (ep : Ep) (hp : ep.proxy = true) (sid : UInt64) :
    ∃ m m', requestMessage lib ep sid (tried lib req before) = .ok m ∧ requestMessage lib ep sid req = .ok m' ∧
      Spec.AsksSame lib m m' ∧ m.header.requestID = sid ∧
      Spec.groupOf m.metadata
        = if ep.group ≠ [] then ep.group else Spec.lastGroup (Spec.groupOf req.attachment) before := by
  obtain ⟨m2, x1, x2, x3⟩ := relayed_after hl (r := req) (m0 := m0) before ⟨hv2, hatt⟩ ⟨rfl, rfl, fun _ _ => rfl⟩ hb
  obtain ⟨m, hm, h1, h2, h3, h4⟩ := relayed_attempt hl x1 hp sid
  obtain ⟨m', hm', g1, g2, g3, -⟩ := relayed_attempt hl (r := req) ⟨hv2, hatt⟩ hp sid
  refine ⟨m, m', hm, hm', ⟨?_, ?_, ?_⟩, ?_, ?_⟩
  · rw [h1, g1]
    have := congrArg (fun v : HeaderView => { v with requestID := sid }) x2.header
    exact this
  · rw [h2, g2, x2.body]
  · intro k hk; rw [h3 k hk, g3 k hk, x2.attachments k hk]
  · exact congrArg HeaderView.requestID h1
  · rw [h4, x3]

/-! ### A request of a client -/

/-- `att` is a state of the attachments that the attempts may leave for a request that had `att0`. -/
def Grown (req : Request) (att : Meta) : Prop :=
  (∀ k, k ≠ b!"M_g" → att.load k = req.attachment.load k) ∨
  (∀ k, k ≠ b!"M_g" → att.load k = (requestMeta req).load k)

theorem load_requestMeta_pp (req : Request) : (requestMeta req).load MProxyProtocol
    = if (req.attachment.load MProxyProtocol).getD [] = [] then some Convert.defaultProtocol
      else req.attachment.load MProxyProtocol := by
  have e : loadOrEmpty ((req.attachment.store MPath req.service).store MMethod req.method) MProxyProtocol
      = (req.attachment.load MProxyProtocol).getD [] := by
    rw [loadOrEmpty, AMap.load_store_ne _ _ (by decide), AMap.load_store_ne _ _ (by decide)]
  have e2 : ((req.attachment.store MPath req.service).store MMethod req.method).load MProxyProtocol
      = req.attachment.load MProxyProtocol := by
    rw [AMap.load_store_ne _ _ (by decide), AMap.load_store_ne _ _ (by decide)]
  simp only [requestMeta]
  rw [e]
  by_cases h : (req.attachment.load MProxyProtocol).getD [] = []
  · rw [if_pos h, if_pos h]
    split
    · rw [AMap.load_store_ne _ _ (by decide), AMap.load_store_self]
    · rw [AMap.load_store_self]
  · rw [if_neg h, if_neg h]
    split
    · rw [AMap.load_store_ne _ _ (by decide), e2]
    · rw [e2]

/-- What is added to grown attachments is what was added to the attachments at first. -/
theorem requestMeta_grown {req r : Request} (hs : r.service = req.service) (hm : r.method = req.method)
    (hd : r.desc = req.desc) (hg : Grown req r.attachment) (k : Bytes) (hk : k ≠ b!"M_g") :
    (requestMeta r).load k = (requestMeta req).load k := by
  by_cases k1 : k = MPath
  · rw [k1, load_requestMeta_path, load_requestMeta_path, hs]
  by_cases k2 : k = MMethod
  · rw [k2, load_requestMeta_method, load_requestMeta_method, hm]
  by_cases k3 : k = MMethodDesc
  · rw [k3, load_requestMeta_desc, load_requestMeta_desc, hd]
    split
    · rfl
    · rename_i h
      rcases hg with hg | hg
      · exact hg _ (by decide)
      · rw [hg _ (by decide), load_requestMeta_desc, if_neg h]
  by_cases k4 : k = MProxyProtocol
  · rw [k4, load_requestMeta_pp, load_requestMeta_pp]
    rcases hg with hg | hg
    · rw [hg _ (by decide)]
    · rw [hg _ (by decide), load_requestMeta_pp]
      by_cases h : (req.attachment.load MProxyProtocol).getD [] = []
      · rw [if_pos h, if_neg (by decide)]
      · rw [if_neg h, if_neg h]
  · rw [load_requestMeta_other r k k1 k2 k3 k4, load_requestMeta_other req k k1 k2 k3 k4]
    rcases hg with hg | hg
    · exact hg k hk
    · rw [hg k hk, load_requestMeta_other req k k1 k2 k3 k4]

/-- The request `r` is `req` after some attempts. -/
structure After (req r : Request) : Prop where
  original : r.rc.original = none
  id : r.id = req.id
  service : r.service = req.service
  method : r.method = req.method
  desc : r.desc = req.desc
  args : r.args = req.args
  oneway : r.rc.oneway = req.rc.oneway
  serialized : r.rc.serialized = req.rc.serialized
  serializeNum : r.rc.serializeNum = req.rc.serializeNum
  grown : Grown req r.attachment
  nodup : req.attachment.NodupKeys → r.attachment.NodupKeys

theorem After.fit {req r : Request} (h : After req r) (ep : Ep) : After req (fitGroup ep (withContext ep r)) ∧
    (fitGroup ep (withContext ep r)).rc.proxy = ep.proxy ∧ (fitGroup ep (withContext ep r)).rc.gzipSize = ep.gzipSize := by
  have hv : isV1 (withContext ep r) = false := by
    have : (withContext ep r).rc.original = none := h.original
    simp only [isV1, this]
  obtain ⟨f1, f2, f3, -, -⟩ := fitGroup_facts ep (withContext ep r) hv
  generalize fitGroup ep (withContext ep r) = r2 at f1 f2 f3
  rw [f1]
  refine ⟨⟨h.original, h.id, h.service, h.method, h.desc, h.args, h.oneway, h.serialized, h.serializeNum, ?_,
    fun hn => f3 (h.nodup hn)⟩, rfl, rfl⟩
  show Grown req r2.attachment
  rcases h.grown with g | g
  · exact .inl fun k hk => (f2 k hk).trans (g k hk)
  · exact .inr fun k hk => (f2 k hk).trans (g k hk)

/-- The conversion of a request that has been tried, next to that of the request as it was. -/
theorem After.convert {lib : Lib} {req r r0 : Request} {ser : Option Ser} (h : After req r) (h0 : After req r0)
    (hp : r.rc.proxy = r0.rc.proxy) (hz : r.rc.gzipSize = r0.rc.gzipSize) :
    (∃ e, convertToReqMessage lib ser r = .error e ∧ convertToReqMessage lib ser r0 = .error e) ∨
    (∃ m m', convertToReqMessage lib ser r = .ok m ∧ convertToReqMessage lib ser r0 = .ok m' ∧
      m.header = m'.header ∧ m.body = m'.body ∧ m.metadata = requestMeta r ∧ m'.metadata = requestMeta r0) := by
  have hn : Convert.serialNum ser r.rc = Convert.serialNum ser r0.rc := by
    simp only [Convert.serialNum, h.serialized, h0.serialized, h.serializeNum, h0.serializeNum]
  have hb : Convert.requestBody ser r = Convert.requestBody ser r0 := by
    simp only [Convert.requestBody, h.serialized, h0.serialized, h.args, h0.args]
  have hf : ∀ x, Convert.requestFlags x r.rc = Convert.requestFlags x r0.rc := by
    intro x; rw [Convert.requestFlags, Convert.requestFlags, h.oneway, h0.oneway, hp]
  simp only [convertToReqMessage, h.original, h0.original, hn, hb, hz, h.id, h0.id, hf, hp]
  cases r0.rc.proxy <;> simp only <;> cases Convert.serialNum ser r0.rc <;> simp only <;>
    first
    | exact .inl ⟨_, rfl, rfl⟩
    | (cases Convert.requestBody ser r0 <;> simp only <;>
        first
        | exact .inl ⟨_, rfl, rfl⟩
        | exact .inr ⟨_, _, rfl, rfl, rfl, rfl, rfl, rfl⟩)

theorem groupOf_requestMeta (r : Request) : Spec.groupOf (requestMeta r) = Spec.groupOf r.attachment :=
  groupOf_congr (by rw [load_requestMeta_other r _ (by decide) (by decide) (by decide) (by decide)])
    (load_requestMeta_other r _ (by decide) (by decide) (by decide) (by decide))

theorem client_after (lib : Lib) {req : Request} (l : List Attempt) : ∀ {r : Request}, After req r →
    After req (tried lib r l) ∧
    Spec.groupOf (tried lib r l).attachment = Spec.lastGroup (Spec.groupOf r.attachment) l := by
  induction l with
  | nil => intro r h; exact ⟨h, rfl⟩
  | cons a l ih =>
    intro r h
    show After req (tried lib (attempt lib r a) l) ∧ Spec.groupOf (tried lib (attempt lib r a) l).attachment = _
    cases hc : a.channel with
    | false =>
      have he : attempt lib r a = withContext a.ep r := by rw [attempt, hc]; simp
      rw [he, Spec.lastGroup, hc]
      simp only [Bool.false_eq_true, false_and, if_false]
      have hw : After req (withContext a.ep r) := ⟨h.original, h.id, h.service, h.method, h.desc, h.args, h.oneway, h.serialized,
        h.serializeNum, h.grown, h.nodup⟩
      exact ih hw
    | true =>
      obtain ⟨hf, -, -⟩ := h.fit a.ep
      have hv : isV1 (withContext a.ep r) = false := by
        have : (withContext a.ep r).rc.original = none := h.original
        simp only [isV1, this]
      have fgr := fitGroup_group a.ep (withContext a.ep r) hv
      have hlg : Spec.lastGroup (Spec.groupOf r.attachment) (a :: l)
          = Spec.lastGroup (Spec.groupOf (fitGroup a.ep (withContext a.ep r)).attachment) l := by
        rw [Spec.lastGroup, hc, fgr]; simp only [true_and]; rfl
      rw [hlg]
      rcases After.convert (lib := lib) (ser := a.ep.ser) hf hf rfl rfl with ⟨e, c1, -⟩ | ⟨m, _, c1, -, -, -, c5, -⟩
      · have he : attempt lib r a = fitGroup a.ep (withContext a.ep r) := by
          rw [attempt, hc, requestMessage, c1]; rfl
        rw [he]; exact ih hf
      · have he : attempt lib r a = sent (fitGroup a.ep (withContext a.ep r)) (Server.withId m a.streamId) := by
          rw [attempt, hc, requestMessage, c1]; rfl
        rw [he]
        generalize fitGroup a.ep (withContext a.ep r) = r2 at hf c5
        have hs : After req (sent r2 (Server.withId m a.streamId)) := by
          refine ⟨?_, hf.id, hf.service, hf.method, hf.desc, hf.args, hf.oneway, hf.serialized, hf.serializeNum, .inr ?_,
            ?_⟩
          · simp only [sent, hf.original]
            cases r2.rc.proxy <;> rfl
          · intro k hk
            show m.metadata.load k = _
            rw [c5]
            exact requestMeta_grown hf.service hf.method hf.desc hf.grown k hk
          · intro hn
            show m.metadata.NodupKeys
            rw [c5]; exact nodup_requestMeta (hf.nodup hn)
        have hgm : Spec.groupOf r2.attachment = Spec.groupOf (sent r2 (Server.withId m a.streamId)).attachment := by
          show _ = Spec.groupOf m.metadata
          rw [c5, groupOf_requestMeta]
        rw [hgm]
        exact ih hs

/-- **C106, of a client.** A request that a client has built may have been tried at any endpoints before: the next endpoint is
sent what it would be sent if it were the first, but for the group, or the call fails at it with the error with which
it would fail if it were the first. -/
theorem retry_client (lib : Lib) (req : Request) (hn : req.rc.original = none) (before : List Attempt) (ep : Ep) (sid : UInt64) :
    (∀ e, requestMessage lib ep sid (tried lib req before) = .error e ↔ requestMessage lib ep sid req = .error e) ∧
    (∀ m, requestMessage lib ep sid (tried lib req before) = .ok m →
      ∃ m', requestMessage lib ep sid req = .ok m' ∧ m.header = m'.header ∧ m.body = m'.body ∧
        Spec.AsksSame lib m m' ∧ m.header.requestID = sid ∧
        Spec.groupOf m.metadata
          = if ep.group ≠ [] then ep.group else Spec.lastGroup (Spec.groupOf req.attachment) before) := by
  have h0 : After req req := ⟨hn, rfl, rfl, rfl, rfl, rfl, rfl, rfl, rfl, .inl fun _ _ => rfl, fun h => h⟩
  obtain ⟨h, hg⟩ := client_after lib before h0
  obtain ⟨a1, a2, a3⟩ := h.fit ep
  obtain ⟨b1, b2, b3⟩ := h0.fit ep
  have hv : isV1 (withContext ep (tried lib req before)) = false := by
    have : (withContext ep (tried lib req before)).rc.original = none := h.original
    simp only [isV1, this]
  have fgr := fitGroup_group ep (withContext ep (tried lib req before)) hv
  rcases After.convert (lib := lib) (ser := ep.ser) a1 b1 (a2.trans b2.symm) (a3.trans b3.symm) with
    ⟨e, c1, c2⟩ | ⟨m, m', c1, c2, c3, c4, c5, c6⟩
  · refine ⟨?_, ?_⟩
    · intro e'; rw [requestMessage, requestMessage, c1, c2]
    · intro m hm; rw [requestMessage, c1] at hm; cases hm
  · refine ⟨?_, ?_⟩
    · intro e'; rw [requestMessage, requestMessage, c1, c2]
      constructor <;> intro hx <;> cases hx
    · intro mm hm
      rw [requestMessage, c1] at hm
      have hm' : mm = Server.withId m sid := by cases hm; rfl
      subst hm'
      refine ⟨Server.withId m' sid, by rw [requestMessage, c2]; rfl, ?_, c4, ⟨?_, ?_, ?_⟩, rfl, ?_⟩
      · show ({ m.header with requestID := sid } : Header) = { m'.header with requestID := sid }
        rw [c3]
      · show ({ headerView ({ m.header with requestID := sid } : Header) with gzip := false } : HeaderView) = _
        rw [c3]; rfl
      · rw [gunzipMessage, gunzipMessage]
        have e1 : (Server.withId m sid).header = (Server.withId m' sid).header := by
          show ({ m.header with requestID := sid } : Header) = { m'.header with requestID := sid }
          rw [c3]
        have e2 : (Server.withId m sid).body = (Server.withId m' sid).body := c4
        rw [e1]
        split
        · show Convert.decodeGzipBody lib (Server.withId m sid).body = _
          rw [e2]
        · exact e2
      · intro k hk
        show m.metadata.load k = m'.metadata.load k
        rw [c5, c6, requestMeta_grown a1.service a1.method a1.desc a1.grown k hk,
          requestMeta_grown b1.service b1.method b1.desc b1.grown k hk]
      · show Spec.groupOf m.metadata = _
        rw [c5, groupOf_requestMeta, fgr, ← hg]
        rfl

theorem Grown.load {req : Request} {att : Meta} (h : Grown req att) {k : Bytes} (hk : k ≠ b!"M_g") (h1 : k ≠ b!"M_p")
    (h2 : k ≠ b!"M_m") (h3 : k ≠ b!"M_md") (h4 : k ≠ b!"M_pp") : att.load k = req.attachment.load k := by
  rcases h with h | h
  · exact h k hk
  · rw [h k hk]; exact load_requestMeta_other req k h1 h2 h3 h4

/-- A call that meets the assumptions of C62 meets them after attempts at other endpoints. -/
theorem plain_tried {p : Peer} {ep : Ep} {sid : UInt64} {req : Request} {vs : List Simple.Val}
    (hp : Spec.PlainCall p ep sid req vs) (hn : req.rc.original = none) (before : List Attempt)
    (hf : Spec.ShortMessage p.maxLen (requestMessage p.env.lib ep sid (tried p.env.lib req before))) :
    Spec.PlainCall p ep sid (tried p.env.lib req before) vs := by
  have h0 : After req req := ⟨hn, rfl, rfl, rfl, rfl, rfl, rfl, rfl, rfl, .inl fun _ _ => rfl, fun h => h⟩
  obtain ⟨h, -⟩ := client_after p.env.lib before h0
  refine ⟨hp.gzip, hp.server, hp.registered, hp.client, hp.serialization, ?_, h.serialized.trans hp.raw, h.args.trans hp.args,
    hp.supported, hp.storable, ?_, h.nodup hp.attachments, hf, hp.bound⟩
  · have : (tried p.env.lib req before).rc.original = none := h.original
    simp only [isV1, this]
  · intro bs hb
    apply hp.short
    have ha : (tried p.env.lib req before).args = req.args := h.args
    have hs : (tried p.env.lib req before).rc.serialized = req.rc.serialized := h.serialized
    cases hb with
    | none h1 => exact .none (by rw [← ha]; exact h1)
    | raw _ h1 h2 => exact .raw _ (by rw [← hs]; exact h1) (by rw [← ha]; exact h2)
    | enc s _ h1 h2 h3 h4 => exact .enc s _ (by rw [← hs]; exact h1) (by rw [← ha]; exact h2) h3 (by rw [← ha]; exact h4)

/-- What a handler sees after attempts at other endpoints is the caller's request. -/
theorem sees_tried (lib : Lib) {ep : Ep} {ip : Bytes} {sid : UInt64} {req : Request} {vs : List Simple.Val}
    (hn : req.rc.original = none) (before : List Attempt) {r : Request}
    (g1 : Spec.Sees ep ip sid (tried lib req before) vs r) : Spec.Sees ep ip sid req vs r := by
  have h0 : After req req := ⟨hn, rfl, rfl, rfl, rfl, rfl, rfl, rfl, rfl, .inl fun _ _ => rfl, fun h => h⟩
  obtain ⟨h, -⟩ := client_after lib before h0
  refine ⟨?_, ?_, ?_, ?_, g1.args, ?_, g1.host, g1.group⟩
  · rw [g1.service, show (tried lib req before).service = req.service from h.service]
  · rw [g1.method, show (tried lib req before).method = req.method from h.method]
  · intro hd
    have e : (tried lib req before).desc = req.desc := h.desc
    rw [g1.desc (by rw [e]; exact hd), e]
  · rw [g1.id]
    have e : (tried lib req before).attachment.load Convert.MRequestID = req.attachment.load Convert.MRequestID :=
      h.grown.load (by decide) (by decide) (by decide) (by decide) (by decide)
    rw [specRequestId, specRequestId, e]
  · intro k v hk
    rw [g1.attachments k v hk]
    simp only [List.mem_cons, List.not_mem_nil, or_false, not_or] at hk
    have e : (tried lib req before).attachment.load k = req.attachment.load k :=
      h.grown.load hk.2.2.2.2.2.1 hk.1 hk.2.1 hk.2.2.1 hk.2.2.2.1
    rw [e]

/-- **C106, end to end.** A client calls a server after any attempts at other endpoints: the handler of this server is given
the caller's request, and the caller gets this handler's answer, as if no other endpoint had been tried. (`p` is the server;
what `Sees` and `Delivered` say is spelled out with C62.) -/
theorem retry_end_to_end {p : Peer} {ep : Ep} {sid : UInt64} {req : Request} {vs : List Simple.Val}
    (hp : Spec.PlainCall p ep sid req vs) (hn : req.rc.original = none) (before : List Attempt)
    (hf : Spec.ShortMessage p.maxLen (requestMessage p.env.lib ep sid (tried p.env.lib req before)))
    (buf : Option Motan.BytesBuffer) (hr : Motan2.Reusable buf) (hpb : Motan2.Reusable p.buf)
    (maxLen : Nat) (h32 : maxLen < 2 ^ 32) (errText : Err → Bytes) (version : Int) :
    let r0 := tried p.env.lib req before
    let out := call p.env.lib errText ep r0 .none version (exchange p errText ep maxLen buf sid r0)
    ∃ r, Spec.Sees ep p.ip sid req vs r ∧
      (∀ res, p.handler r = .returned (some res) → Spec.Answerable p maxLen res.r → Spec.Delivered req res.r out) ∧
      (p.handler r = .panicked → out.resp.id = req.id ∧ out.recorded = out.resp.exception ∧
        ∃ text, out.resp.exception = some ⟨400, b!"channel call error:" ++ text, 1⟩) := by
  intro r0 out
  have h0 : After req req := ⟨hn, rfl, rfl, rfl, rfl, rfl, rfl, rfl, rfl, .inl fun _ _ => rfl, fun h => h⟩
  obtain ⟨h, -⟩ := client_after p.env.lib before h0
  obtain ⟨r, g1, g2, -, g4⟩ := call_end_to_end (plain_tried hp hn before hf) buf hr hpb maxLen h32 errText version
  refine ⟨r, sees_tried _ hn before g1, ?_, ?_⟩
  · intro res h1 h2
    have d := g2 res h1 h2
    exact ⟨d.id.trans h.id, d.exception, d.value, d.noValue, d.attachments, d.counted, d.cleared⟩
  · intro h1
    obtain ⟨x1, x2⟩ := g4 h1
    exact ⟨x1.trans h.id, x2⟩

/-! ### Failover, end to end -/

namespace Spec

/-- The endpoint `x` can be called with the request of the caller, if there is a server behind it: the assumptions of C62, and
the message is not too long. -/
def Callable (lib : Lib) (req : Request) (vs : List Simple.Val) (rounds : Nat → Round) (k : Nat) : Prop :=
  ∀ p buf maxLen, (rounds k).net = .server p buf maxLen →
    PlainCall p (rounds k).ep (rounds k).streamId req vs ∧ p.env.lib = lib ∧ Motan2.Reusable buf ∧ Motan2.Reusable p.buf ∧
    maxLen < 2 ^ 32 ∧
    ShortMessage p.maxLen (requestMessage lib (rounds k).ep (rounds k).streamId (requestAt lib req rounds k))

/-- There is nobody behind the endpoint, or the handler of its server, given the caller's request, panics or answers with an
exception that is not the business's. -/
def RoundFails (req : Request) (vs : List Simple.Val) (x : Round) : Prop :=
  match x.net with
  | .down c => ∀ got, c ≠ .answered got
  | .server p _ maxLen => ∀ r, Sees x.ep p.ip x.streamId req vs r →
      p.handler r = .panicked ∨ ∃ res, p.handler r = .returned (some res) ∧ Answerable p maxLen res.r ∧ Failed res.r

end Spec

theorem not_good {r : Response} (h : Spec.Failed r) : ¬ Spec.GoodResponse r := by
  obtain ⟨e, h1, h2⟩ := h
  rintro (h3 | ⟨e', h3, h4⟩)
  · rw [h1] at h3; cases h3
  · rw [h1] at h3; cases h3; exact h2 h4

theorem resultAt_server {lib : Lib} {errText : Err → Bytes} {version : Nat → Int} {req : Request} {vs : List Simple.Val}
    (hn : req.rc.original = none) {rounds : Nat → Round} {k : Nat} (hc : Spec.Callable lib req vs rounds k)
    {p : Peer} {buf : Option Motan.BytesBuffer} {maxLen : Nat} (hs : (rounds k).net = .server p buf maxLen) :
    ∃ r, Spec.Sees (rounds k).ep p.ip (rounds k).streamId req vs r ∧
      (∀ res, p.handler r = .returned (some res) → Spec.Answerable p maxLen res.r →
        Spec.Delivered req res.r (resultAt lib errText version req rounds k)) ∧
      (p.handler r = .panicked → Spec.Failed (resultAt lib errText version req rounds k).resp) := by
  obtain ⟨c1, c2, c3, c4, c5, c6⟩ := hc p buf maxLen hs
  subst c2
  obtain ⟨r, h1, h2, h3⟩ := retry_end_to_end c1 hn _ c6 buf c3 c4 maxLen c5 errText (version k)
  have e : resultAt p.env.lib errText version req rounds k
      = call p.env.lib errText (rounds k).ep (requestAt p.env.lib req rounds k) .none (version k)
          (exchange p errText (rounds k).ep maxLen buf (rounds k).streamId (requestAt p.env.lib req rounds k)) := by
    rw [resultAt, Round.chan, hs]
  refine ⟨r, h1, ?_, ?_⟩
  · intro res g1 g2
    rw [e]; exact h2 res g1 g2
  · intro g
    obtain ⟨-, -, text, h4⟩ := h3 g
    rw [e]
    exact ⟨_, h4, by show (1 : Int) ≠ 2; decide⟩

theorem resultAt_fails {lib : Lib} {errText : Err → Bytes} {version : Nat → Int} {req : Request} {vs : List Simple.Val}
    (hn : req.rc.original = none) {rounds : Nat → Round} {k : Nat} (hc : Spec.Callable lib req vs rounds k)
    (hf : Spec.RoundFails req vs (rounds k)) : Spec.Failed (resultAt lib errText version req rounds k).resp := by
  cases hs : (rounds k).net with
  | down c =>
    rw [Spec.RoundFails, hs] at hf
    rw [resultAt, Round.chan, hs]
    cases c with
    | null => exact ⟨_, rfl, by decide⟩
    | refused => exact ⟨_, rfl, by decide⟩
    | failed err => exact ⟨_, rfl, by show (1 : Int) ≠ 2; decide⟩
    | answered got => exact absurd rfl (hf got)
  | server p buf maxLen =>
    obtain ⟨r, h1, h2, h3⟩ := resultAt_server (errText := errText) (version := version) hn hc hs
    rw [Spec.RoundFails, hs] at hf
    rcases hf r h1 with g | ⟨res, g1, g2, e, g3, g4⟩
    · exact h3 g
    · exact ⟨e, (h2 res g1 g2).exception.trans g3, g4⟩

/-- **C106, failover.** A client calls through failover with `n` retries, and the first `k ≤ n` endpoints fail: there is no
connection, or the server's handler panics or answers with an exception of its framework. The next endpoint's server has a
handler that answers, with a value or a business exception. Then this handler was given the caller's request, the caller
gets its answer, and exactly these `k + 1` endpoints have been called, in this order. -/
theorem failover_end_to_end {lib : Lib} (errText : Err → Bytes) (version : Nat → Int) (u : Url.URL) {req : Request}
    {vs : List Simple.Val} (hn : req.rc.original = none) (rounds : Nat → Round) {k n : Nat}
    (hr : Ha.failoverRetries u req.method req.desc = n) (hkn : k ≤ n)
    (hc : ∀ j, j ≤ k → Spec.Callable lib req vs rounds j)
    (hf : ∀ j, j < k → Spec.RoundFails req vs (rounds j))
    {p : Peer} {buf : Option Motan.BytesBuffer} {maxLen : Nat} (hs : (rounds k).net = .server p buf maxLen)
    (ha : ∀ r, Spec.Sees (rounds k).ep p.ip (rounds k).streamId req vs r →
      ∃ res, p.handler r = .returned (some res) ∧ Spec.Answerable p maxLen res.r ∧ ¬ Spec.Failed res.r) :
    ∃ r res out, Spec.Sees (rounds k).ep p.ip (rounds k).streamId req vs r ∧ p.handler r = .returned (some res) ∧
      Spec.Delivered req res.r out ∧
      failover lib errText version u req rounds = (out.resp, (List.range (k + 1)).map fun j => (rounds j).ep) := by
  obtain ⟨r, h1, h2, -⟩ := resultAt_server (errText := errText) (version := version) hn (hc k (Nat.le_refl _)) hs
  obtain ⟨res, g1, g2, g3⟩ := ha r h1
  have hd := h2 res g1 g2
  refine ⟨r, res, _, h1, g1, hd, ?_⟩
  have hgood : Spec.GoodResponse (resultAt lib errText version req rounds k).resp := by
    cases he : res.r.exception with
    | none => exact .inl (hd.exception.trans he)
    | some e =>
      refine .inr ⟨e, hd.exception.trans he, ?_⟩
      exact Classical.byContradiction fun h => g3 ⟨e, he, h⟩
  have hbad : ∀ j, j < k → ¬ Spec.GoodResponse (resultAt lib errText version req rounds j).resp := fun j hj =>
    not_good (resultAt_fails hn (hc j (Nat.le_of_lt hj)) (hf j hj))
  have spec := failover_spec u req.method req.desc req.id
    (fun j => Ha.Attempt.call (rounds j).ep (some (resultAt lib errText version req rounds j).resp)) n hr
  change failover lib errText version u req rounds = _
  have hx : Ha.failoverCall u req.method req.desc req.id
    (fun j => Ha.Attempt.call (rounds j).ep (some (resultAt lib errText version req rounds j).resp))
    = failover lib errText version u req rounds := rfl
  rw [hx] at spec
  generalize failover lib errText version u req rounds = x at spec
  obtain ⟨x1, x2⟩ := x
  obtain ⟨-, s2, s3, s4⟩ := spec
  have failed_at : ∀ j, Spec.FailedAttempt (Ha.Attempt.call (rounds j).ep (some (resultAt lib errText version req rounds j).resp)) →
      ¬ Spec.GoodResponse (resultAt lib errText version req rounds j).resp := by
    rintro j ⟨ep, o, e1, e2⟩
    simp only [Ha.Attempt.call.injEq] at e1
    exact e2 _ e1.2.symm
  have hlist : ∀ m, x2.length = m → x2 = (List.range m).map fun j => (rounds j).ep := by
    intro m hm
    apply List.ext_getElem?
    intro i
    by_cases hi : i < m
    · have h4 : x2[i]? = some x2[i] := List.getElem?_eq_getElem (by omega)
      obtain ⟨o, ho⟩ := s2 i _ h4
      simp only [Ha.Attempt.call.injEq] at ho
      rw [h4, ← ho.1]
      simp [hi]
    · rw [List.getElem?_eq_none (by omega), List.getElem?_eq_none (by simp; omega)]
  rcases s4 with ⟨m, ep, r', t1, t2, t3, t4⟩ | ⟨m, -, -, t3, -⟩ | ⟨t1, t2, -⟩
  · simp only [Ha.Attempt.call.injEq, Option.some.injEq] at t2
    have hmk : m = k := by
      rcases Nat.lt_trichotomy m k with h | h | h
      · exact absurd (by rw [t2.2]; exact t3) (hbad m h)
      · exact h
      · have := s3 k (by simp only at t1 ⊢; omega)
        exact absurd hgood (failed_at k this)
    subst hmk
    have e1 : x1 = r' := t4
    rw [e1, ← t2.2, hlist _ t1]
  · cases t3
  · exact absurd hgood (failed_at k (t2 k hkn))

/-- **C106, failover.** If all `n + 1` endpoints fail the caller gets an exception that is not the business's, under the id
of its request. -/
theorem failover_all_fail {lib : Lib} (errText : Err → Bytes) (version : Nat → Int) (u : Url.URL) {req : Request}
    {vs : List Simple.Val} (hn : req.rc.original = none) (rounds : Nat → Round) {n : Nat}
    (hr : Ha.failoverRetries u req.method req.desc = n)
    (hc : ∀ j, j ≤ n → Spec.Callable lib req vs rounds j)
    (hf : ∀ j, j ≤ n → Spec.RoundFails req vs (rounds j)) :
    Spec.Failed (failover lib errText version u req rounds).1 ∧ (failover lib errText version u req rounds).1.id = req.id ∧
    (failover lib errText version u req rounds).2.length = n + 1 := by
  have hbad : ∀ j, j ≤ n → Spec.Failed (resultAt lib errText version req rounds j).resp := fun j hj =>
    resultAt_fails hn (hc j hj) (hf j hj)
  have hid : ∀ j, (resultAt lib errText version req rounds j).resp.id = req.id := by
    intro j
    have h0 : After req req := ⟨hn, rfl, rfl, rfl, rfl, rfl, rfl, rfl, rfl, .inl fun _ _ => rfl, fun h => h⟩
    obtain ⟨h, -⟩ := client_after lib ((List.range j).map fun i => (rounds i).attempt) h0
    rw [resultAt, call_keeps_id]
    exact h.id
  have spec := failover_spec u req.method req.desc req.id
    (fun j => Ha.Attempt.call (rounds j).ep (some (resultAt lib errText version req rounds j).resp)) n hr
  have hx : Ha.failoverCall u req.method req.desc req.id
    (fun j => Ha.Attempt.call (rounds j).ep (some (resultAt lib errText version req rounds j).resp))
    = failover lib errText version u req rounds := rfl
  rw [hx] at spec
  generalize failover lib errText version u req rounds = x at spec
  obtain ⟨x1, x2⟩ := x
  obtain ⟨s1, -, -, s4⟩ := spec
  rcases s4 with ⟨m, ep, r', t1, t2, t3, -⟩ | ⟨m, -, -, t3, -⟩ | ⟨t1, -, t3⟩
  · simp only [Ha.Attempt.call.injEq, Option.some.injEq] at t2
    have hm : m ≤ n := by simp only at t1 s1; omega
    exact absurd (by rw [t2.2]; exact t3) (not_good (hbad m hm))
  · cases t3
  · rcases t3 with ⟨ep, r', t4, t5⟩ | ⟨ep, t4, -⟩
    · simp only [Ha.Attempt.call.injEq, Option.some.injEq] at t4
      have e1 : x1 = r' := t5
      refine ⟨?_, ?_, t1⟩
      · rw [e1, ← t4.2]; exact hbad n (Nat.le_refl _)
      · rw [e1, ← t4.2]; exact hid n
    · simp only [Ha.Attempt.call.injEq] at t4
      cases t4.2

namespace Spec

/-- There is a connection to the endpoint of this round, even if the call fails. -/
def Connected (x : Round) : Prop := x.net ≠ .down .null ∧ x.net ≠ .down .refused

end Spec

private theorem attempt_channel (x : Round) : x.attempt.channel = true ↔ Spec.Connected x := by
  obtain ⟨ep, sid, net⟩ := x
  cases net with
  | down c => cases c <;> simp [Round.attempt, Spec.Connected]
  | server p b n => simp [Round.attempt, Spec.Connected]

private theorem lastGroup_append (a : Attempt) (l : List Attempt) : ∀ g, Spec.lastGroup g (l ++ [a])
    = if a.channel = true ∧ a.ep.group ≠ [] then a.ep.group else Spec.lastGroup g l := by
  induction l with
  | nil => intro g; rfl
  | cons b l ih => intro g; exact ih _

private theorem lastGroup_rounds (rounds : Nat → Round) (g : Bytes) (k : Nat) :
    (∀ j, j < k → Spec.Connected (rounds j) → (rounds j).ep.group ≠ [] →
      (∀ i, j < i → i < k → ¬ Spec.Connected (rounds i) ∨ (rounds i).ep.group = []) →
      Spec.lastGroup g ((List.range k).map fun i => (rounds i).attempt) = (rounds j).ep.group) ∧
    ((∀ i, i < k → ¬ Spec.Connected (rounds i) ∨ (rounds i).ep.group = []) →
      Spec.lastGroup g ((List.range k).map fun i => (rounds i).attempt) = g) := by
  induction k with
  | zero => exact ⟨fun j hj => absurd hj (Nat.not_lt_zero j), fun _ => rfl⟩
  | succ k ih =>
    rw [List.range_succ, List.map_append, List.map_singleton, lastGroup_append]
    have hno : (¬ Spec.Connected (rounds k) ∨ (rounds k).ep.group = []) →
        ¬ ((rounds k).attempt.channel = true ∧ (rounds k).attempt.ep.group ≠ []) := by
      rintro (h | h) ⟨h1, h2⟩
      · exact h ((attempt_channel _).mp h1)
      · exact h2 h
    refine ⟨?_, ?_⟩
    · intro j hj hc hg hl
      rcases Nat.lt_or_ge j k with h | h
      · rw [if_neg (hno (hl k h (Nat.lt_succ_self k)))]
        exact ih.1 j h hc hg fun i h1 h2 => hl i h1 (Nat.lt_succ_of_lt h2)
      · have : j = k := by omega
        subst this
        exact if_pos ⟨(attempt_channel _).mpr hc, hg⟩
    · intro hl
      rw [if_neg (hno (hl k (Nat.lt_succ_self k)))]
      exact ih.2 fun i h => hl i (Nat.lt_succ_of_lt h)

/-- **C106, failover.** The group of the message of a round: that of its endpoint; if this has none, that of the last endpoint
tried before that has one and to which there was a connection; if there is none, that of the caller. -/
theorem failover_group (lib : Lib) {req : Request} (hn : req.rc.original = none) (rounds : Nat → Round) (k : Nat) {m : Message}
    (hm : requestMessage lib (rounds k).ep (rounds k).streamId (requestAt lib req rounds k) = .ok m) :
    ((rounds k).ep.group ≠ [] → Spec.groupOf m.metadata = (rounds k).ep.group) ∧
    ((rounds k).ep.group = [] → ∀ j, j < k → Spec.Connected (rounds j) → (rounds j).ep.group ≠ [] →
      (∀ i, j < i → i < k → ¬ Spec.Connected (rounds i) ∨ (rounds i).ep.group = []) →
      Spec.groupOf m.metadata = (rounds j).ep.group) ∧
    ((rounds k).ep.group = [] → (∀ i, i < k → ¬ Spec.Connected (rounds i) ∨ (rounds i).ep.group = []) →
      Spec.groupOf m.metadata = Spec.groupOf req.attachment) := by
  obtain ⟨m', -, -, -, -, -, hg⟩ := (retry_client lib req hn ((List.range k).map fun i => (rounds i).attempt) (rounds k).ep
    (rounds k).streamId).2 m hm
  obtain ⟨l1, l2⟩ := lastGroup_rounds rounds (Spec.groupOf req.attachment) k
  refine ⟨fun h => by rw [hg, if_pos h], fun h j hj hc hgj hl => ?_, fun h hl => ?_⟩
  · rw [hg, if_neg (by simp [h])]; exact l1 j hj hc hgj hl
  · rw [hg, if_neg (by simp [h])]; exact l2 hl

/-! ### Cases -/

namespace RetryEx

def first : Ep := { group := b!"g1", proxy := true, gzipSize := 1, ser := none }
def second : Ep := { group := b!"g2", proxy := true, gzipSize := 0, ser := none }
def noGroup : Ep := { group := [], proxy := true, gzipSize := 0, ser := none }

/-- A request an agent has received. -/
def msg : Message :=
  ⟨Motan2.buildHeader Motan2.Req true 6 7 Motan2.Normal, [(b!"M_p", b!"svc"), (b!"M_m", b!"say"), (b!"M_g", b!"g0"), (b!"k", b!"v")],
    b!"hello", 0⟩

def req : Request :=
  { id := 7, service := b!"svc", method := b!"say", desc := [], args := [], attachment := msg.metadata,
    rc := { original := some (.v2 msg), proxy := true } }

end RetryEx

/-- The message of an attempt after those of `before`, as (compressed, id, (group, the attachment `k`, body)). -/
def RetryEx.see (ep : Ep) (req : Request) (before : List Attempt) : Bool × UInt64 × List Bytes :=
  match requestMessage toyLib ep 12 (tried toyLib req before) with
  | .ok m => (m.header.isGzip, m.header.requestID,
      [Spec.groupOf m.metadata, loadOrEmpty m.metadata b!"k", loadOrEmpty m.metadata b!"M_p", loadOrEmpty m.metadata b!"M_pp",
        (gunzipMessage toyLib m).body])
  | .error _ => (false, 0, [])

/-- The second attempt sends the compressed body of the first, for the group of its own endpoint. -/
example : RetryEx.see RetryEx.second RetryEx.req [⟨RetryEx.first, 11, true⟩, ⟨RetryEx.second, 0, false⟩]
      = (true, 12, [b!"g2", b!"v", b!"svc", [], b!"hello"]) ∧
    RetryEx.see RetryEx.second RetryEx.req [] = (false, 12, [b!"g2", b!"v", b!"svc", [], b!"hello"]) := by decide +kernel

example : GzipLawful toyLib ∧ RetryEx.req.rc.original = some (.v2 RetryEx.msg) ∧ RetryEx.req.attachment = RetryEx.msg.metadata ∧
    (∀ b ∈ [⟨RetryEx.first, 11, true⟩, (⟨RetryEx.second, 0, false⟩ : Attempt)], b.ep.proxy = true) ∧ RetryEx.second.proxy = true :=
  ⟨toyLib_gzip, rfl, rfl, by decide, rfl⟩

/-- It is not true that the attempts made before have no influence on the group: an endpoint whose URL names no group is
asked for the group of an endpoint tried before it, and not for the group of the caller. -/
theorem retry_keeps_group_violated :
    ¬ ∀ (req : Request) (m0 : Message) (before : List Attempt) (ep : Ep) (sid : UInt64) (m m' : Message),
      req.rc.original = some (.v2 m0) → req.attachment = m0.metadata → (∀ b ∈ before, b.ep.proxy = true) → ep.proxy = true →
      requestMessage toyLib ep sid (tried toyLib req before) = .ok m → requestMessage toyLib ep sid req = .ok m' →
      Spec.groupOf m.metadata = Spec.groupOf m'.metadata := by
  intro h
  have hb : ∀ b ∈ [(⟨RetryEx.first, 11, true⟩ : Attempt)], b.ep.proxy = true := by decide
  obtain ⟨m, m', h1, h2, -, -, h5⟩ := retry_relayed toyLib_gzip RetryEx.req RetryEx.msg rfl rfl [⟨RetryEx.first, 11, true⟩] hb
    RetryEx.noGroup rfl 12
  obtain ⟨m'', _, k1, -, -, -, k5⟩ := retry_relayed toyLib_gzip RetryEx.req RetryEx.msg rfl rfl [] (fun _ hb => nomatch hb)
    RetryEx.noGroup rfl 12
  have h6 := h _ _ _ _ _ m m' rfl rfl hb rfl h1 h2
  have hk : requestMessage toyLib RetryEx.noGroup 12 RetryEx.req = .ok m'' := k1
  rw [h2] at hk
  cases hk
  rw [h5, k5] at h6
  revert h6
  decide +kernel

namespace RetryEx

def clientEp (g : Bytes) : Ep := { group := g, proxy := false, gzipSize := 0, ser := some Convert.simpleSer }
/-- An endpoint without a serialization: the call fails at it. -/
def badEp : Ep := { group := b!"g3", proxy := false, gzipSize := 0, ser := none }

def call : Request :=
  { id := 9, service := b!"svc", method := b!"say", desc := b!"d", args := [.val (.str b!"hello")], attachment := [(b!"k", b!"v")] }

end RetryEx

example : (RetryEx.see (RetryEx.clientEp b!"g1") RetryEx.call [⟨RetryEx.badEp, 10, true⟩, ⟨RetryEx.clientEp b!"g2", 11, true⟩]).2.2.take 4
      = [b!"g1", b!"v", b!"svc", b!"motan2"] ∧
    RetryEx.see RetryEx.badEp RetryEx.call [⟨RetryEx.clientEp b!"g2", 11, true⟩] = (false, 0, []) := by decide +kernel

example : RetryEx.call.rc.original = none := rfl

/-- The request of C62's example, after an attempt at an endpoint of another group. -/
example : Spec.PlainCall callPeer callEp 77 { sampleRequest with method := b!"say" } [.str b!"hello", .int 5] ∧
    ({ sampleRequest with method := b!"say" } : Request).rc.original = none ∧
    Spec.ShortMessage callPeer.maxLen (requestMessage callPeer.env.lib callEp 77
      (tried callPeer.env.lib { sampleRequest with method := b!"say" } [⟨RetryEx.clientEp b!"g2", 11, true⟩])) := by
  refine ⟨callPeer_plain _ (by decide), rfl, ?_⟩
  intro msg h
  have : ((requestMessage callPeer.env.lib callEp 77
      (tried callPeer.env.lib { sampleRequest with method := b!"say" } [⟨RetryEx.clientEp b!"g2", 11, true⟩])).map fun x =>
        decide (metaSize x.metadata ≤ callPeer.maxLen ∧ x.body.length ≤ callPeer.maxLen)).toOption = some true := by
    decide +kernel
  rw [h] at this
  simpa [Except.map, Except.toOption] using this

/-- Behind the first endpoint there is no connection, behind the second the server of C62's example. -/
def RetryEx.rounds : Nat → Round
  | 0 => ⟨RetryEx.clientEp b!"g2", 11, .down .refused⟩
  | _ => ⟨callEp, 77, .server callPeer none 1000⟩

/-- The hypotheses of `failover_end_to_end`, with one retry. -/
example : let req : Request := { sampleRequest with method := b!"say" }
    let vs : List Simple.Val := [.str b!"hello", .int 5]
    req.rc.original = none ∧
    Ha.failoverRetries { params := some [(b!"retries", b!"1")] } req.method req.desc = (1 : Nat) ∧
    (∀ j, j ≤ 1 → Spec.Callable toyLib req vs RetryEx.rounds j) ∧ (∀ j, j < 1 → Spec.RoundFails req vs (RetryEx.rounds j)) ∧
    (RetryEx.rounds 1).net = .server callPeer none 1000 ∧
    ∀ r, Spec.Sees callEp callPeer.ip 77 req vs r →
      ∃ res, callPeer.handler r = .returned (some res) ∧ Spec.Answerable callPeer 1000 res.r ∧ ¬ Spec.Failed res.r := by
  intro req vs
  refine ⟨rfl, by decide +kernel, ?_, ?_, rfl, ?_⟩
  · intro j hj p buf maxLen hs
    match j, hj with
    | 0, _ => cases hs
    | 1, _ =>
      cases hs
      refine ⟨callPeer_plain _ (by decide), rfl, trivial, trivial, by decide, ?_⟩
      intro msg h
      have : ((requestMessage toyLib callEp 77 (requestAt toyLib req RetryEx.rounds 1)).map fun x =>
          decide (metaSize x.metadata ≤ callPeer.maxLen ∧ x.body.length ≤ callPeer.maxLen)).toOption = some true := by
        decide +kernel
      have h' : requestMessage toyLib callEp 77 (requestAt toyLib req RetryEx.rounds 1) = .ok msg := h
      rw [h'] at this
      simpa [Except.map, Except.toOption] using this
  · intro j hj
    match j, hj with
    | 0, _ =>
      show ∀ got, Chan.refused ≠ .answered got
      intro got h; cases h
  · intro r hs
    obtain ⟨a, h1, h2, h3⟩ := callPeer_answers r (hs.method.trans (by decide))
    refine ⟨a, h1, h2, ?_⟩
    rintro ⟨e, h4, -⟩
    rw [h3] at h4; cases h4

example : textOf (failover toyLib (fun _ => []) (fun _ => -1) { params := some [(b!"retries", b!"1")] }
      { sampleRequest with method := b!"say" } RetryEx.rounds).1 = some b!"world" ∧
    (failover toyLib (fun _ => []) (fun _ => -1) {} { sampleRequest with method := b!"say" } RetryEx.rounds).1.exception
      = some ⟨1002, b!"can not get a channel", 1⟩ := by decide +kernel

/-- A connection that is lost, no connection, and an endpoint without a group. -/
def RetryEx.groups : Nat → Round
  | 0 => ⟨RetryEx.clientEp b!"g1", 11, .down (.failed [])⟩
  | 1 => ⟨RetryEx.clientEp b!"g2", 12, .down .refused⟩
  | _ => ⟨RetryEx.clientEp [], 13, .down .null⟩

/-- The third is sent the group of the first. -/
example : Spec.Connected (RetryEx.groups 0) ∧ ¬ Spec.Connected (RetryEx.groups 1) ∧ (RetryEx.groups 2).ep.group = [] ∧
    ((requestMessage toyLib (RetryEx.groups 2).ep 13 (requestAt toyLib sampleRequest RetryEx.groups 2)).map fun m =>
      Spec.groupOf m.metadata).toOption = some b!"g1" := by
  refine ⟨⟨by simp [RetryEx.groups], by simp [RetryEx.groups]⟩, fun h => h.2 rfl, rfl, by decide +kernel⟩

end Motan.Props
