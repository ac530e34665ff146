import Verif.Model.Relay
import Verif.Props.Call

/-!
# C63 A call that is relayed by any number of agents
-/

namespace Motan.Props

open Server (Env Outcome Res received finishRes)
open Motan2 (Header Message Meta encode decode Reusable)
open Convert (Lib Ser Exn Request Response RC Arg Err loadOrEmpty convertToRequest convertToReqMessage convertToResponse
  convertToResMessage simpleSer gunzipMessage)
open Simple (Val Hint)
open Call Relay

/-! ## Sizes -/

/-- What the pairs of a map take in a message, with a separator after each string. -/
def wireCost (m : Meta) : Nat := ((m.filter fun p => Motan2.keepPair p.1 p.2).map fun p => p.1.length + p.2.length + 2).sum

theorem wireCost_store' (m : Meta) (k v : Bytes) :
    wireCost (m.store k v) ≤ wireCost m + (if Motan2.keepPair k v then k.length + v.length + 2 else 0) := by
  induction m with
  | nil =>
    simp only [AMap.store, wireCost, List.filter_nil, List.map_nil, List.sum_nil, Nat.zero_add]
    cases h : Motan2.keepPair k v <;> simp [List.filter, h]
  | cons p m ih =>
    obtain ⟨k', v'⟩ := p
    rw [AMap.store]
    by_cases h : k' = k
    · rw [if_pos h]
      subst h
      simp only [wireCost, List.filter]
      cases h1 : Motan2.keepPair k' v <;> cases h2 : Motan2.keepPair k' v' <;>
        simp only [List.map_cons, List.sum_cons, Bool.false_eq_true, if_true, if_false] <;> omega
    · rw [if_neg h]
      simp only [wireCost, List.filter] at ih ⊢
      cases h1 : Motan2.keepPair k' v' <;> simp only [List.map_cons, List.sum_cons] <;> omega

theorem wireCost_store (m : Meta) (k v : Bytes) : wireCost (m.store k v) ≤ wireCost m + (k.length + v.length + 2) := by
  have := wireCost_store' m k v
  split at this <;> omega

theorem store_same {m : Meta} {k v : Bytes} (h : m.load k = some v) : m.store k v = m := by
  induction m with
  | nil => cases h
  | cons p m ih =>
    obtain ⟨k', v'⟩ := p
    rw [AMap.load_cons] at h
    rw [AMap.store]
    by_cases e : k' = k
    · rw [if_pos e] at h ⊢
      simp only [Option.some.injEq] at h
      rw [h, e]
    · rw [if_neg e] at h ⊢
      rw [ih h]

/-- Storing what can be loaded costs nothing. -/
theorem wireCost_store_self (m : Meta) (k : Bytes) : wireCost (m.store k (loadOrEmpty m k)) ≤ wireCost m := by
  rw [loadOrEmpty]
  cases h : m.load k with
  | some v => rw [Option.getD_some, store_same h]; exact Nat.le_refl _
  | none =>
    have := wireCost_store' m k []
    have hk : Motan2.keepPair k [] = false := by
      rw [← Bool.not_eq_true, Motan2.keepPair_iff]; rintro ⟨-, h, -⟩; exact h rfl
    rw [hk] at this
    simpa using this

theorem metaSize_cost (m : Meta) : metaSize m = wireCost m - 1 := metaSize_formula m

theorem wireCost_storeAll (ps : List (Bytes × Bytes)) (m : Meta) :
    wireCost (m.storeAll ps) ≤ wireCost m + (ps.map fun p => p.1.length + p.2.length + 2).sum := by
  induction ps generalizing m with
  | nil => simp [AMap.storeAll]
  | cons p ps ih =>
    have h := ih (m.store p.1 p.2)
    have h2 := wireCost_store m p.1 p.2
    simp only [AMap.storeAll, List.foldl_cons, List.map_cons, List.sum_cons] at h ⊢
    omega

theorem natDigits_length (k : Nat) : ∀ n, n < 10 ^ (k + 1) → (natDigits n).length ≤ k + 1 := by
  induction k with
  | zero =>
    intro n h
    rw [natDigits, if_pos (by simpa using h)]
    simp
  | succ k ih =>
    intro n h
    rw [natDigits]
    split
    · simp
    · have := ih (n / 10) (by rw [Nat.pow_succ] at h; omega)
      simp only [List.length_append, List.length_singleton]
      omega

theorem rid_length (id : UInt64) : (formatInt (Convert.toInt64 id)).length ≤ 20 := by
  obtain ⟨h1, h2⟩ := toInt64_range id
  generalize Convert.toInt64 id = n at h1 h2
  rw [formatInt]
  split
  · have := natDigits_length 18 n.natAbs (by omega)
    simp only [List.length_append, List.length_cons, List.length_nil]
    omega
  · have := natDigits_length 18 n.natAbs (by omega)
    omega

/-! ## Over the wire -/

theorem over_wire {buf : Option BytesBuffer} (hr : Reusable buf) {maxLen : Nat} {msg : Message}
    (hver : msg.header.getVersion = 1) (hn : msg.metadata.NodupKeys)
    (hm : metaSize msg.metadata ≤ maxLen) (hb : msg.body.length ≤ maxLen) (h32 : maxLen < 2 ^ 32) :
    ∃ got, Server.nextMessage maxLen (encode buf msg) = some (.v2 got, []) ∧
      got.header = { msg.header with magic := Motan2.MotanMagic } ∧ got.body = msg.body ∧ got.metadata.NodupKeys ∧
      SameCarriable msg.metadata got.metadata ∧ wireCost got.metadata ≤ wireCost msg.metadata := by
  obtain ⟨al, hal⟩ := Motan2.decode_frame maxLen Motan2.DefaultBufferSize 0 msg [] hver hm hb h32
  rw [List.append_nil, ← Motan2.encode_eq_frame buf hr] at hal
  have hcv : Motan2.checkMotanVersion (encode buf msg) = .ok 1 := by
    have := checkVersion_encode buf hr msg []
    rw [List.append_nil, hver] at this; exact this
  refine ⟨{ header := { msg.header with magic := Motan2.MotanMagic }, metadata := Motan2.sentMeta msg.metadata,
            body := msg.body, type := 0 }, nextMessage_v2 hcv (by rw [hal]) (by rw [hal]), rfl, rfl,
    AMap.nodupKeys_storeAll AMap.nodupKeys_nil _, sentMeta_same _ hn, ?_⟩
  have := wireCost_storeAll (msg.metadata.filter fun p => Motan2.keepPair p.1 p.2) []
  simpa [wireCost, Motan2.sentMeta] using this

/-! ## The request on its way -/

/-- The keys of a request that belong to the framework. -/
abbrev frameworkKeys : List Bytes := [b!"M_p", b!"M_m", b!"M_md", b!"M_pp", b!"M_rid", b!"M_g", b!"M_s", b!"host"]

/-- The message `m` stands for the request `q`, which its client sent under the id `sid` with the bytes `body`. -/
structure Asks (lib : Lib) (q : Request) (sid : UInt64) (body : Bytes) (m : Message) : Prop where
  heartbeat : m.header.isHeartbeat = false
  version : m.header.getVersion = 1
  serialize : m.header.getSerialize = 6
  nodup : m.metadata.NodupKeys
  empty : m.body = [] ↔ body = []
  body : (gunzipMessage lib m).body = body
  service : wireText (loadOrEmpty m.metadata Convert.MPath) = wireText q.service
  method : wireText (loadOrEmpty m.metadata Convert.MMethod) = wireText q.method
  desc : q.desc ≠ [] → wireText (loadOrEmpty m.metadata Convert.MMethodDesc) = wireText q.desc
  id : specRequestId m.metadata m.header.requestID = specRequestId q.attachment sid
  attachments : ∀ k v, k ∉ frameworkKeys → Carriable k v →
    (m.metadata.load k = some v ↔ q.attachment.load k = some v)
  kept : ∀ k v, k = b!"M_s" ∨ k = b!"M_pp" → Carriable k v → q.attachment.load k = some v → m.metadata.load k = some v

theorem wireText_idem (s : Bytes) : wireText (wireText s) = wireText s := by
  simp only [wireText]
  by_cases h : (10 : UInt8) ∈ s
  · simp [h]
  · simp [h]

theorem specRequestId_wire {m r : Meta} (h : SameCarriable m r) (id : UInt64) : specRequestId r id = specRequestId m id := by
  have hl := load_wire h (k := Convert.MRequestID) (by decide)
  rw [specRequestId, specRequestId, hl]
  cases m.load Convert.MRequestID with
  | none => rfl
  | some s =>
    by_cases hs : s = [] ∨ (10 : UInt8) ∈ s
    · have : Option.filter (fun v => decide (v ≠ [] ∧ (10 : UInt8) ∉ v)) (some s) = none := by
        simp only [Option.filter_some]
        rw [if_neg]
        simp only [decide_eq_true_eq]; rintro ⟨h1, h2⟩; rcases hs with h | h
        · exact h1 h
        · exact h2 h
      rw [this]; simp only [if_pos hs]
    · have : Option.filter (fun v => decide (v ≠ [] ∧ (10 : UInt8) ∉ v)) (some s) = some s := by
        simp only [Option.filter_some]
        rw [if_pos (by simp only [decide_eq_true_eq]; exact not_or.mp hs)]
      rw [this]

/-- Asking survives the wire. -/
theorem Asks.wire {lib : Lib} {q : Request} {sid : UInt64} {body : Bytes} {m got : Message} (h : Asks lib q sid body m)
    (hh : got.header = { m.header with magic := Motan2.MotanMagic }) (hb : got.body = m.body)
    (hn : got.metadata.NodupKeys) (hs : SameCarriable m.metadata got.metadata) : Asks lib q sid body got where
  heartbeat := by rw [hh]; exact h.heartbeat
  version := by rw [hh]; exact h.version
  serialize := by rw [hh]; exact h.serialize
  nodup := hn
  empty := by rw [hb]; exact h.empty
  body := by
    rw [← h.body, gunzipMessage, gunzipMessage, hh, hb]
    have : ({ m.header with magic := Motan2.MotanMagic } : Header).isGzip = m.header.isGzip := rfl
    rw [this]
    cases m.header.isGzip <;> simp [hb]
  service := by rw [loadOrEmpty_wire hs (by decide), wireText_idem]; exact h.service
  method := by rw [loadOrEmpty_wire hs (by decide), wireText_idem]; exact h.method
  desc := fun hd => by rw [loadOrEmpty_wire hs (by decide), wireText_idem]; exact h.desc hd
  id := by rw [specRequestId_wire hs, hh]; exact h.id
  attachments := by
    intro k v hk hc
    rw [hs k v]
    exact ⟨fun hx => (h.attachments k v hk hc).mp hx.1, fun hx => ⟨(h.attachments k v hk hc).mpr hx, hc⟩⟩
  kept := fun k v hk hc hx => (hs k v).mpr ⟨h.kept k v hk hc hx, hc⟩

/-- Asking depends on the header only through what is listed here. -/
theorem Asks.header {lib : Lib} {q : Request} {sid : UInt64} {body : Bytes} {m m' : Message} (h : Asks lib q sid body m)
    (h1 : m'.header.isHeartbeat = m.header.isHeartbeat) (h2 : m'.header.getVersion = m.header.getVersion)
    (h3 : m'.header.getSerialize = m.header.getSerialize) (h4 : m'.header.requestID = m.header.requestID)
    (hm : m'.metadata = m.metadata) (hb : m'.body = [] ↔ m.body = [])
    (hg : (gunzipMessage lib m').body = (gunzipMessage lib m).body) : Asks lib q sid body m' where
  heartbeat := by rw [h1]; exact h.heartbeat
  version := by rw [h2]; exact h.version
  serialize := by rw [h3]; exact h.serialize
  nodup := by rw [hm]; exact h.nodup
  empty := hb.trans h.empty
  body := hg.trans h.body
  service := by rw [hm]; exact h.service
  method := by rw [hm]; exact h.method
  desc := by rw [hm]; exact h.desc
  id := by rw [hm, h4]; exact h.id
  attachments := by rw [hm]; exact h.attachments
  kept := by rw [hm]; exact h.kept

/-- The proxy flag is not part of what is asked. -/
theorem Asks.setProxy {lib : Lib} {q : Request} {sid : UInt64} {body : Bytes} {m : Message} (h : Asks lib q sid body m) (b : Bool) :
    Asks lib q sid body { m with header := m.header.setProxy b } := by
  have hv := hv_setProxy m.header b
  refine h.header (congrArg HeaderView.heartbeat hv) (congrArg HeaderView.version hv) (congrArg HeaderView.serialize hv)
    (congrArg HeaderView.requestID hv) rfl Iff.rfl ?_
  rw [gunzipMessage, gunzipMessage]
  have : (m.header.setProxy b).isGzip = m.header.isGzip := congrArg HeaderView.gzip hv
  simp only [this]
  cases m.header.isGzip <;> rfl

/-- Storing one of the framework's keys that agents set. -/
theorem Asks.store {lib : Lib} {q : Request} {sid : UInt64} {body : Bytes} {m : Message} (h : Asks lib q sid body m)
    (k v : Bytes) (hk : k = b!"host" ∨ k = b!"M_g" ∨ (k = b!"M_s" ∧ loadOrEmpty m.metadata b!"M_s" = []) ∨
      (k = b!"M_rid" ∧ specRequestId (m.metadata.store k v) m.header.requestID = specRequestId m.metadata m.header.requestID)) :
    Asks lib q sid body { m with metadata := m.metadata.store k v } := by
  have hmem : k ∈ frameworkKeys ∧ Convert.MPath ≠ k ∧ Convert.MMethod ≠ k ∧ Convert.MMethodDesc ≠ k ∧ b!"M_pp" ≠ k := by
    rcases hk with rfl | rfl | ⟨rfl, -⟩ | ⟨rfl, -⟩ <;> decide
  obtain ⟨k1, k2, k3, k4, k5⟩ := hmem
  refine ⟨h.heartbeat, h.version, h.serialize, AMap.nodupKeys_store h.nodup _ _, h.empty, ?_, ?_, ?_, ?_, ?_, ?_, ?_⟩
  · rw [← h.body, gunzipMessage, gunzipMessage]
    cases m.header.isGzip <;> rfl
  · simp only [loadOrEmpty_store_ne _ _ (Ne.symm k2)]; exact h.service
  · simp only [loadOrEmpty_store_ne _ _ (Ne.symm k3)]; exact h.method
  · simp only [loadOrEmpty_store_ne _ _ (Ne.symm k4)]; exact h.desc
  · show specRequestId (m.metadata.store k v) m.header.requestID = _
    rcases hk with rfl | rfl | ⟨rfl, -⟩ | ⟨rfl, h2⟩
    · rw [← h.id, specRequestId, specRequestId, AMap.load_store_ne _ _ (by decide)]
    · rw [← h.id, specRequestId, specRequestId, AMap.load_store_ne _ _ (by decide)]
    · rw [← h.id, specRequestId, specRequestId, AMap.load_store_ne _ _ (by decide)]
    · rw [h2]; exact h.id
  · intro k' v' hk' hc
    have : k ≠ k' := by rintro rfl; exact hk' k1
    simp only [AMap.load_store_ne _ _ this]
    exact h.attachments k' v' hk' hc
  · intro k' v' hk' hc hx
    by_cases e : k = k'
    · subst e
      have hs : k = b!"M_s" := by
        rcases hk' with h | h
        · exact h
        · exact absurd h.symm k5
      have hempty : loadOrEmpty m.metadata b!"M_s" = [] := by
        rcases hk with h | h | ⟨-, h⟩ | ⟨h, -⟩
        · rw [hs] at h; exact absurd h (by decide)
        · rw [hs] at h; exact absurd h (by decide)
        · exact h
        · rw [hs] at h; exact absurd h (by decide)
      have := h.kept k v' hk' hc hx
      rw [loadOrEmpty, ← hs, this] at hempty
      exact absurd hempty hc.2.1
    · simp only [AMap.load_store_ne _ _ e]
      exact h.kept k' v' hk' hc hx

/-- The recorded id, if there is one, came over the wire. -/
def RidOk (m : Meta) : Prop := ∀ v, m.load b!"M_rid" = some v → v ≠ [] ∧ (10 : UInt8) ∉ v

theorem specRequestId_rid (id headerId : UInt64) (m : Meta) :
    specRequestId (m.store b!"M_rid" (formatInt (Convert.toInt64 id))) headerId = id := by
  have e : (m.store b!"M_rid" (formatInt (Convert.toInt64 id))).load Convert.MRequestID =
      some (formatInt (Convert.toInt64 id)) := AMap.load_store_self _ _ _
  rw [specRequestId, e]
  have hne := formatInt_ne_nil (Convert.toInt64 id)
  have hnl : (10 : UInt8) ∉ formatInt (Convert.toInt64 id) := by
    intro hc
    rcases formatInt_mem _ _ hc with h | h
    · exact absurd h (by decide)
    · exact absurd h (by decide)
  simp only
  rw [if_neg (by simp [hne, hnl]), parseInt64_formatInt _ (toInt64_range _).1 (toInt64_range _).2, ofInt64_toInt64]

/-- The id of a request and the metadata afterwards. -/
theorem Asks.requestId {lib : Lib} {q : Request} {sid : UInt64} {body : Bytes} {m : Message} (h : Asks lib q sid body m)
    (hr : RidOk m.metadata) :
    (Convert.requestIdOf m).1 = specRequestId q.attachment sid ∧
    Asks lib q sid body { m with metadata := (Convert.requestIdOf m).2 } ∧
    (∀ k, k ≠ b!"M_rid" → (Convert.requestIdOf m).2.load k = m.metadata.load k) ∧
    wireCost (Convert.requestIdOf m).2 ≤ wireCost m.metadata + 27 ∧
    (m.header.isProxy = true → ∀ id, specRequestId (Convert.requestIdOf m).2 id = specRequestId q.attachment sid) := by
  rw [← h.id, Convert.requestIdOf.eq_def, specRequestId]
  cases hl : m.metadata.load Convert.MRequestID with
  | none =>
    cases hp : m.header.isProxy with
    | false => exact ⟨rfl, h, fun _ _ => rfl, Nat.le_add_right _ _, by simp⟩
    | true =>
      simp only [if_true]
      have hid : specRequestId (m.metadata.store b!"M_rid" (formatInt (Convert.toInt64 m.header.requestID)))
          m.header.requestID = specRequestId m.metadata m.header.requestID := by
        rw [specRequestId_rid, specRequestId, hl]
      refine ⟨trivial, h.store b!"M_rid" _ (.inr (.inr (.inr ⟨rfl, hid⟩))), ?_, ?_, ?_⟩
      · intro k hk
        exact AMap.load_store_ne _ _ (Ne.symm hk)
      · have h1 := wireCost_store m.metadata Convert.MRequestID (formatInt (Convert.toInt64 m.header.requestID))
        have h2 := rid_length m.header.requestID
        have h3 : Convert.MRequestID.length = 5 := rfl
        omega
      · intro _ id
        exact specRequestId_rid _ _ _
  | some s =>
    obtain ⟨s1, s2⟩ := hr s hl
    simp only
    rw [if_neg (by simp [s1, s2])]
    refine ⟨rfl, h, fun _ _ => trivial, Nat.le_add_right _ _, ?_⟩
    intro _ id
    rw [specRequestId, hl]
    simp only
    rw [if_neg (by simp [s1, s2])]

/-- What a request becomes. -/
theorem convertToRequest_eq {lib : Lib} {ser : Option Ser} (m : Message) (hs : m.header.isProxy = true ∨ ser.isSome = true) :
    ∃ r m1, convertToRequest lib ser m = .ok r ∧ r.id = (Convert.requestIdOf m).1 ∧
      r.service = loadOrEmpty (Convert.requestIdOf m).2 Convert.MPath ∧
      r.method = loadOrEmpty (Convert.requestIdOf m).2 Convert.MMethod ∧
      r.desc = loadOrEmpty (Convert.requestIdOf m).2 Convert.MMethodDesc ∧
      r.attachment = (Convert.requestIdOf m).2 ∧ r.rc.proxy = m.header.isProxy ∧ r.rc.original = some (.v2 m1) ∧
      m1 = (if m.body = [] then { m with metadata := (Convert.requestIdOf m).2 }
        else gunzipMessage lib { m with metadata := (Convert.requestIdOf m).2 }) ∧
      r.args = (if m.body = [] then [] else [.deser (gunzipMessage lib m).body ser]) := by
  rw [convertToRequest]
  simp only
  have hok : ¬ (m.header.isProxy = false ∧ ser.isNone = true) := by
    rintro ⟨h1, h2⟩
    rcases hs with h | h
    · rw [h] at h1; cases h1
    · cases ser <;> simp at h h2
  by_cases hb : m.body = []
  · have : ¬ (m.body.length > 0) := by simp [hb]
    rw [if_neg this, if_pos hb, if_pos hb]
    exact ⟨_, _, rfl, rfl, rfl, rfl, rfl, rfl, rfl, rfl, rfl, rfl⟩
  · have : m.body.length > 0 := List.length_pos_iff.mpr hb
    rw [if_pos this, if_neg hok, if_neg hb, if_neg hb]
    refine ⟨_, _, rfl, rfl, rfl, rfl, rfl, rfl, rfl, rfl, rfl, ?_⟩
    rw [gunzipMessage, gunzipMessage]
    cases m.header.isGzip <;> rfl

/-- Undoing the compression of a message that has a body. -/
theorem Asks.gunzip {lib : Lib} {q : Request} {sid : UInt64} {body : Bytes} {m : Message} (h : Asks lib q sid body m)
    (hb : m.body ≠ []) :
    Asks lib q sid body (gunzipMessage lib m) ∧ (gunzipMessage lib m).header.isGzip = false ∧
      (gunzipMessage lib m).body = body ∧ (gunzipMessage lib m).metadata = m.metadata ∧
      (gunzipMessage lib m).header.requestID = m.header.requestID := by
  have hbody := h.body
  have hne : body ≠ [] := fun e => hb (h.empty.mpr e)
  by_cases hg : m.header.isGzip = true
  · have e : gunzipMessage lib m = { m with body := Convert.decodeGzipBody lib m.body, header := m.header.setGzip false } := by
      rw [gunzipMessage, if_pos hg]
    have hv := hv_setGzip m.header false
    have hz : (gunzipMessage lib m).header.isGzip = false := by
      rw [e]; exact congrArg HeaderView.gzip hv
    refine ⟨?_, hz, hbody, by rw [e], by rw [e]; exact congrArg HeaderView.requestID hv⟩
    refine h.header (by rw [e]; exact congrArg HeaderView.heartbeat hv) (by rw [e]; exact congrArg HeaderView.version hv)
      (by rw [e]; exact congrArg HeaderView.serialize hv) (by rw [e]; exact congrArg HeaderView.requestID hv) (by rw [e])
      (by rw [hbody]; simp [hne, hb]) ?_
    rw [gunzipMessage.eq_1 lib (gunzipMessage lib m), hz]; rfl
  · have e : gunzipMessage lib m = m := by rw [gunzipMessage, if_neg hg]
    rw [e] at hbody ⊢
    exact ⟨h, by simpa using hg, hbody, rfl, rfl⟩

/-- What a server that relays makes of a message. -/
theorem Asks.relayed {env : Env} {q : Request} {sid : UInt64} {body : Bytes} {got : Message}
    (h : Asks env.lib q sid body got) (hr : RidOk got.metadata) (hp : env.proxy = true) (ip : Bytes) (ser : Option Ser) :
    ∃ r m1, convertToRequest env.lib ser (received env ip got) = .ok r ∧ r.rc.original = some (.v2 m1) ∧
      r.attachment = m1.metadata ∧ Asks env.lib q sid body m1 ∧ m1.body = body ∧
      (body ≠ [] → m1.header.isGzip = false) ∧
      (∀ id, specRequestId m1.metadata id = specRequestId q.attachment sid) ∧
      wireCost m1.metadata ≤ wireCost got.metadata + (6 + ip.length) + 27 := by
  have hrec : received env ip got = { got with metadata := got.metadata.store Server.HostKey ip, header := got.header.setProxy true } := by
    rw [received, hp]
  have h1 : Asks env.lib q sid body (received env ip got) := by
    rw [hrec]
    exact (h.store Server.HostKey ip (.inl rfl)).setProxy true
  have hr1 : RidOk (received env ip got).metadata := by
    rw [hrec]
    intro v hv
    simp only at hv
    rw [AMap.load_store_ne (k := Server.HostKey) _ _ (by decide)] at hv
    exact hr v hv
  have hpx : (received env ip got).header.isProxy = true := by
    rw [hrec]; exact congrArg HeaderView.proxy (hv_setProxy got.header true)
  have hc : wireCost (received env ip got).metadata ≤ wireCost got.metadata + (6 + ip.length) := by
    rw [hrec]
    have := wireCost_store got.metadata Server.HostKey ip
    have h4 : Server.HostKey.length = 4 := rfl
    simp only
    omega
  generalize received env ip got = m at h1 hr1 hpx hc
  obtain ⟨r, m1, c1, -, -, -, -, c6, -, c8, c9, -⟩ := convertToRequest_eq (lib := env.lib) (ser := ser) m (.inl hpx)
  obtain ⟨-, i2, -, i4, i5⟩ := h1.requestId hr1
  by_cases hb : m.body = []
  · rw [if_pos hb] at c9
    have hbe := h1.empty.mp hb
    refine ⟨r, m1, c1, c8, ?_, ?_, ?_, ?_, ?_, ?_⟩
    · rw [c9]; exact c6
    · rw [c9]; exact i2
    · rw [c9, hbe]; exact hb
    · intro hne; exact absurd hbe hne
    · rw [c9]; exact i5 hpx
    · rw [c9]
      simp only
      omega
  · rw [if_neg hb] at c9
    obtain ⟨g1, g2, g3, g4, -⟩ := i2.gunzip (by exact hb)
    refine ⟨r, m1, c1, c8, ?_, ?_, ?_, ?_, ?_, ?_⟩
    · rw [c9, g4]; exact c6
    · rw [c9]; exact g1
    · rw [c9]; exact g3
    · intro _; rw [c9]; exact g2
    · rw [c9, g4]; exact i5 hpx
    · rw [c9, g4]
      simp only
      omega

/-- A request that was received in the message `m1`: its attachments are the map of the message. -/
def HoldsReq (r : Request) (m1 : Message) : Prop := r.rc.original = some (.v2 m1) ∧ r.attachment = m1.metadata

theorem HoldsReq.set {r : Request} {m1 : Message} (h : HoldsReq r m1) (k v : Bytes) :
    HoldsReq (setAttachment r k v) { m1 with metadata := m1.metadata.store k v } := by
  refine ⟨?_, ?_⟩
  · show Server.setOriginal r.rc.original k v = _
    rw [h.1]; rfl
  · show r.attachment.store k v = _
    rw [h.2]

theorem HoldsReq.v2 {r : Request} {m1 : Message} (h : HoldsReq r m1) : isV1 r = false := by rw [isV1, h.1]

/-- How long the caller's application is. -/
def appLength (q : Request) : Nat := (loadOrEmpty q.attachment b!"application").length

/-- What the defaults of an agent leave. -/
theorem Asks.filled {lib : Lib} {q : Request} {sid : UInt64} {body : Bytes} {r : Request} {m1 : Message}
    (h : Asks lib q sid body m1) (ho : HoldsReq r m1)
    (hid : ∀ id, specRequestId m1.metadata id = specRequestId q.attachment sid) (app group : Bytes) :
    ∃ m2, HoldsReq (fillDefaultReqInfo r app group) m2 ∧ Asks lib q sid body m2 ∧ m2.body = m1.body ∧ m2.header = m1.header ∧
      (∀ id, specRequestId m2.metadata id = specRequestId q.attachment sid) ∧
      wireCost m2.metadata ≤ wireCost m1.metadata + (5 + appLength q + app.length) + (5 + group.length) := by
  have keep : ∀ (m : Message) k v, k ≠ b!"M_rid" → (∀ id, specRequestId m.metadata id = specRequestId q.attachment sid) →
      ∀ id, specRequestId (m.metadata.store k v) id = specRequestId q.attachment sid := by
    intro m k v hk hm id
    have hk' : k ≠ Convert.MRequestID := hk
    rw [← hm id, specRequestId, specRequestId, AMap.load_store_ne _ _ hk']
  have src : ∃ m2, HoldsReq (fillSource r app) m2 ∧ Asks lib q sid body m2 ∧ m2.body = m1.body ∧ m2.header = m1.header ∧
      (∀ id, specRequestId m2.metadata id = specRequestId q.attachment sid) ∧
      wireCost m2.metadata ≤ wireCost m1.metadata + (5 + appLength q + app.length) := by
    rw [fillSource, ho.v2]
    simp only [Bool.false_eq_true, if_false]
    by_cases hs : loadOrEmpty r.attachment Server.MSource = []
    · rw [if_pos hs]
      have hs' : loadOrEmpty m1.metadata b!"M_s" = [] := by rw [← ho.2]; exact hs
      by_cases ha : loadOrEmpty r.attachment ApplicationKey ≠ []
      · rw [if_pos ha]
        refine ⟨_, ho.set _ _, h.store _ _ (.inr (.inr (.inl ⟨rfl, hs'⟩))), rfl, rfl, keep _ _ _ (by decide) hid, ?_⟩
        have hw := wireCost_store' m1.metadata Server.MSource (loadOrEmpty r.attachment ApplicationKey)
        have h3 : Server.MSource.length = 3 := rfl
        show wireCost (m1.metadata.store Server.MSource (loadOrEmpty r.attachment ApplicationKey)) ≤ _
        by_cases hk : Motan2.keepPair Server.MSource (loadOrEmpty r.attachment ApplicationKey) = true
        · rw [if_pos hk] at hw
          obtain ⟨-, k2, -, k4⟩ := (Motan2.keepPair_iff _ _).mp hk
          have hlen : (loadOrEmpty r.attachment ApplicationKey).length = appLength q := by
            rw [ho.2] at k2 k4 ⊢
            rw [loadOrEmpty] at k2 k4 ⊢
            cases hl : m1.metadata.load ApplicationKey with
            | none => rw [hl] at k2; exact absurd rfl k2
            | some v =>
              rw [hl] at k2 k4
              have := (h.attachments ApplicationKey v (by decide) ⟨by decide, k2, by decide, k4⟩).mp hl
              have this' : q.attachment.load b!"application" = some v := this
              rw [appLength, loadOrEmpty, this']
          omega
        · rw [if_neg hk] at hw
          omega
      · rw [if_neg ha]
        by_cases hap : app ≠ []
        · rw [if_pos hap]
          refine ⟨_, ho.set _ _, h.store _ _ (.inr (.inr (.inl ⟨rfl, hs'⟩))), rfl, rfl, keep _ _ _ (by decide) hid, ?_⟩
          have hw := wireCost_store m1.metadata Server.MSource app
          have h3 : Server.MSource.length = 3 := rfl
          show wireCost (m1.metadata.store Server.MSource app) ≤ _
          omega
        · rw [if_neg hap]
          exact ⟨m1, ho, h, rfl, rfl, hid, by omega⟩
    · rw [if_neg hs]
      exact ⟨m1, ho, h, rfl, rfl, hid, by omega⟩
  obtain ⟨m2, s1, s2, s3, s4, s5, s6⟩ := src
  rw [fillDefaultReqInfo, fillGroup, s1.v2]
  simp only [Bool.false_eq_true, if_false]
  by_cases hg : loadOrEmpty (fillSource r app).attachment Convert.MGroup = []
  · rw [if_pos hg]
    refine ⟨_, s1.set _ _, s2.store _ _ (.inr (.inl rfl)), s3, s4, keep _ _ _ (by decide) s5, ?_⟩
    have hw := wireCost_store m2.metadata Convert.MGroup group
    have h3 : Convert.MGroup.length = 3 := rfl
    show wireCost (m2.metadata.store Convert.MGroup group) ≤ _
    omega
  · rw [if_neg hg]
    exact ⟨m2, s1, s2, s3, s4, s5, by omega⟩

/-- Compressing again. -/
theorem Asks.gzip {lib : Lib} (hl : GzipLawful lib) {q : Request} {sid : UInt64} {body : Bytes} {m : Message}
    (h : Asks lib q sid body m) (hb : m.body = body) (hg : body ≠ [] → m.header.isGzip = false) (n : Int) :
    Asks lib q sid body (Convert.encodeMessageGzip lib m n) ∧
    (Convert.encodeMessageGzip lib m n).metadata = m.metadata ∧
    (Convert.encodeMessageGzip lib m n).header.requestID = m.header.requestID ∧
    ((Convert.encodeMessageGzip lib m n).body = body ∨ ∃ c, lib.gzip body = some c ∧ (Convert.encodeMessageGzip lib m n).body = c) := by
  by_cases hbe : body = []
  · have : Convert.encodeMessageGzip lib m n = m := by
      rw [Convert.encodeMessageGzip, if_neg (by rw [hb, hbe]; simp; omega)]
    rw [this]
    exact ⟨h, rfl, rfl, .inl hb⟩
  · have hg' := hg hbe
    obtain ⟨g1, g2, g3, g, g4⟩ := gunzip_gzip hl m n hg'
    refine ⟨?_, g2, congrArg HeaderView.requestID g4, ?_⟩
    · refine h.header (congrArg HeaderView.heartbeat g4) (congrArg HeaderView.version g4) (congrArg HeaderView.serialize g4)
        (congrArg HeaderView.requestID g4) g2 g3 ?_
      rw [g1, gunzipMessage, hg']; rfl
    · rw [Convert.encodeMessageGzip]
      split
      · have hpos : body.length > 0 := List.length_pos_iff.mpr hbe
        rw [hb, Convert.encodeGzip, if_pos hpos]
        cases hz : lib.gzip body with
        | none => exact .inl hb
        | some c => exact .inr ⟨c, rfl, rfl⟩
      · exact .inl hb

/-- The message an agent sends on. -/
theorem Asks.forward {lib : Lib} (hl : GzipLawful lib) {q : Request} {sid : UInt64} {body : Bytes} {r : Request} {m1 : Message}
    (h : Asks lib q sid body m1) (ho : HoldsReq r m1) (hb : m1.body = body) (hg : body ≠ [] → m1.header.isGzip = false)
    (hid : ∀ id, specRequestId m1.metadata id = specRequestId q.attachment sid) {ep : Ep} (hp : ep.proxy = true)
    (streamId : UInt64) :
    ∃ m', requestMessage lib ep streamId r = .ok m' ∧ Asks lib q sid body m' ∧ m'.header.requestID = streamId ∧
      (ep.group ≠ [] → Spec.groupOf m'.metadata = ep.group) ∧
      wireCost m'.metadata ≤ wireCost m1.metadata + (5 + ep.group.length) ∧
      (m'.body = body ∨ ∃ c, lib.gzip body = some c ∧ m'.body = c) := by
  have hw : HoldsReq (withContext ep r) m1 := ho
  obtain ⟨f1, f2, -, f4, -⟩ := fitGroup_facts ep (withContext ep r) hw.v2
  have fg : loadOrEmpty (fitGroup ep (withContext ep r)).attachment Convert.MGroup = ep.group ∨
      (fitGroup ep (withContext ep r)).attachment = m1.metadata := by
    rw [fitGroup, hw.v2]
    simp only [Bool.false_eq_true, if_false]
    by_cases hc : Server.requestGroup (withContext ep r) ≠ ep.group ∧ ep.group ≠ []
    · rw [if_pos hc]
      left
      show loadOrEmpty ((withContext ep r).attachment.store Convert.MGroup ep.group) Convert.MGroup = _
      rw [loadOrEmpty, AMap.load_store_self]; rfl
    · rw [if_neg hc]
      right; exact ho.2
  have fo : (fitGroup ep (withContext ep r)).rc.original = some (.v2 m1) := by rw [f1]; exact ho.1
  have fp : (fitGroup ep (withContext ep r)).rc.proxy = true := by rw [f1]; exact hp
  generalize hq : fitGroup ep (withContext ep r) = r2 at f1 f2 f4 fg fo fp
  generalize hgr : loadOrEmpty r2.attachment Convert.MGroup = g at fg
  have a1 : Asks lib q sid body { m1 with metadata := m1.metadata.store Convert.MGroup g, header := m1.header.setProxy true } :=
    (h.store Convert.MGroup g (.inr (.inl rfl))).setProxy true
  have hgz : ∀ b, (m1.header.setProxy b).isGzip = m1.header.isGzip := fun b => congrArg HeaderView.gzip (hv_setProxy m1.header b)
  obtain ⟨z1, z2, z3, z4⟩ := a1.gzip hl (by exact hb) (fun hne => by simp only [hgz]; exact hg hne) r2.rc.gzipSize
  refine ⟨Server.withId (Convert.encodeMessageGzip lib { m1 with metadata := m1.metadata.store Convert.MGroup g, header := m1.header.setProxy true } r2.rc.gzipSize) streamId,
    ?_, ?_, rfl, ?_, ?_, z4⟩
  · rw [requestMessage, hq, convertToReqMessage]
    simp only [fo, fp, hgr]
    rfl
  · have hid2 : specRequestId (m1.metadata.store Convert.MGroup g) streamId = specRequestId q.attachment sid := by
      rw [← hid streamId, specRequestId, specRequestId, AMap.load_store_ne _ _ (by decide)]
    refine ⟨z1.heartbeat, z1.version, z1.serialize, z1.nodup, z1.empty, ?_, z1.service, z1.method, z1.desc, ?_, z1.attachments,
      z1.kept⟩
    · rw [← z1.body]
      generalize Convert.encodeMessageGzip lib _ _ = w
      rw [gunzipMessage, gunzipMessage]
      have : (Server.withId w streamId).header.isGzip = w.header.isGzip := rfl
      rw [this]
      cases w.header.isGzip <;> rfl
    · show specRequestId (Convert.encodeMessageGzip lib _ _).metadata streamId = _
      rw [z2]; exact hid2
  · intro hne
    show Spec.groupOf (Convert.encodeMessageGzip lib _ _).metadata = _
    rw [z2, ← f4 hne]
    have e1 : (m1.metadata.store Convert.MGroup g).load b!"M_g" = some g := AMap.load_store_self _ _ _
    have e2 : (m1.metadata.store Convert.MGroup g).load b!"group" = m1.metadata.load b!"group" :=
      AMap.load_store_ne _ _ (by decide)
    have e3 : (r2.attachment.load b!"M_g").getD [] = g := hgr
    have e4 : r2.attachment.load b!"group" = m1.metadata.load b!"group" := by
      rw [f2 _ (by decide)]
      show r.attachment.load _ = _
      rw [ho.2]
    rw [Spec.groupOf, Spec.groupOf, e3, e4]
    simp only
    rw [e1, e2]; rfl
  · show wireCost (Convert.encodeMessageGzip lib _ _).metadata ≤ _
    rw [z2]
    simp only
    rcases fg with fg | fg
    · have hw := wireCost_store m1.metadata Convert.MGroup g
      have h3 : Convert.MGroup.length = 3 := rfl
      rw [fg] at hw ⊢
      omega
    · rw [← hgr, fg]
      have := wireCost_store_self m1.metadata Convert.MGroup
      omega

/-! ## The answer on its way -/

/-- The message `m` stands for an answer with the exception `exn`, the bytes `ans` of the value and the attachments `att`. -/
structure Tells (lib : Lib) (exn : Option Exn) (ans : Bytes) (att : Meta) (m : Message) : Prop where
  heartbeat : m.header.isHeartbeat = false
  version : m.header.getVersion = 1
  nodup : m.metadata.NodupKeys
  status : m.header.getStatus = if exn.isSome then 1 else 0
  exception : ∀ e, exn = some e → loadOrEmpty m.metadata Convert.MException = lib.jsonEnc e
  empty : exn = none → (m.body = [] ↔ ans = [])
  body : exn = none → (gunzipMessage lib m).body = ans
  attachments : ∀ k v, k ∉ [b!"M_e", b!"M_pt", b!"x-forwarded-for"] → Carriable k v →
    (m.metadata.load k = some v ↔ att.load k = some v)

theorem Tells.wire {lib : Lib} {exn : Option Exn} {ans : Bytes} {att : Meta} {m got : Message} (h : Tells lib exn ans att m)
    (hj : ∀ e, exn = some e → JsonLawful lib e)
    (hh : got.header = { m.header with magic := Motan2.MotanMagic }) (hb : got.body = m.body)
    (hn : got.metadata.NodupKeys) (hs : SameCarriable m.metadata got.metadata) : Tells lib exn ans att got where
  heartbeat := by rw [hh]; exact h.heartbeat
  version := by rw [hh]; exact h.version
  nodup := hn
  status := by rw [hh]; exact h.status
  exception := by
    intro e he
    rw [loadOrEmpty_wire hs (by decide), h.exception e he, wireText, if_neg (hj e he).2.2]
  empty := by rw [hb]; exact h.empty
  body := by
    intro he
    rw [← h.body he, gunzipMessage, gunzipMessage, hh, hb]
    have : ({ m.header with magic := Motan2.MotanMagic } : Header).isGzip = m.header.isGzip := rfl
    rw [this]
    cases m.header.isGzip <;> simp [hb]
  attachments := by
    intro k v hk hc
    rw [hs k v]
    exact ⟨fun hx => (h.attachments k v hk hc).mp hx.1, fun hx => ⟨(h.attachments k v hk hc).mpr hx, hc⟩⟩

theorem Tells.header {lib : Lib} {exn : Option Exn} {ans : Bytes} {att : Meta} {m m' : Message} (h : Tells lib exn ans att m)
    (h1 : m'.header.isHeartbeat = m.header.isHeartbeat) (h2 : m'.header.getVersion = m.header.getVersion)
    (h3 : m'.header.getStatus = m.header.getStatus) (hm : m'.metadata = m.metadata) (hb : exn = none → (m'.body = [] ↔ m.body = []))
    (hg : exn = none → (gunzipMessage lib m').body = (gunzipMessage lib m).body) : Tells lib exn ans att m' where
  heartbeat := by rw [h1]; exact h.heartbeat
  version := by rw [h2]; exact h.version
  nodup := by rw [hm]; exact h.nodup
  status := by rw [h3]; exact h.status
  exception := by rw [hm]; exact h.exception
  empty := fun he => (hb he).trans (h.empty he)
  body := fun he => (hg he).trans (h.body he)
  attachments := by rw [hm]; exact h.attachments

theorem Tells.setProxy {lib : Lib} {exn : Option Exn} {ans : Bytes} {att : Meta} {m : Message} (h : Tells lib exn ans att m) (b : Bool) :
    Tells lib exn ans att { m with header := m.header.setProxy b } := by
  have hv := hv_setProxy m.header b
  refine h.header (congrArg HeaderView.heartbeat hv) (congrArg HeaderView.version hv) (congrArg HeaderView.status hv) rfl
    (fun _ => Iff.rfl) (fun _ => ?_)
  rw [gunzipMessage, gunzipMessage]
  have : (m.header.setProxy b).isGzip = m.header.isGzip := congrArg HeaderView.gzip hv
  simp only [this]
  cases m.header.isGzip <;> rfl

theorem Tells.withId {lib : Lib} {exn : Option Exn} {ans : Bytes} {att : Meta} {m : Message} (h : Tells lib exn ans att m) (id : UInt64) :
    Tells lib exn ans att (Server.withId m id) := by
  refine h.header rfl rfl rfl rfl (fun _ => Iff.rfl) (fun _ => ?_)
  rw [gunzipMessage, gunzipMessage]
  have : (Server.withId m id).header.isGzip = m.header.isGzip := rfl
  simp only [this]
  cases m.header.isGzip <;> rfl

theorem Tells.store {lib : Lib} {exn : Option Exn} {ans : Bytes} {att : Meta} {m : Message} (h : Tells lib exn ans att m)
    (k v : Bytes) (hk : k = b!"M_pt" ∨ k = b!"x-forwarded-for") :
    Tells lib exn ans att { m with metadata := m.metadata.store k v } := by
  have hne : k ≠ Convert.MException := by rcases hk with rfl | rfl <;> decide
  refine ⟨h.heartbeat, h.version, AMap.nodupKeys_store h.nodup _ _, h.status, ?_, h.empty, ?_, ?_⟩
  · intro e he
    simp only [loadOrEmpty_store_ne _ _ hne]; exact h.exception e he
  · intro he
    rw [← h.body he, gunzipMessage, gunzipMessage]
    cases m.header.isGzip <;> rfl
  · intro k' v' hk' hc
    have : k ≠ k' := by
      rintro rfl
      apply hk'
      rcases hk with rfl | rfl <;> decide
    simp only [AMap.load_store_ne _ _ this]
    exact h.attachments k' v' hk' hc

/-- What a response message becomes. -/
theorem Tells.response {lib : Lib} {exn : Option Exn} {ans : Bytes} {att : Meta} {m : Message} (h : Tells lib exn ans att m)
    (hj : ∀ e, exn = some e → JsonLawful lib e) {ser : Option Ser} (hs : m.header.isProxy = true ∨ ser.isSome = true) :
    ∃ r m1, convertToResponse lib ser m = .ok r ∧ r.exception = exn ∧
      r.value = (if exn.isSome ∨ ans = [] then none else some (.deser ans ser)) ∧ r.attachment = m1.metadata ∧
      r.rc.original = some (.v2 m1) ∧ m1.metadata = m.metadata ∧ Tells lib exn ans att m1 ∧ (m1.body = m.body ∨ m1.body = ans) := by
  have hok : ¬ (m.header.isProxy = false ∧ ser.isNone = true) := by
    rintro ⟨h1, h2⟩
    rcases hs with h | h
    · rw [h] at h1; cases h1
    · cases ser <;> simp at h h2
  have hexn : ∀ w : Message, w.metadata = m.metadata → w.header.getStatus = m.header.getStatus → Convert.exceptionOf lib w = .ok exn := by
    intro w w1 w2
    rw [Convert.exceptionOf, w1, w2, h.status]
    cases he : exn with
    | none => simp
    | some e =>
      obtain ⟨j1, j2, -⟩ := hj e he
      simp [h.exception e he, j1, j2]
  by_cases hc : m.header.getStatus = 0 ∧ m.body.length > 0
  · have hnone : exn = none := by
      cases he : exn with
      | none => rfl
      | some e => rw [h.status, he] at hc; simp at hc
    have hbne : ans ≠ [] := by
      intro e; have := (h.empty hnone).mpr e; rw [this] at hc; simp at hc
    have hm : (gunzipMessage lib m).metadata = m.metadata := by rw [gunzipMessage]; split <;> rfl
    have t1 : Tells lib exn ans att (gunzipMessage lib m) := by
      by_cases hg : m.header.isGzip = true
      · have e : gunzipMessage lib m = { m with body := Convert.decodeGzipBody lib m.body, header := m.header.setGzip false } := by
          rw [gunzipMessage, if_pos hg]
        have hv := hv_setGzip m.header false
        have hz : (gunzipMessage lib m).header.isGzip = false := by rw [e]; exact congrArg HeaderView.gzip hv
        refine h.header (by rw [e]; exact congrArg HeaderView.heartbeat hv) (by rw [e]; exact congrArg HeaderView.version hv)
          (by rw [e]; exact congrArg HeaderView.status hv) hm (fun he => by
            rw [h.body he, h.empty he]) (fun he => ?_)
        rw [gunzipMessage.eq_1 lib (gunzipMessage lib m), hz]; rfl
      · have e : gunzipMessage lib m = m := by rw [gunzipMessage, if_neg hg]
        rw [e]; exact h
    rw [convertToResponse]
    simp only [hc, and_self, true_and, hok, if_false, if_true, hexn _ hm (gunzip_status lib m)]
    refine ⟨_, gunzipMessage lib m, rfl, rfl, ?_, rfl, rfl, hm, t1, .inr (h.body hnone)⟩
    rw [h.body hnone]
    simp [hnone, hbne]
  · have hval : exn.isSome = true ∨ ans = [] := by
      cases he : exn with
      | some e => exact .inl rfl
      | none =>
        right
        rw [h.status, he] at hc
        simp only [Option.isSome_none, Bool.false_eq_true, if_false, true_and, gt_iff_lt, Nat.not_lt,
          Nat.le_zero, List.length_eq_zero_iff] at hc
        exact (h.empty he).mp hc
    rw [convertToResponse]
    simp only [hc, false_and, if_false, hexn m rfl rfl]
    exact ⟨_, m, rfl, rfl, by simp [hval], rfl, rfl, rfl, h, .inl rfl⟩

/-- A response that was received in the message `m1`. -/
def HoldsRes (r : Response) (m1 : Message) : Prop := r.rc.original = some (.v2 m1) ∧ r.attachment = m1.metadata

theorem HoldsRes.set {r : Response} {m1 : Message} (h : HoldsRes r m1) (k v : Bytes) :
    HoldsRes (setResAttachment r k v) { m1 with metadata := m1.metadata.store k v } := by
  refine ⟨?_, ?_⟩
  · show Server.setOriginal r.rc.original k v = _
    rw [h.1]; rfl
  · show r.attachment.store k v = _
    rw [h.2]

/-- What an agent adds to an answer. -/
def answerCost (h : Hop) : Nat := (17 + h.addr.length) + (6 + h.pt.length)

/-- The answer an agent sends on. -/
theorem Tells.back {hop : Hop} {exn : Option Exn} {ans : Bytes} {att : Meta} {got : Message}
    (h : Tells hop.env.lib exn ans att got) (hj : ∀ e, exn = some e → JsonLawful hop.env.lib e) (hp : hop.env.proxy = true)
    (hep : hop.ep.proxy = true) (req : Request) (ser : Option Ser) (id : UInt64) :
    ∃ a, Server.withId (Server.answerMessage hop.env ser hop.pt id
        (some { r := setRemote hop.addr (call hop.env.lib hop.env.errText hop.ep req .none hop.version (.answered (.v2 got))).resp })) id = a ∧
      Tells hop.env.lib exn ans att a ∧ a.header.requestID = id ∧
      wireCost a.metadata ≤ wireCost got.metadata + answerCost hop ∧ (a.body = got.body ∨ a.body = ans) ∧
      (hop.addr ≠ [] → a.metadata.load b!"x-forwarded-for" = some hop.addr) := by
  -- the response of the endpoint
  have hresp : (call hop.env.lib hop.env.errText hop.ep req .none hop.version (.answered (.v2 got))).resp =
      notify hop.env.lib hop.ep req (.v2 got) := by
    rw [call_of_answered.1, finish, hep]; rfl
  have h1 := (h.setProxy true).withId req.id
  have hpx : (Server.withId { got with header := got.header.setProxy true } req.id).header.isProxy = true :=
    congrArg HeaderView.proxy (hv_setProxy got.header true)
  obtain ⟨r, m1, c1, -, -, c4, c5, c6, c7, c8⟩ := h1.response hj (ser := hop.ep.ser) (.inl hpx)
  have hn : notify hop.env.lib hop.ep req (.v2 got) = r := by
    rw [notify, hep, c1]
  rw [hresp, hn]
  have hh : HoldsRes r m1 := ⟨c5, c4⟩
  have hm1 : wireCost m1.metadata = wireCost got.metadata := by rw [c6]; rfl
  -- the address of the endpoint
  have step1 : ∃ m2, HoldsRes (setRemote hop.addr r) m2 ∧ Tells hop.env.lib exn ans att m2 ∧ m2.body = m1.body ∧
      wireCost m2.metadata ≤ wireCost m1.metadata + (17 + hop.addr.length) ∧
      (hop.addr ≠ [] → m2.metadata.load b!"x-forwarded-for" = some hop.addr) := by
    rw [setRemote]
    by_cases ha : hop.addr ≠ []
    · rw [if_pos ha]
      refine ⟨_, hh.set _ _, c7.store _ _ (.inr rfl), rfl, ?_, fun _ => AMap.load_store_self _ _ _⟩
      have := wireCost_store m1.metadata XForwardedForLower hop.addr
      have h3 : XForwardedForLower.length = 15 := rfl
      show wireCost (m1.metadata.store XForwardedForLower hop.addr) ≤ _
      omega
    · rw [if_neg ha]
      exact ⟨m1, hh, c7, rfl, (by omega), fun h => absurd h ha⟩
  obtain ⟨m2, s1, s2, s3, s4, s5⟩ := step1
  -- the process time
  have step2 : ∃ m3, (finishRes true hop.pt (setRemote hop.addr r)).rc.original = some (.v2 m3) ∧
      (finishRes true hop.pt (setRemote hop.addr r)).rc.proxy = true ∧
      Tells hop.env.lib exn ans att m3 ∧ m3.body = m2.body ∧ wireCost m3.metadata ≤ wireCost m2.metadata + (6 + hop.pt.length) ∧
      (hop.addr ≠ [] → m3.metadata.load b!"x-forwarded-for" = some hop.addr) := by
    refine ⟨(if loadOrEmpty (setRemote hop.addr r).attachment Convert.MProcessTime = [] then
        { m2 with metadata := m2.metadata.store Convert.MProcessTime hop.pt } else m2), ?_, ?_, ?_, ?_, ?_, ?_⟩
    · rw [finishRes]
      simp only
      by_cases hc : loadOrEmpty (setRemote hop.addr r).attachment Convert.MProcessTime = []
      · rw [if_pos hc, if_pos hc]
        simp only [s1.1]; rfl
      · rw [if_neg hc, if_neg hc]
        exact s1.1
    · exact (finishRes_facts true hop.pt _).2.2.2.1
    · split
      · exact s2.store _ _ (.inl rfl)
      · exact s2
    · split <;> rfl
    · split
      · have := wireCost_store m2.metadata Convert.MProcessTime hop.pt
        have h3 : Convert.MProcessTime.length = 4 := rfl
        show wireCost (m2.metadata.store Convert.MProcessTime hop.pt) ≤ _
        omega
      · omega
    · intro ha
      split
      · exact (AMap.load_store_ne _ _ (by decide)).trans (s5 ha)
      · exact s5 ha
  obtain ⟨m3, t1, t2, t3, t4, t5, t6⟩ := step2
  have hconv : convertToResMessage hop.env.lib ser (finishRes true hop.pt (setRemote hop.addr r)) =
      .ok { m3 with header := m3.header.setProxy true } := by
    rw [convertToResMessage, t1, t2]
  refine ⟨_, rfl, ?_, rfl, ?_, ?_, ?_⟩
  · simp only [Server.answerMessage, hp, hconv]
    exact (t3.setProxy true).withId id
  · simp only [Server.answerMessage, hp, hconv]
    show wireCost m3.metadata ≤ _
    rw [answerCost]
    omega
  · simp only [Server.answerMessage, hp, hconv]
    show m3.body = _ ∨ m3.body = _
    rw [t4, s3]
    exact c8
  · simp only [Server.answerMessage, hp, hconv]
    exact t6

/-- The answer of an agent that got none. -/
theorem tells_failure {hop : Hop} (hl : GzipLawful hop.env.lib) (hp : hop.env.proxy = true) (req : Request) (err : Bytes)
    (ser : Option Ser) (id : UInt64) :
    ∃ a, Server.withId (Server.answerMessage hop.env ser hop.pt id
        (some { r := setRemote hop.addr (call hop.env.lib hop.env.errText hop.ep req .none hop.version (.failed err)).resp })) id = a ∧
      Tells hop.env.lib (some ⟨400, b!"channel call error:" ++ err, 1⟩) [] [] a ∧ a.header.requestID = id ∧ a.body = [] ∧
      wireCost a.metadata ≤ 5 + (hop.env.lib.jsonEnc ⟨400, b!"channel call error:" ++ err, 1⟩).length + answerCost hop ∧
      (hop.addr ≠ [] → a.metadata.load b!"x-forwarded-for" = some hop.addr) := by
  have hresp : (call hop.env.lib hop.env.errText hop.ep req .none hop.version (.failed err)).resp =
      errResponse req (b!"channel call error:" ++ err) := rfl
  rw [hresp]
  have hrem : (setRemote hop.addr (errResponse req (b!"channel call error:" ++ err))).exception =
        some ⟨400, b!"channel call error:" ++ err, 1⟩ ∧
      (setRemote hop.addr (errResponse req (b!"channel call error:" ++ err))).value = none ∧
      (setRemote hop.addr (errResponse req (b!"channel call error:" ++ err))).rc = {} ∧
      (setRemote hop.addr (errResponse req (b!"channel call error:" ++ err))).attachment.NodupKeys ∧
      (∀ k, k ≠ b!"x-forwarded-for" → (setRemote hop.addr (errResponse req (b!"channel call error:" ++ err))).attachment.load k = none) ∧
      wireCost (setRemote hop.addr (errResponse req (b!"channel call error:" ++ err))).attachment ≤ 17 + hop.addr.length ∧
      (hop.addr ≠ [] → (setRemote hop.addr (errResponse req (b!"channel call error:" ++ err))).attachment.load b!"x-forwarded-for" =
        some hop.addr) := by
    rw [setRemote]
    by_cases ha : hop.addr ≠ []
    · rw [if_pos ha]
      refine ⟨rfl, rfl, rfl, AMap.nodupKeys_store AMap.nodupKeys_nil _ _, ?_, ?_, fun _ => AMap.load_store_self _ _ _⟩
      · intro k hk
        exact (AMap.load_store_ne _ _ (Ne.symm hk)).trans rfl
      · have := wireCost_store [] XForwardedForLower hop.addr
        have h3 : XForwardedForLower.length = 15 := rfl
        have h4 : wireCost [] = 0 := rfl
        show wireCost (AMap.store [] XForwardedForLower hop.addr) ≤ _
        omega
    · rw [if_neg ha]
      exact ⟨rfl, rfl, rfl, AMap.nodupKeys_nil, fun _ _ => rfl, Nat.zero_le _, fun h => absurd h ha⟩
  generalize setRemote hop.addr (errResponse req (b!"channel call error:" ++ err)) = r at hrem
  obtain ⟨r1, r2, r3, r4, r5, r6, r7⟩ := hrem
  generalize (⟨400, b!"channel call error:" ++ err, 1⟩ : Exn) = e at r1
  have hfin : (finishRes true hop.pt r).exception = some e ∧ (finishRes true hop.pt r).value = none ∧
      (finishRes true hop.pt r).rc = { proxy := true } ∧ (finishRes true hop.pt r).attachment.NodupKeys ∧
      (∀ k, k ≠ b!"x-forwarded-for" → k ≠ b!"M_pt" → (finishRes true hop.pt r).attachment.load k = none) ∧
      wireCost (finishRes true hop.pt r).attachment ≤ answerCost hop ∧
      (hop.addr ≠ [] → (finishRes true hop.pt r).attachment.load b!"x-forwarded-for" = some hop.addr) := by
    obtain ⟨f1, f2, -, -, f5, f6, -⟩ := finishRes_facts true hop.pt r
    refine ⟨f1.trans r1, f2.trans r2, ?_, f6 r4, fun k k1 k2 => (f5 k k2).trans (r5 k k1), ?_,
      fun ha => (f5 _ (by decide)).trans (r7 ha)⟩
    · rw [finishRes]
      simp only [r3]
      split <;> rfl
    · rw [finishRes]
      simp only
      split
      · have := wireCost_store r.attachment Convert.MProcessTime hop.pt
        have h3 : Convert.MProcessTime.length = 4 := rfl
        show wireCost (r.attachment.store Convert.MProcessTime hop.pt) ≤ _
        rw [answerCost]
        omega
      · show wireCost r.attachment ≤ _
        rw [answerCost]
        omega
  generalize hfr : finishRes true hop.pt r = fr at hfin
  obtain ⟨f1, f2, f3, f4, f5, f6, f7⟩ := hfin
  have hrel : ¬ Relayed fr.rc := by rintro ⟨-, m, h⟩; rw [f3] at h; cases h
  have hconv : ∃ m0, convertToResMessage hop.env.lib ser fr = .ok m0 := by
    rw [convertToResMessage_fresh _ _ _ hrel, Convert.exceptionRC, f1]
    simp only [f3, if_true, Convert.serialNum, Convert.responseBody, f2]
    exact ⟨_, rfl⟩
  obtain ⟨m0, hm0⟩ := hconv
  obtain ⟨body, sn, b1, b2, b3, b4, g, hv⟩ := resMessage_facts hl hrel hm0
  have hb : body = [] := by
    rw [f2] at b1
    cases b1 with
    | none _ => rfl
    | raw b _ hb => cases hb
    | enc s v b _ hb => cases hb
  have hmeta : m0.metadata = fr.attachment.store Convert.MException (hop.env.lib.jsonEnc e) := by
    rw [b2, Convert.exceptionMeta, f1]
  refine ⟨_, rfl, ?_, rfl, ?_, ?_, ?_⟩
  · simp only [Server.answerMessage, hp, hfr, hm0]
    refine Tells.withId ?_ id
    refine ⟨congrArg HeaderView.heartbeat hv, congrArg HeaderView.version hv, ?_, ?_, ?_, ?_, ?_, ?_⟩
    · rw [hmeta]; exact AMap.nodupKeys_store f4 _ _
    · exact (congrArg HeaderView.status hv).trans (by rw [f1])
    · intro e' he
      simp only [Option.some.injEq] at he
      rw [hmeta, loadOrEmpty, AMap.load_store_self, ← he]; rfl
    · intro h; cases h
    · intro h; cases h
    · intro k v hk hc
      simp only [List.mem_cons, List.not_mem_nil, or_false, not_or] at hk
      rw [hmeta, AMap.load_store_ne (k := Convert.MException) _ _ (Ne.symm hk.1), f5 k hk.2.2 hk.2.1]
      simp
  · simp only [Server.answerMessage, hp, hfr, hm0]
    show m0.body = []
    exact b4.mpr hb
  · simp only [Server.answerMessage, hp, hfr, hm0]
    show wireCost m0.metadata ≤ _
    rw [hmeta]
    have := wireCost_store fr.attachment Convert.MException (hop.env.lib.jsonEnc e)
    have h3 : Convert.MException.length = 3 := rfl
    omega
  · simp only [Server.answerMessage, hp, hfr, hm0]
    intro ha
    show m0.metadata.load _ = _
    rw [hmeta, AMap.load_store_ne _ _ (by decide)]
    exact f7 ha

/-! ## A chain of agents -/

/-- What an agent adds to a request. -/
def requestCost (q : Request) (h : Hop) : Nat :=
  (6 + h.ip.length) + 27 + (5 + appLength q + h.app.length) + (5 + h.group.length) + (5 + h.ep.group.length)

/-- An agent as it is configured to relay, with room for messages of `L` bytes. -/
structure HopOk (lib : Lib) (L : Nat) (h : Hop) : Prop where
  lib : h.env.lib = lib
  server : h.env.proxy = true
  client : h.ep.proxy = true
  room : L ≤ h.maxLen ∧ h.maxLen < 2 ^ 32
  epRoom : L ≤ h.epMaxLen ∧ h.epMaxLen < 2 ^ 32
  buf : Reusable h.buf
  epBuf : Reusable h.epBuf

/-- The endpoint that talks to the server. -/
def lastEp : Ep → List Hop → Ep
  | ep, [] => ep
  | _, h :: hs => lastEp h.ep hs

/-- The message is for the group of the endpoint. -/
def ForGroup (ep : Ep) (m : Meta) : Prop := ep.group ≠ [] → (10 : UInt8) ∉ ep.group → Spec.groupOf m = ep.group

/-- The exception of a call that got no answer. -/
def noAnswer : Exn := ⟨400, b!"channel call error:timeout", 1⟩

/-- The answer tells the client of the first agent which address that agent called. -/
def Says (hops : List Hop) (m : Meta) : Prop :=
  ∀ h hs, hops = h :: hs → h.addr ≠ [] → m.load b!"x-forwarded-for" = some h.addr

theorem chain_facts {lib : Lib} {L : Nat} {hops : List Hop} {server : Peer} (hh : ∀ h ∈ hops, HopOk lib L h)
    (hsl : server.env.lib = lib) (hsm : L ≤ server.maxLen ∧ server.maxLen < 2 ^ 32) (hsb : Reusable server.buf) :
    (chain hops server).env.lib = lib ∧ (L ≤ (chain hops server).maxLen ∧ (chain hops server).maxLen < 2 ^ 32) ∧
      Reusable (chain hops server).buf := by
  cases hops with
  | nil => exact ⟨hsl, hsm, hsb⟩
  | cons h hs =>
    have := hh h (List.mem_cons_self ..)
    exact ⟨this.lib, this.room, this.buf⟩

/-- Metadata that was read from a connection. -/
def OffWire (m : Meta) : Prop := ∀ k v, m.load k = some v → v ≠ [] ∧ (10 : UInt8) ∉ v

theorem OffWire.ridOk {m : Meta} (h : OffWire m) : RidOk m := fun v hv => h _ v hv

theorem OffWire.text {m : Meta} (h : OffWire m) (k : Bytes) : wireText (loadOrEmpty m k) = loadOrEmpty m k := by
  rw [wireText, if_neg]
  rw [loadOrEmpty]
  cases hl : m.load k with
  | none => simp
  | some v => exact (h k v hl).2

theorem SameCarriable.offWire {m r : Meta} (h : SameCarriable m r) : OffWire r := by
  intro k v hv
  have := ((h k v).mp hv).2
  exact ⟨this.2.1, this.2.2.2⟩

/-- What becomes of a message that is given to a chain of agents. -/
theorem chain_process {lib : Lib} (hl : GzipLawful lib) {L : Nat} {server : Peer} (hsl : server.env.lib = lib)
    (hsm : L ≤ server.maxLen ∧ server.maxLen < 2 ^ 32) (hsb : Reusable server.buf) {q : Request} {sid : UInt64} {body : Bytes}
    (hbl : body.length ≤ L) (hbz : ∀ c, lib.gzip body = some c → c.length ≤ L) (hops : List Hop) :
    (∀ h ∈ hops, HopOk lib L h) → ∀ (ep : Ep) (m : Message), Asks lib q sid body m → OffWire m.metadata → ForGroup ep m.metadata →
    wireCost m.metadata + (hops.map (requestCost q)).sum ≤ L →
    ∃ got, Asks lib q sid body got ∧ OffWire got.metadata ∧ ForGroup (lastEp ep hops) got.metadata ∧ (hops = [] → got = m) ∧
      (∀ exn ans att a0, Server.process server.env server.handler server.pt server.ip (.v2 got) = .sent (.v2 a0) →
        a0.header.requestID = got.header.requestID → Tells lib exn ans att a0 → (∀ e, exn = some e → JsonLawful lib e) →
        wireCost a0.metadata + (hops.map answerCost).sum ≤ L → a0.body.length ≤ L → ans.length ≤ L →
        ∃ a, Server.process (chain hops server).env (chain hops server).handler (chain hops server).pt (chain hops server).ip (.v2 m) =
            .sent (.v2 a) ∧ a.header.requestID = m.header.requestID ∧ Tells lib exn ans att a ∧
          wireCost a.metadata ≤ wireCost a0.metadata + (hops.map answerCost).sum ∧ a.body.length ≤ L ∧ Says hops a.metadata) ∧
      (Server.process server.env server.handler server.pt server.ip (.v2 got) = .nothing → hops ≠ [] → JsonLawful lib noAnswer →
        5 + (lib.jsonEnc noAnswer).length + (hops.map answerCost).sum ≤ L →
        ∃ a, Server.process (chain hops server).env (chain hops server).handler (chain hops server).pt (chain hops server).ip (.v2 m) =
            .sent (.v2 a) ∧ a.header.requestID = m.header.requestID ∧ Tells lib (some noAnswer) [] [] a ∧
          wireCost a.metadata ≤ 5 + (lib.jsonEnc noAnswer).length + (hops.map answerCost).sum ∧ a.body.length ≤ L ∧ Says hops a.metadata) := by
  induction hops with
  | nil =>
    intro _ ep m ha hr hg _
    refine ⟨m, ha, hr, hg, fun _ => rfl, ?_, fun _ h => absurd rfl h⟩
    intro exn ans att a0 h1 h2 h3 _ _ h6 _
    exact ⟨a0, h1, h2, h3, by simp, h6, by intro h hs e; cases e⟩
  | cons h hs ih =>
    intro hh ep m ha hr hg hsize
    have hok := hh h (List.mem_cons_self ..)
    have hhs : ∀ h' ∈ hs, HopOk lib L h' := fun h' hm => hh h' (List.mem_cons_of_mem _ hm)
    obtain ⟨n1, n2, n3⟩ := chain_facts hhs hsl hsm hsb
    simp only [List.map_cons, List.sum_cons] at hsize
    -- the agent reads the message
    have ha' : Asks h.env.lib q sid body m := by rw [hok.lib]; exact ha
    obtain ⟨r, m1, c1, c2, c3, c4, c5, c6, c7, c8⟩ := ha'.relayed hr.ridOk hok.server h.ip (h.env.sers m.header.getSerialize)
    obtain ⟨m2, d1, d2, d3, d4, d5, d6⟩ := c4.filled ⟨c2, c3⟩ c7 h.app h.group
    rw [hok.lib] at d2
    obtain ⟨m', e1, e2, e3, e4, e5, e6⟩ := d2.forward hl d1 (d3.trans c5) (fun hne => by rw [d4]; exact c6 hne) d5 hok.client h.streamId
    have hm'b : m'.body.length ≤ L := by
      rcases e6 with e | ⟨c, hc, e⟩
      · rw [e]; exact hbl
      · rw [e]; exact hbz c hc
    have hm'c : wireCost m'.metadata + (hs.map (requestCost q)).sum ≤ L := by
      rw [requestCost] at hsize; omega
    obtain ⟨got, g1, g2, g3, g4, g5, g6⟩ := over_wire (buf := h.epBuf) hok.epBuf (maxLen := (chain hs server).maxLen) e2.version e2.nodup
      (by rw [metaSize_cost]; omega) (by omega) n2.2
    have hgot := e2.wire g2 g3 g4 g5
    have hgr : OffWire got.metadata := SameCarriable.offWire g5
    have hgid : got.header.requestID = h.streamId := by rw [g2]; exact e3
    have hgg : ForGroup h.ep got.metadata := by
      intro k1 k2
      refine groupOf_wire (m := m'.metadata) ?_ (e4 k1) k1 k2
      intro k v _
      exact g5 k v
    obtain ⟨got2, i1, i2, i3, i4, i5, i6⟩ := ih hhs h.ep got hgot hgr hgg (by omega)
    -- the agent's part of the processing
    have hproc : Server.process (chain (h :: hs) server).env (chain (h :: hs) server).handler (chain (h :: hs) server).pt
        (chain (h :: hs) server).ip (.v2 m) = .sent (.v2 (Server.withId (Server.answerMessage h.env (h.env.sers m.header.getSerialize) h.pt
          m.header.requestID (some { r := setRemote h.addr (call h.env.lib h.env.errText h.ep (fillDefaultReqInfo r h.app h.group) .none h.version
            (exchange (chain hs server) h.env.errText h.ep h.epMaxLen h.epBuf h.streamId (fillDefaultReqInfo r h.app h.group))).resp }))
          m.header.requestID)) := by
      show Server.processV2 h.env (agentHandler h (chain hs server)) h.pt h.ip m = _
      rw [processV2_call ha.heartbeat, c1]
      rfl
    have hex : exchange (chain hs server) h.env.errText h.ep h.epMaxLen h.epBuf h.streamId (fillDefaultReqInfo r h.app h.group) =
        match Server.process (chain hs server).env (chain hs server).handler (chain hs server).pt (chain hs server).ip (.v2 got) with
        | .sent (.v2 a) => receive h.epMaxLen h.streamId (encode (chain hs server).buf a)
        | .sent (.v1 _) => .failed b!"timeout"
        | .closed => .failed b!"channel closed"
        | .nothing => .failed b!"timeout" := by
      rw [exchange, n1, e1]
      simp only [g1]
      cases Server.process (chain hs server).env (chain hs server).handler (chain hs server).pt (chain hs server).ip (.v2 got) with
      | sent a => cases a <;> rfl
      | closed => rfl
      | nothing => rfl
    -- an answer comes back
    have back : ∀ exn ans att a', Server.process (chain hs server).env (chain hs server).handler (chain hs server).pt
          (chain hs server).ip (.v2 got) = .sent (.v2 a') → a'.header.requestID = got.header.requestID → Tells lib exn ans att a' →
        (∀ e, exn = some e → JsonLawful lib e) → wireCost a'.metadata ≤ L → a'.body.length ≤ L → ans.length ≤ L →
        ∃ a, Server.process (chain (h :: hs) server).env (chain (h :: hs) server).handler (chain (h :: hs) server).pt
            (chain (h :: hs) server).ip (.v2 m) = .sent (.v2 a) ∧ a.header.requestID = m.header.requestID ∧ Tells lib exn ans att a ∧
          wireCost a.metadata ≤ wireCost a'.metadata + answerCost h ∧ a.body.length ≤ L ∧ Says (h :: hs) a.metadata := by
      intro exn ans att a' p1 p2 p3 p4 p5 p6 p7
      obtain ⟨w, w1, w2, w3, w4, w5, w6⟩ := over_wire (buf := (chain hs server).buf) n3 (maxLen := h.epMaxLen) p3.version p3.nodup
        (by rw [metaSize_cost]; have := hok.epRoom.1; omega) (by have := hok.epRoom.1; omega) hok.epRoom.2
      have ht := p3.wire p4 w2 w3 w4 w5
      have hrec : receive h.epMaxLen h.streamId (encode (chain hs server).buf a') = .answered (.v2 w) := by
        rw [receive, w1]
        simp only
        rw [if_pos ⟨ht.heartbeat, by rw [w2]; exact p2.trans hgid⟩]
      rw [hproc, hex, p1]
      simp only [hrec]
      have ht' : Tells h.env.lib exn ans att w := by rw [hok.lib]; exact ht
      obtain ⟨a, b1, b2, b3, b4, b5, b6⟩ := ht'.back (by rw [hok.lib]; exact p4) hok.server hok.client (fillDefaultReqInfo r h.app h.group)
        (h.env.sers m.header.getSerialize) m.header.requestID
      rw [hok.lib] at b2
      refine ⟨a, by rw [b1], b3, b2, by omega, ?_, ?_⟩
      · rcases b5 with b5 | b5
        · rw [b5, w3]; exact p6
        · rw [b5]; exact p7
      · intro h' hs' e hne
        simp only [List.cons.injEq] at e
        rw [← e.1] at hne ⊢
        exact b6 hne
    refine ⟨got2, i1, i2, i3, (by intro h; cases h), ?_, ?_⟩
    · intro exn ans att a0 p1 p2 p3 p4 p5 p6 p7
      simp only [List.map_cons, List.sum_cons] at p5 ⊢
      obtain ⟨a', q1, q2, q3, q4, q5, -⟩ := i5 exn ans att a0 p1 p2 p3 p4 (by omega) p6 p7
      obtain ⟨a, t1, t2, t3, t4, t5, t6⟩ := back exn ans att a' q1 q2 q3 p4 (by omega) q5 p7
      exact ⟨a, t1, t2, t3, by omega, t5, t6⟩
    · intro p1 _ hj p3
      simp only [List.map_cons, List.sum_cons] at p3 ⊢
      by_cases hne : hs = []
      · have hgg2 := i4 hne
        subst hne
        subst hgg2
        have hex2 : exchange (chain [] server) h.env.errText h.ep h.epMaxLen h.epBuf h.streamId (fillDefaultReqInfo r h.app h.group) =
            .failed b!"timeout" := by
          rw [hex]
          show (match Server.process server.env server.handler server.pt server.ip (.v2 got2) with
            | .sent (.v2 a) => receive h.epMaxLen h.streamId (encode (chain [] server).buf a)
            | .sent (.v1 _) => .failed b!"timeout"
            | .closed => .failed b!"channel closed"
            | .nothing => .failed b!"timeout") = _
          rw [p1]
        rw [hproc, hex2]
        obtain ⟨a, b1, b2, b3, b4, b5, b6⟩ := tells_failure (hop := h) (by rw [hok.lib]; exact hl) hok.server
          (fillDefaultReqInfo r h.app h.group) b!"timeout" (h.env.sers m.header.getSerialize) m.header.requestID
        rw [hok.lib] at b2 b5
        have hcost : wireCost a.metadata ≤ 5 + (lib.jsonEnc noAnswer).length + answerCost h := b5
        refine ⟨a, by rw [b1], b3, b2, by simp only [List.map_nil, List.sum_nil]; omega, by rw [b4]; exact Nat.zero_le _, ?_⟩
        intro h' hs' e hne
        simp only [List.cons.injEq] at e
        rw [← e.1] at hne ⊢
        exact b6 hne
      · obtain ⟨a', q1, q2, q3, q4, q5, -⟩ := i6 p1 hne hj (by omega)
        obtain ⟨a, t1, t2, t3, t4, t5, t6⟩ := back (some noAnswer) [] [] a' q1 q2 q3
          (by intro e he; simp only [Option.some.injEq] at he; rw [← he]; exact hj) (by omega) q5 (Nat.zero_le _)
        exact ⟨a, t1, t2, t3, by omega, t5, t6⟩

/-! ## From the caller to the server and back -/

namespace Spec

/-- What the handler of a server is given for the request `req` that a client sends with the arguments `vs` to the first of a
chain of agents; `ep` is the endpoint of the last agent and `ip` its address. -/
structure SeesVia (ep : Ep) (ip : Bytes) (streamId : UInt64) (req : Request) (vs : List Val) (r : Request) : Prop where
  service : r.service = wireText req.service
  method : r.method = wireText req.method
  desc : req.desc ≠ [] → r.desc = wireText req.desc
  /-- The id of the request is the one the connection of the client uses, unless the caller has set `M_rid`. -/
  id : r.id = specRequestId req.attachment streamId
  /-- The arguments are the caller's (an `int` is an `int64`). -/
  args : ∃ r', r.processDeserializable none = .ok r' ∧ r'.args = vs.map fun v => .val (Simple.norm v)
  /-- The caller's attachments and no others, except those of the framework. -/
  attachments : ∀ k v, k ∉ [b!"M_p", b!"M_m", b!"M_md", b!"M_pp", b!"M_rid", b!"M_g", b!"M_s", b!"host"] → Carriable k v →
    (r.attachment.load k = some v ↔ req.attachment.load k = some v)
  /-- The source and the protocol, if the caller has set them, are the caller's. -/
  kept : ∀ k v, k = b!"M_s" ∨ k = b!"M_pp" → Carriable k v → req.attachment.load k = some v → r.attachment.load k = some v
  host : r.attachment.load b!"host" = some ip
  /-- The group is that of the last agent's endpoint, whatever group the caller named. -/
  group : ep.group ≠ [] → (10 : UInt8) ∉ ep.group → groupOf r.attachment = ep.group

/-- What is assumed of a call through agents: agents that relay, a client and a server that do not, both with the simple
serialization; arguments that can be serialized; messages that are, with what the agents add to them, not longer than `L`,
which all allow. -/
structure RelayedCall (hops : List Hop) (server : Peer) (ep : Ep) (streamId : UInt64) (req : Request) (vs : List Val) (L : Nat) :
    Prop where
  gzip : GzipLawful server.env.lib
  agents : ∀ h ∈ hops, HopOk server.env.lib L h
  serverEnd : server.env.proxy = false
  registered : server.env.sers 6 = some simpleSer
  serverRoom : L ≤ server.maxLen ∧ server.maxLen < 2 ^ 32
  serverBuf : Reusable server.buf
  client : ep.proxy = false
  serialization : ep.ser = some simpleSer
  v2 : isV1 req = false
  raw : req.rc.serialized = false
  args : req.args = vs.map .val
  supported : ∀ v ∈ vs, Simple.supported v = true
  storable : ∀ v ∈ vs, Simple.storable v = true
  attachments : req.attachment.NodupKeys
  fits : ∀ msg, requestMessage server.env.lib ep streamId req = .ok msg →
    metaSize msg.metadata + 1 + (hops.map (requestCost req)).sum ≤ L ∧ msg.body.length ≤ L
  bodyFits : ∀ bs, ArgBytes (some simpleSer) req bs → bs.length ≤ L ∧ ∀ c, server.env.lib.gzip bs = some c → c.length ≤ L

/-- What is assumed of the answer `a` of a handler. -/
structure AnswerableVia (hops : List Hop) (p : Peer) (L : Nat) (a : Response) : Prop where
  raw : a.rc.serialized = false
  value : ∀ x, a.value = some x → ∃ v, x = .val v ∧ Simple.supported v = true ∧ Simple.storable v = true ∧
    ∀ bs, Simple.serialize 2048 v = .ok bs → bs.length ≤ L
  exception : ∀ e, a.exception = some e → JsonLawful p.env.lib e
  attachments : a.attachment.NodupKeys
  fits : ∀ msg, convertToResMessage p.env.lib (some simpleSer) (finishRes false p.pt a) = .ok msg →
    metaSize msg.metadata + 1 + (hops.map answerCost).sum ≤ L ∧ msg.body.length ≤ L

/-- The caller of `req` has got the answer `a`. -/
structure DeliveredVia (hops : List Hop) (req : Request) (a : Response) (out : Result) : Prop where
  id : out.resp.id = req.id
  exception : out.resp.exception = a.exception
  /-- The value is the handler's (an `int` is an `int64`). -/
  value : ∀ v, a.exception = none → a.value = some (.val v) → out.resp.value = some (.val (Simple.norm v))
  noValue : a.exception.isSome = true ∨ a.value = none → out.resp.value = none
  attachments : ∀ k v, k ∉ [b!"M_e", b!"M_pt", b!"x-forwarded-for"] → Carriable k v →
    (out.resp.attachment.load k = some v ↔ a.attachment.load k = some v)
  /-- The caller learns which address the first agent called. -/
  remote : ∀ h hs, hops = h :: hs → Carriable b!"x-forwarded-for" h.addr →
    out.resp.attachment.load b!"x-forwarded-for" = some h.addr
  /-- An exception counts against the agent, unless it is the business's. -/
  counted : ∀ e, out.recorded = some e ↔ a.exception = some e ∧ e.errType ≠ 2
  cleared : out.reset = true ↔ ¬ Failed a

end Spec

/-- The message a client sends. -/
theorem client_asks {hops : List Hop} {server : Peer} {ep : Ep} {streamId : UInt64} {req : Request} {vs : List Val} {L : Nat}
    (hp : Spec.RelayedCall hops server ep streamId req vs L) {bs : Bytes} (hab : ArgBytes (some simpleSer) req bs) :
    ∃ msg, requestMessage server.env.lib ep streamId req = .ok msg ∧ Asks server.env.lib req streamId bs msg ∧
      ForGroup ep msg.metadata ∧ msg.header.requestID = streamId := by
  obtain ⟨f1, f2, f3, f4, f5⟩ := fitGroup_facts ep (withContext ep req) hp.v2
  generalize hq : fitGroup ep (withContext ep req) = q at f1 f2 f3 f4 f5
  have qrc : q.rc = { req.rc with proxy := false, gzipSize := ep.gzipSize } := by
    rw [f1, withContext, hp.client]
  have qargs : q.args = req.args := by rw [f1]; rfl
  have qservice : q.service = req.service := by rw [f1]; rfl
  have qmethod : q.method = req.method := by rw [f1]; rfl
  have qdesc : q.desc = req.desc := by rw [f1]; rfl
  have hrel : ¬ Relayed q.rc := by rintro ⟨h, -⟩; rw [qrc] at h; cases h
  have hrel' : ¬ Relayed ({ q with id := streamId } : Request).rc := hrel
  have toReq : ∀ b, ArgBytes (some simpleSer) ({ q with id := streamId } : Request) b ↔ ArgBytes (some simpleSer) req b := by
    intro b
    rw [← requestBody_iff, ← requestBody_iff]
    have : Convert.requestBody (some simpleSer) ({ q with id := streamId } : Request) =
        Convert.requestBody (some simpleSer) req := by
      rw [Convert.requestBody.eq_def, Convert.requestBody.eq_def]
      simp only [qargs, qrc]
    rw [this]
  have hqs : ({ q with id := streamId } : Request).rc.serialized = false := by
    show q.rc.serialized = false
    rw [qrc]; exact hp.raw
  obtain ⟨msg, hm⟩ := (request_convertible_iff server.env.lib (some simpleSer) { q with id := streamId } hrel').mpr
    ⟨⟨bs, (toReq bs).mpr hab⟩, .inr rfl⟩
  have hmsg : requestMessage server.env.lib ep streamId req = .ok msg := by
    rw [requestMessage, hq, hp.serialization, ← convertToReqMessage_id streamId hrel, hm]
  obtain ⟨body, num, hab', hnum, hmm, hbody, hempty, g, hv⟩ := reqMessage_facts hp.gzip hrel' hm
  have hb : body = bs := by
    have e1 := (requestBody_iff _ _ _).mpr ((toReq body).mp hab')
    rw [(requestBody_iff _ _ _).mpr hab] at e1
    simpa using e1.symm
  subst hb
  have hn : ({ q with id := streamId } : Request).attachment.NodupKeys := f3 hp.attachments
  have hnum6 : num = 6 := by
    rw [Convert.serialNum.eq_def, hqs] at hnum
    simp only [Bool.false_eq_true, if_false, Except.ok.injEq] at hnum
    rw [← hnum]; rfl
  refine ⟨msg, hmsg, ⟨congrArg HeaderView.heartbeat hv, congrArg HeaderView.version hv, ?_, ?_, hempty, hbody, ?_, ?_, ?_, ?_, ?_, ?_⟩,
    ?_, congrArg HeaderView.requestID hv⟩
  · have := congrArg HeaderView.serialize hv
    rw [hnum6] at this
    have h6 : (Motan2.buildHeader Motan2.Req false 6 streamId Motan2.Normal).getSerialize = 6 := by
      show (Motan2.buildHeader Motan2.Req false 6 0 Motan2.Normal).getSerialize = 6
      decide
    exact this.trans h6
  · rw [hmm]; exact nodup_requestMeta hn
  · rw [hmm, loadOrEmpty, load_requestMeta_path]
    show wireText q.service = _
    rw [qservice]
  · rw [hmm, loadOrEmpty, load_requestMeta_method]
    show wireText q.method = _
    rw [qmethod]
  · intro hd
    rw [hmm, loadOrEmpty, load_requestMeta_desc]
    simp only [qdesc]
    rw [if_pos hd]; rfl
  · have : msg.header.requestID = streamId := congrArg HeaderView.requestID hv
    rw [hmm, this]
    simp only [specRequestId]
    rw [load_requestMeta_other _ Convert.MRequestID (by decide) (by decide) (by decide) (by decide)]
    simp only
    rw [f2 _ (by decide)]; rfl
  · intro k v hk _
    simp only [List.mem_cons, List.not_mem_nil, or_false, not_or] at hk
    obtain ⟨k1, k2, k3, k4, k5, k6, k7, k8⟩ := hk
    rw [hmm, load_requestMeta_other _ k k1 k2 k3 k4]
    simp only
    rw [f2 k k6]; rfl
  · rintro k v (rfl | rfl) hc hx
    · rw [hmm, load_requestMeta_other _ _ (by decide) (by decide) (by decide) (by decide)]
      simp only
      rw [f2 _ (by decide)]; exact hx
    · have hq2 : q.attachment.load b!"M_pp" = some v := by rw [f2 _ (by decide)]; exact hx
      have hpp : (Convert.requestMeta { q with id := streamId }).load Convert.MProxyProtocol =
          if loadOrEmpty q.attachment Convert.MProxyProtocol = [] then some Convert.defaultProtocol
          else q.attachment.load Convert.MProxyProtocol := request_relay_protocol ({ q with id := streamId } : Request)
      rw [hmm]
      have hle : loadOrEmpty q.attachment Convert.MProxyProtocol = v := by
        rw [loadOrEmpty]
        show (q.attachment.load b!"M_pp").getD [] = v
        rw [hq2]; rfl
      show (Convert.requestMeta { q with id := streamId }).load Convert.MProxyProtocol = some v
      rw [hpp]
      simp only [hle]
      rw [if_neg hc.2.1]
      exact hq2
  · intro k1 k2
    have hg : Spec.groupOf msg.metadata = Spec.groupOf q.attachment := by
      rw [Spec.groupOf, Spec.groupOf, hmm]
      have e1 := load_requestMeta_other ({ q with id := streamId } : Request) b!"M_g" (by decide) (by decide) (by decide) (by decide)
      have e2 := load_requestMeta_other ({ q with id := streamId } : Request) b!"group" (by decide) (by decide) (by decide) (by decide)
      simp only at e1 e2
      rw [e1, e2]
    rw [hg]
    exact f4 k1

/-- What the handler of the server is given. -/
theorem server_sees {hops : List Hop} {server : Peer} {ep : Ep} {streamId : UInt64} {req : Request} {vs : List Val} {L : Nat}
    (hp : Spec.RelayedCall hops server ep streamId req vs L) {bs : Bytes} (hbl : bs.length < 2 ^ 32)
    (hval : bs.length < 2 ^ 32 → ∀ r : Request, r.args = (if bs = [] then [] else [.deser bs (some simpleSer)]) →
        ∃ r', r.processDeserializable none = .ok r' ∧ r'.args = vs.map fun v => .val (Simple.norm v))
    {got : Message} (h : Asks server.env.lib req streamId bs got) (hr : OffWire got.metadata) {last : Ep} (hg : ForGroup last got.metadata) :
    ∃ r, Spec.SeesVia last server.ip streamId req vs r ∧
      Server.process server.env server.handler server.pt server.ip (.v2 got) =
        match server.handler r with
        | .panicked => .nothing
        | .returned res => .sent (.v2 (Server.withId (Server.answerMessage server.env (some simpleSer) server.pt
            got.header.requestID res) got.header.requestID)) := by
  have h1 : Asks server.env.lib req streamId bs (received server.env server.ip got) :=
    (h.setProxy server.env.proxy).store Server.HostKey server.ip (.inl rfl)
  have hhost : ∀ k, k ≠ b!"host" → (received server.env server.ip got).metadata.load k = got.metadata.load k := by
    intro k hk
    show (got.metadata.store Server.HostKey server.ip).load k = _
    exact AMap.load_store_ne (k := Server.HostKey) _ _ (Ne.symm hk)
  have hr1 : RidOk (received server.env server.ip got).metadata := by
    intro v hv
    rw [hhost _ (by decide)] at hv
    exact hr _ v hv
  obtain ⟨i1, i2, i3, -, -⟩ := h1.requestId hr1
  obtain ⟨r, m1, c1, c2, c3, c4, c5, c6, -, -, -, c10⟩ := convertToRequest_eq (lib := server.env.lib) (ser := some simpleSer)
    (received server.env server.ip got) (.inr rfl)
  have htext : ∀ k, k ≠ b!"host" → k ≠ b!"M_rid" →
      loadOrEmpty (Convert.requestIdOf (received server.env server.ip got)).2 k =
        wireText (loadOrEmpty (received server.env server.ip got).metadata k) := by
    intro k k1 k2
    have : loadOrEmpty (received server.env server.ip got).metadata k = loadOrEmpty got.metadata k := by
      rw [loadOrEmpty, loadOrEmpty, hhost k k1]
    rw [this, hr.text, ← this, loadOrEmpty, loadOrEmpty, i3 k k2]
  refine ⟨r, ⟨?_, ?_, ?_, ?_, ?_, ?_, ?_, ?_, ?_⟩, ?_⟩
  · rw [c3, htext _ (by decide) (by decide)]; exact h1.service
  · rw [c4, htext _ (by decide) (by decide)]; exact h1.method
  · intro hd
    rw [c5, htext _ (by decide) (by decide)]; exact h1.desc hd
  · rw [c2, i1]
  · refine hval hbl r ?_
    rw [c10]
    have e1 := h1.empty
    have e2 := h1.body
    by_cases hb : bs = []
    · rw [if_pos (e1.mpr hb), if_pos hb]
    · rw [if_neg (fun h => hb (e1.mp h)), if_neg hb, e2]
  · intro k v hk hc
    rw [c6]
    exact i2.attachments k v hk hc
  · intro k v hk hc hq
    rw [c6]
    exact i2.kept k v hk hc hq
  · rw [c6, i3 _ (by decide)]
    exact AMap.load_store_self _ _ _
  · intro k1 k2
    rw [c6, Spec.groupOf]
    have e1 : (Convert.requestIdOf (received server.env server.ip got)).2.load b!"M_g" = got.metadata.load b!"M_g" := by
      rw [i3 _ (by decide), hhost _ (by decide)]
    have e2 : (Convert.requestIdOf (received server.env server.ip got)).2.load b!"group" = got.metadata.load b!"group" := by
      rw [i3 _ (by decide), hhost _ (by decide)]
    rw [e1, e2]
    exact hg k1 k2
  · show Server.processV2 server.env server.handler server.pt server.ip got = _
    rw [processV2_call h.heartbeat, h.serialize, hp.registered, c1]
    simp only
    cases server.handler r <;> rfl

/-- What the caller makes of an answer. -/
theorem caller_gets {lib : Lib} {exn : Option Exn} {ans : Bytes} {att : Meta} {w : Message} (h : Tells lib exn ans att w)
    (hj : ∀ e, exn = some e → JsonLawful lib e) {ep : Ep} (hep : ep.proxy = false) (hes : ep.ser = some simpleSer) (req : Request) :
    (notify lib ep req (.v2 w)).exception = exn ∧
    (notify lib ep req (.v2 w)).value = (if exn.isSome ∨ ans = [] then none else some (.deser ans (some simpleSer))) ∧
    (notify lib ep req (.v2 w)).attachment = w.metadata := by
  obtain ⟨r, m1, a1, a2, a3, a4, a5, a6, a7, a8⟩ := ((h.setProxy false).withId req.id).response hj (ser := some simpleSer) (.inr rfl)
  rw [notify, hep, hes, a1]
  exact ⟨a2, a3, a4.trans a6⟩


/-- The message of the server's answer. -/
theorem server_tells {server : Peer} (hl : GzipLawful server.env.lib) (hsp : server.env.proxy = false) {hops : List Hop} {L : Nat}
    (hL : L < 2 ^ 32) {res : Res} (ha : Spec.AnswerableVia hops server L res.r) (id : UInt64) :
    ∃ ans a0, Server.withId (Server.answerMessage server.env (some simpleSer) server.pt id (some res)) id = a0 ∧
      Tells server.env.lib res.r.exception ans res.r.attachment a0 ∧ a0.header.requestID = id ∧
      wireCost a0.metadata + (hops.map answerCost).sum ≤ L ∧ a0.body.length ≤ L ∧ ans.length ≤ L ∧
      (res.r.value = none → ans = []) ∧
      (∀ v, res.r.value = some (.val v) → ans ≠ [] ∧ Simple.deSerialize ans .none = .ok (Simple.norm v, none)) := by
  obtain ⟨f1, f2, f3, f4, f5, f6, -⟩ := finishRes_facts false server.pt res.r
  have hrel : ¬ Relayed (finishRes false server.pt res.r).rc := by rintro ⟨h, -⟩; rw [f4] at h; cases h
  have hs : (Convert.exceptionRC (finishRes false server.pt res.r)).serialized = false := by
    rw [exceptionRC_serialized, effSerialized, f3, f4, ha.raw]; simp
  have hlen : ∀ v, res.r.value = some (.val v) → Simple.supported v = true ∧ Simple.storable v = true ∧
      ∀ bs, Simple.serialize 2048 v = .ok bs → bs.length ≤ L := by
    intro v hv
    obtain ⟨w, e, w2, w3, w4⟩ := ha.value _ hv
    simp only [Arg.val.injEq] at e
    subst e
    exact ⟨w2, w3, w4⟩
  have hbody : ∃ bs, Convert.responseBody (some simpleSer) (Convert.exceptionRC (finishRes false server.pt res.r))
      (finishRes false server.pt res.r).value = .ok bs := by
    rw [f2, Convert.responseBody.eq_def]
    cases hv : res.r.value with
    | none => exact ⟨_, rfl⟩
    | some x =>
      obtain ⟨v, rfl, v2, v3, v4⟩ := ha.value x hv
      obtain ⟨bs, b1, -⟩ := simple_value v v2 v3 (fun bs h => Nat.lt_of_le_of_lt (v4 bs h) hL)
      simp only [hs, Bool.false_eq_true, if_false]
      have b1' : simpleSer.serialize (Arg.toVal (.val v)) = .ok bs := b1
      rw [b1']
      exact ⟨bs, rfl⟩
  have hconv : ∃ m0, convertToResMessage server.env.lib (some simpleSer) (finishRes false server.pt res.r) = .ok m0 := by
    rw [convertToResMessage_fresh _ _ _ hrel]
    obtain ⟨bs, hb⟩ := hbody
    rw [Convert.serialNum.eq_def, hs]
    simp only [Bool.false_eq_true, if_false, hb]
    exact ⟨_, rfl⟩
  obtain ⟨m0, hm0⟩ := hconv
  obtain ⟨ans, sn, b1, b2, b3, b4, g, hv⟩ := resMessage_facts hl hrel hm0
  have e1 : effSerialized (finishRes false server.pt res.r) = false := by
    rw [effSerialized, f3, f4, ha.raw]; simp
  rw [e1, f2] at b1
  have hans : (res.r.value = none → ans = []) ∧ (∀ v, res.r.value = some (.val v) → Simple.serialize 2048 v = .ok ans) := by
    refine ⟨?_, ?_⟩
    · intro h
      rw [h] at b1
      cases b1 with
      | none _ => rfl
      | raw b _ hb => cases hb
      | enc s v b _ hb => cases hb
    · intro v h
      rw [h] at b1
      cases b1 with
      | none hb => cases hb
      | raw b hb _ => cases hb
      | enc s w b _ hb hs hd =>
        simp only [Option.some.injEq] at hb hs
        subst hb; subst hs
        exact hd
  obtain ⟨z1, z2⟩ := ha.fits m0 hm0
  have hmsg : Server.answerMessage server.env (some simpleSer) server.pt id (some res) = m0 := by
    simp only [Server.answerMessage, hsp, hm0]
  refine ⟨ans, _, rfl, ?_, rfl, ?_, ?_, ?_, hans.1, ?_⟩
  · rw [hmsg]
    refine Tells.withId ?_ id
    refine ⟨congrArg HeaderView.heartbeat hv, congrArg HeaderView.version hv, ?_, ?_, ?_, fun _ => b4, fun _ => b3, ?_⟩
    · rw [b2, Convert.exceptionMeta.eq_def]; split
      · exact AMap.nodupKeys_store (f6 ha.attachments) _ _
      · exact f6 ha.attachments
    · exact (congrArg HeaderView.status hv).trans (by rw [f1])
    · intro e he
      rw [b2, Convert.exceptionMeta.eq_def, f1, he]
      simp only
      rw [loadOrEmpty, AMap.load_store_self]; rfl
    · intro k v hk hc
      simp only [List.mem_cons, List.not_mem_nil, or_false, not_or] at hk
      have : m0.metadata.load k = (finishRes false server.pt res.r).attachment.load k := by
        rw [b2, Convert.exceptionMeta.eq_def]; split
        · exact AMap.load_store_ne (k := Convert.MException) _ _ (Ne.symm hk.1)
        · rfl
      rw [this, f5 k hk.2.1]
  · rw [hmsg]
    show wireCost m0.metadata + _ ≤ L
    rw [metaSize_cost] at z1
    omega
  · rw [hmsg]; exact z2
  · cases hv : res.r.value with
    | none => rw [hans.1 hv]; exact Nat.zero_le _
    | some x =>
      obtain ⟨v, rfl, v2, v3, v4⟩ := ha.value x hv
      exact v4 ans (hans.2 v hv)
  · intro v h
    obtain ⟨l1, l2, l3⟩ := hlen v h
    obtain ⟨bs, c1, c2, c3⟩ := simple_value v l1 l2 (fun bs h => Nat.lt_of_le_of_lt (l3 bs h) hL)
    have := hans.2 v h
    rw [c1] at this
    simp only [Except.ok.injEq] at this
    subst this
    exact ⟨c2, c3⟩

/-- The message of a server whose handler returned nothing. -/
theorem nil_tells {server : Peer} {e : Exn} (id : UInt64) :
    Tells server.env.lib (some e) [] [] (Server.withId (Convert.buildExceptionResponse id (server.env.lib.jsonEnc e)) id) ∧
    wireCost (Server.withId (Convert.buildExceptionResponse id (server.env.lib.jsonEnc e)) id).metadata ≤ 5 + (server.env.lib.jsonEnc e).length ∧
    (Server.withId (Convert.buildExceptionResponse id (server.env.lib.jsonEnc e)) id).body = [] := by
  have he : Server.withId (Convert.buildExceptionResponse id (server.env.lib.jsonEnc e)) id =
      Convert.buildExceptionResponse id (server.env.lib.jsonEnc e) := rfl
  rw [he]
  generalize hmsg : Convert.buildExceptionResponse id (server.env.lib.jsonEnc e) = msg
  have hmm : msg.metadata = [(Convert.MException, server.env.lib.jsonEnc e)] := by rw [← hmsg]; rfl
  have hbb : msg.body = [] := by rw [← hmsg]; rfl
  have hvs : msg.header.versionStatus = 9 := by rw [← hmsg]; exact buildExceptionResponse_vs _ _
  have hmt : msg.header.msgType = 1 := by rw [← hmsg]; exact buildExceptionResponse_mt _ _
  refine ⟨⟨?_, ?_, ?_, ?_, ?_, ?_, ?_, ?_⟩, ?_, hbb⟩
  · rw [Header.isHeartbeat, hmt]; decide
  · rw [Header.getVersion, hvs]; decide
  · rw [hmm]; simp [AMap.NodupKeys, AMap.keys]
  · rw [Header.getStatus, hvs]; rfl
  · intro e' h
    simp only [Option.some.injEq] at h
    rw [hmm, ← h, loadOrEmpty]
    simp [AMap.load]
  · intro h; cases h
  · intro h; cases h
  · intro k v hk _
    simp only [List.mem_cons, List.not_mem_nil, or_false, not_or] at hk
    rw [hmm, AMap.load_cons, if_neg (by intro h; exact hk.1 h.symm)]
  · rw [hmm]
    have := wireCost_store [] Convert.MException (server.env.lib.jsonEnc e)
    have h3 : Convert.MException.length = 3 := rfl
    have h4 : wireCost [] = 0 := rfl
    have h5 : AMap.store ([] : Meta) Convert.MException (server.env.lib.jsonEnc e) = [(Convert.MException, server.env.lib.jsonEnc e)] := rfl
    rw [h5] at this
    omega

/-- **C63.** A call through any number of agents, from the caller to the handler of the server and back: the agents do not
show. The handler is given the caller's request (service, method, description, id, arguments, attachments), for the group of
the last agent's endpoint. What it answers, the caller gets under its own id: the value or the exception, and the attachments,
and besides the address that the first agent called. If the handler returns nothing the caller gets an exception that says so,
and if it panics the caller gets the exception of a call that is not answered. -/
theorem relayed_end_to_end {hops : List Hop} {server : Peer} {ep : Ep} {streamId : UInt64} {req : Request} {vs : List Val} {L : Nat}
    (hp : Spec.RelayedCall hops server ep streamId req vs L) (buf : Option BytesBuffer) (hr : Reusable buf)
    (maxLen : Nat) (hmax : L ≤ maxLen ∧ maxLen < 2 ^ 32) (errText : Err → Bytes) (version : Int) :
    let out := call server.env.lib errText ep req .none version (exchange (chain hops server) errText ep maxLen buf streamId req)
    let nil : Exn := ⟨500, b!"convert to response fail. err:handler call return nil", 1⟩
    let timeout : Exn := ⟨400, b!"channel call error:timeout", 1⟩
    ∃ r, Spec.SeesVia (lastEp ep hops) server.ip streamId req vs r ∧
      (∀ res, server.handler r = .returned (some res) → Spec.AnswerableVia hops server L res.r →
        Spec.DeliveredVia hops req res.r out) ∧
      (server.handler r = .returned none → JsonLawful server.env.lib nil →
        5 + (server.env.lib.jsonEnc nil).length + (hops.map answerCost).sum ≤ L →
        out.resp.id = req.id ∧ out.recorded = some nil ∧ out.resp.exception = some nil) ∧
      (server.handler r = .panicked → JsonLawful server.env.lib timeout →
        5 + (server.env.lib.jsonEnc timeout).length + (hops.map answerCost).sum ≤ L →
        out.resp.id = req.id ∧ out.recorded = some timeout ∧ out.resp.exception = some timeout) := by
  intro out nil timeout
  have hL : L < 2 ^ 32 := Nat.lt_of_le_of_lt hmax.1 hmax.2
  obtain ⟨bs, hab, -, hval⟩ := simple_args req vs hp.args hp.raw hp.supported hp.storable
  obtain ⟨hbl, hbz⟩ := hp.bodyFits bs hab
  obtain ⟨msg, m1, m2, m3, m4⟩ := client_asks hp hab
  obtain ⟨s1, s2⟩ := hp.fits msg m1
  obtain ⟨n1, n2, n3⟩ := chain_facts (server := server) hp.agents rfl hp.serverRoom hp.serverBuf
  obtain ⟨got, g1, g2, g3, g4, g5, g6⟩ := over_wire hr (maxLen := (chain hops server).maxLen) m2.version m2.nodup
    (by omega) (by omega) n2.2
  have hgid : got.header.requestID = streamId := by rw [g2]; exact m4
  obtain ⟨last, i1, i2, i3, i4, i5, i6⟩ := chain_process hp.gzip rfl hp.serverRoom hp.serverBuf hbl hbz hops hp.agents ep got
    (m2.wire g2 g3 g4 g5) (SameCarriable.offWire g5)
    (by intro k1 k2; exact groupOf_wire (m := msg.metadata) (fun k v _ => g5 k v) (m3 k1 k2) k1 k2)
    (by rw [metaSize_cost] at s1; omega)
  obtain ⟨r, r1, r2⟩ := server_sees hp (Nat.lt_of_le_of_lt hbl hL) hval i1 i2 i3
  have hex : exchange (chain hops server) errText ep maxLen buf streamId req =
      match Server.process (chain hops server).env (chain hops server).handler (chain hops server).pt (chain hops server).ip (.v2 got) with
      | .sent (.v2 a) => receive maxLen streamId (encode (chain hops server).buf a)
      | .sent (.v1 _) => .failed b!"timeout"
      | .closed => .failed b!"channel closed"
      | .nothing => .failed b!"timeout" := by
    rw [exchange, n1, m1]
    simp only [g1]
    cases Server.process (chain hops server).env (chain hops server).handler (chain hops server).pt (chain hops server).ip (.v2 got) with
    | sent a => cases a <;> rfl
    | closed => rfl
    | nothing => rfl
  have hid : out.resp.id = req.id := call_keeps_id _ _ _ _ _ _ _
  -- an answer is read by the caller
  have hread : ∀ exn ans att a, Server.process (chain hops server).env (chain hops server).handler (chain hops server).pt
        (chain hops server).ip (.v2 got) = .sent (.v2 a) → a.header.requestID = got.header.requestID →
      Tells server.env.lib exn ans att a → (∀ e, exn = some e → JsonLawful server.env.lib e) → wireCost a.metadata ≤ L → a.body.length ≤ L →
      ∃ w, Tells server.env.lib exn ans att w ∧ SameCarriable a.metadata w.metadata ∧
        out = call server.env.lib errText ep req .none version (.answered (.v2 w)) := by
    intro exn ans att a p1 p2 p3 p4 p5 p6
    obtain ⟨w, w1, w2, w3, w4, w5, w6⟩ := over_wire (buf := (chain hops server).buf) n3 (maxLen := maxLen) p3.version p3.nodup
      (by rw [metaSize_cost]; omega) (by omega) hmax.2
    have ht := p3.wire p4 w2 w3 w4 w5
    refine ⟨w, ht, w5, ?_⟩
    show call _ _ _ _ _ _ _ = _
    rw [hex, p1]
    simp only
    rw [receive, w1]
    simp only
    rw [if_pos ⟨ht.heartbeat, by rw [w2]; exact p2.trans hgid⟩]
  -- an exception that is not the business's
  have hexn : ∀ e a, Server.process (chain hops server).env (chain hops server).handler (chain hops server).pt
        (chain hops server).ip (.v2 got) = .sent (.v2 a) → a.header.requestID = got.header.requestID →
      Tells server.env.lib (some e) [] [] a → JsonLawful server.env.lib e → wireCost a.metadata ≤ L → a.body.length ≤ L →
      e.errType ≠ 2 → out.recorded = some e ∧ out.resp.exception = some e := by
    intro e a p1 p2 p3 p4 p5 p6 p7
    have hj : ∀ e', some e = some e' → JsonLawful server.env.lib e' := by
      intro e' h; simp only [Option.some.injEq] at h; rw [← h]; exact p4
    obtain ⟨w, w1, w2, w3⟩ := hread _ _ _ a p1 p2 p3 hj p5 p6
    obtain ⟨k1, k2, k3⟩ := caller_gets w1 hj hp.client hp.serialization req
    obtain ⟨c1, c2, -⟩ := call_of_answered (lib := server.env.lib) (errText := errText) (ep := ep) (req := req) (reply := .none)
      (version := version) (got := .v2 w)
    rw [← w3] at c1 c2
    rw [finish_noValue _ _ _ _ _ (by rw [k2]; simp)] at c1
    exact ⟨(c2 e).mpr ⟨k1, p7⟩, by rw [c1, k1]⟩
  refine ⟨r, r1, ?_, ?_, ?_⟩
  · intro res hres ha
    rw [hres] at r2
    simp only at r2
    obtain ⟨ans, a0, t1, t2, t3, t4, t5, t6, t7, t8⟩ := server_tells hp.gzip hp.serverEnd hL ha last.header.requestID
    rw [t1] at r2
    obtain ⟨a, q1, q2, q3, q4, q5, q6⟩ := i5 _ _ _ a0 r2 t3 t2 ha.exception t4 t5 t6
    obtain ⟨w, w1, w2, w3⟩ := hread _ _ _ a q1 q2 q3 ha.exception (by omega) q5
    obtain ⟨k1, k2, k3⟩ := caller_gets w1 ha.exception hp.client hp.serialization req
    obtain ⟨c1, c2, c3⟩ := call_of_answered (lib := server.env.lib) (errText := errText) (ep := ep) (req := req) (reply := .none)
      (version := version) (got := .v2 w)
    rw [← w3] at c1 c2 c3
    have hnone : res.r.exception.isSome = true ∨ res.r.value = none → (notify server.env.lib ep req (.v2 w)).value = none := by
      rintro (h | h)
      · rw [k2, if_pos (.inl h)]
      · rw [k2, if_pos (.inr (t7 h))]
    have hfin : out.resp.exception = res.r.exception ∧ (∀ v, res.r.exception = none → res.r.value = some (.val v) →
        out.resp.value = some (.val (Simple.norm v))) ∧ out.resp.attachment = w.metadata := by
      rw [c1]
      by_cases hc : res.r.exception.isSome = true ∨ res.r.value = none
      · rw [finish_noValue _ _ _ _ _ (hnone hc)]
        refine ⟨k1, ?_, k3⟩
        intro v w1 w2
        rcases hc with h | h
        · rw [w1] at h; cases h
        · rw [w2] at h; cases h
      · simp only [not_or] at hc
        obtain ⟨x, hx⟩ := Option.ne_none_iff_exists'.mp hc.2
        obtain ⟨v, rfl, -⟩ := ha.value x hx
        obtain ⟨u1, u2⟩ := t8 v hx
        rw [if_neg (by simp only [not_or]; exact ⟨hc.1, u1⟩)] at k2
        have hd : (notify server.env.lib ep req (.v2 w)).processDeserializable .none =
            .ok { notify server.env.lib ep req (.v2 w) with value := some (.val (Simple.norm v)) } := by
          unfold Convert.Response.processDeserializable
          rw [k2]
          have u2' : simpleSer.deSerialize ans .none = .ok (Simple.norm v, none) := u2
          simp only [u2']
        rw [finish, hp.client, hd]
        simp only [Bool.false_eq_true, if_false]
        refine ⟨k1, ?_, k3⟩
        intro w _ hw
        rw [hx] at hw
        simp only [Option.some.injEq, Arg.val.injEq] at hw
        rw [hw]
    obtain ⟨d1, d2, d3⟩ := hfin
    refine ⟨hid, d1, d2, ?_, ?_, ?_, ?_, ?_⟩
    · intro h
      rw [c1, finish_noValue _ _ _ _ _ (hnone h)]
      exact hnone h
    · intro k v hk hc
      rw [d3]
      exact w1.attachments k v hk hc
    · intro h hs e hc
      rw [d3]
      exact (w2 _ _).mpr ⟨q6 h hs e hc.2.1, hc⟩
    · intro e
      rw [c2, k1]
    · rw [c3]
      simp only [Spec.Failed, k1]
  · intro hnil hj hsz
    rw [hnil] at r2
    simp only [Server.answerMessage, Server.convertFail] at r2
    obtain ⟨t1, t2, t3⟩ := nil_tells (server := server) (e := nil) last.header.requestID
    have r2' : Server.process server.env server.handler server.pt server.ip (.v2 last) =
      .sent (.v2 (Server.withId (Convert.buildExceptionResponse last.header.requestID (server.env.lib.jsonEnc nil)) last.header.requestID)) := r2
    have hj' : ∀ e', some nil = some e' → JsonLawful server.env.lib e' := by
      intro e' h; simp only [Option.some.injEq] at h; rw [← h]; exact hj
    obtain ⟨a, q1, q2, q3, q4, q5, -⟩ := i5 _ _ _ _ r2' rfl t1 hj' (by omega) (by rw [t3]; exact Nat.zero_le _) (Nat.zero_le _)
    exact ⟨hid, hexn nil a q1 q2 q3 hj (by omega) q5 (by decide)⟩
  · intro hpan hj hsz
    rw [hpan] at r2
    simp only at r2
    by_cases hne : hops = []
    · have hl := i4 hne
      subst hne
      subst hl
      have ho : out = call server.env.lib errText ep req .none version (.failed b!"timeout") := by
        show call _ _ _ _ _ _ _ = _
        rw [hex]
        show call _ _ _ _ _ _ (match Server.process server.env server.handler server.pt server.ip (.v2 last) with
            | .sent (.v2 a) => receive maxLen streamId (encode (chain [] server).buf a)
            | .sent (.v1 _) => .failed b!"timeout"
            | .closed => .failed b!"channel closed"
            | .nothing => .failed b!"timeout") = _
        rw [r2]
      refine ⟨hid, ?_, ?_⟩
      · rw [ho]; rfl
      · rw [ho]; rfl
    · obtain ⟨a, q1, q2, q3, q4, q5, -⟩ := i6 r2 hne hj hsz
      exact ⟨hid, hexn timeout a q1 q2 q3 hj (Nat.le_trans q4 hsz) q5 (by decide)⟩

/-! ## The defaults of an agent -/

namespace Spec

/-- The key of the group and of the source of a request, which differ between the versions of the protocol. -/
def groupKey (r : Request) : Bytes := if isV1 r then b!"group" else b!"M_g"
def sourceKey (r : Request) : Bytes := if isV1 r then b!"application" else b!"M_s"

/-- The value of an attachment, empty if there is none. -/
def att (r : Request) (k : Bytes) : Bytes := (r.attachment.load k).getD []

/-- The first text that is not empty. -/
def firstOf : List Bytes → Bytes
  | [] => []
  | a :: l => if a = [] then firstOf l else a

end Spec

theorem isV1_setAttachment (r : Request) (k v : Bytes) : isV1 (setAttachment r k v) = isV1 r := by
  show (match Server.setOriginal r.rc.original k v with | some .other => true | _ => false) = _
  rw [isV1]
  cases h : r.rc.original with
  | none => rfl
  | some o => cases o <;> rfl

theorem isV1_fillSource (r : Request) (app : Bytes) : isV1 (fillSource r app) = isV1 r := by
  rw [fillSource]
  split
  · split
    · split
      · exact isV1_setAttachment _ _ _
      · rfl
    · rfl
  · split
    · split
      · exact isV1_setAttachment _ _ _
      · split
        · exact isV1_setAttachment _ _ _
        · rfl
    · rfl

theorem att_set (r : Request) (k v k' : Bytes) : Spec.att (setAttachment r k v) k' = if k = k' then v else Spec.att r k' := by
  show ((r.attachment.store k v).load k').getD [] = _
  rw [AMap.load_store]
  split <;> rfl

theorem att_fillSource (r : Request) (app k : Bytes) :
    Spec.att (fillSource r app) k =
      if k = Spec.sourceKey r then Spec.firstOf [Spec.att r (Spec.sourceKey r), Spec.att r b!"application", app] else Spec.att r k := by
  have ha : loadOrEmpty r.attachment ApplicationKey = Spec.att r b!"application" := rfl
  have hs : loadOrEmpty r.attachment Server.MSource = Spec.att r b!"M_s" := rfl
  rw [fillSource, Spec.sourceKey, ha, hs]
  cases isV1 r with
  | true =>
    simp only [if_true, Spec.firstOf]
    by_cases h1 : Spec.att r b!"application" = []
    · by_cases h2 : app = []
      · simp only [h1, h2, if_true, ne_eq, not_true_eq_false, if_false]
        split
        · rename_i h; rw [h]; exact h1
        · rfl
      · simp only [h1, h2, if_true, ne_eq, not_false_eq_true, if_false, att_set, ApplicationKey, eq_comm (a := k)]
    · simp only [h1, if_false]
      split
      · rename_i h; rw [h]
      · rfl
  | false =>
    simp only [Bool.false_eq_true, if_false, Spec.firstOf]
    by_cases h1 : Spec.att r b!"M_s" = []
    · by_cases h2 : Spec.att r b!"application" = []
      · by_cases h3 : app = []
        · simp only [h1, h2, h3, if_true, ne_eq, not_true_eq_false, if_false]
          split
          · rename_i h; rw [h]; exact h1
          · rfl
        · simp only [h1, h2, h3, if_true, ne_eq, not_true_eq_false, not_false_eq_true, if_false, att_set, Server.MSource, eq_comm (a := k)]
      · simp only [h1, h2, if_true, ne_eq, not_false_eq_true, if_false, att_set, Server.MSource, eq_comm (a := k)]
    · simp only [h1, if_false]
      split
      · rename_i h; rw [h]
      · rfl

/-- **C63.** An agent fills in what the caller left out and changes nothing else: the source of the request is the caller's, else
the caller's application, else the agent's; the group is the caller's, else the agent's. -/
theorem agent_fills_gaps (r : Request) (app group k : Bytes) :
    Spec.att (fillDefaultReqInfo r app group) k =
      if k = Spec.sourceKey r then Spec.firstOf [Spec.att r (Spec.sourceKey r), Spec.att r b!"application", app]
      else if k = Spec.groupKey r then Spec.firstOf [Spec.att r (Spec.groupKey r), group]
      else Spec.att r k := by
  have hk : Spec.groupKey r ≠ Spec.sourceKey r := by
    rw [Spec.groupKey, Spec.sourceKey]; cases isV1 r <;> decide
  have hfg : ∀ (q : Request), Spec.att (fillGroup q group) k =
      if k = Spec.groupKey q then Spec.firstOf [Spec.att q (Spec.groupKey q), group] else Spec.att q k := by
    intro q
    have h1 : loadOrEmpty q.attachment Server.GroupKey = Spec.att q b!"group" := rfl
    have h2 : loadOrEmpty q.attachment Convert.MGroup = Spec.att q b!"M_g" := rfl
    rw [fillGroup, Spec.groupKey, h1, h2]
    cases isV1 q with
    | true =>
      simp only [if_true, Spec.firstOf]
      by_cases h1 : Spec.att q b!"group" = []
      · by_cases hg : group = [] <;>
          simp [h1, hg, att_set, Server.GroupKey, eq_comm (a := k)]
      · simp only [h1, if_false]
        split
        · rename_i h; rw [h]
        · rfl
    | false =>
      simp only [Bool.false_eq_true, if_false, Spec.firstOf]
      by_cases h1 : Spec.att q b!"M_g" = []
      · by_cases hg : group = [] <;>
          simp [h1, hg, att_set, Convert.MGroup, eq_comm (a := k)]
      · simp only [h1, if_false]
        split
        · rename_i h; rw [h]
        · rfl
  have hgk : Spec.groupKey (fillSource r app) = Spec.groupKey r := by
    rw [Spec.groupKey, Spec.groupKey, isV1_fillSource]
  rw [fillDefaultReqInfo, hfg, hgk, att_fillSource, att_fillSource, if_neg hk]
  by_cases h1 : k = Spec.groupKey r
  · rw [if_pos h1, if_neg (fun h => hk (h1 ▸ h)), if_pos h1]
  · rw [if_neg h1, if_neg h1]

/-- **C63.** What an agent fills in is also in the message it forwards: the attachments stay those of the message the request
came in. -/
theorem agent_fills_message (r : Request) (app group : Bytes) (m : Message) (h : r.rc.original = some (.v2 m))
    (hm : r.attachment = m.metadata) :
    ∃ m', (fillDefaultReqInfo r app group).rc.original = some (.v2 m') ∧ (fillDefaultReqInfo r app group).attachment = m'.metadata ∧
      m'.body = m.body ∧ m'.header = m.header := by
  have hset : ∀ (q : Request) (k v : Bytes), (∃ m', q.rc.original = some (.v2 m') ∧ q.attachment = m'.metadata ∧ m'.body = m.body ∧ m'.header = m.header) →
      ∃ m', (setAttachment q k v).rc.original = some (.v2 m') ∧ (setAttachment q k v).attachment = m'.metadata ∧ m'.body = m.body ∧ m'.header = m.header := by
    rintro q k v ⟨m', h1, h2, h3, h4⟩
    have := HoldsReq.set ⟨h1, h2⟩ k v
    exact ⟨_, this.1, this.2, h3, h4⟩
  have h0 : ∃ m', r.rc.original = some (.v2 m') ∧ r.attachment = m'.metadata ∧ m'.body = m.body ∧ m'.header = m.header := ⟨m, h, hm, rfl, rfl⟩
  have h1 : ∃ m', (fillSource r app).rc.original = some (.v2 m') ∧ (fillSource r app).attachment = m'.metadata ∧ m'.body = m.body ∧ m'.header = m.header := by
    rw [fillSource]
    split
    · split
      · split
        · exact hset _ _ _ h0
        · exact h0
      · exact h0
    · split
      · split
        · exact hset _ _ _ h0
        · split
          · exact hset _ _ _ h0
          · exact h0
      · exact h0
  rw [fillDefaultReqInfo, fillGroup]
  split
  · split
    · exact hset _ _ _ h1
    · exact h1
  · split
    · exact hset _ _ _ h1
    · exact h1

example : Spec.att (fillDefaultReqInfo { sampleRequest with attachment := [(b!"M_s", b!"me")] } b!"agent" b!"g") b!"M_s" = b!"me" ∧
    Spec.att (fillDefaultReqInfo { sampleRequest with attachment := [(b!"M_s", b!"me")] } b!"agent" b!"g") b!"M_g" = b!"g" ∧
    Spec.att (fillDefaultReqInfo { sampleRequest with attachment := [(b!"application", b!"app")] } b!"agent" b!"g") b!"M_s" = b!"app" ∧
    Spec.att (fillDefaultReqInfo { sampleRequest with attachment := [] } b!"agent" b!"g") b!"M_s" = b!"agent" := by decide +kernel

/-! ## The hypotheses can be met -/

/-- A toy encoding of the exceptions of the examples. -/
def relayLib : Lib :=
  { toyLib with
    jsonEnc := fun e => if e = noAnswer then b!"T" else if e.errCode = 500 then 0x7b :: e.errMsg else toyLib.jsonEnc e
    jsonDec := fun s => match s with
      | [84] => some (some noAnswer)
      | 0x7b :: r => some (some ⟨500, r, 1⟩)
      | _ => toyLib.jsonDec s }

theorem relayLib_gzip : GzipLawful relayLib := toyLib_gzip

def relayPeer : Peer := { callPeer with env := { callPeer.env with lib := relayLib } }

example : JsonLawful relayLib ⟨500, b!"convert to response fail. err:handler call return nil", 1⟩ ∧
    5 + (relayLib.jsonEnc ⟨500, b!"convert to response fail. err:handler call return nil", 1⟩).length ≤ 500 ∧
    JsonLawful relayLib ⟨400, b!"channel call error:timeout", 1⟩ := by
  unfold JsonLawful; decide +kernel

/-- An agent. -/
def relayHop (ip addr group : Bytes) (id : UInt64) : Hop where
  env := { relayPeer.env with proxy := true }
  pt := b!"1"
  ip := ip
  maxLen := 1000
  buf := none
  app := b!"agent"
  group := group
  ep := ⟨group, true, 2, some simpleSer⟩
  epMaxLen := 1000
  epBuf := none
  streamId := id
  version := -1
  addr := addr

/-- Two agents. -/
def relayHops : List Hop := [relayHop b!"10.0.0.8" b!"10.0.0.9:81" b!"east" 5, relayHop b!"10.0.0.9" b!"10.0.0.7:80" b!"west" 6]

theorem relayHops_call (m : Bytes) (hm : m ∈ [b!"say", b!"fail", b!"drop", b!"crash"]) :
    Spec.RelayedCall relayHops relayPeer callEp 77 { sampleRequest with method := m } [.str b!"hello", .int 5] 1000 where
  gzip := relayLib_gzip
  agents := by
    intro h hh
    simp only [relayHops, List.mem_cons, List.not_mem_nil, or_false] at hh
    rcases hh with rfl | rfl <;>
      exact ⟨rfl, rfl, rfl, ⟨Nat.le_refl _, by decide⟩, ⟨Nat.le_refl _, by decide⟩, trivial, trivial⟩
  serverEnd := rfl
  registered := rfl
  serverRoom := ⟨Nat.le_refl _, by decide⟩
  serverBuf := trivial
  client := rfl
  serialization := rfl
  v2 := rfl
  raw := rfl
  args := rfl
  supported := by decide
  storable := by decide
  attachments := by show sampleRequest.attachment.NodupKeys; decide
  fits := by
    intro msg h
    have : ((requestMessage relayPeer.env.lib callEp 77 { sampleRequest with method := m }).map fun x =>
        decide (metaSize x.metadata + 1 + (relayHops.map (requestCost { sampleRequest with method := m })).sum ≤ 1000 ∧
          x.body.length ≤ 1000)).toOption = some true := by
      simp only [List.mem_cons, List.not_mem_nil, or_false] at hm
      rcases hm with rfl | rfl | rfl | rfl <;> decide +kernel
    rw [h] at this
    simpa only [Except.map, Except.toOption, Option.some.injEq, decide_eq_true_eq] using this
  bodyFits := by
    intro bs h
    have h' := (requestBody_iff _ _ _).mpr h
    have h2 : Convert.requestBody (some simpleSer) { sampleRequest with method := m } = Convert.requestBody (some simpleSer) sampleRequest := rfl
    rw [h2] at h'
    have h3 : ((Convert.requestBody (some simpleSer) sampleRequest).map fun b => decide (b.length ≤ 1000 ∧
        ((relayPeer.env.lib.gzip b).map fun c => decide (c.length ≤ 1000)).getD true = true)).toOption = some true := by decide +kernel
    rw [h'] at h3
    simp only [Except.map, Except.toOption, Option.some.injEq, decide_eq_true_eq] at h3
    refine ⟨h3.1, ?_⟩
    intro c hc
    have h4 := h3.2
    rw [hc] at h4
    simpa using h4

def relayOf (m : Bytes) : Result :=
  call relayLib (fun _ => []) callEp { sampleRequest with method := m } .none (-1)
    (exchange (chain relayHops relayPeer) (fun _ => []) callEp 1000 none 77 { sampleRequest with method := m })

example : textOf (relayOf b!"say").resp = some b!"world" ∧ (relayOf b!"say").resp.id = sampleRequest.id ∧
    (relayOf b!"say").resp.attachment.load b!"x" = some b!"y" ∧
    (relayOf b!"say").resp.attachment.load b!"x-forwarded-for" = some b!"10.0.0.9:81" ∧ (relayOf b!"say").reset = true := by
  decide +kernel

example : (relayOf b!"fail").resp.exception = some ⟨503, [], 0⟩ := by decide +kernel

example : (relayOf b!"crash").resp.exception = some ⟨400, b!"channel call error:timeout", 1⟩ := by decide +kernel

example : (relayOf b!"drop").resp.exception = some ⟨500, b!"convert to response fail. err:handler call return nil", 1⟩ := by
  decide +kernel

example : ∃ a, callHandler { sampleRequest with method := b!"say" } = .returned (some a) ∧ Spec.AnswerableVia relayHops relayPeer 1000 a.r := by
  refine ⟨_, rfl, rfl, ?_, ?_, ?_, ?_⟩
  · rintro x hx
    simp only [Option.some.injEq] at hx
    refine ⟨_, hx.symm, by decide, by decide, ?_⟩
    intro bs hb
    have h3 : ((Simple.serialize 2048 (.str b!"world")).map List.length).toOption = some 10 := by decide +kernel
    rw [hb] at h3
    simp only [Except.map, Except.toOption, Option.some.injEq] at h3
    omega
  · intro e he; cases he
  · decide
  · intro msg h
    have : ((convertToResMessage relayPeer.env.lib (some simpleSer) (finishRes false relayPeer.pt
        { id := 1, value := some (.val (.str b!"world")), exception := none, processTime := 0, attachment := [(b!"x", b!"y")] })).map
        fun x => decide (metaSize x.metadata + 1 + (relayHops.map answerCost).sum ≤ 1000 ∧ x.body.length ≤ 1000)).toOption = some true := by
      decide +kernel
    rw [h] at this
    simpa only [Except.map, Except.toOption, Option.some.injEq, decide_eq_true_eq] using this

end Motan.Props
