import Verif.Model.Motan2

/-!
# C04: header flags are independent
-/

namespace Motan.Props

open Motan.Motan2

/-- What the getters of a header show. -/
structure HeaderView where
  heartbeat : Bool
  gzip : Bool
  oneWay : Bool
  proxy : Bool
  request : Bool
  version : Nat
  status : Nat
  serialize : Nat
  requestID : UInt64
  magic : UInt16
  deriving DecidableEq, Repr

/-- Observe a header through its getters. -/
def headerView (h : Header) : HeaderView :=
  { heartbeat := h.isHeartbeat, gzip := h.isGzip, oneWay := h.isOneWay, proxy := h.isProxy,
    request := h.isRequest, version := h.getVersion, status := h.getStatus,
    serialize := h.getSerialize, requestID := h.requestID, magic := h.magic }

/-- A call of one of the setters. -/
inductive HeaderOp where
  | heartbeat (b : Bool)
  | gzip (b : Bool)
  | oneWay (b : Bool)
  | proxy (b : Bool)
  | request (b : Bool)
  | version (v : Nat)
  | status (v : Nat)
  | serialize (v : Nat)
  deriving DecidableEq, Repr

/-- Run the setter: the new header and whether an error was returned. -/
def runHeaderOp (h : Header) : HeaderOp → Header × Bool
  | .heartbeat b => (h.setHeartbeat b, false)
  | .gzip b => (h.setGzip b, false)
  | .oneWay b => (h.setOneWay b, false)
  | .proxy b => (h.setProxy b, false)
  | .request b => (h.setRequest b, false)
  | .version v => match h.setVersion v with | .ok h => (h, false) | .error _ => (h, true)
  | .status v => match h.setStatus v with | .ok h => (h, false) | .error _ => (h, true)
  | .serialize v => match h.setSerialize v with | .ok h => (h, false) | .error _ => (h, true)

/-- The specification: exactly the named field changes; out-of-range values change nothing. -/
def specHeaderOp (w : HeaderView) : HeaderOp → HeaderView × Bool
  | .heartbeat b => ({ w with heartbeat := b }, false)
  | .gzip b => ({ w with gzip := b }, false)
  | .oneWay b => ({ w with oneWay := b }, false)
  | .proxy b => ({ w with proxy := b }, false)
  | .request b => ({ w with request := b }, false)
  | .version v => if v ≤ 31 then ({ w with version := v }, false) else (w, true)
  | .status v => if v ≤ 7 then ({ w with status := v }, false) else (w, true)
  | .serialize v => if v ≤ 31 then ({ w with serialize := v }, false) else (w, true)

/-- The five flag getters as functions of the message-type byte. -/
def flagsOf (m : UInt8) : Bool × Bool × Bool × Bool × Bool :=
  (m &&& 0x10 == 0x10, m &&& 0x08 == 0x08, m &&& 0x04 == 0x04, m &&& 0x02 == 0x02, m &&& 0x01 == 0x00)

/-- How setting and clearing each bit shows in the flags. -/
def FlagLaw (u : UInt8) (f : Bool × Bool × Bool × Bool × Bool) : Prop :=
    flagsOf (u ||| 0x10) = (true, f.2) ∧ flagsOf (u &&& 0xef) = (false, f.2) ∧
    flagsOf (u ||| 0x08) = (f.1, true, f.2.2) ∧ flagsOf (u &&& 0xf7) = (f.1, false, f.2.2) ∧
    flagsOf (u ||| 0x04) = (f.1, f.2.1, true, f.2.2.2) ∧
    flagsOf (u &&& 0xfb) = (f.1, f.2.1, false, f.2.2.2) ∧
    flagsOf (u ||| 0x02) = (f.1, f.2.1, f.2.2.1, true, f.2.2.2.2) ∧
    flagsOf (u &&& 0xfd) = (f.1, f.2.1, f.2.2.1, false, f.2.2.2.2) ∧
    flagsOf (u &&& 0xfe) = (f.1, f.2.1, f.2.2.1, f.2.2.2.1, true) ∧
    flagsOf (u ||| 0x01) = (f.1, f.2.1, f.2.2.1, f.2.2.2.1, false)

set_option synthInstance.maxSize 2000 in
set_option synthInstance.maxHeartbeats 200000 in
instance (u : UInt8) (f : Bool × Bool × Bool × Bool × Bool) : Decidable (FlagLaw u f) := by
  unfold FlagLaw; infer_instance

/-- A property of bytes can be checked on all 256 of them. -/
theorem byte_forall {P : UInt8 → Prop} (h : ∀ m : Fin 256, P (UInt8.ofNat m.val)) (u : UInt8) : P u := by
  have := h ⟨u.toNat, u.toNat_lt⟩
  simpa using this

theorem flags_byte (u : UInt8) : FlagLaw u (flagsOf u) :=
  byte_forall (P := fun u => FlagLaw u (flagsOf u)) (by decide +kernel) u

/-- Writing the five high bits. -/
def hi5 (u v : UInt8) : UInt8 := (u &&& 0x07) ||| ((v <<< (3 : UInt8)) &&& (0xf8 : UInt8))

theorem hi5_byte (v : Fin 32) (u : UInt8) :
    ((hi5 u (UInt8.ofNat v.val) >>> 3) &&& 0x1f).toNat = v.val ∧
      hi5 u (UInt8.ofNat v.val) &&& 0x07 = u &&& 0x07 :=
  byte_forall (P := fun u => ∀ v : Fin 32, ((hi5 u (UInt8.ofNat v.val) >>> 3) &&& 0x1f).toNat = v.val ∧
      hi5 u (UInt8.ofNat v.val) &&& 0x07 = u &&& 0x07) (by decide +kernel) u v

/-- Writing the three low bits. -/
def lo3 (u v : UInt8) : UInt8 := (u &&& (0xf8 : UInt8)) ||| (v &&& (0x07 : UInt8))

theorem lo3_byte (v : Fin 8) (u : UInt8) :
    (lo3 u (UInt8.ofNat v.val) &&& 0x07).toNat = v.val ∧
      (lo3 u (UInt8.ofNat v.val) >>> 3) &&& (0x1f : UInt8) = (u >>> 3) &&& (0x1f : UInt8) :=
  byte_forall (P := fun u => ∀ v : Fin 8, (lo3 u (UInt8.ofNat v.val) &&& 0x07).toNat = v.val ∧
      (lo3 u (UInt8.ofNat v.val) >>> 3) &&& (0x1f : UInt8) = (u >>> 3) &&& (0x1f : UInt8)) (by decide +kernel) u v

theorem toU8_natCast (v : Nat) : Header.toU8 (v : Int) = UInt8.ofNat v := by
  apply UInt8.toNat_inj.mp
  simp [Header.toU8, UInt8.ofInt]
  omega

/-- **C04**, one call: what the getters show afterwards is the specification's result. -/
theorem header_setter (h : Header) (op : HeaderOp) :
    (headerView (runHeaderOp h op).1, (runHeaderOp h op).2) = specHeaderOp (headerView h) op := by
  have hf := flags_byte h.msgType
  simp only [FlagLaw, flagsOf, Prod.mk.injEq] at hf
  obtain ⟨f1, f2, f3, f4, f5, f6, f7, f8, f9, f10⟩ := hf
  cases op with
  | heartbeat b =>
    cases b <;>
      simp_all [runHeaderOp, specHeaderOp, headerView, Header.setHeartbeat, Header.isHeartbeat,
        Header.isGzip, Header.isOneWay, Header.isProxy, Header.isRequest, Header.getVersion,
        Header.getStatus, Header.getSerialize]
  | gzip b =>
    cases b <;>
      simp_all [runHeaderOp, specHeaderOp, headerView, Header.setGzip, Header.isHeartbeat,
        Header.isGzip, Header.isOneWay, Header.isProxy, Header.isRequest, Header.getVersion,
        Header.getStatus, Header.getSerialize]
  | oneWay b =>
    cases b <;>
      simp_all [runHeaderOp, specHeaderOp, headerView, Header.setOneWay, Header.isHeartbeat,
        Header.isGzip, Header.isOneWay, Header.isProxy, Header.isRequest, Header.getVersion,
        Header.getStatus, Header.getSerialize]
  | proxy b =>
    cases b <;>
      simp_all [runHeaderOp, specHeaderOp, headerView, Header.setProxy, Header.isHeartbeat,
        Header.isGzip, Header.isOneWay, Header.isProxy, Header.isRequest, Header.getVersion,
        Header.getStatus, Header.getSerialize]
  | request b =>
    cases b <;>
      simp_all [runHeaderOp, specHeaderOp, headerView, Header.setRequest, Header.isHeartbeat,
        Header.isGzip, Header.isOneWay, Header.isProxy, Header.isRequest, Header.getVersion,
        Header.getStatus, Header.getSerialize]
  | version v =>
    simp only [runHeaderOp, specHeaderOp, Header.setVersion]
    by_cases hv : v ≤ 31
    · have h1 : ¬ ((v : Int) > 31) := by omega
      have hb := hi5_byte ⟨v, by omega⟩ h.versionStatus
      simp only [hi5] at hb
      simp only [h1, if_false, hv, if_true, toU8_natCast, headerView, Header.isHeartbeat,
        Header.isGzip, Header.isOneWay, Header.isProxy, Header.isRequest, Header.getVersion,
        Header.getStatus, Header.getSerialize]
      rw [hb.1, hb.2]
    · have h1 : (v : Int) > 31 := by omega
      simp [h1, hv]
  | status v =>
    simp only [runHeaderOp, specHeaderOp, Header.setStatus]
    by_cases hv : v ≤ 7
    · have h1 : ¬ ((v : Int) > 7) := by omega
      have hb := lo3_byte ⟨v, by omega⟩ h.versionStatus
      simp only [lo3] at hb
      simp only [h1, if_false, hv, if_true, toU8_natCast, headerView, Header.isHeartbeat,
        Header.isGzip, Header.isOneWay, Header.isProxy, Header.isRequest, Header.getVersion,
        Header.getStatus, Header.getSerialize]
      rw [hb.1, hb.2]
    · have h1 : (v : Int) > 7 := by omega
      simp [h1, hv]
  | serialize v =>
    simp only [runHeaderOp, specHeaderOp, Header.setSerialize]
    by_cases hv : v ≤ 31
    · have h1 : ¬ ((v : Int) > 31) := by omega
      have hb := hi5_byte ⟨v, by omega⟩ h.serialize
      simp only [hi5] at hb
      simp only [h1, if_false, hv, if_true, toU8_natCast, headerView, Header.isHeartbeat,
        Header.isGzip, Header.isOneWay, Header.isProxy, Header.isRequest, Header.getVersion,
        Header.getStatus, Header.getSerialize]
      rw [hb.1]
    · have h1 : (v : Int) > 31 := by omega
      simp [h1, hv]

/-- **C04.** After any sequence of setter calls on any header, every getter shows the last value
accepted for its own field. -/
theorem header_setters (h : Header) (ops : List HeaderOp) :
    headerView (ops.foldl (fun h op => (runHeaderOp h op).1) h)
      = ops.foldl (fun w op => (specHeaderOp w op).1) (headerView h) := by
  induction ops generalizing h with
  | nil => rfl
  | cons op ops ih =>
    simp only [List.foldl_cons]
    rw [ih]
    congr 1
    exact congrArg Prod.fst (header_setter h op)

example : headerView ([HeaderOp.heartbeat true, .version 1, .status 1, .serialize 6, .version 40, .gzip true,
      .heartbeat false].foldl (fun h op => (runHeaderOp h op).1) ⟨MotanMagic, 0xff, 0xff, 0xff, 7⟩)
    = { heartbeat := false, gzip := true, oneWay := true, proxy := true, request := false, version := 1,
        status := 1, serialize := 6, requestID := 7, magic := 0xf1f1 } := by decide

/-- **C04.** `BuildHeader` produces a header whose getters show what was asked for, with protocol
version 1 (motan2) and all other flags off. -/
theorem buildHeader_view (isReq proxy : Bool) (serialize status : Nat) (id : UInt64)
    (hs : serialize ≤ 31) (ht : status ≤ 7) :
    headerView (buildHeader (if isReq then Req else Res) proxy serialize id status)
      = { heartbeat := false, gzip := false, oneWay := false, proxy := proxy, request := isReq,
          version := 1, status := status, serialize := serialize, requestID := id,
          magic := 0xf1f1 } := by
  have hser : ∀ v : Fin 32, (((0x00 : UInt8) ||| (UInt8.ofNat v.val <<< (3 : UInt8))) >>> 3 &&& 0x1f).toNat = v.val := by
    decide +kernel
  have hst : ∀ v : Fin 8, (((0x08 : UInt8) ||| (UInt8.ofNat v.val &&& 0x07)) >>> 3 &&& 0x1f).toNat = 1 ∧
      (((0x08 : UInt8) ||| (UInt8.ofNat v.val &&& 0x07)) &&& 0x07).toNat = v.val := by
    decide +kernel
  have a := hser ⟨serialize, by omega⟩
  have b := hst ⟨status, by omega⟩
  simp only at a b
  have hreq : (Res = Req) = False := by simp [Res, Req]
  simp only [headerView, buildHeader, toU8_natCast, Header.isHeartbeat,
        Header.isGzip, Header.isOneWay, Header.isProxy, Header.isRequest, Header.getVersion,
        Header.getStatus, Header.getSerialize, b.1, b.2]
  rw [a]
  cases isReq <;> cases proxy <;> simp [hreq] <;> decide

/-- The range check does not cover negative numbers: version `-1` is accepted and reads back as 31. -/
theorem negative_version_counterexample :
    ∃ h', Header.zero.setVersion (-1) = .ok h' ∧ h'.getVersion = 31 := ⟨_, rfl, by decide⟩

end Motan.Props
