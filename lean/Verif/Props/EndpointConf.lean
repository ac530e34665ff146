import Verif.Model.EndpointConf
import Verif.Props.Availability
import Verif.Props.Dynamic
import Verif.Props.Export
import Verif.Props.Params
import Verif.Props.Endpoint

/-!
# C91: the settings of a connection to a server, of reverse proxies and of the client of an agent
-/

namespace Motan.Props

open Motan.EndpointConf Motan.Url Motan.Strings

namespace Spec

/-- A setting in milliseconds, as nanoseconds: the parameter if it is a whole number of 32 bits, else the default. -/
def Millis (u : URL) (k : Bytes) (dflt ns : Int) : Prop :=
  match intOf (u.param k) with
  | some n => if -2 ^ 31 ≤ n ∧ n < 2 ^ 31 then ns = n * 1000000 else ns = dflt
  | none => ns = dflt

end Spec

theorem timeDuration_spec (u : URL) (k : Bytes) (dflt : Int) : Spec.Millis u k dflt (timeDuration u k dflt) := by
  unfold Spec.Millis timeDuration Spec.intOf
  cases (u.param k).map parseInt64 with
  | none => rfl
  | some p =>
    obtain ⟨n, e⟩ := p
    cases e with
    | none => simp only; split <;> rfl
    | some e => rfl

theorem timeDuration_congr {u v : URL} (h : SameFields u v) (k : Bytes) (d : Int) : timeDuration u k d = timeDuration v k d := by
  unfold timeDuration; rw [h.param]

theorem positive_spec {u : URL} (hc : Coherent u) (k : Bytes) (d : Int) :
    (getPositiveIntValue u k d).1 = Spec.positive (Spec.intOf (u.param k)) d ∧ SameFields (getPositiveIntValue u k d).2 u ∧
      Coherent (getPositiveIntValue u k d).2 := by
  obtain ⟨h1, h2, h3⟩ := getIntValue_spec hc k d
  refine ⟨?_, h2, h3⟩
  show (if (getIntValue u k d).1 < 1 then d else (getIntValue u k d).1) = _
  rw [h1]
  unfold Spec.positive
  cases Spec.intOf (u.param k) with
  | none => simp
  | some n => simp only [Option.getD_some]; by_cases h : n < 1 <;> simp [h] <;> omega

/-- **C91.** What an endpoint takes from its URL, for every URL whose caches agree with it: each setting is the value of its
parameter if that is a proper one, else the default. -/
theorem endpoint_settings (async : Bool) {u : URL} (hc : Coherent u) :
    let s := settings async u
    Spec.Millis u b!"connectTimeout" 1000000000 s.connectTimeout ∧
    Spec.Millis u b!"connectRetryInterval" 60000000000 s.retryInterval ∧
    Spec.Millis u b!"keepaliveInterval" 1000000000 s.keepaliveInterval ∧
    s.threshold = (Spec.intOf (u.param b!"errorCountThreshold")).getD 10 ∧
    s.timeouts.request = Spec.positive (Spec.intOf (u.param b!"requestTimeout")) 1000 ∧
    s.timeouts.min = (Spec.intOf (u.param b!"minRequestTimeout")).getD 0 ∧
    s.timeouts.max = (Spec.intOf (u.param b!"maxRequestTimeout")).getD 0 ∧
    s.connections = Spec.positive (Spec.intOf (u.param b!"clientConnection")) 3 ∧
    s.maxContentLength = Spec.positive (Spec.intOf (u.param b!"maxContentLength")) 10485760 ∧
    s.gzipSize = (Spec.intOf (u.param b!"mingzSize")).getD 0 ∧
    s.lazyInit = ((u.param b!"lazyInit").bind parseBool).getD false ∧
    s.async = ((u.param b!"asyncInitConnection").bind parseBool).getD async ∧
    SameFields s.timeouts.url u := by
  intro s
  have hs : s = settings async u := rfl
  clear_value s
  unfold settings Endpoint.initTimeouts at hs
  obtain ⟨a1, a2, a3⟩ := getIntValue_spec hc b!"errorCountThreshold" 10
  generalize getIntValue u b!"errorCountThreshold" 10 = A at hs a1 a2 a3
  obtain ⟨a, ua⟩ := A
  simp only at hs a1 a2 a3
  obtain ⟨b1, b2, b3⟩ := positive_spec a3 b!"requestTimeout" 1000
  generalize getPositiveIntValue ua b!"requestTimeout" 1000 = B at hs b1 b2 b3
  obtain ⟨b, ub⟩ := B
  simp only at hs b1 b2 b3
  obtain ⟨c1, c2, c3⟩ := getInt_spec b3 b!"minRequestTimeout"
  generalize getInt ub b!"minRequestTimeout" = C at hs c1 c2 c3
  obtain ⟨c, uc⟩ := C
  simp only at hs c1 c2 c3
  obtain ⟨d1, d2, d3⟩ := getInt_spec c3 b!"maxRequestTimeout"
  generalize getInt uc b!"maxRequestTimeout" = D at hs d1 d2 d3
  obtain ⟨d, ud⟩ := D
  simp only at hs d1 d2 d3
  obtain ⟨e1, e2, e3⟩ := positive_spec d3 b!"clientConnection" 3
  generalize getPositiveIntValue ud b!"clientConnection" 3 = E at hs e1 e2 e3
  obtain ⟨e, ue⟩ := E
  simp only at hs e1 e2 e3
  obtain ⟨f1, f2, f3⟩ := positive_spec e3 b!"maxContentLength" (10 * 1024 * 1024)
  generalize getPositiveIntValue ue b!"maxContentLength" (10 * 1024 * 1024) = F at hs f1 f2 f3
  obtain ⟨f, uf⟩ := F
  simp only at hs f1 f2 f3
  obtain ⟨g1, g2, g3⟩ := getIntValue_spec f3 b!"mingzSize" 0
  generalize getIntValue uf b!"mingzSize" 0 = G at hs g1 g2 g3
  obtain ⟨g, ug⟩ := G
  simp only at hs g1 g2 g3
  have b2' := b2.trans a2
  have c2' := c2.trans b2'
  have d2' := d2.trans c2'
  have e2' := e2.trans d2'
  have f2' := f2.trans e2'
  have g2' := g2.trans f2'
  subst hs
  refine ⟨timeDuration_spec _ _ _, timeDuration_spec _ _ _, ?_, a1, ?_, ?_, ?_, ?_, ?_, ?_, ?_, ?_, g2'⟩
  · show Spec.Millis u _ _ (timeDuration ua _ _)
    rw [timeDuration_congr a2]
    exact timeDuration_spec _ _ _
  · rw [← a2.param]; exact b1
  · rw [← b2'.param, ← c1]
  · rw [← c2'.param, ← d1]
  · rw [← d2'.param]; exact e1
  · rw [← e2'.param]; exact f1
  · rw [← f2'.param]; exact g1
  · show ((URL.param uf _).bind parseBool).getD false = _
    rw [f2'.param]
  · show ((URL.param uf _).bind parseBool).getD async = _
    rw [f2'.param]

/-- **C91.** What is dialled: the host and port of the URL, or the socket its host names. -/
theorem endpoint_dials {u : URL} (hc : Coherent u) :
    (¬ b!"unix://" <+: u.host → ¬ b!"unix://" <+: u.host ++ b!":" ++ formatInt u.port →
      dialTarget u = .tcp (u.host ++ b!":" ++ formatInt u.port)) ∧
    (∀ path, u.host = b!"unix://" ++ path → dialTarget u = .unix path) := by
  have haddr : (getAddressStr u).1 = Spec.address u := by
    unfold getAddressStr
    rcases hc.address with h | h
    · rw [h]
      simp only [Spec.address]
      by_cases hp : b!"unix://" <+: u.host
      · rw [if_pos hp, if_pos (by rw [hasPrefix]; exact List.isPrefixOf_iff_prefix.mpr hp)]
      · rw [if_neg hp, if_neg (by rw [hasPrefix]; exact fun h => hp (List.isPrefixOf_iff_prefix.mp h))]
        simp only [getPortStr_fresh u hc.port]
        rw [getPortStr_fields]
    · rw [h]
  constructor
  · intro h1 h2
    unfold dialTarget
    simp only [haddr, Spec.address, if_neg h1]
    rw [if_neg]
    rw [hasPrefix]
    exact fun h => h2 (List.isPrefixOf_iff_prefix.mp h)
  · intro path hp
    have h1 : b!"unix://" <+: u.host := ⟨path, hp.symm⟩
    unfold dialTarget
    simp only [haddr, Spec.address, if_pos h1]
    rw [if_pos (by rw [hasPrefix]; exact List.isPrefixOf_iff_prefix.mpr h1), hp]
    rfl

/-! ## Connecting and keeping alive at intervals -/

theorem ticking_spec {interval : Int} (h : 0 < interval) (outcomes : List Bool) :
    (ticking interval outcomes).1 = outcomes.contains true ∧
    (ticking interval outcomes).2 = (outcomes.takeWhile (! ·)).length + (if outcomes.contains true then 1 else 0) := by
  induction outcomes with
  | nil => simp [ticking]
  | cons ok os ih =>
    rw [ticking, if_neg (by omega)]
    cases ok with
    | true => simp
    | false =>
      obtain ⟨h1, h2⟩ := ih
      simp only [Bool.false_eq_true, if_false, h1, h2]
      constructor
      · simp
      · simp only [List.takeWhile_cons, Bool.not_false, if_true, List.length_cons, List.contains_cons]
        simp
        omega

/-- **C91.** With a positive interval an endpoint goes on trying to connect until it succeeds, and then stops. -/
theorem connecting_goes_on {interval : Int} (h : 0 < interval) (outcomes : List Bool) :
    (connecting interval outcomes).1 = outcomes.contains true ∧
    (connecting interval outcomes).2 = (outcomes.takeWhile (! ·)).length + (if outcomes.contains true then 1 else 0) := by
  cases outcomes with
  | nil => simp [connecting]
  | cons ok os =>
    rw [connecting]
    cases ok with
    | true => simp
    | false =>
      obtain ⟨h1, h2⟩ := ticking_spec h os
      simp only [Bool.false_eq_true, if_false, h1, h2]
      constructor
      · simp
      · simp only [List.takeWhile_cons, Bool.not_false, if_true, List.length_cons, List.contains_cons]
        simp
        omega

/-- **C91 does not hold of intervals that are not positive.** A URL with `connectRetryInterval=0` (or a negative number) makes an
endpoint whose first attempt to connect fails give up for good: the ticker panics and the panic is recovered. It is the same with
`keepaliveInterval`: an endpoint that was disabled never comes back. -/
theorem zero_interval_violated (async : Bool) {u : URL} (hc : Coherent u) {n : Int} (hn : -2 ^ 31 ≤ n ∧ n ≤ 0) :
    (Spec.intOf (u.param b!"connectRetryInterval") = some n →
      ∀ later, connecting (settings async u).retryInterval (false :: later) = (false, 1)) ∧
    (Spec.intOf (u.param b!"keepaliveInterval") = some n →
      ∀ outcomes, ticking (settings async u).keepaliveInterval outcomes = (false, 0)) := by
  obtain ⟨-, h1, h2, -⟩ := endpoint_settings async hc
  have never : ∀ i : Int, i ≤ 0 → ∀ os, ticking i os = (false, 0) := by
    intro i hi os
    cases os with
    | nil => rfl
    | cons o os => rw [ticking, if_pos hi]
  constructor
  · intro hp later
    unfold Spec.Millis at h1
    rw [hp] at h1
    simp only [if_pos (show -2 ^ 31 ≤ n ∧ n < 2 ^ 31 by omega)] at h1
    rw [connecting, never _ (by omega)]
    rfl
  · intro hp outcomes
    unfold Spec.Millis at h2
    rw [hp] at h2
    simp only [if_pos (show -2 ^ 31 ≤ n ∧ n < 2 ^ 31 by omega)] at h2
    exact never _ (by omega) _

/-! ## The reverse proxy of a motan server -/

namespace Spec

/-- A parameter, or a default if it is absent or empty. -/
def filledIn (u : URL) (k dflt : Bytes) : Bytes := if (u.param k).getD [] = [] then dflt else (u.param k).getD []

/-- A name of a protocol: not empty, without a colon or white space. -/
def ProtocolName (p : Bytes) : Prop := p ≠ [] ∧ (58 : UInt8) ∉ p ∧ ∀ c ∈ p, isSpace c = false

end Spec

theorem putDefault_self (u : URL) (k v : Bytes) (hv : v ≠ []) : (putDefault u k v).param k = some (Spec.filledIn u k v) := by
  unfold putDefault Spec.filledIn
  have hg : getParam u k [] = (u.param k).getD [] := by
    unfold getParam; simp only; split
    · rename_i h; exact h.symm
    · rfl
  rw [hg]
  by_cases h : (u.param k).getD [] = []
  · rw [if_pos h, if_pos h, putParam_self]
  · rw [if_neg h, if_neg h]
    cases hp : u.param k with
    | none => rw [hp] at h; exact absurd rfl h
    | some x => rfl

theorem putDefault_ne (u : URL) {k k' : Bytes} (v : Bytes) (h : k' ≠ k) : (putDefault u k v).param k' = u.param k' := by
  unfold putDefault
  split
  · exact putParam_ne u v h
  · rfl

theorem putDefault_fields (u : URL) (k v : Bytes) (hk : contains k b!")." = false) (hf : Spec.Fresh u) :
    Spec.Fresh (putDefault u k v) ∧ (putDefault u k v).protocol = u.protocol ∧ (putDefault u k v).host = u.host ∧
    (putDefault u k v).port = u.port ∧ (putDefault u k v).path = u.path ∧ (putDefault u k v).group = u.group := by
  unfold putDefault
  split
  · obtain ⟨h1, h2, h3, h4, h5⟩ := hf
    refine ⟨⟨h1, h2, h3, ?_, ?_⟩, rfl, rfl, rfl, rfl, rfl⟩
    · show (if contains k b!")." then some true else u.hasMethodC) = none
      rw [hk]; exact h4
    · show AMap.erase u.intC k = []
      rw [h5]; rfl
  · exact ⟨hf, rfl, rfl, rfl, rfl, rfl⟩

theorem trimSplit_pair {p : Bytes} (hp : Spec.ProtocolName p) (n : Int) : trimSplit (p ++ b!":" ++ formatInt n) b!":" = [p, formatInt n] := by
  have hcolon : (b!":" : Bytes) = [58] := by decide
  obtain ⟨h1, h2, h3⟩ := hp
  rw [trimSplit_eq _ _ (by decide), hcolon, split_cons h2, split_single (not_mem_formatInt n (by decide) (by decide))]
  simp only [List.map_cons, List.map_nil, trimSpace_id h3, trimSpace_id (formatInt_noSpace n)]
  rw [List.filter_cons_of_pos (by simpa using h1), List.filter_cons_of_pos (by simpa using formatInt_ne_nil n)]
  rfl

/-- What `proxyURL` makes of a protocol and a port. -/
theorem proxyURL_of {u : URL} (hn : ∀ m, u.params = some m → m.NodupKeys) {p : Bytes} {n : Int} (h0 : 0 < n)
    (hi : exportInfo (getParam u b!"proxy" []) = some (p, n)) :
    ∃ e, proxyURL u = some e ∧ Spec.Fresh e ∧ e.protocol = p ∧ e.host = Spec.filledIn u b!"proxy.host" b!"127.0.0.1" ∧ e.port = n ∧
      e.path = u.path ∧ e.group = u.group ∧
      e.param b!"connectRetryInterval" = some (Spec.filledIn u b!"connectRetryInterval" b!"5000") ∧
      e.param b!"errorCountThreshold" = some (Spec.filledIn u b!"errorCountThreshold" b!"0") ∧
      ∀ k, k ≠ b!"connectRetryInterval" → k ≠ b!"errorCountThreshold" → e.param k = u.param k := by
  generalize hv : ({ copy u with protocol := p, host := getParam u b!"proxy.host" b!"127.0.0.1", port := n } : URL) = v
  have hfresh : Spec.Fresh v := by rw [← hv]; exact ⟨rfl, rfl, rfl, rfl, rfl⟩
  have hpar : ∀ k, v.param k = u.param k := by
    intro k
    rw [← hv]
    exact copy_param u hn k
  have hne : b!"errorCountThreshold" ≠ b!"connectRetryInterval" := by decide
  have hor : ∀ k d, Spec.filledIn v k d = Spec.filledIn u k d := by intro k d; unfold Spec.filledIn; rw [hpar]
  obtain ⟨f1, p1, q1, r1, s1, t1⟩ := putDefault_fields v b!"connectRetryInterval" b!"5000" (by decide +kernel) hfresh
  generalize hw : putDefault v b!"connectRetryInterval" b!"5000" = w at f1 p1 q1 r1 s1 t1
  obtain ⟨f2, p2, q2, r2, s2, t2⟩ := putDefault_fields w b!"errorCountThreshold" b!"0" (by decide +kernel) f1
  refine ⟨putDefault w b!"errorCountThreshold" b!"0", ?_, f2, ?_, ?_, ?_, ?_, ?_, ?_, ?_, ?_⟩
  · unfold proxyURL
    rw [hi]
    simp only
    rw [if_neg (by omega), hv, hw]
  · rw [p2, p1, ← hv]
  · rw [q2, q1, ← hv]
    show getParam u _ _ = _
    rfl
  · rw [r2, r1, ← hv]
  · rw [s2, s1, ← hv]; rfl
  · rw [t2, t1, ← hv]; rfl
  · rw [putDefault_ne _ _ hne.symm, ← hw, putDefault_self _ _ _ (by decide), hor]
  · rw [putDefault_self _ _ _ (by decide)]
    congr 1
    unfold Spec.filledIn
    rw [← hw, putDefault_ne _ _ hne, hpar]
  · intro k h1 h2
    rw [putDefault_ne _ _ h2, ← hw, putDefault_ne _ _ h1, hpar]

theorem getParam_self {u : URL} {k v : Bytes} (h : u.param k = some v) : getParam u k [] = v := by
  unfold getParam; rw [h]; simp only [Option.getD_some]; split
  · rename_i e; exact e.symm
  · rfl

/-- **C91.** A service with the parameter `proxy=protocol:port` is passed on to that port with that protocol, at the host given by
`proxy.host` or on this machine; the endpoint has the parameters of the service, with a connection retried every 5 seconds and no
error threshold unless the service says otherwise. -/
theorem reverse_proxy_url {u : URL} (hn : ∀ m, u.params = some m → m.NodupKeys) {p : Bytes} (hp : Spec.ProtocolName p) {n : Int}
    (h0 : 0 < n) (h1 : n < 2 ^ 63) (hproxy : u.param b!"proxy" = some (p ++ b!":" ++ formatInt n)) :
    ∃ e, proxyURL u = some e ∧ Spec.Fresh e ∧ e.protocol = p ∧ e.host = Spec.filledIn u b!"proxy.host" b!"127.0.0.1" ∧ e.port = n ∧
      e.path = u.path ∧ e.group = u.group ∧
      e.param b!"connectRetryInterval" = some (Spec.filledIn u b!"connectRetryInterval" b!"5000") ∧
      e.param b!"errorCountThreshold" = some (Spec.filledIn u b!"errorCountThreshold" b!"0") ∧
      ∀ k, k ≠ b!"connectRetryInterval" → k ≠ b!"errorCountThreshold" → e.param k = u.param k := by
  refine proxyURL_of hn h0 ?_
  rw [getParam_self hproxy, exportInfo, trimSplit_pair hp]
  simp only [atoi_formatInt (show -2 ^ 63 ≤ n by omega) h1, Option.map_some]

/-- **C91.** So a service registered with an agent at run time gets its requests at the port it registered with. -/
theorem reverse_proxy_of_registered (E : Dynamic.Env) {v : URL} (hv : Spec.Built v) (hp : Spec.ProtocolName v.protocol)
    (hport : 0 < v.port ∧ v.port < 2 ^ 63) (hhost : (v.param b!"proxy.host").getD [] = []) (hlo : -2 ^ 63 ≤ E.eport) (hhi : E.eport < 2 ^ 63)
    (known : Bytes → Bool) (hk : known v.protocol = true) :
    ∃ e, initProxy known (Dynamic.exportURL E v) = ⟨some e, true⟩ ∧ e.protocol = v.protocol ∧ e.path = v.path ∧ e.group = v.group ∧
      dialTarget e = .tcp (b!"127.0.0.1:" ++ formatInt v.port) := by
  obtain ⟨h1, h2, h3, h4, h5, h6, h7, h8⟩ := exportURL_spec E hv hp.1 hp.2.1 hp.2.2 hlo hhi
  obtain ⟨e, e1, e2, e3, e4, e5, e6, e7, -⟩ := reverse_proxy_url h1.nodup hp hport.1 hport.2 h7
  have hh : e.host = b!"127.0.0.1" := by
    rw [e4]
    unfold Spec.filledIn
    rw [h8 _ (by decide) (by decide) (by decide), if_pos hhost]
  refine ⟨e, ?_, e3, by rw [e6, h5], by rw [e7, h6], ?_⟩
  · unfold initProxy
    rw [e1]
    simp only [e3, hk, if_true]
  · have := (endpoint_dials (coherent_fresh e2)).1 (by rw [hh]; decide) ?_
    · rw [this, hh, e5]; simp
    · rw [hh, e5]
      rintro ⟨r, hr⟩
      have := congrArg (·.head?) hr
      simp at this

/-- **C91.** An endpoint of a reverse proxy is never disabled by errors unless the service sets a threshold: as long as it is not
destroyed it is available once it was connected. -/
theorem reverse_proxy_not_disabled {T : Type} [DecidableEq T] (async : Bool) {u e : URL} (hn : ∀ m, u.params = some m → m.NodupKeys)
    (he : proxyURL u = some e) (hno : (u.param b!"errorCountThreshold").getD [] = []) (hno' : (u.param b!"connectRetryInterval").getD [] = []) :
    (settings async e).threshold = 0 ∧ (settings async e).retryInterval = 5 * 1000000000 ∧
    ∀ {c : T} {s : Availability.St T}, Availability.Reach (settings async e).threshold c s → ¬ Spec.DestroyBegun s → s.avail ≠ some false := by
  have hi : ∃ p n, exportInfo (getParam u b!"proxy" []) = some (p, n) ∧ 0 < n := by
    unfold proxyURL at he
    split at he
    · cases he
    · rename_i p n h
      split at he
      · cases he
      · exact ⟨p, n, h, by omega⟩
  obtain ⟨p, n, hi, h0⟩ := hi
  obtain ⟨e', e1, e2, -, -, -, -, -, e8, e9, -⟩ := proxyURL_of hn h0 hi
  rw [e1] at he
  cases he
  obtain ⟨-, h1, -, h2, -⟩ := endpoint_settings async (coherent_fresh e2)
  have ht : (settings async e).threshold = 0 := by
    rw [h2, e9]
    unfold Spec.filledIn
    rw [if_pos hno]
    decide +kernel
  refine ⟨ht, ?_, fun h hd => no_threshold_no_disabling h (by omega) hd⟩
  unfold Spec.Millis at h1
  rw [e8] at h1
  unfold Spec.filledIn at h1
  rw [if_pos hno'] at h1
  rw [show Spec.intOf (some b!"5000") = some 5000 by decide +kernel] at h1
  exact h1

/-- **C91.** What becomes of a request: passed on unchanged while the endpoint is available, except that the caller's address is
noted if no proxy before has noted one; else, and always when the service could not be set up, an exception that says so. -/
theorem reverse_proxy_call (p : Proxy) (epAvailable : Bool) (attachment : AMap Bytes Bytes) :
    (∀ e, p = ⟨some e, true⟩ → epAvailable = true → ∃ a, proxyCall p epAvailable attachment = .on e a ∧
      (∀ k, k ≠ b!"x-forwarded-for" → AMap.load a k = AMap.load attachment k) ∧
      AMap.load a b!"x-forwarded-for" =
        if (AMap.load attachment b!"x-forwarded-for").getD [] = [] ∧ (AMap.load attachment b!"X-Forwarded-For").getD [] = [] then
          some ((AMap.load attachment b!"host").getD []) else AMap.load attachment b!"x-forwarded-for") ∧
    (p.available = false ∨ p.ep = none ∨ epAvailable = false →
      proxyCall p epAvailable attachment = .refused 503 b!"reverse proxy call err: motanProvider is unavailable") := by
  constructor
  · rintro e rfl rfl
    unfold proxyCall
    simp only [Bool.and_self, if_true]
    by_cases h : (AMap.load attachment b!"x-forwarded-for").getD [] = [] ∧ (AMap.load attachment b!"X-Forwarded-For").getD [] = []
    · rw [if_pos h, if_pos h]
      exact ⟨_, rfl, fun k hk => AMap.load_store_ne _ _ (Ne.symm hk), AMap.load_store_self ..⟩
    · rw [if_neg h, if_neg h]
      exact ⟨_, rfl, fun _ _ => rfl, rfl⟩
  · intro h
    unfold proxyCall
    split
    · rename_i e he
      rw [if_neg]
      rcases h with h | h | h
      · simp [h]
      · rw [h] at he; cases he
      · simp [h]
    · rfl

/-- **C91.** A service is set up exactly if its `proxy` names a positive port and a known protocol; otherwise it refuses calls. -/
theorem reverse_proxy_set_up (known : Bytes → Bool) (u : URL) :
    (initProxy known u).available = true ↔
      ∃ p n, exportInfo (getParam u b!"proxy" []) = some (p, n) ∧ 0 < n ∧ known p = true := by
  unfold initProxy proxyURL
  cases hi : exportInfo (getParam u b!"proxy" []) with
  | none => simp
  | some q =>
    obtain ⟨p, n⟩ := q
    simp only [Option.some.injEq, Prod.mk.injEq]
    by_cases h0 : n ≤ 0
    · rw [if_pos h0]
      constructor
      · intro h; cases h
      · rintro ⟨p', n', ⟨rfl, rfl⟩, h, -⟩; omega
    · rw [if_neg h0]
      have hproto : ∀ (v : URL) (k x : Bytes), (putDefault v k x).protocol = v.protocol := by
        intro v k x; unfold putDefault; split <;> rfl
      simp only [hproto]
      by_cases hk : known p = true
      · simp only [hk, if_true, true_iff]
        exact ⟨p, n, ⟨rfl, rfl⟩, by omega, hk⟩
      · simp only [hk]
        constructor
        · intro h; cases h
        · rintro ⟨p', n', ⟨rfl, rfl⟩, -, h⟩; exact absurd h hk

/-- **C91 does not hold of a `proxy` with three parts.** A service whose `proxy` names a host too, as in `motan2:10.0.0.9:8002`, is not
refused: its requests go to port 9982 of this machine, which is the port on which an agent itself takes the requests for the
services behind it (agent.go:37). -/
theorem reverse_proxy_three_parts_violated {u : URL} (hn : ∀ m, u.params = some m → m.NodupKeys) {a b c : Bytes}
    (ha : Spec.ProtocolName a) (hb : Spec.ProtocolName b) (hc : Spec.ProtocolName c)
    (hproxy : u.param b!"proxy" = some (a ++ b!":" ++ (b ++ b!":" ++ c))) :
    ∃ e, proxyURL u = some e ∧ e.protocol = b!"motan2" ∧ e.host = Spec.filledIn u b!"proxy.host" b!"127.0.0.1" ∧ e.port = 9982 := by
  have hcolon : (b!":" : Bytes) = [58] := by decide
  have h3 : trimSplit (a ++ b!":" ++ (b ++ b!":" ++ c)) b!":" = [a, b, c] := by
    rw [trimSplit_eq _ _ (by decide), hcolon, split_cons ha.2.1, split_cons hb.2.1, split_single hc.2.1]
    simp only [List.map_cons, List.map_nil, trimSpace_id ha.2.2, trimSpace_id hb.2.2, trimSpace_id hc.2.2]
    rw [List.filter_cons_of_pos (by simpa using ha.1), List.filter_cons_of_pos (by simpa using hb.1),
      List.filter_cons_of_pos (by simpa using hc.1)]
    rfl
  have hi : exportInfo (getParam u b!"proxy" []) = some (b!"motan2", 9982) := by
    rw [getParam_self hproxy, exportInfo, h3]
    show (Params.atoi b!"9982").map (fun n => (b!"motan2", n)) = _
    decide +kernel
  obtain ⟨e, e1, -, e3, e4, e5, -⟩ := proxyURL_of hn (by omega) hi
  exact ⟨e, e1, e3, e4, e5⟩

/-- **C91 does not hold of a service that could not be set up.** Destroying it, and showing its state in the management interface,
dereferences the endpoint it does not have. -/
theorem reverse_proxy_destroy_violated (known : Bytes → Bool) (u : URL) (h : (initProxy known u).available = false) :
    proxyDestroy (initProxy known u) = false := by
  unfold initProxy at h ⊢
  split
  · rfl
  · rename_i e he
    rw [he] at h
    split
    · rename_i hk; simp [hk] at h
    · rfl

/-! ## The client of an agent -/

/-- **C91.** The endpoints of a client of an agent, which have the parameters of its URL: no error threshold, so that the agent is
never given up; a connection retried every 5 seconds, made before the first call; the timeout in whole milliseconds, 5 seconds if
none was set. -/
theorem mesh_client_settings (async : Bool) (t : Int) (app ser : Bytes) {u : URL} (hc : Coherent u)
    (hu : ∀ k, u.param k = (meshURL t app ser).param k) (ht : t < 2 ^ 63) :
    let s := settings async u
    s.threshold = 0 ∧ s.retryInterval = 5 * 1000000000 ∧ s.async = false ∧
    (t = 0 → s.timeouts.request = 5000) ∧ (1000000 ≤ t → s.timeouts.request = t / 1000000) ∧
    u.param b!"serialization" = some (if ser = [] then b!"simple" else ser) := by
  intro s
  obtain ⟨-, h1, -, h2, h3, -, -, -, -, -, -, h4, -⟩ := endpoint_settings async hc
  have k1 : u.param b!"errorCountThreshold" = some b!"0" := by
    rw [hu, meshURL]
    rw [putParam_ne _ _ (by decide), putParam_ne _ _ (by decide), putParam_ne _ _ (by decide), putParam_ne _ _ (by decide), putParam_self]
  have k2 : u.param b!"connectRetryInterval" = some b!"5000" := by
    rw [hu, meshURL]
    rw [putParam_ne _ _ (by decide), putParam_ne _ _ (by decide), putParam_self]
  have k3 : u.param b!"asyncInitConnection" = some b!"false" := by
    rw [hu, meshURL]
    rw [putParam_self]
  have k4 : u.param b!"requestTimeout" = some (formatInt ((if t = 0 then 5000000000 else t).tdiv 1000000)) := by
    rw [hu, meshURL]
    rw [putParam_ne _ _ (by decide), putParam_ne _ _ (by decide), putParam_ne _ _ (by decide), putParam_ne _ _ (by decide),
      putParam_ne _ _ (by decide), putParam_ne _ _ (by decide), putParam_self]
  have k5 : u.param b!"serialization" = some (if ser = [] then b!"simple" else ser) := by
    rw [hu, meshURL]
    rw [putParam_ne _ _ (by decide), putParam_self]
  refine ⟨?_, ?_, ?_, ?_, ?_, k5⟩
  · rw [show s.threshold = _ from h2, k1]; decide +kernel
  · unfold Spec.Millis at h1
    rw [k2, show Spec.intOf (some b!"5000") = some 5000 by decide +kernel] at h1
    exact h1
  · rw [show s.async = _ from h4, k3]; rfl
  · rintro rfl
    rw [show s.timeouts.request = _ from h3, k4]; decide +kernel
  · intro hm
    rw [show s.timeouts.request = _ from h3, k4, if_neg (by omega), Int.tdiv_eq_ediv_of_nonneg (by omega)]
    have hi : Spec.intOf (some (formatInt (t / 1000000))) = some (t / 1000000) := by
      unfold Spec.intOf
      simp only [Option.map_some, parseInt64_formatInt (t / 1000000) (by omega) (by omega)]
    rw [hi]
    simp only [Spec.positive]
    rw [if_pos (by omega)]

/-- **C91 does not hold of timeouts below a millisecond.** A client of an agent that asks for one gets one of a whole second. -/
theorem mesh_timeout_violated (async : Bool) (t : Int) (app ser : Bytes) {u : URL} (hc : Coherent u)
    (hu : ∀ k, u.param k = (meshURL t app ser).param k) (ht : 0 < t ∧ t < 1000000) : (settings async u).timeouts.request = 1000 := by
  obtain ⟨-, -, -, -, h3, -⟩ := endpoint_settings async hc
  have k4 : u.param b!"requestTimeout" = some (formatInt ((if t = 0 then 5000000000 else t).tdiv 1000000)) := by
    rw [hu, meshURL]
    rw [putParam_ne _ _ (by decide), putParam_ne _ _ (by decide), putParam_ne _ _ (by decide), putParam_ne _ _ (by decide),
      putParam_ne _ _ (by decide), putParam_ne _ _ (by decide), putParam_self]
  rw [h3, k4, if_neg (by omega), Int.tdiv_eq_ediv_of_nonneg (by omega), show t / 1000000 = 0 by omega]
  decide +kernel

/-- The address of the agent, and where it is if none was given. -/
theorem mesh_address (a : Bytes) : (meshRegistry a).protocol = b!"direct" ∧
    (meshRegistry a).param b!"address" = some (if a = [] then b!"127.0.0.1:9981" else a) := by
  unfold meshRegistry
  exact ⟨rfl, putParam_self ..⟩

namespace ProxyCase

/-- A service behind an agent. -/
def service : URL := { protocol := b!"motan2", path := b!"com.weibo.S", group := b!"g", params := some [(b!"proxy", b!"motan2:8002")] }

end ProxyCase

open ProxyCase in
example : (initProxy (fun p => p = b!"motan2") service).available = true ∧
    (proxyURL service).map (fun e => (e.host, e.port, dialTarget e)) = some (b!"127.0.0.1", 8002, .tcp b!"127.0.0.1:8002") ∧
    ((proxyURL service).map fun e => ((settings true e).threshold, (settings true e).retryInterval, (settings true e).connections)) =
      some (0, 5000000000, 3) ∧
    proxyCall (initProxy (fun p => p = b!"motan2") service) false [] = .refused 503 b!"reverse proxy call err: motanProvider is unavailable" := by
  decide +kernel

example : (settings true (meshURL 0 b!"app" [])).timeouts.request = 5000 ∧ (settings true (meshURL 1500000 b!"app" [])).timeouts.request = 1 ∧
    (settings true (meshURL 500000 b!"app" [])).timeouts.request = 1000 := by decide +kernel

example : connecting 5000000000 [false, false, true, true] = (true, 3) ∧ connecting 0 [false, true] = (false, 1) := by decide +kernel

end Motan.Props
