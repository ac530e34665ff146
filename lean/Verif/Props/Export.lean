import Verif.Model.Export
import Verif.Props.Dynamic

/-!
# Starting a server: every configured service is served and registered (C70)
-/

namespace Motan.Props

open Motan Motan.Strings Motan.Url
open Motan.Export (Addr Prov St reached export1)

namespace Spec

/-- What the `export` parameter means: nothing, a port, or a protocol and a port. -/
inductive ExportText : Bytes → Bytes → Nat → Prop
  | absent : ExportText [] b!"motan2" 9982
  | port (n : Nat) : ExportText (natDigits n) b!"motan2" n
  | both (p : Bytes) (n : Nat) (hne : p ≠ []) (hc : (58 : UInt8) ∉ p) (hs : ∀ c ∈ p, isSpace c = false) :
      ExportText (p ++ b!":" ++ natDigits n) p n

/-- The address at which, and the protocol in which, a service is configured to be served: the TCP port of its
`export` parameter, or the path of its `unixSock` parameter. -/
inductive Home (u : URL) : Bytes → Addr → Prop
  | tcp (protocol : Bytes) (n : Nat) (ht : ExportText (getParam u b!"export" []) protocol n) (hn : 0 < n ∧ n < 65536)
      (hp : ¬ hasPrefix (getParam u b!"proxy.host" []) b!"unix://") (hu : getParam u b!"unixSock" [] = [])
      (ha : u.param b!"nodeType" ≠ some b!"agent") : Home u protocol (.tcp [] n)
  | unix (protocol : Bytes) (n : Nat) (path : Bytes) (ht : ExportText (getParam u b!"export" []) protocol n)
      (hp : ¬ hasPrefix (getParam u b!"proxy.host" []) b!"unix://") (hu : getParam u b!"unixSock" [] = path)
      (hne : path ≠ []) (hd : ∀ n, path ≠ natDigits n) : Home u protocol (.unix path)

/-- The port shown to clients. -/
def portOf : Addr → Int
  | .tcp _ n => n
  | .unix _ => 0

/-- The service's implementation was registered. -/
def Implemented (E : Export.Env) (u : URL) (impl : Nat) : Prop :=
  E.impls.load ((u.param b!"ref").getD []) = some impl

/-- The kind of provider the service asks for exists: the one named, or the one for the protocol of the process behind
it, or the one that calls an implementation in this process. -/
inductive KnownProvider (E : Export.Env) (u : URL) : Prop
  | named (h : getParam u b!"provider" [] ∈ E.providers) (hne : getParam u b!"provider" [] ≠ [])
  | proxy (p : Bytes) (n : Nat) (h0 : getParam u b!"provider" [] = []) (hx : getParam u b!"proxy" [] ≠ [])
      (h : ExportText (getParam u b!"proxy" []) p n) (hp : p ∈ E.providers)
  | plain (h0 : getParam u b!"provider" [] = []) (hx : getParam u b!"proxy" [] = []) (h : b!"default" ∈ E.providers)

/-- The service can be exported at its address: it has an implementation, its kinds of provider and of server exist,
and the machine lets the process listen there. -/
structure Exportable (E : Export.Env) (u : URL) (protocol : Bytes) (a : Addr) (impl : Nat) : Prop where
  impl : Implemented E u impl
  home : Home u protocol a
  provider : KnownProvider E u
  server : protocol ∈ E.servers
  free : E.free a = true

/-- The export text names a port that is no number. -/
inductive NoPort : Bytes → Prop
  | port (x : Bytes) (hne : x ≠ []) (hc : (58 : UInt8) ∉ x) (hs : ∀ c ∈ x, isSpace c = false)
      (he : (parseInt64 x).2 ≠ none) : NoPort x
  | both (p x : Bytes) (hp : p ≠ []) (hpc : (58 : UInt8) ∉ p) (hps : ∀ c ∈ p, isSpace c = false)
      (hne : x ≠ []) (hc : (58 : UInt8) ∉ x) (hs : ∀ c ∈ x, isSpace c = false)
      (he : (parseInt64 x).2 ≠ none) : NoPort (p ++ b!":" ++ x)

/-- Another configured service `v` is no obstacle for `u`: it has no implementation, or its port is no number, or its
address is another one, or it shares the address, the protocol and the serialization and has another path. -/
inductive Apart (E : Export.Env) (u : URL) (protocol : Bytes) (a : Addr) (v : URL) : Prop
  | noImpl (h : ∀ i, ¬ Implemented E v i)
  | noPort (h : NoPort (getParam v b!"export" [])) (hp : ¬ hasPrefix (getParam v b!"proxy.host" []) b!"unix://")
      (hu : getParam v b!"unixSock" [] = [])
  | elsewhere (protocol' : Bytes) (a' : Addr) (h : Home v protocol' a') (hne : a' ≠ a)
  | shared (h : Home v protocol a) (hs : getParam v b!"serialization" [] = getParam u b!"serialization" [])
      (hne : v.path ≠ u.path)

/-- The URL under which a service is exported: what it was configured with, at the address. -/
structure Shows (E : Export.Env) (u : URL) (protocol : Bytes) (port : Int) (v : URL) : Prop where
  path : v.path = u.path
  group : v.group = u.group
  protocol : v.protocol = protocol
  port : v.port = port
  host : v.host = if u.host = [] then E.localIP else u.host
  params : ∀ k, k ≠ b!"nodeType" → v.param k = u.param k

/-- The URL shows a service; at its address, if it has one. -/
def Shown (E : Export.Env) (u v : URL) : Prop :=
  ∃ p n, Shows E u p n v ∧ ∀ p' a, Home u p' a → p = p' ∧ n = portOf a

end Spec

open Spec (Shown ExportText Home Exportable Apart Shows portOf Implemented)

/-! ### The `export` parameter -/

theorem digit_plain {n : Nat} : (58 : UInt8) ∉ natDigits n ∧ ∀ c ∈ natDigits n, isSpace c = false := by
  constructor
  · intro h; have := natDigits_digit n _ h; revert this; decide
  · intro c h
    have := natDigits_digit n c h
    simp only [isSpace, decide_eq_false_iff_not]
    rw [UInt8.le_iff_toNat_le, UInt8.le_iff_toNat_le] at this
    rintro (e | e | e | e | e | e) <;> subst e <;> revert this <;> decide

theorem trimSplit_one {x : Bytes} (hne : x ≠ []) (hc : (58 : UInt8) ∉ x) (hs : ∀ c ∈ x, isSpace c = false) :
    trimSplit x b!":" = [x] := by
  rw [trimSplit_eq _ _ (by decide), show b!":" = [58] from rfl, split_single hc]
  simp [trimSpace_id hs, hne]

theorem trimSplit_two {p x : Bytes} (hp : p ≠ []) (hpc : (58 : UInt8) ∉ p) (hps : ∀ c ∈ p, isSpace c = false)
    (hne : x ≠ []) (hc : (58 : UInt8) ∉ x) (hs : ∀ c ∈ x, isSpace c = false) :
    trimSplit (p ++ b!":" ++ x) b!":" = [p, x] := by
  rw [trimSplit_eq _ _ (by decide), show b!":" = [58] from rfl, split_cons hpc, split_single hc]
  simp [trimSpace_id hs, trimSpace_id hps, hne, hp]

theorem protoPort_of_text {e p : Bytes} {n : Nat} (h : ExportText e p n) : Export.protoPort e = (p, natDigits n) := by
  cases h with
  | absent => decide +kernel
  | port n =>
    rw [Export.protoPort, if_neg (natDigits_ne_nil n), trimSplit_one (natDigits_ne_nil n) digit_plain.1 digit_plain.2]
  | both p n hne hc hs =>
    rw [Export.protoPort, if_neg (by simp), trimSplit_two hne hc hs (natDigits_ne_nil n) digit_plain.1 digit_plain.2]
    simp [hne]

theorem noPort_text {e : Bytes} (h : Spec.NoPort e) : (parseInt64 (Export.protoPort e).2).2 ≠ none := by
  cases h with
  | port x hne hc hs he => rwa [Export.protoPort, if_neg hne, trimSplit_one hne hc hs]
  | both p x hp hpc hps hne hc hs he =>
    rw [Export.protoPort, if_neg (by simp), trimSplit_two hp hpc hps hne hc hs]; simpa using he

theorem providerName_known {E : Export.Env} {u : URL} (h : Spec.KnownProvider E u) :
    Export.providerName u ∈ E.providers := by
  unfold Export.providerName
  cases h with
  | named h hne => simpa [hne] using h
  | plain h0 hx h => simpa [h0, hx] using h
  | proxy p n h0 hx h hp =>
    simp only [h0, hx, if_true, ne_eq, not_false_eq_true]
    have : (Dynamic.parseExportInfo (getParam u b!"proxy" [])).1 = p := by
      revert hx h
      generalize getParam u b!"proxy" [] = x
      intro hx h
      cases h with
      | absent => simp_all
      | port n =>
        rw [Dynamic.parseExportInfo, trimSplit_one (natDigits_ne_nil n) digit_plain.1 digit_plain.2]
      | both p n hne hc hs =>
        rw [Dynamic.parseExportInfo, trimSplit_two hne hc hs (natDigits_ne_nil n) digit_plain.1 digit_plain.2]
    rwa [this]

/-! ### Where a service is placed -/

/-- The key under which the server of an address is kept. -/
def addrKey : Addr → Bytes
  | .tcp _ n => natDigits n.toNat
  | .unix p => p

theorem getParam_congr {u v : URL} {k : Bytes} (h : u.params = v.params) (d : Bytes) : getParam u k d = getParam v k d := by
  simp only [getParam, URL.param, h]; rfl

theorem getParam_placed (E : Export.Env) (u : URL) (p : Bytes) (n : Int) (k d : Bytes) :
    getParam (Export.placed E u p n) k d = getParam u k d := getParam_congr rfl d

theorem portKey_proto (u : URL) (p t : Bytes) : Export.portKey { u with protocol := p } t = Export.portKey u t := rfl

theorem home_key {u : URL} {p : Bytes} {a : Addr} (h : Home u p a) :
    ∃ t, Export.protoPort (getParam u b!"export" []) = (p, t) ∧
      Export.portKey { u with protocol := p } t = some (portOf a, addrKey a) := by
  cases h with
  | tcp n ht hn hp hu ha =>
    refine ⟨_, protoPort_of_text ht, ?_⟩
    have e := parseInt64_formatInt (n : Int) (by omega) (by omega)
    rw [formatInt, if_neg (by omega), Int.natAbs_natCast] at e
    rw [portKey_proto]
    simp only [Export.portKey]
    rw [if_neg hp, if_neg (by simp [hu]), e]
    rfl
  | unix n path ht hp hu hne hd =>
    refine ⟨_, protoPort_of_text ht, ?_⟩
    rw [portKey_proto]
    simp only [Export.portKey]
    rw [if_neg hp, hu, if_pos hne]
    rfl

theorem home_listen (E : Export.Env) {u : URL} {p : Bytes} {a : Addr} (h : Home u p a) :
    Export.listenAddr (Export.placed E u p (portOf a)) = a := by
  simp only [Export.listenAddr, getParam_placed]
  cases h with
  | tcp n ht hn hp hu ha =>
    rw [if_neg (by simp [hu])]
    rw [show (Export.placed E u p (portOf (.tcp [] n))).param b!"nodeType" = u.param b!"nodeType" from rfl, if_neg ha]
    rfl
  | unix n path ht hp hu hne hd => rw [hu, if_pos hne]

theorem text_ne_nil {e p : Bytes} {n : Nat} (h : ExportText e p n) : p ≠ [] := by
  cases h with
  | absent => decide
  | port => decide
  | both p n hne => exact hne

theorem home_proto {u : URL} {p : Bytes} {a : Addr} (h : Home u p a) : p ≠ [] := by
  cases h with
  | tcp n ht => exact text_ne_nil ht
  | unix n path ht => exact text_ne_nil ht

theorem natDigits_port_inj {m n : Nat} (hm : m < 65536) (hn : n < 65536) (h : natDigits m = natDigits n) : m = n := by
  have := formatInt_injective (a := m) (b := n) (by omega) (by omega) (by omega) (by omega)
    (by rw [formatInt, formatInt, if_neg (by omega), if_neg (by omega)]; simpa using h)
  omega

theorem addrKey_inj {u v : URL} {p q : Bytes} {a b : Addr} (ha : Home u p a) (hb : Home v q b)
    (h : addrKey a = addrKey b) : a = b := by
  cases ha with
  | tcp n ht hn hp hu ha =>
    cases hb with
    | tcp m ht' hn' hp' hu' ha' =>
      have : n = m := natDigits_port_inj hn.2 hn'.2 (by simpa [addrKey] using h)
      rw [this]
    | unix m path ht' hp' hu' hne' hd' => exact absurd h.symm (hd' _)
  | unix n path ht hp hu hne hd =>
    cases hb with
    | tcp m ht' hn' hp' hu' ha' => exact absurd h (hd _)
    | unix m path' ht' hp' hu' hne' hd' => rw [show path = path' from h]

/-! ### One export -/

theorem exporter_servers (E : Export.Env) (s : St) (u : URL) :
    (Export.exporter E s u).servers = s.servers ∧ (Export.exporter E s u).bound = s.bound := by
  simp only [Export.exporter]; split <;> exact ⟨rfl, rfl⟩

/-- An export with a place: nothing happens, or the provider reaches the server and is registered. -/
theorem export1_home (E : Export.Env) (s : St) {v : URL} {p : Bytes} {a : Addr} {i : Nat} (hi : Implemented E v i)
    (h : Home v p a) : export1 E s v =
      if Export.providerName v ∈ E.providers then
        match Export.addProvider E s (addrKey a) ⟨Export.placed E v p (portOf a), i⟩ with
        | none => s
        | some s' => Export.exporter E s' (Export.placed E v p (portOf a))
      else s := by
  obtain ⟨t, e1, e2⟩ := home_key h
  unfold Export.export1
  rw [show E.impls.load ((v.param b!"ref").getD []) = some i from hi]
  simp only [e1, e2]
  rfl

theorem export1_noImpl (E : Export.Env) (s : St) {v : URL} (h : ∀ i, ¬ Implemented E v i) : export1 E s v = s := by
  unfold Export.export1
  cases e : E.impls.load ((v.param b!"ref").getD []) with
  | none => rfl
  | some i => exact absurd e (h i)

theorem export1_noPort (E : Export.Env) (s : St) {v : URL} (h : Spec.NoPort (getParam v b!"export" []))
    (hp : ¬ hasPrefix (getParam v b!"proxy.host" []) b!"unix://") (hu : getParam v b!"unixSock" [] = []) :
    export1 E s v = s := by
  unfold Export.export1
  cases e : E.impls.load ((v.param b!"ref").getD []) with
  | none => rfl
  | some i =>
    have : Export.portKey { v with protocol := (Export.protoPort (getParam v b!"export" [])).1 }
        (Export.protoPort (getParam v b!"export" [])).2 = none := by
      rw [portKey_proto]
      simp only [Export.portKey]
      rw [if_neg hp, if_neg (by simp [hu])]
      have := noPort_text h
      cases hx : parseInt64 (Export.protoPort (getParam v b!"export" [])).2 with
      | mk n o =>
        cases o with
        | none => rw [hx] at this; exact absurd rfl this
        | some _ => rfl
    simp only [this]

theorem listen_load {E : Export.Env} {b b' : AMap Addr Bytes} {a : Addr} {k : Bytes}
    (h : Export.listen E b a k = some b') : ∀ a', a' ≠ a → b'.load a' = b.load a' := by
  intro a' hne
  unfold Export.listen at h
  split at h
  · split at h
    · cases h; rw [AMap.load_store_ne _ _ (Ne.symm hne)]
    · split at h
      · cases h; rfl
      · split at h
        · cases h
        · cases h; rw [AMap.load_store_ne _ _ (Ne.symm hne)]
  · cases h

theorem listen_ok {E : Export.Env} {b : AMap Addr Bytes} {u : URL} {p : Bytes} {a : Addr} {k : Bytes} (hf : E.free a = true)
    (h : Home u p a) (hb : b.load a = none) : Export.listen E b a k = some (b.store a k) := by
  unfold Export.listen
  rw [if_pos hf]
  cases h with
  | tcp n ht hn => simp only [show ¬ (n : Int) = 0 by omega, if_false, hb]; rfl
  | unix => rfl

/-- What an export changes: only its own server and its own address. -/
theorem addProvider_frame {E : Export.Env} {s s' : St} {k : Bytes} {q : Prov} (h : Export.addProvider E s k q = some s') :
    (∀ k', k' ≠ k → s'.servers.load k' = s.servers.load k') ∧
    (∀ a', a' ≠ Export.listenAddr q.url → s'.bound.load a' = s.bound.load a') := by
  unfold Export.addProvider at h
  split at h
  · unfold Export.newServer at h
    split at h
    · split at h
      · rename_i hl
        cases h
        exact ⟨fun k' hk => AMap.load_store_ne _ _ (Ne.symm hk), listen_load hl⟩
      · cases h; exact ⟨fun k' hk => AMap.load_store_ne _ _ (Ne.symm hk), fun _ _ => rfl⟩
    · cases h
  · split at h
    · obtain ⟨ps, hps, rfl⟩ := Option.map_eq_some_iff.mp h
      exact ⟨fun k' hk => AMap.load_store_ne _ _ (Ne.symm hk), fun _ _ => rfl⟩
    · cases h

/-! ### The address of one service while the others are exported -/

/-- The server at the address of a service, with the providers it has. -/
def atAddr (s : St) (p : Bytes) (a : Addr) (ser : Bytes) (ps : AMap Bytes Prov) : Prop :=
  s.bound.load a = some (addrKey a) ∧ ∃ w, s.servers.load (addrKey a) = some ⟨w, some ps⟩ ∧ w.protocol = p ∧
    getParam w b!"serialization" [] = ser

/-- Nobody is at the address yet, or a server that the service can share. -/
def ready (s : St) (p : Bytes) (a : Addr) (ser : Bytes) : Prop :=
  (s.bound.load a = none ∧ s.servers.load (addrKey a) = none) ∨ ∃ ps, atAddr s p a ser ps

theorem isSame_of_ser {u v : URL} (h : getParam u b!"serialization" [] = getParam v b!"serialization" []) :
    isSame u.params v.params b!"serialization" [] = true := by
  rw [getParam_empty, getParam_empty] at h
  unfold isSame
  split
  · rfl
  · simpa [URL.param] using h

theorem addProvider_here {E : Export.Env} {s : St} {v : URL} {p : Bytes} {a : Addr} {i : Nat} {ser : Bytes}
    (hh : Home v p a) (hserv : p ∈ E.servers) (hf : E.free a = true) (hs : getParam v b!"serialization" [] = ser)
    (hr : ready s p a ser) :
    ∃ s' ps, Export.addProvider E s (addrKey a) ⟨Export.placed E v p (portOf a), i⟩ = some s' ∧ atAddr s' p a ser ps ∧
      ps.load v.path = some ⟨Export.placed E v p (portOf a), i⟩ ∧
      ∀ ps0, atAddr s p a ser ps0 → ∀ x, x ≠ v.path → ps.load x = ps0.load x := by
  have hser : getParam (Export.placed E v p (portOf a)) b!"serialization" [] = ser := by rw [getParam_placed]; exact hs
  rcases hr with ⟨hb, hn⟩ | ⟨ps, hb, w, hw, hwp, hws⟩
  · have hl := listen_ok (k := addrKey a) hf hh hb
    refine ⟨St.mk (s.servers.store (addrKey a)
        ⟨Export.placed E v p (portOf a), some [(v.path, ⟨Export.placed E v p (portOf a), i⟩)]⟩)
        (s.bound.store a (addrKey a)) s.registered,
      [(v.path, ⟨Export.placed E v p (portOf a), i⟩)], ?_, ⟨?_, Export.placed E v p (portOf a), ?_, rfl, hser⟩, ?_, ?_⟩
    · unfold Export.addProvider
      simp only [hn, Export.newServer]
      rw [if_pos (by
        show Export.serverName p ∈ _
        rw [Export.serverName, if_neg (home_proto hh)]; exact hserv), home_listen E hh, hl]
      rfl
    · exact AMap.load_store_self _ _ _
    · exact AMap.load_store_self _ _ _
    · simp [AMap.load]
    · rintro ps0 ⟨hb', _⟩; rw [hb] at hb'; cases hb'
  · refine ⟨St.mk (s.servers.store (addrKey a)
      ⟨w, some (ps.store v.path ⟨Export.placed E v p (portOf a), i⟩)⟩) s.bound s.registered, _, ?_, ⟨hb, w, AMap.load_store_self _ _ _, hwp, hws⟩,
      AMap.load_store_self _ _ _, ?_⟩
    · unfold Export.addProvider
      simp only [hw]
      rw [if_pos]
      · rfl
      · simp only [Export.canShareChannel, Bool.decide_and, Bool.and_eq_true, decide_eq_true_eq]
        exact ⟨hwp.symm, isSame_of_ser (by rw [hser, hws])⟩
    · rintro ps0 ⟨_, w', hw', _, _⟩ x hx
      rw [hw] at hw'; cases hw'
      exact AMap.load_store_ne _ _ (Ne.symm hx)

/-- Another service leaves the address ready, and leaves what is served there under other paths. -/
theorem export1_apart {E : Export.Env} {s : St} {u v : URL} {p : Bytes} {a : Addr} (hu : Home u p a) (hserv : p ∈ E.servers)
    (hf : E.free a = true) (hv : Apart E u p a v) :
    (ready s p a (getParam u b!"serialization" []) → ready (export1 E s v) p a (getParam u b!"serialization" [])) ∧
    (∀ ps q, atAddr s p a (getParam u b!"serialization" []) ps → ps.load u.path = some q →
      ∃ ps', atAddr (export1 E s v) p a (getParam u b!"serialization" []) ps' ∧ ps'.load u.path = some q) := by
  have same : ∀ s' : St, s'.servers.load (addrKey a) = s.servers.load (addrKey a) → s'.bound.load a = s.bound.load a →
      (ready s p a (getParam u b!"serialization" []) → ready s' p a (getParam u b!"serialization" [])) ∧
      (∀ ps q, atAddr s p a (getParam u b!"serialization" []) ps → ps.load u.path = some q →
        ∃ ps', atAddr s' p a (getParam u b!"serialization" []) ps' ∧ ps'.load u.path = some q) := by
    intro s' h1 h2
    refine ⟨fun h => ?_, fun ps q h hq => ⟨ps, ?_, hq⟩⟩
    · simpa only [ready, atAddr, h1, h2] using h
    · simpa only [atAddr, h1, h2] using h
  by_cases hi : ∃ i, Implemented E v i
  · obtain ⟨i, hi⟩ := hi
    cases hv with
    | noImpl h => exact absurd hi (h i)
    | noPort h hp hu' => rw [export1_noPort E s h hp hu']; exact same s rfl rfl
    | elsewhere p' a' h hne =>
      rw [export1_home E s hi h]
      split
      · cases hadd : Export.addProvider E s (addrKey a') ⟨Export.placed E v p' (portOf a'), i⟩ with
        | none => exact same s rfl rfl
        | some s' =>
          obtain ⟨f1, f2⟩ := addProvider_frame hadd
          obtain ⟨e1, e2⟩ := exporter_servers E s' (Export.placed E v p' (portOf a'))
          refine same _ ?_ ?_
          · show (Export.exporter E s' _).servers.load _ = _
            rw [e1]; exact f1 _ fun e => hne (addrKey_inj h hu e.symm)
          · show (Export.exporter E s' _).bound.load _ = _
            rw [e2]; exact f2 _ (by rw [home_listen E h]; exact Ne.symm hne)
      · exact same s rfl rfl
    | shared h hs hne =>
      rw [export1_home E s hi h]
      split
      · refine ⟨fun hr => ?_, fun ps q hat hq => ?_⟩
        · obtain ⟨s', ps, hadd, hat, _, _⟩ := addProvider_here (i := i) h hserv hf hs hr
          obtain ⟨e1, e2⟩ := exporter_servers E s' (Export.placed E v p (portOf a))
          rw [hadd]
          refine Or.inr ⟨ps, ?_⟩
          simpa only [atAddr, e1, e2] using hat
        · obtain ⟨s', ps', hadd, hat', _, hold⟩ := addProvider_here (i := i) h hserv hf hs (Or.inr ⟨ps, hat⟩)
          obtain ⟨e1, e2⟩ := exporter_servers E s' (Export.placed E v p (portOf a))
          rw [hadd]
          refine ⟨ps', by simpa only [atAddr, e1, e2] using hat', ?_⟩
          rw [hold ps hat _ (Ne.symm hne)]; exact hq
      · exact same s rfl rfl
  · rw [export1_noImpl E s fun i h => hi ⟨i, h⟩]; exact same s rfl rfl

theorem exports_ready {E : Export.Env} {u : URL} {p : Bytes} {a : Addr} (hu : Home u p a) (hserv : p ∈ E.servers)
    (hf : E.free a = true) (vs : List URL) (hv : ∀ v ∈ vs, Apart E u p a v) (s : St)
    (h : ready s p a (getParam u b!"serialization" [])) :
    ready (vs.foldl (export1 E) s) p a (getParam u b!"serialization" []) := by
  induction vs generalizing s with
  | nil => exact h
  | cons v vs ih =>
    exact ih (fun x hx => hv x (List.mem_cons_of_mem _ hx)) _ ((export1_apart hu hserv hf (hv v (List.mem_cons_self))).1 h)

theorem exports_keep {E : Export.Env} {u : URL} {p : Bytes} {a : Addr} (hu : Home u p a) (hserv : p ∈ E.servers)
    (hf : E.free a = true) (vs : List URL) (hv : ∀ v ∈ vs, Apart E u p a v) (s : St) (ps : AMap Bytes Prov) (q : Prov)
    (h : atAddr s p a (getParam u b!"serialization" []) ps) (hq : ps.load u.path = some q) :
    ∃ ps', atAddr (vs.foldl (export1 E) s) p a (getParam u b!"serialization" []) ps' ∧ ps'.load u.path = some q := by
  induction vs generalizing s ps with
  | nil => exact ⟨ps, h, hq⟩
  | cons v vs ih =>
    obtain ⟨ps', h', hq'⟩ := (export1_apart hu hserv hf (hv v (List.mem_cons_self))).2 ps q h hq
    exact ih (fun x hx => hv x (List.mem_cons_of_mem _ hx)) _ ps' h' hq'

/-! ### What is registered -/

theorem export1_registered_mono (E : Export.Env) (s : St) (v : URL) (x : Bytes × URL) (hx : x ∈ s.registered) :
    x ∈ (export1 E s v).registered := by
  unfold Export.export1
  split
  · exact hx
  · simp only
    split
    · exact hx
    · split
      · split
        · exact hx
        · rename_i s' hadd
          have : s'.registered = s.registered := by
            unfold Export.addProvider at hadd
            split at hadd
            · unfold Export.newServer at hadd
              split at hadd
              · split at hadd <;> cases hadd <;> rfl
              · cases hadd
            · split at hadd
              · obtain ⟨ps, hps, rfl⟩ := Option.map_eq_some_iff.mp hadd; rfl
              · cases hadd
          simp only [Export.exporter]
          split
          · rw [this]; exact hx
          · rw [this]; exact List.mem_append_left _ hx
      · exact hx

theorem exports_registered_mono (E : Export.Env) (vs : List URL) (s : St) (x : Bytes × URL) (hx : x ∈ s.registered) :
    x ∈ (vs.foldl (export1 E) s).registered := by
  induction vs generalizing s with
  | nil => exact hx
  | cons v vs ih => exact ih _ (export1_registered_mono E s v x hx)

theorem placed_shows (E : Export.Env) (u : URL) (p : Bytes) (n : Int) : Shows E u p n (Export.placed E u p n) :=
  ⟨rfl, rfl, rfl, rfl, rfl, fun _ _ => rfl⟩

theorem nodeType_shows {E : Export.Env} {u v : URL} {p : Bytes} {n : Int} (h : Shows E u p n v) :
    Shows E u p n (putParam v b!"nodeType" b!"service") := by
  refine ⟨h.path, h.group, h.protocol, h.port, h.host, fun k hk => ?_⟩
  rw [← h.params k hk]
  show AMap.load _ k = _
  rw [AMap.load_store_ne _ _ (Ne.symm hk)]
  unfold URL.param
  cases v.params <;> rfl

theorem putParam_self (v : URL) (k x : Bytes) : (putParam v k x).param k = some x := by
  show AMap.load _ k = _
  rw [AMap.load_store_self]

theorem putParam_ne (v : URL) {k k' : Bytes} (x : Bytes) (h : k' ≠ k) : (putParam v k x).param k' = v.param k' := by
  show AMap.load _ k' = _
  rw [AMap.load_store_ne _ _ (Ne.symm h)]
  unfold URL.param
  cases v.params <;> rfl

/-- The state right after the service itself. -/
theorem export1_self {E : Export.Env} {s : St} {u : URL} {p : Bytes} {a : Addr} {i : Nat} (hu : Exportable E u p a i)
    (h : ready s p a (getParam u b!"serialization" [])) :
    ∃ s' ps, export1 E s u = Export.exporter E s' (Export.placed E u p (portOf a)) ∧
      atAddr s' p a (getParam u b!"serialization" []) ps ∧
      ps.load u.path = some ⟨Export.placed E u p (portOf a), i⟩ := by
  obtain ⟨s', ps, hadd, hat, hps, _⟩ := addProvider_here (i := i) hu.home hu.server hu.free rfl h
  refine ⟨s', ps, ?_, hat, hps⟩
  rw [export1_home E s hu.impl hu.home, if_pos (providerName_known hu.provider), hadd]

/-- A service that can be exported is served at its address, under its path, by its implementation, whatever else is
configured that does not stand in its way, and in whatever order the services are exported. -/
theorem export_served (E : Export.Env) (pre post : List URL) (u : URL) (p : Bytes) (a : Addr) (i : Nat)
    (hu : Exportable E u p a i) (hv : ∀ v ∈ pre ++ post, Apart E u p a v) :
    ∃ q, reached (Export.start E (pre ++ u :: post)) a u.path = some q ∧ q.impl = i ∧ Shows E u p (portOf a) q.url := by
  have hr := exports_ready hu.home hu.server hu.free pre (fun v h => hv v (List.mem_append_left _ h)) {}
    (Or.inl ⟨rfl, rfl⟩)
  obtain ⟨s', ps, e, hat, hps⟩ := export1_self hu hr
  obtain ⟨e1, e2⟩ := exporter_servers E s' (Export.placed E u p (portOf a))
  obtain ⟨ps', hat', hps'⟩ := exports_keep hu.home hu.server hu.free post (fun v h => hv v (List.mem_append_right _ h))
    (export1 E (pre.foldl (export1 E) {}) u) ps _ (by rw [e]; simpa only [atAddr, e1, e2] using hat) hps
  refine ⟨⟨Export.placed E u p (portOf a), i⟩, ?_, rfl, placed_shows E u p (portOf a)⟩
  obtain ⟨hb, w, hw, _, _⟩ := hat'
  rw [Export.start, List.foldl_append, List.foldl_cons, reached, hb]
  show Option.bind (AMap.load _ _) _ = _
  rw [hw]
  exact hps'

/-- It is registered in each of its registries that is configured and of a known type: under its path and group, with
the protocol and port at which it is served, marked as a service. -/
theorem export_registered (E : Export.Env) (pre post : List URL) (u : URL) (p : Bytes) (a : Addr) (i : Nat)
    (hu : Exportable E u p a i) (hv : ∀ v ∈ pre ++ post, Apart E u p a v) (regs id : Bytes) (r : URL)
    (hregs : u.param b!"registry" = some regs) (hid : Spec.Listed regs id) (hne : id ≠ [])
    (hr : E.registryURLs.load id = some r) (ht : r.protocol ∈ E.registryTypes) :
    ∃ v, ((getIdentity r).1, v) ∈ (Export.start E (pre ++ u :: post)).registered ∧ Shows E u p (portOf a) v ∧
      v.param b!"nodeType" = some b!"service" := by
  have hrd := exports_ready hu.home hu.server hu.free pre (fun v h => hv v (List.mem_append_left _ h)) {}
    (Or.inl ⟨rfl, rfl⟩)
  obtain ⟨s', ps, e, hat, hps⟩ := export1_self hu hrd
  refine ⟨putParam (Export.placed E u p (portOf a)) b!"nodeType" b!"service", ?_, nodeType_shows (placed_shows E u p _),
    putParam_self _ _ _⟩
  rw [Export.start, List.foldl_append, List.foldl_cons]
  refine exports_registered_mono E post _ _ ?_
  rw [e]
  simp only [Export.exporter]
  rw [putParam_ne _ _ (by decide), show (Export.placed E u p (portOf a)).param b!"registry" = u.param b!"registry" from rfl,
    hregs]
  refine List.mem_append_right _ (List.mem_map.mpr ⟨_, List.mem_filterMap.mpr ⟨id, (mem_trimSplit_iff regs id).mpr ⟨hne, hid⟩, ?_⟩,
    rfl⟩)
  rw [Export.registryOf, hr]
  simp [ht]

/-! ### Nothing else -/

/-- The providers and registrations of a state come from the given services. -/
structure FromConfig (E : Export.Env) (us : List URL) (s : St) : Prop where
  served : ∀ (k : Bytes) (srv : Export.Server) (ps : AMap Bytes Prov) (path : Bytes) (q : Prov),
    s.servers.load k = some srv → srv.providers = some ps → ps.load path = some q →
    ∃ u ∈ us, Implemented E u q.impl ∧ u.path = path ∧ Shown E u q.url
  registered : ∀ (r : Bytes) (v : URL), (r, v) ∈ s.registered →
    ∃ u ∈ us, ∃ i regs id ru, Implemented E u i ∧ Shown E u v ∧ v.param b!"nodeType" = some b!"service" ∧
      u.param b!"registry" = some regs ∧ Spec.Listed regs id ∧ E.registryURLs.load id = some ru ∧ r = (getIdentity ru).1

theorem FromConfig.weaken {E : Export.Env} {us vs : List URL} {s : St} (h : FromConfig E us s) (hs : ∀ u ∈ us, u ∈ vs) :
    FromConfig E vs s := by
  refine ⟨fun k srv ps path q h1 h2 h3 => ?_, fun r v h1 => ?_⟩
  · obtain ⟨u, hu, x⟩ := h.served k srv ps path q h1 h2 h3; exact ⟨u, hs u hu, x⟩
  · obtain ⟨u, hu, x⟩ := h.registered r v h1; exact ⟨u, hs u hu, x⟩

theorem export1_from {E : Export.Env} {us : List URL} {s : St} (h : FromConfig E us s) (u : URL) :
    FromConfig E (us ++ [u]) (export1 E s u) := by
  have hw := h.weaken (vs := us ++ [u]) fun x hx => List.mem_append_left _ hx
  unfold Export.export1
  cases hi : E.impls.load ((u.param b!"ref").getD []) with
  | none => exact hw
  | some i =>
    simp only
    split
    · exact hw
    · rename_i port key hk
      split
      · cases hadd : Export.addProvider E s key
            ⟨Export.placed E u (Export.protoPort (getParam u b!"export" [])).1 port, i⟩ with
        | none => exact hw
        | some s' =>
          have home : ∀ p' a, Home u p' a → (Export.protoPort (getParam u b!"export" [])).1 = p' ∧ port = portOf a := by
            intro p' a ha
            obtain ⟨t, e1, e2⟩ := home_key ha
            rw [portKey_proto] at e2
            rw [portKey_proto, e1, e2] at hk
            cases hk
            exact ⟨by rw [e1], rfl⟩
          have self : ∀ path, path = u.path → ∃ w ∈ us ++ [u], Implemented E w i ∧ w.path = path ∧ Shown E w
              (Export.placed E u (Export.protoPort (getParam u b!"export" [])).1 port) := fun path hp =>
            ⟨u, List.mem_append_right _ (List.mem_singleton_self _), hi, hp.symm, _, _, placed_shows E u _ _, home⟩
          have h' : FromConfig E (us ++ [u]) s' := by
            unfold Export.addProvider at hadd
            split at hadd
            · unfold Export.newServer at hadd
              split at hadd
              · split at hadd
                · cases hadd
                  refine ⟨fun k srv ps path q h1 h2 h3 => ?_, hw.registered⟩
                  by_cases hkk : key = k
                  · subst hkk
                    rw [AMap.load_store_self] at h1
                    cases h1; cases h2
                    simp only [AMap.load] at h3
                    split at h3
                    · rename_i hp
                      cases h3
                      exact self path hp.symm
                    · cases h3
                  · rw [AMap.load_store_ne _ _ hkk] at h1
                    exact hw.served k srv ps path q h1 h2 h3
                · cases hadd
                  refine ⟨fun k srv ps path q h1 h2 h3 => ?_, hw.registered⟩
                  by_cases hkk : key = k
                  · subst hkk
                    rw [AMap.load_store_self] at h1
                    cases h1; cases h2
                  · rw [AMap.load_store_ne _ _ hkk] at h1
                    exact hw.served k srv ps path q h1 h2 h3
              · cases hadd
            · rename_i srv0 hsrv
              split at hadd
              · obtain ⟨ps0, hps, rfl⟩ := Option.map_eq_some_iff.mp hadd
                refine ⟨fun k srv ps path q h1 h2 h3 => ?_, hw.registered⟩
                by_cases hkk : key = k
                · subst hkk
                  rw [AMap.load_store_self] at h1
                  cases h1; cases h2
                  rw [AMap.load_store] at h3
                  split at h3
                  · rename_i hp
                    cases h3
                    exact self path hp.symm
                  · exact hw.served key srv0 ps0 path q hsrv hps h3
                · rw [AMap.load_store_ne _ _ hkk] at h1
                  exact hw.served k srv ps path q h1 h2 h3
              · cases hadd
          obtain ⟨e1, e2⟩ := exporter_servers E s'
            (Export.placed E u (Export.protoPort (getParam u b!"export" [])).1 port)
          refine ⟨fun k srv ps path q h1 h2 h3 => h'.served k srv ps path q (by rw [← e1]; exact h1) h2 h3, fun r v hv => ?_⟩
          simp only [Export.exporter] at hv
          split at hv
          · exact h'.registered r v hv
          · rename_i regs hregs
            rcases List.mem_append.mp hv with hv | hv
            · exact h'.registered r v hv
            · obtain ⟨r', hr', e⟩ := List.mem_map.mp hv
              cases e
              obtain ⟨id, hid, hreg⟩ := List.mem_filterMap.mp hr'
              unfold Export.registryOf at hreg
              obtain ⟨ru, hru, hreg⟩ := Option.bind_eq_some_iff.mp hreg
              split at hreg
              · cases hreg
                rw [putParam_ne _ _ (by decide)] at hregs
                exact ⟨u, List.mem_append_right _ (List.mem_singleton_self _), i, regs, id, ru, hi,
                  ⟨_, _, nodeType_shows (placed_shows E u _ _), home⟩, putParam_self _ _ _, hregs,
                  ((mem_trimSplit_iff regs id).mp hid).2, hru, rfl⟩
              · cases hreg
      · exact hw

theorem start_from (E : Export.Env) (us : List URL) : FromConfig E us (Export.start E us) := by
  have : ∀ (vs done : List URL) (s : St), FromConfig E done s → FromConfig E (done ++ vs) (vs.foldl (export1 E) s) := by
    intro vs
    induction vs with
    | nil => intro done s h; simpa using h
    | cons v vs ih => intro done s h; simpa using ih _ _ (export1_from h v)
  simpa [Export.start] using this us [] {} ⟨(by intro k srv ps path q h; cases h), fun _ _ h => absurd h (List.not_mem_nil)⟩

/-- Whatever is configured: what answers at any address under a path is the implementation of a configured service
with that path. -/
theorem export_served_only (E : Export.Env) (us : List URL) (a : Addr) (path : Bytes) (q : Prov)
    (h : reached (Export.start E us) a path = some q) :
    ∃ u ∈ us, Implemented E u q.impl ∧ u.path = path ∧ Shown E u q.url := by
  unfold reached at h
  obtain ⟨k, _, h⟩ := Option.bind_eq_some_iff.mp h
  obtain ⟨srv, h1, h⟩ := Option.bind_eq_some_iff.mp h
  obtain ⟨ps, h2, h3⟩ := Option.bind_eq_some_iff.mp h
  exact (start_from E us).served k srv ps path q h1 h2 h3

/-- Whatever is configured: what a registry is told is a configured service that has an implementation and names this
registry. -/
theorem export_registered_only (E : Export.Env) (us : List URL) (r : Bytes) (v : URL)
    (h : (r, v) ∈ (Export.start E us).registered) :
    ∃ u ∈ us, ∃ i regs id ru, Implemented E u i ∧ Shown E u v ∧ v.param b!"nodeType" = some b!"service" ∧
      u.param b!"registry" = some regs ∧ Spec.Listed regs id ∧ E.registryURLs.load id = some ru ∧ r = (getIdentity ru).1 :=
  (start_from E us).registered r v h

/-- When every service with an implementation can be exported and no two are in each other's way, everything that a
registry is told can be called: at the protocol and port it was told, under the path it was told, by the implementation
of that service. -/
theorem export_callable (E : Export.Env) (us : List URL)
    (hall : ∀ u ∈ us, (∀ i, ¬ Implemented E u i) ∨ ∃ p a i, Exportable E u p a i)
    (hsep : us.Pairwise fun u v => ∀ p a, (Home u p a → Apart E u p a v) ∧ (Home v p a → Apart E v p a u))
    (r : Bytes) (v : URL) (h : (r, v) ∈ (Export.start E us).registered) :
    ∃ u ∈ us, ∃ p a i q, Exportable E u p a i ∧ reached (Export.start E us) a v.path = some q ∧ q.impl = i ∧
      v.protocol = p ∧ v.port = portOf a ∧ v.group = u.group := by
  obtain ⟨u, hu, i, regs, id, ru, hi, ⟨p, n, hsh, hat⟩, _⟩ := export_registered_only E us r v h
  rcases hall u hu with hn | ⟨p', a, i', hex⟩
  · exact absurd hi (hn i)
  · obtain ⟨pre, post, rfl⟩ := List.append_of_mem hu
    obtain ⟨q, hq, hqi, _⟩ := export_served E pre post u p' a i' hex (by
      intro w hw
      rw [List.pairwise_append, List.pairwise_cons] at hsep
      rcases List.mem_append.mp hw with hw | hw
      · exact (hsep.2.2 w hw u (List.mem_cons_self) p' a).2 hex.home
      · exact (hsep.2.1.1 w hw p' a).1 hex.home)
    obtain ⟨e1, e2⟩ := hat p' a hex.home
    exact ⟨u, hu, p', a, i', q, hex, by rw [hsh.path]; exact hq, hqi, by rw [hsh.protocol, e1], by rw [hsh.port, e2], hsh.group⟩

/-! ### The implementations -/

/-- A call that hands over this object under this name: the one given, or that of its type. -/
def Spec.Hands (c : Export.Arg × Bytes) (name : Bytes) (impl : Nat) : Prop :=
  ∃ t, c.1 = .pointer t impl ∧ ((c.2 ≠ [] ∧ c.2 = name) ∨ (c.2 = [] ∧ t = name))

/-- Some configured service refers to this name. -/
def Spec.Referred (us : List URL) (name : Bytes) : Prop := ∃ u ∈ us, u.param b!"ref" = some name

theorem referred_iff (us : List URL) {name : Bytes} (hn : name ≠ []) :
    (us.any fun u => u.params ≠ none ∧ (u.param b!"ref").getD [] = name) = true ↔ Spec.Referred us name := by
  simp only [List.any_eq_true, decide_eq_true_eq, Spec.Referred]
  refine exists_congr fun u => and_congr_right fun _ => ⟨fun h => ?_, fun h => ⟨fun e => ?_, by rw [h]; rfl⟩⟩
  · cases hp : u.param b!"ref" with
    | none => rw [hp] at h; exact absurd h.2.symm hn
    | some x => rw [hp] at h; exact congrArg some h.2
  · rw [URL.param, e] at h; cases h

theorem hands_iff {t sid name : Bytes} {i impl : Nat} :
    Spec.Hands (.pointer t i, sid) name impl ↔ (if sid = [] then t else sid) = name ∧ i = impl := by
  simp only [Spec.Hands, Export.Arg.pointer.injEq]
  constructor
  · rintro ⟨t', ⟨rfl, rfl⟩, ⟨h1, h2⟩ | ⟨h1, h2⟩⟩
    · exact ⟨by rw [if_neg h1, h2], rfl⟩
    · exact ⟨by rw [if_pos h1, h2], rfl⟩
  · rintro ⟨h, rfl⟩
    split at h
    · rename_i e; exact ⟨t, ⟨rfl, rfl⟩, .inr ⟨e, h⟩⟩
    · rename_i e; exact ⟨t, ⟨rfl, rfl⟩, .inl ⟨e, h⟩⟩

/-- One call: the name has its object if it hands one over and the name is referred to; else nothing changes for it. -/
theorem register_one (us : List URL) (m : AMap Bytes Nat) (c : Export.Arg × Bytes) {name : Bytes} (hn : name ≠ []) :
    (∀ impl, Spec.Hands c name impl → Spec.Referred us name →
      Export.registerService us m c.1 c.2 = (.ok, AMap.store m name impl)) ∧
    (∀ impl, Spec.Hands c name impl → ¬ Spec.Referred us name → Export.registerService us m c.1 c.2 = (.refused, m)) ∧
    ((∀ impl, ¬ Spec.Hands c name impl) → AMap.load (Export.registerService us m c.1 c.2).2 name = AMap.load m name) := by
  obtain ⟨a, sid⟩ := c
  cases a with
  | nothing => exact ⟨fun i h => (by obtain ⟨t, h, _⟩ := h; cases h), fun i h => (by obtain ⟨t, h, _⟩ := h; cases h), fun _ => rfl⟩
  | value => exact ⟨fun i h => (by obtain ⟨t, h, _⟩ := h; cases h), fun i h => (by obtain ⟨t, h, _⟩ := h; cases h), fun _ => rfl⟩
  | nilPointer => exact ⟨fun i h => (by obtain ⟨t, h, _⟩ := h; cases h), fun i h => (by obtain ⟨t, h, _⟩ := h; cases h), fun _ => rfl⟩
  | pointer t i =>
    refine ⟨fun impl h hr => ?_, fun impl h hr => ?_, fun h => ?_⟩
    · obtain ⟨e, rfl⟩ := hands_iff.mp h
      simp only [Export.registerService, e]
      rw [if_pos ((referred_iff us hn).mpr hr)]
    · obtain ⟨e, rfl⟩ := hands_iff.mp h
      simp only [Export.registerService, e]
      rw [if_neg fun e => hr ((referred_iff us hn).mp e)]
    · simp only [Export.registerService]
      have hne : (if sid = [] then t else sid) ≠ name := fun e => h i (hands_iff.mpr ⟨e, rfl⟩)
      generalize (if sid = [] then t else sid) = ref at hne ⊢
      split
      · rw [AMap.load_store_ne _ _ hne]
      · rfl

/-- **C70 (the implementations).** Take any calls of `RegisterService` and any name. The object found under the name is
the last one that was handed over under it, by the name given or by that of its type. If no configured service refers
to the name there is none, and such a call is refused; so is one with no pointer. -/
theorem register_service (us : List URL) (calls : List (Export.Arg × Bytes)) (name : Bytes) (hn : name ≠ []) (impl : Nat) :
    (AMap.load (Export.registerAll us [] calls) name = some impl ↔
      Spec.Referred us name ∧ ∃ pre c post, calls = pre ++ c :: post ∧ Spec.Hands c name impl ∧
        ∀ c' ∈ post, ∀ j, ¬ Spec.Hands c' name j) ∧
    (∀ m c, Spec.Hands c name impl → (Export.registerService us m c.1 c.2).1 =
      if (us.any fun u => u.param b!"ref" = some name) then .ok else .refused) ∧
    ∀ m sid, Export.registerService us m .nothing sid = (.refused, m) ∧ Export.registerService us m .value sid = (.refused, m) := by
  refine ⟨?_, fun m c h => ?_, fun m sid => ⟨rfl, rfl⟩⟩
  · have key : ∀ calls : List (Export.Arg × Bytes), AMap.load (Export.registerAll us [] calls.reverse) name = some impl ↔
        Spec.Referred us name ∧ ∃ pre c post, calls.reverse = pre ++ c :: post ∧ Spec.Hands c name impl ∧
        ∀ c' ∈ post, ∀ j, ¬ Spec.Hands c' name j := by
      intro calls
      induction calls with
      | nil => simp [Export.registerAll]
      | cons c calls ih =>
        rw [List.reverse_cons]
        have hr : Export.registerAll us [] (calls.reverse ++ [c]) =
            (Export.registerService us (Export.registerAll us [] calls.reverse) c.1 c.2).2 := by simp [Export.registerAll]
        obtain ⟨h1, h2, h3⟩ := register_one us (Export.registerAll us [] calls.reverse) c hn
        rw [hr]
        by_cases hh : ∃ i, Spec.Hands c name i
        · obtain ⟨i, hi⟩ := hh
          have hfun : ∀ j, Spec.Hands c name j → j = i := by
            intro j hj
            obtain ⟨t, e, _⟩ := hi
            obtain ⟨t', e', _⟩ := hj
            rw [e] at e'; cases e'; rfl
          by_cases href : Spec.Referred us name
          · rw [h1 i hi href]
            simp only [AMap.load_store_self, Option.some.injEq]
            constructor
            · rintro rfl
              exact ⟨href, calls.reverse, c, [], rfl, hi, by simp⟩
            · rintro ⟨_, pre, c', post, e, hc', hpost⟩
              rcases List.eq_nil_or_concat post with rfl | ⟨post', d, rfl⟩
              · obtain ⟨_, e⟩ := List.append_inj' e rfl
                cases e; exact (hfun _ hc').symm
              · rw [show pre ++ c' :: (post'.concat d) = (pre ++ c' :: post') ++ [d] by simp] at e
                obtain ⟨_, e⟩ := List.append_inj' e rfl
                cases e; exact absurd hi (hpost c (by simp) i)
          · rw [h2 i hi href]
            constructor
            · intro h; exact absurd (ih.mp h).1 href
            · intro h; exact absurd h.1 href
        · have hno : ∀ i, ¬ Spec.Hands c name i := fun i hi => hh ⟨i, hi⟩
          rw [h3 hno, ih]
          refine and_congr_right fun _ => ⟨?_, ?_⟩
          · rintro ⟨pre, c', post, e, hc', hpost⟩
            refine ⟨pre, c', post ++ [c], by rw [e]; simp, hc', ?_⟩
            intro d hd j
            rcases List.mem_append.mp hd with hd | hd
            · exact hpost d hd j
            · simp at hd; subst hd; exact hno j
          · rintro ⟨pre, c', post, e, hc', hpost⟩
            rcases List.eq_nil_or_concat post with rfl | ⟨post', d, rfl⟩
            · obtain ⟨_, e⟩ := List.append_inj' e rfl
              cases e; exact absurd hc' (hno impl)
            · rw [show pre ++ c' :: (post'.concat d) = (pre ++ c' :: post') ++ [d] by simp] at e
              obtain ⟨e, _⟩ := List.append_inj' e rfl
              exact ⟨pre, c', post', e, hc', fun x hx j => hpost x (by simp [hx]) j⟩
    simpa using key calls.reverse
  · have href : (us.any fun u => u.param b!"ref" = some name) = true ↔ Spec.Referred us name := by
      simp [List.any_eq_true, Spec.Referred]
    obtain ⟨h1, h2, _⟩ := register_one us m c hn
    by_cases hr : Spec.Referred us name
    · rw [h1 impl h hr, if_pos (href.mpr hr)]
    · rw [h2 impl h hr, if_neg fun e => hr (href.mp e)]

/-- **C70 fails** for a nil pointer: `RegisterService` panics instead of returning an error. -/
theorem register_nil_violated (us : List URL) (m : AMap Bytes Nat) (sid : Bytes) :
    (Export.registerService us m .nilPointer sid).1 = .panics := rfl

/-! ### A concrete server -/

/-- A type's name and a given name; one object takes the place of another; one is not configured. -/
example : Export.registerAll [{ params := some [(b!"ref", b!"main.Hello")] }, { params := some [(b!"ref", b!"x")] }] []
    [(.pointer b!"main.Hello" 1, []), (.pointer b!"main.Hello" 2, b!"x"), (.value, b!"x"), (.pointer b!"main.Other" 3, []),
      (.pointer b!"main.Other" 4, b!"x")] = [(b!"main.Hello", 1), (b!"x", 4)] := by decide +kernel

/-- Three implementations, one registry. -/
def expEnv (free : Addr → Bool) : Export.Env where
  impls := [(b!"a", 1), (b!"b", 2), (b!"c", 3)]
  providers := [b!"default", b!"http"]
  servers := [b!"motan2", b!"motan"]
  registryTypes := [b!"direct"]
  registryURLs := [(b!"r", { protocol := b!"direct", host := b!"h", port := 1 })]
  localIP := b!"ip"
  free := free

/-- A service. -/
def expSvc (path ref : Bytes) (params : AMap Bytes Bytes) : URL :=
  { path := path, group := b!"g", params := some ((b!"ref", ref) :: (b!"registry", b!"r, x") :: params) }

/-- One on a port. -/
def expA : URL := expSvc b!"A" b!"a" [(b!"export", b!"motan2:8002")]
/-- One more on the same port. -/
def expB : URL := expSvc b!"B" b!"b" [(b!"export", b!"8002")]
/-- One on a Unix socket. -/
def expC : URL := expSvc b!"C" b!"c" [(b!"unixSock", b!"/s")]
/-- One with a broken port. -/
def expD : URL := expSvc b!"A" b!"a" [(b!"export", b!"motan2:x")]

theorem expA_home : Home expA b!"motan2" (.tcp [] 8002) := by
  refine .tcp _ 8002 ?_ (by decide) (by decide +kernel) (by decide +kernel) (by decide +kernel)
  rw [show getParam expA b!"export" [] = b!"motan2" ++ b!":" ++ natDigits 8002 by decide +kernel]
  exact .both _ _ (by decide) (by decide) (by decide)

theorem expB_home : Home expB b!"motan2" (.tcp [] 8002) := by
  refine .tcp _ 8002 ?_ (by decide) (by decide +kernel) (by decide +kernel) (by decide +kernel)
  rw [show getParam expB b!"export" [] = natDigits 8002 by decide +kernel]
  exact .port _

theorem expC_home : Home expC b!"motan2" (.unix b!"/s") := by
  refine .unix _ 9982 _ ?_ (by decide +kernel) (by decide +kernel) (by decide) ?_
  · rw [show getParam expC b!"export" [] = [] by decide +kernel]; exact .absent
  · intro n e
    have := natDigits_digit n 47 (by rw [← e]; decide)
    revert this; decide

theorem expA_apart : ∀ v ∈ [expC] ++ [expB, expD], Apart (expEnv fun _ => true) expA b!"motan2" (.tcp [] 8002) v := by
  intro v hv
  simp only [List.cons_append, List.nil_append, List.mem_cons, List.not_mem_nil, or_false] at hv
  rcases hv with rfl | rfl | rfl
  · exact .elsewhere _ _ expC_home (by decide)
  · exact .shared expB_home (by decide +kernel) (by decide)
  · refine .noPort ?_ (by decide +kernel) (by decide +kernel)
    rw [show getParam expD b!"export" [] = b!"motan2" ++ b!":" ++ b!"x" by decide +kernel]
    exact .both _ _ (by decide) (by decide) (by decide) (by decide) (by decide) (by decide) (by decide +kernel)

theorem expA_exportable : Exportable (expEnv fun _ => true) expA b!"motan2" (.tcp [] 8002) 1 where
  impl := by unfold Implemented; decide +kernel
  home := expA_home
  provider := .plain (by decide +kernel) (by decide +kernel) (by decide)
  server := by decide
  free := rfl

/-- The hypotheses of `export_served` and `export_registered` are met by a service among three others, one of them
broken, one on the same port. -/
example : ∃ q, reached (Export.start (expEnv fun _ => true) ([expC] ++ expA :: [expB, expD])) (.tcp [] 8002) b!"A" = some q ∧
    q.impl = 1 ∧ Shows (expEnv fun _ => true) expA b!"motan2" 8002 q.url :=
  export_served _ [expC] [expB, expD] expA _ _ 1 expA_exportable expA_apart

example : ∃ v, (b!"direct://h:1/?group=&address=", v) ∈
      (Export.start (expEnv fun _ => true) ([expC] ++ expA :: [expB, expD])).registered ∧
    Shows (expEnv fun _ => true) expA b!"motan2" 8002 v ∧ v.param b!"nodeType" = some b!"service" := by
  have := export_registered _ [expC] [expB, expD] expA _ _ 1 expA_exportable expA_apart b!"r, x" b!"r"
    { protocol := b!"direct", host := b!"h", port := 1 } (by decide +kernel) ⟨b!"r", by decide +kernel, by decide +kernel⟩
    (by decide) (by decide +kernel) (by decide)
  rwa [show (getIdentity { protocol := b!"direct", host := b!"h", port := 1 }).1 = b!"direct://h:1/?group=&address=" by
    decide +kernel] at this

/-- The hypotheses of `export_callable` are met by two services. -/
example (r : Bytes) (v : URL) (h : (r, v) ∈ (Export.start (expEnv fun _ => true) [expA, expB]).registered) :
    ∃ u ∈ [expA, expB], ∃ p a i q, Exportable (expEnv fun _ => true) u p a i ∧
      reached (Export.start (expEnv fun _ => true) [expA, expB]) a v.path = some q ∧ q.impl = i ∧ v.protocol = p ∧
      v.port = portOf a ∧ v.group = u.group := by
  refine export_callable _ _ ?_ ?_ r v h
  · intro u hu
    simp only [List.mem_cons, List.not_mem_nil, or_false] at hu
    rcases hu with rfl | rfl
    · exact .inr ⟨_, _, _, expA_exportable⟩
    · exact .inr ⟨_, _, 2, ⟨by unfold Implemented; decide +kernel, expB_home,
        .plain (by decide +kernel) (by decide +kernel) (by decide), by decide, rfl⟩⟩
  · have ax : ∀ {p a}, Home expA p a → a = .tcp [] 8002 ∧ p = b!"motan2" := by
      intro p a h
      obtain ⟨t, e1, e2⟩ := home_key h
      obtain ⟨t', e1', e2'⟩ := home_key expA_home
      rw [e1] at e1'; cases e1'
      rw [e2] at e2'
      exact ⟨addrKey_inj h expA_home (by simpa using congrArg (Option.map Prod.snd) e2'), rfl⟩
    have bx : ∀ {p a}, Home expB p a → a = .tcp [] 8002 ∧ p = b!"motan2" := by
      intro p a h
      obtain ⟨t, e1, e2⟩ := home_key h
      obtain ⟨t', e1', e2'⟩ := home_key expB_home
      rw [e1] at e1'; cases e1'
      rw [e2] at e2'
      exact ⟨addrKey_inj h expB_home (by simpa using congrArg (Option.map Prod.snd) e2'), rfl⟩
    refine List.pairwise_cons.mpr ⟨?_, List.pairwise_cons.mpr ⟨(by simp), List.Pairwise.nil⟩⟩
    intro w hw p a
    rw [List.mem_singleton.mp hw]
    refine ⟨fun h => ?_, fun h => ?_⟩
    · obtain ⟨rfl, rfl⟩ := ax h; exact .shared expB_home (by decide +kernel) (by decide)
    · obtain ⟨rfl, rfl⟩ := bx h; exact .shared expA_home (by decide +kernel) (by decide)

/-! ### Where the property fails -/

/-- The ports at which services are registered, with their paths and groups. -/
def told (s : St) : List (Bytes × Bytes × Int) := s.registered.map fun x => (x.2.group, x.2.path, x.2.port)

/-- The port is taken by another process: nobody is served, and the service is registered all the same. -/
theorem export_busy_violated :
    told (Export.start (expEnv fun _ => false) [expA]) = [(b!"g", b!"A", 8002)] ∧
    (Export.start (expEnv fun _ => false) [expA]).bound = [] := by decide +kernel

/-- Two services on one port, one of them writing it with a leading zero: both are registered on that port, the second
is not served there. -/
theorem export_zero_violated :
    let s := Export.start (expEnv fun _ => true) [expA, expSvc b!"B" b!"b" [(b!"export", b!"08002")]]
    told s = [(b!"g", b!"A", 8002), (b!"g", b!"B", 8002)] ∧ (reached s (.tcp [] 8002) b!"A").isSome ∧
      reached s (.tcp [] 8002) b!"B" = none := by decide +kernel

/-- Two services of different groups with one path on one port: both are registered, the later one answers for both. -/
theorem export_path_violated :
    let s := Export.start (expEnv fun _ => true) [expA, { expSvc b!"A" b!"b" [(b!"export", b!"8002")] with group := b!"h" }]
    told s = [(b!"g", b!"A", 8002), (b!"h", b!"A", 8002)] ∧ (reached s (.tcp [] 8002) b!"A").map Prov.impl = some 2 := by
  decide +kernel

/-- A service in front of a process behind a Unix socket listens on some free port, and is registered with port 0. -/
theorem export_proxyHost_violated :
    let s := Export.start (expEnv fun _ => true) [expSvc b!"A" b!"a" [(b!"export", b!"8002"), (b!"proxy.host", b!"unix:///s")]]
    told s = [(b!"g", b!"A", 0)] ∧ s.bound = [] := by decide +kernel

/-- An export text of three parts is dropped without a word: the service is served on the default port. -/
theorem export_parts_violated :
    let s := Export.start (expEnv fun _ => true) [expSvc b!"A" b!"a" [(b!"export", b!"motan2:0.0.0.0:8002")]]
    told s = [(b!"g", b!"A", 9982)] ∧ (reached s (.tcp [] 9982) b!"A").isSome ∧ reached s (.tcp [] 8002) b!"A" = none := by
  decide +kernel

end Motan.Props
