import Verif.Model.Url
import Verif.Model.Routing

/-!
# C15–C18, C50: URLs
-/

namespace Motan.Props

open Motan.Url Motan.Strings

/-! ## Specification -/

/-- The integer a parameter string stands for, if any: what `strconv.ParseInt(v, 10, 64)` accepts. -/
def Spec.intOf (v : Option Bytes) : Option Int :=
  match v.map parseInt64 with
  | some (n, none) => some n
  | _ => none

/-- What a program can do with a URL through its methods. -/
inductive Spec.UrlOp
  | getInt (k : Bytes)
  | getMethodInt (m d k : Bytes) (dflt : Int)
  | getIdentity
  | getAddress
  | getPort
  | toExtInfo
  | put (k v : Bytes)
  | clear

/-- Doing it. -/
def Spec.UrlOp.run (u : URL) : Spec.UrlOp → URL
  | .getInt k => (Url.getInt u k).2
  | .getMethodInt m d k dflt => (Url.getMethodIntValue u m d k dflt).2
  | .getIdentity => (Url.getIdentity u).2
  | .getAddress => (Url.getAddressStr u).2
  | .getPort => (Url.getPortStr u).2
  | .toExtInfo => (Url.toExtInfo u).2
  | .put k v => Url.putParam u k v
  | .clear => Url.clearCachedInfo u

/-- A history of operations. -/
def Spec.runAll (u : URL) (h : List Spec.UrlOp) : URL := h.foldl Spec.UrlOp.run u

/-- The current value of a parameter after a history, from the history alone: the last one put, or the initial
one. -/
def Spec.current (init : Option Bytes) (k : Bytes) : List Spec.UrlOp → Option Bytes
  | [] => init
  | .put k' v :: h => Spec.current (if k' = k then some v else init) k h
  | _ :: h => Spec.current init k h

/-- A URL as it is built: nothing cached. -/
def Spec.Fresh (u : URL) : Prop :=
  u.addressC = none ∧ u.portStrC = none ∧ u.identityC = none ∧ u.hasMethodC = none ∧ u.intC = []

/-! ## C15: ext-info -/

/-- The characters with a meaning in ext-info are absent where they would be misread. -/
structure Spec.Clean (u : URL) : Prop where
  protocol : (58 : UInt8) ∉ u.protocol ∧ (63 : UInt8) ∉ u.protocol
  host : (58 : UInt8) ∉ u.host ∧ (47 : UInt8) ∉ u.host ∧ (63 : UInt8) ∉ u.host
  path : (47 : UInt8) ∉ u.path ∧ (63 : UInt8) ∉ u.path
  group : (63 : UInt8) ∉ u.group ∧ (38 : UInt8) ∉ u.group ∧ (61 : UInt8) ∉ u.group
  key : ∀ k v, u.param k = some v → k ≠ b!"group" ∧ (63 : UInt8) ∉ k ∧ (38 : UInt8) ∉ k ∧ (61 : UInt8) ∉ k
  value : ∀ k v, u.param k = some v → (63 : UInt8) ∉ v ∧ (38 : UInt8) ∉ v ∧ (61 : UInt8) ∉ v
  port : -2 ^ 63 ≤ u.port ∧ u.port < 2 ^ 63

/-- The piece of ext-info for one parameter. -/
def piece (p : Bytes × Bytes) : Bytes := p.1 ++ b!"=" ++ p.2

theorem pieces_join (a : Bytes) (ps : List (Bytes × Bytes)) :
    a ++ ps.flatMap (fun p => b!"&" ++ p.1 ++ b!"=" ++ p.2) = join [38] (a :: ps.map piece) := by
  induction ps generalizing a with
  | nil => simp [join]
  | cons p ps ih =>
    rw [List.flatMap_cons, List.map_cons, join, ← ih]
    simp [piece]

theorem parseParams_pieces (ps : List (Bytes × Bytes))
    (h : ∀ p ∈ ps, (61 : UInt8) ∉ p.1 ∧ (61 : UInt8) ∉ p.2) (m : AMap Bytes Bytes) :
    (ps.map piece).foldl (fun m p => match split b!"=" p with
      | [k, v] => AMap.store m k v
      | _ => m) m = AMap.storeAll m ps := by
  induction ps generalizing m with
  | nil => rfl
  | cons p ps ih =>
    have hp := h p (by simp)
    have : split b!"=" (piece p) = [p.1, p.2] := by
      rw [piece, split_cons hp.1, split_single hp.2]
    rw [List.map_cons, List.foldl_cons, this, ih fun q hq => h q (by simp [hq])]
    rfl

theorem not_mem_formatInt {c : UInt8} (n : Int) (h : c ≠ 45) (h' : c < 48 ∨ 57 < c) : c ∉ formatInt n := by
  intro hc
  rcases formatInt_mem n c hc with e | ⟨h1, h2⟩
  · exact h e
  · rw [UInt8.le_iff_toNat_le] at h1 h2
    simp only [UInt8.lt_iff_toNat_lt] at h'
    omega

theorem getPortStr_fields (u : URL) :
    (getPortStr u).2 = { u with portStrC := (getPortStr u).2.portStrC } := by
  rw [getPortStr]; split <;> simp

theorem getPortStr_fresh (u : URL) (h : u.portStrC = none ∨ u.portStrC = some (formatInt u.port)) :
    (getPortStr u).1 = formatInt u.port := by
  rw [getPortStr]
  rcases h with h | h <;> simp [h]

/-- The parameters in key order. -/
def sorted (u : URL) : List (Bytes × Bytes) :=
  (sort (u.params.getD []).keys).map fun k => (k, (u.param k).getD [])

theorem toExtInfo_eq (u : URL) (h : u.portStrC = none ∨ u.portStrC = some (formatInt u.port)) :
    (toExtInfo u).1 = (u.protocol ++ b!"://" ++ (u.host ++ b!":" ++ formatInt u.port ++ b!"/" ++ u.path)) ++ b!"?" ++
      join [38] (((b!"group", u.group) :: sorted u).map piece) := by
  have hp := getPortStr_fresh u h
  have hf := getPortStr_fields u
  rw [toExtInfo]
  generalize hg : getPortStr u = g at hp hf
  obtain ⟨ps, u1⟩ := g
  simp only at hp hf ⊢
  subst hp
  rw [hf]
  show _ = _ ++ join [38] (piece (b!"group", u.group) :: (sorted u).map piece)
  rw [← pieces_join, sorted, List.flatMap_map]
  simp [piece, URL.param]

theorem mem_sorted {u : URL} {p : Bytes × Bytes} (h : p ∈ sorted u) : u.param p.1 = some p.2 := by
  rw [sorted, List.mem_map] at h
  obtain ⟨k, hk, rfl⟩ := h
  have hk' := (sort_perm _).mem_iff.mp hk
  show u.param k = some ((u.param k).getD [])
  cases hm : u.params with
  | none => rw [hm] at hk'; simp [AMap.keys] at hk'
  | some m =>
    rw [hm] at hk'
    have := AMap.load_isSome.mpr hk'
    obtain ⟨v, hv⟩ := Option.isSome_iff_exists.mp this
    have : u.param k = some v := by rw [URL.param, hm]; exact hv
    rw [this]; rfl

theorem sorted_nodup {u : URL} (h : ∀ m, u.params = some m → m.NodupKeys) :
    AMap.NodupKeys (sorted u) := by
  unfold AMap.NodupKeys
  have : AMap.keys (sorted u) = sort (u.params.getD []).keys := by
    simp [AMap.keys, sorted, Function.comp_def]
  rw [this, (sort_perm _).nodup_iff]
  cases hm : u.params with
  | none => exact .nil
  | some m => exact h m hm

theorem load_sorted {u : URL} (h : ∀ m, u.params = some m → m.NodupKeys) (k : Bytes) :
    AMap.load (sorted u) k = u.param k := by
  cases hk : u.param k with
  | none =>
    rw [AMap.load_eq_none]
    intro hm
    rw [AMap.keys, List.mem_map] at hm
    obtain ⟨p, hp, rfl⟩ := hm
    rw [mem_sorted hp] at hk
    cases hk
  | some v =>
    apply AMap.load_of_mem (sorted_nodup h)
    rw [sorted, List.mem_map]
    refine ⟨k, (sort_perm _).mem_iff.mpr ?_, by rw [hk]; rfl⟩
    cases hm : u.params with
    | none => rw [URL.param, hm] at hk; cases hk
    | some m =>
      rw [URL.param, hm] at hk
      exact AMap.load_isSome.mp (Option.isSome_iff_exists.mpr ⟨v, hk⟩)

theorem not_mem_join {c x : UInt8} (hx : c ≠ x) (l : List Bytes) (h : ∀ p ∈ l, c ∉ p) : c ∉ join [x] l := by
  induction l with
  | nil => simp [join]
  | cons a r ih =>
    cases r with
    | nil => rw [join]; exact h a (by simp)
    | cons b r =>
      rw [join]
      simp only [List.mem_append, List.mem_singleton, not_or]
      exact ⟨⟨h a (by simp), hx⟩, ih fun p hp => h p (by simp [hp])⟩

/-- C15, round-trip: a clean URL is recovered from its ext-info. -/
theorem extinfo_roundtrip (u : URL) (hc : Spec.Clean u) (hm : ∀ m, u.params = some m → m.NodupKeys)
    (hport : u.portStrC = none ∨ u.portStrC = some (formatInt u.port)) :
    ∃ v, fromExtInfo (toExtInfo u).1 = some v ∧ v.protocol = u.protocol ∧ v.host = u.host ∧ v.port = u.port ∧
      v.path = u.path ∧ v.group = u.group ∧ (∀ k, v.param k = u.param k) ∧ Spec.Fresh v := by
  rw [toExtInfo_eq u hport]
  generalize hq : join [38] (((b!"group", u.group) :: sorted u).map piece) = q
  have hpc : ∀ p ∈ (b!"group", u.group) :: sorted u,
      (61 : UInt8) ∉ p.1 ∧ (61 : UInt8) ∉ p.2 ∧ (38 : UInt8) ∉ p.1 ∧ (38 : UInt8) ∉ p.2 ∧
        (63 : UInt8) ∉ p.1 ∧ (63 : UInt8) ∉ p.2 := by
    intro p hp
    rcases List.mem_cons.mp hp with rfl | hp
    · exact ⟨(by decide : (61 : UInt8) ∉ b!"group"), hc.group.2.2, (by decide : (38 : UInt8) ∉ b!"group"), hc.group.2.1,
        (by decide : (63 : UInt8) ∉ b!"group"), hc.group.1⟩
    · have := mem_sorted hp
      have h1 := hc.key _ _ this
      have h2 := hc.value _ _ this
      exact ⟨h1.2.2.2, h2.2.2, h1.2.2.1, h2.2.1, h1.2.1, h2.1⟩
  have hq63 : (63 : UInt8) ∉ q := by
    rw [← hq]
    refine not_mem_join (by decide) _ fun p hp => ?_
    obtain ⟨p', hp', rfl⟩ := List.mem_map.mp hp
    have := hpc p' hp'
    simp only [piece, List.mem_append, List.mem_singleton, not_or]
    exact ⟨⟨this.2.2.2.2.1, by decide⟩, this.2.2.2.2.2⟩
  have hq38 : split b!"&" q = ((b!"group", u.group) :: sorted u).map piece := by
    rw [← hq]
    refine split_join _ (by simp) fun p hp => ?_
    obtain ⟨p', hp', rfl⟩ := List.mem_map.mp hp
    have := hpc p' hp'
    simp only [piece, List.mem_append, List.mem_singleton, not_or]
    exact ⟨⟨this.2.2.1, by decide⟩, this.2.2.2.1⟩
  have hpar : parseParams (split b!"&" q) = AMap.storeAll [] ((b!"group", u.group) :: sorted u) := by
    rw [hq38, parseParams]
    exact parseParams_pieces _ (fun p hp => ⟨(hpc p hp).1, (hpc p hp).2.1⟩) []
  generalize hrest : u.host ++ b!":" ++ formatInt u.port ++ b!"/" ++ u.path = rest
  have hs1 : split b!"?" (u.protocol ++ b!"://" ++ rest ++ b!"?" ++ q) = [u.protocol ++ b!"://" ++ rest, q] := by
    rw [split_cons, split_single hq63]
    rw [← hrest]
    simp only [List.mem_append, not_or]
    exact ⟨⟨hc.protocol.2, by decide⟩, ⟨⟨⟨hc.host.2.2, by decide⟩, not_mem_formatInt _ (by decide) (by decide)⟩,
      by decide⟩, hc.path.2⟩
  have hs2 : split b!"://" (u.protocol ++ b!"://" ++ rest) = [u.protocol, rest] := by
    rw [split_cons hc.protocol.1, split_none (by simp)]
    cases hi : index b!"://" rest with
    | none => rfl
    | some i =>
      exfalso
      obtain ⟨a, b, e, _⟩ := index_spec hi
      have h1 : List.count 47 rest = 1 := by
        rw [← hrest]
        simp [List.count_append, List.count_eq_zero_of_not_mem hc.host.2.1,
          List.count_eq_zero_of_not_mem hc.path.1,
          List.count_eq_zero_of_not_mem (not_mem_formatInt (c := 47) u.port (by decide) (by decide))]
      rw [e] at h1
      simp [List.count_append] at h1
      omega
  have hs3 : split b!"/" rest = [u.host ++ b!":" ++ formatInt u.port, u.path] := by
    rw [← hrest, split_cons, split_single hc.path.1]
    simp only [List.mem_append, not_or]
    exact ⟨⟨hc.host.2.1, by decide⟩, not_mem_formatInt _ (by decide) (by decide)⟩
  have hs4 : split b!":" (u.host ++ b!":" ++ formatInt u.port) = [u.host, formatInt u.port] := by
    rw [split_cons hc.host.1, split_single (not_mem_formatInt _ (by decide) (by decide))]
  have hnd : AMap.NodupKeys ((b!"group", u.group) :: sorted u) := by
    refine List.nodup_cons.mpr ⟨?_, sorted_nodup hm⟩
    intro h
    obtain ⟨p, hp, he⟩ := List.mem_map.mp h
    exact (hc.key _ _ (mem_sorted hp)).1 he
  have hload : ∀ k, AMap.load (AMap.storeAll [] ((b!"group", u.group) :: sorted u)) k =
      if b!"group" = k then some u.group else u.param k := by
    intro k
    rw [AMap.load_storeAll [] _ hnd, AMap.load_cons, load_sorted hm]
    by_cases hk : b!"group" = k
    · rw [if_pos hk]
    · rw [if_neg hk]; cases u.param k <;> rfl
  let pm := parseParams (split b!"&" q)
  let v : URL :=
    { protocol := u.protocol, host := u.host, port := (parseInt64 (formatInt u.port)).1, path := u.path,
      group := (AMap.load pm b!"group").getD [], params := some (AMap.erase pm b!"group") }
  refine ⟨v, ?_, rfl, rfl, ?_, rfl, ?_, ?_,
    rfl, rfl, rfl, rfl, rfl⟩
  · rw [fromExtInfo, hs1]; simp only [List.headD_cons]
    rw [hs2]; simp only [List.headD_cons, List.getElem?_cons_succ, List.getElem?_cons_zero]
    rw [hs3]; simp only [List.headD_cons, List.getElem?_cons_succ, List.getElem?_cons_zero]
    rw [hs4]; simp only [List.headD_cons, List.getElem?_cons_succ, List.getElem?_cons_zero]
    rfl
  · exact congrArg Prod.fst (parseInt64_formatInt u.port hc.port.1 hc.port.2)
  · show (AMap.load (parseParams (split b!"&" q)) b!"group").getD [] = u.group
    rw [hpar, hload, if_pos rfl]; rfl
  · intro k
    show AMap.load (AMap.erase (parseParams (split b!"&" q)) b!"group") k = _
    rw [hpar, AMap.load_erase, hload]
    by_cases hk : b!"group" = k
    · rw [if_pos hk]
      cases hp : u.param k with
      | none => rfl
      | some v => exact absurd hk.symm (hc.key _ _ hp).1
    · rw [if_neg hk, if_neg hk]

/-- C15, order independence: two URLs with equal fields and the same parameters, listed in any order, have the same
ext-info. -/
theorem extinfo_order_independent (u v : URL) (h1 : u.protocol = v.protocol) (h2 : u.host = v.host)
    (h3 : u.port = v.port) (h4 : u.path = v.path) (h5 : u.group = v.group) (mu mv : AMap Bytes Bytes)
    (hmu : u.params = some mu) (hmv : v.params = some mv) (hn : mu.NodupKeys) (hperm : mu.Perm mv)
    (hpu : u.portStrC = none ∨ u.portStrC = some (formatInt u.port))
    (hpv : v.portStrC = none ∨ v.portStrC = some (formatInt v.port)) :
    (toExtInfo u).1 = (toExtInfo v).1 := by
  have hn' : mv.NodupKeys := (hperm.map Prod.fst).nodup_iff.mp hn
  have hpar : ∀ k, u.param k = v.param k := by
    intro k
    rw [URL.param, URL.param, hmu, hmv]
    show AMap.load mu k = AMap.load mv k
    apply Option.ext
    intro x
    rw [← AMap.mem_iff_load hn, ← AMap.mem_iff_load hn', hperm.mem_iff]
  rw [toExtInfo_eq u hpu, toExtInfo_eq v hpv, h1, h2, h3, h4, h5, sorted, sorted, hmu, hmv]
  have : sort (Option.getD (some mu) []).keys = sort (Option.getD (some mv) []).keys :=
    sort_unique (hperm.map Prod.fst)
  rw [this]
  simp only [hpar]

/-- A URL as a user writes it. -/
def exUrl : URL :=
  { protocol := b!"motan2", host := b!"10.0.0.1", port := 8001, path := b!"com.weibo.User", group := b!"web",
    params := some [(b!"requestTimeout", b!"1000"), (b!"filter", b!"metrics,accessLog"),
      (b!"get(int).requestTimeout", b!"200")] }

theorem exUrl_param {k v : Bytes} (h : exUrl.param k = some v) :
    (k, v) ∈ [(b!"requestTimeout", b!"1000"), (b!"filter", b!"metrics,accessLog"),
      (b!"get(int).requestTimeout", b!"200")] := AMap.mem_of_load h

/-- Non-vacuity of C15: the URL above is clean. -/
example : Spec.Clean exUrl ∧ (∀ m, exUrl.params = some m → m.NodupKeys) ∧ exUrl.portStrC = none := by
  refine ⟨⟨by decide, by decide, by decide, by decide, fun k v h => ?_, fun k v h => ?_, by decide⟩, ?_, rfl⟩
  · have := exUrl_param h
    simp only [List.mem_cons, Prod.mk.injEq, List.not_mem_nil, or_false] at this
    rcases this with ⟨rfl, _⟩ | ⟨rfl, _⟩ | ⟨rfl, _⟩ <;> decide
  · have := exUrl_param h
    simp only [List.mem_cons, Prod.mk.injEq, List.not_mem_nil, or_false] at this
    rcases this with ⟨_, rfl⟩ | ⟨_, rfl⟩ | ⟨_, rfl⟩ <;> decide
  · intro m h
    cases h
    show List.Nodup _
    decide

example : (toExtInfo exUrl).1 =
    b!"motan2://10.0.0.1:8001/com.weibo.User?group=web&filter=metrics,accessLog&get(int).requestTimeout=200&requestTimeout=1000" := by
  decide +kernel

/-- C15, exhibited limit: a path with a slash is cut at the slash. -/
theorem extinfo_path_slash_counterexample :
    ((fromExtInfo (toExtInfo { exUrl with path := b!"a/b" }).1).map (·.path)) = some b!"a" := by decide +kernel

/-- C15, exhibited limit: a parameter whose value has an equals sign is lost. -/
theorem extinfo_equals_counterexample :
    ((fromExtInfo (toExtInfo { exUrl with params := some [(b!"k", b!"a=b")] }).1).map (·.params)) = some (some []) := by
  decide +kernel

/-! ## C16, C17, C50: caches -/

/-- The identity string of a URL, from its fields. -/
def Spec.identity (u : URL) : Bytes :=
  u.protocol ++ b!"://" ++ u.host ++ b!":" ++ formatInt u.port ++ b!"/" ++ u.path ++ b!"?group=" ++ u.group ++
    if u.protocol = b!"direct" then b!"&address=" ++ (u.param b!"address").getD [] else []

/-- The address string of a URL, from its fields. -/
def Spec.address (u : URL) : Bytes :=
  if b!"unix://" <+: u.host then u.host else u.host ++ b!":" ++ formatInt u.port

/-- Everything cached agrees with the fields and parameters. -/
structure Coherent (u : URL) : Prop where
  int : ∀ k c, AMap.load u.intC k = some c →
    c = match Spec.intOf (u.param k) with | some n => .value n | none => .miss
  method : u.hasMethodC = some false → ∀ k, (u.param k).isSome → contains k b!")." = false
  port : u.portStrC = none ∨ u.portStrC = some (formatInt u.port)
  address : u.addressC = none ∨ u.addressC = some (Spec.address u)
  identity : u.protocol ≠ b!"direct" → u.identityC = none ∨ u.identityC = some (Spec.identity u)

/-- The fields other than caches are the same. -/
structure SameFields (u v : URL) : Prop where
  protocol : u.protocol = v.protocol
  host : u.host = v.host
  port : u.port = v.port
  path : u.path = v.path
  group : u.group = v.group
  params : u.params = v.params

theorem SameFields.param {u v : URL} (h : SameFields u v) (k : Bytes) : u.param k = v.param k := by
  rw [URL.param, URL.param, h.params]

theorem SameFields.trans {u v w : URL} (h : SameFields u v) (h' : SameFields v w) : SameFields u w :=
  ⟨h.protocol.trans h'.protocol, h.host.trans h'.host, h.port.trans h'.port, h.path.trans h'.path,
    h.group.trans h'.group, h.params.trans h'.params⟩

theorem coherent_fresh {u : URL} (h : Spec.Fresh u) : Coherent u := by
  obtain ⟨h1, h2, h3, h4, h5⟩ := h
  refine ⟨fun k c hc => ?_, fun hm => ?_, .inl h2, .inl h1, fun _ => .inl h3⟩
  · rw [h5] at hc; simp at hc
  · rw [h4] at hm; cases hm

theorem getInt_spec {u : URL} (hc : Coherent u) (k : Bytes) :
    (getInt u k).1 = Spec.intOf (u.param k) ∧ SameFields (getInt u k).2 u ∧ Coherent (getInt u k).2 := by
  have key : ∀ c, (c = match Spec.intOf (u.param k) with | some n => IntCache.value n | none => .miss) →
      Coherent { u with intC := AMap.store u.intC k c } := by
    intro c hk
    refine ⟨fun k' c' hl => ?_, hc.method, hc.port, hc.address, hc.identity⟩
    replace hl : AMap.load (AMap.store u.intC k c) k' = some c' := hl
    show c' = match Spec.intOf (u.param k') with | some n => IntCache.value n | none => .miss
    rw [AMap.load_store] at hl
    split at hl
    · rename_i e; subst e
      cases hl; exact hk
    · exact hc.int k' c' hl
  rw [getInt]
  split
  · rename_i h
    have := hc.int k _ h
    refine ⟨?_, ⟨rfl, rfl, rfl, rfl, rfl, rfl⟩, hc⟩
    revert this
    cases Spec.intOf (u.param k) <;> simp
  · rename_i n h
    have := hc.int k _ h
    refine ⟨?_, ⟨rfl, rfl, rfl, rfl, rfl, rfl⟩, hc⟩
    revert this
    cases Spec.intOf (u.param k) <;> simp
  · split
    · rename_i n hn
      have hi : Spec.intOf (u.param k) = some n := by rw [Spec.intOf, hn]
      exact ⟨hi.symm, ⟨rfl, rfl, rfl, rfl, rfl, rfl⟩, key _ (by rw [hi])⟩
    · rename_i hn
      have hi : Spec.intOf (u.param k) = none := by
        rw [Spec.intOf]; split
        · rename_i n h; exact absurd h (hn n)
        · rfl
      exact ⟨hi.symm, ⟨rfl, rfl, rfl, rfl, rfl, rfl⟩, key _ (by rw [hi])⟩

theorem hasMethodParams_spec {u : URL} (hc : Coherent u) :
    ((hasMethodParams u).1 = false → ∀ k, (u.param k).isSome → contains k b!")." = false) ∧
      SameFields (hasMethodParams u).2 u ∧ Coherent (hasMethodParams u).2 := by
  rw [hasMethodParams]
  split
  · rename_i b hb
    exact ⟨fun h => hc.method (by rw [hb]; exact congrArg some h), ⟨rfl, rfl, rfl, rfl, rfl, rfl⟩, hc⟩
  · split
    · exact ⟨fun h => by simp at h, ⟨rfl, rfl, rfl, rfl, rfl, rfl⟩,
        ⟨hc.int, fun h => by simp at h, hc.port, hc.address, hc.identity⟩⟩
    · rename_i hany
      have hno : ∀ k, (u.param k).isSome → contains k b!")." = false := by
        intro k hk
        cases hcon : contains k b!")." with
        | false => rfl
        | true =>
          refine absurd (List.any_eq_true.mpr ⟨k, ?_, hcon⟩) hany
          cases hm : u.params with
          | none => rw [URL.param, hm] at hk; cases hk
          | some m => rw [URL.param, hm] at hk; exact AMap.load_isSome.mp hk
      exact ⟨fun _ => hno, ⟨rfl, rfl, rfl, rfl, rfl, rfl⟩,
        ⟨hc.int, fun _ => hno, hc.port, hc.address, hc.identity⟩⟩

theorem getIntValue_spec {u : URL} (hc : Coherent u) (k : Bytes) (d : Int) :
    (getIntValue u k d).1 = (Spec.intOf (u.param k)).getD d ∧ SameFields (getIntValue u k d).2 u ∧
      Coherent (getIntValue u k d).2 := by
  have := getInt_spec hc k
  exact ⟨congrArg (·.getD d) this.1, this.2.1, this.2.2⟩

theorem contains_methodKey (m d k : Bytes) : contains (methodKey m d k) b!")." = true := by
  rw [contains_iff]
  exact ⟨m ++ b!"(" ++ d, k, by simp [methodKey]⟩

theorem getMethodIntValue_spec {u : URL} (hc : Coherent u) (m d k : Bytes) (dflt : Int) :
    (getMethodIntValue u m d k dflt).1 =
        ((Spec.intOf (u.param (methodKey m d k))).or (Spec.intOf (u.param k))).getD dflt ∧
      SameFields (getMethodIntValue u m d k dflt).2 u ∧ Coherent (getMethodIntValue u m d k dflt).2 := by
  have h1 := hasMethodParams_spec hc
  rw [getMethodIntValue]
  generalize hasMethodParams u = hm at h1
  obtain ⟨has, u1⟩ := hm
  simp only at h1 ⊢
  obtain ⟨h1a, h1b, h1c⟩ := h1
  cases has with
  | true =>
    rw [if_pos rfl]
    have h2 := getInt_spec h1c (methodKey m d k)
    generalize getInt u1 (methodKey m d k) = g at h2
    obtain ⟨r, u2⟩ := g
    obtain ⟨h2a, h2b, h2c⟩ := h2
    simp only at h2a ⊢
    rw [h1b.param] at h2a
    rw [← h2a]
    cases r with
    | some n => exact ⟨rfl, h2b.trans h1b, h2c⟩
    | none =>
      have h3 := getIntValue_spec h2c k dflt
      rw [(h2b.trans h1b).param] at h3
      exact ⟨h3.1, h3.2.1.trans (h2b.trans h1b), h3.2.2⟩
  | false =>
    rw [if_neg (by simp)]
    have h3 := getIntValue_spec h1c k dflt
    rw [h1b.param] at h3
    have : u.param (methodKey m d k) = none := by
      cases hp : u.param (methodKey m d k) with
      | none => rfl
      | some v =>
        have := h1a rfl (methodKey m d k) (by rw [hp]; rfl)
        rw [contains_methodKey] at this; cases this
    rw [this]
    exact ⟨h3.1, h3.2.1.trans h1b, h3.2.2⟩

theorem getPortStr_spec {u : URL} (hc : Coherent u) :
    (getPortStr u).1 = formatInt u.port ∧ SameFields (getPortStr u).2 u ∧ Coherent (getPortStr u).2 := by
  refine ⟨getPortStr_fresh u hc.port, ?_⟩
  rw [getPortStr]
  split
  · exact ⟨⟨rfl, rfl, rfl, rfl, rfl, rfl⟩, hc⟩
  · exact ⟨⟨rfl, rfl, rfl, rfl, rfl, rfl⟩, ⟨hc.int, hc.method, .inr rfl, hc.address, hc.identity⟩⟩

theorem SameFields.identity {u v : URL} (h : SameFields u v) : Spec.identity u = Spec.identity v := by
  simp only [Spec.identity, h.protocol, h.host, h.port, h.path, h.group, h.param]

theorem SameFields.address {u v : URL} (h : SameFields u v) : Spec.address u = Spec.address v := by
  simp only [Spec.address, h.host, h.port]

theorem getParam_empty (u : URL) (k : Bytes) : getParam u k [] = (u.param k).getD [] := by
  rw [getParam]; split
  · rename_i h; exact h.symm
  · rfl

theorem getIdentity_fill {u : URL} (hc : Coherent u) (h : u.identityC = none) :
    (getIdentity u).1 = Spec.identity u ∧ SameFields (getIdentity u).2 u ∧ Coherent (getIdentity u).2 := by
  have h1 := getPortStr_spec hc
  rw [getIdentity, h]
  simp only
  generalize getPortStr u = g at h1
  obtain ⟨ps, u1⟩ := g
  obtain ⟨h1a, h1b, h1c⟩ := h1
  simp only at h1a ⊢
  subst h1a
  rw [getParam_empty, ← h1b.port]
  have he : (if u1.protocol = b!"direct" then
      u1.protocol ++ b!"://" ++ u1.host ++ b!":" ++ formatInt u1.port ++ b!"/" ++ u1.path ++ b!"?group=" ++ u1.group ++
        b!"&address=" ++ (u1.param b!"address").getD []
      else u1.protocol ++ b!"://" ++ u1.host ++ b!":" ++ formatInt u1.port ++ b!"/" ++ u1.path ++ b!"?group=" ++
        u1.group) = Spec.identity u1 := by
    rw [Spec.identity]
    split <;> simp
  rw [he, ← h1b.identity]
  exact ⟨rfl, ⟨h1b.protocol, h1b.host, h1b.port, h1b.path, h1b.group, h1b.params⟩,
    ⟨h1c.int, h1c.method, h1c.port, h1c.address, fun _ => .inr rfl⟩⟩

theorem getIdentity_keeps {u : URL} (hc : Coherent u) :
    SameFields (getIdentity u).2 u ∧ Coherent (getIdentity u).2 := by
  cases h : u.identityC with
  | none => exact (getIdentity_fill hc h).2
  | some s =>
    have : (getIdentity u).2 = u := by rw [getIdentity, h]
    rw [this]
    exact ⟨⟨rfl, rfl, rfl, rfl, rfl, rfl⟩, hc⟩

theorem getIdentity_spec {u : URL} (hc : Coherent u) (hd : u.protocol ≠ b!"direct") :
    (getIdentity u).1 = Spec.identity u := by
  cases h : u.identityC with
  | none => exact (getIdentity_fill hc h).1
  | some s =>
    have h1 := hc.identity hd
    rw [h] at h1
    have : (getIdentity u).1 = s := by rw [getIdentity, h]
    rw [this]
    simpa using h1

theorem getAddressStr_spec {u : URL} (hc : Coherent u) :
    (getAddressStr u).1 = Spec.address u ∧ SameFields (getAddressStr u).2 u ∧ Coherent (getAddressStr u).2 := by
  cases h : u.addressC with
  | some s =>
    have h1 := hc.address
    rw [h] at h1
    have : getAddressStr u = (s, u) := by rw [getAddressStr, h]
    rw [this]
    exact ⟨by simpa using h1, ⟨rfl, rfl, rfl, rfl, rfl, rfl⟩, hc⟩
  | none =>
    rw [getAddressStr, h]
    simp only
    by_cases hp : hasPrefix u.host b!"unix://" = true
    · rw [if_pos hp]
      have hs : Spec.address u = u.host := by rw [Spec.address, if_pos (List.isPrefixOf_iff_prefix.mp hp)]
      exact ⟨hs.symm, ⟨rfl, rfl, rfl, rfl, rfl, rfl⟩,
        ⟨hc.int, hc.method, hc.port, .inr (congrArg some hs.symm), hc.identity⟩⟩
    · rw [if_neg hp]
      have h1 := getPortStr_spec hc
      generalize getPortStr u = g at h1
      obtain ⟨ps, u1⟩ := g
      obtain ⟨h1a, h1b, h1c⟩ := h1
      simp only at h1a ⊢
      subst h1a
      have hs : Spec.address u = u.host ++ b!":" ++ formatInt u.port := by
        rw [Spec.address, if_neg (fun h => hp (List.isPrefixOf_iff_prefix.mpr h))]
      refine ⟨by rw [h1b.host, hs], ⟨h1b.protocol, h1b.host, h1b.port, h1b.path, h1b.group, h1b.params⟩,
        ⟨h1c.int, h1c.method, h1c.port, .inr ?_, h1c.identity⟩⟩
      show some (u1.host ++ b!":" ++ formatInt u.port) = some (Spec.address u1)
      rw [h1b.address, hs, h1b.host]

theorem toExtInfo_keeps {u : URL} (hc : Coherent u) :
    SameFields (toExtInfo u).2 u ∧ Coherent (toExtInfo u).2 := (getPortStr_spec hc).2

theorem putParam_param (u : URL) (k v k' : Bytes) :
    (putParam u k v).param k' = if k = k' then some v else u.param k' := by
  show AMap.load (AMap.store (u.params.getD []) k v) k' = _
  rw [AMap.load_store, URL.param]
  cases u.params <;> rfl

theorem putParam_coherent {u : URL} (hc : Coherent u) (k v : Bytes) : Coherent (putParam u k v) := by
  refine ⟨fun k' c hl => ?_, fun hm k' hk' => ?_, hc.port, hc.address, fun hd => ?_⟩
  · replace hl : AMap.load (AMap.erase u.intC k) k' = some c := hl
    rw [AMap.load_erase] at hl
    split at hl
    · cases hl
    · rename_i hne
      rw [putParam_param, if_neg hne]
      exact hc.int k' c hl
  · replace hm : (if contains k b!")." then some true else u.hasMethodC) = some false := hm
    split at hm
    · cases hm
    · rename_i hk
      rw [putParam_param] at hk'
      split at hk'
      · rename_i e; subst e; simpa using hk
      · exact hc.method hm k' hk'
  · have h := hc.identity hd
    have he : Spec.identity (putParam u k v) = Spec.identity u := by
      rw [Spec.identity, Spec.identity, if_neg hd, if_neg (show u.protocol ≠ b!"direct" from hd)]
      rfl
    rw [he]; exact h

theorem clear_coherent (u : URL) : Coherent (clearCachedInfo u) :=
  coherent_fresh ⟨rfl, rfl, rfl, rfl, rfl⟩

theorem run_coherent {u : URL} (hc : Coherent u) (op : Spec.UrlOp) : Coherent (op.run u) := by
  cases op with
  | getInt k => exact (getInt_spec hc k).2.2
  | getMethodInt m d k dflt => exact (getMethodIntValue_spec hc m d k dflt).2.2
  | getIdentity => exact (getIdentity_keeps hc).2
  | getAddress => exact (getAddressStr_spec hc).2.2
  | getPort => exact (getPortStr_spec hc).2.2
  | toExtInfo => exact (toExtInfo_keeps hc).2
  | put k v => exact putParam_coherent hc k v
  | clear => exact clear_coherent u

theorem run_param {u : URL} (hc : Coherent u) (op : Spec.UrlOp) (k : Bytes) :
    (op.run u).param k = Spec.current (u.param k) k [op] := by
  cases op with
  | getInt k => exact (getInt_spec hc k).2.1.param _
  | getMethodInt m d k dflt => exact (getMethodIntValue_spec hc m d k dflt).2.1.param _
  | getIdentity => exact (getIdentity_keeps hc).1.param _
  | getAddress => exact (getAddressStr_spec hc).2.1.param _
  | getPort => exact (getPortStr_spec hc).2.1.param _
  | toExtInfo => exact (toExtInfo_keeps hc).1.param _
  | put k v => exact putParam_param u k v _
  | clear => rfl

theorem current_cons (init : Option Bytes) (k : Bytes) (op : Spec.UrlOp) (h : List Spec.UrlOp) :
    Spec.current init k (op :: h) = Spec.current (Spec.current init k [op]) k h := by
  cases op <;> rfl

theorem runAll_spec {u : URL} (hc : Coherent u) (h : List Spec.UrlOp) :
    Coherent (Spec.runAll u h) ∧ ∀ k, (Spec.runAll u h).param k = Spec.current (u.param k) k h := by
  induction h generalizing u with
  | nil => exact ⟨hc, fun _ => rfl⟩
  | cons op h ih =>
    have := ih (run_coherent hc op)
    refine ⟨this.1, fun k => ?_⟩
    rw [current_cons, ← run_param hc op]
    exact this.2 k

/-- The fields that make the identity. -/
theorem run_fields {u : URL} (hc : Coherent u) (op : Spec.UrlOp) :
    (op.run u).protocol = u.protocol ∧ (op.run u).host = u.host ∧ (op.run u).port = u.port ∧
      (op.run u).path = u.path ∧ (op.run u).group = u.group := by
  have of : ∀ {v}, SameFields v u → v.protocol = u.protocol ∧ v.host = u.host ∧ v.port = u.port ∧ v.path = u.path ∧
      v.group = u.group := fun h => ⟨h.protocol, h.host, h.port, h.path, h.group⟩
  cases op with
  | getInt k => exact of (getInt_spec hc k).2.1
  | getMethodInt m d k dflt => exact of (getMethodIntValue_spec hc m d k dflt).2.1
  | getIdentity => exact of (getIdentity_keeps hc).1
  | getAddress => exact of (getAddressStr_spec hc).2.1
  | getPort => exact of (getPortStr_spec hc).2.1
  | toExtInfo => exact of (toExtInfo_keeps hc).1
  | put k v => exact ⟨rfl, rfl, rfl, rfl, rfl⟩
  | clear => exact ⟨rfl, rfl, rfl, rfl, rfl⟩

theorem runAll_fields {u : URL} (hc : Coherent u) (h : List Spec.UrlOp) :
    (Spec.runAll u h).protocol = u.protocol ∧ (Spec.runAll u h).host = u.host ∧ (Spec.runAll u h).port = u.port ∧
      (Spec.runAll u h).path = u.path ∧ (Spec.runAll u h).group = u.group := by
  induction h generalizing u with
  | nil => exact ⟨rfl, rfl, rfl, rfl, rfl⟩
  | cons op h ih =>
    have h1 := run_fields hc op
    have h2 := ih (run_coherent hc op)
    exact ⟨h2.1.trans h1.1, h2.2.1.trans h1.2.1, h2.2.2.1.trans h1.2.2.1, h2.2.2.2.1.trans h1.2.2.2.1,
      h2.2.2.2.2.trans h1.2.2.2.2⟩

/-- C16: after any history of method calls on a new URL, reading an integer parameter gives what parsing its current
string gives: the last one put, or the initial one. -/
theorem int_param_coherent (u : URL) (hu : Spec.Fresh u) (h : List Spec.UrlOp) (k : Bytes) (dflt : Int) :
    (getInt (Spec.runAll u h) k).1 = Spec.intOf (Spec.current (u.param k) k h) ∧
    (getIntValue (Spec.runAll u h) k dflt).1 = (Spec.intOf (Spec.current (u.param k) k h)).getD dflt := by
  have hr := runAll_spec (coherent_fresh hu) h
  have h1 := (getInt_spec hr.1 k).1
  have h2 := (getIntValue_spec hr.1 k dflt).1
  rw [hr.2] at h1 h2
  exact ⟨h1, h2⟩

/-- Non-vacuity: a read, a write and a read again. -/
example : Spec.Fresh exUrl ∧
    (getInt (Spec.runAll exUrl [.getInt b!"requestTimeout", .put b!"requestTimeout" b!"-7"]) b!"requestTimeout").1 =
      some (-7) := by
  unfold Spec.Fresh; decide +kernel

/-- C16, exhibited: a parameter stored with MergeParams after it was read keeps its old integer value. -/
theorem merge_int_stale_counterexample :
    ∃ u', mergeParams (Spec.runAll exUrl [.getInt b!"requestTimeout"]) [(b!"requestTimeout", b!"5")] = some u' ∧
      u'.param b!"requestTimeout" = some b!"5" ∧ (getInt u' b!"requestTimeout").1 = some 1000 := by
  exact ⟨_, rfl, by decide +kernel, by decide +kernel⟩

/-- C17: after any history of method calls on a new URL, the method-level parameter wins over the service-level one,
which wins over the default. -/
theorem method_param_precedence (u : URL) (hu : Spec.Fresh u) (h : List Spec.UrlOp) (m d k : Bytes) (dflt : Int) :
    let mk := m ++ b!"(" ++ d ++ b!")." ++ k
    let atMethod := Spec.intOf (Spec.current (u.param mk) mk h)
    let atService := Spec.intOf (Spec.current (u.param k) k h)
    (∀ n, atMethod = some n → (getMethodIntValue (Spec.runAll u h) m d k dflt).1 = n) ∧
    (atMethod = none → ∀ n, atService = some n → (getMethodIntValue (Spec.runAll u h) m d k dflt).1 = n) ∧
    (atMethod = none → atService = none → (getMethodIntValue (Spec.runAll u h) m d k dflt).1 = dflt) := by
  have hr := runAll_spec (coherent_fresh hu) h
  have h1 := (getMethodIntValue_spec hr.1 m d k dflt).1
  rw [hr.2, hr.2] at h1
  intro mk atMethod atService
  replace h1 : (getMethodIntValue (Spec.runAll u h) m d k dflt).1 = (atMethod.or atService).getD dflt := h1
  refine ⟨fun n hn => ?_, fun hn n hn' => ?_, fun hn hn' => ?_⟩
  · rw [h1, hn]; rfl
  · rw [h1, hn, hn']; rfl
  · rw [h1, hn, hn']; rfl

/-- The setting in force for a method: the method-level parameter, or else the service-level one, if it is a number. -/
def Spec.setting (u : URL) (h : List Spec.UrlOp) (m d k : Bytes) : Option Int :=
  let mk := m ++ b!"(" ++ d ++ b!")." ++ k
  (Spec.intOf (Spec.current (u.param mk) mk h)).or (Spec.intOf (Spec.current (u.param k) k h))

/-- The positive setting in force, or the default. -/
def Spec.positive (o : Option Int) (dflt : Int) : Int :=
  match o with
  | some n => if 0 < n then n else dflt
  | none => dflt

/-- Reading settings does not change settings. -/
structure Spec.SettingsOf (u : URL) (h : List Spec.UrlOp) (v : URL) : Prop where
  coherent : Coherent v
  param : ∀ k, v.param k = Spec.current (u.param k) k h

theorem settings_run (u : URL) (hu : Spec.Fresh u) (h : List Spec.UrlOp) : Spec.SettingsOf u h (Spec.runAll u h) :=
  ⟨(runAll_spec (coherent_fresh hu) h).1, (runAll_spec (coherent_fresh hu) h).2⟩

theorem settings_getMethodInt {u v : URL} {h : List Spec.UrlOp} (hv : Spec.SettingsOf u h v) (m d k : Bytes) (dflt : Int) :
    (getMethodIntValue v m d k dflt).1 = (Spec.setting u h m d k).getD dflt ∧
    Spec.SettingsOf u h (getMethodIntValue v m d k dflt).2 := by
  obtain ⟨h1, h2, h3⟩ := getMethodIntValue_spec hv.coherent m d k dflt
  refine ⟨?_, h3, fun k' => (h2.param k').trans (hv.param k')⟩
  rw [h1, hv.param, hv.param]; rfl

theorem settings_getMethodPositiveInt {u v : URL} {h : List Spec.UrlOp} (hv : Spec.SettingsOf u h v) (m d k : Bytes)
    (dflt : Int) :
    (getMethodPositiveIntValue v m d k dflt).1 = Spec.positive (Spec.setting u h m d k) dflt ∧
    Spec.SettingsOf u h (getMethodPositiveIntValue v m d k dflt).2 := by
  obtain ⟨h1, h2⟩ := settings_getMethodInt hv m d k dflt
  rw [getMethodPositiveIntValue]
  generalize getMethodIntValue v m d k dflt = g at h1 h2
  simp only
  refine ⟨?_, h2⟩
  rw [h1]
  cases Spec.setting u h m d k with
  | none => simp [Spec.positive]
  | some n => simp [Spec.positive]

theorem settings_getPositiveInt {u v : URL} {h : List Spec.UrlOp} (hv : Spec.SettingsOf u h v) (k : Bytes) (dflt : Int) :
    (getPositiveIntValue v k dflt).1 = Spec.positive (Spec.intOf (Spec.current (u.param k) k h)) dflt ∧
    Spec.SettingsOf u h (getPositiveIntValue v k dflt).2 := by
  obtain ⟨h1, h2, h3⟩ := getIntValue_spec hv.coherent k dflt
  rw [getPositiveIntValue]
  generalize getIntValue v k dflt = g at h1 h2 h3
  simp only
  refine ⟨?_, h3, fun k' => (h2.param k').trans (hv.param k')⟩
  rw [h1, hv.param]
  cases Spec.intOf (Spec.current (u.param k) k h) with
  | none => simp [Spec.positive]
  | some n =>
    simp only [Option.getD_some, Spec.positive]
    by_cases hn : n < 1
    · rw [if_pos hn, if_neg (by omega)]
    · rw [if_neg hn, if_pos (by omega)]

theorem settings_getInt {u v : URL} {h : List Spec.UrlOp} (hv : Spec.SettingsOf u h v) (k : Bytes) :
    (getInt v k).1 = Spec.intOf (Spec.current (u.param k) k h) ∧ Spec.SettingsOf u h (getInt v k).2 := by
  obtain ⟨h1, h2, h3⟩ := getInt_spec hv.coherent k
  exact ⟨by rw [h1, hv.param], h3, fun k' => (h2.param k').trans (hv.param k')⟩

/-- C17: the positive variants return the value read when it is at least 1 and the default otherwise. -/
theorem positive_variants (u : URL) (m d k : Bytes) (dflt : Int) :
    (getMethodPositiveIntValue u m d k dflt).1 =
      (if 1 ≤ (getMethodIntValue u m d k dflt).1 then (getMethodIntValue u m d k dflt).1 else dflt) ∧
    (getPositiveIntValue u k dflt).1 =
      (if 1 ≤ (getIntValue u k dflt).1 then (getIntValue u k dflt).1 else dflt) ∧
    (1 ≤ dflt → 1 ≤ (getMethodPositiveIntValue u m d k dflt).1 ∧ 1 ≤ (getPositiveIntValue u k dflt).1) := by
  have h1 : (getMethodPositiveIntValue u m d k dflt).1 =
      (if 1 ≤ (getMethodIntValue u m d k dflt).1 then (getMethodIntValue u m d k dflt).1 else dflt) := by
    rw [getMethodPositiveIntValue]
    generalize getMethodIntValue u m d k dflt = g
    simp only
    by_cases h : 1 ≤ g.1
    · rw [if_pos h, if_pos (by omega)]
    · rw [if_neg h, if_neg (by omega)]
  have h2 : (getPositiveIntValue u k dflt).1 =
      (if 1 ≤ (getIntValue u k dflt).1 then (getIntValue u k dflt).1 else dflt) := by
    rw [getPositiveIntValue]
    generalize getIntValue u k dflt = g
    simp only
    by_cases h : 1 ≤ g.1
    · rw [if_pos h, if_neg (by omega)]
    · rw [if_neg h, if_pos (by omega)]
  refine ⟨h1, h2, fun hd => ⟨?_, ?_⟩⟩
  · rw [h1]; split <;> omega
  · rw [h2]; split <;> omega

/-- Non-vacuity: all three levels, and a method parameter added after a read. -/
example : (getMethodIntValue exUrl b!"get" b!"int" b!"requestTimeout" 3).1 = 200 ∧
    (getMethodIntValue exUrl b!"put" b!"int" b!"requestTimeout" 3).1 = 1000 ∧
    (getMethodIntValue exUrl b!"put" b!"int" b!"retries" 3).1 = 3 ∧
    (getMethodIntValue (Spec.runAll { exUrl with params := none }
      [.getMethodInt b!"a" [] b!"retries" 0, .put b!"a().retries" b!"2"]) b!"a" [] b!"retries" 0).1 = 2 := by
  decide +kernel

/-- C17, exhibited: a method parameter added with MergeParams after a read is not seen. -/
theorem merge_method_param_unseen_counterexample :
    let u := { exUrl with params := some [] }
    ∃ u', mergeParams (Spec.runAll u [.getMethodInt b!"a" [] b!"retries" 0]) [(b!"a().retries", b!"2")] = some u' ∧
      u'.param b!"a().retries" = some b!"2" ∧ (getMethodIntValue u' b!"a" [] b!"retries" 0).1 = 0 := by
  exact ⟨_, rfl, by decide +kernel, by decide +kernel⟩

/-! ## C50: identity and address -/

/-- C50: after any history of method calls, address and port strings are those of the fields, and so is the identity
of a URL that is not a direct one. -/
theorem identity_coherent (u : URL) (hu : Spec.Fresh u) (h : List Spec.UrlOp) :
    (getAddressStr (Spec.runAll u h)).1 = Spec.address u ∧ (getPortStr (Spec.runAll u h)).1 = formatInt u.port ∧
    (u.protocol ≠ b!"direct" → (getIdentity (Spec.runAll u h)).1 = Spec.identity u) := by
  have hr := runAll_spec (coherent_fresh hu) h
  have hf := runAll_fields (coherent_fresh hu) h
  refine ⟨?_, ?_, fun hd => ?_⟩
  · rw [(getAddressStr_spec hr.1).1, Spec.address, Spec.address, hf.2.1, hf.2.2.1]
  · rw [(getPortStr_spec hr.1).1, hf.2.2.1]
  · rw [getIdentity_spec hr.1 (by rw [hf.1]; exact hd), Spec.identity, Spec.identity, hf.1, hf.2.1, hf.2.2.1,
      hf.2.2.2.1, hf.2.2.2.2, if_neg hd, if_neg hd]

/-- C50, exhibited: a direct URL whose address parameter changes after its identity was read keeps the old identity
until ClearCachedInfo. -/
theorem direct_identity_stale_counterexample :
    let u : URL := { exUrl with protocol := b!"direct", params := some [(b!"address", b!"a:1")] }
    (getIdentity (Spec.runAll u [.getIdentity, .put b!"address" b!"b:2"])).1 =
      b!"direct://10.0.0.1:8001/com.weibo.User?group=web&address=a:1" ∧
    (getIdentity (Spec.runAll u [.getIdentity, .put b!"address" b!"b:2", .clear])).1 =
      b!"direct://10.0.0.1:8001/com.weibo.User?group=web&address=b:2" := by
  decide +kernel

theorem append_sep_inj {c : UInt8} {a a' r r' : Bytes} (h : a ++ c :: r = a' ++ c :: r') (ha : c ∉ a) (ha' : c ∉ a') :
    a = a' ∧ r = r' := by
  induction a generalizing a' with
  | nil =>
    cases a' with
    | nil => simpa using h
    | cons x a' => simp at h; exact absurd h.1 (fun e => ha' (by simp [e]))
  | cons y a ih =>
    cases a' with
    | nil => simp at h; exact absurd h.1.symm (fun e => ha (by simp [e]))
    | cons x a' =>
      simp at h
      have := ih h.2 (fun hh => ha (by simp [hh])) (fun hh => ha' (by simp [hh]))
      exact ⟨by rw [h.1, this.1], this.2⟩

/-- C50: equal identities mean equal protocol, host, port, path and group, when protocol and host have no colon and
paths no question mark. -/
theorem identity_injective (u v : URL) (hu : (58 : UInt8) ∉ u.protocol ∧ (58 : UInt8) ∉ u.host ∧ (63 : UInt8) ∉ u.path)
    (hv : (58 : UInt8) ∉ v.protocol ∧ (58 : UInt8) ∉ v.host ∧ (63 : UInt8) ∉ v.path)
    (hup : -2 ^ 63 ≤ u.port ∧ u.port < 2 ^ 63) (hvp : -2 ^ 63 ≤ v.port ∧ v.port < 2 ^ 63)
    (hd : u.protocol ≠ b!"direct") (h : Spec.identity u = Spec.identity v) :
    u.protocol = v.protocol ∧ u.host = v.host ∧ u.port = v.port ∧ u.path = v.path ∧ u.group = v.group := by
  simp only [Spec.identity, List.append_assoc, List.cons_append, List.nil_append] at h
  obtain ⟨h1, h⟩ := append_sep_inj h hu.1 hv.1
  simp only [List.cons.injEq, true_and] at h
  obtain ⟨h2, h⟩ := append_sep_inj h hu.2.1 hv.2.1
  obtain ⟨h3, h⟩ := append_sep_inj h (not_mem_formatInt _ (by decide) (by decide))
    (not_mem_formatInt _ (by decide) (by decide))
  obtain ⟨h4, h⟩ := append_sep_inj h hu.2.2 hv.2.2
  rw [← h1, if_neg hd, if_neg hd] at h
  simp only [List.append_nil, List.cons.injEq, true_and] at h
  exact ⟨h1, h2, formatInt_injective hup.1 hup.2 hvp.1 hvp.2 h3, h4, h⟩

example : (58 : UInt8) ∉ exUrl.protocol ∧ (58 : UInt8) ∉ exUrl.host ∧ (63 : UInt8) ∉ exUrl.path := by decide

/-! ## C18: routing -/

/-- The English rule for one cluster of a service: the group is the requested one, the protocol (when the request
names one) is the cluster's or is motan for a motan2 cluster, and versions agree when both sides have one. -/
def Spec.Accepts (u : URL) (r : Routing.Req) : Prop :=
  u.path = r.service ∧ u.group = r.group ∧
  (r.protocol = [] ∨ u.protocol = r.protocol ∨ (u.protocol = b!"motan2" ∧ r.protocol = b!"motan")) ∧
  (r.version = [] ∨ (u.param b!"version").getD [] = [] ∨ u.param b!"version" = some r.version)

theorem isMatch_iff (u : URL) (r : Routing.Req) (hg : r.group ≠ []) :
    isMatch u r.service r.group r.protocol r.version = true ↔ Spec.Accepts u r := by
  rw [isMatch, Spec.Accepts, getParam_empty]
  by_cases h1 : u.path ≠ r.service
  · simp [h1]
  replace h1 := Decidable.not_not.mp h1
  rw [if_neg (by simpa using h1)]
  by_cases h2 : u.group ≠ r.group
  · rw [if_pos ⟨hg, h2⟩]; simp [h2]
  replace h2 := Decidable.not_not.mp h2
  rw [if_neg (by simp [h2])]
  by_cases h3 : r.protocol = [] ∨ u.protocol = r.protocol ∨ (u.protocol = b!"motan2" ∧ r.protocol = b!"motan")
  · rw [if_neg, if_neg]
    · by_cases h4 : r.version = []
      · rw [if_neg (by simp [h4])]; simp [h1, h2, h3, h4]
      · by_cases h5 : (u.param b!"version").getD [] = []
        · rw [if_neg (by simp [h5])]; simp [h1, h2, h3, h5]
        · rw [if_pos ⟨h4, h5⟩]
          simp only [decide_eq_true_eq]
          constructor
          · intro h
            refine ⟨h1, h2, h3, .inr (.inr ?_)⟩
            cases hp : u.param b!"version" with
            | none => rw [hp] at h5; exact absurd rfl h5
            | some v => rw [h, hp]; rfl
          · rintro ⟨_, _, _, h | h | h⟩
            · exact absurd h h4
            · exact absurd h h5
            · rw [h]; rfl
    · rintro ⟨a, b, c⟩
      rcases h3 with h | h | ⟨h, h'⟩
      · exact a h
      · exact c h
      · exact b h
    · rintro ⟨a, b, c, d⟩
      rcases h3 with h | h | ⟨h, h'⟩
      · exact a h
      · exact c (h ▸ b)
      · exact d h'
  · have h3' : r.protocol ≠ [] ∧ u.protocol ≠ r.protocol ∧ ¬(u.protocol = b!"motan2" ∧ r.protocol = b!"motan") := by
      simpa only [not_or] using h3
    have hf : ¬ (u.path = r.service ∧ u.group = r.group ∧
        (r.protocol = [] ∨ u.protocol = r.protocol ∨ (u.protocol = b!"motan2" ∧ r.protocol = b!"motan")) ∧
        (r.version = [] ∨ (u.param b!"version").getD [] = [] ∨ u.param b!"version" = some r.version)) :=
      fun h => h3 h.2.2.1
    by_cases h6 : u.protocol = b!"motan2"
    · rw [if_pos ⟨h3'.1, h6, fun e => h3'.2.1 (h6.trans e.symm), fun e => h3'.2.2 ⟨h6, e⟩⟩]
      simp only [Bool.false_eq_true, false_iff]; exact hf
    · rw [if_neg (fun h => h6 h.2.1), if_pos ⟨h3'.1, h6, h3'.2.1⟩]
      simp only [Bool.false_eq_true, false_iff]; exact hf

/-- C18: which cluster a request gets. -/
theorem find_cluster_spec {C : Type} (table : AMap Bytes (List (Routing.Item C))) (r : Routing.Req) (c : C) :
    Routing.findCluster table r = .ok c ↔
      r.service ≠ [] ∧
      ((∃ it, AMap.load table r.service = some [it] ∧ it.cluster = c) ∨
       (∃ pre it post, AMap.load table r.service = some (pre ++ it :: post) ∧ pre ++ post ≠ [] ∧ r.group ≠ [] ∧
          it.cluster = c ∧ Spec.Accepts it.url r ∧ ∀ it' ∈ pre, ¬ Spec.Accepts it'.url r)) := by
  rw [Routing.findCluster]
  by_cases hs : r.service = []
  · rw [if_pos hs]; simp [hs]
  rw [if_neg hs]
  cases hl : AMap.load table r.service with
  | none => simp
  | some items =>
    have hmulti : ∀ items : List (Routing.Item C), items.length ≠ 1 →
        ((if r.group = [] then (.error .emptyGroup : Except Routing.FindErr C)
          else match items.find? (fun it => isMatch it.url r.service r.group r.protocol r.version) with
            | some it => .ok it.cluster
            | none => .error .noMatch) = .ok c ↔
          ∃ pre it post, items = pre ++ it :: post ∧ pre ++ post ≠ [] ∧ r.group ≠ [] ∧
            it.cluster = c ∧ Spec.Accepts it.url r ∧ ∀ it' ∈ pre, ¬ Spec.Accepts it'.url r) := by
      intro items hlen
      by_cases hg : r.group = []
      · rw [if_pos hg]; simp [hg]
      rw [if_neg hg]
      constructor
      · intro h
        split at h
        · rename_i it hf
          rw [List.find?_eq_some_iff_append] at hf
          obtain ⟨hm, pre, post, e, hpre⟩ := hf
          refine ⟨pre, it, post, e, ?_, hg, by simpa using h, (isMatch_iff _ _ hg).mp hm, fun it' hit' ha => ?_⟩
          · intro hn
            rw [e] at hlen
            have h0 : pre.length + post.length = 0 := by simpa using congrArg List.length hn
            simp only [List.length_append, List.length_cons] at hlen
            omega
          · have := hpre it' hit'
            rw [(isMatch_iff it'.url r hg).mpr ha] at this; cases this
        · cases h
      · rintro ⟨pre, it, post, e, _, _, hc, ha, hpre⟩
        have : items.find? (fun it => isMatch it.url r.service r.group r.protocol r.version) = some it := by
          rw [List.find?_eq_some_iff_append]
          refine ⟨(isMatch_iff _ _ hg).mpr ha, pre, post, e, fun it' hit' => ?_⟩
          cases hm : isMatch it'.url r.service r.group r.protocol r.version with
          | false => rfl
          | true => exact absurd ((isMatch_iff _ _ hg).mp hm) (hpre it' hit')
        rw [this]; simp [hc]
    match items with
    | [] =>
      simp only [ne_eq, hs, not_false_eq_true, true_and, Option.some.injEq]
      rw [show (∃ it : Routing.Item C, ([] : List (Routing.Item C)) = [it] ∧ it.cluster = c) ↔ False by simp, false_or]
      exact hmulti [] (by simp)
    | [it] =>
      simp only [ne_eq, hs, not_false_eq_true, true_and, Option.some.injEq]
      constructor
      · intro h; exact .inl ⟨it, rfl, by simpa using h⟩
      · rintro (⟨it', e, h⟩ | ⟨pre, it', post, e, hne, _⟩)
        · simp at e; rw [e, h]
        · exfalso
          apply hne
          have he : 1 = pre.length + (post.length + 1) := by simpa using congrArg List.length e
          exact List.eq_nil_of_length_eq_zero (by rw [List.length_append]; omega)
    | a :: b :: l =>
      simp only [ne_eq, hs, not_false_eq_true, true_and, Option.some.injEq]
      rw [show (∃ it : Routing.Item C, a :: b :: l = [it] ∧ it.cluster = c) ↔ False by simp, false_or]
      exact hmulti (a :: b :: l) (by simp)

/-- C18: with several clusters, an empty group or no acceptable cluster is an error. -/
theorem find_cluster_error {C : Type} (table : AMap Bytes (List (Routing.Item C))) (r : Routing.Req)
    (items : List (Routing.Item C)) (hs : r.service ≠ []) (hl : AMap.load table r.service = some items)
    (h2 : 2 ≤ items.length) (hno : r.group = [] ∨ ∀ it ∈ items, ¬ Spec.Accepts it.url r) :
    ∃ e, Routing.findCluster table r = .error e := by
  cases hf : Routing.findCluster table r with
  | error e => exact ⟨e, rfl⟩
  | ok c =>
    exfalso
    obtain ⟨_, ⟨it, h, _⟩ | ⟨pre, it, post, h, _, hg, _, ha, _⟩⟩ := (find_cluster_spec table r c).mp hf
    · rw [hl] at h; cases h; simp at h2
    · rw [hl] at h; cases h
      rcases hno with h | h
      · exact hg h
      · exact h it (by simp) ha

/-- C18: an agent call goes to the cluster found, else to the HTTP cluster of that domain, else nowhere. -/
theorem agent_target_spec {C H : Type} (table : AMap Bytes (List (Routing.Item C))) (http : AMap Bytes H)
    (r : Routing.Req) :
    (∀ c, Routing.findCluster table r = .ok c → Routing.target table http r = .cluster c) ∧
    (∀ e, Routing.findCluster table r = .error e →
      (∀ x, AMap.load http r.service = some x → Routing.target table http r = .http x) ∧
      (AMap.load http r.service = none → Routing.target table http r = .notFound e)) := by
  refine ⟨fun c h => by rw [Routing.target, h], fun e h => ⟨fun x hx => ?_, fun hx => ?_⟩⟩ <;>
    rw [Routing.target, h] <;> simp only [hx]

/-- Non-vacuity: two clusters of one service, told apart by group and version. -/
def exTable : AMap Bytes (List (Routing.Item Nat)) :=
  [(b!"com.weibo.User", [⟨exUrl, 1⟩, ⟨{ exUrl with group := b!"job", params := some [(b!"version", b!"2.0")] }, 2⟩,
    ⟨{ exUrl with group := b!"job" }, 3⟩]), (b!"one", [⟨exUrl, 4⟩])]

example : Routing.findCluster exTable ⟨b!"com.weibo.User", b!"job", b!"1.0", b!"motan"⟩ = .ok 3 ∧
    Routing.findCluster exTable ⟨b!"com.weibo.User", b!"job", b!"2.0", []⟩ = .ok 2 ∧
    Routing.findCluster exTable ⟨b!"com.weibo.User", b!"none", b!"2.0", []⟩ = .error .noMatch ∧
    Routing.findCluster exTable ⟨b!"com.weibo.User", b!"web", [], b!"http"⟩ = .error .noMatch ∧
    Routing.findCluster exTable ⟨b!"com.weibo.User", [], [], []⟩ = .error .emptyGroup ∧
    Routing.findCluster exTable ⟨b!"one", b!"any", [], []⟩ = .ok 4 := by
  decide +kernel

end Motan.Props
