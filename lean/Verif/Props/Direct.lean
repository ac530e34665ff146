import Verif.Model.Direct
import Verif.Props.Cluster
import Verif.Props.Dynamic

/-!
# C73: a client with direct addresses calls those servers and no others
-/

namespace Motan.Props

open Motan.Strings Motan.Url Motan.Direct Motan.Cluster Motan.RefersFilter

/-! ## Specification -/

/-- White space only. -/
def Spec.Blank (s : Bytes) : Prop := ∀ c ∈ s, isSpace c = true

/-- A server, as a user names it. -/
inductive Spec.Addr
  | tcp (host : Bytes) (port : Nat)
  | socket (path : Bytes)
deriving DecidableEq, Repr

/-- What is dialled. -/
def Spec.Addr.text : Spec.Addr → Bytes
  | .tcp h n => h ++ b!":" ++ natDigits n
  | .socket p => b!"unix://" ++ p

/-- What one piece of a list of addresses means: `host:port`, with white space around both; `unix://path`; or nothing,
if there is no colon in it or what follows the one colon has a byte that no number has. -/
inductive Spec.Means : Bytes → Option Spec.Addr → Prop
  | tcp (a b c d h : Bytes) (n : Nat) (ha : Spec.Blank a) (hb : Spec.Blank b) (hc : Spec.Blank c) (hd : Spec.Blank d)
      (hne : h ≠ []) (hh : ∀ x ∈ h, isSpace x = false ∧ x ≠ 58 ∧ x ≠ 44) (hn : n ≤ 65535) :
      Spec.Means (a ++ h ++ b ++ b!":" ++ (c ++ natDigits n ++ d)) (some (.tcp h n))
  | socket (p : Bytes) (hp : (44 : UInt8) ∉ p) : Spec.Means (b!"unix://" ++ p) (some (.socket p))
  | noColon (s : Bytes) (h : (58 : UInt8) ∉ s) (hc : (44 : UInt8) ∉ s) : Spec.Means s none
  | noPort (x y : Bytes) (hx : (58 : UInt8) ∉ x) (hu : x ≠ b!"unix") (hy : (58 : UInt8) ∉ y) (hxc : (44 : UInt8) ∉ x)
      (hyc : (44 : UInt8) ∉ y) (z : UInt8) (hz : z ∈ y) (hzs : isSpace z = false) (hzd : ¬ (48 ≤ z ∧ z ≤ 57))
      (hzp : z ≠ 43) (hzm : z ≠ 45) : Spec.Means (x ++ b!":" ++ y) none

/-- What others see of a URL: its fields and the values of its parameters. -/
structure Spec.UrlView where
  protocol : Bytes
  host : Bytes
  port : Int
  path : Bytes
  group : Bytes
  params : Bytes → Option Bytes

def Spec.view (u : URL) : Spec.UrlView :=
  { protocol := u.protocol
    host := u.host
    port := u.port
    path := u.path
    group := u.group
    params := u.param }

/-- The server at an address, for a client of `url`: the client's URL at that address, in the named group if one is
named. -/
def Spec.serverAt (url : URL) (group : Bytes) (a : Spec.Addr) : Spec.UrlView :=
  let v := { Spec.view url with group := if group = [] then url.group else group }
  match a with
  | .tcp h n => { v with host := h, port := n }
  | .socket p => { v with host := b!"unix://" ++ p, port := 0 }

/-- The parameters are those of a Go map. -/
def Spec.Proper (u : URL) : Prop := (u.params.getD []).NodupKeys

/-! ## White space -/

theorem trimSpace_left {a : Bytes} (ha : Spec.Blank a) (s : Bytes) : trimSpace (a ++ s) = trimSpace s := by
  unfold trimSpace
  have : (a ++ s).dropWhile isSpace = s.dropWhile isSpace := by
    induction a with
    | nil => rfl
    | cons c a ih =>
      rw [List.cons_append, List.dropWhile_cons, if_pos (ha c (by simp))]
      exact ih fun c hc => ha c (by simp [hc])
  rw [this]

theorem dropWhile_blank {a : Bytes} (ha : Spec.Blank a) (s : Bytes) : (a ++ s).dropWhile isSpace = s.dropWhile isSpace := by
  induction a with
  | nil => rfl
  | cons c a ih =>
    rw [List.cons_append, List.dropWhile_cons, if_pos (ha c (by simp))]
    exact ih fun c hc => ha c (by simp [hc])

theorem trimSpace_right {b : Bytes} (hb : Spec.Blank b) (s : Bytes) : trimSpace (s ++ b) = trimSpace s := by
  unfold trimSpace
  have hr : Spec.Blank b.reverse := fun c hc => hb c (List.mem_reverse.mp hc)
  induction s with
  | nil =>
    have := dropWhile_blank hb []
    rw [List.append_nil] at this
    rw [List.nil_append, this]
  | cons c s ih =>
    rw [List.cons_append, List.dropWhile_cons, List.dropWhile_cons]
    by_cases h : isSpace c = true
    · rw [if_pos h, if_pos h]; exact ih
    · rw [if_neg h, if_neg h, ← List.cons_append, List.reverse_append, dropWhile_blank hr]

theorem trimSpace_pad {a b : Bytes} (ha : Spec.Blank a) (hb : Spec.Blank b) (s : Bytes) :
    trimSpace (a ++ s ++ b) = trimSpace s := by rw [trimSpace_right hb, trimSpace_left ha]

theorem blank_not {a : Bytes} (ha : Spec.Blank a) {c : UInt8} (hc : isSpace c = false) : c ∉ a := by
  intro h; rw [ha c h] at hc; cases hc

theorem natDigits_plain (n : Nat) (c : UInt8) (h : c ∈ natDigits n) : isSpace c = false ∧ c ≠ 58 ∧ c ≠ 44 := by
  have := natDigits_digit n c h
  refine ⟨?_, ?_, ?_⟩
  · simp only [isSpace, decide_eq_false_iff_not]
    intro hh
    simp only [UInt8.le_iff_toNat_le, UInt8.reduceToNat] at this
    rcases hh with e | e | e | e | e | e <;> rw [e] at this <;> exact absurd this (by decide)
  · intro e; rw [e] at this; exact absurd this (by decide)
  · intro e; rw [e] at this; exact absurd this (by decide)

/-! ## One address -/

theorem means_no_comma {s : Bytes} {r : Option Spec.Addr} (h : Spec.Means s r) : (44 : UInt8) ∉ s := by
  cases h with
  | tcp a b c d h n ha hb hc hd hne hh hn =>
    simp only [List.mem_append, not_or]
    refine ⟨⟨⟨⟨blank_not ha (by decide), fun m => (hh _ m).2.2 rfl⟩, blank_not hb (by decide)⟩, by decide⟩,
      ⟨blank_not hc (by decide), fun m => (natDigits_plain n _ m).2.2 rfl⟩, blank_not hd (by decide)⟩
  | socket p hp => simp only [List.mem_append, not_or]; exact ⟨by decide, hp⟩
  | noColon _ h hc => exact hc
  | noPort x y hx hu hy hxc hyc => simp only [List.mem_append, not_or]; exact ⟨⟨hxc, by decide⟩, hyc⟩

theorem trimSplit_colon {x y : Bytes} (hx : (58 : UInt8) ∉ x) (hy : (58 : UInt8) ∉ y) :
    trimSplit (x ++ b!":" ++ y) b!":" = [trimSpace x, trimSpace y].filter (· ≠ []) := by
  rw [trimSplit_eq _ _ (by decide)]
  show List.filter _ (List.map _ (split [58] (x ++ [58] ++ y))) = _
  rw [split_cons hx, split_single hy]; rfl

theorem parseDigits_ok {acc n : Nat} {s : Bytes} (h : parseDigits acc s = .ok n) : ∀ c ∈ s, 48 ≤ c ∧ c ≤ 57 := by
  induction s generalizing acc with
  | nil => simp
  | cons c s ih =>
    rw [parseDigits] at h
    split at h
    · rename_i hc
      simp only at h
      split at h
      · cases h
      · intro x hx
        rcases List.mem_cons.mp hx with rfl | hx
        · exact hc
        · exact ih h x hx
    · cases h

theorem splitSign_mem {s : Bytes} {z : UInt8} (hz : z ∈ s) (h1 : z ≠ 43) (h2 : z ≠ 45) : z ∈ (splitSign s).2 := by
  unfold splitSign
  split
  · simpa [h1] using hz
  · simpa [h2] using hz
  · exact hz

theorem parseInt64_not_number {s : Bytes} {z : UInt8} (hz : z ∈ s) (hd : ¬ (48 ≤ z ∧ z ≤ 57)) (h1 : z ≠ 43) (h2 : z ≠ 45) :
    ∃ n e, parseInt64 s = (n, some e) := by
  unfold parseInt64
  split
  · exact ⟨_, _, rfl⟩
  · have hm := splitSign_mem hz h1 h2
    generalize splitSign s = p at hm
    obtain ⟨neg, ds⟩ := p
    simp only at hm ⊢
    cases hp : parseUint64 ds with
    | error e =>
      cases e
      · exact ⟨_, _, rfl⟩
      · simp only; split <;> exact ⟨_, _, rfl⟩
    | ok n =>
      unfold parseUint64 at hp
      split at hp
      · cases hp
      · exact absurd (parseDigits_ok hp z hm) hd

theorem trimSpace_keeps {s : Bytes} {z : UInt8} (hz : z ∈ s) (h : isSpace z = false) : z ∈ trimSpace s := by
  have drop : ∀ l : Bytes, z ∈ l → z ∈ l.dropWhile isSpace := by
    intro l
    induction l with
    | nil => exact id
    | cons c l ih =>
      intro hm
      rw [List.dropWhile_cons]
      split
      · rename_i hc
        rcases List.mem_cons.mp hm with rfl | hm
        · rw [h] at hc; cases hc
        · exact ih hm
      · exact hm
  unfold trimSpace
  rw [List.mem_reverse]
  exact drop _ (List.mem_reverse.mpr (drop _ hz))

theorem unix_colon {x y : Bytes} (hx : (58 : UInt8) ∉ x) (h : hasPrefix (x ++ b!":" ++ y) b!"unix://" = true) :
    x = b!"unix" ∧ ∃ r, y = b!"//" ++ r := by
  obtain ⟨r, hr⟩ := List.isPrefixOf_iff_prefix.mp h
  have e1 : split [58] (x ++ [58] ++ y) = x :: split [58] y := split_cons hx
  have e2 : split [58] (b!"unix" ++ [58] ++ (b!"//" ++ r)) = b!"unix" :: split [58] (b!"//" ++ r) := split_cons (by decide)
  have e3 : x ++ [58] ++ y = b!"unix" ++ [58] ++ (b!"//" ++ r) := hr.symm
  rw [e3, e2] at e1
  have hu := (List.cons.inj e1).1
  rw [← hu, List.append_assoc, List.append_assoc] at e3
  have := List.append_cancel_left (List.append_cancel_left e3)
  exact ⟨hu.symm, r, this⟩

/-- One piece of the list, as the registry reads it. -/
theorem parsePiece_means {s : Bytes} {r : Option Spec.Addr} (h : Spec.Means s r) (u : URL) :
    (parsePiece u s).map (fun v => (v.host, v.port, v.group)) = r.map fun a =>
      match a with
      | .tcp h n => (h, (n : Int), u.group)
      | .socket p => (b!"unix://" ++ p, 0, u.group) := by
  cases h with
  | tcp a b c d h n ha hb hc hd hne hh hn =>
    have hx : (58 : UInt8) ∉ a ++ h ++ b := by
      simp only [List.mem_append, not_or]
      exact ⟨⟨blank_not ha (by decide), fun m => (hh _ m).2.1 rfl⟩, blank_not hb (by decide)⟩
    have hy : (58 : UInt8) ∉ c ++ natDigits n ++ d := by
      simp only [List.mem_append, not_or]
      exact ⟨⟨blank_not hc (by decide), fun m => (natDigits_plain n _ m).2.1 rfl⟩, blank_not hd (by decide)⟩
    have hu : hasPrefix (a ++ h ++ b ++ b!":" ++ (c ++ natDigits n ++ d)) b!"unix://" = false := by
      rw [Bool.eq_false_iff]
      intro hp
      obtain ⟨-, r, hr⟩ := unix_colon hx hp
      have hm : (47 : UInt8) ∈ c ++ natDigits n ++ d := by rw [hr]; simp
      simp only [List.mem_append] at hm
      rcases hm with (hm | hm) | hm
      · exact blank_not hc (by decide) hm
      · exact absurd (natDigits_digit n _ hm) (by decide)
      · exact blank_not hd (by decide) hm
    have ht : trimSpace h = h := trimSpace_id fun x hx => (hh x hx).1
    have ht2 : trimSpace (natDigits n) = natDigits n := trimSpace_id fun x hx => (natDigits_plain n x hx).1
    have hs : trimSplit (a ++ h ++ b ++ b!":" ++ (c ++ natDigits n ++ d)) b!":" = [h, natDigits n] := by
      rw [trimSplit_colon hx hy, trimSpace_pad ha hb, trimSpace_pad hc hd, ht, ht2]
      simp [hne, natDigits_ne_nil]
    have hpn : parseInt64 (natDigits n) = ((n : Int), none) := by
      have := parseInt64_formatInt (n : Int) (by omega) (by omega)
      rw [formatInt, if_neg (by omega)] at this
      simpa using this
    unfold parsePiece
    rw [if_neg (by rw [hu]; decide), hs]
    simp only [hpn, Option.map_some]
  | socket p hp =>
    unfold parsePiece
    have hu : hasPrefix (b!"unix://" ++ p) b!"unix://" = true := List.isPrefixOf_iff_prefix.mpr ⟨p, rfl⟩
    rw [if_pos hu]
    rfl
  | noColon _ h hc =>
    have hu : hasPrefix s b!"unix://" = false := by
      rw [Bool.eq_false_iff]
      intro hp
      obtain ⟨r, hr⟩ := List.isPrefixOf_iff_prefix.mp hp
      exact h (by rw [← hr]; simp)
    unfold parsePiece
    have hs : trimSplit s b!":" = [trimSpace s].filter (· ≠ []) := by
      rw [trimSplit_eq _ _ (by decide)]
      show List.filter _ (List.map _ (split [58] s)) = _
      rw [split_single h]; rfl
    rw [if_neg (by rw [hu]; decide), hs]
    by_cases ht : trimSpace s = [] <;> simp [ht, List.filter_cons]
  | noPort x y hx hun hy hxc hyc z hz hzs hzd hzp hzm =>
    have hu : hasPrefix (x ++ b!":" ++ y) b!"unix://" = false := by
      rw [Bool.eq_false_iff]
      intro hp
      exact hun (unix_colon hx hp).1
    obtain ⟨n, e, he⟩ := parseInt64_not_number (trimSpace_keeps hz hzs) hzd hzp hzm
    have hy0 : trimSpace y ≠ [] := by
      intro h0; have := trimSpace_keeps hz hzs; rw [h0] at this; cases this
    unfold parsePiece
    rw [if_neg (by rw [hu]; decide), trimSplit_colon hx hy]
    by_cases hx0 : trimSpace x = []
    · simp [hx0, hy0, List.filter_cons]
    · simp [hx0, hy0, List.filter_cons, he]

/-! ## Discovery -/

theorem client_copy_param {u : URL} (hp : Spec.Proper u) : (copy u).param = u.param := by
  funext k
  unfold URL.param copy
  simp only [Option.bind_some]
  rw [AMap.load_storeAll _ _ hp]
  cases hu : u.params with
  | none => rfl
  | some m =>
    simp only [Option.getD_some, Option.bind_some, AMap.load_nil]
    cases AMap.load m k <;> rfl

theorem serverURL_view {url : URL} (hp : Spec.Proper url) (u : URL) :
    Spec.view (serverURL url u) =
      { Spec.view url with host := u.host, port := u.port, group := if u.group = [] then url.group else u.group } := by
  have hc := client_copy_param hp
  have hc' : ∀ (h : Bytes) (p : Int) (g : Bytes),
      ({ copy url with host := h, port := p, group := g } : URL).param = (copy url).param := fun _ _ _ => rfl
  unfold serverURL
  by_cases h : u.group = []
  · simp only [h, ne_eq, not_true_eq_false, if_false, if_true]
    show Spec.UrlView.mk url.protocol u.host u.port url.path url.group (copy url).param = _
    rw [hc]; rfl
  · simp only [h, ne_eq, not_false_eq_true, if_false, if_true]
    show Spec.UrlView.mk url.protocol u.host u.port url.path u.group (copy url).param = _
    rw [hc]; rfl

/-- The registry's URL as the cluster and the configuration give it: no host and port of its own. -/
def Spec.Listing (reg : URL) (pieces : List (Bytes × Option Spec.Addr)) : Prop :=
  (reg.host = [] ∨ reg.port ≤ 0) ∧ pieces ≠ [] ∧ (∀ p ∈ pieces, Spec.Means p.1 p.2) ∧
  reg.param b!"address" = some (join b!"," (pieces.map Prod.fst))

theorem parseURLs_listing {reg : URL} {pieces : List (Bytes × Option Spec.Addr)} (h : Spec.Listing reg pieces) :
    parseURLs reg = pieces.filterMap fun p => parsePiece (copy reg) p.1 := by
  obtain ⟨h1, h2, h3, h4⟩ := h
  unfold parseURLs
  rw [if_neg, h4]
  · simp only
    show List.filterMap _ (split [44] (join [44] _)) = _
    rw [split_join _ (by simpa using h2), List.filterMap_map]
    · rfl
    · intro p hp
      obtain ⟨q, hq, rfl⟩ := List.mem_map.mp hp
      exact means_no_comma (h3 q hq)
  · rintro ⟨a, b⟩
    rcases h1 with e | e
    · rw [e] at a; exact absurd a (by decide)
    · omega

/-- **C73 (discovery).** A direct registry with a list of addresses gives exactly the named servers, in the order of the
list, each as the client's own URL at that address; pieces that name nothing are left out. -/
theorem direct_addresses (reg url : URL) (hp : Spec.Proper url) (pieces : List (Bytes × Option Spec.Addr))
    (h : Spec.Listing reg pieces) :
    (discover reg url).map Spec.view = (pieces.filterMap Prod.snd).map (Spec.serverAt url reg.group) := by
  unfold discover
  rw [parseURLs_listing h]
  have h3 := h.2.2.1
  clear h
  induction pieces with
  | nil => rfl
  | cons p ps ih =>
    have hm := parsePiece_means (h3 p (by simp)) (copy reg)
    have ih := ih fun q hq => h3 q (by simp [hq])
    obtain ⟨s, r⟩ := p
    simp only at hm
    cases hr : r with
    | none =>
      rw [hr] at hm
      have : parsePiece (copy reg) s = none := by cases hpp : parsePiece (copy reg) s <;> simp_all
      simp only [List.filterMap_cons, this]
      exact ih
    | some a =>
      rw [hr] at hm
      cases hpp : parsePiece (copy reg) s with
      | none => rw [hpp] at hm; simp at hm
      | some v =>
        rw [hpp] at hm
        simp only [Option.map_some, Option.some.injEq] at hm
        simp only [List.filterMap_cons, hpp, List.map_cons]
        rw [ih, serverURL_view hp]
        congr 1
        have hg : (copy reg).group = reg.group := rfl
        cases a <;> simp only [Prod.mk.injEq, hg] at hm <;> obtain ⟨e1, e2, e3⟩ := hm <;>
          simp only [Spec.serverAt, e1, e2, e3]

/-- **C73 (a registry with a host).** With a host and a port of its own, the registry gives this one server. -/
theorem direct_single (reg url : URL) (hp : Spec.Proper url) (hh : reg.host ≠ []) (hport : 0 < reg.port) :
    (discover reg url).map Spec.view =
      [{ Spec.view url with host := reg.host, port := reg.port, group := if reg.group = [] then url.group else reg.group }] := by
  unfold discover parseURLs
  rw [if_pos ⟨List.length_pos_iff.mpr hh, hport⟩]
  simp only [List.map_cons, List.map_nil, serverURL_view hp]
  rfl

theorem direct_nothing (reg url : URL) (hh : reg.host = [] ∨ reg.port ≤ 0) (ha : reg.param b!"address" = none) :
    discover reg url = [] := by
  unfold discover parseURLs
  rw [if_neg, ha]; rfl
  rintro ⟨a, b⟩
  rcases hh with e | e
  · rw [e] at a; exact absurd a (by decide)
  · omega

theorem addressStr_fresh {u : URL} (h1 : u.addressC = none) (h2 : u.portStrC = none) :
    (getAddressStr u).1 = if hasPrefix u.host b!"unix://" = true then u.host else u.host ++ b!":" ++ formatInt u.port := by
  unfold getAddressStr getPortStr
  rw [h1, h2]
  by_cases h : hasPrefix u.host b!"unix://" = true
  · rw [if_pos h]; simp only [h, if_true]
  · rw [if_neg h]; simp only [h, if_false, Bool.false_eq_true]

/-- **C73 (what is dialled).** The address of each server is the one the user wrote. -/
theorem direct_dial (reg url : URL) (pieces : List (Bytes × Option Spec.Addr)) (hp : Spec.Proper url)
    (h : Spec.Listing reg pieces) :
    (discover reg url).map (fun u => (getAddressStr u).1) = (pieces.filterMap Prod.snd).map Spec.Addr.text := by
  have hv := direct_addresses reg url hp pieces h
  have hc : ∀ u ∈ discover reg url, u.addressC = none ∧ u.portStrC = none := by
    intro u hu
    obtain ⟨v, -, rfl⟩ := List.mem_map.mp hu
    unfold serverURL
    simp only
    split <;> exact ⟨rfl, rfl⟩
  have hm : ∀ a, some a ∈ pieces.map Prod.snd → (∀ h n, a = .tcp h n → (58 : UInt8) ∉ h) := by
    intro a ha h' n e
    subst e
    obtain ⟨p, hp, e⟩ := List.mem_map.mp ha
    have := h.2.2.1 p hp
    rw [e] at this
    generalize p.1 = x at this
    cases this with
    | tcp a b c d h n ha hb hc hd hne hh hn => exact fun m => (hh _ m).2.1 rfl
  have hm' : ∀ a ∈ pieces.filterMap Prod.snd, ∀ h n, a = .tcp h n → (58 : UInt8) ∉ h := by
    intro a ha
    refine hm a ?_
    obtain ⟨p, hp, e⟩ := List.mem_filterMap.mp ha
    exact List.mem_map.mpr ⟨p, hp, e⟩
  generalize discover reg url = us at hv hc
  generalize pieces.filterMap Prod.snd = as at hv hm'
  induction as generalizing us with
  | nil =>
    rw [List.map_nil, List.map_eq_nil_iff] at hv
    rw [hv]; rfl
  | cons a as ih =>
    cases us with
    | nil => simp at hv
    | cons u us =>
      rw [List.map_cons, List.map_cons, List.cons.injEq] at hv
      rw [List.map_cons, List.map_cons, ih us (fun v hx => hc v (by simp [hx])) hv.2 fun b hb => hm' b (by simp [hb])]
      congr 1
      have h1 := hc u (by simp)
      have h2 : u.host = (Spec.serverAt url reg.group a).host := congrArg Spec.UrlView.host hv.1
      have h3 : u.port = (Spec.serverAt url reg.group a).port := congrArg Spec.UrlView.port hv.1
      have h4 := hm' a (by simp)
      rw [addressStr_fresh h1.1 h1.2]
      cases a with
      | socket p =>
        have h2 : u.host = b!"unix://" ++ p := h2
        have hu : hasPrefix (b!"unix://" ++ p) b!"unix://" = true := List.isPrefixOf_iff_prefix.mpr ⟨p, rfl⟩
        rw [h2, if_pos hu]; rfl
      | tcp hst n =>
        have h2 : u.host = hst := h2
        have h3 : u.port = (n : Int) := h3
        have hu : hasPrefix hst b!"unix://" = false := by
          rw [Bool.eq_false_iff]
          intro hh
          obtain ⟨r, hr⟩ := List.isPrefixOf_iff_prefix.mp hh
          exact h4 hst n rfl (by rw [← hr]; simp)
        rw [h2, h3, if_neg (by rw [hu]; decide)]
        simp [Spec.Addr.text, formatInt]

/-! ## The environment variable -/

/-- One entry of the variable: for which services, an optional group, and the addresses as written. -/
structure Spec.Rule where
  key : Bytes
  group : Option Bytes
  addrs : Bytes

/-- The text has none of the separators `;` and `>`, and no white space at its ends. -/
def Spec.Word (s : Bytes) : Prop := (59 : UInt8) ∉ s ∧ (62 : UInt8) ∉ s ∧ trimSpace s = s

/-- How an entry is written: `key>addresses` or `key>group@addresses`, with white space anywhere between. -/
inductive Spec.Written : Bytes → Spec.Rule → Prop
  | plain (a b c d k A : Bytes) (ha : Spec.Blank a) (hb : Spec.Blank b) (hc : Spec.Blank c) (hd : Spec.Blank d)
      (hk : Spec.Word k) (hA : Spec.Word A) (hat : (64 : UInt8) ∉ A) :
      Spec.Written (a ++ k ++ b ++ b!">" ++ (c ++ A ++ d)) ⟨k, none, A⟩
  | grouped (a b c d e f k g A : Bytes) (ha : Spec.Blank a) (hb : Spec.Blank b) (hc : Spec.Blank c) (hd : Spec.Blank d)
      (he : Spec.Blank e) (hf : Spec.Blank f) (hk : Spec.Word k) (hg : Spec.Word g) (hgat : (64 : UInt8) ∉ g)
      (hA : Spec.Word A) :
      Spec.Written (a ++ k ++ b ++ b!">" ++ (c ++ g ++ d ++ b!"@" ++ (e ++ A ++ f))) ⟨k, some g, A⟩

/-- The registry an entry stands for. -/
def Spec.Rule.registry (r : Spec.Rule) : URL :=
  { protocol := b!"direct", group := r.group.getD [], params := some [(b!"address", r.addrs)] }

/-- An entry `x*` is for the services whose path begins with `x`, any other for those whose path ends with it. -/
def Spec.EntryApplies (key path : Bytes) : Prop :=
  (∃ x, key = x ++ b!"*" ∧ ∃ r, path = x ++ r) ∨ ((¬ ∃ x, key = x ++ b!"*") ∧ ∃ r, path = r ++ key)

theorem entry_applies_iff (key path : Bytes) : applies path key = true ↔ Spec.EntryApplies key path := by
  unfold applies hasSuffix hasPrefix Spec.EntryApplies
  by_cases h : (b!"*").isSuffixOf key = true
  · rw [if_pos h]
    obtain ⟨x, hx⟩ := List.isSuffixOf_iff_suffix.mp h
    have ht : key.take (key.length - 1) = x := by
      rw [← hx]
      show List.take ((x ++ [42]).length - 1) (x ++ [42]) = x
      rw [List.length_append]
      simp
    rw [ht, List.isPrefixOf_iff_prefix]
    constructor
    · rintro ⟨r, hr⟩; exact .inl ⟨x, hx.symm, r, hr.symm⟩
    · rintro (⟨y, hy, r, hr⟩ | ⟨hn, -⟩)
      · rw [← hx] at hy
        have := List.append_cancel_right hy
        exact ⟨r, by rw [this, hr]⟩
      · exact absurd ⟨x, hx.symm⟩ hn
  · rw [if_neg h, List.isSuffixOf_iff_suffix]
    have hno : ¬ ∃ x, key = x ++ b!"*" := by
      rintro ⟨x, hx⟩
      exact h (List.isSuffixOf_iff_suffix.mpr ⟨x, hx.symm⟩)
    constructor
    · rintro ⟨r, hr⟩; exact .inr ⟨hno, r, hr.symm⟩
    · rintro (⟨y, hy, -⟩ | ⟨-, r, hr⟩)
      · exact absurd ⟨y, hy⟩ hno
      · exact ⟨r, hr.symm⟩

theorem blank_trim {a : Bytes} (ha : Spec.Blank a) : trimSpace a = [] := by
  have := trimSpace_left ha []
  rw [List.append_nil] at this
  rw [this]; rfl

theorem written_no_semicolon {s : Bytes} {r : Spec.Rule} (h : Spec.Written s r) : (59 : UInt8) ∉ s := by
  cases h with
  | plain a b c d k A ha hb hc hd hk hA hat =>
    simp only [List.mem_append, not_or]
    exact ⟨⟨⟨⟨blank_not ha (by decide), hk.1⟩, blank_not hb (by decide)⟩, by decide⟩,
      ⟨blank_not hc (by decide), hA.1⟩, blank_not hd (by decide)⟩
  | grouped a b c d e f k g A ha hb hc hd he hf hk hg hgat hA =>
    simp only [List.mem_append, not_or]
    exact ⟨⟨⟨⟨blank_not ha (by decide), hk.1⟩, blank_not hb (by decide)⟩, by decide⟩,
      ⟨⟨⟨blank_not hc (by decide), hg.1⟩, blank_not hd (by decide)⟩, by decide⟩,
      ⟨blank_not he (by decide), hA.1⟩, blank_not hf (by decide)⟩

theorem readPiece_written {s : Bytes} {r : Spec.Rule} (h : Spec.Written s r) (m : AMap Bytes URL) :
    readPiece m s = AMap.store m r.key r.registry := by
  cases h with
  | plain a b c d k A ha hb hc hd hk hA hat =>
    have h1 : (62 : UInt8) ∉ a ++ k ++ b := by
      simp only [List.mem_append, not_or]; exact ⟨⟨blank_not ha (by decide), hk.2.1⟩, blank_not hb (by decide)⟩
    have h2 : (62 : UInt8) ∉ c ++ A ++ d := by
      simp only [List.mem_append, not_or]; exact ⟨⟨blank_not hc (by decide), hA.2.1⟩, blank_not hd (by decide)⟩
    have h3 : (64 : UInt8) ∉ c ++ A ++ d := by
      simp only [List.mem_append, not_or]; exact ⟨⟨blank_not hc (by decide), hat⟩, blank_not hd (by decide)⟩
    have hs : split b!">" (a ++ k ++ b ++ b!">" ++ (c ++ A ++ d)) = [a ++ k ++ b, c ++ A ++ d] := by
      show split [62] (a ++ k ++ b ++ [62] ++ (c ++ A ++ d)) = _
      rw [split_cons h1, split_single h2]
    have hi : index b!"@" (c ++ A ++ d) = none := index_none_of_not_mem h3
    unfold readPiece
    rw [hs]
    simp only [hi, trimSpace_pad ha hb, trimSpace_pad hc hd, hk.2.2, hA.2.2]
    rfl
  | grouped a b c d e f k g A ha hb hc hd he hf hk hg hgat hA =>
    have h1 : (62 : UInt8) ∉ a ++ k ++ b := by
      simp only [List.mem_append, not_or]; exact ⟨⟨blank_not ha (by decide), hk.2.1⟩, blank_not hb (by decide)⟩
    have h2 : (62 : UInt8) ∉ c ++ g ++ d ++ b!"@" ++ (e ++ A ++ f) := by
      simp only [List.mem_append, not_or]
      exact ⟨⟨⟨⟨blank_not hc (by decide), hg.2.1⟩, blank_not hd (by decide)⟩, by decide⟩,
        ⟨blank_not he (by decide), hA.2.1⟩, blank_not hf (by decide)⟩
    have h3 : (64 : UInt8) ∉ c ++ g ++ d := by
      simp only [List.mem_append, not_or]; exact ⟨⟨blank_not hc (by decide), hgat⟩, blank_not hd (by decide)⟩
    have hs : split b!">" (a ++ k ++ b ++ b!">" ++ (c ++ g ++ d ++ b!"@" ++ (e ++ A ++ f))) =
        [a ++ k ++ b, c ++ g ++ d ++ b!"@" ++ (e ++ A ++ f)] := by
      show split [62] (a ++ k ++ b ++ [62] ++ _) = _
      rw [split_cons h1, split_single h2]
    have hi : index b!"@" (c ++ g ++ d ++ b!"@" ++ (e ++ A ++ f)) = some (c ++ g ++ d).length := by
      show index [64] _ = _
      rw [List.append_assoc (c ++ g ++ d), index_append_of_not_mem h3, index_self]; simp
    have ht : (c ++ g ++ d ++ b!"@" ++ (e ++ A ++ f)).take (c ++ g ++ d).length = c ++ g ++ d := by
      rw [List.append_assoc (c ++ g ++ d)]; exact List.take_left
    have hdr : (c ++ g ++ d ++ b!"@" ++ (e ++ A ++ f)).drop ((c ++ g ++ d).length + 1) = e ++ A ++ f :=
      List.drop_left' (by simp; omega)
    unfold readPiece
    rw [hs]
    simp only [hi, ht, hdr, trimSpace_pad ha hb, trimSpace_pad hc hd, trimSpace_pad he hf, hk.2.2, hg.2.2, hA.2.2]
    rfl

/-- The value of the variable: the entries, separated by `;`. -/
def Spec.Variable (str : Bytes) (rules : List Spec.Rule) : Prop :=
  ∃ parts : List (Bytes × Spec.Rule), parts ≠ [] ∧ (∀ p ∈ parts, Spec.Written p.1 p.2) ∧
    str = join b!";" (parts.map Prod.fst) ∧ rules = parts.map Prod.snd

theorem readEnv_variable {str : Bytes} {rules : List Spec.Rule} (h : Spec.Variable str rules) :
    readEnv str = AMap.storeAll [] (rules.map fun r => (r.key, r.registry)) := by
  obtain ⟨parts, hne, hw, rfl, rfl⟩ := h
  unfold readEnv
  have hno : ∀ p ∈ parts.map Prod.fst, (59 : UInt8) ∉ p := by
    intro p hp
    obtain ⟨q, hq, rfl⟩ := List.mem_map.mp hp
    exact written_no_semicolon (hw q hq)
  show List.foldl readPiece [] (split [59] (join [59] _)) = _
  rw [split_join _ (by simpa using hne) hno]
  clear hne hno
  generalize ([] : AMap Bytes URL) = m
  induction parts generalizing m with
  | nil => rfl
  | cons p ps ih =>
    rw [List.map_cons, List.foldl_cons, readPiece_written (hw p (by simp)), ih fun q hq => hw q (by simp [hq])]; rfl

theorem storeAll_last {κ ν : Type} [DecidableEq κ] (m : AMap κ ν) (ps : List (κ × ν)) (k : κ) (v : ν)
    (qs : List (κ × ν)) (hq : k ∉ qs.map Prod.fst) : (AMap.storeAll m (ps ++ (k, v) :: qs)).load k = some v := by
  have e : AMap.storeAll m (ps ++ (k, v) :: qs) = AMap.storeAll ((AMap.storeAll m ps).store k v) qs := by
    simp [AMap.storeAll, List.foldl_append]
  rw [e, AMap.load_storeAll_of_not_mem _ _ _ hq, AMap.load_store_self]

theorem storeAll_keys {κ ν : Type} [DecidableEq κ] (m : AMap κ ν) (ps : List (κ × ν)) (k : κ) (v : ν)
    (h : (k, v) ∈ AMap.storeAll m ps) : (k, v) ∈ m ∨ (k, v) ∈ ps := by
  induction ps generalizing m with
  | nil => exact .inl h
  | cons p ps ih =>
    rcases ih (m.store p.1 p.2) h with h | h
    · have : ∀ m : AMap κ ν, (k, v) ∈ m.store p.1 p.2 → (k, v) ∈ m ∨ (k, v) = p := by
        intro m
        induction m with
        | nil => intro h; simp only [AMap.store, List.mem_singleton] at h; exact .inr h
        | cons q m ihm =>
          intro h
          rw [AMap.store] at h
          split at h
          · rcases List.mem_cons.mp h with h | h
            · exact .inr h
            · exact .inl (List.mem_cons_of_mem _ h)
          · rcases List.mem_cons.mp h with h | h
            · exact .inl (h ▸ List.mem_cons_self)
            · rcases ihm h with h | h
              · exact .inl (List.mem_cons_of_mem _ h)
              · exact .inr h
      rcases this m h with h | h
      · exact .inl h
      · exact .inr (h ▸ List.mem_cons_self)
    · exact .inr (List.mem_cons_of_mem _ h)

/-- **C73 (the entry).** If one entry applies to a service, its registry is the one used, whatever the order in which
Go goes over the table. An entry written later goes before an earlier one with the same key. -/
theorem direct_env_entry (str : Bytes) (before after : List Spec.Rule) (r : Spec.Rule)
    (h : Spec.Variable str (before ++ r :: after)) (range : AMap Bytes URL) (hr : range.Perm (readEnv str)) (path : Bytes)
    (ha : Spec.EntryApplies r.key path) (hlast : ∀ x ∈ after, x.key ≠ r.key)
    (honly : ∀ x ∈ before ++ after, Spec.EntryApplies x.key path → x.key = r.key) :
    envRegistry range path = some r.registry := by
  have he := readEnv_variable h
  have hnd : (readEnv str).NodupKeys := by rw [he]; exact AMap.nodupKeys_storeAll AMap.nodupKeys_nil _
  have hl : (readEnv str).load r.key = some r.registry := by
    rw [he, List.map_append, List.map_cons]
    apply storeAll_last
    intro hm
    simp only [List.map_map, List.mem_map, Function.comp] at hm
    obtain ⟨x, hx, e⟩ := hm
    exact hlast x hx e
  have hin : (r.key, r.registry) ∈ range := hr.mem_iff.mpr (AMap.mem_of_load hl)
  unfold envRegistry
  cases hf : range.find? fun e => applies path e.1 with
  | none =>
    have := List.find?_eq_none.mp hf _ hin
    exact absurd ((entry_applies_iff _ _).mpr ha) this
  | some e =>
    have hap := List.find?_some hf
    have hmem : e ∈ readEnv str := hr.mem_iff.mp (List.mem_of_find?_eq_some hf)
    obtain ⟨k, u⟩ := e
    have hk : k = r.key := by
      have := hmem
      rw [he] at this
      rcases storeAll_keys _ _ _ _ this with h' | h'
      · cases h'
      · obtain ⟨x, hx, e⟩ := List.mem_map.mp h'
        have e1 : x.key = k := congrArg Prod.fst e
        rcases List.mem_append.mp hx with hb | hb
        · rw [← e1]; exact honly x (by simp [hb]) ((entry_applies_iff _ _).mp (by rw [e1]; exact hap))
        · rcases List.mem_cons.mp hb with rfl | hb
          · exact e1.symm
          · rw [← e1]; exact honly x (by simp [hb]) ((entry_applies_iff _ _).mp (by rw [e1]; exact hap))
    subst hk
    have := AMap.load_of_mem hnd hmem
    rw [hl] at this
    simp only [Option.map_some]
    exact this.symm

/-- **C73 (no entry).** A service to which no entry applies uses its configured registries. -/
theorem direct_env_none (str : Bytes) (rules : List Spec.Rule) (h : Spec.Variable str rules) (range : AMap Bytes URL)
    (hr : range.Perm (readEnv str)) (path : Bytes) (hno : ∀ r ∈ rules, ¬ Spec.EntryApplies r.key path) :
    envRegistry range path = none := by
  unfold envRegistry
  rw [Option.map_eq_none_iff, List.find?_eq_none]
  intro e he hap
  have hm := hr.mem_iff.mp he
  rw [readEnv_variable h] at hm
  obtain ⟨k, u⟩ := e
  rcases storeAll_keys _ _ _ _ hm with h' | h'
  · cases h'
  · obtain ⟨x, hx, e⟩ := List.mem_map.mp h'
    have e1 : x.key = k := congrArg Prod.fst e
    exact hno x hx ((entry_applies_iff _ _).mp (by rw [e1]; exact hap))

/-- Without the variable nothing applies. -/
theorem direct_env_unset (range : AMap Bytes URL) (hr : range.Perm (readEnv [])) (path : Bytes) :
    envRegistry range path = none := by
  have : readEnv [] = [] := by decide +kernel
  rw [this] at hr
  rw [List.perm_nil.mp hr]; rfl

/-! ## The cluster -/

theorem endpointURL_view (env : Cluster.Env) (hp : Spec.Proper env.url) (u : URL) (hu : u.param = env.url.param)
    (hup : Spec.Proper u) : Spec.view (endpointURL env u) = Spec.view u := by
  obtain ⟨h1, h2, h3, h4, h5, -, -⟩ := endpointURL_fields env u
  have h6 : (endpointURL env u).param = u.param := by
    funext k
    have e : (endpointURL env u).param k = AMap.load (AMap.storeAll (AMap.storeAll [] (u.params.getD [])) (env.url.params.getD [])) k := by
      unfold endpointURL mergeParams copy URL.param; rfl
    have e2 : env.url.param k = AMap.load (env.url.params.getD []) k := by
      unfold URL.param; cases env.url.params <;> rfl
    have e3 : u.param k = AMap.load (u.params.getD []) k := by
      unfold URL.param; cases u.params <;> rfl
    rw [e, AMap.load_storeAll _ _ hp, AMap.load_storeAll _ _ hup, ← e2, ← e3, hu]
    cases env.url.param k <;> rfl
  simp only [Spec.view, h1, h2, h3, h4, h5, h6]

theorem serverURL_proper (url u : URL) : Spec.Proper (serverURL url u) := by
  unfold serverURL Spec.Proper
  simp only
  split <;> exact AMap.nodupKeys_storeAll AMap.nodupKeys_nil _

theorem isSame_self {m : Option (AMap Bytes Bytes)} {u url : URL} (h : u.param = url.param) (hm : u.params = m)
    (k d : Bytes) : isSame m url.params k d = true := by
  unfold isSame
  have : m.bind (fun m => AMap.load m k) = url.params.bind (fun m => AMap.load m k) := by
    have := congrFun h k
    unfold URL.param at this
    rw [← hm]; exact this
  split
  · rfl
  · rw [this]; simp

theorem canServe_server {url : URL} (hp : Spec.Proper url) (u : URL) : canServe (serverURL url u) url = true := by
  have hv := serverURL_view hp u
  have h1 : (serverURL url u).protocol = url.protocol := congrArg Spec.UrlView.protocol hv
  have h2 : (serverURL url u).path = url.path := congrArg Spec.UrlView.path hv
  have h3 : (serverURL url u).param = url.param := congrArg Spec.UrlView.params hv
  unfold canServe canServeProtocol
  simp [h1, h2, isSame_self h3 rfl]

theorem place_all (env : Cluster.Env) (hp : Spec.Proper env.url) (hk : env.known env.url.protocol = true) (us : List URL)
    (n : Nat) : (place env ((us.map (serverURL env.url)).map some) [] n).1.map (fun e => e.url) =
      (us.map (serverURL env.url)).map (endpointURL env) := by
  induction us generalizing n with
  | nil => rfl
  | cons u us ih =>
    have h1 : (serverURL env.url u).protocol = env.url.protocol := congrArg Spec.UrlView.protocol (serverURL_view hp u)
    have h2 := (endpointURL_fields env (serverURL env.url u)).1
    simp only [List.map_cons]
    rw [place, if_neg (by rw [canServe_server hp]; decide)]
    simp only [AMap.load_nil, h2, h1, hk, if_true, List.map_cons]
    rw [ih]

theorem notify_servers {N : Net} (env : Cluster.Env) (hp : Spec.Proper env.url) (hk : env.known env.url.protocol = true)
    (hrule : env.url.protocol ≠ b!"rule") (reg : Bytes) (us : List URL) (o w : List (Nat × Nat)) :
    ((notify (N := N) env {} reg ((us.map (serverURL env.url)).map some) o w).balanced.map fun e => Spec.view e.url).Perm
      ((us.map (serverURL env.url)).map Spec.view) := by
  have hpw : processWeight ((us.map (serverURL env.url)).map some) = ((us.map (serverURL env.url)).map some, []) := by
    unfold processWeight
    cases hg : ((us.map (serverURL env.url)).map some).getLast? with
    | none => rfl
    | some x =>
      have := List.mem_of_getLast? hg
      simp only [List.mem_map] at this
      obtain ⟨y, ⟨z, -, rfl⟩, rfl⟩ := this
      have h1 : (serverURL env.url z).protocol = env.url.protocol := congrArg Spec.UrlView.protocol (serverURL_view hp z)
      simp only [h1, if_neg hrule]
  have hpl := place_all env hp hk us 0
  have hview : ((us.map (serverURL env.url)).map (endpointURL env)).map Spec.view = (us.map (serverURL env.url)).map Spec.view := by
    simp only [List.map_map]
    apply List.map_congr_left
    intro u _
    exact endpointURL_view env hp _ (congrArg Spec.UrlView.params (serverURL_view hp u)) (serverURL_proper _ _)
  rcases notify_cases (N := N) env {} reg ((us.map (serverURL env.url)).map some) o w with ⟨h0, -, e⟩ | ⟨-, h1, -⟩ | ⟨h0, t, ht, e⟩
  · rw [e]
    rw [hpw] at h0
    have : (us.map (serverURL env.url)).map (endpointURL env) = [] := by
      rw [← hpl]
      show (place env _ (endpointMap []) 0).1.map _ = []
      have h0' : (place env ((us.map (serverURL env.url)).map some) [] 0).1 = [] := h0
      have : endpointMap [] = [] := rfl
      rw [this, h0']; rfl
    rw [← hview, this]
    exact .refl _
  · exact absurd h1 (by simp)
  · rw [e, ht]
    rw [hpw]
    have hb : ∀ s : State N, (refresh s o w).balanced = (refresh s o w).refers := fun _ => rfl
    show (List.map (fun e => Spec.view e.url) (refresh _ o w).balanced).Perm _
    rw [hb]
    refine ((refresh_refers _ o w).map _).trans ?_
    have hheld : ∀ s : State N, s.refersFilter = none → filterRefers s.refersFilter Ep.url (Spec.held s) = Spec.held s := by
      intro s hs; rw [hs]; rfl
    rw [hheld _ rfl]
    have : Spec.held ({ ({} : State N) with
        weight := []
        next := (place env ((us.map (serverURL env.url)).map some) (endpointMap []) 0).2.2
        registryRefers := AMap.store [] reg (place env ((us.map (serverURL env.url)).map some) (endpointMap []) 0).1 }) =
        (place env ((us.map (serverURL env.url)).map some) [] 0).1 := by
      show List.flatMap Prod.snd [(reg, _)] = _
      simp; rfl
    refine List.Perm.of_eq ?_
    refine (congrArg (List.map fun e => Spec.view e.url) this).trans ?_
    rw [← hview, ← hpl]
    simp [List.map_map]

/-- **C73.** A new cluster to whose service one entry of the variable applies calls through exactly the servers that the
entry names, one endpoint each: its own URL at that address, in the entry's group if it has one. The configured
registries play no part. -/
theorem direct_client {N : Net} (env : Cluster.Env) (hp : Spec.Proper env.url) (hk : env.known env.url.protocol = true)
    (hrule : env.url.protocol ≠ b!"rule") (str : Bytes) (before after : List Spec.Rule) (r : Spec.Rule)
    (h : Spec.Variable str (before ++ r :: after)) (range : AMap Bytes URL) (hr : range.Perm (readEnv str))
    (ha : Spec.EntryApplies r.key env.url.path) (hlast : ∀ x ∈ after, x.key ≠ r.key)
    (honly : ∀ x ∈ before ++ after, Spec.EntryApplies x.key env.url.path → x.key = r.key)
    (pieces : List (Bytes × Option Spec.Addr)) (hne : pieces ≠ []) (hm : ∀ p ∈ pieces, Spec.Means p.1 p.2)
    (haddr : r.addrs = join b!"," (pieces.map Prod.fst)) (o w : List (Nat × Nat)) :
    ∃ s : State N, setUp env range o w = some s ∧
      (s.balanced.map fun e => Spec.view e.url).Perm
        ((pieces.filterMap Prod.snd).map (Spec.serverAt env.url (r.group.getD []))) := by
  have he := direct_env_entry str before after r h range hr env.url.path ha hlast honly
  have hlist : Spec.Listing r.registry pieces := by
    refine ⟨.inl rfl, hne, hm, ?_⟩
    rw [← haddr]; rfl
  refine ⟨_, by unfold setUp; rw [he]; rfl, ?_⟩
  have := direct_addresses r.registry env.url hp pieces hlist
  rw [show r.group.getD [] = r.registry.group from rfl, ← this]
  exact notify_servers env hp hk hrule _ _ o w

/-! ## A concrete client -/

namespace Direct

def first : Spec.Rule := ⟨b!"Hello", some b!"g1", b!"10.0.0.1: 8001,unix:///tmp/s,bad,h:x"⟩

def second : Spec.Rule := ⟨b!"com.b*", none, b!"h:1"⟩

def variable_ : Bytes := b!" Hello >g1@10.0.0.1: 8001,unix:///tmp/s,bad,h:x;com.b*>h:1 "

theorem variable_spec : Spec.Variable variable_ ([] ++ first :: [second]) := by
  refine ⟨[(b!" Hello >g1@10.0.0.1: 8001,unix:///tmp/s,bad,h:x", first), (b!"com.b*>h:1 ", second)], by simp, ?_, by decide +kernel, rfl⟩
  intro p hp
  simp only [List.mem_cons, List.not_mem_nil, or_false] at hp
  rcases hp with rfl | rfl
  · exact .grouped b!" " b!" " [] [] [] [] b!"Hello" b!"g1" b!"10.0.0.1: 8001,unix:///tmp/s,bad,h:x" (by unfold Spec.Blank; decide)
      (by unfold Spec.Blank; decide) (by unfold Spec.Blank; decide) (by unfold Spec.Blank; decide) (by unfold Spec.Blank; decide)
      (by unfold Spec.Blank; decide) (by unfold Spec.Word; decide +kernel) (by unfold Spec.Word; decide +kernel) (by decide)
      (by unfold Spec.Word; decide +kernel)
  · exact .plain [] [] [] b!" " b!"com.b*" b!"h:1" (by unfold Spec.Blank; decide) (by unfold Spec.Blank; decide)
      (by unfold Spec.Blank; decide) (by unfold Spec.Blank; decide) (by unfold Spec.Word; decide +kernel)
      (by unfold Spec.Word; decide +kernel) (by decide)

def pieces : List (Bytes × Option Spec.Addr) :=
  [(b!"10.0.0.1: 8001", some (.tcp b!"10.0.0.1" 8001)), (b!"unix:///tmp/s", some (.socket b!"/tmp/s")), (b!"bad", none), (b!"h:x", none)]

theorem pieces_mean : ∀ p ∈ pieces, Spec.Means p.1 p.2 := by
  intro p hp
  simp only [pieces, List.mem_cons, List.not_mem_nil, or_false] at hp
  rcases hp with rfl | rfl | rfl | rfl
  · have := Spec.Means.tcp [] [] b!" " [] b!"10.0.0.1" 8001 (by unfold Spec.Blank; decide) (by unfold Spec.Blank; decide)
      (by unfold Spec.Blank; decide) (by unfold Spec.Blank; decide) (by decide) (by decide) (by decide)
    have e : natDigits 8001 = b!"8001" := by decide +kernel
    rw [e] at this
    exact this
  · exact .socket b!"/tmp/s" (by decide)
  · exact .noColon _ (by decide) (by decide)
  · exact .noPort b!"h" b!"x" (by decide) (by decide) (by decide) (by decide) (by decide) 120 (by decide) (by decide) (by decide)
      (by decide) (by decide)

def client : Cluster.Env :=
  { url := { protocol := b!"motan2", path := b!"com.a.Hello", group := b!"g0", params := some [(b!"requestTimeout", b!"7")] }
    known := fun p => p = b!"motan2" }

/-- The hypotheses of `direct_client` hold of a client whose entry has a group, a socket and pieces without meaning. -/
example (N : Net) : ∃ s : State N, setUp client (readEnv variable_) [] [(0, 1)] = some s ∧
    (s.balanced.map fun e => Spec.view e.url).Perm
      ([Spec.Addr.tcp b!"10.0.0.1" 8001, .socket b!"/tmp/s"].map (Spec.serverAt client.url b!"g1")) :=
  direct_client client (by unfold Spec.Proper; decide) (by decide) (by decide) variable_ [] [second] first variable_spec _ (.refl _)
    (.inr ⟨by
      rintro ⟨x, hx⟩
      have : (42 : UInt8) ∈ first.key := by rw [hx]; simp
      exact absurd this (by decide), b!"com.a.", rfl⟩)
    (by simp [first, second]) (by
      intro x hx ha
      simp only [List.nil_append, List.mem_singleton] at hx
      subst hx
      have := (entry_applies_iff second.key client.url.path).mpr ha
      exact absurd this (by decide +kernel))
    pieces (by decide) pieces_mean (by decide +kernel) [] [(0, 1)]

/-- The registry is made of a configured URL in the same way. -/
def configured : URL := { protocol := b!"direct", params := some [(b!"address", b!"10.0.0.1: 8001,unix:///tmp/s,bad,h:x")] }

example : Spec.Listing configured pieces := ⟨.inl rfl, by decide, pieces_mean, by decide +kernel⟩

example : (discover configured client.url).map (fun u => (getAddressStr u).1) = [b!"10.0.0.1:8001", b!"unix:///tmp/s"] := by
  decide +kernel

end Direct

/-! ## What does not hold -/

/-- **C73 fails** if two entries apply: which one is used depends on the order in which Go goes over the table. -/
theorem direct_ambiguous_violated : ∃ (str path : Bytes) (range range' : AMap Bytes URL),
    range.Perm (readEnv str) ∧ range'.Perm (readEnv str) ∧ envRegistry range path ≠ envRegistry range' path :=
  ⟨b!"com.a*>h:1;Hello>h:2", b!"com.a.Hello", readEnv b!"com.a*>h:1;Hello>h:2", (readEnv b!"com.a*>h:1;Hello>h:2").reverse,
    .refl _, List.reverse_perm _, by decide +kernel⟩

/-- **C73 fails** for a socket behind a blank: the socket is left out without a word, though blanks are allowed around
`host:port`. -/
theorem direct_socket_violated :
    (discover { protocol := b!"direct", params := some [(b!"address", b!"h:1, unix:///s")] } {}).map (fun u => (getAddressStr u).1) =
      [b!"h:1"] := by decide +kernel

/-- **C73 fails** for addresses of IP version 6: they are left out. -/
theorem direct_ipv6_violated :
    discover { protocol := b!"direct", params := some [(b!"address", b!"[::1]:80")] } {} = [] := by decide +kernel

/-- **C73 fails** for a port that is none: the server is given to the client. -/
theorem direct_port_violated :
    (discover { protocol := b!"direct", params := some [(b!"address", b!"h:-5,h:70000")] } {}).map (fun u => (getAddressStr u).1) =
      [b!"h:-5", b!"h:70000"] := by decide +kernel

/-- **C73 fails** in the variable for a socket with `@` in its path (an abstract socket): what comes before is taken for
the group, and no server is left. -/
theorem direct_at_violated :
    ((envRegistry (readEnv b!"Hello>unix://@x") b!"Hello").map fun r => (r.group, discover r {})) =
      some (b!"unix://", []) := by decide +kernel

end Motan.Props
