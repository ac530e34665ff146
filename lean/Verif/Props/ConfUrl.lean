import Verif.Model.ConfUrl
import Verif.Props.Dynamic

/-!
# C65: configured references and services become what the configuration says
-/

namespace Motan.Props

open Motan Motan.Strings Motan.Url
open Motan.ConfUrl (Val Info Sect setConf confLoop confToURL entryURL confToURLs inherit withBasic mergedFilters withFilters
  basicConfToURLs addGroups furtherGroups splitGroups splitAll parseMultipleServiceGroup addSuffix parseRegGroupSuffix subStep
  parseSubGroupSuffix renameProtocol parseRefers parseServices)

/-! ## Specification -/

/-- A value of the configuration, as text. -/
def Spec.valText : Val → Bytes
  | .str s => s
  | .int n => formatInt n
  | .num t => t
  | .bool b => if b then b!"true" else b!"false"
  | .nil => []
  | .other => []

/-- What a URL says: its fields and parameters. -/
structure Spec.Desc where
  protocol : Bytes
  host : Bytes
  port : Int
  path : Bytes
  group : Bytes
  param : Bytes → Option Bytes

/-- The settings that are fields of the URL, not parameters. -/
def Spec.isField (k : Bytes) : Prop :=
  k = b!"protocol" ∨ k = b!"host" ∨ k = b!"port" ∨ k = b!"path" ∨ k = b!"group"

instance (k : Bytes) : Decidable (Spec.isField k) := by unfold Spec.isField; infer_instance

/-- The string a setting is given; nothing if it is absent or empty. -/
def Spec.confText (info : Info) (k : Bytes) : Bytes :=
  match AMap.load info k with
  | some (.str s) => s
  | _ => []

/-- The port of an entry. -/
def Spec.confPort (info : Info) : Int :=
  match AMap.load info b!"port" with
  | some (.int n) => n
  | _ => 0

/-- What an entry of a section says by itself: its name is the parameter `conf-id`. -/
def Spec.ownDesc (key : Bytes) (info : Info) : Spec.Desc where
  protocol := Spec.confText info b!"protocol"
  host := Spec.confText info b!"host"
  port := Spec.confPort info
  path := Spec.confText info b!"path"
  group := Spec.confText info b!"group"
  param k := if k = b!"conf-id" then some key else if Spec.isField k then none else (AMap.load info k).map Spec.valText

/-- One description over another: the first one's where it says something. -/
def Spec.over (own basic : Spec.Desc) : Spec.Desc where
  protocol := if own.protocol = [] then basic.protocol else own.protocol
  host := if own.host = [] then basic.host else own.host
  port := if own.port = 0 then basic.port else own.port
  path := if own.path = [] then basic.path else own.path
  group := if own.group = [] then basic.group else own.group
  param k := match own.param k with
    | some v => some v
    | none => basic.param k

/-- What an entry says, with the basic entry it names by the setting `basicKey`, if there is one of that name. -/
def Spec.fullDesc (basics : Sect) (basicKey key : Bytes) (info : Info) : Spec.Desc :=
  let own := Spec.ownDesc key info
  match own.param basicKey with
  | none => own
  | some name =>
    if name = [] then own
    else match AMap.load basics name with
      | some (some b) => Spec.over own (Spec.ownDesc name b)
      | _ => own

/-- The fields are given values of their types: strings (or nothing), and an integer port. -/
def Spec.Typed (info : Info) : Prop :=
  (∀ k, k = b!"protocol" ∨ k = b!"host" ∨ k = b!"path" ∨ k = b!"group" →
    ∀ v, AMap.load info k = some v → v = .nil ∨ ∃ s, v = .str s) ∧
  ∀ v, AMap.load info b!"port" = some v → ∃ n, v = .int n

/-- A section whose entries are maps of well-typed settings; no name occurs twice. -/
structure Spec.GoodSect (s : Sect) : Prop where
  nodup : s.NodupKeys
  entries : ∀ k i, AMap.load s k = some i → ∃ info, i = some info ∧ info.NodupKeys ∧ Spec.Typed info

/-- The filters of an entry: those of the agent that it does not disable, those of the environment and of the program,
and its own. -/
def Spec.ConfFilter (E : ConfUrl.Env) (d : Spec.Desc) (f : Bytes) : Prop :=
  (Spec.Listed ((E.agent.param b!"defaultFilter").getD []) f ∧
    ¬ Spec.Listed ((d.param b!"disableDefaultFilter").getD []) f) ∨
  (Spec.Listed ((E.agent.param b!"globalFilter").getD []) f ∧
    ¬ Spec.Listed ((d.param b!"disableGlobalFilter").getD []) f) ∨
  Spec.Listed E.envFilters f ∨ (∃ r ∈ E.relevant, trimSpace r = f) ∨ Spec.Listed ((d.param b!"filter").getD []) f

/-- The URL says what the description says, with these filters. -/
structure Spec.Says (E : ConfUrl.Env) (u : URL) (d : Spec.Desc) : Prop where
  protocol : u.protocol = d.protocol
  host : u.host = d.host
  port : u.port = d.port
  path : u.path = d.path
  group : u.group = d.group
  param : ∀ k, k ≠ b!"filter" → u.param k = d.param k
  filter : ∀ f, f ≠ [] → (Spec.Listed ((u.param b!"filter").getD []) f ↔ Spec.ConfFilter E d f)

/-- What the program and its environment contribute is sane: names without commas, and a set is listed as it is. -/
structure Spec.SaneEnv (E : ConfUrl.Env) : Prop where
  relevant : ∀ r ∈ E.relevant, (44 : UInt8) ∉ r
  order : ∀ l, (E.order l).Perm l

/-- The groups in which a service is exported: those it names and those of the environment, separated by commas, each
once; a single group is taken as it is. -/
def Spec.serviceGroups (extra g : Bytes) (gs : List Bytes) : Prop :=
  let all := if extra = [] then g else if g = [] then extra else g ++ b!"," ++ extra
  if (44 : UInt8) ∈ all then gs.Nodup ∧ ∀ x, x ∈ gs ↔ x ≠ [] ∧ Spec.Listed all x
  else gs = [all]

/-- The group with the suffix, once. -/
def Spec.suffixedGroup (suffix g : Bytes) : Bytes := if suffix <:+ g then g else g ++ suffix

/-! ## One entry -/

/-- What the loop needs of one setting. -/
def goodSetting (k : Bytes) (v : Val) : Prop :=
  (k = b!"protocol" ∨ k = b!"host" ∨ k = b!"path" ∨ k = b!"group" → v = .nil ∨ ∃ s, v = .str s) ∧
  (k = b!"port" → ∃ n, v = .int n)

/-- The string of a value. -/
def valStr : Val → Bytes
  | .str s => s
  | _ => []

/-- The integer of a value. -/
def valInt : Val → Int
  | .int n => n
  | _ => 0

theorem valText_eq (v : Val) : v.text = Spec.valText v := by
  cases v with
  | bool b => cases b <;> rfl
  | _ => rfl

theorem asString_orEmpty {k : Bytes} (hk : k ≠ b!"port") (v : Val) :
    (v = .nil ∨ ∃ s, v = .str s) ∧ ConfUrl.asString (ConfUrl.orEmpty k v) = some (valStr v) ∨
    ¬ (v = .nil ∨ ∃ s, v = .str s) ∧ ConfUrl.asString (ConfUrl.orEmpty k v) = none := by
  cases v <;> simp [ConfUrl.asString, ConfUrl.orEmpty, valStr, hk]

theorem asInt_orEmpty (v : Val) :
    (∃ n, v = .int n) ∧ ConfUrl.asInt (ConfUrl.orEmpty b!"port" v) = some (valInt v) ∨
    ¬ (∃ n, v = .int n) ∧ ConfUrl.asInt (ConfUrl.orEmpty b!"port" v) = none := by
  cases v <;> simp [ConfUrl.asInt, ConfUrl.orEmpty, valInt]

/-- One setting of the loop. -/
theorem setConf_spec (u : URL) (k : Bytes) (v : Val) :
    (goodSetting k v ∧ ∃ w, setConf u k v = some w ∧
      w.protocol = (if k = b!"protocol" then valStr v else u.protocol) ∧
      w.host = (if k = b!"host" then valStr v else u.host) ∧
      w.port = (if k = b!"port" then valInt v else u.port) ∧
      w.path = (if k = b!"path" then valStr v else u.path) ∧
      w.group = (if k = b!"group" then valStr v else u.group) ∧
      w.params = (if Spec.isField k then u.params else some (AMap.store (u.params.getD []) k (Spec.valText v))) ∧
      (Spec.Fresh u → Spec.Fresh w)) ∨
    (¬ goodSetting k v ∧ setConf u k v = none) := by
  by_cases h1 : k = b!"protocol"
  · subst h1
    rcases asString_orEmpty (k := b!"protocol") (by decide) v with ⟨hg, he⟩ | ⟨hg, he⟩
    · refine .inl ⟨⟨fun _ => hg, fun h => absurd h (by decide)⟩, { u with protocol := valStr v }, ?_, ?_⟩
      · rw [setConf, if_pos (by decide)]; simp only [he]; rfl
      · exact ⟨rfl, rfl, rfl, rfl, rfl, rfl, fun h => h⟩
    · refine .inr ⟨fun h => hg (h.1 (.inl rfl)), ?_⟩
      rw [setConf, if_pos (by decide)]; simp only [he]; rfl
  by_cases h2 : k = b!"host"
  · subst h2
    rcases asString_orEmpty (k := b!"host") (by decide) v with ⟨hg, he⟩ | ⟨hg, he⟩
    · refine .inl ⟨⟨fun _ => hg, fun h => absurd h (by decide)⟩, { u with host := valStr v }, ?_, ?_⟩
      · rw [setConf, if_pos (by decide)]; simp only [he]; rfl
      · exact ⟨rfl, rfl, rfl, rfl, rfl, rfl, fun h => h⟩
    · refine .inr ⟨fun h => hg (h.1 (.inr (.inl rfl))), ?_⟩
      rw [setConf, if_pos (by decide)]; simp only [he]; rfl
  by_cases h3 : k = b!"port"
  · subst h3
    rcases asInt_orEmpty v with ⟨hg, he⟩ | ⟨hg, he⟩
    · refine .inl ⟨⟨fun h => absurd h (by decide), fun _ => hg⟩, { u with port := valInt v }, ?_, ?_⟩
      · rw [setConf, if_pos (by decide)]; simp only [he]; rfl
      · exact ⟨rfl, rfl, rfl, rfl, rfl, rfl, fun h => h⟩
    · refine .inr ⟨fun h => hg (h.2 rfl), ?_⟩
      rw [setConf, if_pos (by decide)]; simp only [he]; rfl
  by_cases h4 : k = b!"path"
  · subst h4
    rcases asString_orEmpty (k := b!"path") (by decide) v with ⟨hg, he⟩ | ⟨hg, he⟩
    · refine .inl ⟨⟨fun _ => hg, fun h => absurd h (by decide)⟩, { u with path := valStr v }, ?_, ?_⟩
      · rw [setConf, if_pos (by decide)]; simp only [he]; rfl
      · exact ⟨rfl, rfl, rfl, rfl, rfl, rfl, fun h => h⟩
    · refine .inr ⟨fun h => hg (h.1 (.inr (.inr (.inl rfl)))), ?_⟩
      rw [setConf, if_pos (by decide)]; simp only [he]; rfl
  by_cases h5 : k = b!"group"
  · subst h5
    rcases asString_orEmpty (k := b!"group") (by decide) v with ⟨hg, he⟩ | ⟨hg, he⟩
    · refine .inl ⟨⟨fun _ => hg, fun h => absurd h (by decide)⟩, { u with group := valStr v }, ?_, ?_⟩
      · rw [setConf, if_pos (by decide)]; simp only [he]; rfl
      · exact ⟨rfl, rfl, rfl, rfl, rfl, rfl, fun h => h⟩
    · refine .inr ⟨fun h => hg (h.1 (.inr (.inr (.inr rfl)))), ?_⟩
      rw [setConf, if_pos (by decide)]; simp only [he]; rfl
  have hnf : ¬ Spec.isField k := by
    rintro (h | h | h | h | h)
    · exact h1 h
    · exact h2 h
    · exact h3 h
    · exact h4 h
    · exact h5 h
  have hnm : k ∉ ConfUrl.urlFields := by
    simp only [ConfUrl.urlFields, List.mem_cons, List.not_mem_nil, or_false]
    rintro (h | h | h | h | h)
    · exact h1 h
    · exact h2 h
    · exact h3 h
    · exact h4 h
    · exact h5 h
  refine .inl ⟨⟨?_, fun h => absurd h h3⟩, { u with params := some (AMap.store (u.params.getD []) k v.text) }, ?_, ?_⟩
  · rintro (h | h | h | h)
    · exact absurd h h1
    · exact absurd h h2
    · exact absurd h h4
    · exact absurd h h5
  · rw [setConf, if_neg hnm]
  · rw [if_neg h1, if_neg h2, if_neg h3, if_neg h4, if_neg h5, if_neg hnf, valText_eq]
    exact ⟨rfl, rfl, rfl, rfl, rfl, rfl, fun h => h⟩

/-- The settings still to come are good. -/
theorem typed_cons {k : Bytes} {v : Val} {r : Info} (hn : AMap.NodupKeys ((k, v) :: r)) :
    Spec.Typed ((k, v) :: r) ↔ goodSetting k v ∧ Spec.Typed r := by
  have hk : k ∉ AMap.keys r := (List.nodup_cons.mp hn).1
  have hload : ∀ k' v', AMap.load r k' = some v' → AMap.load ((k, v) :: r) k' = some v' := by
    intro k' v' h
    rw [AMap.load_cons, if_neg, h]
    rintro rfl
    exact hk (AMap.load_isSome.mp (by rw [h]; rfl))
  constructor
  · intro h
    refine ⟨⟨fun hf => h.1 k hf v (by rw [AMap.load_cons, if_pos rfl]), fun hp => ?_⟩, ?_, ?_⟩
    · subst hp; exact h.2 v (by rw [AMap.load_cons, if_pos rfl])
    · intro k' hf v' hl; exact h.1 k' hf v' (hload _ _ hl)
    · intro v' hl; exact h.2 v' (hload _ _ hl)
  · rintro ⟨hg, ht⟩
    refine ⟨fun k' hf v' hl => ?_, fun v' hl => ?_⟩
    · rw [AMap.load_cons] at hl
      split at hl
      · rename_i hkk; subst hkk; cases hl; exact hg.1 hf
      · exact ht.1 k' hf v' hl
    · rw [AMap.load_cons] at hl
      split at hl
      · rename_i hkk; cases hl; exact hg.2 hkk
      · exact ht.2 v' hl

/-- The whole loop. -/
theorem confLoop_spec (info : Info) (hn : info.NodupKeys) (u : URL) (hf : Spec.Fresh u)
    (hu : ∃ m : AMap Bytes Bytes, u.params = some m ∧ m.NodupKeys) :
    (Spec.Typed info ∧ ∃ w, confLoop u info = some w ∧ Spec.Fresh w ∧
      (∃ m : AMap Bytes Bytes, w.params = some m ∧ m.NodupKeys) ∧
      w.protocol = ((AMap.load info b!"protocol").map valStr).getD u.protocol ∧
      w.host = ((AMap.load info b!"host").map valStr).getD u.host ∧
      w.port = ((AMap.load info b!"port").map valInt).getD u.port ∧
      w.path = ((AMap.load info b!"path").map valStr).getD u.path ∧
      w.group = ((AMap.load info b!"group").map valStr).getD u.group ∧
      ∀ k, w.param k = if Spec.isField k then u.param k else
        match AMap.load info k with
        | some v => some (Spec.valText v)
        | none => u.param k) ∨
    (¬ Spec.Typed info ∧ confLoop u info = none) := by
  induction info generalizing u with
  | nil =>
    refine .inl ⟨⟨(fun _ _ _ h => by cases h), (fun _ h => by cases h)⟩, u, rfl, hf, hu, rfl, rfl, rfl, rfl, rfl, fun k => ?_⟩
    simp
  | cons p r ih =>
    obtain ⟨k, v⟩ := p
    have hn' : AMap.NodupKeys r := (List.nodup_cons.mp hn).2
    have hk : AMap.load r k = none := AMap.load_eq_none.mpr (List.nodup_cons.mp hn).1
    rw [typed_cons hn]
    rcases setConf_spec u k v with ⟨hg, w, hw, e1, e2, e3, e4, e5, e6, hfw⟩ | ⟨hg, hw⟩
    · have hwm : ∃ m : AMap Bytes Bytes, w.params = some m ∧ m.NodupKeys := by
        obtain ⟨m, hm, hmn⟩ := hu
        rw [e6]
        split
        · exact ⟨m, hm, hmn⟩
        · rw [hm]; exact ⟨_, rfl, AMap.nodupKeys_store hmn _ _⟩
      rcases ih hn' w (hfw hf) hwm with ⟨ht, x, hx, hfx, hxm, f1, f2, f3, f4, f5, f6⟩ | ⟨ht, hx⟩
      · refine .inl ⟨⟨hg, ht⟩, x, by rw [confLoop, hw]; exact hx, hfx, hxm, ?_, ?_, ?_, ?_, ?_, fun k' => ?_⟩
        · rw [f1, e1, AMap.load_cons]; split
          · rename_i h; subst h; rw [hk]; rfl
          · rfl
        · rw [f2, e2, AMap.load_cons]; split
          · rename_i h; subst h; rw [hk]; rfl
          · rfl
        · rw [f3, e3, AMap.load_cons]; split
          · rename_i h; subst h; rw [hk]; rfl
          · rfl
        · rw [f4, e4, AMap.load_cons]; split
          · rename_i h; subst h; rw [hk]; rfl
          · rfl
        · rw [f5, e5, AMap.load_cons]; split
          · rename_i h; subst h; rw [hk]; rfl
          · rfl
        · have hwp : w.param k' = if Spec.isField k then u.param k' else if k = k' then some (Spec.valText v) else u.param k' := by
            obtain ⟨m, hm, _⟩ := hu
            rw [URL.param, e6]
            split
            · rfl
            · rw [hm]
              show AMap.load (AMap.store m k (Spec.valText v)) k' = _
              rw [AMap.load_store, URL.param, hm]; rfl
          rw [f6, AMap.load_cons]
          by_cases hfk : Spec.isField k'
          · rw [if_pos hfk, if_pos hfk, hwp]
            split
            · rfl
            · rename_i hnf
              rw [if_neg]; rintro rfl; exact hnf hfk
          · rw [if_neg hfk, if_neg hfk]
            by_cases hkk : k = k'
            · subst hkk
              rw [hk, if_pos rfl, hwp, if_neg hfk, if_pos rfl]
            · rw [if_neg hkk]
              cases AMap.load r k' with
              | some v' => rfl
              | none =>
                simp only
                rw [hwp, if_neg hkk, ite_self]
      · exact .inr ⟨fun h => ht h.2, by rw [confLoop, hw]; exact hx⟩
    · exact .inr ⟨fun h => hg h.1, by rw [confLoop, hw]; rfl⟩

/-- One entry: it panics exactly if a field is not of its type, and otherwise says what the settings say. -/
theorem entryURL_spec (key : Bytes) (info : Info) (hn : info.NodupKeys) :
    (Spec.Typed info ∧ ∃ w, entryURL key (some info) = some w ∧ Spec.Fresh w ∧
      (∃ m : AMap Bytes Bytes, w.params = some m ∧ m.NodupKeys) ∧
      w.protocol = (Spec.ownDesc key info).protocol ∧ w.host = (Spec.ownDesc key info).host ∧
      w.port = (Spec.ownDesc key info).port ∧ w.path = (Spec.ownDesc key info).path ∧
      w.group = (Spec.ownDesc key info).group ∧ ∀ k, w.param k = (Spec.ownDesc key info).param k) ∨
    (¬ Spec.Typed info ∧ entryURL key (some info) = none) := by
  rcases confLoop_spec info hn { params := some [] } ⟨rfl, rfl, rfl, rfl, rfl⟩ ⟨[], rfl, AMap.nodupKeys_nil⟩ with
    ⟨ht, w, hw, hf, ⟨m, hm, hmn⟩, f1, f2, f3, f4, f5, f6⟩ | ⟨ht, hw⟩
  · have hs : ∀ k, k = b!"protocol" ∨ k = b!"host" ∨ k = b!"path" ∨ k = b!"group" →
        ((AMap.load info k).map valStr).getD [] = Spec.confText info k := by
      intro k hk
      rw [Spec.confText]
      cases hl : AMap.load info k with
      | none => rfl
      | some v =>
        rcases ht.1 k hk v hl with rfl | ⟨s, rfl⟩ <;> rfl
    refine .inl ⟨ht, { w with params := some (AMap.store (w.params.getD []) b!"conf-id" key) },
      by rw [entryURL, Option.bind_some, confToURL, hw]; rfl, hf,
      ⟨_, rfl, AMap.nodupKeys_store (m := w.params.getD []) (by rw [hm]; exact hmn) _ _⟩, ?_, ?_, ?_, ?_, ?_, fun k => ?_⟩
    · exact f1.trans (hs _ (.inl rfl))
    · exact f2.trans (hs _ (.inr (.inl rfl)))
    · refine f3.trans ?_
      show _ = Spec.confPort info
      rw [Spec.confPort]
      cases hl : AMap.load info b!"port" with
      | none => rfl
      | some v => obtain ⟨n, rfl⟩ := ht.2 v hl; rfl
    · exact f4.trans (hs _ (.inr (.inr (.inl rfl))))
    · exact f5.trans (hs _ (.inr (.inr (.inr rfl))))
    · show AMap.load (AMap.store (w.params.getD []) b!"conf-id" key) k = if k = b!"conf-id" then some key else _
      rw [AMap.load_store]
      by_cases hk : k = b!"conf-id"
      · rw [if_pos hk.symm, if_pos hk]
      · rw [if_neg (Ne.symm hk), if_neg hk]
        have : AMap.load (w.params.getD []) k = w.param k := by rw [URL.param, hm]; rfl
        rw [this, f6]
        split
        · rfl
        · cases AMap.load info k <;> rfl
  · exact .inr ⟨ht, by rw [entryURL, Option.bind_some, confToURL, hw]; rfl⟩

/-- All entries of a good section. -/
theorem confToURLs_spec {s : Sect} (hs : Spec.GoodSect s) :
    ∃ m : AMap Bytes URL, confToURLs s = some m ∧ m.keys = s.keys ∧
      ∀ k i, AMap.load s k = some (some i) → ∃ u, AMap.load m k = some u ∧ entryURL k (some i) = some u := by
  induction s with
  | nil => exact ⟨[], rfl, rfl, fun _ _ h => by cases h⟩
  | cons p r ih =>
    obtain ⟨k, i⟩ := p
    have hnd := List.nodup_cons.mp hs.nodup
    have hr : Spec.GoodSect r := by
      refine ⟨hnd.2, fun k' i' h => hs.entries k' i' ?_⟩
      rw [AMap.load_cons, if_neg, h]
      rintro rfl
      exact hnd.1 (AMap.load_isSome.mp (by rw [h]; rfl))
    obtain ⟨m, hm, hk, hl⟩ := ih hr
    obtain ⟨info, rfl, hin, hit⟩ := hs.entries k i (by rw [AMap.load_cons, if_pos rfl])
    rcases entryURL_spec k info hin with ⟨_, w, hw, _⟩ | ⟨h, _⟩
    · refine ⟨(k, w) :: m, by rw [confToURLs, hw, Option.bind_some, hm]; rfl, ?_, fun k' i' h => ?_⟩
      · show k :: AMap.keys m = k :: AMap.keys r
        rw [hk]
      · rw [AMap.load_cons] at h
        rw [AMap.load_cons]
        split at h
        · rename_i hkk
          subst hkk; cases h
          exact ⟨w, by rw [if_pos rfl], hw⟩
        · rename_i hkk
          rw [if_neg hkk]; exact hl k' i' h
    · exact absurd hit h

/-! ## The basic entry and the filters -/

/-- A URL as this code leaves it: at most its port and its identity are cached, and they are right. -/
structure ConfOk (u : URL) : Prop where
  params : ∃ m : AMap Bytes Bytes, u.params = some m ∧ m.NodupKeys
  port : u.portStrC = none ∨ u.portStrC = some (formatInt u.port)
  identity : u.identityC = none ∨ u.identityC = some (Spec.identity u)

/-- The fields and parameters are those described. -/
structure Spec.Eqv (u : URL) (d : Spec.Desc) : Prop where
  protocol : u.protocol = d.protocol
  host : u.host = d.host
  port : u.port = d.port
  path : u.path = d.path
  group : u.group = d.group
  param : ∀ k, u.param k = d.param k

theorem getIdentity_conf {u : URL} (h : ConfOk u) :
    (getIdentity u).1 = Spec.identity u ∧ SameFields (getIdentity u).2 u ∧ ConfOk (getIdentity u).2 := by
  rcases h.identity with hi | hi
  · rw [getIdentity, hi]
    simp only
    have hp : (getPortStr u).1 = formatInt u.port ∧ SameFields (getPortStr u).2 u ∧
        (getPortStr u).2.portStrC = some (formatInt u.port) := by
      rw [getPortStr]
      rcases h.port with hp | hp
      · rw [hp]; exact ⟨rfl, ⟨rfl, rfl, rfl, rfl, rfl, rfl⟩, rfl⟩
      · rw [hp]; exact ⟨rfl, ⟨rfl, rfl, rfl, rfl, rfl, rfl⟩, hp⟩
    generalize getPortStr u = g at hp
    obtain ⟨ps, u1⟩ := g
    obtain ⟨h1, h2, h3⟩ := hp
    simp only at h1 h2 h3 ⊢
    subst h1
    rw [getParam_empty, ← h2.port]
    have he : (if u1.protocol = b!"direct" then
        u1.protocol ++ b!"://" ++ u1.host ++ b!":" ++ formatInt u1.port ++ b!"/" ++ u1.path ++ b!"?group=" ++ u1.group ++
          b!"&address=" ++ (u1.param b!"address").getD []
        else u1.protocol ++ b!"://" ++ u1.host ++ b!":" ++ formatInt u1.port ++ b!"/" ++ u1.path ++ b!"?group=" ++
          u1.group) = Spec.identity u1 := by
      rw [Spec.identity]
      split <;> simp
    rw [he]
    refine ⟨h2.identity, ⟨h2.protocol, h2.host, h2.port, h2.path, h2.group, h2.params⟩, ⟨?_, ?_, .inr rfl⟩⟩
    · obtain ⟨m, hm, hn⟩ := h.params; exact ⟨m, h2.params.trans hm, hn⟩
    · right; show u1.portStrC = some (formatInt u1.port); rw [h3, h2.port]
  · have : getIdentity u = (Spec.identity u, u) := by rw [getIdentity, hi]
    rw [this]
    exact ⟨rfl, ⟨rfl, rfl, rfl, rfl, rfl, rfl⟩, h⟩

theorem Spec.Eqv.of_same {u v : URL} {d : Spec.Desc} (h : Spec.Eqv u d) (hs : SameFields v u) : Spec.Eqv v d :=
  ⟨hs.protocol.trans h.protocol, hs.host.trans h.host, hs.port.trans h.port, hs.path.trans h.path,
    hs.group.trans h.group, fun k => (hs.param k).trans (h.param k)⟩

/-- Taking over from a basic entry. -/
theorem inherit_spec {b u : URL} {db du : Spec.Desc} (hb : Spec.Eqv b db) (hu : Spec.Eqv u du)
    (hbp : ∃ m : AMap Bytes Bytes, b.params = some m ∧ m.NodupKeys)
    (hup : ∃ m : AMap Bytes Bytes, u.params = some m ∧ m.NodupKeys) :
    Spec.Eqv (inherit b u) (Spec.over du db) ∧ ConfOk (inherit b u) := by
  obtain ⟨mb, hmb, hnb⟩ := hbp
  obtain ⟨mu, hmu, hnu⟩ := hup
  have key : inherit b u =
      { protocol := if u.protocol ≠ [] then u.protocol else b.protocol
        host := if u.host ≠ [] then u.host else b.host
        port := if u.port ≠ 0 then u.port else b.port
        group := if u.group ≠ [] then u.group else b.group
        path := if u.path ≠ [] then u.path else b.path
        params := some (AMap.storeAll (AMap.storeAll [] mb) mu) : URL } := by
    unfold inherit mergeParams copy
    rw [hmb, hmu]
    by_cases h1 : u.protocol = [] <;> by_cases h2 : u.host = [] <;> by_cases h3 : u.port = 0 <;>
      by_cases h4 : u.group = [] <;> by_cases h5 : u.path = [] <;> simp [h1, h2, h3, h4, h5]
  have hif : ∀ (x y dx dy : Bytes), x = dx → y = dy → (if x ≠ [] then x else y) = if dx = [] then dy else dx := by
    rintro x y _ _ rfl rfl
    by_cases h : x = [] <;> simp [h]
  have hbn := AMap.nodupKeys_storeAll (m := ([] : AMap Bytes Bytes)) AMap.nodupKeys_nil mb
  refine ⟨?_, ?_⟩
  · rw [key]
    refine ⟨hif _ _ _ _ hu.protocol hb.protocol, hif _ _ _ _ hu.host hb.host, ?_, hif _ _ _ _ hu.path hb.path,
      hif _ _ _ _ hu.group hb.group, fun k => ?_⟩
    · show (if u.port ≠ 0 then u.port else b.port) = if du.port = 0 then db.port else du.port
      rw [← hu.port, ← hb.port]
      by_cases h : u.port = 0 <;> simp [h]
    · show AMap.load (AMap.storeAll (AMap.storeAll [] mb) mu) k = _
      rw [AMap.load_storeAll _ _ hnu, AMap.load_storeAll _ _ hnb]
      show _ = match du.param k with | some v => some v | none => db.param k
      rw [← hu.param, ← hb.param, URL.param, URL.param, hmb, hmu]
      simp only [Option.bind_some]
      cases AMap.load mu k with
      | some v => rfl
      | none => cases AMap.load mb k <;> rfl
  · rw [key]
    exact ⟨⟨_, rfl, AMap.nodupKeys_storeAll hbn _⟩, .inl rfl, .inl rfl⟩

/-- The entry with its basic entry. -/
theorem withBasic_spec {bs : Sect} (hbs : Spec.GoodSect bs) {basics : AMap Bytes URL} (hb : confToURLs bs = some basics)
    {bk key : Bytes} {info : Info} {u : URL} (hu : Spec.Eqv u (Spec.ownDesc key info)) (hok : ConfOk u) :
    Spec.Eqv (withBasic basics bk u) (Spec.fullDesc bs bk key info) ∧ ConfOk (withBasic basics bk u) := by
  have hname : getParam u bk [] = ((Spec.ownDesc key info).param bk).getD [] := by rw [getParam_empty, hu.param]
  rw [withBasic, Spec.fullDesc]
  simp only [hname]
  cases hp : (Spec.ownDesc key info).param bk with
  | none => exact ⟨hu, hok⟩
  | some name =>
    simp only [Option.getD_some]
    by_cases hne : name = []
    · rw [if_pos hne, if_neg (not_not_intro hne)]; exact ⟨hu, hok⟩
    · rw [if_neg hne, if_pos hne]
      obtain ⟨m, hm, hk, hl⟩ := confToURLs_spec hbs
      cases hb.symm.trans hm
      cases hlb : AMap.load bs name with
      | none =>
        have : AMap.load basics name = none := by
          rw [AMap.load_eq_none, hk, ← AMap.load_eq_none]; exact hlb
        rw [this]
        have hi := getIdentity_conf hok
        exact ⟨hu.of_same hi.2.1, hi.2.2⟩
      | some i =>
        obtain ⟨binfo, rfl, hbn, hbt⟩ := hbs.entries name i hlb
        obtain ⟨b, hbl, hbe⟩ := hl name binfo hlb
        rw [hbl]
        rcases entryURL_spec name binfo hbn with ⟨_, w, hw, hf, hwm, f1, f2, f3, f4, f5, f6⟩ | ⟨h, _⟩
        · cases hw.symm.trans hbe
          have hinh := inherit_spec (b := b) ⟨f1, f2, f3, f4, f5, f6⟩ hu hwm hok.params
          have hi := getIdentity_conf hinh.2
          exact ⟨hinh.1.of_same hi.2.1, hi.2.2⟩
        · exact absurd hbt h

/-- Which filters are merged. -/
theorem mem_mergedFilters (E : ConfUrl.Env) {u : URL} {d : Spec.Desc} (hu : Spec.Eqv u d) (f : Bytes) :
    f ∈ mergedFilters E u ↔ f ≠ [] ∧ Spec.ConfFilter E d f := by
  rw [mergedFilters, (slicesUnique_spec _ [] List.nodup_nil).2, List.mem_filter]
  simp only [List.mem_append, mem_filterSet, stringParam, List.mem_map, decide_eq_true_eq, List.not_mem_nil, false_or,
    hu.param]
  rw [Spec.ConfFilter]
  constructor
  · rintro ⟨(((⟨_, h⟩ | ⟨_, h⟩) | ⟨_, h, _⟩) | h) | ⟨_, h, _⟩, hne⟩
    · exact ⟨hne, .inl h⟩
    · exact ⟨hne, .inr (.inl h)⟩
    · exact ⟨hne, .inr (.inr (.inl h))⟩
    · exact ⟨hne, .inr (.inr (.inr (.inl h)))⟩
    · exact ⟨hne, .inr (.inr (.inr (.inr h)))⟩
  · rintro ⟨hne, h | h | h | h | h⟩
    · exact ⟨.inl (.inl (.inl (.inl ⟨hne, h⟩))), hne⟩
    · exact ⟨.inl (.inl (.inl (.inr ⟨hne, h⟩))), hne⟩
    · exact ⟨.inl (.inl (.inr ⟨hne, h, listed_nil hne⟩)), hne⟩
    · exact ⟨.inl (.inr h), hne⟩
    · exact ⟨.inr ⟨hne, h, listed_nil hne⟩, hne⟩

/-- The entry with its filters. -/
theorem withFilters_spec {E : ConfUrl.Env} (hE : Spec.SaneEnv E) {u : URL} {d : Spec.Desc} (hu : Spec.Eqv u d)
    (hok : ConfOk u) : Spec.Says E (withFilters E u) d ∧ ConfOk (withFilters E u) := by
  have hmem := mem_mergedFilters E hu
  rw [withFilters]
  split
  · rename_i hne
    have hne' : E.order (mergedFilters E u) ≠ [] := by
      intro h
      have := (hE.order (mergedFilters E u)).length_eq
      rw [h] at this
      exact hne (List.length_eq_zero_iff.mp this.symm)
    have hmem' : ∀ f, f ∈ E.order (mergedFilters E u) ↔ f ≠ [] ∧ Spec.ConfFilter E d f := by
      intro f; rw [(hE.order _).mem_iff, hmem]
    have hpar : ∀ k, k ≠ b!"filter" → (putParam u b!"filter" (join b!"," (E.order (mergedFilters E u)))).param k = u.param k := by
      intro k hk; rw [putParam_param, if_neg (Ne.symm hk)]
    refine ⟨⟨hu.protocol, hu.host, hu.port, hu.path, hu.group, fun k hk => ?_, fun f hf => ?_⟩, ⟨?_, hok.port, ?_⟩⟩
    · rw [hpar k hk, hu.param]
    · rw [putParam_param, if_pos rfl, Option.getD_some, listed_join hne' ?_ ?_, hmem']
      · exact ⟨fun h => h.2, fun h => ⟨hf, h⟩⟩
      · intro g hg hcm
        rw [hmem'] at hg
        have hlist : ∀ t, Spec.Listed t g → False := by
          rintro t ⟨p, hp, rfl⟩
          exact not_mem_of_mem_split (show p ∈ split [44] t from hp) (mem_trimSpace hcm)
        obtain ⟨_, h | h | h | ⟨r, h1, rfl⟩ | h⟩ := hg
        · exact hlist _ h.1
        · exact hlist _ h.1
        · exact hlist _ h
        · exact hE.relevant r h1 (mem_trimSpace hcm)
        · exact hlist _ h
      · intro g hg
        rw [hmem'] at hg
        obtain ⟨_, ⟨⟨p, _, rfl⟩, _⟩ | ⟨⟨p, _, rfl⟩, _⟩ | ⟨p, _, rfl⟩ | ⟨p, _, rfl⟩ | ⟨p, _, rfl⟩⟩ := hg <;>
          exact trimSpace_idem p
    · obtain ⟨m, hm, hn⟩ := hok.params
      exact ⟨_, rfl, by rw [hm]; exact AMap.nodupKeys_store hn _ _⟩
    · have he : Spec.identity (putParam u b!"filter" (join b!"," (E.order (mergedFilters E u)))) = Spec.identity u := by
        unfold Spec.identity
        rw [hpar b!"address" (by decide)]
        rfl
      rw [he]; exact hok.identity
  · rename_i hnil
    have hnil : mergedFilters E u = [] := by
      by_cases h : mergedFilters E u = []
      · exact h
      · exact absurd h hnil
    refine ⟨⟨hu.protocol, hu.host, hu.port, hu.path, hu.group, fun k _ => hu.param k, fun f hf => ?_⟩, hok⟩
    have hno : ¬ Spec.ConfFilter E d f := by
      intro h
      have := (hmem f).mpr ⟨hf, h⟩
      rw [hnil] at this; cases this
    rw [hu.param]
    exact ⟨fun h => .inr (.inr (.inr (.inr h))), fun h => absurd h hno⟩

theorem load_map_snd {ν μ : Type} (f : ν → μ) (m : AMap Bytes ν) (k : Bytes) :
    AMap.load (m.map fun p => (p.1, f p.2)) k = (AMap.load m k).map f := by
  induction m with
  | nil => rfl
  | cons p r ih =>
    obtain ⟨a, b⟩ := p
    rw [List.map_cons, AMap.load_cons, AMap.load_cons, ih]
    split <;> rfl

theorem keys_map_snd {ν μ : Type} (f : ν → μ) (m : AMap Bytes ν) :
    AMap.keys (m.map fun p => (p.1, f p.2)) = AMap.keys m := by
  simp only [AMap.keys, List.map_map]; rfl

/-- All entries of a section, with basic entries and filters. -/
theorem basicConf_spec {E : ConfUrl.Env} (hE : Spec.SaneEnv E) {bs s : Sect} (hbs : Spec.GoodSect bs)
    (hs : Spec.GoodSect s) {basics : AMap Bytes URL} (hb : confToURLs bs = some basics) (bk : Bytes) :
    ∃ m : AMap Bytes URL, basicConfToURLs E basics bk s = some m ∧ m.keys = s.keys ∧
      ∀ key info, AMap.load s key = some (some info) →
        ∃ u, AMap.load m key = some u ∧ Spec.Says E u (Spec.fullDesc bs bk key info) ∧ ConfOk u := by
  obtain ⟨m, hm, hk, hl⟩ := confToURLs_spec hs
  refine ⟨m.map fun p => (p.1, withFilters E (withBasic basics bk p.2)), by rw [basicConfToURLs, hm]; rfl, ?_,
    fun key info h => ?_⟩
  · rw [← hk]; exact keys_map_snd (fun u => withFilters E (withBasic basics bk u)) m
  · obtain ⟨u, hul, hue⟩ := hl key info h
    obtain ⟨_, hi, hin, hit⟩ := hs.entries key _ h
    cases hi
    rcases entryURL_spec key info hin with ⟨_, w, hw, hf, hwm, f1, f2, f3, f4, f5, f6⟩ | ⟨h, _⟩
    · cases hw.symm.trans hue
      have hok : ConfOk u := ⟨hwm, .inl hf.2.1, .inl hf.2.2.1⟩
      have h1 := withBasic_spec hbs hb (bk := bk) (key := key) (info := info) ⟨f1, f2, f3, f4, f5, f6⟩ hok
      have h2 := withFilters_spec hE h1.1 h1.2
      refine ⟨_, ?_, h2⟩
      rw [load_map_snd (fun u => withFilters E (withBasic basics bk u)), hul]; rfl
    · exact absurd hit h

/-! ## Several groups -/

theorem natDigits_inj {a b : Nat} (h : natDigits a = natDigits b) : a = b := by
  induction a using Nat.strongRecOn generalizing b with
  | ind a ih =>
    have hd : ∀ x y : Nat, x < 10 → y < 10 → UInt8.ofNat (48 + x) = UInt8.ofNat (48 + y) → x = y := by
      intro x y hx hy h
      have := congrArg UInt8.toNat h
      simp only [UInt8.toNat_ofNat'] at this
      omega
    by_cases ha : a < 10 <;> by_cases hb : b < 10
    · rw [natDigits, natDigits.eq_def b, if_pos ha, if_pos hb] at h
      exact hd a b ha hb (by simpa using h)
    · rw [natDigits, natDigits.eq_def b, if_pos ha, if_neg hb] at h
      have := congrArg List.length h
      have h2 := List.length_pos_iff.mpr (natDigits_ne_nil (b / 10))
      simp only [List.length_append, List.length_singleton] at this; omega
    · rw [natDigits, natDigits.eq_def b, if_neg ha, if_pos hb] at h
      have := congrArg List.length h
      have h2 := List.length_pos_iff.mpr (natDigits_ne_nil (a / 10))
      simp only [List.length_append, List.length_singleton] at this; omega
    · rw [natDigits, natDigits.eq_def b, if_neg ha, if_neg hb] at h
      obtain ⟨h1, h2⟩ := List.append_inj' h rfl
      have h3 := ih (a / 10) (by omega) h1
      have h4 := hd (a % 10) (b % 10) (by omega) (by omega) (by simpa using h2)
      omega

theorem dash_number_inj {k k' : Bytes} {i j : Nat} (h : k ++ b!"-" ++ formatInt i = k' ++ b!"-" ++ formatInt j) :
    k = k' ∧ i = j := by
  have hno : ∀ n : Nat, (45 : UInt8) ∉ formatInt n := by
    intro n hm
    have : formatInt n = natDigits n := by rw [formatInt, if_neg (by omega)]; rfl
    rw [this] at hm
    exact absurd (natDigits_digit n 45 hm).1 (by decide)
  have hrev : ∀ (a b c d : Bytes), (45 : UInt8) ∉ c → (45 : UInt8) ∉ d → c ++ 45 :: a = d ++ 45 :: b → a = b ∧ c = d := by
    intro a b c d
    induction c generalizing d with
    | nil =>
      intro _ hd he
      cases d with
      | nil => simpa using he
      | cons y d => simp only [List.nil_append, List.cons_append, List.cons.injEq] at he; exact absurd (by rw [he.1]; simp) hd
    | cons x c ih =>
      intro hc hd he
      cases d with
      | nil => simp only [List.nil_append, List.cons_append, List.cons.injEq] at he; exact absurd (by rw [he.1]; simp) hc
      | cons y d =>
        simp only [List.cons_append, List.cons.injEq] at he
        obtain ⟨h1, h2⟩ := ih d (fun h => hc (by simp [h])) (fun h => hd (by simp [h])) he.2
        exact ⟨h1, by rw [he.1, h2]⟩
  have h' := congrArg List.reverse h
  simp only [List.reverse_append] at h'
  obtain ⟨h1, h2⟩ := hrev k.reverse k'.reverse (formatInt i).reverse (formatInt j).reverse
    (fun h => hno i (List.mem_reverse.mp h)) (fun h => hno j (List.mem_reverse.mp h)) (by simpa using h')
  refine ⟨List.reverse_inj.mp h1, natDigits_inj ?_⟩
  have h3 := List.reverse_inj.mp h2
  rwa [formatInt, formatInt, if_neg (by omega), if_neg (by omega)] at h3

theorem mem_furtherGroups {k : Bytes} {u : URL} {gs : List Bytes} {i : Nat} {k' : Bytes} {v : URL} :
    (k', v) ∈ furtherGroups k u i gs ↔
      ∃ j g, gs[j]? = some g ∧ k' = k ++ b!"-" ++ formatInt ((i + j : Nat) : Int) ∧ v = { copy u with group := g } := by
  induction gs generalizing i with
  | nil => simp [furtherGroups]
  | cons g gs ih =>
    rw [furtherGroups, List.mem_cons, ih]
    constructor
    · rintro (h | ⟨j, g', h1, h2, h3⟩)
      · cases h; exact ⟨0, g, rfl, rfl, rfl⟩
      · exact ⟨j + 1, g', h1, by rw [h2, show i + 1 + j = i + (j + 1) by omega], h3⟩
    · rintro ⟨j, g', h1, h2, h3⟩
      cases j with
      | zero => cases h1; left; rw [h2, h3]; rfl
      | succ j => right; exact ⟨j, g', h1, by rw [h2, show i + 1 + j = i + (j + 1) by omega], h3⟩

theorem furtherGroups_nodup (k : Bytes) (u : URL) (i : Nat) (gs : List Bytes) :
    AMap.NodupKeys (furtherGroups k u i gs) := by
  induction gs generalizing i with
  | nil => exact AMap.nodupKeys_nil
  | cons g gs ih =>
    refine List.nodup_cons.mpr ⟨fun h => ?_, ih (i + 1)⟩
    obtain ⟨⟨k', v⟩, hm, he⟩ := List.mem_map.mp h
    obtain ⟨j, g', _, hk, _⟩ := mem_furtherGroups.mp hm
    have he : k' = _ := he
    rw [hk] at he
    have := (dash_number_inj he).2
    omega

/-- What `splitGroups` gives for the groups of one entry. -/
theorem splitGroups_spec (E : ConfUrl.Env) (k : Bytes) (u : URL) :
    ∃ gs, Spec.serviceGroups E.envGroups u.group gs ∧
      ((gs = [] ∧ splitGroups E k u = none) ∨
       ∃ g r, gs = g :: r ∧ splitGroups E k u = some ({ u with group := g }, furtherGroups k { u with group := g } 0 r)) := by
  have hall : addGroups E u.group =
      if E.envGroups = [] then u.group else if u.group = [] then E.envGroups else u.group ++ b!"," ++ E.envGroups := by
    rw [addGroups]; by_cases h : E.envGroups = [] <;> simp [h]
  simp only [splitGroups, Spec.serviceGroups, hall]
  generalize (if E.envGroups = [] then u.group else if u.group = [] then E.envGroups else u.group ++ b!"," ++ E.envGroups) = a
  have hc : contains a b!"," = true ↔ (44 : UInt8) ∈ a := by
    rw [contains_iff]
    constructor
    · rintro ⟨x, y, rfl⟩; simp
    · intro h
      obtain ⟨x, y, hxy⟩ := List.append_of_mem h
      exact ⟨x, y, by rw [hxy]; simp⟩
  by_cases hm : (44 : UInt8) ∈ a
  · rw [if_pos (hc.mpr hm)]
    refine ⟨Dynamic.slicesUnique [] (trimSplit a b!","), ?_, ?_⟩
    · rw [if_pos hm]
      obtain ⟨h1, h2⟩ := slicesUnique_spec (trimSplit a b!",") [] List.nodup_nil
      refine ⟨h1, fun x => ?_⟩
      rw [h2, trimSplit_eq _ _ (by decide), List.mem_filter, List.mem_map]
      simp only [List.not_mem_nil, false_or, decide_eq_true_eq]
      exact And.comm
    · cases hg : Dynamic.slicesUnique [] (trimSplit a b!",") with
      | nil => exact .inl ⟨rfl, rfl⟩
      | cons g r => exact .inr ⟨g, r, rfl, rfl⟩
  · rw [if_neg (fun h => hm (hc.mp h))]
    exact ⟨[a], by rw [if_neg hm], .inr ⟨a, [], rfl, rfl⟩⟩

theorem splitGroups_keys {E : ConfUrl.Env} {k : Bytes} {u u0 : URL} {as : List (Bytes × URL)}
    (h : splitGroups E k u = some (u0, as)) : AMap.NodupKeys as ∧ ∀ p ∈ as, ∃ j : Nat, p.1 = k ++ b!"-" ++ formatInt j := by
  obtain ⟨gs, _, ⟨_, h1⟩ | ⟨g, r, _, h1⟩⟩ := splitGroups_spec E k u
  · rw [h1] at h; cases h
  · rw [h1] at h; cases h
    refine ⟨furtherGroups_nodup _ _ _ _, ?_⟩
    rintro ⟨k', v⟩ hp
    obtain ⟨j, _, _, hk, _⟩ := mem_furtherGroups.mp hp
    exact ⟨0 + j, hk⟩

theorem splitAll_spec (E : ConfUrl.Env) (m : AMap Bytes URL) (hn : m.NodupKeys)
    (hg : ∀ k u, AMap.load m k = some u → splitGroups E k u ≠ none) :
    ∃ (m' adds : AMap Bytes URL), splitAll E m = some (m', adds) ∧ m'.keys = m.keys ∧ adds.NodupKeys ∧
      (∀ k u u0 as, AMap.load m k = some u → splitGroups E k u = some (u0, as) →
        AMap.load m' k = some u0 ∧ ∀ p ∈ as, p ∈ adds) ∧
      (∀ p ∈ adds, ∃ k u u0 as, AMap.load m k = some u ∧ splitGroups E k u = some (u0, as) ∧ p ∈ as) := by
  induction m with
  | nil => exact ⟨[], [], rfl, rfl, AMap.nodupKeys_nil, fun _ _ _ _ h => by (cases h), fun _ h => by (cases h)⟩
  | cons p r ih =>
    obtain ⟨k, u⟩ := p
    have hnd := List.nodup_cons.mp hn
    have hload : ∀ k' u', AMap.load r k' = some u' → k ≠ k' ∧ AMap.load ((k, u) :: r) k' = some u' := by
      intro k' u' h
      have hne : k ≠ k' := by rintro rfl; exact hnd.1 (AMap.load_isSome.mp (by rw [h]; rfl))
      exact ⟨hne, by rw [AMap.load_cons, if_neg hne, h]⟩
    obtain ⟨m', adds, h1, h2, h3, h4, h5⟩ := ih hnd.2 fun k' u' h => hg k' u' (hload k' u' h).2
    cases hs : splitGroups E k u with
    | none => exact absurd hs (hg k u (by rw [AMap.load_cons, if_pos rfl]))
    | some q =>
      obtain ⟨u0, as⟩ := q
      have hkeys := splitGroups_keys hs
      refine ⟨(k, u0) :: m', as ++ adds, by rw [splitAll, hs, Option.bind_some, h1]; rfl, ?_, ?_, ?_, ?_⟩
      · show k :: AMap.keys m' = k :: AMap.keys r
        rw [h2]
      · show (List.map Prod.fst (as ++ adds)).Nodup
        rw [List.map_append, List.nodup_append]
        refine ⟨hkeys.1, h3, ?_⟩
        intro a ha b hb hab
        obtain ⟨p, hp, rfl⟩ := List.mem_map.mp ha
        obtain ⟨q, hq, rfl⟩ := List.mem_map.mp hb
        obtain ⟨j, hj⟩ := hkeys.2 p hp
        obtain ⟨k', u', u0', as', hl', hs', hq'⟩ := h5 q hq
        obtain ⟨j', hj'⟩ := (splitGroups_keys hs').2 q hq'
        rw [hj, hj'] at hab
        exact (hload _ _ hl').1 (dash_number_inj hab).1
      · intro k' u' u0' as' hl hs'
        rw [AMap.load_cons] at hl ⊢
        split at hl
        · rename_i hkk
          subst hkk; cases hl
          cases hs.symm.trans hs'
          exact ⟨by rw [if_pos rfl], fun p hp => List.mem_append_left _ hp⟩
        · rename_i hkk
          obtain ⟨h6, h7⟩ := h4 k' u' u0' as' hl hs'
          exact ⟨by rw [if_neg hkk, h6], fun p hp => List.mem_append_right _ (h7 p hp)⟩
      · intro p hp
        rcases List.mem_append.mp hp with hp | hp
        · exact ⟨k, u, u0, as, by rw [AMap.load_cons, if_pos rfl], hs, hp⟩
        · obtain ⟨k', u', u0', as', hl', hs', hq'⟩ := h5 p hp
          exact ⟨k', u', u0', as', (hload _ _ hl').2, hs', hq'⟩

theorem hasSuffix_eq (s t : Bytes) : Dynamic.hasSuffix s t = true ↔ t <:+ s := by
  rw [Dynamic.hasSuffix, List.isSuffixOf_iff_suffix]

theorem addSuffix_says {E : ConfUrl.Env} {u : URL} {d : Spec.Desc} (h : Spec.Says E u d) (sfx : Bytes) :
    Spec.Says E (addSuffix sfx u) { d with group := Spec.suffixedGroup sfx d.group } := by
  rw [addSuffix, Spec.suffixedGroup]
  split
  · rename_i hs
    rw [h.group, hasSuffix_eq] at hs
    exact ⟨h.protocol, h.host, h.port, h.path, by rw [if_pos hs]; exact h.group, h.param, h.filter⟩
  · rename_i hs
    rw [h.group, hasSuffix_eq] at hs
    exact ⟨h.protocol, h.host, h.port, h.path, by rw [if_neg hs, ← h.group], h.param, h.filter⟩

theorem says_copy {E : ConfUrl.Env} {u : URL} {d : Spec.Desc} (h : Spec.Says E u d) (hok : ConfOk u) (g : Bytes) :
    Spec.Says E { copy u with group := g } { d with group := g } := by
  have hc : ∀ k, ({ copy u with group := g } : URL).param k = u.param k := by
    intro k
    refine (copy_param u ?_ k)
    intro m hm
    obtain ⟨m', hm', hn⟩ := hok.params
    cases hm.symm.trans hm'; exact hn
  refine ⟨h.protocol, h.host, h.port, h.path, rfl, fun k hk => ?_, fun f hf => ?_⟩
  · rw [hc]; exact h.param k hk
  · rw [hc]; exact h.filter f hf

/-! ## C65: services -/

/-- C65: every service of the configuration is exported in every group it names and in those of the environment — under
its name in the first, under its name with a number in the others — with the protocol, address, path and parameters of
its own entry and of the basic entry it names, with its filters, and with the registry suffix at the end of the group;
and nothing else is exported. (The names with numbers must not be names of other services, and a list of groups must not
be empty.) -/
theorem services_configured {E : ConfUrl.Env} (hE : Spec.SaneEnv E) {bs s : Sect} (hbs : Spec.GoodSect bs)
    (hs : Spec.GoodSect s) {basics : AMap Bytes URL} (hb : confToURLs bs = some basics)
    (hkeys : ∀ k ∈ s.keys, ∀ k' ∈ s.keys, ∀ n : Nat, k ≠ k' ++ b!"-" ++ formatInt n)
    (hgroups : ∀ key info, AMap.load s key = some (some info) →
      ¬ Spec.serviceGroups E.envGroups (Spec.fullDesc bs b!"basicService" key info).group []) :
    ∃ out, parseServices E basics s = some out ∧
      (∀ key info, AMap.load s key = some (some info) →
        let d := Spec.fullDesc bs b!"basicService" key info
        ∃ gs, Spec.serviceGroups E.envGroups d.group gs ∧ ∀ (i : Nat) g, gs[i]? = some g →
          ∃ u, AMap.load out (if i = 0 then key else key ++ b!"-" ++ formatInt ((i - 1 : Nat) : Int)) = some u ∧
            Spec.Says E u { d with group := Spec.suffixedGroup E.regSuffix g }) ∧
      (∀ k u, AMap.load out k = some u → ∃ key info gs g,
        AMap.load s key = some (some info) ∧
        Spec.serviceGroups E.envGroups (Spec.fullDesc bs b!"basicService" key info).group gs ∧ g ∈ gs ∧
        Spec.Says E u { Spec.fullDesc bs b!"basicService" key info with group := Spec.suffixedGroup E.regSuffix g }) := by
  obtain ⟨m, hm, hmk, hml⟩ := basicConf_spec hE hbs hs hb b!"basicService"
  have hmn : m.NodupKeys := by rw [AMap.NodupKeys, hmk]; exact hs.nodup
  -- every entry of m comes from the section
  have hback : ∀ k u, AMap.load m k = some u → ∃ info, AMap.load s k = some (some info) ∧
      Spec.Says E u (Spec.fullDesc bs b!"basicService" k info) ∧ ConfOk u := by
    intro k u hl
    have hk : k ∈ s.keys := by rw [← hmk]; exact AMap.load_isSome.mp (by rw [hl]; rfl)
    obtain ⟨i, hi⟩ := Option.isSome_iff_exists.mp (AMap.load_isSome.mpr hk)
    obtain ⟨info, rfl, _, _⟩ := hs.entries k i hi
    obtain ⟨u', hu', h⟩ := hml k info hi
    cases hl.symm.trans hu'
    exact ⟨info, hi, h⟩
  have hsp : ∀ k u, AMap.load m k = some u → ∃ gs g r, Spec.serviceGroups E.envGroups u.group gs ∧ gs = g :: r ∧
      splitGroups E k u = some ({ u with group := g }, furtherGroups k { u with group := g } 0 r) := by
    intro k u hl
    obtain ⟨info, hi, hsay, _⟩ := hback k u hl
    obtain ⟨gs, hgs, ⟨h0, _⟩ | ⟨g, r, h1, h2⟩⟩ := splitGroups_spec E k u
    · rw [hsay.group, h0] at hgs
      exact absurd hgs (hgroups k info hi)
    · exact ⟨gs, g, r, hgs, h1, h2⟩
  obtain ⟨m', adds, h1, h2, h3, h4, h5⟩ := splitAll_spec E m hmn fun k u hl => by
    obtain ⟨_, g, r, _, _, h⟩ := hsp k u hl; rw [h]; exact fun h => by (cases h)
  have hout : parseServices E basics s = some (parseRegGroupSuffix E (AMap.storeAll m' adds)) := by
    rw [parseServices, hm, Option.bind_some, parseMultipleServiceGroup, h1]; rfl
  have hlout : ∀ k, AMap.load (parseRegGroupSuffix E (AMap.storeAll m' adds)) k =
      (match AMap.load adds k with | some v => some v | none => AMap.load m' k).map (addSuffix E.regSuffix) := by
    intro k
    rw [parseRegGroupSuffix, load_map_snd (addSuffix E.regSuffix), AMap.load_storeAll _ _ h3]
    cases AMap.load adds k <;> rfl
  refine ⟨_, hout, fun key info hl => ?_, fun k u hl => ?_⟩
  · obtain ⟨u, hu, hsay, hok⟩ := hml key info hl
    obtain ⟨gs, g0, r, hgs, hgr, hsplit⟩ := hsp key u hu
    obtain ⟨h6, h7⟩ := h4 key u _ _ hu hsplit
    refine ⟨gs, by rw [← hsay.group]; exact hgs, fun i g hi => ?_⟩
    subst hgr
    cases i with
    | zero =>
      cases hi
      refine ⟨addSuffix E.regSuffix { u with group := g0 }, ?_, ?_⟩
      · rw [if_pos rfl, hlout]
        have : AMap.load adds key = none := by
          rw [AMap.load_eq_none]
          intro hk
          obtain ⟨p, hp, hpk⟩ := List.mem_map.mp hk
          obtain ⟨k', u', u0', as', hl', hs', hq'⟩ := h5 p hp
          obtain ⟨j, hj⟩ := (splitGroups_keys hs').2 p hq'
          have hk' : k' ∈ s.keys := by rw [← hmk]; exact AMap.load_isSome.mp (by rw [hl']; rfl)
          exact hkeys key (AMap.load_isSome.mp (by rw [hl]; rfl)) k' hk' j (by rw [← hj]; exact hpk.symm)
        rw [this]; simp only; rw [h6]; rfl
      · refine addSuffix_says (d := { Spec.fullDesc bs b!"basicService" key info with group := g0 }) ?_ E.regSuffix
        exact ⟨hsay.protocol, hsay.host, hsay.port, hsay.path, rfl, hsay.param, hsay.filter⟩
    | succ i =>
      have hi : r[i]? = some g := hi
      refine ⟨addSuffix E.regSuffix { copy u with group := g }, ?_, ?_⟩
      · rw [if_neg (by omega), hlout]
        have hmem := h7 (key ++ b!"-" ++ formatInt ((i : Nat) : Int), { copy u with group := g })
          (mem_furtherGroups.mpr ⟨i, g, hi, by rw [Nat.zero_add], rfl⟩)
        have := AMap.load_of_mem h3 hmem
        rw [show i + 1 - 1 = i by omega, this]; rfl
      · exact addSuffix_says (says_copy hsay hok g) E.regSuffix
  · rw [hlout] at hl
    cases ha : AMap.load adds k with
    | some v =>
      rw [ha] at hl; simp only [Option.map_some, Option.some.injEq] at hl
      obtain ⟨key, u', u0', as', hl', hs', hq'⟩ := h5 (k, v) (AMap.mem_of_load ha)
      obtain ⟨info, hi, hsay, hok⟩ := hback key u' hl'
      obtain ⟨gs, g0, r, hgs, hgr, hsplit⟩ := hsp key u' hl'
      rw [hsplit] at hs'; cases hs'
      obtain ⟨j, g, hj, _, hv⟩ := mem_furtherGroups.mp hq'
      refine ⟨key, info, gs, g, hi, by rw [← hsay.group]; exact hgs, ?_, ?_⟩
      · rw [hgr]; exact List.mem_cons_of_mem _ (List.mem_of_getElem? hj)
      · rw [← hl, hv]; exact addSuffix_says (says_copy hsay hok g) E.regSuffix
    | none =>
      rw [ha] at hl; simp only at hl
      obtain ⟨u1, hu1, hl⟩ := Option.map_eq_some_iff.mp hl
      have hk : k ∈ m.keys := by rw [← h2]; exact AMap.load_isSome.mp (by rw [hu1]; rfl)
      obtain ⟨u', hu'⟩ := Option.isSome_iff_exists.mp (AMap.load_isSome.mpr hk)
      obtain ⟨info, hi, hsay, hok⟩ := hback k u' hu'
      obtain ⟨gs, g0, r, hgs, hgr, hsplit⟩ := hsp k u' hu'
      obtain ⟨h6, _⟩ := h4 k u' _ _ hu' hsplit
      cases hu1.symm.trans h6
      refine ⟨k, info, gs, g0, hi, by rw [← hsay.group]; exact hgs, by rw [hgr]; simp, ?_⟩
      rw [← hl]
      refine addSuffix_says (d := { Spec.fullDesc bs b!"basicService" k info with group := g0 }) ?_ E.regSuffix
      exact ⟨hsay.protocol, hsay.host, hsay.port, hsay.path, rfl, hsay.param, hsay.filter⟩

/-! ## Further subscriptions with a suffix -/

/-- The copy of a reference in the group with the suffix. -/
def subCopy (sfx : Bytes) (u : URL) : URL := { copy u with group := u.group ++ sfx }

/-- The name of that copy. -/
def autoKey (sfx k : Bytes) (u : URL) : Bytes := b!"auto_" ++ k ++ u.group ++ sfx

theorem subCopy_ok (sfx : Bytes) (u : URL) : ConfOk (subCopy sfx u) :=
  ⟨⟨_, rfl, AMap.nodupKeys_storeAll AMap.nodupKeys_nil _⟩, .inl rfl, .inl rfl⟩

/-- What holds while the loop runs: `m1` is the map before it, `vs` the names visited so far. -/
structure SuffixInv (sfx : Bytes) (m1 : AMap Bytes URL) (vs : List Bytes) (st : List Bytes × AMap Bytes URL) : Prop where
  kept : ∀ k u, AMap.load m1 k = some u → AMap.load st.2 k = some u
  seen : ∀ i, i ∈ st.1 ↔ ∃ k u, AMap.load st.2 k = some u ∧ Spec.identity u = i
  from_ : ∀ k u, AMap.load st.2 k = some u → AMap.load m1 k = some u ∨
    (k ∉ m1.keys ∧ ∃ k0 u0, AMap.load m1 k0 = some u0 ∧ ¬ sfx <:+ u0.group ∧ k = autoKey sfx k0 u0 ∧
      SameFields u (subCopy sfx u0))
  done : ∀ k ∈ vs, ∀ u, AMap.load m1 k = some u → sfx <:+ u.group ∨ Spec.identity (subCopy sfx u) ∈ st.1
  once : ∀ k u k2 u2, AMap.load st.2 k = some u → AMap.load st.2 k2 = some u2 → k ≠ k2 → k ∉ m1.keys →
    Spec.identity u ≠ Spec.identity u2

/-- The names of the copies are new and different. -/
structure AutoNames (sfx : Bytes) (m1 : AMap Bytes URL) : Prop where
  fresh : ∀ k u, AMap.load m1 k = some u → ¬ sfx <:+ u.group → autoKey sfx k u ∉ m1.keys
  inj : ∀ k u k2 u2, AMap.load m1 k = some u → AMap.load m1 k2 = some u2 → ¬ sfx <:+ u.group → ¬ sfx <:+ u2.group →
    autoKey sfx k u = autoKey sfx k2 u2 → k = k2

theorem subStep_inv {sfx : Bytes} {m1 : AMap Bytes URL} {vs : List Bytes}
    {st : List Bytes × AMap Bytes URL} (hn : AutoNames sfx m1) (inv : SuffixInv sfx m1 vs st) (k : Bytes) :
    SuffixInv sfx m1 (vs ++ [k]) (subStep sfx st k) := by
  have hskip : (∀ u, AMap.load m1 k = some u → sfx <:+ u.group ∨ Spec.identity (subCopy sfx u) ∈ st.1) →
      SuffixInv sfx m1 (vs ++ [k]) st := by
    intro h
    refine ⟨inv.kept, inv.seen, inv.from_, fun k' hk' u hu => ?_, inv.once⟩
    rcases List.mem_append.mp hk' with hk' | hk'
    · exact inv.done k' hk' u hu
    · rw [List.mem_singleton.mp hk'] at hu; exact h u hu
  rw [subStep]
  cases hl : AMap.load st.2 k with
  | none =>
    refine hskip fun u hu => ?_
    rw [inv.kept k u hu] at hl; cases hl
  | some u =>
    simp only
    by_cases hs : Dynamic.hasSuffix u.group sfx = true
    · rw [if_pos hs]
      refine hskip fun u' hu' => .inl ?_
      cases hl.symm.trans (inv.kept k u' hu')
      exact (hasSuffix_eq _ _).mp hs
    · rw [if_neg hs]
      rw [hasSuffix_eq] at hs
      have hm1 : AMap.load m1 k = some u := by
        rcases inv.from_ k u hl with h | ⟨_, k0, u0, _, _, _, hsame⟩
        · exact h
        · exfalso; apply hs; rw [hsame.group]; exact List.suffix_append _ _
      have hid := getIdentity_conf (subCopy_ok sfx u)
      rw [show ({ copy u with group := u.group ++ sfx } : URL) = subCopy sfx u from rfl]
      generalize getIdentity (subCopy sfx u) = q at hid
      obtain ⟨i, n⟩ := q
      obtain ⟨hi, hsame, hnok⟩ := hid
      simp only at hi hsame hnok ⊢
      have hin : Spec.identity n = i := by rw [hi]; exact hsame.identity
      by_cases hseen : i ∈ st.1
      · rw [if_pos hseen]
        refine hskip fun u' hu' => .inr ?_
        cases hm1.symm.trans hu'
        rw [← hi]; exact hseen
      · rw [if_neg hseen]
        rw [show b!"auto_" ++ k ++ u.group ++ sfx = autoKey sfx k u from rfl]
        have hnew : AMap.load st.2 (autoKey sfx k u) = none := by
          cases h : AMap.load st.2 (autoKey sfx k u) with
          | none => rfl
          | some w =>
            exfalso
            rcases inv.from_ _ w h with h' | ⟨_, k0, u0, hl0, hs0, hk0, hsame0⟩
            · exact hn.fresh k u hm1 hs (AMap.load_isSome.mp (by rw [h']; rfl))
            · have := hn.inj k u k0 u0 hm1 hl0 hs hs0 hk0
              subst this
              cases hm1.symm.trans hl0
              refine hseen ((inv.seen i).mpr ⟨_, w, h, ?_⟩)
              rw [hsame0.identity, hi]
        have hak : autoKey sfx k u ∉ m1.keys := hn.fresh k u hm1 hs
        have hload : ∀ k' u', AMap.load (AMap.store st.2 (autoKey sfx k u) n) k' = some u' →
            (k' = autoKey sfx k u ∧ u' = n) ∨ (k' ≠ autoKey sfx k u ∧ AMap.load st.2 k' = some u') := by
          intro k' u' h
          rw [AMap.load_store] at h
          split at h
          · rename_i hk; cases h; exact .inl ⟨hk.symm, rfl⟩
          · rename_i hk; exact .inr ⟨Ne.symm hk, h⟩
        have hload' : ∀ k' u', AMap.load st.2 k' = some u' → AMap.load (AMap.store st.2 (autoKey sfx k u) n) k' = some u' := by
          intro k' u' h
          rw [AMap.load_store, if_neg, h]
          rintro rfl; rw [hnew] at h; cases h
        refine ⟨fun k' u' h => hload' k' u' (inv.kept k' u' h), fun j => ?_, fun k' u' h => ?_, fun k' hk' u' hu' => ?_,
          fun k1 u1 k2 u2 h1 h2 hne hk1 => ?_⟩
        · rw [List.mem_cons, inv.seen]
          constructor
          · rintro (rfl | ⟨k', u', h, he⟩)
            · exact ⟨_, n, AMap.load_store_self _ _ _, hin⟩
            · exact ⟨k', u', hload' k' u' h, he⟩
          · rintro ⟨k', u', h, he⟩
            rcases hload k' u' h with ⟨_, rfl⟩ | ⟨_, h⟩
            · left; rw [← he, hin]
            · right; exact ⟨k', u', h, he⟩
        · rcases hload k' u' h with ⟨rfl, rfl⟩ | ⟨_, h⟩
          · exact .inr ⟨hak, k, u, hm1, hs, rfl, hsame⟩
          · exact inv.from_ k' u' h
        · rcases List.mem_append.mp hk' with hk' | hk'
          · exact (inv.done k' hk' u' hu').imp_right (List.mem_cons_of_mem _)
          · rw [List.mem_singleton.mp hk'] at hu'
            cases hm1.symm.trans hu'
            right; rw [← hi]; exact List.mem_cons_self
        · rcases hload k1 u1 h1 with ⟨e1, e1'⟩ | ⟨e1, h1⟩ <;> rcases hload k2 u2 h2 with ⟨e2, e2'⟩ | ⟨e2, h2⟩
          · exact absurd (e1.trans e2.symm) hne
          · rw [e1', hin]
            intro h
            exact hseen ((inv.seen i).mpr ⟨k2, u2, h2, h.symm⟩)
          · rw [e2', hin]
            intro h
            exact hseen ((inv.seen i).mpr ⟨k1, u1, h1, h⟩)
          · exact inv.once k1 u1 k2 u2 h1 h2 hne hk1

theorem subFold_inv {sfx : Bytes} {m1 : AMap Bytes URL} (hn : AutoNames sfx m1) (visit : List Bytes) {vs : List Bytes}
    {st : List Bytes × AMap Bytes URL} (inv : SuffixInv sfx m1 vs st) :
    SuffixInv sfx m1 (vs ++ visit) (visit.foldl (subStep sfx) st) := by
  induction visit generalizing vs st with
  | nil => rw [List.append_nil]; exact inv
  | cons k r ih =>
    have := ih (subStep_inv hn inv k)
    rwa [List.append_assoc] at this

/-- The map after the loop, from one with right caches. -/
theorem subGroup_spec {E : ConfUrl.Env} (hsfx : E.subSuffix ≠ []) {m : AMap Bytes URL}
    (hok : ∀ k u, AMap.load m k = some u → ConfOk u) (hmn : m.NodupKeys) (hn : AutoNames E.subSuffix m) (visit : List Bytes) :
    ∃ m1 : AMap Bytes URL, m1.keys = m.keys ∧
      (∀ k, AMap.load m1 k = (AMap.load m k).map fun u => (getIdentity u).2) ∧
      ∃ seen, SuffixInv E.subSuffix m1 visit (seen, parseSubGroupSuffix E visit m) := by
  have hl1 : ∀ k, AMap.load (m.map fun p => (p.1, (getIdentity p.2).2)) k = (AMap.load m k).map fun u => (getIdentity u).2 :=
    fun k => load_map_snd (fun u => (getIdentity u).2) m k
  have hk1 : AMap.keys (m.map fun p => (p.1, (getIdentity p.2).2)) = AMap.keys m := keys_map_snd (fun u => (getIdentity u).2) m
  refine ⟨_, hk1, hl1, ?_⟩
  generalize hm1 : (m.map fun p => (p.1, (getIdentity p.2).2) : AMap Bytes URL) = m1 at hl1 hk1
  have hsame : ∀ k u, AMap.load m1 k = some u → ∃ u0, AMap.load m k = some u0 ∧ SameFields u u0 := by
    intro k u h
    rw [hl1] at h
    obtain ⟨u0, h0, rfl⟩ := Option.map_eq_some_iff.mp h
    exact ⟨u0, h0, (getIdentity_conf (hok k u0 h0)).2.1⟩
  have hn1 : AutoNames E.subSuffix m1 := by
    have hak : ∀ k u u0, SameFields u u0 → autoKey E.subSuffix k u = autoKey E.subSuffix k u0 := by
      intro k u u0 h; rw [autoKey, autoKey, h.group]
    refine ⟨fun k u h hs => ?_, fun k u k2 u2 h h2 hs hs2 he => ?_⟩
    · obtain ⟨u0, h0, hf⟩ := hsame k u h
      rw [hk1, hak k u u0 hf]
      exact hn.fresh k u0 h0 (by rw [← hf.group]; exact hs)
    · obtain ⟨u0, h0, hf⟩ := hsame k u h
      obtain ⟨u20, h20, hf2⟩ := hsame k2 u2 h2
      refine hn.inj k u0 k2 u20 h0 h20 (by rw [← hf.group]; exact hs) (by rw [← hf2.group]; exact hs2) ?_
      rw [← hak k u u0 hf, ← hak k2 u2 u20 hf2]; exact he
  have inv0 : SuffixInv E.subSuffix m1 [] (m.map fun p => (getIdentity p.2).1, m1) := by
    refine ⟨fun _ _ h => h, fun i => ?_, fun _ _ h => .inl h, (fun _ h => by cases h), fun k u k2 u2 h _ _ hk => ?_⟩
    · constructor
      · intro h
        obtain ⟨⟨k, u⟩, hp, rfl⟩ := List.mem_map.mp h
        have hl := AMap.load_of_mem hmn hp
        have hi := getIdentity_conf (hok k u hl)
        exact ⟨k, (getIdentity u).2, by show AMap.load m1 k = _; rw [hl1, hl]; rfl, by rw [hi.2.1.identity]; exact hi.1.symm⟩
      · rintro ⟨k, u, h, rfl⟩
        have h : AMap.load m1 k = some u := h
        rw [hl1] at h
        obtain ⟨u0, h0, rfl⟩ := Option.map_eq_some_iff.mp h
        have hi := getIdentity_conf (hok k u0 h0)
        exact List.mem_map.mpr ⟨(k, u0), AMap.mem_of_load h0, by rw [hi.2.1.identity]; exact hi.1⟩
    · exact absurd (AMap.load_isSome.mp (by rw [show AMap.load m1 k = some u from h]; rfl)) hk
  have := subFold_inv hn1 visit inv0
  rw [List.nil_append] at this
  refine ⟨(List.foldl (subStep E.subSuffix) (m.map fun p => (getIdentity p.2).1, m1) visit).1, ?_⟩
  rw [parseSubGroupSuffix, if_neg hsfx]
  simp only [hm1]
  exact this

/-! ## C65: references -/

/-- The removed protocol is read as `motan`. -/
def Spec.modern (d : Spec.Desc) : Spec.Desc :=
  { d with protocol := if d.protocol = b!"motanV1Compatible" then b!"motan" else d.protocol }

/-- The identity of what is described. -/
def Spec.descIdentity (d : Spec.Desc) : Bytes :=
  d.protocol ++ b!"://" ++ d.host ++ b!":" ++ formatInt d.port ++ b!"/" ++ d.path ++ b!"?group=" ++ d.group ++
    if d.protocol = b!"direct" then b!"&address=" ++ (d.param b!"address").getD [] else []

/-- The name under which a copy of a reference with the suffix is put. -/
def Spec.autoName (sfx key : Bytes) (d : Spec.Desc) : Bytes := b!"auto_" ++ key ++ d.group ++ sfx

/-- No copy takes the name of a reference or of another copy. -/
structure Spec.AutoNames (sfx : Bytes) (bs s : Sect) : Prop where
  fresh : ∀ key info, AMap.load s key = some (some info) →
    Spec.autoName sfx key (Spec.fullDesc bs b!"basicRefer" key info) ∉ s.keys
  inj : ∀ key info key2 info2, AMap.load s key = some (some info) → AMap.load s key2 = some (some info2) →
    Spec.autoName sfx key (Spec.fullDesc bs b!"basicRefer" key info) =
      Spec.autoName sfx key2 (Spec.fullDesc bs b!"basicRefer" key2 info2) → key = key2

theorem says_modern {E : ConfUrl.Env} {u : URL} {d : Spec.Desc} (h : Spec.Says E u d) :
    Spec.Says E (renameProtocol u) (Spec.modern d) := by
  rw [renameProtocol, Spec.modern, h.protocol]
  split
  · exact ⟨rfl, h.host, h.port, h.path, h.group, h.param, h.filter⟩
  · exact ⟨h.protocol, h.host, h.port, h.path, h.group, h.param, h.filter⟩

theorem says_same {E : ConfUrl.Env} {u v : URL} {d : Spec.Desc} (h : Spec.Says E u d) (hs : SameFields v u) : Spec.Says E v d :=
  ⟨hs.protocol.trans h.protocol, hs.host.trans h.host, hs.port.trans h.port, hs.path.trans h.path,
    hs.group.trans h.group, (fun k hk => (hs.param k).trans (h.param k hk)), fun f hf => by rw [hs.param]; exact h.filter f hf⟩

theorem says_identity {E : ConfUrl.Env} {u : URL} {d : Spec.Desc} (h : Spec.Says E u d) :
    Spec.identity u = Spec.descIdentity d := by
  rw [Spec.identity, Spec.descIdentity, h.protocol, h.host, h.port, h.path, h.group, h.param _ (by decide)]

/-- C65: every reference of the configuration is there under its name, with the protocol, address, path, group and
parameters of its own entry and of the basic entry it names, and with its filters. With a subscription suffix, every
reference whose group does not end with it has a companion in the group with the suffix (a reference of the same identity,
if the configuration has one), and nothing else is added: every other reference is such a copy. The order in which the map
is visited does not matter. (The names of the copies must be new and different.) -/
theorem references_configured {E : ConfUrl.Env} (hE : Spec.SaneEnv E) {bs s : Sect} (hbs : Spec.GoodSect bs)
    (hs : Spec.GoodSect s) {basics : AMap Bytes URL} (hb : confToURLs bs = some basics) (visit : List Bytes)
    (hvisit : ∀ k ∈ s.keys, k ∈ visit) (hn : Spec.AutoNames E.subSuffix bs s) :
    ∃ out, parseRefers E visit basics s = some out ∧
      (∀ key info, AMap.load s key = some (some info) →
        let d := Spec.fullDesc bs b!"basicRefer" key info
        (∃ u, AMap.load out key = some u ∧ Spec.Says E u (Spec.modern d)) ∧
        (E.subSuffix ≠ [] → ¬ E.subSuffix <:+ d.group →
          ∃ k' u' d', AMap.load out k' = some u' ∧ Spec.Says E u' (Spec.modern d') ∧
            Spec.descIdentity d' = Spec.descIdentity { d with group := d.group ++ E.subSuffix })) ∧
      (∀ k u, AMap.load out k = some u → ∃ key info, AMap.load s key = some (some info) ∧
        let d := Spec.fullDesc bs b!"basicRefer" key info
        (k = key ∧ Spec.Says E u (Spec.modern d) ∨
         k = Spec.autoName E.subSuffix key d ∧ E.subSuffix ≠ [] ∧ ¬ E.subSuffix <:+ d.group ∧
          Spec.Says E u (Spec.modern { d with group := d.group ++ E.subSuffix }))) := by
  obtain ⟨m, hm, hmk, hml⟩ := basicConf_spec hE hbs hs hb b!"basicRefer"
  have hmn : m.NodupKeys := by rw [AMap.NodupKeys, hmk]; exact hs.nodup
  have hback : ∀ k u, AMap.load m k = some u → ∃ info, AMap.load s k = some (some info) ∧
      Spec.Says E u (Spec.fullDesc bs b!"basicRefer" k info) ∧ ConfOk u := by
    intro k u hl
    have hk : k ∈ s.keys := by rw [← hmk]; exact AMap.load_isSome.mp (by rw [hl]; rfl)
    obtain ⟨i, hi⟩ := Option.isSome_iff_exists.mp (AMap.load_isSome.mpr hk)
    obtain ⟨info, rfl, _, _⟩ := hs.entries k i hi
    obtain ⟨u', hu', h⟩ := hml k info hi
    cases hl.symm.trans hu'
    exact ⟨info, hi, h⟩
  have hout : parseRefers E visit basics s =
      some ((parseSubGroupSuffix E visit m).map fun p => (p.1, renameProtocol p.2)) := by rw [parseRefers, hm]; rfl
  refine ⟨_, hout, ?_⟩
  have hlo : ∀ k, AMap.load ((parseSubGroupSuffix E visit m).map fun p => (p.1, renameProtocol p.2)) k =
      (AMap.load (parseSubGroupSuffix E visit m) k).map renameProtocol := fun k => load_map_snd renameProtocol _ k
  by_cases hsfx : E.subSuffix = []
  · have hp : parseSubGroupSuffix E visit m = m := by rw [parseSubGroupSuffix, if_pos hsfx]
    rw [hp] at hlo ⊢
    refine ⟨fun key info hl => ?_, fun k u hl => ?_⟩
    · obtain ⟨u, hu, hsay, _⟩ := hml key info hl
      exact ⟨⟨_, by rw [hlo, hu]; rfl, says_modern hsay⟩, fun h => absurd hsfx h⟩
    · rw [hlo] at hl
      obtain ⟨u0, h0, rfl⟩ := Option.map_eq_some_iff.mp hl
      obtain ⟨info, hi, hsay, _⟩ := hback k u0 h0
      exact ⟨k, info, hi, .inl ⟨rfl, says_modern hsay⟩⟩
  · have hauto : AutoNames E.subSuffix m := by
      have hk : ∀ k u info, Spec.Says E u (Spec.fullDesc bs b!"basicRefer" k info) →
          autoKey E.subSuffix k u = Spec.autoName E.subSuffix k (Spec.fullDesc bs b!"basicRefer" k info) := by
        intro k u info h; rw [autoKey, Spec.autoName, h.group]
      refine ⟨fun k u h _ => ?_, fun k u k2 u2 h h2 _ _ he => ?_⟩
      · obtain ⟨info, hi, hsay, _⟩ := hback k u h
        rw [hmk, hk k u info hsay]; exact hn.fresh k info hi
      · obtain ⟨info, hi, hsay, _⟩ := hback k u h
        obtain ⟨info2, hi2, hsay2, _⟩ := hback k2 u2 h2
        rw [hk k u info hsay, hk k2 u2 info2 hsay2] at he
        exact hn.inj k info k2 info2 hi hi2 he
    obtain ⟨m1, hk1, hl1, seen, inv⟩ := subGroup_spec hsfx (fun k u h => (hback k u h).choose_spec.2.2) hmn hauto visit
    have h1back : ∀ k u, AMap.load m1 k = some u → ∃ info, AMap.load s k = some (some info) ∧
        Spec.Says E u (Spec.fullDesc bs b!"basicRefer" k info) ∧
          ∃ p : AMap Bytes Bytes, u.params = some p ∧ p.NodupKeys := by
      intro k u h
      rw [hl1] at h
      obtain ⟨u0, h0, rfl⟩ := Option.map_eq_some_iff.mp h
      obtain ⟨info, hi, hsay, hok⟩ := hback k u0 h0
      have hc := getIdentity_conf hok
      exact ⟨info, hi, says_same hsay hc.2.1, hc.2.2.params⟩
    have hcopy : ∀ u d, Spec.Says E u d → (∃ p : AMap Bytes Bytes, u.params = some p ∧ p.NodupKeys) →
        Spec.Says E (subCopy E.subSuffix u) { d with group := d.group ++ E.subSuffix } := by
      intro u d h hp
      have hc : ∀ k, (subCopy E.subSuffix u).param k = u.param k := by
        intro k
        refine copy_param u ?_ k
        intro p hp'
        obtain ⟨p2, hp2, hn2⟩ := hp
        cases hp'.symm.trans hp2; exact hn2
      refine ⟨h.protocol, h.host, h.port, h.path, ?_, fun k hk => ?_, fun f hf => ?_⟩
      · show u.group ++ E.subSuffix = _; rw [h.group]
      · rw [hc]; exact h.param k hk
      · rw [hc]; exact h.filter f hf
    have hfrom : ∀ k u, AMap.load (parseSubGroupSuffix E visit m) k = some u → ∃ key info,
        AMap.load s key = some (some info) ∧
        (k = key ∧ Spec.Says E u (Spec.fullDesc bs b!"basicRefer" key info) ∨
         k = Spec.autoName E.subSuffix key (Spec.fullDesc bs b!"basicRefer" key info) ∧ E.subSuffix ≠ [] ∧
          ¬ E.subSuffix <:+ (Spec.fullDesc bs b!"basicRefer" key info).group ∧
          Spec.Says E u { Spec.fullDesc bs b!"basicRefer" key info with
            group := (Spec.fullDesc bs b!"basicRefer" key info).group ++ E.subSuffix }) := by
      intro k u h
      rcases inv.from_ k u h with h1 | ⟨_, k0, u0, h0, hs0, hk0, hsame⟩
      · obtain ⟨info, hi, hsay, _⟩ := h1back k u h1
        exact ⟨k, info, hi, .inl ⟨rfl, hsay⟩⟩
      · obtain ⟨info, hi, hsay, hp⟩ := h1back k0 u0 h0
        refine ⟨k0, info, hi, .inr ⟨?_, hsfx, ?_, says_same (hcopy u0 _ hsay hp) hsame⟩⟩
        · rw [hk0, autoKey, Spec.autoName, hsay.group]
        · rw [← hsay.group]; exact hs0
    refine ⟨fun key info hl => ⟨?_, fun _ hns => ?_⟩, fun k u hl => ?_⟩
    · obtain ⟨u, hu, hsay, hok⟩ := hml key info hl
      have h1 : AMap.load m1 key = some (getIdentity u).2 := by rw [hl1, hu]; rfl
      exact ⟨_, by rw [hlo, inv.kept _ _ h1]; rfl, says_modern (says_same hsay (getIdentity_conf hok).2.1)⟩
    · obtain ⟨u, hu, hsay, hok⟩ := hml key info hl
      have h1 : AMap.load m1 key = some (getIdentity u).2 := by rw [hl1, hu]; rfl
      have hc := getIdentity_conf hok
      have hsay1 := says_same hsay hc.2.1
      rcases inv.done key (hvisit key (AMap.load_isSome.mp (by rw [hl]; rfl))) _ h1 with h | h
      · rw [hsay1.group] at h; exact absurd h hns
      · obtain ⟨k', u', hl', hid⟩ := (inv.seen _).mp h
        rw [says_identity (hcopy _ _ hsay1 hc.2.2.params)] at hid
        obtain ⟨key', info', _, ⟨_, hsay'⟩ | ⟨_, _, _, hsay'⟩⟩ := hfrom k' u' hl'
        · exact ⟨k', _, _, by rw [hlo, hl']; rfl, says_modern hsay', by rw [← says_identity hsay', hid]⟩
        · exact ⟨k', _, _, by rw [hlo, hl']; rfl, says_modern hsay', by rw [← says_identity hsay', hid]⟩
    · rw [hlo] at hl
      obtain ⟨u0, h0, rfl⟩ := Option.map_eq_some_iff.mp hl
      obtain ⟨key, info, hi, h⟩ := hfrom k u0 h0
      exact ⟨key, info, hi, h.imp (fun h => ⟨h.1, says_modern h.2⟩)
        fun h => ⟨h.1, h.2.1, h.2.2.1, says_modern h.2.2.2⟩⟩

/-- C65: a reference added for the suffix has an identity that no other reference has: nothing is subscribed twice on account
of it. (`m`: the references as configured.) -/
theorem suffix_never_doubles {E : ConfUrl.Env} (hE : Spec.SaneEnv E) {bs s : Sect} (hbs : Spec.GoodSect bs)
    (hs : Spec.GoodSect s) {basics : AMap Bytes URL} (hb : confToURLs bs = some basics) (visit : List Bytes)
    (hn : Spec.AutoNames E.subSuffix bs s) {m : AMap Bytes URL} (hm : basicConfToURLs E basics b!"basicRefer" s = some m)
    {k k' : Bytes} {u u' : URL} (h : AMap.load (parseSubGroupSuffix E visit m) k = some u)
    (h' : AMap.load (parseSubGroupSuffix E visit m) k' = some u') (hne : k ≠ k') (hk : k ∉ s.keys) :
    Spec.identity u ≠ Spec.identity u' := by
  obtain ⟨m', hm', hmk, hml⟩ := basicConf_spec hE hbs hs hb b!"basicRefer"
  cases hm.symm.trans hm'
  have hmn : m.NodupKeys := by rw [AMap.NodupKeys, hmk]; exact hs.nodup
  by_cases hsfx : E.subSuffix = []
  · rw [parseSubGroupSuffix, if_pos hsfx] at h
    exact absurd (by rw [← hmk]; exact AMap.load_isSome.mp (by rw [h]; rfl)) hk
  · have hback : ∀ k u, AMap.load m k = some u → ∃ info, AMap.load s k = some (some info) ∧
        Spec.Says E u (Spec.fullDesc bs b!"basicRefer" k info) ∧ ConfOk u := by
      intro k u hl
      have hk : k ∈ s.keys := by rw [← hmk]; exact AMap.load_isSome.mp (by rw [hl]; rfl)
      obtain ⟨i, hi⟩ := Option.isSome_iff_exists.mp (AMap.load_isSome.mpr hk)
      obtain ⟨info, rfl, _, _⟩ := hs.entries k i hi
      obtain ⟨u', hu', h⟩ := hml k info hi
      cases hl.symm.trans hu'
      exact ⟨info, hi, h⟩
    have hauto : AutoNames E.subSuffix m := by
      have hk : ∀ k u info, Spec.Says E u (Spec.fullDesc bs b!"basicRefer" k info) →
          autoKey E.subSuffix k u = Spec.autoName E.subSuffix k (Spec.fullDesc bs b!"basicRefer" k info) := by
        intro k u info h; rw [autoKey, Spec.autoName, h.group]
      refine ⟨fun k u h _ => ?_, fun k u k2 u2 h h2 _ _ he => ?_⟩
      · obtain ⟨info, hi, hsay, _⟩ := hback k u h
        rw [hmk, hk k u info hsay]; exact hn.fresh k info hi
      · obtain ⟨info, hi, hsay, _⟩ := hback k u h
        obtain ⟨info2, hi2, hsay2, _⟩ := hback k2 u2 h2
        rw [hk k u info hsay, hk k2 u2 info2 hsay2] at he
        exact hn.inj k info k2 info2 hi hi2 he
    obtain ⟨m1, hk1, _, seen, inv⟩ := subGroup_spec hsfx (fun k u h => (hback k u h).choose_spec.2.2) hmn hauto visit
    exact inv.once k u k' u' h h' hne (by rw [hk1, hmk]; exact hk)

/-- C65: an HTTP client of the configuration, with its basic reference. -/
theorem http_clients_configured {E : ConfUrl.Env} (hE : Spec.SaneEnv E) {bs s : Sect} (hbs : Spec.GoodSect bs)
    (hs : Spec.GoodSect s) {basics : AMap Bytes URL} (hb : confToURLs bs = some basics) :
    ∃ out : AMap Bytes URL, basicConfToURLs E basics b!"basicRefer" s = some out ∧ out.keys = s.keys ∧
      ∀ key info, AMap.load s key = some (some info) →
        ∃ u, AMap.load out key = some u ∧ Spec.Says E u (Spec.fullDesc bs b!"basicRefer" key info) := by
  obtain ⟨m, hm, hmk, hml⟩ := basicConf_spec hE hbs hs hb b!"basicRefer"
  exact ⟨m, hm, hmk, fun key info h => by obtain ⟨u, h1, h2, _⟩ := hml key info h; exact ⟨u, h1, h2⟩⟩

/-- C65: an entry is converted exactly if its fields are given values of their types; otherwise the program stops. -/
theorem entry_converted_iff (key : Bytes) (info : Info) (hn : info.NodupKeys) :
    (entryURL key (some info)).isSome ↔ Spec.Typed info := by
  rcases entryURL_spec key info hn with ⟨ht, w, hw, _⟩ | ⟨ht, hw⟩
  · rw [hw]; exact ⟨fun _ => ht, fun _ => rfl⟩
  · rw [hw]; exact ⟨fun h => by (cases h), fun h => absurd h ht⟩

/-! ## C65: what goes wrong -/

/-- C65, violated: a port left empty is not read as 0, as the code means it to be: the program stops. -/
theorem empty_port_violated : confToURL [(b!"port", .nil)] = none := by decide +kernel

/-- C65, violated: a service whose list of groups names none stops the program. -/
theorem no_group_violated : parseServices {} [] [(b!"s", some [(b!"group", .str b!" , ")])] = none := by decide +kernel

/-- C65, violated: a service can disappear: the second group of `a` takes the place of the service `a-0`. -/
theorem service_lost_violated :
    (parseServices {} [] [(b!"a", some [(b!"path", .str b!"p"), (b!"group", .str b!"g1,g2")]),
      (b!"a-0", some [(b!"path", .str b!"q"), (b!"group", .str b!"g")])]).map
        (fun m => m.map fun p => (p.1, p.2.path, p.2.group)) =
      some [(b!"a", b!"p", b!"g1"), (b!"a-0", b!"p", b!"g2")] := by decide +kernel

/-- C65, violated: so can a subscription: the copies of `a` in the group `bc` and of `ab` in the group `c` have the same
name. -/
theorem subscription_lost_violated :
    (parseRefers { subSuffix := b!"-t" } [b!"a", b!"ab"] [] [(b!"a", some [(b!"path", .str b!"p"), (b!"group", .str b!"bc")]),
      (b!"ab", some [(b!"path", .str b!"q"), (b!"group", .str b!"c")])]).map
        (fun m => m.map fun p => (p.1, p.2.path, p.2.group)) =
      some [(b!"a", b!"p", b!"bc"), (b!"ab", b!"q", b!"c"), (b!"auto_abc-t", b!"q", b!"c-t")] := by decide +kernel

/-- C65, violated: a service with a basic entry keeps the identity it had before its group was settled, because writing the
log line has cached it: here that of the group `g1,g2`, for the service in the group `g1-t`. -/
theorem stale_identity_violated :
    ((confToURLs [(b!"b", some [(b!"protocol", .str b!"motan2")])]).bind fun bs =>
      parseServices { regSuffix := b!"-t" } bs [(b!"s", some [(b!"basicService", .str b!"b"), (b!"path", .str b!"p"),
        (b!"group", .str b!"g1,g2")])]).map (fun m => m.map fun p => (p.2.group, (getIdentity p.2).1)) =
      some [(b!"g1-t", b!"motan2://:0/p?group=g1,g2"), (b!"g2-t", b!"motan2://:0/p?group=g2-t")] := by decide +kernel

/-! ## C65: examples -/

/-- An environment with everything in it. -/
def exConfEnv : ConfUrl.Env :=
  { agent := { params := some [(b!"defaultFilter", b!"log, met"), (b!"globalFilter", b!"tr")] }
    envFilters := b!"lim", envGroups := b!"extra", regSuffix := b!"-t", subSuffix := b!"-s"
    relevant := [b!" fail "], order := List.reverse }

/-- A basic section. -/
def exBasics : Sect :=
  [(b!"base", some [(b!"protocol", .str b!"motan2"), (b!"group", .str b!"dflt"), (b!"retries", .int 2), (b!"weak", .bool true),
    (b!"filter", .str b!"x"), (b!"host", .nil)])]

/-- A section of services or references. -/
def exSect : Sect :=
  [(b!"s1", some [(b!"basicService", .str b!"base"), (b!"basicRefer", .str b!"base"), (b!"path", .str b!"com.x.A"),
      (b!"port", .int 8080), (b!"retries", .int 0), (b!"disableDefaultFilter", .str b!"met")]),
   (b!"s2", some [(b!"path", .str b!"com.x.B"), (b!"group", .str b!"g1, g2"), (b!"protocol", .str b!"motanV1Compatible"),
      (b!"ratio", .num b!"0.5")])]

theorem exConfEnv_sane : Spec.SaneEnv exConfEnv := ⟨by decide +kernel, fun l => List.reverse_perm l⟩

theorem exTyped {info : Info} (h : info.all (fun p =>
    if p.1 = b!"port" then (match p.2 with | .int _ => true | _ => false)
    else if p.1 = b!"protocol" ∨ p.1 = b!"host" ∨ p.1 = b!"path" ∨ p.1 = b!"group" then
      (match p.2 with | .nil => true | .str _ => true | _ => false) else true) = true) : Spec.Typed info := by
  rw [List.all_eq_true] at h
  refine ⟨fun k hk v hl => ?_, fun v hl => ?_⟩
  · have := h (k, v) (AMap.mem_of_load hl)
    simp only at this
    rw [if_neg (by rcases hk with rfl | rfl | rfl | rfl <;> decide), if_pos hk] at this
    cases v with
    | nil => exact .inl rfl
    | str s => exact .inr ⟨s, rfl⟩
    | _ => cases this
  · have := h (b!"port", v) (AMap.mem_of_load hl)
    simp only [if_true] at this
    cases v with
    | int n => exact ⟨n, rfl⟩
    | _ => cases this

theorem exGoodSect {s : Sect} (hn : s.NodupKeys) (h : s.all (fun p => match p.2 with
    | some info => decide info.NodupKeys && info.all (fun p =>
        if p.1 = b!"port" then (match p.2 with | .int _ => true | _ => false)
        else if p.1 = b!"protocol" ∨ p.1 = b!"host" ∨ p.1 = b!"path" ∨ p.1 = b!"group" then
          (match p.2 with | .nil => true | .str _ => true | _ => false) else true)
    | none => false) = true) : Spec.GoodSect s := by
  refine ⟨hn, fun k i hl => ?_⟩
  have := List.all_eq_true.mp h (k, i) (AMap.mem_of_load hl)
  cases i with
  | none => cases this
  | some info =>
    simp only [Bool.and_eq_true, decide_eq_true_eq] at this
    exact ⟨info, rfl, this.1, exTyped this.2⟩

example : Spec.GoodSect exBasics := exGoodSect (by decide +kernel) (by decide +kernel)
example : Spec.GoodSect exSect := exGoodSect (by decide +kernel) (by decide +kernel)

example : ∀ k ∈ exSect.keys, ∀ k' ∈ exSect.keys, ∀ n : Nat, k ≠ k' ++ b!"-" ++ formatInt n := by
  intro k hk k' hk' n he
  have hm : (45 : UInt8) ∈ k := by rw [he]; simp
  clear he
  revert k
  decide +kernel

example : Spec.AutoNames exConfEnv.subSuffix exBasics exSect := by
  have hl : ∀ key info, AMap.load exSect key = some (some info) → key = b!"s1" ∨ key = b!"s2" := by
    intro key info h
    have := AMap.load_isSome.mp (show (AMap.load exSect key).isSome by rw [h]; rfl)
    simpa [exSect, AMap.keys] using this
  refine ⟨fun key info h hk => ?_, fun key info key2 info2 h h2 he => ?_⟩
  · rcases hl key info h with rfl | rfl <;> (simp [exSect, AMap.keys, Spec.autoName] at hk)
  · rcases hl key info h with rfl | rfl <;> rcases hl key2 info2 h2 with rfl | rfl <;>
      first | rfl | (simp [Spec.autoName] at he)

/-- What comes of it. -/
example : ((confToURLs exBasics).bind fun bs => parseServices exConfEnv bs exSect).map
      (fun m => m.map fun p => (p.1, p.2.path, p.2.group, (p.2.param b!"filter").getD [])) =
    some [(b!"s1", b!"com.x.A", b!"dflt-t", b!"x,fail,lim,tr,log"),
      (b!"s2", b!"com.x.B", b!"g1-t", b!"fail,lim,tr,met,log"),
      (b!"s1-0", b!"com.x.A", b!"extra-t", b!"x,fail,lim,tr,log"),
      (b!"s2-0", b!"com.x.B", b!"g2-t", b!"fail,lim,tr,met,log"),
      (b!"s2-1", b!"com.x.B", b!"extra-t", b!"fail,lim,tr,met,log")] := by decide +kernel

example : ((confToURLs exBasics).bind fun bs => parseRefers exConfEnv [b!"s2", b!"auto_s2g1, g2-s", b!"s1"] bs exSect).map
      (fun m => m.map fun p => (p.1, p.2.protocol, p.2.group, p.2.param b!"retries")) =
    some [(b!"s1", b!"motan2", b!"dflt", some b!"0"), (b!"s2", b!"motan", b!"g1, g2", none),
      (b!"auto_s2g1, g2-s", b!"motan", b!"g1, g2-s", none), (b!"auto_s1dflt-s", b!"motan2", b!"dflt-s", some b!"0")] := by
  decide +kernel

end Motan.Props
