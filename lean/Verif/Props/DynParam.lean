import Verif.Model.Config
import Verif.Props.Config

/-!
# C65: parameters that depend on the pool, and the placeholders that stand for them
-/

namespace Motan.Props

open Motan Motan.Strings
open Motan.Config (V Conf FS replacePlaceHolder byRegexp dynamicParam dynamicParams withDynamic poolConfig parsePool)

/-! ## C65: parameters that depend on the pool -/

/-- The entry is a pattern that matches the pool. -/
def Spec.PatternFor (re : Bytes → Bytes → Option Bool) (pool k : Bytes) : Prop :=
  ∃ p, k = b!"regexp:" ++ p ∧ re p pool = some true

theorem pattern_iff (re : Bytes → Bytes → Option Bool) (pool k : Bytes) :
    hasPrefix k b!"regexp:" = true ∧ re (k.drop 7) pool = some true ↔ Spec.PatternFor re pool k := by
  constructor
  · rintro ⟨h1, h2⟩
    rw [hasPrefix, List.isPrefixOf_iff_prefix] at h1
    obtain ⟨p, rfl⟩ := h1
    exact ⟨p, rfl, h2⟩
  · rintro ⟨p, rfl, h⟩
    exact ⟨by rw [hasPrefix, List.isPrefixOf_iff_prefix]; exact List.prefix_append _ _, h⟩

theorem byRegexp_spec (re : Bytes → Bytes → Option Bool) (pool : Bytes) (m : List (Bytes × V)) :
    match byRegexp re pool m with
    | some v => ∃ k, (k, v) ∈ m ∧ Spec.PatternFor re pool k
    | none => ∀ p ∈ m, ¬ Spec.PatternFor re pool p.1 := by
  induction m with
  | nil => exact fun _ h => by (cases h)
  | cons q r ih =>
    obtain ⟨k, v⟩ := q
    rw [byRegexp]
    by_cases h : hasPrefix k b!"regexp:" = true ∧ re (k.drop 7) pool = some true
    · rw [if_pos h]; exact ⟨k, List.mem_cons_self, (pattern_iff _ _ _).mp h⟩
    · rw [if_neg h]
      cases hb : byRegexp re pool r with
      | some v' =>
        rw [hb] at ih
        obtain ⟨k', h1, h2⟩ := ih
        exact ⟨k', List.mem_cons_of_mem _ h1, h2⟩
      | none =>
        rw [hb] at ih
        intro p hp
        rcases List.mem_cons.mp hp with rfl | hp
        · exact fun h' => h ((pattern_iff _ _ _).mpr h')
        · exact ih p hp

/-- The value of an entry: there is none if the entry is missing or has no value. -/
def Spec.ValueOf (m : AMap Bytes V) (k : Bytes) (v : V) : Prop := AMap.load m k = some v ∧ v ≠ .nil

theorem value_some {o : Option V} {v : V} : Config.value o = some v ↔ o = some v ∧ v ≠ .nil := by
  match o with
  | none => exact ⟨fun h => by (cases h), fun h => by (cases h.1)⟩
  | some .nil => exact ⟨fun h => by (cases h), fun h => absurd (Option.some.inj h.1).symm h.2⟩
  | some (.str _) => exact ⟨fun h => ⟨h, by cases h; simp⟩, fun h => h.1⟩
  | some (.list _) => exact ⟨fun h => ⟨h, by cases h; simp⟩, fun h => h.1⟩
  | some (.map _) => exact ⟨fun h => ⟨h, by cases h; simp⟩, fun h => h.1⟩
  | some (.other _) => exact ⟨fun h => ⟨h, by cases h; simp⟩, fun h => h.1⟩

theorem value_none {o : Option V} : Config.value o = none ↔ ∀ v, o = some v → v = .nil := by
  constructor
  · intro h v hv
    apply Classical.byContradiction; intro hn
    rw [value_some.mpr ⟨hv, hn⟩] at h; cases h
  · intro h
    cases hv : Config.value o with
    | none => rfl
    | some v => exact absurd (h v (value_some.mp hv).1) (value_some.mp hv).2

/-- C65: a parameter with a value for each pool takes the value of its own pool; without one, the value of a pattern that
matches, if those that match have values; if none that matches has one, the default. A parameter with one value takes that. -/
theorem pool_parameter (re : Bytes → Bytes → Option Bool) (pool : Bytes) (m : AMap Bytes V) :
    (∀ v, Spec.ValueOf m pool v → dynamicParam re pool (.map m) = some v) ∧
    ((∀ v, ¬ Spec.ValueOf m pool v) → (∃ p ∈ m, Spec.PatternFor re pool p.1) →
      (∀ p ∈ m, Spec.PatternFor re pool p.1 → p.2 ≠ .nil) →
      ∃ k v, (k, v) ∈ m ∧ Spec.PatternFor re pool k ∧ dynamicParam re pool (.map m) = some v) ∧
    ((∀ v, ¬ Spec.ValueOf m pool v) → (∀ p ∈ m, Spec.PatternFor re pool p.1 → p.2 = .nil) →
      ∀ v, dynamicParam re pool (.map m) = some v ↔ Spec.ValueOf m b!"default" v) ∧
    ∀ v, v ≠ .nil → (∀ m, v ≠ .map m) → dynamicParam re pool v = some v := by
  have hb := byRegexp_spec re pool m
  have hnone : (∀ v, ¬ Spec.ValueOf m pool v) → Config.value (AMap.load m pool) = none := fun h =>
    value_none.mpr fun v hv => Classical.byContradiction fun hn => h v ⟨hv, hn⟩
  refine ⟨fun v h => by rw [dynamicParam, value_some.mpr h], fun h hex hval => ?_, fun h hno v => ?_,
    fun v hv hm => ?_⟩
  · rw [dynamicParam, hnone h]
    cases hr : byRegexp re pool m with
    | none => rw [hr] at hb; obtain ⟨p, hp, h⟩ := hex; exact absurd h (hb p hp)
    | some v =>
      rw [hr] at hb; obtain ⟨k, h1, h2⟩ := hb
      refine ⟨k, v, h1, h2, ?_⟩
      rw [value_some.mpr ⟨rfl, hval _ h1 h2⟩]
  · rw [dynamicParam, hnone h]
    have : Config.value (byRegexp re pool m) = none := by
      refine value_none.mpr fun v hv => ?_
      rw [hv] at hb; obtain ⟨k, h1, h2⟩ := hb
      exact hno _ h1 h2
    rw [this]
    exact value_some
  · cases v with
    | nil => exact absurd rfl hv
    | map m => exact absurd rfl (hm m)
    | _ => rfl

/-! ## C65: placeholders -/

theorem load_dynamicParams (re : Bytes → Bytes → Option Bool) (pool : Bytes) (dp : AMap Bytes V) (k : Bytes) :
    AMap.load (dynamicParams re pool dp) k = (AMap.load dp k).map fun v => (dynamicParam re pool v).getD .nil := by
  induction dp with
  | nil => rfl
  | cons p r ih =>
    obtain ⟨k', v⟩ := p
    rw [show dynamicParams re pool ((k', v) :: r) = (k', (dynamicParam re pool v).getD .nil) :: dynamicParams re pool r from rfl,
      AMap.load_cons, AMap.load_cons]
    by_cases h : k' = k
    · rw [if_pos h, if_pos h]; rfl
    · rw [if_neg h, if_neg h]; exact ih

/-- The parameter has this value for the pool: it is in the section of parameters and is given one. -/
def Spec.ParamIs (re : Bytes → Bytes → Option Bool) (pool : Bytes) (c : Conf) (k : Bytes) (v : V) : Prop :=
  ∃ dp e, AMap.load c b!"dynamic-param" = some (.map dp) ∧ AMap.load dp k = some e ∧ dynamicParam re pool e = some v

theorem dynamicParam_ne_nil {re : Bytes → Bytes → Option Bool} {pool : Bytes} {e v : V} (h : dynamicParam re pool e = some v) :
    v ≠ .nil := by
  cases e with
  | map m =>
    rw [dynamicParam] at h
    cases h1 : Config.value (AMap.load m pool) with
    | some x => rw [h1] at h; cases h; exact (value_some.mp h1).2
    | none =>
      rw [h1] at h; dsimp only at h
      cases h2 : Config.value (byRegexp re pool m) with
      | some x => rw [h2] at h; cases h; exact (value_some.mp h2).2
      | none => rw [h2] at h; exact (value_some.mp h).2
  | nil => exact absurd h (by simp [dynamicParam, Config.value])
  | _ => cases h; simp

theorem withDynamic_cases (re : Bytes → Bytes → Option Bool) (pool : Bytes) (c : Conf) :
    (∃ dp, AMap.load c b!"dynamic-param" = some (.map dp) ∧
      withDynamic re pool c = replacePlaceHolder c (dynamicParams re pool dp)) ∨
    ((∀ dp, AMap.load c b!"dynamic-param" ≠ some (.map dp)) ∧ withDynamic re pool c = replacePlaceHolder c []) := by
  rw [withDynamic]
  split
  · rename_i h; exact .inl ⟨[], h, rfl⟩
  · rename_i dp _ h; exact .inl ⟨dp, h, rfl⟩
  · rename_i h; exact .inr ⟨fun dp hd => h dp hd, rfl⟩

/-- C65: in the configuration an agent uses, a string that is exactly one placeholder `${k}` is the value of the parameter k for
the pool, wherever it is below maps; if k has no value for the pool, and for every other string, it stays as it is. Other values
stay what they are. -/
theorem agent_placeholders (re : Bytes → Bytes → Option Bool) (pool : Bytes) (c : Conf) (p : List Bytes) :
    (∀ k v, Spec.valueAt c p = some (.str (b!"${" ++ k ++ b!"}")) → k ≠ [] → (125 : UInt8) ∉ k → Spec.ParamIs re pool c k v →
      Spec.valueAt (withDynamic re pool c) p = some v) ∧
    (∀ s, Spec.valueAt c p = some (.str s) →
      (∀ k v, s = b!"${" ++ k ++ b!"}" → k ≠ [] → (125 : UInt8) ∉ k → ¬ Spec.ParamIs re pool c k v) →
      Spec.valueAt (withDynamic re pool c) p = some (.str s)) ∧
    (∀ x, Spec.valueAt c p = some (.other x) → Spec.valueAt (withDynamic re pool c) p = some (.other x)) ∧
    (∀ l, Spec.valueAt c p = some (.list l) → Spec.valueAt (withDynamic re pool c) p = some (.list l)) ∧
    (∀ m, Spec.valueAt c p = some (.map m) → ∃ m', Spec.valueAt (withDynamic re pool c) p = some (.map m')) := by
  rcases withDynamic_cases re pool c with ⟨dp, hdp, hw⟩ | ⟨hno, hw⟩
  · have h := placeholders_replaced c (dynamicParams re pool dp) p
    rw [hw]
    refine ⟨fun k v hs hk hb ⟨dp', e, h1, h2, h3⟩ => ?_, fun s hs hn => ?_, h.2.1, h.2.2.1, h.2.2.2.1⟩
    · rw [hdp] at h1; cases h1
      have hl : AMap.load (dynamicParams re pool dp) k = some v := by rw [load_dynamicParams, h2]; simp [h3]
      obtain ⟨x, hx, hr⟩ := h.1 _ hs
      rcases hr with ⟨k', e', _, _, hl', _⟩ | ⟨_, hr⟩
      · have : k = k' := List.append_cancel_left (List.append_cancel_right e')
        subst this; rw [hl] at hl'; cases hl'; exact hx
      · exact absurd (hr k v rfl hk hb hl) (dynamicParam_ne_nil h3)
    · obtain ⟨x, hx, hr⟩ := h.1 _ hs
      rcases hr with ⟨k, e, hk, hb, hl, hne⟩ | ⟨rfl, _⟩
      · rw [load_dynamicParams] at hl
        cases he : AMap.load dp k with
        | none => rw [he] at hl; cases hl
        | some e' =>
          rw [he] at hl
          cases hd : dynamicParam re pool e' with
          | none => simp [hd] at hl; exact absurd hl.symm hne
          | some y => exact absurd ⟨dp, e', hdp, he, hd⟩ (hn k y e hk hb)
      · exact hx
  · rw [hw]
    refine ⟨fun k v _ _ _ ⟨dp, _, h, _⟩ => absurd h (hno dp), fun s hs _ => hs, fun _ h => h, fun _ h => h, fun m h => ⟨m, h⟩⟩

/-- C65: the configuration of a pool is the merged one with its placeholders replaced; there is none only if nothing was merged. -/
theorem pool_configuration (re : Bytes → Bytes → Option Bool) (fs : FS) (application pool : Bytes) (c : Conf) :
    parsePool re fs application pool = some c ↔ c = withDynamic re pool (poolConfig fs application pool) ∧ c ≠ [] := by
  rw [parsePool]
  cases h : withDynamic re pool (poolConfig fs application pool) with
  | nil => exact ⟨fun h => (by cases h), fun ⟨h1, h2⟩ => absurd h1 h2⟩
  | cons a l => exact ⟨fun h => (by cases h; exact ⟨rfl, by simp⟩), fun ⟨h1, _⟩ => by rw [h1]⟩

/-- C65, violated: when two patterns match, the value depends on the order in which the map is visited. -/
theorem pattern_choice_violated :
    ∃ (m m' : AMap Bytes V), m.Perm m' ∧ m.NodupKeys ∧
      dynamicParam (fun p s => some (hasPrefix s p)) b!"app-yf" (.map m) ≠
        dynamicParam (fun p s => some (hasPrefix s p)) b!"app-yf" (.map m') :=
  ⟨[(b!"regexp:app", .other b!"1"), (b!"regexp:app-y", .other b!"2")], [(b!"regexp:app-y", .other b!"2"), (b!"regexp:app", .other b!"1")],
    List.Perm.swap _ _ _, by decide +kernel,
    fun h => absurd (show (some (V.other b!"1") : Option V) = some (.other b!"2") from h) (by simp)⟩

/-- C65, violated: a pattern that matches but has no value can hide one that has: the default is taken. -/
theorem pattern_hides_violated :
    dynamicParam (fun p s => some (hasPrefix s p)) b!"app-yf" (.map [(b!"regexp:app", .nil), (b!"regexp:app-y", .other b!"2"),
      (b!"default", .other b!"3")]) = some (.other b!"3") := rfl

/-! ## C65: examples of placeholders -/

/-- A file with a parameter given for each pool. -/
def exParamConf : Conf :=
  [(b!"dynamic-param", .map [(b!"zk", .map [(b!"web-yf", .str b!"10.0.0.1:2181"), (b!"default", .str b!"10.0.0.9:2181")])]),
   (b!"motan-registry", .map [(b!"main", .map [(b!"host", .str b!"${zk}"), (b!"name", .str b!"${other}")])])]

example : Spec.ParamIs (fun _ _ => none) b!"web-yf" exParamConf b!"zk" (.str b!"10.0.0.1:2181") ∧
    Spec.ParamIs (fun _ _ => none) b!"web-gz" exParamConf b!"zk" (.str b!"10.0.0.9:2181") ∧
    Spec.valueAt (withDynamic (fun _ _ => none) b!"web-yf" exParamConf) [b!"motan-registry", b!"main", b!"host"] =
      some (.str b!"10.0.0.1:2181") ∧
    Spec.valueAt (withDynamic (fun _ _ => none) b!"web-yf" exParamConf) [b!"motan-registry", b!"main", b!"name"] =
      some (.str b!"${other}") := by
  refine ⟨⟨_, _, rfl, rfl, rfl⟩, ⟨_, _, rfl, rfl, rfl⟩, ?_, ?_⟩ <;>
  simp [exParamConf, withDynamic, dynamicParams, dynamicParam, Config.value, replacePlaceHolder, Config.replace,
    Config.placeholderValue, Config.placeholderKey, Spec.valueAt, Spec.at, AMap.load]

end Motan.Props
