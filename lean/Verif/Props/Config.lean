import Verif.Model.Config

/-!
# C19, C51, C52: configuration
-/

namespace Motan.Props

open Motan.Config

/-! ## Specification -/

/-- The value at a path of keys. A YAML null is no value. -/
def Spec.at : V → List Bytes → Option V
  | .nil, _ => none
  | v, [] => some v
  | .map m, k :: p => (AMap.load m k).bind (Spec.at · p)
  | _, _ :: _ => none

/-- The value of a whole file at a path. -/
def Spec.valueAt (c : Conf) (p : List Bytes) : Option V := Spec.at (.map c) p

/-- Keys are distinct in every map of the tree. -/
inductive Spec.WF : Conf → Prop
  | mk {c : Conf} (nodup : c.NodupKeys) (sub : ∀ k m, (k, V.map m) ∈ c → Spec.WF m) : Spec.WF c

/-- A value that merging replaces as a whole. -/
def Spec.IsScalar : V → Prop
  | .str _ => True
  | .other _ => True
  | _ => False

/-- A file says nothing about a path: it has no value there, and nothing but maps above it. -/
def Spec.Silent (c : Conf) (p : List Bytes) : Prop :=
  ∀ q, q <+: p → ∀ v, Spec.valueAt c q = some v → q ≠ p ∧ ∃ m, v = .map m

/-! ## Lemmas -/

theorem Spec.WF.nodup {c : Conf} (h : Spec.WF c) : c.NodupKeys := by cases h; assumption

theorem Spec.WF.sub {c : Conf} (h : Spec.WF c) {k : Bytes} {m : Conf} (hl : AMap.load c k = some (.map m)) :
    Spec.WF m := by
  cases h with
  | mk _ hs => exact hs k m (AMap.mem_of_load hl)

theorem load_mergeMap (t o : Conf) (hn : o.NodupKeys) (k : Bytes) :
    AMap.load (mergeMap t o) k =
      match AMap.load o k with
      | none => AMap.load t k
      | some v => mergeVal (AMap.load t k) v := by
  induction o generalizing t with
  | nil => rw [mergeMap]; rfl
  | cons p o ih =>
    obtain ⟨k', v⟩ := p
    have hn' : AMap.NodupKeys o := (List.nodup_cons.mp hn).2
    have hk' : k' ∉ AMap.keys o := (List.nodup_cons.mp hn).1
    rw [mergeMap, ih _ hn', AMap.load_cons]
    by_cases hk : k' = k
    · subst hk
      rw [if_pos rfl, AMap.load_eq_none.mpr hk']
      simp only
      cases hm : mergeVal (AMap.load t k') v with
      | none =>
        rw [put]
        cases v with
        | nil => rw [mergeVal] at hm; exact hm
        | _ => revert hm; cases AMap.load t k' with
          | none => simp [mergeVal]
          | some x => cases x <;> simp [mergeVal]
      | some x => rw [put]; simp
    · rw [if_neg hk]
      have : AMap.load (put t k' (mergeVal (AMap.load t k') v)) k = AMap.load t k := by
        cases mergeVal (AMap.load t k') v with
        | some x => rw [put, AMap.load_store_ne _ _ hk]
        | none => rfl
      rw [this]

theorem at_nil_of_ne {v : V} (h : v ≠ .nil) : Spec.at v [] = some v := by
  cases v <;> simp_all [Spec.at]

theorem at_some_nil {v x : V} (h : Spec.at v [] = some x) : x = v ∧ v ≠ .nil := by
  cases v with
  | nil => cases h
  | _ => cases h; exact ⟨rfl, by simp⟩

theorem at_map_cons (m : Conf) (k : Bytes) (p : List Bytes) :
    Spec.at (.map m) (k :: p) = (AMap.load m k).bind (Spec.at · p) := rfl

theorem at_cons_ne_map {v : V} (k : Bytes) (p : List Bytes) (h : ∀ m, v ≠ .map m) : Spec.at v (k :: p) = none := by
  cases v with
  | map m => exact absurd rfl (h m)
  | _ => rfl

theorem mergeVal_nil (t : Option V) : mergeVal t .nil = t := by rw [mergeVal]

/-- Merging anything but two maps or two lists. -/
theorem mergeVal_other (t : Option V) (o : V) (hn : o ≠ .nil) (hm : ∀ tm om, ¬ (t = some (.map tm) ∧ o = .map om))
    (hl : ∀ tl ol, ¬ (t = some (.list tl) ∧ o = .list ol)) : mergeVal t o = some o := by
  rw [mergeVal]
  · exact hn
  · intro tm om h1 h2; exact hm tm om ⟨h1, h2⟩
  · intro tl ol h1 h2; exact hl tl ol ⟨h1, h2⟩

/-- What the merged value is below a key, given what both sides have there. -/
theorem at_merge_cons (t o : Conf) (ho : Spec.WF o) (k : Bytes) (p : List Bytes) :
    Spec.valueAt (mergeMap t o) (k :: p) =
      (match AMap.load o k with
        | none => AMap.load t k
        | some v => mergeVal (AMap.load t k) v).bind (Spec.at · p) := by
  rw [Spec.valueAt, at_map_cons, load_mergeMap t o ho.nodup]

/-- The value of the overriding file below a map is the merged value, when the base has no map there. -/
theorem mergeVal_cases (t : Option V) (o : V) :
    (o = .nil ∧ mergeVal t o = t) ∨
    (∃ tm om, t = some (.map tm) ∧ o = .map om ∧ mergeVal t o = some (.map (mergeMap tm om))) ∨
    (∃ tl ol, t = some (.list tl) ∧ o = .list ol ∧ mergeVal t o = some (.list (tl ++ ol))) ∨
    (o ≠ .nil ∧ (∀ tm om, ¬ (t = some (.map tm) ∧ o = .map om)) ∧ (∀ tl ol, ¬ (t = some (.list tl) ∧ o = .list ol)) ∧
      mergeVal t o = some o) := by
  by_cases h1 : o = .nil
  · subst h1; exact .inl ⟨rfl, mergeVal_nil t⟩
  by_cases h2 : ∃ tm om, t = some (.map tm) ∧ o = .map om
  · obtain ⟨tm, om, rfl, rfl⟩ := h2
    exact .inr (.inl ⟨tm, om, rfl, rfl, by rw [mergeVal]⟩)
  by_cases h3 : ∃ tl ol, t = some (.list tl) ∧ o = .list ol
  · obtain ⟨tl, ol, rfl, rfl⟩ := h3
    exact .inr (.inr (.inl ⟨tl, ol, rfl, rfl, by rw [mergeVal]⟩))
  have h2' : ∀ tm om, ¬ (t = some (.map tm) ∧ o = .map om) := fun a b h => h2 ⟨a, b, h⟩
  have h3' : ∀ tl ol, ¬ (t = some (.list tl) ∧ o = .list ol) := fun a b h => h3 ⟨a, b, h⟩
  exact .inr (.inr (.inr ⟨h1, h2', h3', mergeVal_other t o h1 h2' h3'⟩))

/-- The whole effect of a merge at a path where the overriding file has a value. -/
theorem merge_at (t o : Conf) (ho : Spec.WF o) (p : List Bytes) (v : V) (h : Spec.valueAt o p = some v) :
    (∀ l, v = .list l → ∀ l', Spec.valueAt t p = some (.list l') →
      Spec.valueAt (mergeMap t o) p = some (.list (l' ++ l))) ∧
    (∀ l, v = .list l → (∀ l', Spec.valueAt t p ≠ some (.list l')) →
      Spec.valueAt (mergeMap t o) p = some (.list l)) ∧
    (∀ m, v = .map m → ∃ m', Spec.valueAt (mergeMap t o) p = some (.map m')) ∧
    (Spec.IsScalar v → Spec.valueAt (mergeMap t o) p = some v) := by
  induction p generalizing t o with
  | nil =>
    have hv := at_some_nil h
    rw [hv.1]
    exact ⟨fun l hl => (by cases hl), fun l hl => (by cases hl), fun m _ => ⟨_, rfl⟩, fun hs => hs.elim⟩
  | cons k p ih =>
    rw [at_merge_cons t o ho k p]
    rw [Spec.valueAt, at_map_cons] at h
    cases hlo : AMap.load o k with
    | none => rw [hlo] at h; cases h
    | some ov =>
      rw [hlo] at h
      replace h : Spec.at ov p = some v := h
      simp only
      have htat : Spec.valueAt t (k :: p) = (AMap.load t k).bind (Spec.at · p) := rfl
      rcases mergeVal_cases (AMap.load t k) ov with ⟨hn, _⟩ | ⟨tm, om, ht, hov, e⟩ | ⟨tl, ol, ht, hov, e⟩ |
        ⟨hn, hmm, hll, e⟩
      · subst hn; simp [Spec.at] at h
      · rw [e]
        subst hov
        have := ih tm om (ho.sub hlo) h
        rw [htat, ht]
        exact this
      · rw [e, htat, ht]
        subst hov
        cases p with
        | nil =>
          have := (at_some_nil h).1
          subst this
          refine ⟨fun l hl l' hl' => ?_, fun l hl hno => ?_, fun m hm => (by cases hm), fun hs => hs.elim⟩
          · cases hl
            replace hl' : Spec.at (.list tl) [] = some (.list l') := hl'
            cases (at_some_nil hl').1
            rfl
          · exact absurd rfl (hno tl)
        | cons k' p => cases h
      · rw [e]
        replace e : (some ov).bind (Spec.at · p) = some v := h
        rw [e]
        refine ⟨fun l hl l' hl' => ?_, fun l hl _ => by rw [hl], fun m hm => ⟨m, by rw [hm]⟩, fun _ => rfl⟩
        subst hl
        exfalso
        rw [htat] at hl'
        cases htk : AMap.load t k with
        | none => rw [htk] at hl'; cases hl'
        | some tv =>
          rw [htk] at hl'
          replace hl' : Spec.at tv p = some (.list l') := hl'
          cases p with
          | nil =>
            have h1 := (at_some_nil h).1
            have h2 := (at_some_nil hl').1
            exact hll l' l ⟨by rw [htk, ← h2], h1.symm⟩
          | cons k' p =>
            cases ov with
            | map om =>
              cases tv with
              | map tm => exact hmm tm om ⟨htk, rfl⟩
              | _ => cases hl'
            | _ => cases h

theorem silent_cons {o : Conf} {k : Bytes} {p : List Bytes} (h : Spec.Silent o (k :: p)) :
    (AMap.load o k = none ∨ AMap.load o k = some .nil) ∨
      ∃ om, AMap.load o k = some (.map om) ∧ Spec.Silent om p ∧ p ≠ [] := by
  cases hl : AMap.load o k with
  | none => exact .inl (.inl rfl)
  | some v =>
    by_cases hv : v = .nil
    · subst hv; exact .inl (.inr rfl)
    · right
      have h1 := h [k] ⟨p, rfl⟩ v (by
        rw [Spec.valueAt, at_map_cons, hl]; exact at_nil_of_ne hv)
      obtain ⟨hne, om, rfl⟩ := h1
      refine ⟨om, rfl, fun q hq x hx => ?_, fun e => hne (by rw [e])⟩
      have := h (k :: q) (List.cons_prefix_cons.mpr ⟨rfl, hq⟩) x (by
        rw [Spec.valueAt, at_map_cons, hl]; exact hx)
      exact ⟨fun e => this.1 (by rw [e]), this.2⟩

theorem silent_valueAt {o : Conf} {p : List Bytes} (h : Spec.Silent o p) : Spec.valueAt o p = none := by
  cases hv : Spec.valueAt o p with
  | none => rfl
  | some v => exact absurd rfl (h p (List.prefix_refl p) v hv).1

theorem merge_silent_aux (t o : Conf) (ho : Spec.WF o) (p : List Bytes) (h : Spec.Silent o p) :
    Spec.valueAt (mergeMap t o) p = Spec.valueAt t p := by
  induction p generalizing t o with
  | nil => exact absurd rfl (h [] (List.prefix_refl _) _ rfl).1
  | cons k p ih =>
    rw [at_merge_cons t o ho k p, show Spec.valueAt t (k :: p) = (AMap.load t k).bind (Spec.at · p) from rfl]
    rcases silent_cons h with (hl | hl) | ⟨om, hl, hs, hp⟩
    · rw [hl]
    · rw [hl]; simp only [mergeVal_nil]
    · rw [hl]
      simp only
      rcases mergeVal_cases (AMap.load t k) (.map om) with ⟨hn, _⟩ | ⟨tm, om', ht, hov, e⟩ | ⟨tl, ol, ht, hov, e⟩ |
        ⟨hn, hmm, hll, e⟩
      · cases hn
      · rw [e, ht]; cases hov
        exact ih tm om (ho.sub hl) hs
      · cases hov
      · rw [e]
        show Spec.valueAt om p = _
        rw [silent_valueAt hs]
        cases htk : AMap.load t k with
        | none => rfl
        | some tv =>
          cases p with
          | nil => exact absurd rfl hp
          | cons k' p =>
            exact (at_cons_ne_map k' p fun m e => hmm m om ⟨by rw [htk, e], rfl⟩).symm

/-! ## C19 -/

/-- C19: what a merged configuration has at any path. An overriding scalar wins; lists are concatenated, base first;
an overriding map is merged (again a map, whose contents are those at the longer paths); where the overriding file
says nothing the base value stays. -/
theorem merge_precedence (base over : Conf) (ho : Spec.WF over) (p : List Bytes) :
    (∀ v, Spec.valueAt over p = some v → Spec.IsScalar v → Spec.valueAt (mergeMap base over) p = some v) ∧
    (∀ l l', Spec.valueAt over p = some (.list l) → Spec.valueAt base p = some (.list l') →
      Spec.valueAt (mergeMap base over) p = some (.list (l' ++ l))) ∧
    (∀ l, Spec.valueAt over p = some (.list l) → (∀ l', Spec.valueAt base p ≠ some (.list l')) →
      Spec.valueAt (mergeMap base over) p = some (.list l)) ∧
    (∀ m, Spec.valueAt over p = some (.map m) → ∃ m', Spec.valueAt (mergeMap base over) p = some (.map m')) ∧
    (Spec.Silent over p → Spec.valueAt (mergeMap base over) p = Spec.valueAt base p) :=
  ⟨fun v h hs => (merge_at base over ho p v h).2.2.2 hs,
   fun l l' h h' => (merge_at base over ho p _ h).1 l rfl l' h',
   fun l h h' => (merge_at base over ho p _ h).2.1 l rfl h',
   fun m h => (merge_at base over ho p _ h).2.2.1 m rfl,
   fun h => merge_silent_aux base over ho p h⟩

/-- C19: no key of the base disappears, and nulls override nothing. -/
theorem merge_keeps_keys (base over : Conf) (ho : Spec.WF over) (k : Bytes) :
    ((Spec.valueAt base [k]).isSome → (Spec.valueAt (mergeMap base over) [k]).isSome) ∧
    (AMap.load over k = some .nil → AMap.load (mergeMap base over) k = AMap.load base k) := by
  have hl := load_mergeMap base over ho.nodup k
  refine ⟨fun h => ?_, fun h => by rw [hl, h]; simp only [mergeVal_nil]⟩
  cases hv : Spec.valueAt over [k] with
  | some v =>
    have := merge_at base over ho [k] v hv
    cases v with
    | nil =>
      exfalso
      rw [Spec.valueAt, at_map_cons] at hv
      cases hlo : AMap.load over k with
      | none => rw [hlo] at hv; cases hv
      | some x => rw [hlo] at hv; exact (at_some_nil hv).2 (at_some_nil hv).1.symm
    | str s => rw [this.2.2.2 trivial]; rfl
    | other s => rw [this.2.2.2 trivial]; rfl
    | map m => obtain ⟨m', e⟩ := this.2.2.1 m rfl; rw [e]; rfl
    | list l =>
      cases hb : Spec.valueAt base [k] with
      | none => rw [hb] at h; cases h
      | some bv =>
        cases bv with
        | list l' => rw [this.1 l rfl l' hb]; rfl
        | _ => rw [this.2.1 l rfl (fun l' e => by rw [hb] at e; cases e)]; rfl
  | none =>
    rw [merge_silent_aux base over ho [k] ?_]
    · exact h
    · intro q hq v hv'
      rcases q with _ | ⟨a, q⟩
      · refine ⟨by simp, ?_⟩
        have := (at_some_nil hv').1
        exact ⟨over, this⟩
      · have := List.cons_prefix_cons.mp hq
        obtain ⟨rfl, hq'⟩ := this
        rw [List.prefix_nil.mp hq', hv] at hv'
        cases hv'

/-- C19: the result does not depend on the order in which Go happens to visit the overriding map. -/
theorem merge_order_independent (base o1 o2 : Conf) (h1 : o1.NodupKeys) (hp : o1.Perm o2) (k : Bytes) :
    AMap.load (mergeMap base o1) k = AMap.load (mergeMap base o2) k := by
  have h2 : o2.NodupKeys := (hp.map Prod.fst).nodup_iff.mp h1
  rw [load_mergeMap base o1 h1, load_mergeMap base o2 h2]
  have : AMap.load o1 k = AMap.load o2 k := by
    apply Option.ext
    intro x
    rw [← AMap.mem_iff_load h1, ← AMap.mem_iff_load h2, hp.mem_iff]
  rw [this]

/-! Non-vacuity: a base file and an overriding file touching each case. -/

def exBase : Conf :=
  [(b!"motan-agent", .map [(b!"port", .other b!"9981"), (b!"log", .str b!"./logs"), (b!"filters", .list [.str b!"a"])]),
   (b!"import-refer", .list [.str b!"user"])]

def exOver : Conf :=
  [(b!"motan-agent", .map [(b!"port", .other b!"9982"), (b!"log", .nil), (b!"filters", .list [.str b!"b"])]),
   (b!"import-refer", .nil), (b!"new", .map [])]

theorem wf_of_flat {c : Conf} (h : c.NodupKeys) (h' : ∀ k m, (k, V.map m) ∉ c) : Spec.WF c :=
  .mk h fun k m hm => absurd hm (h' k m)

example : Spec.WF exOver := by
  refine .mk (show List.Nodup _ by decide) fun k m hm => ?_
  simp [exOver] at hm
  rcases hm with ⟨rfl, rfl⟩ | ⟨rfl, rfl⟩
  · exact wf_of_flat (show List.Nodup _ by decide) (by simp)
  · exact wf_of_flat (show List.Nodup _ by decide) (by simp)

example : Spec.valueAt (mergeMap exBase exOver) [b!"motan-agent", b!"port"] = some (.other b!"9982") ∧
    Spec.valueAt (mergeMap exBase exOver) [b!"motan-agent", b!"log"] = some (.str b!"./logs") ∧
    Spec.valueAt (mergeMap exBase exOver) [b!"motan-agent", b!"filters"] = some (.list [.str b!"a", .str b!"b"]) ∧
    Spec.valueAt (mergeMap exBase exOver) [b!"import-refer"] = some (.list [.str b!"user"]) :=
  ⟨rfl, rfl, rfl, rfl⟩

/-! ## C52: priority of the files of a pool -/

theorem merge_layers (base : Conf) (ls : List Conf) (hw : ∀ c ∈ ls, Spec.WF c) (p : List Bytes)
    (hs : ∀ c ∈ ls, Spec.Silent c p) : Spec.valueAt (ls.foldl mergeMap base) p = Spec.valueAt base p := by
  induction ls generalizing base with
  | nil => rfl
  | cons c ls ih =>
    rw [List.foldl_cons, ih _ (fun c' h => hw c' (by simp [h])) (fun c' h => hs c' (by simp [h])),
      merge_silent_aux base c (hw c (by simp)) p (hs c (by simp))]

/-- C52: in a sequence of merged files a scalar of one file wins if no later file says anything there. -/
theorem layer_wins (pre post : List Conf) (c : Conf) (hc : Spec.WF c) (hw : ∀ c' ∈ post, Spec.WF c') (p : List Bytes)
    (v : V) (hv : Spec.valueAt c p = some v) (hsc : Spec.IsScalar v) (hs : ∀ c' ∈ post, Spec.Silent c' p) :
    Spec.valueAt ((pre ++ c :: post).foldl mergeMap []) p = some v := by
  rw [List.foldl_append, List.foldl_cons, merge_layers _ post hw p hs]
  exact (merge_at _ c hc p v hv).2.2.2 hsc

/-- The names of the pool files, shortest prefix first. -/
def Spec.poolNames (base : Bytes) : List Bytes → List Bytes
  | [] => []
  | v :: r => (base ++ v) :: Spec.poolNames (base ++ v ++ b!"-") r

theorem mem_poolLayers {fs : FS} {base : Bytes} {parts : List Bytes} {c : Conf} (h : c ∈ poolLayers fs base parts) :
    ∃ n ∈ Spec.poolNames base parts, AMap.load fs (b!"pools/" ++ n) = some c := by
  induction parts generalizing base with
  | nil => simp [poolLayers] at h
  | cons v r ih =>
    rw [poolLayers, List.mem_append] at h
    rcases h with h | h
    · exact ⟨base ++ v, by simp [Spec.poolNames], by simpa using h⟩
    · obtain ⟨n, hn, hl⟩ := ih h
      exact ⟨n, by rw [Spec.poolNames]; exact List.mem_cons_of_mem _ hn, hl⟩

theorem join_cons (sep a : Bytes) (r : List Bytes) (h : r ≠ []) :
    Strings.join sep (a :: r) = a ++ sep ++ Strings.join sep r := by
  cases r with
  | nil => exact absurd rfl h
  | cons b r => rfl

/-- The last pool file is the one named by the whole pool name. -/
theorem poolLayers_last (fs : FS) (base : Bytes) (parts : List Bytes) (hne : parts ≠ []) :
    ∃ pre, poolLayers fs base parts =
      pre ++ (AMap.load fs (b!"pools/" ++ (base ++ Strings.join b!"-" parts))).toList := by
  induction parts generalizing base with
  | nil => exact absurd rfl hne
  | cons v r ih =>
    rw [poolLayers]
    cases r with
    | nil => exact ⟨[], by simp [poolLayers, Strings.join]⟩
    | cons b r =>
      obtain ⟨pre, e⟩ := ih (base ++ v ++ b!"-") (by simp)
      refine ⟨(AMap.load fs (b!"pools/" ++ (base ++ v))).toList ++ pre, ?_⟩
      rw [e, join_cons _ v _ (by simp)]
      simp

/-- C52: a scalar in the file of the whole pool name is the scalar of the configuration, whatever the other files
say. -/
theorem pool_file_wins (fs : FS) (application pool : Bytes) (c : Conf) (hc : Spec.WF c)
    (hl : AMap.load fs (b!"pools/" ++ pool) = some c) (p : List Bytes) (v : V) (hv : Spec.valueAt c p = some v)
    (hsc : Spec.IsScalar v) : Spec.valueAt (poolConfig fs application pool) p = some v := by
  obtain ⟨pre, e⟩ := poolLayers_last fs [] (Strings.split b!"-" pool) (Strings.split_ne_nil _ _)
  rw [Strings.join_split, List.nil_append, hl] at e
  unfold poolConfig layers
  simp only [e]
  rw [← List.append_assoc]
  exact layer_wins _ [] c hc (by simp) p v hv hsc (by simp)

/-- C52: where no pool file says anything, a scalar in the application's file is the scalar of the configuration. -/
theorem application_file_wins (fs : FS) (application pool : Bytes) (c : Conf) (hc : Spec.WF c)
    (hl : AMap.load fs (b!"applications/" ++ appName application pool) = some c) (p : List Bytes) (v : V)
    (hv : Spec.valueAt c p = some v) (hsc : Spec.IsScalar v)
    (hpool : ∀ n ∈ Spec.poolNames [] (Strings.split b!"-" pool), ∀ c', AMap.load fs (b!"pools/" ++ n) = some c' →
      Spec.WF c' ∧ Spec.Silent c' p) :
    Spec.valueAt (poolConfig fs application pool) p = some v := by
  unfold poolConfig layers
  simp only [hl]
  rw [← List.append_assoc, List.append_assoc _ [c], List.singleton_append]
  refine layer_wins _ _ c hc (fun c' h => ?_) p v hv hsc (fun c' h => ?_)
  · obtain ⟨n, hn, hl'⟩ := mem_poolLayers h
    exact (hpool n hn c' hl').1
  · obtain ⟨n, hn, hl'⟩ := mem_poolLayers h
    exact (hpool n hn c' hl').2

/-! Service, HTTP and basic files. -/

/-- Importing only appends, and only files of HTTP locations. -/
theorem importLocations_extends (fs : FS) (parsed : List Bytes) (out : List Conf) (w : List Work) (P : Conf → Prop)
    (hfs : ∀ n c, AMap.load fs (b!"http/location/" ++ n) = some c → P c) (hw : ∀ c, Work.emit c ∈ w → P c) :
    ∃ rest, (importLocations fs parsed out w).1 = out ++ rest ∧ ∀ c ∈ rest, P c := by
  fun_induction importLocations fs parsed out w with
  | case1 => exact ⟨[], by simp, by simp⟩
  | case2 parsed out c r ih =>
    obtain ⟨rest, e, h⟩ := ih fun c' h => hw c' (by simp [h])
    refine ⟨c :: rest, by rw [e]; simp, fun c' h' => ?_⟩
    rcases List.mem_cons.mp h' with rfl | h'
    · exact hw _ (by simp)
    · exact h c' h'
  | case3 parsed out n r hn ih => exact ih fun c' h => hw c' (by simp [h])
  | case4 parsed out n r hn hl ih => exact ih fun c' h => hw c' (by simp [h])
  | case5 parsed out n r hn c hl ih =>
    refine ih fun c' h => ?_
    simp only [List.mem_append, List.mem_map, List.mem_cons] at h
    rcases h with ⟨_, _, h⟩ | h | h
    · cases h
    · cases h; exact hfs n c hl
    · exact hw c' (by simp [h])

theorem importRefers_extends (fs : FS) (parsed : List Bytes) (out : List Conf) (ns : List Bytes) (P : Conf → Prop)
    (hloc : ∀ n c, AMap.load fs (b!"http/location/" ++ n) = some c → P c)
    (hsv : ∀ n ∈ ns, ∀ c, AMap.load fs (b!"services/" ++ n) = some c → P c) :
    ∃ rest, (importRefers fs parsed out ns).1 = out ++ rest ∧ ∀ c ∈ rest, P c := by
  induction ns generalizing parsed out with
  | nil => exact ⟨[], by simp [importRefers], by simp⟩
  | cons n r ih =>
    rw [importRefers]
    split
    · exact ih _ _ (fun m hm => hsv m (by simp [hm]))
    · rename_i c hl
      obtain ⟨r1, e1, h1⟩ := importLocations_extends fs parsed out
        ((importNames c b!"import-http-location").map .visit) P hloc (fun c'' h => by simp at h)
      obtain ⟨r2, e2, h2⟩ := ih (importLocations fs parsed out ((importNames c b!"import-http-location").map .visit)).2
        ((importLocations fs parsed out ((importNames c b!"import-http-location").map .visit)).1 ++ [c])
        (fun m hm => hsv m (by simp [hm]))
      refine ⟨r1 ++ c :: r2, e2.trans (by rw [e1]; simp), fun c' h' => ?_⟩
      rcases List.mem_append.mp h' with h' | h'
      · exact h1 c' h'
      · rcases List.mem_cons.mp h' with rfl | h'
        · exact hsv n (by simp) _ hl
        · exact h2 c' h'

theorem mem_importLocations (fs : FS) (parsed : List Bytes) (ns : List Bytes) (P : Conf → Prop)
    (hfs : ∀ n c, AMap.load fs (b!"http/location/" ++ n) = some c → P c) :
    ∀ c ∈ (importLocations fs parsed [] (ns.map .visit)).1, P c := by
  obtain ⟨rest, e, h⟩ := importLocations_extends fs parsed [] (ns.map .visit) P hfs (fun c h => by simp at h)
  rw [e]; simpa using h

theorem mem_importRefers (fs : FS) (parsed : List Bytes) (ns : List Bytes) (P : Conf → Prop)
    (hloc : ∀ n c, AMap.load fs (b!"http/location/" ++ n) = some c → P c)
    (hsv : ∀ n ∈ ns, ∀ c, AMap.load fs (b!"services/" ++ n) = some c → P c) :
    ∀ c ∈ (importRefers fs parsed [] ns).1, P c := by
  obtain ⟨rest, e, h⟩ := importRefers_extends fs parsed [] ns P hloc hsv
  rw [e]; simpa using h

theorem mem_httpLayers (fs : FS) (parsed : List Bytes) (path : Bytes) (P : Conf → Prop)
    (hloc : ∀ n c, AMap.load fs (b!"http/location/" ++ n) = some c → P c)
    (hp : ∀ c, AMap.load fs path = some c → P c) : ∀ c ∈ (httpLayers fs parsed path).1, P c := by
  rw [httpLayers]
  split
  · simp
  · rename_i c hl
    intro c' h
    rcases List.mem_append.mp h with h | h
    · exact mem_importLocations fs parsed _ P hloc c' h
    · rw [List.mem_singleton.mp h]; exact hp c hl

/-- C52: the basic file is the weakest: its scalar is the scalar of the configuration where no other file says
anything. -/
theorem basic_file_weakest (fs : FS) (application pool : Bytes) (c : Conf) (hc : Spec.WF c)
    (hl : AMap.load fs b!"basic" = some c) (p : List Bytes) (v : V) (hv : Spec.valueAt c p = some v)
    (hsc : Spec.IsScalar v)
    (hother : ∀ path c', path ≠ b!"basic" → AMap.load fs path = some c' → Spec.WF c' ∧ Spec.Silent c' p) :
    Spec.valueAt (poolConfig fs application pool) p = some v := by
  have hpre : ∀ pre : Bytes, pre.head? ≠ some 98 → pre ≠ [] → ∀ n c', AMap.load fs (pre ++ n) = some c' →
      Spec.WF c' ∧ Spec.Silent c' p := by
    intro pre h1 h2 n c' h
    refine hother _ c' (fun e => ?_) h
    cases pre with
    | nil => exact h2 rfl
    | cons a pre => simp at e h1; exact h1 e.1
  unfold poolConfig layers
  simp only [hl, Option.toList_some, List.append_assoc, List.singleton_append]
  have wins : ∀ rest, (∀ c' ∈ rest, Spec.WF c' ∧ Spec.Silent c' p) →
      Spec.valueAt ((c :: rest).foldl mergeMap []) p = some v := fun rest hall =>
    layer_wins [] rest c hc (fun c' h => (hall c' h).1) p v hv hsc (fun c' h => (hall c' h).2)
  refine wins _ fun c' h => ?_
  have hloc := hpre b!"http/location/" (by decide) (by decide)
  rcases List.mem_append.mp h with h | h
  · exact mem_httpLayers fs _ _ (fun c' => Spec.WF c' ∧ Spec.Silent c' p) hloc
      (hpre b!"http/service/" (by decide) (by decide) _) c' h
  rcases List.mem_append.mp h with h | h
  · exact mem_httpLayers fs _ _ (fun c' => Spec.WF c' ∧ Spec.Silent c' p) hloc
      (hpre b!"http/pools/" (by decide) (by decide) _) c' h
  rcases List.mem_append.mp h with h | h
  · split at h
    · simp at h
    · rename_i ca hla
      rcases List.mem_append.mp h with h | h
      · exact mem_importRefers fs _ _ (fun c' => Spec.WF c' ∧ Spec.Silent c' p) hloc
          (fun n _ => hpre b!"services/" (by decide) (by decide) n) c' h
      · rw [List.mem_singleton.mp h]
        exact hpre b!"applications/" (by decide) (by decide) _ ca hla
  · obtain ⟨n, _, hl'⟩ := mem_poolLayers h
    exact hpre b!"pools/" (by decide) (by decide) n c' hl'

theorem importRefers_append (fs : FS) (parsed : List Bytes) (out : List Conf) (a b : List Bytes) :
    importRefers fs parsed out (a ++ b) =
      importRefers fs (importRefers fs parsed out a).2 (importRefers fs parsed out a).1 b := by
  induction a generalizing parsed out with
  | nil => rfl
  | cons n a ih =>
    rw [List.cons_append, importRefers, importRefers]
    split
    · exact ih _ _
    · exact ih _ _

/-- C52: a scalar in an imported service file is the scalar of the configuration where the services imported after it,
HTTP locations, the application and the pool files say nothing; basic and the other HTTP files are weaker. -/
theorem service_file_wins (fs : FS) (application pool : Bytes) (capp c : Conf) (hc : Spec.WF c) (a b : List Bytes)
    (n : Bytes) (happ : AMap.load fs (b!"applications/" ++ appName application pool) = some capp)
    (himp : importNames capp b!"import-refer" = a ++ n :: b)
    (hl : AMap.load fs (b!"services/" ++ n) = some c) (p : List Bytes) (v : V)
    (hv : Spec.valueAt c p = some v) (hsc : Spec.IsScalar v) (happs : Spec.WF capp ∧ Spec.Silent capp p)
    (hloc : ∀ m c', AMap.load fs (b!"http/location/" ++ m) = some c' → Spec.WF c' ∧ Spec.Silent c' p)
    (hsv : ∀ m ∈ b, ∀ c', AMap.load fs (b!"services/" ++ m) = some c' → Spec.WF c' ∧ Spec.Silent c' p)
    (hpool : ∀ n ∈ Spec.poolNames [] (Strings.split b!"-" pool), ∀ c', AMap.load fs (b!"pools/" ++ n) = some c' →
      Spec.WF c' ∧ Spec.Silent c' p) :
    Spec.valueAt (poolConfig fs application pool) p = some v := by
  have wins : ∀ pre rest, (∀ c' ∈ rest, Spec.WF c' ∧ Spec.Silent c' p) →
      Spec.valueAt ((pre ++ c :: rest).foldl mergeMap []) p = some v := fun pre rest hall =>
    layer_wins pre rest c hc (fun c' h => (hall c' h).1) p v hv hsc (fun c' h => (hall c' h).2)
  unfold poolConfig layers
  simp only [happ, himp]
  rw [importRefers_append, importRefers.eq_def _ _ _ (n :: b)]
  simp only [hl]
  generalize (httpLayers fs (httpLayers fs [] (b!"http/service/" ++ appName application pool)).2
    (b!"http/pools/" ++ pool)).2 = p2
  obtain ⟨rest, e, hr⟩ := importRefers_extends fs
    (importLocations fs (importRefers fs p2 [] a).2 (importRefers fs p2 [] a).1
      ((importNames c b!"import-http-location").map .visit)).2
    ((importLocations fs (importRefers fs p2 [] a).2 (importRefers fs p2 [] a).1
      ((importNames c b!"import-http-location").map .visit)).1 ++ [c]) b
    (fun c' => Spec.WF c' ∧ Spec.Silent c' p) hloc hsv
  rw [e]
  simp only [← List.append_assoc]
  rw [List.append_assoc _ [c], List.append_assoc _ ([c] ++ rest), List.append_assoc _ ([c] ++ rest ++ [capp])]
  refine wins _ (rest ++ [capp] ++ poolLayers fs [] (Strings.split b!"-" pool)) fun c' h => ?_
  rcases List.mem_append.mp h with h | h
  · rcases List.mem_append.mp h with h | h
    · exact hr c' h
    · rw [List.mem_singleton.mp h]; exact happs
  · obtain ⟨n, hn, hl'⟩ := mem_poolLayers h
    exact hpool n hn c' hl'

/-! Non-vacuity and the exception. -/

/-- A configuration directory: one application with two services, the second importing an HTTP location that imports
itself. -/
def exFS : FS :=
  [(b!"basic", [(b!"k", .str b!"basic"), (b!"only", .str b!"basic")]),
   (b!"applications/web", [(b!"import-refer", .list [.str b!"s1", .str b!"s2"]), (b!"app", .str b!"a")]),
   (b!"services/s1", [(b!"k", .str b!"s1"), (b!"j", .str b!"s1")]),
   (b!"services/s2", [(b!"import-http-location", .list [.str b!"l"])]),
   (b!"http/location/l", [(b!"import-http-location", .list [.str b!"l"]), (b!"k", .str b!"location")]),
   (b!"pools/web", [(b!"pool", .str b!"web")]),
   (b!"pools/web-core", [(b!"pool", .str b!"web-core"), (b!"app", .nil)])]

example : Spec.poolNames [] (Strings.split b!"-" b!"web-core") = [b!"web", b!"web-core"] := by decide +kernel

example : appName [] b!"web-core" = b!"web" := by decide +kernel

/-- The files in merge order. -/
theorem exFS_layers : layers exFS [] b!"web-core" =
    [[(b!"k", .str b!"basic"), (b!"only", .str b!"basic")],
     [(b!"k", .str b!"s1"), (b!"j", .str b!"s1")],
     [(b!"import-http-location", .list [.str b!"l"]), (b!"k", .str b!"location")],
     [(b!"import-http-location", .list [.str b!"l"])],
     [(b!"import-refer", .list [.str b!"s1", .str b!"s2"]), (b!"app", .str b!"a")],
     [(b!"pool", .str b!"web")],
     [(b!"pool", .str b!"web-core"), (b!"app", .nil)]] := by
  have h1 : appName [] b!"web-core" = b!"web" := by decide +kernel
  have h2 : Strings.split b!"-" b!"web-core" = [b!"web", b!"core"] := by decide +kernel
  simp [layers, h1, h2, httpLayers, importRefers, importLocations, importNames, exFS, AMap.load, poolLayers]

theorem eq_str_of_check {x : Option V} {s : Bytes}
    (h : (match x with | some (.str t) => decide (t = s) | _ => false) = true) : x = some (.str s) := by
  split at h
  · rw [of_decide_eq_true h]
  · cases h

/-- The file of the whole pool name wins, its null does not hide the application's value, the service wins over
basic. -/
example :
    Spec.valueAt (poolConfig exFS [] b!"web-core") [b!"pool"] = some (.str b!"web-core") ∧
    Spec.valueAt (poolConfig exFS [] b!"web-core") [b!"app"] = some (.str b!"a") ∧
    Spec.valueAt (poolConfig exFS [] b!"web-core") [b!"j"] = some (.str b!"s1") ∧
    Spec.valueAt (poolConfig exFS [] b!"web-core") [b!"only"] = some (.str b!"basic") :=
  ⟨eq_str_of_check (by rw [poolConfig, exFS_layers]; decide +kernel),
    eq_str_of_check (by rw [poolConfig, exFS_layers]; decide +kernel),
    eq_str_of_check (by rw [poolConfig, exFS_layers]; decide +kernel),
    eq_str_of_check (by rw [poolConfig, exFS_layers]; decide +kernel)⟩

/-! HTTP locations: every one that is imported is merged once. -/

/-- The HTTP locations that are imported: by the HTTP file of the application or of the pool, by a service the
application imports, or by another location that is imported. -/
inductive Spec.ImportedLocation (fs : FS) (application pool : Bytes) : Bytes → Prop
  | service {c n} : AMap.load fs (b!"http/service/" ++ appName application pool) = some c →
      n ∈ importNames c b!"import-http-location" → Spec.ImportedLocation fs application pool n
  | pool {c n} : AMap.load fs (b!"http/pools/" ++ pool) = some c →
      n ∈ importNames c b!"import-http-location" → Spec.ImportedLocation fs application pool n
  | refer {capp s c n} : AMap.load fs (b!"applications/" ++ appName application pool) = some capp →
      s ∈ importNames capp b!"import-refer" → AMap.load fs (b!"services/" ++ s) = some c →
      n ∈ importNames c b!"import-http-location" → Spec.ImportedLocation fs application pool n
  | location {m c n} : Spec.ImportedLocation fs application pool m → AMap.load fs (b!"http/location/" ++ m) = some c →
      n ∈ importNames c b!"import-http-location" → Spec.ImportedLocation fs application pool n

/-- The file is there once. -/
def Spec.Once (ls : List Conf) (c : Conf) : Prop := ∃ pre post, ls = pre ++ c :: post ∧ c ∉ pre ∧ c ∉ post

open Classical in
/-- How often a file is there. -/
noncomputable def occ (c : Conf) (ls : List Conf) : Nat := ls.countP fun x => decide (x = c)

theorem occ_append (c : Conf) (a b : List Conf) : occ c (a ++ b) = occ c a + occ c b := by simp [occ]

theorem occ_nil (c : Conf) : occ c [] = 0 := rfl

theorem occ_self (c : Conf) : occ c [c] = 1 := by simp [occ]

theorem occ_other {c d : Conf} (h : d ≠ c) : occ c [d] = 0 := by simp [occ, h]

theorem occ_zero {c : Conf} {ls : List Conf} (h : occ c ls = 0) : c ∉ ls := by
  intro hm
  simp only [occ, List.countP_eq_zero, decide_eq_true_eq] at h
  exact h c hm rfl

theorem occ_notMem {c : Conf} {ls : List Conf} (h : c ∉ ls) : occ c ls = 0 := by
  simp only [occ, List.countP_eq_zero, decide_eq_true_eq]
  rintro x hx rfl
  exact h hx

theorem once_of_occ {c : Conf} {ls : List Conf} (h : occ c ls = 1) : Spec.Once ls c := by
  have hm : c ∈ ls := by
    apply Classical.byContradiction
    intro hn
    rw [occ_notMem hn] at h
    cases h
  obtain ⟨pre, post, e⟩ := List.append_of_mem hm
  refine ⟨pre, post, e, occ_zero ?_, occ_zero ?_⟩ <;>
    (rw [e, show pre ++ c :: post = pre ++ ([c] ++ post) from rfl, occ_append, occ_append, occ_self] at h; omega)

/-- The files whose own imports are done. -/
def emits (w : List Work) : List Conf := w.filterMap fun x => match x with | .emit c => some c | .visit _ => none

open Classical in
/-- One for a location that was taken. -/
noncomputable def locTaken (n : Bytes) (parsed : List Bytes) : Nat := if n ∈ parsed then 1 else 0

/-- Whatever a location that was taken imports is taken too, or is still to be looked at. -/
def ImportsClosed (fs : FS) (parsed : List Bytes) (w : List Work) : Prop :=
  ∀ p ∈ parsed, ∀ x, AMap.load fs (b!"http/location/" ++ p) = some x →
    ∀ m ∈ importNames x b!"import-http-location", m ∈ parsed ∨ Work.visit m ∈ w

/-- The state of the import of locations: `R` the locations to be imported, `n` one of them, `c` its file. -/
structure Importing (fs : FS) (R : Bytes → Prop) (parsed : List Bytes) (w : List Work) : Prop where
  closed : ImportsClosed fs parsed w
  sound : ∀ m ∈ parsed, R m
  pending : ∀ m, Work.visit m ∈ w → R m

theorem importLocations_track (fs : FS) (R : Bytes → Prop) (n : Bytes) (c : Conf) (k : Nat)
    (hR : ∀ m x, R m → AMap.load fs (b!"http/location/" ++ m) = some x →
      ∀ y ∈ importNames x b!"import-http-location", R y)
    (hl : AMap.load fs (b!"http/location/" ++ n) = some c)
    (hu : ∀ p, AMap.load fs p = some c → p = b!"http/location/" ++ n)
    (parsed : List Bytes) (out : List Conf) (w : List Work)
    (hI : Importing fs R parsed w) (hk : occ c out + occ c (emits w) + k = locTaken n parsed) :
    Importing fs R (importLocations fs parsed out w).2 [] ∧
    occ c (importLocations fs parsed out w).1 + k = locTaken n (importLocations fs parsed out w).2 ∧
    (∀ m ∈ parsed, m ∈ (importLocations fs parsed out w).2) ∧
    ∀ m, Work.visit m ∈ w → m ∈ (importLocations fs parsed out w).2 := by
  fun_induction importLocations fs parsed out w with
  | case1 parsed out => exact ⟨hI, by simpa [emits, occ_nil] using hk, fun _ h => h, fun m h => by cases h⟩
  | case2 parsed out x r ih =>
    have := ih ⟨fun p hp y hy m hm => (hI.closed p hp y hy m hm).imp_right (fun h => by simpa using h), hI.sound,
      fun m hm => hI.pending m (by simp [hm])⟩ (by
        rw [show emits (Work.emit x :: r) = [x] ++ emits r from rfl, occ_append] at hk
        rw [occ_append]; omega)
    exact ⟨this.1, this.2.1, this.2.2.1, fun m hm => this.2.2.2 m (by simpa using hm)⟩
  | case3 parsed out m r hm ih =>
    have := ih ⟨fun p hp y hy z hz => by
      rcases hI.closed p hp y hy z hz with h | h
      · exact Or.inl h
      · rcases List.mem_cons.1 h with e | h
        · cases e; exact Or.inl hm
        · exact Or.inr h, hI.sound, fun z hz => hI.pending z (by simp [hz])⟩ hk
    refine ⟨this.1, this.2.1, this.2.2.1, fun z hz => ?_⟩
    rcases List.mem_cons.1 hz with e | hz
    · cases e; exact this.2.2.1 _ hm
    · exact this.2.2.2 z hz
  | case4 parsed out m r hm hn ih =>
    have hne : n ≠ m := by rintro rfl; rw [hl] at hn; cases hn
    have := ih ⟨fun p hp y hy z hz => by
      rcases List.mem_cons.1 hp with rfl | hp
      · rw [hn] at hy; cases hy
      · rcases hI.closed p hp y hy z hz with h | h
        · exact Or.inl (by simp [h])
        · rcases List.mem_cons.1 h with e | h
          · cases e; exact Or.inl (by simp)
          · exact Or.inr h,
      fun z hz => by
        rcases List.mem_cons.1 hz with rfl | hz
        · exact hI.pending _ (by simp)
        · exact hI.sound z hz,
      fun z hz => hI.pending z (by simp [hz])⟩ (by
        rw [show emits (Work.visit m :: r) = emits r from rfl] at hk
        rw [hk]; simp [locTaken, hne])
    refine ⟨this.1, this.2.1, fun z hz => this.2.2.1 z (by simp [hz]), fun z hz => ?_⟩
    rcases List.mem_cons.1 hz with e | hz
    · cases e; exact this.2.2.1 _ (by simp)
    · exact this.2.2.2 z hz
  | case5 parsed out m r hm x hx ih =>
    have hRm : R m := hI.pending m (by simp)
    have := ih ⟨fun p hp y hy z hz => by
      rcases List.mem_cons.1 hp with rfl | hp
      · rw [hx] at hy; cases hy
        exact Or.inr (by simp [hz])
      · rcases hI.closed p hp y hy z hz with h | h
        · exact Or.inl (by simp [h])
        · rcases List.mem_cons.1 h with e | h
          · cases e; exact Or.inl (by simp)
          · exact Or.inr (by simp [h]),
      fun z hz => by
        rcases List.mem_cons.1 hz with rfl | hz
        · exact hRm
        · exact hI.sound z hz,
      fun z hz => by
        simp only [List.mem_append, List.mem_map, List.mem_cons] at hz
        rcases hz with ⟨a, ha, e⟩ | e | hz
        · cases e; exact hR m x hRm hx z ha
        · cases e
        · exact hI.pending z (by simp [hz])⟩ (by
        have he : emits ((importNames x b!"import-http-location").map .visit ++ .emit x :: r) = [x] ++ emits r := by
          simp [emits, List.filterMap_append, List.filterMap_map, Function.comp_def]
        rw [show emits (Work.visit m :: r) = emits r from rfl] at hk
        rw [he, occ_append]
        by_cases hne : n = m
        · subst hne
          rw [hl] at hx; cases hx
          simp only [locTaken, if_neg hm] at hk
          simp only [locTaken, List.mem_cons, true_or, if_true, occ_self]
          omega
        · have hxc : x ≠ c := by
            rintro rfl
            exact hne (List.append_cancel_left (hu _ hx)).symm
          simp only [locTaken, List.mem_cons, hne, false_or, occ_other hxc] at hk ⊢
          omega)
    refine ⟨this.1, this.2.1, fun z hz => this.2.2.1 z (by simp [hz]), fun z hz => ?_⟩
    rcases List.mem_cons.1 hz with e | hz
    · cases e; exact this.2.2.1 _ (by simp)
    · exact this.2.2.2 z (by simp [hz])

theorem httpLayers_track (fs : FS) (R : Bytes → Prop) (n : Bytes) (c : Conf) (k : Nat)
    (hR : ∀ m x, R m → AMap.load fs (b!"http/location/" ++ m) = some x →
      ∀ y ∈ importNames x b!"import-http-location", R y)
    (hl : AMap.load fs (b!"http/location/" ++ n) = some c)
    (hu : ∀ p, AMap.load fs p = some c → p = b!"http/location/" ++ n)
    (parsed : List Bytes) (path : Bytes) (hp : path ≠ b!"http/location/" ++ n)
    (hpR : ∀ x, AMap.load fs path = some x → ∀ y ∈ importNames x b!"import-http-location", R y)
    (hI : Importing fs R parsed []) (hk : k = locTaken n parsed) :
    Importing fs R (httpLayers fs parsed path).2 [] ∧
    occ c (httpLayers fs parsed path).1 + k = locTaken n (httpLayers fs parsed path).2 ∧
    (∀ m ∈ parsed, m ∈ (httpLayers fs parsed path).2) ∧
    ∀ x, AMap.load fs path = some x → ∀ y ∈ importNames x b!"import-http-location", y ∈ (httpLayers fs parsed path).2 := by
  rw [httpLayers]
  split
  · rename_i hn
    exact ⟨hI, by simp [occ_nil, hk], fun _ h => h, fun x hx => by rw [hn] at hx; cases hx⟩
  · rename_i x hx
    have hxc : x ≠ c := by rintro rfl; exact hp (hu _ hx)
    obtain ⟨h1, h2, h3, h4⟩ := importLocations_track fs R n c k hR hl hu parsed []
      ((importNames x b!"import-http-location").map .visit)
      ⟨fun p hp y hy z hz => (hI.closed p hp y hy z hz).imp_right (fun h => by cases h), hI.sound, fun m hm => by
        simp only [List.mem_map, Work.visit.injEq, exists_eq_right] at hm
        exact hpR x hx m hm⟩ (by
        rw [show emits ((importNames x b!"import-http-location").map .visit) = [] by
          simp [emits, List.filterMap_map, Function.comp_def]]
        simp [occ_nil, hk])
    refine ⟨h1, ?_, h3, fun x' hx' y hy => ?_⟩
    · simp only [occ_append, occ_other hxc]
      omega
    · rw [hx] at hx'; cases hx'
      exact h4 y (by simp [hy])

theorem importRefers_track (fs : FS) (R : Bytes → Prop) (n : Bytes) (c : Conf) (k : Nat)
    (hR : ∀ m x, R m → AMap.load fs (b!"http/location/" ++ m) = some x →
      ∀ y ∈ importNames x b!"import-http-location", R y)
    (hl : AMap.load fs (b!"http/location/" ++ n) = some c)
    (hu : ∀ p, AMap.load fs p = some c → p = b!"http/location/" ++ n) (ns : List Bytes)
    (hnR : ∀ s ∈ ns, ∀ x, AMap.load fs (b!"services/" ++ s) = some x → ∀ y ∈ importNames x b!"import-http-location", R y) :
    ∀ (parsed : List Bytes) (out : List Conf), Importing fs R parsed [] → occ c out + k = locTaken n parsed →
    Importing fs R (importRefers fs parsed out ns).2 [] ∧
    occ c (importRefers fs parsed out ns).1 + k = locTaken n (importRefers fs parsed out ns).2 ∧
    (∀ m ∈ parsed, m ∈ (importRefers fs parsed out ns).2) ∧
    ∀ s ∈ ns, ∀ x, AMap.load fs (b!"services/" ++ s) = some x → ∀ y ∈ importNames x b!"import-http-location",
      y ∈ (importRefers fs parsed out ns).2 := by
  induction ns with
  | nil => intro parsed out hI hk; exact ⟨hI, hk, fun _ h => h, fun s hs => by cases hs⟩
  | cons s ns ih =>
    intro parsed out hI hk
    have ih := ih fun s hs => hnR s (by simp [hs])
    rw [importRefers]
    split
    · rename_i hn
      obtain ⟨h1, h2, h3, h4⟩ := ih parsed out hI hk
      refine ⟨h1, h2, h3, fun s' hs' x hx y hy => ?_⟩
      rcases List.mem_cons.1 hs' with rfl | hs'
      · rw [hn] at hx; cases hx
      · exact h4 s' hs' x hx y hy
    · rename_i x hx
      have hxc : x ≠ c := by
        rintro rfl
        have := hu _ hx
        simp at this
      obtain ⟨h1, h2, h3, h4⟩ := importLocations_track fs R n c k hR hl hu parsed out
        ((importNames x b!"import-http-location").map .visit)
        ⟨fun p hp y hy z hz => (hI.closed p hp y hy z hz).imp_right (fun h => by cases h), hI.sound, fun m hm => by
          simp only [List.mem_map, Work.visit.injEq, exists_eq_right] at hm
          exact hnR s (by simp) x hx m hm⟩ (by
          rw [show emits ((importNames x b!"import-http-location").map .visit) = [] by
            simp [emits, List.filterMap_map, Function.comp_def]]
          simpa [occ_nil] using hk)
      obtain ⟨g1, g2, g3, g4⟩ := ih _ ((importLocations fs parsed out ((importNames x b!"import-http-location").map .visit)).1 ++ [x]) h1
        (by rw [occ_append, occ_other hxc]; omega)
      refine ⟨g1, g2, fun m hm => g3 m (h3 m hm), fun s' hs' x' hx' y hy => ?_⟩
      rcases List.mem_cons.1 hs' with rfl | hs'
      · rw [hx] at hx'; cases hx'
        exact g3 y (h4 y (by simp [hy]))
      · exact g4 s' hs' x' hx' y hy

/-- C52: every HTTP location that is imported, directly or by way of other locations, and whose file exists, is merged
exactly once, however the imports go round in circles; no other location is merged. (The file is told from the others by
its contents.) -/
theorem locations_once (fs : FS) (application pool n : Bytes) (c : Conf)
    (hl : AMap.load fs (b!"http/location/" ++ n) = some c)
    (hu : ∀ p, AMap.load fs p = some c → p = b!"http/location/" ++ n) :
    (Spec.ImportedLocation fs application pool n → Spec.Once (layers fs application pool) c) ∧
    (¬ Spec.ImportedLocation fs application pool n → c ∉ layers fs application pool) := by
  let R := Spec.ImportedLocation fs application pool
  have hR : ∀ m x, R m → AMap.load fs (b!"http/location/" ++ m) = some x →
      ∀ y ∈ importNames x b!"import-http-location", R y := fun m x hm hx y hy => .location hm hx hy
  obtain ⟨a1, a2, a3, a4⟩ := httpLayers_track fs R n c 0 hR hl hu [] (b!"http/service/" ++ appName application pool)
    (by simp) (fun x hx y hy => .service hx hy) ⟨fun p hp => by simp at hp, fun m hm => by simp at hm, fun m hm => by cases hm⟩
    (by simp [locTaken])
  obtain ⟨b1, b2, b3, b4⟩ := httpLayers_track fs R n c _ hR hl hu _ (b!"http/pools/" ++ pool)
    (by simp) (fun x hx y hy => .pool hx hy) a1 rfl
  have hbasic : occ c (AMap.load fs b!"basic").toList = 0 := by
    apply occ_notMem
    intro h
    simp only [Option.mem_toList] at h
    have := hu _ h
    simp at this
  have hpools : occ c (poolLayers fs [] (Strings.split b!"-" pool)) = 0 := by
    apply occ_notMem
    intro h
    obtain ⟨m, _, hm⟩ := mem_poolLayers h
    have := hu _ hm
    simp at this
  have key : ∃ p : List Bytes, Importing fs R p [] ∧ occ c (layers fs application pool) = locTaken n p ∧
      (R n → n ∈ p) := by
    unfold layers
    simp only
    generalize hH1 : httpLayers fs [] (b!"http/service/" ++ appName application pool) = H1 at a1 a2 a3 a4 b1 b2 b3 b4
    generalize hH2 : httpLayers fs H1.2 (b!"http/pools/" ++ pool) = H2 at b1 b2 b3 b4
    obtain ⟨o1, p1⟩ := H1
    obtain ⟨o2, p2⟩ := H2
    simp only at *
    split
    · rename_i hn
      refine ⟨p2, b1, by simp only [occ_append, hbasic, hpools, occ_nil]; omega, fun h => ?_⟩
      have : ∀ m, R m → m ∈ p2 := by
        intro m hm
        induction hm with
        | service h1 h2 => exact b3 _ (a4 _ h1 _ h2)
        | pool h1 h2 => exact b4 _ h1 _ h2
        | refer h1 => rw [hn] at h1; cases h1
        | location _ h1 h2 ih => exact (b1.closed _ ih _ h1 _ h2).resolve_right (fun h => by cases h)
      exact this n h
    · rename_i capp hcapp
      have hac : capp ≠ c := by
        rintro rfl
        have := hu _ hcapp
        simp at this
      obtain ⟨c1, c2, c3, c4⟩ := importRefers_track fs R n c (locTaken n p2) hR hl hu (importNames capp b!"import-refer")
        (fun s hs x hx y hy => .refer hcapp hs hx hy) p2 [] b1 (by simp [occ_nil])
      refine ⟨_, c1, by simp only [occ_append, hbasic, hpools, occ_other hac]; omega, fun h => ?_⟩
      have : ∀ m, R m → m ∈ (importRefers fs p2 [] (importNames capp b!"import-refer")).2 := by
        intro m hm
        induction hm with
        | service h1 h2 => exact c3 _ (b3 _ (a4 _ h1 _ h2))
        | pool h1 h2 => exact c3 _ (b4 _ h1 _ h2)
        | refer h1 h2 h3 h4 =>
          rw [hcapp] at h1; cases h1
          exact c4 _ h2 _ h3 _ h4
        | location _ h1 h2 ih => exact (c1.closed _ ih _ h1 _ h2).resolve_right (fun h => by cases h)
      exact this n h
  obtain ⟨p, k1, k2, k3⟩ := key
  constructor
  · intro h
    apply once_of_occ
    rw [k2, locTaken, if_pos (k3 h)]
  · intro h
    apply occ_zero
    rw [k2, locTaken, if_neg fun hm => h (k1.sound n hm)]

/-- Three locations in a circle, imported by the HTTP file of the application and by that of the pool. -/
def circleFS : FS :=
  [(b!"http/service/web", [(b!"import-http-location", .list [.str b!"a"])]),
   (b!"http/pools/web-core", [(b!"import-http-location", .list [.str b!"b", .str b!"missing"]), (b!"p", .str b!"p")]),
   (b!"http/location/a", [(b!"import-http-location", .list [.str b!"b"]), (b!"k", .str b!"a")]),
   (b!"http/location/b", [(b!"import-http-location", .list [.str b!"c"]), (b!"k", .str b!"b")]),
   (b!"http/location/c", [(b!"import-http-location", .list [.str b!"a"]), (b!"k", .str b!"c")]),
   (b!"http/location/d", [(b!"k", .str b!"d")])]

example : Spec.ImportedLocation circleFS [] b!"web-core" b!"c" :=
  have h : appName [] b!"web-core" = b!"web" := by decide +kernel
  .location (.location (.service (c := [(b!"import-http-location", .list [.str b!"a"])]) (n := b!"a") (by rw [h]; rfl)
    (by decide +kernel)) rfl (show b!"b" ∈ _ by decide +kernel)) rfl (by decide +kernel)

example : ∀ p, AMap.load circleFS p = some [(b!"import-http-location", .list [.str b!"a"]), (b!"k", .str b!"c")] →
    p = b!"http/location/" ++ b!"c" := by
  intro p h
  simp only [circleFS, AMap.load] at h
  repeat' split at h
  all_goals (first | (subst_vars; rfl) | simp at h)

/-- C52, exhibited: an HTTP location imported by a later service overrides an earlier service, although HTTP
configuration is documented as weaker than service configuration. -/
theorem location_over_service_counterexample :
    Spec.valueAt (poolConfig exFS [] b!"web-core") [b!"k"] = some (.str b!"location") :=
  eq_str_of_check (by rw [poolConfig, exFS_layers]; decide +kernel)

/-! ## C51: placeholders -/

/-- A string is exactly one placeholder for `k`. -/
theorem placeholderKey_iff (s k : Bytes) :
    placeholderKey s = some k ↔ s = b!"${" ++ k ++ b!"}" ∧ k ≠ [] ∧ (125 : UInt8) ∉ k := by
  constructor
  · intro h
    rw [placeholderKey.eq_def] at h
    split at h
    · rename_i r
      split at h
      · rename_i hlast
        simp only at h
        split at h
        · rename_i hk
          cases h
          refine ⟨?_, hk⟩
          have : r = r.dropLast ++ [125] := by
            have hne : r ≠ [] := by intro e; rw [e] at hlast; cases hlast
            rw [List.getLast?_eq_some_getLast hne] at hlast
            have := List.dropLast_concat_getLast hne
            rw [Option.some.inj hlast] at this
            exact this.symm
          rw [List.append_assoc, ← this]; rfl
        · cases h
      · cases h
    · cases h
  · rintro ⟨rfl, h1, h2⟩
    rw [placeholderKey.eq_def]
    simp [h1, h2]

/-- The value a placeholder map gives to a string: what the documentation promises. -/
def Spec.Replaced (ph : AMap Bytes V) (s : Bytes) (v : V) : Prop :=
  (∃ k, s = b!"${" ++ k ++ b!"}" ∧ k ≠ [] ∧ (125 : UInt8) ∉ k ∧ AMap.load ph k = some v ∧ v ≠ .nil) ∨
  (v = .str s ∧ ∀ k x, s = b!"${" ++ k ++ b!"}" → k ≠ [] → (125 : UInt8) ∉ k → AMap.load ph k = some x → x = .nil)

theorem placeholderValue_spec (ph : AMap Bytes V) (s : Bytes) :
    Spec.Replaced ph s ((placeholderValue ph s).getD (.str s)) := by
  rw [placeholderValue]
  cases hk : placeholderKey s with
  | none =>
    refine .inr ⟨rfl, fun k x e h1 h2 _ => ?_⟩
    have := (placeholderKey_iff s k).mpr ⟨e, h1, h2⟩
    rw [hk] at this; cases this
  | some k =>
    have he := (placeholderKey_iff s k).mp hk
    simp only
    have hother : AMap.load ph k = none ∨ AMap.load ph k = some .nil →
        ∀ k' x, s = b!"${" ++ k' ++ b!"}" → k' ≠ [] → (125 : UInt8) ∉ k' → AMap.load ph k' = some x → x = .nil := by
      intro h k' x e h1 h2 hl
      have := (placeholderKey_iff s k').mpr ⟨e, h1, h2⟩
      rw [hk] at this; cases this
      rcases h with h | h <;> rw [h] at hl <;> cases hl
      rfl
    split
    · rename_i hl
      exact .inr ⟨rfl, hother (.inr hl)⟩
    · rename_i hl
      cases hv : AMap.load ph k with
      | none => exact .inr ⟨rfl, hother (.inl hv)⟩
      | some v => exact .inl ⟨k, he.1, he.2.1, he.2.2, hv, fun e => hl (by rw [hv]; exact congrArg some e)⟩

theorem load_replace (ph : AMap Bytes V) (c : Conf) (k : Bytes) :
    AMap.load (replace ph c) k =
      match AMap.load c k with
      | some (.str s) => some ((placeholderValue ph s).getD (.str s))
      | some (.map m) => some (.map (replace ph m))
      | r => r := by
  induction c with
  | nil => rw [replace]; rfl
  | cons p c ih =>
    obtain ⟨k', v⟩ := p
    cases v with
    | str s =>
      rw [replace, AMap.load_cons, AMap.load_cons, ih]
      split <;> rfl
    | map m =>
      rw [replace, AMap.load_cons, AMap.load_cons, ih]
      split <;> rfl
    | nil =>
      rw [replace, AMap.load_cons, AMap.load_cons, ih]
      · split <;> rfl
      · simp
      · simp
    | other s =>
      rw [replace, AMap.load_cons, AMap.load_cons, ih]
      · split <;> rfl
      · simp
      · simp
    | list l =>
      rw [replace, AMap.load_cons, AMap.load_cons, ih]
      · split <;> rfl
      · simp
      · simp

/-- C51: after placeholder replacement every path that held a string holds its replacement, other scalars, lists and
maps stay what they were, and no value appears where there was none except inside a replacement. -/
theorem placeholders_replaced (c : Conf) (ph : AMap Bytes V) (p : List Bytes) :
    (∀ s, Spec.valueAt c p = some (.str s) →
      ∃ v, Spec.valueAt (replacePlaceHolder c ph) p = some v ∧ Spec.Replaced ph s v) ∧
    (∀ x, Spec.valueAt c p = some (.other x) → Spec.valueAt (replacePlaceHolder c ph) p = some (.other x)) ∧
    (∀ l, Spec.valueAt c p = some (.list l) → Spec.valueAt (replacePlaceHolder c ph) p = some (.list l)) ∧
    (∀ m, Spec.valueAt c p = some (.map m) → ∃ m', Spec.valueAt (replacePlaceHolder c ph) p = some (.map m')) ∧
    (∀ v, Spec.valueAt c p = none → Spec.valueAt (replacePlaceHolder c ph) p = some v →
      ∃ q s, q <+: p ∧ Spec.valueAt c q = some (.str s)) := by
  by_cases hne : ph = ([] : List (Bytes × V))
  · subst hne
    refine ⟨fun s h => ⟨_, h, .inr ⟨rfl, fun k x _ _ _ hx => by cases hx⟩⟩, fun _ h => h, fun _ h => h, fun m h => ⟨m, h⟩,
      fun v h h' => ?_⟩
    rw [show replacePlaceHolder c [] = c from rfl, h] at h'
    cases h'
  have he : replacePlaceHolder c ph = replace ph c := by
    cases ph with
    | nil => exact absurd rfl hne
    | cons => rfl
  rw [he]
  clear he
  induction p generalizing c with
  | nil =>
    exact ⟨fun s h => (by cases h), fun s h => (by cases h), fun s h => (by cases h), fun m _ => ⟨_, rfl⟩,
      fun v h => (by cases h)⟩
  | cons k p ih =>
    simp only [Spec.valueAt, at_map_cons, load_replace]
    cases hl : AMap.load c k with
    | none =>
      exact ⟨fun s h => (by cases h), fun s h => (by cases h), fun s h => (by cases h), fun s h => (by cases h),
        fun v _ h => (by cases h)⟩
    | some w =>
      cases w with
      | map m =>
        obtain ⟨h1, h2, h3, h4, h5⟩ := ih m
        refine ⟨h1, h2, h3, h4, fun v hn hv => ?_⟩
        obtain ⟨q, s, hq, hs⟩ := h5 v hn hv
        refine ⟨k :: q, s, List.cons_prefix_cons.mpr ⟨rfl, hq⟩, ?_⟩
        rw [at_map_cons, hl]; exact hs
      | str s =>
        refine ⟨fun s' h => ?_, fun x h => ?_, fun x h => ?_, fun x h => ?_, fun v _ _ => ?_⟩
        · cases p with
          | nil =>
            cases (at_some_nil h).1
            have hr := placeholderValue_spec ph s
            simp only [Option.bind_some]
            generalize hv : (placeholderValue ph s).getD (.str s) = v at hr
            refine ⟨v, ?_, hr⟩
            refine at_nil_of_ne fun e => ?_
            rcases hr with ⟨_, _, _, _, _, hne'⟩ | ⟨h, _⟩
            · exact hne' e
            · rw [e] at h; cases h
          | cons k' p => cases h
        all_goals cases p with
          | nil => first | cases (at_some_nil h).1 | exact ⟨[k], s, List.prefix_refl _, by rw [at_map_cons, hl]; rfl⟩
          | cons k' p => first | cases h | exact ⟨[k], s, ⟨k' :: p, rfl⟩, by rw [at_map_cons, hl]; rfl⟩
      | nil =>
        have hnil : ∀ q, Spec.at .nil q = none := fun q => by cases q <;> rfl
        simp [hnil]
      | other x =>
        refine ⟨fun s h => ?_, fun _ h => h, fun s h => ?_, fun s h => ?_, fun v hn hv => ?_⟩
        · cases p with
          | nil => cases (at_some_nil h).1
          | cons => cases h
        · cases p with
          | nil => cases (at_some_nil h).1
          | cons => cases h
        · cases p with
          | nil => cases (at_some_nil h).1
          | cons => cases h
        · exfalso
          replace hn : Spec.at (.other x) p = none := hn
          replace hv : Spec.at (.other x) p = some v := hv
          rw [hn] at hv; cases hv
      | list l =>
        refine ⟨fun s h => ?_, fun s h => ?_, fun _ h => h, fun s h => ?_, fun v hn hv => ?_⟩
        · cases p with
          | nil => cases (at_some_nil h).1
          | cons => cases h
        · cases p with
          | nil => cases (at_some_nil h).1
          | cons => cases h
        · cases p with
          | nil => cases (at_some_nil h).1
          | cons => cases h
        · exfalso
          replace hn : Spec.at (.list l) p = none := hn
          replace hv : Spec.at (.list l) p = some v := hv
          rw [hn] at hv; cases hv

/-- Non-vacuity: one placeholder replaced, one unknown, one only part of the string. -/
example :
    let c : Conf := [(b!"a", .map [(b!"x", .str b!"${port}"), (b!"y", .str b!"${none}"), (b!"z", .str b!"h:${port}")])]
    let ph : AMap Bytes V := [(b!"port", .str b!"80")]
    Spec.valueAt (replacePlaceHolder c ph) [b!"a", b!"x"] = some (.str b!"80") ∧
    Spec.valueAt (replacePlaceHolder c ph) [b!"a", b!"y"] = some (.str b!"${none}") ∧
    Spec.valueAt (replacePlaceHolder c ph) [b!"a", b!"z"] = some (.str b!"h:${port}") := by
  simp [replacePlaceHolder, replace, placeholderValue, placeholderKey, Spec.valueAt, Spec.at, AMap.load]

end Motan.Props
