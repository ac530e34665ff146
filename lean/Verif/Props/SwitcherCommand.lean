import Verif.Model.SwitcherCommand

/-!
# C38: switcher commands are undone when withdrawn
-/

namespace Motan.Props

open Motan.Strings Motan.SwitcherCommand
open Motan.Switcher (St Sw Op getSwitcher setSwitcher register watch setValue)

variable {L : Type}

/-! ## Specification -/

/-- The value an item of a command's pattern (name, colon, boolean) gives to a switcher, if it names it. -/
def Spec.itemValue (x : Bytes) (item : Bytes) : Option Bool :=
  match split b!":" item with
  | name :: v :: _ => if name = x then Url.parseBool v else none
  | _ => none

/-- The value a command gives to a switcher: that of its last item naming the switcher. -/
def Spec.commanded (pattern : Option Bytes) (x : Bytes) : Option Bool :=
  pattern.bind fun p => ((split b!"," p).filterMap (Spec.itemValue x)).getLast?

/-- The value of a switcher, none if it is not registered. -/
def Spec.valueOf (s : State L) (x : Bytes) : Option Bool := (getSwitcher s.sws x).map Sw.value

/-! ## Proofs -/

theorem value_setSwitcher (s : St L) (name : Bytes) (sw : Sw L) (v : Bool) (h : getSwitcher s name = some sw)
    (x : Bytes) :
    (getSwitcher (setSwitcher s name sw v) x).map Sw.value =
      if x = name then some v else (getSwitcher s x).map Sw.value := by
  unfold setSwitcher
  by_cases hv : v = sw.value
  · rw [if_pos hv]
    by_cases hx : x = name
    · rw [if_pos hx, hx, h, hv]; rfl
    · rw [if_neg hx]
  · rw [if_neg hv]
    show (AMap.load (AMap.store s.switchers name _) x).map Sw.value = _
    rw [AMap.load_store]
    by_cases hx : x = name
    · rw [if_pos hx, if_pos hx.symm]; rfl
    · rw [if_neg hx, if_neg (fun h => hx h.symm)]; rfl

/-- The value of a switcher in a table. -/
def val (s : St L) (x : Bytes) : Option Bool := (getSwitcher s x).map Sw.value

/-- What the items of a pattern do to one switcher. -/
theorem applyItems (items : List Bytes) (s : State L) (m : AMap Bytes Bool) (x : Bytes) :
    let r := items.foldl applyItem (s, m)
    let c := (items.filterMap (Spec.itemValue x)).getLast?
    val r.1.sws x = (val s.sws x).map (fun v => c.getD v) ∧
    AMap.load r.1.old x =
      (match AMap.load s.old x, val s.sws x, c with
        | some v, _, _ => some v
        | none, some v, some _ => some v
        | none, _, _ => none) ∧
    ((AMap.load r.2 x).isSome = ((AMap.load m x).isSome || ((val s.sws x).isSome && c.isSome))) ∧
    (s.old.NodupKeys → r.1.old.NodupKeys) := by
  induction items generalizing s m with
  | nil =>
    simp only [List.foldl_nil, List.filterMap_nil, List.getLast?_nil, Option.isSome_none, Bool.and_false,
      Bool.or_false, Option.getD_none, Option.map_id', id]
    refine ⟨trivial, ?_, trivial, fun h => h⟩
    cases AMap.load s.old x <;> cases val s.sws x <;> rfl
  | cons i items ih =>
    rw [List.foldl_cons]
    -- the effect of the first item
    have skip : (Spec.itemValue x i = none ∨ val s.sws x = none) →
        let r := items.foldl applyItem (s, m)
        let c := ((i :: items).filterMap (Spec.itemValue x)).getLast?
        val r.1.sws x = (val s.sws x).map (fun v => c.getD v) ∧
        AMap.load r.1.old x =
          (match AMap.load s.old x, val s.sws x, c with
            | some v, _, _ => some v
            | none, some v, some _ => some v
            | none, _, _ => none) ∧
        ((AMap.load r.2 x).isSome = ((AMap.load m x).isSome || ((val s.sws x).isSome && c.isSome))) ∧
        (s.old.NodupKeys → r.1.old.NodupKeys) := by
      intro hc
      have h := ih s m
      have e : (val s.sws x).isSome = false ∨
          (List.filterMap (Spec.itemValue x) (i :: items)).getLast? =
          (List.filterMap (Spec.itemValue x) items).getLast? := by
        rcases hc with hc | hc
        · right; rw [List.filterMap_cons, hc]
        · left; rw [hc]; rfl
      rcases e with e | e
      · have e' : val s.sws x = none := by cases hv : val s.sws x with
          | none => rfl
          | some v => rw [hv] at e; exact absurd e (by simp)
        simp only [e', Option.map_none, Option.isSome_none, Bool.false_and, Bool.or_false] at h ⊢
        refine ⟨h.1, ?_, h.2.2.1, h.2.2.2⟩
        rw [h.2.1]
        cases AMap.load s.old x <;> simp
      · simp only [e]; exact h
    rcases hsp : split b!":" i with _ | ⟨name, _ | ⟨v, rest⟩⟩
    · rw [show applyItem (s, m) i = (s, m) by rw [applyItem, hsp]]
      exact skip (Or.inl (by rw [Spec.itemValue, hsp]))
    · rw [show applyItem (s, m) i = (s, m) by rw [applyItem, hsp]]
      exact skip (Or.inl (by rw [Spec.itemValue, hsp]))
    · cases hb : Url.parseBool v with
      | none =>
        rw [show applyItem (s, m) i = (s, m) by rw [applyItem, hsp]; simp only [hb]]
        exact skip (Or.inl (by rw [Spec.itemValue, hsp]; simp only [hb, ite_self]))
      | some value =>
        cases hg : getSwitcher s.sws name with
        | none =>
          rw [show applyItem (s, m) i = (s, m) by rw [applyItem, hsp]; simp only [hb, hg]]
          refine skip ?_
          by_cases hx : name = x
          · right; rw [← hx, val, hg]; rfl
          · left; rw [Spec.itemValue, hsp]; simp only [if_neg hx]
        | some sw =>
          have he : applyItem (s, m) i = (⟨setSwitcher s.sws name sw value,
              match AMap.load s.old name with
              | some _ => s.old
              | none => AMap.store s.old name sw.value⟩, AMap.store m name true) := by
            rw [applyItem, hsp]; simp only [hb, hg]; rfl
          rw [he]
          have h := ih ⟨setSwitcher s.sws name sw value,
              match AMap.load s.old name with
              | some _ => s.old
              | none => AMap.store s.old name sw.value⟩ (AMap.store m name true)
          have hval : val (setSwitcher s.sws name sw value) x = if x = name then some value else val s.sws x :=
            value_setSwitcher s.sws name sw value hg x
          have hold : AMap.load (match AMap.load s.old name with
              | some _ => s.old
              | none => AMap.store s.old name sw.value) x =
              if x = name then some ((AMap.load s.old name).getD sw.value) else AMap.load s.old x := by
            cases ho : AMap.load s.old name with
            | some w =>
              simp only
              by_cases hx : x = name
              · rw [if_pos hx, hx, ho]; rfl
              · rw [if_neg hx]
            | none =>
              simp only
              rw [AMap.load_store]
              by_cases hx : x = name
              · rw [if_pos hx, if_pos hx.symm]; rfl
              · rw [if_neg hx, if_neg (fun h => hx h.symm)]
          have hnd : s.old.NodupKeys → (match AMap.load s.old name with
              | some _ => s.old
              | none => AMap.store s.old name sw.value).NodupKeys := by
            intro hn
            cases AMap.load s.old name with
            | some _ => exact hn
            | none => exact AMap.nodupKeys_store hn _ _
          simp only at h
          rw [hval, hold, AMap.load_store] at h
          refine ⟨?_, ?_, ?_, fun hn => h.2.2.2 (hnd hn)⟩
          · rw [h.1]
            by_cases hx : x = name
            · subst hx
              have hv : val s.sws x = some sw.value := by rw [val, hg]; rfl
              rw [if_pos rfl, hv, List.filterMap_cons]
              have hi : Spec.itemValue x i = some value := by rw [Spec.itemValue, hsp]; simp [hb]
              rw [hi]
              simp only [Option.map_some]
              rw [List.getLast?_cons]
              rfl
            · have hi : Spec.itemValue x i = none := by
                rw [Spec.itemValue, hsp]; simp only [if_neg (fun h : name = x => hx h.symm)]
              rw [if_neg hx, List.filterMap_cons, hi]
          · rw [h.2.1]
            by_cases hx : x = name
            · subst hx
              have hv : val s.sws x = some sw.value := by rw [val, hg]; rfl
              have hi : Spec.itemValue x i = some value := by rw [Spec.itemValue, hsp]; simp [hb]
              rw [List.filterMap_cons, hi]
              simp only [if_true, hv]
              rw [List.getLast?_cons]
              cases AMap.load s.old x <;> rfl
            · have hi : Spec.itemValue x i = none := by
                rw [Spec.itemValue, hsp]; simp only [if_neg (fun h : name = x => hx h.symm)]
              rw [if_neg hx, if_neg hx, List.filterMap_cons, hi]
          · rw [h.2.2.1]
            by_cases hx : x = name
            · subst hx
              have hv : val s.sws x = some sw.value := by rw [val, hg]; rfl
              have hi : Spec.itemValue x i = some value := by rw [Spec.itemValue, hsp]; simp [hb]
              rw [List.filterMap_cons, hi]
              simp only [if_true, hv]
              rw [List.getLast?_cons]
              simp
            · have hi : Spec.itemValue x i = none := by
                rw [Spec.itemValue, hsp]; simp only [if_neg (fun h : name = x => hx h.symm)]
              rw [if_neg hx, if_neg (fun h : name = x => hx h.symm), List.filterMap_cons, hi]

/-- What restoring does to one switcher. -/
theorem restoreItems (ps : AMap Bytes Bool) (hn : ps.NodupKeys) (s : St L) (m : AMap Bytes Bool) (x : Bytes) :
    let r := ps.foldl restoreItem (s, m)
    val r.1 x = (val s x).map (fun v => if (AMap.load m x).isSome then v else (AMap.load ps x).getD v) ∧
    AMap.load r.2 x = (AMap.load m x).map (fun v => (AMap.load ps x).getD v) ∧
    (m.NodupKeys → r.2.NodupKeys) := by
  induction ps generalizing s m with
  | nil =>
    simp only [List.foldl_nil, AMap.load, Option.getD_none, ite_self, Option.map_id', id]
    exact ⟨trivial, trivial, fun h => h⟩
  | cons p ps ih =>
    obtain ⟨k, w⟩ := p
    have hn' : k ∉ AMap.keys ps ∧ AMap.NodupKeys ps := by simpa [AMap.NodupKeys, AMap.keys] using hn
    have hk : AMap.load ps k = none := AMap.load_eq_none.mpr hn'.1
    rw [List.foldl_cons]
    cases hm : AMap.load m k with
    | some w' =>
      have he : restoreItem (s, m) (k, w) = (s, AMap.store m k w) := by rw [restoreItem]; simp only [hm]
      rw [he]
      have h := ih hn'.2 s (AMap.store m k w)
      simp only at h ⊢
      rw [AMap.load_store] at h
      rw [AMap.load_cons]
      refine ⟨?_, ?_, fun hnd => h.2.2 (AMap.nodupKeys_store hnd _ _)⟩
      · rw [h.1]
        by_cases hx : k = x
        · subst hx; simp [hm]
        · simp [hx]
      · rw [h.2.1]
        by_cases hx : k = x
        · subst hx; simp [hm, hk]
        · simp [hx]
    | none =>
      cases hg : getSwitcher s k with
      | some sw =>
        have he : restoreItem (s, m) (k, w) = (setSwitcher s k sw w, m) := by rw [restoreItem]; simp only [hm, hg]
        rw [he]
        have h := ih hn'.2 (setSwitcher s k sw w) m
        simp only at h ⊢
        have hval : val (setSwitcher s k sw w) x = if x = k then some w else val s x :=
          value_setSwitcher s k sw w hg x
        rw [hval] at h
        rw [AMap.load_cons]
        refine ⟨?_, ?_, h.2.2⟩
        · rw [h.1]
          by_cases hx : k = x
          · subst hx
            have hv : val s k = some sw.value := by rw [val, hg]; rfl
            simp [hv, hm, hk]
          · rw [if_neg (fun h => hx h.symm), if_neg hx]
        · rw [h.2.1]
          by_cases hx : k = x
          · subst hx; simp [hm]
          · simp [hx]
      | none =>
        have he : restoreItem (s, m) (k, w) = (s, m) := by rw [restoreItem]; simp only [hm, hg]
        rw [he]
        have h := ih hn'.2 s m
        simp only at h ⊢
        rw [AMap.load_cons]
        refine ⟨?_, ?_, h.2.2⟩
        · rw [h.1]
          by_cases hx : k = x
          · subst hx
            have hv : val s k = none := by rw [val, hg]; rfl
            simp [hv]
          · rw [if_neg hx]
        · rw [h.2.1]
          by_cases hx : k = x
          · subst hx; simp [hm]
          · simp [hx]

/-- What one switcher needs of the state. -/
structure SwInv (s : State L) : Prop where
  nodup : s.old.NodupKeys
  registered : ∀ x v, AMap.load s.old x = some v → (val s.sws x).isSome = true

/-- A processed command, seen by one switcher. -/
theorem process_one (s : State L) (hi : SwInv s) (p : Option Bytes) (x : Bytes) :
    val (processSwitcherCommand s p).sws x =
      (val s.sws x).map (fun v => (Spec.commanded p x).getD ((AMap.load s.old x).getD v)) ∧
    AMap.load (processSwitcherCommand s p).old x =
      (match val s.sws x, Spec.commanded p x with
        | some v, some _ => some ((AMap.load s.old x).getD v)
        | _, _ => none) := by
  have key : ∀ (a : State L × AMap Bytes Bool),
      (val a.1.sws x = (val s.sws x).map (fun v => (Spec.commanded p x).getD v)) →
      (AMap.load a.1.old x =
        (match AMap.load s.old x, val s.sws x, Spec.commanded p x with
          | some v, _, _ => some v
          | none, some v, some _ => some v
          | none, _, _ => none)) →
      ((AMap.load a.2 x).isSome = ((val s.sws x).isSome && (Spec.commanded p x).isSome)) →
      a.1.old.NodupKeys →
      let r := a.1.old.foldl restoreItem (a.1.sws, a.2)
      val r.1 x = (val s.sws x).map (fun v => (Spec.commanded p x).getD ((AMap.load s.old x).getD v)) ∧
      AMap.load r.2 x = (match val s.sws x, Spec.commanded p x with
        | some v, some _ => some ((AMap.load s.old x).getD v)
        | _, _ => none) := by
    intro a h1 h2 h3 h4
    have h := restoreItems a.1.old h4 a.1.sws a.2 x
    simp only at h ⊢
    rw [h.1, h.2.1, h1, h2]
    have hreg := hi.registered x
    cases hc : Spec.commanded p x with
    | none =>
      rw [hc] at h3
      simp only [Option.isSome_none, Bool.and_false] at h3
      have h3' : AMap.load a.2 x = none := by
        cases hl : AMap.load a.2 x with
        | none => rfl
        | some v => rw [hl] at h3; exact absurd h3 (by simp)
      rw [h3']
      cases ho : AMap.load s.old x <;> cases hv : val s.sws x <;> simp
    | some w =>
      rw [hc] at h3
      cases hv : val s.sws x with
      | none =>
        rw [hv] at h3
        simp only [Option.isSome_none, Bool.false_and] at h3
        have h3' : AMap.load a.2 x = none := by
          cases hl : AMap.load a.2 x with
          | none => rfl
          | some v => rw [hl] at h3; exact absurd h3 (by simp)
        rw [h3']; simp
      | some v =>
        rw [hv] at h3
        simp only [Option.isSome_some, Bool.and_self] at h3
        obtain ⟨w', hw'⟩ := Option.isSome_iff_exists.mp h3
        rw [hw']
        cases ho : AMap.load s.old x <;> simp
  cases p with
  | none =>
    refine key (s, []) ?_ ?_ ?_ hi.nodup
    · simp [Spec.commanded]
    · cases AMap.load s.old x <;> cases val s.sws x <;> rfl
    · simp [Spec.commanded, AMap.load]
  | some p =>
    have h := applyItems (split b!"," p) s [] x
    simp only [AMap.load, Option.isSome_none, Bool.false_or] at h
    exact key _ h.1 h.2.1 h.2.2.1 (h.2.2.2 hi.nodup)

theorem swInv_process (s : State L) (hi : SwInv s) (p : Option Bytes) : SwInv (processSwitcherCommand s p) := by
  constructor
  · cases p with
    | none => exact (restoreItems s.old hi.nodup s.sws [] []).2.2 AMap.nodupKeys_nil
    | some p =>
      have h := (applyItems (split b!"," p) s [] []).2.2.2 hi.nodup
      refine (restoreItems _ h _ _ []).2.2 ?_
      have key : ∀ (items : List Bytes) (a : State L × AMap Bytes Bool), a.2.NodupKeys →
          (items.foldl applyItem a).2.NodupKeys := by
        intro items
        induction items with
        | nil => intro a h; exact h
        | cons i items ih =>
          intro a h
          rw [List.foldl_cons]
          apply ih
          rw [applyItem]
          split
          · split
            · split
              · exact AMap.nodupKeys_store h _ _
              · exact h
            · exact h
          · exact h
      exact key _ _ AMap.nodupKeys_nil
  · intro x v hv
    obtain ⟨h1, h2⟩ := process_one s hi p x
    rw [h2] at hv
    rw [h1]
    cases hs : val s.sws x with
    | none => rw [hs] at hv; exact absurd hv (by simp)
    | some v => rfl

/-- Other operations never unregister a switcher. -/
theorem op_registered (s s' : St L) (o : Op L) (h : Switcher.step s o = some s') (x : Bytes)
    (hx : (val s x).isSome = true) : (val s' x).isSome = true := by
  have hreg : ∀ (s : St L) n v ls, (val s x).isSome = true → (val (register s n v ls) x).isSome = true := by
    intro s n v ls hx
    unfold register
    split
    · exact hx
    · split
      · exact hx
      · show ((AMap.load (AMap.store s.switchers n _) x).map Sw.value).isSome = true
        rw [AMap.load_store]
        split
        · rfl
        · exact hx
  cases o with
  | register n v ls => rw [← Option.some.inj h]; exact hreg s n v ls hx
  | watch n ls =>
    rw [← Option.some.inj h]
    unfold watch
    split
    · show ((AMap.load (AMap.store s.switchers n _) x).map Sw.value).isSome = true
      rw [AMap.load_store]
      split
      · rfl
      · exact hx
    · exact hx
  | set n v =>
    have h : setValue s n v = some s' := h
    have h : (match getSwitcher (match getSwitcher s n with | some _ => s | none => register s n v []) n with
      | some sw => some (setSwitcher (match getSwitcher s n with | some _ => s | none => register s n v []) n sw v)
      | none => none) = some s' := h
    have hx' : (val (match getSwitcher s n with | some _ => s | none => register s n v []) x).isSome = true := by
      split
      · exact hx
      · exact hreg _ _ _ _ hx
    generalize (match getSwitcher s n with | some _ => s | none => register s n v []) = t at h hx'
    cases hg : getSwitcher t n with
    | none => rw [hg] at h; exact absurd h (by simp)
    | some sw =>
      rw [hg] at h
      rw [← Option.some.inj h]
      have := value_setSwitcher t n sw v hg x
      have e : val (setSwitcher t n sw v) x = if x = n then some v else val t x := this
      rw [e]
      split
      · rfl
      · exact hx'
  | notify i =>
    rw [← Option.some.inj h]
    unfold Switcher.notify
    split <;> exact hx

theorem swInv_step (s : State L) (hi : SwInv s) (e : Event L) : SwInv (step s e) := by
  cases e with
  | command p => exact swInv_process s hi p
  | op o =>
    refine ⟨hi.nodup, fun x v hv => ?_⟩
    have hx := hi.registered x v hv
    show (val ((Switcher.step s.sws o).getD s.sws) x).isSome = true
    cases h : Switcher.step s.sws o with
    | none => exact hx
    | some s' => exact op_registered s.sws s' o h x hx

theorem swInv_run (s : St L) (h : List (Event L)) : SwInv (run s h) := by
  have key : ∀ (h : List (Event L)) (s : State L), SwInv s → SwInv (h.foldl step s) := by
    intro h
    induction h with
    | nil => intro s hs; exact hs
    | cons e h ih => intro s hs; exact ih _ (swInv_step s hs e)
  exact key h _ ⟨AMap.nodupKeys_nil, fun x v hv => by simp [AMap.load] at hv⟩

/-! ## The property -/

/-- After any sequence of switcher commands every registered switcher named by the last command has the commanded
value, and every other has the value it had before the commands. -/
theorem switcher_commands_undone (s : St L) (ps : List (Option Bytes)) (x : Bytes) (v : Bool)
    (hv : Spec.valueOf ⟨s, []⟩ x = some v) :
    Spec.valueOf (run s (ps.map .command)) x = some (((ps.getLast?).bind fun p => Spec.commanded p x).getD v) := by
  have key : ∀ (ps : List (Option Bytes)) (t : State L) (c : Option Bool), SwInv t →
      val t.sws x = some (c.getD v) → AMap.load t.old x = c.map (fun _ => v) →
      val ((ps.map Event.command).foldl step t).sws x =
        some (((ps.getLast?).elim c fun p => Spec.commanded p x).getD v) := by
    intro ps
    induction ps with
    | nil => intro t c _ h _; exact h
    | cons p ps ih =>
      intro t c hi h1 h2
      rw [List.map_cons, List.foldl_cons]
      obtain ⟨h3, h4⟩ := process_one t hi p x
      rw [h1, h2] at h3 h4
      have := ih (step t (.command p)) (Spec.commanded p x) (swInv_process t hi p)
        (by
          show val (processSwitcherCommand t p).sws x = _
          rw [h3]
          cases c <;> simp)
        (by
          show AMap.load (processSwitcherCommand t p).old x = _
          rw [h4]
          cases Spec.commanded p x <;> cases c <;> simp)
      rw [this]
      rw [List.getLast?_cons]
      cases ps.getLast? <;> rfl
  have := key ps ⟨s, []⟩ none ⟨AMap.nodupKeys_nil, fun x v hv => by simp [AMap.load] at hv⟩ hv rfl
  show val (run s (ps.map .command)).sws x = _
  rw [run, this]
  cases ps.getLast? <;> rfl

/-- A command names a switcher. -/
def Spec.names (p : Option Bytes) (x : Bytes) : Prop := (Spec.commanded p x).isSome = true

/-- With anything else happening to switchers in between: when a switcher is first named by a command, then named by
every command for a while, and then no longer, it gets back the value it had before it was first named. -/
theorem switcher_command_withdrawn (s : St L) (before : List (Event L)) (p : Option Bytes) (during : List (Event L))
    (q : Option Bytes) (x : Bytes)
    (hx : (Spec.valueOf (run s before) x).isSome = true)
    (hb : AMap.load (run s before).old x = none)
    (hp : Spec.names p x) (hd : ∀ r, Event.command r ∈ during → Spec.names r x) (hq : ¬ Spec.names q x) :
    Spec.valueOf (run s (before ++ [.command p] ++ during ++ [.command q])) x = Spec.valueOf (run s before) x := by
  obtain ⟨v, hv⟩ := Option.isSome_iff_exists.mp hx
  have key : ∀ (during : List (Event L)) (t : State L), SwInv t → (∀ r, Event.command r ∈ during → Spec.names r x) →
      (val t.sws x).isSome = true → AMap.load t.old x = some v →
      (val (during.foldl step t).sws x).isSome = true ∧ AMap.load (during.foldl step t).old x = some v ∧
        SwInv (during.foldl step t) := by
    intro during
    induction during with
    | nil => intro t hi _ h1 h2; exact ⟨h1, h2, hi⟩
    | cons e during ih =>
      intro t hi hd h1 h2
      rw [List.foldl_cons]
      refine ih _ (swInv_step t hi e) (fun r hr => hd r (by simp [hr])) ?_ ?_
      · cases e with
        | command r =>
          show (val (processSwitcherCommand t r).sws x).isSome = true
          rw [(process_one t hi r x).1]
          simpa using h1
        | op o =>
          show (val ((Switcher.step t.sws o).getD t.sws) x).isSome = true
          cases h : Switcher.step t.sws o with
          | none => exact h1
          | some s' => exact op_registered t.sws s' o h x h1
      · cases e with
        | command r =>
          show AMap.load (processSwitcherCommand t r).old x = some v
          rw [(process_one t hi r x).2]
          obtain ⟨w, hw⟩ := Option.isSome_iff_exists.mp h1
          obtain ⟨c, hc⟩ := Option.isSome_iff_exists.mp (hd r (by simp))
          rw [hw, hc, h2]; rfl
        | op o => exact h2
  have hi := swInv_run s before
  have h0 := process_one (run s before) hi p x
  have hv' : val (run s before).sws x = some v := hv
  obtain ⟨c, hc⟩ := Option.isSome_iff_exists.mp hp
  rw [hv', hc, hb] at h0
  obtain ⟨h1, h2, h3⟩ := key during (processSwitcherCommand (run s before) p) (swInv_process _ hi p) hd
    (by rw [h0.1]; rfl) (by rw [h0.2]; rfl)
  have hrun : run s (before ++ [.command p] ++ during ++ [.command q]) =
      processSwitcherCommand (during.foldl step (processSwitcherCommand (run s before) p)) q := by
    simp only [run, List.foldl_append, List.foldl_cons, List.foldl_nil]
    rfl
  rw [hrun, hv]
  show val _ x = _
  rw [(process_one _ h3 q x).1, h2]
  have hq' : Spec.commanded q x = none := by
    cases h : Spec.commanded q x with
    | none => rfl
    | some w => exact absurd (by rw [Spec.names, h]; rfl) hq
  obtain ⟨w, hw⟩ := Option.isSome_iff_exists.mp h1
  rw [hq', hw]; rfl

/-- A switcher has no saved value, as required above, when the last command did not name it or there was none. -/
theorem nothing_saved (s : St L) (before : List (Event L)) (q : Option Bytes) (x : Bytes) (hq : ¬ Spec.names q x)
    (ops : List (Op L)) :
    AMap.load (run s (before ++ [.command q] ++ ops.map .op)).old x = none ∧
    AMap.load (run s (ops.map .op)).old x = none := by
  have key : ∀ (ops : List (Op L)) (t : State L), ((ops.map Event.op).foldl step t).old = t.old := by
    intro ops
    induction ops with
    | nil => intro t; rfl
    | cons o ops ih => intro t; rw [List.map_cons, List.foldl_cons, ih]; rfl
  constructor
  · have hrun : run s (before ++ [.command q] ++ ops.map .op) =
        (ops.map Event.op).foldl step (processSwitcherCommand (run s before) q) := by
      simp only [run, List.foldl_append, List.foldl_cons, List.foldl_nil]
      rfl
    have hq' : Spec.commanded q x = none := by
      cases h : Spec.commanded q x with
      | none => rfl
      | some w => exact absurd (by rw [Spec.names, h]; rfl) hq
    rw [hrun, key, (process_one _ (swInv_run s before) q x).2, hq']
    cases val (run s before).sws x <;> rfl
  · rw [run, key]; rfl

/-- Restoring never meets an unregistered switcher: the only nil dereference of the function is unreachable. -/
theorem saved_registered (s : St L) (h : List (Event L)) (x : Bytes) (v : Bool)
    (hx : AMap.load (run s h).old x = some v) : (getSwitcher (run s h).sws x).isSome = true := by
  have := (swInv_run s h).registered x v hx
  simpa [val] using this

/-! ## Examples and counterexamples -/

def exSws : St Unit := ⟨[(b!"a", ⟨false, []⟩), (b!"b", ⟨true, []⟩)], [], []⟩

/-- Two commands, the second withdrawing a; items that name nothing or carry no boolean are skipped. -/
example :
    Spec.valueOf (run exSws ([some b!"a:true,b:0", some b!"b:false,c:true,a"].map .command)) b!"a" = some false ∧
    Spec.valueOf (run exSws ([some b!"a:true,b:0", some b!"b:false,c:true,a"].map .command)) b!"b" = some false ∧
    Spec.valueOf (run exSws ([some b!"a:true,b:0", none].map .command)) b!"b" = some true := by decide +kernel

example : Spec.names (some b!"a:true,b:0") b!"a" ∧ ¬ Spec.names none b!"a" ∧
    AMap.load (run exSws []).old b!"a" = none ∧ (Spec.valueOf (run exSws []) b!"a").isSome = true := by
  unfold Spec.names; decide +kernel

/-- The saved values are shared by all clusters: a cluster without a switcher command that processes any command
undoes the switcher command still in force in another cluster. (The two events are those of different clusters;
after them cluster 0's command is still `a:true`.) -/
theorem clusters_interfere_counterexample :
    let events : List (Nat × Option Bytes) := [(0, some b!"a:true"), (1, none)]
    let current := fun c => ((events.filter fun e => e.1 = c).getLast?).bind Prod.snd
    Spec.commanded (current 0) b!"a" = some true ∧ Spec.commanded (current 1) b!"a" = none ∧
    Spec.valueOf (run exSws (events.map fun e => .command e.2)) b!"a" = some false := by decide +kernel

end Motan.Props
