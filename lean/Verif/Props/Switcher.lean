import Verif.Model.Switcher

/-!
# C21: switchers
-/

namespace Motan.Props

open Motan.Switcher

variable {L : Type}

/-! ## Specification: read off a history, newest first -/

/-- The value of a switcher: the last one set, or else the one it was first registered with. -/
def Spec.switchValue : List (Op L) → Bytes → Option Bool
  | [], _ => none
  | .set m v :: h, n => if m = n then some v else Spec.switchValue h n
  | .register m v _ :: h, n =>
      match Spec.switchValue h n with
      | some x => some x
      | none => if m = n ∧ n ≠ [] then some v else none
  | _ :: h, n => Spec.switchValue h n

/-- Who watches a switcher: the listeners of the registration that created it and all that were added later. -/
def Spec.watchers : List (Op L) → Bytes → List L
  | [], _ => []
  | .register m _ ls :: h, n => if m = n ∧ n ≠ [] ∧ Spec.switchValue h n = none then ls else Spec.watchers h n
  | .watch m ls :: h, n =>
      if m = n ∧ Spec.switchValue h n ≠ none then Spec.watchers h n ++ ls else Spec.watchers h n
  | _ :: h, n => Spec.watchers h n

/-- The calls of listeners that are due: one per listener watching at an actual change, with the new value. -/
def Spec.due : List (Op L) → List (L × Bool)
  | [] => []
  | .set n v :: h =>
      if Spec.switchValue h n = some (!v) then Spec.due h ++ (Spec.watchers h n).map (·, v) else Spec.due h
  | _ :: h => Spec.due h

/-- Notifications on their way. -/
def Spec.onTheWay (s : St L) : List (L × Bool) := s.running.flatMap fun x => x.2.map (·, x.1)

/-! ## Proof -/

private theorem run_append (s : St L) (a b : List (Op L)) : run s (a ++ b) = (run s a).bind fun s => run s b := by
  induction a generalizing s with
  | nil => rfl
  | cons o a ih =>
    rw [List.cons_append, run, run]
    cases step s o with
    | none => rfl
    | some s' => exact ih s'

private structure Inv (s : St L) (h : List (Op L)) : Prop where
  value : ∀ n, (AMap.load s.switchers n).map Sw.value = Spec.switchValue h n
  listeners : ∀ n sw, AMap.load s.switchers n = some sw → sw.listeners = Spec.watchers h n
  nowatch : ∀ n, AMap.load s.switchers n = none → Spec.watchers h n = []
  empty : AMap.load s.switchers [] = none
  due : (s.log ++ Spec.onTheWay s).Perm (Spec.due h)

private theorem flatMap_set {α β : Type} (f : α → List β) : ∀ (l : List α) (i : Nat) (a b : α) (x : β), l[i]? = some a →
    f a = x :: f b → (x :: (l.set i b).flatMap f).Perm (l.flatMap f)
  | [], i, a, b, x, h, _ => by simp at h
  | c :: l, 0, a, b, x, h, hf => by
      simp at h; subst h
      simp [hf]
  | c :: l, i + 1, a, b, x, h, hf => by
      have ih := flatMap_set f l i a b x (by simpa using h) hf
      simp only [List.set_cons_succ, List.flatMap_cons]
      exact (List.perm_middle.symm).trans (ih.append_left (f c))

private theorem inv_step {s s' : St L} {h : List (Op L)} {o : Op L} (hI : Inv s h) (hs : step s o = some s') :
    Inv s' (o :: h) := by
  cases o with
  | register n v ls =>
    simp only [step, Option.some.injEq] at hs; subst hs
    unfold register
    by_cases hn : n = []
    · rw [if_pos hn]
      subst hn
      refine ⟨fun m => ?_, fun m sw hm => ?_, fun m hm => ?_, hI.empty, hI.due⟩
      · rw [hI.value m, Spec.switchValue]
        cases Spec.switchValue h m with
        | some x => rfl
        | none =>
          have : ¬ ([] = m ∧ m ≠ []) := fun hc => hc.2 hc.1.symm
          simp [this]
      · rw [hI.listeners m sw hm, Spec.watchers, if_neg (fun hc => hc.2.1 hc.1.symm)]
      · rw [Spec.watchers, if_neg (fun hc => hc.2.1 hc.1.symm)]; exact hI.nowatch m hm
    · rw [if_neg hn]
      cases hl : AMap.load s.switchers n with
      | some sw0 =>
        have hv := hI.value n
        rw [hl] at hv
        refine ⟨fun m => ?_, fun m sw hm => ?_, fun m hm => ?_, hI.empty, hI.due⟩
        · simp only
          rw [hI.value m, Spec.switchValue]
          cases hc : Spec.switchValue h m with
          | some x => rfl
          | none =>
            have : ¬ (n = m ∧ m ≠ []) := by
              rintro ⟨rfl, _⟩; rw [hc] at hv; cases hv
            simp [this]
        · rw [hI.listeners m sw hm, Spec.watchers, if_neg]
          rintro ⟨rfl, _, hc⟩; rw [hc] at hv; cases hv
        · rw [Spec.watchers, if_neg]
          · exact hI.nowatch m hm
          · rintro ⟨rfl, _, hc⟩; rw [hc] at hv; cases hv
      | none =>
        have hv := hI.value n
        rw [hl] at hv
        refine ⟨fun m => ?_, fun m sw hm => ?_, fun m hm => ?_, ?_, hI.due⟩
        · show (AMap.load (AMap.store s.switchers n ⟨v, ls⟩) m).map Sw.value = _
          rw [AMap.load_store, Spec.switchValue]
          by_cases hnm : n = m
          · subst hnm; rw [if_pos rfl, ← hv]; simp [hn]
          · rw [if_neg hnm, hI.value m]
            cases Spec.switchValue h m <;> simp [hnm]
        · replace hm : AMap.load (AMap.store s.switchers n ⟨v, ls⟩) m = some sw := hm
          rw [AMap.load_store] at hm
          rw [Spec.watchers]
          by_cases hnm : n = m
          · subst hnm; rw [if_pos rfl] at hm; cases hm
            rw [if_pos ⟨rfl, hn, hv.symm⟩]
          · rw [if_neg hnm] at hm
            rw [if_neg (fun hc => hnm hc.1)]; exact hI.listeners m sw hm
        · replace hm : AMap.load (AMap.store s.switchers n ⟨v, ls⟩) m = none := hm
          rw [AMap.load_store] at hm
          by_cases hnm : n = m
          · rw [if_pos hnm] at hm; cases hm
          · rw [if_neg hnm] at hm
            rw [Spec.watchers, if_neg (fun hc => hnm hc.1)]; exact hI.nowatch m hm
        · show AMap.load (AMap.store s.switchers n ⟨v, ls⟩) [] = none
          rw [AMap.load_store, if_neg hn]; exact hI.empty
  | watch n ls =>
    simp only [step, Option.some.injEq] at hs; subst hs
    unfold watch
    have hv := hI.value n
    cases hl : AMap.load s.switchers n with
    | none =>
      rw [hl] at hv
      refine ⟨fun m => hI.value m, fun m sw hm => ?_, fun m hm => ?_, hI.empty, hI.due⟩
      · rw [hI.listeners m sw hm, Spec.watchers, if_neg]
        rintro ⟨rfl, hc⟩; exact hc hv.symm
      · rw [Spec.watchers, if_neg]
        · exact hI.nowatch m hm
        · rintro ⟨rfl, hc⟩; exact hc hv.symm
    | some sw0 =>
      rw [hl] at hv
      refine ⟨fun m => ?_, fun m sw hm => ?_, fun m hm => ?_, ?_, hI.due⟩
      · show (AMap.load (AMap.store s.switchers n _) m).map Sw.value = Spec.switchValue h m
        rw [AMap.load_store]
        by_cases hnm : n = m
        · subst hnm; rw [if_pos rfl, ← hv]; rfl
        · rw [if_neg hnm]; exact hI.value m
      · replace hm : AMap.load (AMap.store s.switchers n { sw0 with listeners := sw0.listeners ++ ls }) m = some sw := hm
        rw [AMap.load_store] at hm
        rw [Spec.watchers]
        by_cases hnm : n = m
        · subst hnm; rw [if_pos rfl] at hm; cases hm
          rw [if_pos ⟨rfl, by rw [← hv]; simp⟩]
          show sw0.listeners ++ ls = _
          rw [hI.listeners n sw0 hl]
        · rw [if_neg hnm] at hm
          rw [if_neg (fun hc => hnm hc.1)]; exact hI.listeners m sw hm
      · replace hm : AMap.load (AMap.store s.switchers n { sw0 with listeners := sw0.listeners ++ ls }) m = none := hm
        rw [AMap.load_store] at hm
        by_cases hnm : n = m
        · rw [if_pos hnm] at hm; cases hm
        · rw [if_neg hnm] at hm
          rw [Spec.watchers, if_neg (fun hc => hnm hc.1)]; exact hI.nowatch m hm
      · show AMap.load (AMap.store s.switchers n _) [] = none
        have : n ≠ [] := by intro e; rw [e, hI.empty] at hl; cases hl
        rw [AMap.load_store, if_neg this]; exact hI.empty
  | set n v =>
    simp only [step] at hs
    unfold setValue getSwitcher at hs
    have hv := hI.value n
    cases hl : AMap.load s.switchers n with
    | none =>
      rw [hl] at hv
      simp only [hl] at hs
      unfold register at hs
      by_cases hn : n = []
      · rw [if_pos hn] at hs; simp [hl] at hs
      · rw [if_neg hn] at hs
        simp only [hl, AMap.load_store_self, Option.some.injEq] at hs
        subst hs
        unfold setSwitcher
        rw [if_pos rfl]
        refine ⟨fun m => ?_, fun m sw hm => ?_, fun m hm => ?_, ?_, ?_⟩
        · show (AMap.load (AMap.store s.switchers n ⟨v, []⟩) m).map Sw.value = _
          rw [AMap.load_store, Spec.switchValue]
          by_cases hnm : n = m
          · rw [if_pos hnm, if_pos hnm]; rfl
          · rw [if_neg hnm, if_neg hnm]; exact hI.value m
        · replace hm : AMap.load (AMap.store s.switchers n ⟨v, []⟩) m = some sw := hm
          rw [AMap.load_store] at hm
          show _ = Spec.watchers h m
          by_cases hnm : n = m
          · subst hnm; rw [if_pos rfl] at hm; cases hm; exact (hI.nowatch n hl).symm
          · rw [if_neg hnm] at hm; exact hI.listeners m sw hm
        · replace hm : AMap.load (AMap.store s.switchers n ⟨v, []⟩) m = none := hm
          rw [AMap.load_store] at hm
          by_cases hnm : n = m
          · rw [if_pos hnm] at hm; cases hm
          · rw [if_neg hnm] at hm; exact hI.nowatch m hm
        · show AMap.load (AMap.store s.switchers n ⟨v, []⟩) [] = none
          rw [AMap.load_store, if_neg hn]; exact hI.empty
        · rw [Spec.due, if_neg (by rw [← hv]; simp)]; exact hI.due
    | some sw0 =>
      rw [hl] at hv
      simp only [hl, Option.some.injEq] at hs
      subst hs
      have hne : n ≠ [] := by intro e; rw [e, hI.empty] at hl; cases hl
      unfold setSwitcher
      by_cases hvv : v = sw0.value
      · rw [if_pos hvv]
        refine ⟨fun m => ?_, hI.listeners, hI.nowatch, hI.empty, ?_⟩
        · rw [Spec.switchValue]
          by_cases hnm : n = m
          · subst hnm; rw [if_pos rfl, hl, hvv]; rfl
          · rw [if_neg hnm]; exact hI.value m
        · rw [Spec.due, if_neg]
          · exact hI.due
          · rw [← hv, hvv]; simp
      · rw [if_neg hvv]
        refine ⟨fun m => ?_, fun m sw hm => ?_, fun m hm => ?_, ?_, ?_⟩
        · show (AMap.load (AMap.store s.switchers n { sw0 with value := v }) m).map Sw.value = _
          rw [AMap.load_store, Spec.switchValue]
          by_cases hnm : n = m
          · rw [if_pos hnm, if_pos hnm]; rfl
          · rw [if_neg hnm, if_neg hnm]; exact hI.value m
        · replace hm : AMap.load (AMap.store s.switchers n { sw0 with value := v }) m = some sw := hm
          rw [AMap.load_store] at hm
          show _ = Spec.watchers h m
          by_cases hnm : n = m
          · subst hnm; rw [if_pos rfl] at hm; cases hm; exact hI.listeners n sw0 hl
          · rw [if_neg hnm] at hm; exact hI.listeners m sw hm
        · replace hm : AMap.load (AMap.store s.switchers n { sw0 with value := v }) m = none := hm
          rw [AMap.load_store] at hm
          by_cases hnm : n = m
          · rw [if_pos hnm] at hm; cases hm
          · rw [if_neg hnm] at hm; exact hI.nowatch m hm
        · show AMap.load (AMap.store s.switchers n { sw0 with value := v }) [] = none
          rw [AMap.load_store, if_neg hne]; exact hI.empty
        · have hch : Spec.switchValue h n = some (!v) := by
            rw [← hv]
            cases v <;> cases hb : sw0.value <;> simp_all
          rw [Spec.due, if_pos hch]
          show (s.log ++ (s.running ++ [(v, sw0.listeners)]).flatMap _).Perm _
          rw [List.flatMap_append, ← List.append_assoc, ← hI.listeners n sw0 hl]
          simp only [List.flatMap_cons, List.flatMap_nil, List.append_nil]
          exact hI.due.append_right _
  | notify i =>
    simp only [step, Option.some.injEq] at hs; subst hs
    have h0 : Inv s (.notify i :: h) := ⟨hI.value, hI.listeners, hI.nowatch, hI.empty, hI.due⟩
    unfold notify
    cases hr : s.running[i]? with
    | none => exact h0
    | some x =>
      obtain ⟨v, ls⟩ := x
      cases ls with
      | nil => exact h0
      | cons l ls =>
        refine ⟨hI.value, hI.listeners, hI.nowatch, hI.empty, ?_⟩
        have := flatMap_set (fun x : Bool × List L => x.2.map (·, x.1)) s.running i (v, l :: ls) (v, ls) (l, v) hr rfl
        show ((s.log ++ [(l, v)]) ++ (s.running.set i (v, ls)).flatMap _).Perm (Spec.due h)
        rw [List.append_assoc]
        exact (this.append_left s.log).trans hI.due

private theorem inv_run {s : St L} (h : List (Op L)) (hr : run init h = some s) : Inv s h.reverse := by
  have key : ∀ (h : List (Op L)) (s0 s : St L) (h0 : List (Op L)), Inv s0 h0 → run s0 h = some s →
      Inv s (h.reverse ++ h0) := by
    intro h
    induction h with
    | nil => intro s0 s h0 hI hr; cases hr; exact hI
    | cons o h ih =>
      intro s0 s h0 hI hr
      rw [run] at hr
      cases hs : step s0 o with
      | none => rw [hs] at hr; cases hr
      | some s1 =>
        rw [hs] at hr
        have := ih s1 s (o :: h0) (inv_step hI hs) hr
        simpa using this
  have := key h init s [] ⟨fun _ => rfl, (by intro n sw h; cases h), fun _ _ => rfl, rfl, List.Perm.refl _⟩ hr
  simpa using this

/-- **C21.** After any history a switcher reads as the last value set for it (or the one it was first registered
with), and is absent if there was neither. -/
theorem switcher_last_value {s : St L} (h : List (Op L)) (hr : run init h = some s) (n : Bytes) :
    (getSwitcher s n).map Sw.value = Spec.switchValue h.reverse n ∧
    isOpen s n = (Spec.switchValue h.reverse n).getD false ∧
    AMap.load (getAllSwitchers s) n = Spec.switchValue h.reverse n := by
  have hI := inv_run h hr
  refine ⟨hI.value n, ?_, ?_⟩
  · rw [← hI.value n, isOpen]; cases AMap.load s.switchers n <;> rfl
  · rw [← hI.value n, getAllSwitchers]
    induction s.switchers with
    | nil => rfl
    | cons x l ih =>
      obtain ⟨a, b⟩ := x
      simp only [List.map_cons, AMap.load_cons]
      split
      · rfl
      · exact ih

/-- **C21.** The calls of listeners made and still on their way are exactly the due ones: one for every listener
watching at each actual change, with the new value, and none for a no-op. Once no goroutine is left with a listener to
call, exactly these calls were made. -/
theorem switcher_notifications {s : St L} (h : List (Op L)) (hr : run init h = some s) :
    (s.log ++ Spec.onTheWay s).Perm (Spec.due h.reverse) ∧
    (Spec.onTheWay s = [] → s.log.Perm (Spec.due h.reverse)) := by
  have hI := inv_run h hr
  refine ⟨hI.due, fun h0 => ?_⟩
  have := hI.due
  rwa [h0, List.append_nil] at this

/-- **C21.** Registering an empty or an existing name changes nothing. -/
theorem switcher_register_ignored (s : St L) (n : Bytes) (v : Bool) (ls : List L)
    (hn : n = [] ∨ (getSwitcher s n).isSome) : register s n v ls = s := by
  unfold register
  by_cases h : n = []
  · rw [if_pos h]
  · rw [if_neg h]
    rcases hn with h' | h'
    · exact absurd h' h
    · obtain ⟨sw, hsw⟩ := Option.isSome_iff_exists.mp h'
      rw [getSwitcher] at hsw
      rw [hsw]

/-- **C21.** A history panics exactly if it sets a switcher with the empty name. -/
theorem switcher_panic_iff (h : List (Op L)) : run (init : St L) h = none ↔ ∃ v, Op.set [] v ∈ h := by
  have key : ∀ (h : List (Op L)) (s : St L) (h0), Inv s h0 → (run s h = none ↔ ∃ v, Op.set [] v ∈ h) := by
    intro h
    induction h with
    | nil => intro s h0 _; simp [run]
    | cons o h ih =>
      intro s h0 hI
      rw [run]
      cases hs : step s o with
      | some s1 =>
        rw [Option.bind_some, ih s1 _ (inv_step hI hs)]
        constructor
        · rintro ⟨v, hv⟩; exact ⟨v, by simp [hv]⟩
        · rintro ⟨v, hv⟩
          rcases List.mem_cons.mp hv with e | e
          · subst e
            simp [step, setValue, getSwitcher, register, hI.empty] at hs
          · exact ⟨v, e⟩
      | none =>
        simp only [Option.bind_none, true_iff]
        cases o with
        | register => cases hs
        | watch => cases hs
        | notify => cases hs
        | set n v =>
          refine ⟨v, ?_⟩
          by_cases hn : n = []
          · subst hn; simp
          · exfalso
            simp only [step, setValue, getSwitcher] at hs
            cases hl : AMap.load s.switchers n with
            | some sw => simp [hl] at hs
            | none => simp [hl, register, hn, AMap.load_store_self] at hs
  exact key h init [] ⟨fun _ => rfl, (by intro n sw h; cases h), fun _ _ => rfl, rfl, List.Perm.refl _⟩

/-- What does not hold: notifications of two changes can arrive in the wrong order, so that the last value a listener
hears is not the value of the switcher. -/
theorem switcher_order_counterexample : ∃ (h : List (Op Nat)) (s : St Nat), run init h = some s ∧
    Spec.onTheWay s = [] ∧ isOpen s b!"a" = false ∧ s.log = [(0, false), (0, true)] :=
  ⟨[.register b!"a" false [0], .set b!"a" true, .set b!"a" false, .notify 1, .notify 0], _, rfl, rfl, rfl, rfl⟩

/-! ## Concurrent calls -/

/-- **C21.** However calls of `SetValue` overlap: once all have returned, a value different from the first one was
announced to the listeners. -/
theorem switcher_concurrent_final_value_announced {T : Type} [DecidableEq T] {v0 : Bool} {s : Race T}
    (h : RaceRun ⟨v0, fun _ => .idle, []⟩ s) (hidle : ∀ t, s.place t = .idle) (hv : s.value ≠ v0) : s.value ∈ s.sent := by
  have key : s.value = v0 ∨ s.value ∈ s.sent ∨ ∃ t, s.place t = .written s.value := by
    clear hidle hv
    generalize hs0 : (⟨v0, fun _ => .idle, []⟩ : Race T) = s0 at h
    induction h with
    | refl => subst hs0; exact .inl rfl
    | tail _ hstep ih =>
      have keep : ∀ {s : Race T} {t p}, (∀ v, s.place t ≠ .written v) →
          (s.value = v0 ∨ s.value ∈ s.sent ∨ ∃ t, s.place t = .written s.value) →
          (s.value = v0 ∨ s.value ∈ s.sent ∨ ∃ t', move s.place t p t' = .written s.value) := by
        intro s t p hne ih
        rcases ih with h | h | ⟨t', h⟩
        · exact .inl h
        · exact .inr (.inl h)
        · refine .inr (.inr ⟨t', ?_⟩)
          have : t' ≠ t := by intro e; subst e; exact hne _ h
          simpa [move, this] using h
      cases hstep with
      | call hp => exact keep (by intro v; rw [hp]; simp) ih
      | same hp _ => exact keep (by intro v; rw [hp]; simp) ih
      | differs hp _ => exact keep (by intro v; rw [hp]; simp) ih
      | @write t v hp => exact .inr (.inr ⟨t, by simp [move]⟩)
      | @spawn t v hp =>
        rcases ih with h | h | ⟨t', h⟩
        · exact .inl h
        · exact .inr (.inl (by simp [h]))
        · by_cases e : t' = t
          · subst e; rw [hp] at h
            simp only [Place.written.injEq] at h
            exact .inr (.inl (by simp [h]))
          · exact .inr (.inr ⟨t', by simpa [move, e] using h⟩)
  rcases key with h | h | ⟨t, h⟩
  · exact absurd h hv
  · exact h
  · rw [hidle t] at h; cases h

/-- What does not hold: two overlapping calls can both announce one change. -/
theorem switcher_concurrent_twice_counterexample : ∃ s : Race Bool, RaceRun ⟨false, fun _ => .idle, []⟩ s ∧
    (∀ t, s.place t = .idle) ∧ s.sent = [true, true] := by
  have r0 : RaceRun (T := Bool) ⟨false, fun _ => .idle, []⟩ ⟨false, fun _ => .idle, []⟩ := .refl
  have r1 := r0.tail (.call (t := false) (v := true) rfl)
  have r2 := r1.tail (.call (t := true) (v := true) rfl)
  have r3 := r2.tail (.differs (t := false) rfl (by decide))
  have r4 := r3.tail (.differs (t := true) rfl (by decide))
  have r5 := r4.tail (.write (t := false) rfl)
  have r6 := r5.tail (.write (t := true) rfl)
  have r7 := r6.tail (.spawn (t := false) rfl)
  have r8 := r7.tail (.spawn (t := true) rfl)
  exact ⟨_, r8, by decide, rfl⟩

/-- Non-vacuity: changes and no-ops, two listeners, one added between the changes. -/
example : ∃ s : St Nat, run init [.register b!"a" false [1], .set b!"a" true, .set b!"a" true, .watch b!"a" [2],
    .set b!"a" false, .register b!"a" true [3], .notify 0, .notify 1, .notify 1] = some s ∧
    s.log = [(1, true), (1, false), (2, false)] ∧ isOpen s b!"a" = false :=
  ⟨_, rfl, rfl, rfl⟩

end Motan.Props
