import Verif.Proof.CowMap

/-!
# C20: the copy-on-write map is linearizable
-/

namespace Motan.Props

open Motan.Spec.CowMap Motan.CowMap

variable {K V : Type} [DecidableEq K] {T : Type} [DecidableEq T]

/-- **C20.** Whatever the goroutines and the schedule, every history of the copy-on-write map is linearizable: every
operation appears to take effect at one instant between its invocation and its response on one ordinary map. -/
theorem cowmap_linearizable {h : List (Event T K V)} {s : CowMap.St T K V} (he : CowMap.Exec h s) : Linearizable h := by
  obtain ⟨es, σ, m, hr, hv, _⟩ := exec_run he
  exact ⟨es, σ, m, hr, hv⟩

/-- **C20.** No goroutine is ever stuck: whenever one is inside an operation, it can take a step, or it waits for the
mutex and its holder can take a step. Readers (`Load`, `Range`, `Len`) never wait. -/
theorem cowmap_progress {h : List (Event T K V)} {s : CowMap.St T K V} (he : CowMap.Exec h s) (t : T) (ht : s.pc t ≠ .idle) :
    (∃ e s', Step s t e s') ∨
    (∃ op t', s.pc t = .start op ∧ Writes op ∧ s.lock = some t' ∧ ∃ e s', Step s t' e s') := by
  -- the mutex is held only by a critical goroutine
  have hheld : ∀ {h : List (Event T K V)} {s : CowMap.St T K V}, CowMap.Exec h s → ∀ t, s.lock = some t → Critical (s.pc t) := by
    have aux : ∀ {s : CowMap.St T K V} {t e s'}, (∃ σ m, Inv s σ m) → Step s t e s' →
        (∀ t, s.lock = some t → Critical (s.pc t)) → ∀ t, s'.lock = some t → Critical (s'.pc t) := by
      intro s t e s' ⟨σ, m, hI⟩ hs ih t' hl
      have keep : ∀ pc' : PC K V, s.lock = some t' → (Critical (s.pc t) → Critical pc') →
          Critical (upd s.pc t pc' t') := by
        intro pc' hl hk
        by_cases e : t' = t
        · subst e; rw [upd_same]; exact hk (ih _ hl)
        · rw [upd_ne _ _ e]; exact ih _ hl
      cases hs with
      | copyNext hpc _ =>
        split at hl <;> (rename_i hd; first | rw [if_pos hd] | rw [if_neg hd]) <;> exact keep _ hl (fun _ => trivial)
      | lock hpc _ _ => cases hl; show Critical (upd s.pc t _ t); rw [upd_same]; trivial
      | unlock hpc => cases hl
      | invoke hpc _ => exact keep _ hl (fun h => by rw [hpc] at h; exact h.elim)
      | loadPtr hpc => exact keep _ hl (fun h => by rw [hpc] at h; exact h.elim)
      | loadIdx hpc => exact keep _ hl (fun h => by rw [hpc] at h; exact h.elim)
      | lenPtr hpc => exact keep _ hl (fun h => by rw [hpc] at h; exact h.elim)
      | lenGet hpc => exact keep _ hl (fun h => by rw [hpc] at h; exact h.elim)
      | rangePtr hpc _ => exact keep _ hl (fun h => by rw [hpc] at h; exact h.elim)
      | rangeNext hpc _ => exact keep _ hl (fun h => by rw [hpc] at h; exact h.elim)
      | rangeEnd hpc => exact keep _ hl (fun h => by rw [hpc] at h; exact h.elim)
      | ret hpc => exact keep _ hl (fun h => by rw [hpc] at h; exact h.elim)
      | storeBegin hpc _ => exact keep _ hl (fun _ => trivial)
      | updateBegin hpc _ => exact keep _ hl (fun _ => trivial)
      | deleteMiss hpc _ => exact keep _ hl (fun _ => trivial)
      | deleteBegin hpc _ _ => exact keep _ hl (fun _ => trivial)
      | swapBegin hpc => exact keep _ hl (fun _ => trivial)
      | copyEndStore hpc => exact keep _ hl (fun _ => trivial)
      | copyEndDelete hpc => exact keep _ hl (fun _ => trivial)
      | publish hpc => exact keep _ hl (fun _ => trivial)
    intro h s he
    induction he with
    | init => intro t h; cases h
    | step h1 hs ih =>
      obtain ⟨_, σ, m, _, _, hI⟩ := exec_run h1
      exact aux ⟨σ, m, hI⟩ hs ih
    | visible h1 hs ih =>
      obtain ⟨_, σ, m, _, _, hI⟩ := exec_run h1
      exact aux ⟨σ, m, hI⟩ hs ih
  obtain ⟨_, σ, m, _, _, hI⟩ := exec_run he
  -- every goroutine beyond the wait for the mutex can step
  have hgo : ∀ t, s.pc t ≠ .idle → (∀ op, s.pc t = .start op → ¬ Writes op) → ∃ e s', Step s t e s' := by
    intro t hne hnw
    have hth := hI.thr t
    cases hpc : s.pc t with
    | idle => exact absurd hpc hne
    | start op =>
      cases op with
      | load k => exact ⟨_, _, .loadPtr hpc⟩
      | range => exact ⟨_, _, .rangePtr hpc (List.Perm.refl _)⟩
      | len => exact ⟨_, _, .lenPtr hpc⟩
      | store k v => exact absurd trivial (hnw _ hpc)
      | delete k => exact absurd trivial (hnw _ hpc)
      | swap l => exact absurd trivial (hnw _ hpc)
      | update k g => exact absurd trivial (hnw _ hpc)
    | reading k p => exact ⟨_, _, .loadIdx hpc⟩
    | counting p => exact ⟨_, _, .lenGet hpc⟩
    | ranging p acc rem =>
      cases rem with
      | nil => exact ⟨_, _, .rangeEnd hpc⟩
      | cons k rem =>
        rw [hpc] at hth
        obtain ⟨rest, _, h2, h3⟩ := hth
        cases rest with
        | nil => cases h2
        | cons x rest =>
          simp only [List.map_cons, List.cons.injEq] at h2
          have := h3 x (by simp)
          rw [h2.1, ← deref_eq] at this
          exact ⟨_, _, .rangeNext hpc this⟩
    | locked op =>
      cases op with
      | load k => exact absurd hpc (fun e => (locked_writes he t _ e).elim)
      | range => exact absurd hpc (fun e => (locked_writes he t _ e).elim)
      | len => exact absurd hpc (fun e => (locked_writes he t _ e).elim)
      | store k v => exact ⟨_, _, .storeBegin hpc (List.Perm.refl _)⟩
      | delete k =>
        cases hk : AMap.load (s.deref s.cur) k with
        | none => exact ⟨_, _, .deleteMiss hpc hk⟩
        | some x => exact ⟨_, _, .deleteBegin hpc hk (List.Perm.refl _)⟩
      | swap l => exact ⟨_, _, .swapBegin hpc⟩
      | update k g => exact ⟨_, _, .updateBegin hpc (List.Perm.refl _)⟩
    | copying op key new p q rem pv =>
      cases rem with
      | nil =>
        cases new with
        | none => exact ⟨_, _, .copyEndDelete hpc⟩
        | some v => exact ⟨_, _, .copyEndStore hpc⟩
      | cons k rem =>
        rw [hpc] at hth
        obtain ⟨_, h2, _, h4, _⟩ := hth
        obtain ⟨v, hv⟩ := Option.isSome_iff_exists.mp (h4.2 k (by simp))
        rw [← hI.mem, ← h2, ← deref_eq] at hv
        exact ⟨_, _, .copyNext hpc hv⟩
    | filled op q r => exact ⟨_, _, .publish hpc⟩
    | unlocking r => exact ⟨_, _, .unlock hpc⟩
    | returning r => exact ⟨_, _, .ret hpc⟩
  by_cases hw : ∃ op, s.pc t = .start op ∧ Writes op
  · obtain ⟨op, hpc, hw⟩ := hw
    cases hl : s.lock with
    | none => exact .inl ⟨_, _, .lock hpc hw hl⟩
    | some t' =>
      have hc := hheld he t' hl
      refine .inr ⟨op, t', hpc, hw, rfl, hgo t' ?_ ?_⟩
      · intro e; rw [e] at hc; exact hc
      · intro op' e; rw [e] at hc; exact hc.elim
  · exact .inl (hgo t ht fun op e h => hw ⟨op, e, h⟩)

/-! ## Non-vacuity -/

/-- An execution with overlapping operations: `Range` takes the pointer, then a whole `Store` runs, then `Range`
finishes without the new entry; a later `Load` sees it. -/
example : ∃ s, CowMap.Exec (T := Nat) (K := Nat) (V := Nat)
    [.inv 0 .range, .inv 1 (.store 7 5), .ret 1 .unit, .ret 0 (.pairs []), .inv 0 (.load 7),
     .ret 0 (.val (some 5))] s := by
  have e0 : CowMap.Exec (T := Nat) (K := Nat) (V := Nat) [] CowMap.init := .init
  have e1 := CowMap.Exec.visible e0 (Step.invoke (t := 0) (op := .range) rfl (by intro m h; cases h))
  have e2 := CowMap.Exec.visible e1 (Step.invoke (t := 1) (op := .store 7 5) rfl (by intro m h; cases h))
  have e3 := CowMap.Exec.step e2 (Step.rangePtr (t := 0) (l := []) rfl (List.Perm.refl _))
  have e4 := CowMap.Exec.step e3 (Step.lock (t := 1) rfl trivial rfl)
  have e5 := CowMap.Exec.step e4 (Step.storeBegin (t := 1) (l := []) rfl (List.Perm.refl _))
  have e6 := CowMap.Exec.step e5 (Step.copyEndStore (t := 1) rfl)
  have e7 := CowMap.Exec.step e6 (Step.publish (t := 1) rfl)
  have e8 := CowMap.Exec.step e7 (Step.unlock (t := 1) rfl)
  have e9 := CowMap.Exec.visible e8 (Step.ret (t := 1) rfl)
  have e10 := CowMap.Exec.step e9 (Step.rangeEnd (t := 0) rfl)
  have e11 := CowMap.Exec.visible e10 (Step.ret (t := 0) rfl)
  have e12 := CowMap.Exec.visible e11 (Step.invoke (t := 0) (op := .load 7) rfl (by intro m h; cases h))
  have e13 := CowMap.Exec.step e12 (Step.loadPtr (t := 0) rfl)
  have e14 := CowMap.Exec.step e13 (Step.loadIdx (t := 0) rfl)
  exact ⟨_, CowMap.Exec.visible e14 (Step.ret (t := 0) rfl)⟩

/-- The specification refuses wrong histories: a value nobody stored cannot be loaded. -/
example : ¬ Linearizable (T := Nat) (K := Nat) (V := Nat) [.inv 0 (.load 7), .ret 0 (.val (some 5))] := by
  rintro ⟨es, σ, m, hr, hv⟩
  have key : ∀ es σ m, Run (T := Nat) (K := Nat) (V := Nat) (fun _ => .idle) (fun _ => none) es σ m →
      (∀ e ∈ visible es, ∀ t op, e = .inv t op → op = .load 7) →
      m = (fun _ => none) ∧ (∀ t, σ t = .idle ∨ σ t = .pending (.load 7) ∨ σ t = .done (.val none)) ∧
      ∀ e ∈ visible es, ∀ t r, e = .ret t r → r = .val none := by
    intro es σ m hr
    induction hr with
    | nil => intro _; exact ⟨rfl, fun _ => .inl rfl, by simp [visible]⟩
    | @inv es σ' m' t op _ _ ih =>
      intro hall
      rw [visible_append] at hall
      obtain ⟨h1, h2, h3⟩ := ih fun e he => hall e (by simp [he])
      have hop := hall (.inv t op) (by simp [visible]) t op rfl
      refine ⟨h1, fun t' => ?_, fun e he => ?_⟩
      · by_cases e : t' = t
        · subst e; rw [upd_same, hop]; exact .inr (.inl rfl)
        · rw [upd_ne _ _ e]; exact h2 t'
      · rw [visible_append] at he
        rcases List.mem_append.mp he with he | he
        · exact h3 e he
        · simp [visible] at he; subst he; intro _ _ h; cases h
    | @lin es σ' m' t op r m'' _ hp hl ih =>
      intro hall
      have hv : ∀ e, e ∈ visible (es ++ [AEvent.lin t]) ↔ e ∈ visible es := by
        intro e; rw [visible_append]; simp [visible]
      obtain ⟨h1, h2, h3⟩ := ih fun e he => hall e ((hv e).mpr he)
      have hop : op = .load 7 := by
        rcases h2 t with h | h | h <;> rw [h] at hp <;> cases hp
        rfl
      subst hop
      refine ⟨by rw [hl.2, h1], fun t' => ?_, fun e he => h3 e ((hv e).mp he)⟩
      by_cases e : t' = t
      · subst e; rw [upd_same, hl.1, h1]; exact .inr (.inr rfl)
      · rw [upd_ne _ _ e]; exact h2 t'
    | @ret es σ' m' t r _ hd ih =>
      intro hall
      rw [visible_append] at hall
      obtain ⟨h1, h2, h3⟩ := ih fun e he => hall e (by simp [he])
      refine ⟨h1, fun t' => ?_, fun e he => ?_⟩
      · by_cases e : t' = t
        · subst e; rw [upd_same]; exact .inl rfl
        · rw [upd_ne _ _ e]; exact h2 t'
      · rw [visible_append] at he
        rcases List.mem_append.mp he with he | he
        · exact h3 e he
        · simp [visible] at he; subst he
          intro t' r' h; cases h
          rcases h2 t with h | h | h <;> rw [h] at hd <;> cases hd
          rfl
  have := (key es σ m hr (by
    rw [hv]; intro e he t op h; subst h; simp at he; exact he.2)).2.2 (.ret 0 (.val (some 5))) (by rw [hv]; simp) 0 _ rfl
  cases this

end Motan.Props
