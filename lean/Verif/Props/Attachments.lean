import Verif.Model.Attachments

/-!
# C111: attachments may be set and read by many goroutines at once

core/motan.go:511-522, 551-565, 582-584, 658-667, 685-699. Model: `Verif/Model/Attachments.lean`; what linearizable means:
`Verif/Spec/CowMap.lean`.
-/

namespace Motan.Props

open Motan.Spec.CowMap Motan.Attachments

variable {K V : Type} [DecidableEq K] {T : Type} [DecidableEq T]

private theorem at_same {α : Type} (f : T → α) (t : T) (a : α) : upd f t a t = a := if_pos rfl

private theorem at_ne {α : Type} (f : T → α) {t t' : T} (a : α) (h : t' ≠ t) : upd f t a t' = f t' := if_neg h

private theorem lists_perm {l : AMap K V} {a : AMap K V} {m : Map K V} (hp : l.Perm a) (h : Lists a m) : Lists l m := by
  have hn : l.NodupKeys := (hp.map Prod.fst).nodup_iff.mpr h.1
  refine ⟨hn, fun k => ?_⟩
  rw [← h.2 k]
  apply Option.ext
  intro v
  rw [← AMap.mem_iff_load hn, ← AMap.mem_iff_load h.1, hp.mem_iff]

private theorem use_legal {a a' : AMap K V} {op : Op K V} {r : Res K V} {m : Map K V} (h : Lists a m) (hu : Use a op r a') :
    ∃ m', Legal m op r m' ∧ Lists a' m' := by
  cases hu with
  | load => exact ⟨m, ⟨by rw [h.2], rfl⟩, h⟩
  | store => exact ⟨_, ⟨rfl, rfl⟩, AMap.nodupKeys_store h.1 _ _, fun k => by rw [AMap.load_store, h.2]⟩
  | delete => exact ⟨_, ⟨by rw [h.2], rfl⟩, AMap.nodupKeys_erase h.1 _, fun k => by rw [AMap.load_erase, h.2]⟩
  | range hp => exact ⟨m, ⟨⟨_, rfl, lists_perm hp h⟩, rfl⟩, h⟩
  | len => exact ⟨m, ⟨⟨_, rfl, h⟩, rfl⟩, h⟩

/-- What holds of a goroutine. -/
private def Fits (s : Attachments.St T K V) (t : T) (x : TS K V) : PC K V → Prop
  | .idle => x = .idle
  | .start op => x = .pending op ∧ Offered op
  | .again op => x = .pending op ∧ Looks op ∧ s.cur ≠ none
  | .waiting op => x = .pending op ∧ Offered op ∧ Makes op
  | .locked op => x = .pending op ∧ Offered op ∧ Makes op ∧ s.lock = some t
  | .made op p => x = .pending op ∧ Offered op ∧ Makes op ∧ s.lock = some t ∧ s.cur = none ∧ s.heap p = []
  | .unlocking op p => x = .pending op ∧ Offered op ∧ Makes op ∧ s.lock = some t ∧ s.cur = some p
  | .inUse op p => x = .pending op ∧ Offered op ∧ s.cur = some p
  | .returning r => x = .done r
  | .panicked => False

/-- The goroutine holds the mutex. -/
private def Inside : PC K V → Prop
  | .locked _ | .made _ _ | .unlocking _ _ => True
  | _ => False

private structure AttInv (s : Attachments.St T K V) (σ : T → TS K V) (m : Map K V) : Prop where
  fits : ∀ t, Fits s t (σ t) (s.pc t)
  map : match s.cur with
    | none => m = fun _ => none
    | some p => Lists (s.heap p) m
  held : ∀ t, s.lock = some t → Inside (s.pc t)

private theorem fits_keep {s s' : Attachments.St T K V} {t : T} {x : TS K V} {pc : PC K V} (h : Fits s t x pc)
    (hc : s'.cur = s.cur) (hl : Inside pc → s.lock = some t → s'.lock = some t)
    (hh : ∀ op p, pc = .made op p → s.cur = none → s.heap p = [] → s'.heap p = []) : Fits s' t x pc := by
  cases pc with
  | idle => exact h
  | start op => exact h
  | again op => exact ⟨h.1, h.2.1, by rw [hc]; exact h.2.2⟩
  | waiting op => exact h
  | locked op => exact ⟨h.1, h.2.1, h.2.2.1, hl trivial h.2.2.2⟩
  | made op p =>
    obtain ⟨a, b, c, d, e, f⟩ := h
    exact ⟨a, b, c, hl trivial d, by rw [hc]; exact e, hh op p rfl e f⟩
  | unlocking op p =>
    obtain ⟨a, b, c, d, e⟩ := h
    exact ⟨a, b, c, hl trivial d, by rw [hc]; exact e⟩
  | inUse op p => exact ⟨h.1, h.2.1, by rw [hc]; exact h.2.2⟩
  | returning r => exact h
  | panicked => exact h

/-- A step that changes only where the goroutine is. -/
private theorem inv_move {s : Attachments.St T K V} {σ : T → TS K V} {m : Map K V} (hI : AttInv s σ m) {t : T} {pc : PC K V}
    {x : TS K V} (hf : Fits s t x pc) (hin : Inside (s.pc t) → Inside pc) :
    AttInv { s with pc := upd s.pc t pc } (upd σ t x) m := by
  refine ⟨fun t' => ?_, hI.map, fun t' hl => ?_⟩
  · by_cases e : t' = t
    · subst e
      rw [at_same]
      show Fits _ _ _ (upd s.pc t' pc t')
      rw [at_same]
      exact fits_keep hf rfl (fun _ h => h) (fun _ _ _ _ h => h)
    · rw [at_ne _ _ e]
      show Fits _ _ _ (upd s.pc t pc t')
      rw [at_ne _ _ e]
      exact fits_keep (hI.fits t') rfl (fun _ h => h) (fun _ _ _ _ h => h)
  · show Inside (upd s.pc t pc t')
    by_cases e : t' = t
    · subst e; rw [at_same]; exact hin (hI.held _ hl)
    · rw [at_ne _ _ e]; exact hI.held _ hl

private theorem upd_self {α : Type} (f : T → α) (t : T) : upd f t (f t) = f := by
  funext x
  by_cases e : x = t
  · subst e; exact at_same _ _ _
  · exact at_ne _ _ e

/-- A step of the machine is none, or one step of the specification. -/
private theorem inv_step {s s' : Attachments.St T K V} {t : T} {e : Option (Event T K V)} {σ : T → TS K V} {m : Map K V}
    (hI : AttInv s σ m) (hs : Attachments.Step s t e s') :
    (e = none ∧ AttInv s' σ m) ∨
    (e = none ∧ ∃ op r m', σ t = .pending op ∧ Legal m op r m' ∧ AttInv s' (upd σ t (.done r)) m') ∨
    (∃ op, e = some (.inv t op) ∧ σ t = .idle ∧ AttInv s' (upd σ t (.pending op)) m) ∨
    (∃ r, e = some (.ret t r) ∧ σ t = .done r ∧ AttInv s' (upd σ t .idle) m) := by
  have ht := hI.fits t
  -- a step that keeps the state of the specification
  have stay : ∀ {pc : PC K V}, Fits s t (σ t) pc → (Inside (s.pc t) → Inside pc) →
      AttInv { s with pc := upd s.pc t pc } σ m := by
    intro pc hf hin
    have := inv_move hI hf hin
    rw [upd_self] at this
    exact this
  cases hs with
  | invoke hpc ho =>
    rw [hpc] at ht
    exact .inr (.inr (.inl ⟨_, rfl, ht, inv_move hI ⟨rfl, ho⟩ (fun h => by rw [hpc] at h; exact h.elim)⟩))
  | getNil hpc hc =>
    rw [hpc] at ht
    have hm := hI.map
    rw [hc] at hm
    refine .inr (.inl ⟨rfl, _, .val none, m, ht.1, ⟨by rw [hm], rfl⟩, inv_move hI rfl (fun h => by rw [hpc] at h; exact h.elim)⟩)
  | cloneNil hpc hc =>
    rw [hpc] at ht
    have hm := hI.map
    rw [hc] at hm
    refine .inr (.inl ⟨rfl, _, .pairs [], m, ht.1, ⟨⟨[], rfl, AMap.nodupKeys_nil, fun k => ?_⟩, rfl⟩,
      inv_move hI rfl (fun h => by rw [hpc] at h; exact h.elim)⟩)
    rw [hm]; rfl
  | getSome hpc hk hc =>
    rw [hpc] at ht
    exact .inl ⟨rfl, stay ⟨ht.1, hk, by rw [hc]; exact fun e => by cases e⟩ (fun h => by rw [hpc] at h; exact h.elim)⟩
  | @getAgain op p hpc hc =>
    rw [hpc] at ht
    refine .inl ⟨rfl, stay ⟨ht.1, ?_, hc⟩ (fun h => by rw [hpc] at h; exact h.elim)⟩
    cases op with
    | load k => trivial
    | range => trivial
    | _ => exact ht.2.1.elim
  | getPanic hpc hc =>
    rw [hpc] at ht
    exact absurd hc ht.2.2
  | find hpc hm hc =>
    rw [hpc] at ht
    exact .inl ⟨rfl, stay ⟨ht.1, ht.2, hc⟩ (fun h => by rw [hpc] at h; exact h.elim)⟩
  | miss hpc hm hc =>
    rw [hpc] at ht
    exact .inl ⟨rfl, stay ⟨ht.1, ht.2, hm⟩ (fun h => by rw [hpc] at h; exact h.elim)⟩
  | lock hpc hl =>
    rw [hpc] at ht
    refine .inl ⟨rfl, fun t' => ?_, hI.map, fun t' hl' => ?_⟩
    · show Fits _ _ _ (upd s.pc t _ t')
      by_cases e : t' = t
      · subst e; rw [at_same]; exact ⟨ht.1, ht.2.1, ht.2.2, rfl⟩
      · rw [at_ne _ _ e]
        exact fits_keep (hI.fits t') rfl (fun _ h => by rw [hl] at h; cases h) (fun _ _ _ _ h => h)
    · cases hl'
      show Inside (upd s.pc t _ t)
      rw [at_same]; trivial
  | found hpc hc =>
    rw [hpc] at ht
    exact .inl ⟨rfl, stay ⟨ht.1, ht.2.1, ht.2.2.1, ht.2.2.2, hc⟩ (fun _ => trivial)⟩
  | make hpc hc =>
    rw [hpc] at ht
    have hm := hI.map
    rw [hc] at hm
    refine .inl ⟨rfl, fun t' => ?_, ?_, fun t' hl' => ?_⟩
    · show Fits _ _ _ (upd s.pc t _ t')
      by_cases e : t' = t
      · subst e; rw [at_same]
        exact ⟨ht.1, ht.2.1, ht.2.2.1, ht.2.2.2, hc, if_pos rfl⟩
      · rw [at_ne _ _ e]
        refine fits_keep (hI.fits t') rfl (fun _ h => h) (fun op p _ _ h => ?_)
        show upd s.heap s.next [] p = []
        unfold upd
        split
        · rfl
        · exact h
    · show (match s.cur with | none => m = fun _ => none | some p => Lists (upd s.heap s.next [] p) m)
      rw [hc]; exact hm
    · show Inside (upd s.pc t _ t')
      by_cases e : t' = t
      · subst e; rw [at_same]; trivial
      · rw [at_ne _ _ e]; exact hI.held _ hl'
  | @publish op p hpc =>
    rw [hpc] at ht
    obtain ⟨h1, h2, h3, h4, h5, h6⟩ := ht
    have hm := hI.map
    rw [h5] at hm
    refine .inl ⟨rfl, fun t' => ?_, ?_, fun t' hl' => ?_⟩
    · show Fits _ _ _ (upd s.pc t _ t')
      by_cases e : t' = t
      · subst e; rw [at_same]; exact ⟨h1, h2, h3, h4, rfl⟩
      · rw [at_ne _ _ e]
        have hf := hI.fits t'
        have no : s.lock = some t' → False := fun h => e (by rw [h4] at h; cases h; rfl)
        cases hq : s.pc t' with
        | idle => rw [hq] at hf; exact hf
        | start op => rw [hq] at hf; exact hf
        | again op => rw [hq] at hf; exact absurd h5 hf.2.2
        | waiting op => rw [hq] at hf; exact hf
        | locked op => rw [hq] at hf; exact (no hf.2.2.2).elim
        | made op q => rw [hq] at hf; exact (no hf.2.2.2.1).elim
        | unlocking op q => rw [hq] at hf; exact (no hf.2.2.2.1).elim
        | inUse op q => rw [hq] at hf; have hx := hf.2.2; rw [h5] at hx; cases hx
        | returning r => rw [hq] at hf; exact hf
        | panicked => rw [hq] at hf; exact hf
    · show Lists (s.heap p) m
      rw [h6, hm]
      exact ⟨AMap.nodupKeys_nil, fun _ => rfl⟩
    · show Inside (upd s.pc t _ t')
      by_cases e : t' = t
      · subst e; rw [at_same]; trivial
      · rw [at_ne _ _ e]; exact hI.held _ hl'
  | unlock hpc =>
    rw [hpc] at ht
    obtain ⟨h1, h2, h3, h4, h5⟩ := ht
    refine .inl ⟨rfl, fun t' => ?_, hI.map, fun t' hl' => by cases hl'⟩
    show Fits _ _ _ (upd s.pc t _ t')
    by_cases e : t' = t
    · subst e; rw [at_same]; exact ⟨h1, h2, h5⟩
    · rw [at_ne _ _ e]
      refine fits_keep (hI.fits t') rfl (fun hin h => ?_) (fun _ _ _ _ h => h)
      rw [h4] at h; cases h; exact absurd rfl e
  | @use op p r a hpc hu =>
    rw [hpc] at ht
    obtain ⟨h1, h2, h3⟩ := ht
    have hm := hI.map
    rw [h3] at hm
    obtain ⟨m', hl, hL⟩ := use_legal hm hu
    refine .inr (.inl ⟨rfl, op, r, m', h1, hl, fun t' => ?_, ?_, fun t' hl' => ?_⟩)
    · show Fits _ _ _ (upd s.pc t _ t')
      by_cases e : t' = t
      · subst e; rw [at_same, at_same]; rfl
      · rw [at_ne _ _ e, at_ne _ _ e]
        exact fits_keep (hI.fits t') rfl (fun _ h => h) (fun _ _ _ h _ => by rw [h3] at h; cases h)
    · show (match s.cur with | none => m' = fun _ => none | some q => Lists (upd s.heap p a q) m')
      rw [h3]
      show Lists (upd s.heap p a p) m'
      unfold upd
      rw [if_pos rfl]
      exact hL
    · show Inside (upd s.pc t _ t')
      by_cases e : t' = t
      · subst e
        have := hI.held _ hl'
        rw [hpc] at this
        exact this.elim
      · rw [at_ne _ _ e]; exact hI.held _ hl'
  | ret hpc =>
    rw [hpc] at ht
    exact .inr (.inr (.inr ⟨_, rfl, ht, inv_move hI rfl (fun h => by rw [hpc] at h; exact h.elim)⟩))

private theorem visible_append (a b : List (AEvent T K V)) : visible (a ++ b) = visible a ++ visible b := by
  induction a with
  | nil => rfl
  | cons x a ih => cases x with
    | ext e => exact congrArg (e :: ·) ih
    | lin t => exact ih

private theorem att_run {h : List (Event T K V)} {s : Attachments.St T K V} (he : Attachments.Exec h s) :
    ∃ es σ m, Run (fun _ => .idle) (fun _ => none) es σ m ∧ visible es = h ∧ AttInv s σ m := by
  have one : ∀ {h : List (Event T K V)} {s s' : Attachments.St T K V} {t : T} {e : Option (Event T K V)},
      (∃ es σ m, Run (fun _ => .idle) (fun _ => none) es σ m ∧ visible es = h ∧ AttInv s σ m) → Attachments.Step s t e s' →
      ∃ es σ m, Run (fun _ => .idle) (fun _ => none) es σ m ∧ visible es = h ++ e.toList ∧ AttInv s' σ m := by
    intro h s s' t e ⟨es, σ, m, hr, hv, hI⟩ hs
    rcases inv_step hI hs with ⟨e1, h1⟩ | ⟨e1, op, r, m', h1, h2, h3⟩ | ⟨op, e1, h1, h2⟩ | ⟨r, e1, h1, h2⟩
    · subst e1; exact ⟨es, σ, m, hr, by rw [hv]; simp, h1⟩
    · subst e1; exact ⟨_, _, _, hr.lin h1 h2, by rw [visible_append, hv]; simp [visible], h3⟩
    · subst e1; exact ⟨_, _, _, hr.inv h1, by rw [visible_append, hv]; simp [visible], h2⟩
    · subst e1; exact ⟨_, _, _, hr.ret h1, by rw [visible_append, hv]; simp [visible], h2⟩
  induction he with
  | init => exact ⟨[], _, _, .nil, rfl, fun _ => rfl, rfl, fun t h => by cases h⟩
  | step _ hs ih =>
    obtain ⟨es, σ, m, a, b, c⟩ := one ih hs
    exact ⟨es, σ, m, a, by rw [b]; simp, c⟩
  | visible _ hs ih => exact one ih hs

/-- **C111.** Whatever goroutines set, read, delete, list and copy the attachments of a request or response at the same time, and
however they are scheduled, every operation appears to take effect at one instant between its call and its return, on one
ordinary map that is empty at first. So nothing that is set is lost, although the map is made only when it is needed. -/
theorem attachments_linearizable {h : List (Event T K V)} {s : Attachments.St T K V} (he : Attachments.Exec h s) :
    Linearizable h := by
  obtain ⟨es, σ, m, hr, hv, _⟩ := att_run he
  exact ⟨es, σ, m, hr, hv⟩

/-- **C111.** Reading an attachment or cloning a request never meets a nil map, although the field is read twice. -/
theorem attachments_no_panic {h : List (Event T K V)} {s : Attachments.St T K V} (he : Attachments.Exec h s) (t : T) :
    s.pc t ≠ .panicked := by
  obtain ⟨es, σ, m, _, _, hI⟩ := att_run he
  intro e
  have := hI.fits t
  rw [e] at this
  exact this

/-- **C111.** No goroutine is ever stuck: one inside an operation can take a step, or it waits for the mutex and its holder
can take a step. A goroutine that finds the map never waits for the mutex of the request. -/
theorem attachments_progress {h : List (Event T K V)} {s : Attachments.St T K V} (he : Attachments.Exec h s) (t : T)
    (ht : s.pc t ≠ .idle) :
    (∃ e s', Attachments.Step s t e s') ∨
    (∃ op t', s.pc t = .waiting op ∧ s.lock = some t' ∧ ∃ e s', Attachments.Step s t' e s') := by
  obtain ⟨es, σ, m, _, _, hI⟩ := att_run he
  have inside : ∀ t, Inside (s.pc t) → ∃ e s', Attachments.Step s t e s' := by
    intro t hin
    cases hpc : s.pc t with
    | locked op =>
      cases hc : s.cur with
      | none => exact ⟨_, _, .make hpc hc⟩
      | some p => exact ⟨_, _, .found hpc hc⟩
    | made op p => exact ⟨_, _, .publish hpc⟩
    | unlocking op p => exact ⟨_, _, .unlock hpc⟩
    | _ => rw [hpc] at hin; exact hin.elim
  have hf := hI.fits t
  cases hpc : s.pc t with
  | idle => exact absurd hpc ht
  | start op =>
    refine .inl ?_
    rcases (show (∃ k, op = .load k) ∨ Makes op by cases op <;> first | exact .inl ⟨_, rfl⟩ | exact .inr trivial) with ⟨k, e⟩ | hm
    · subst e
      cases hc : s.cur with
      | none => exact ⟨_, _, .getNil hpc hc⟩
      | some p => exact ⟨_, _, .getSome hpc trivial hc⟩
    · cases hc : s.cur with
      | none => exact ⟨_, _, .miss hpc hm hc⟩
      | some p => exact ⟨_, _, .find hpc hm hc⟩
  | again op =>
    refine .inl ?_
    cases hc : s.cur with
    | none => exact ⟨_, _, .getPanic hpc hc⟩
    | some p => exact ⟨_, _, .getAgain hpc hc⟩
  | waiting op =>
    cases hl : s.lock with
    | none => exact .inl ⟨_, _, .lock hpc hl⟩
    | some t' => exact .inr ⟨op, t', rfl, rfl, inside t' (hI.held t' hl)⟩
  | locked op => exact .inl (inside t (by rw [hpc]; trivial))
  | made op p => exact .inl (inside t (by rw [hpc]; trivial))
  | unlocking op p => exact .inl (inside t (by rw [hpc]; trivial))
  | inUse op p =>
    refine .inl ?_
    rw [hpc] at hf
    cases op with
    | load k => exact ⟨_, _, .use hpc .load⟩
    | range => exact ⟨_, _, .use hpc (.range (List.Perm.refl _))⟩
    | len => exact ⟨_, _, .use hpc .len⟩
    | store k v => exact ⟨_, _, .use hpc .store⟩
    | delete k => exact ⟨_, _, .use hpc .delete⟩
    | swap l => exact hf.2.1.elim
    | update k g => exact hf.2.1.elim
  | returning r => exact .inl ⟨_, _, .ret hpc⟩
  | panicked => rw [hpc] at hf; exact hf.elim

/-- Two goroutines find no map at the same time; one makes it, and the values of both are in it. -/
example : ∃ (h : List (Event Bool Nat Nat)) (s : Attachments.St Bool Nat Nat), Attachments.Exec h s ∧
    h.length = 4 ∧ s.pc false = .idle ∧ s.pc true = .idle ∧ s.next = 1 ∧ s.cur = some 0 ∧ s.heap 0 = [(2, 20), (1, 10)] := by
  have e := Attachments.Exec.init (T := Bool) (K := Nat) (V := Nat)
  have e := e.visible (.invoke (t := false) (op := .store 1 10) rfl trivial)
  have e := e.visible (.invoke (t := true) (op := .store 2 20) rfl trivial)
  have e := e.step (.miss (t := false) (op := .store 1 10) rfl trivial rfl)
  have e := e.step (.miss (t := true) (op := .store 2 20) rfl trivial rfl)
  have e := e.step (.lock (t := true) (op := .store 2 20) rfl rfl)
  have e := e.step (.make (t := true) (op := .store 2 20) rfl rfl)
  have e := e.step (.publish (t := true) (op := .store 2 20) (p := 0) rfl)
  have e := e.step (.unlock (t := true) (op := .store 2 20) (p := 0) rfl)
  have e := e.step (.lock (t := false) (op := .store 1 10) rfl rfl)
  have e := e.step (.use (t := true) (op := .store 2 20) (p := 0) rfl .store)
  have e := e.visible (.ret (t := true) rfl)
  have e := e.step (.found (t := false) (op := .store 1 10) (p := 0) rfl rfl)
  have e := e.step (.unlock (t := false) (op := .store 1 10) (p := 0) rfl)
  have e := e.step (.use (t := false) (op := .store 1 10) (p := 0) rfl .store)
  have e := e.visible (.ret (t := false) rfl)
  exact ⟨_, _, e, rfl, rfl, rfl, rfl, rfl, rfl⟩

end Motan.Props
