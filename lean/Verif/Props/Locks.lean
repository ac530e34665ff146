import Verif.Model.Locks

/-!
# C92: operations that run at the same time all finish

Spec: an operation destroys clusters, gives paths up (as the last listener), passes lists and commands on to clusters,
and handles events of paths. Operations do not cross if no cluster is destroyed by one and told something by another, no
path is given up while an event of it is handled, and listeners of switchers watch nothing.
-/

namespace Motan.Props

open Motan.Locks

/-! ## Spec -/

/-- The paths a list of subscriptions gives up. -/
def Spec.lastOf (ds : List Drop) (p : Nat) : Prop := ∃ d ∈ ds, d.path = p ∧ d.last = true

/-- The paths a cluster that is destroyed gives up. -/
def Spec.leaves (vs : List Leave) (p : Nat) : Prop := ∃ v ∈ vs, Spec.lastOf v.own p ∨ Spec.lastOf v.others p

/-- The operation destroys the cluster. -/
def Spec.destroys : Op → Nat → Prop
  | .destroy c _, x => x = c
  | .reload _ gone, x => ∃ n ∈ gone, n.1 = x
  | .httpDestroy _ cs, x => ∃ n ∈ cs, ∃ vs, n.2 = some (x, vs)
  | _, _ => False

/-- The operation gives up the path as its last listener. -/
def Spec.gives : Op → Nat → Prop
  | .commandEvent _ _ ls, p => ∃ l ∈ ls, Spec.lastOf l.change.gone p
  | .agentCommand _ ks, p => ∃ k ∈ ks, Spec.lastOf k.2.1.gone p
  | .create _ js, p => ∃ j ∈ js, Spec.lastOf j.change.gone p
  | .destroy _ vs, p => Spec.leaves vs p
  | .reload new gone, p =>
    (∃ n ∈ new, ∃ j ∈ n.2, Spec.lastOf j.change.gone p) ∨ ∃ n ∈ gone, Spec.leaves n.2 p
  | .dynSubscribe cs, p => ∃ n ∈ cs, ∃ j ∈ n.2, Spec.lastOf j.change.gone p
  | .httpCall _ _ _ c, p => ∃ n, c = some n ∧ ∃ j ∈ n.2, Spec.lastOf j.change.gone p
  | .httpDestroy _ cs, p => ∃ n ∈ cs, ∃ m, n.2 = some m ∧ Spec.leaves m.2 p
  | _, _ => False

/-- The operation tells the cluster of a list or a command. -/
def Spec.tells : Op → Nat → Prop
  | .serverEvent _ _ ls, x => ∃ l ∈ ls, l.cluster = x
  | .commandEvent _ _ ls, x => ∃ l ∈ ls, l.cluster = x
  | .agentCommand c _, x => x = c
  | _, _ => False

/-- The operation handles an event of the path. -/
def Spec.handles : Op → Nat → Prop
  | .serverEvent _ p _, x => x = p
  | .commandEvent _ p _, x => x = p
  | _, _ => False

/-- The operations do not get in each other's way. -/
def Spec.NoCrossing (ops : List Op) : Prop :=
  (∀ a ∈ ops, ∀ b ∈ ops, ∀ c, Spec.destroys a c → ¬ Spec.tells b c) ∧
  (∀ a ∈ ops, ∀ b ∈ ops, ∀ p, Spec.gives a p → ¬ Spec.handles b p) ∧
  ∀ n ws, Op.switchTell n ws ∈ ops → ws = []

/-- All operations are done. -/
def Spec.AllDone (s : St) : Prop := ∀ i, s.todo i = []

/-- Goroutine `i` is not done, whatever happens from here. -/
def Spec.Never (s : St) (i : Nat) : Prop := ∀ is t, run s is = some t → t.todo i ≠ []

/-! ## Order -/

/-- The locks are taken in the order of their ranks. -/
def Ordered (rank : Lock → Nat) : Nat → Code → Prop
  | _, .skip => True
  | n, .seq a b => Ordered rank n a ∧ Ordered rank n b
  | n, .hold l b => n ≤ rank l ∧ Ordered rank (rank l + 1) b
  | n, .share l b => n ≤ rank l ∧ Ordered rank (rank l + 1) b

/-- How a lock is held. -/
inductive Hold
  | wait (l : Lock)
  | excl (l : Lock)
  | shared (l : Lock)
deriving DecidableEq

/-- The lock. -/
def Hold.lock : Hold → Lock
  | .wait l => l
  | .excl l => l
  | .shared l => l

/-- What is still to be done fits what is held. -/
def Fits (rank : Lock → Nat) : List Hold → List Act → Prop
  | st, [] => st = []
  | st, .ask l :: r => (∀ h ∈ st, rank h.lock < rank l) ∧ Fits rank (.wait l :: st) r
  | st, .drain l :: r => ∃ st', st = .wait l :: st' ∧ Fits rank (.excl l :: st') r
  | st, .unlock l :: r => ∃ st', st = .excl l :: st' ∧ Fits rank st' r
  | st, .rlock l :: r => (∀ h ∈ st, rank h.lock < rank l) ∧ Fits rank (.shared l :: st) r
  | st, .runlock l :: r => ∃ st', st = .shared l :: st' ∧ Fits rank st' r

theorem fits_acts (rank : Lock → Nat) (c : Code) : ∀ (n : Nat) (st : List Hold) (r : List Act), Ordered rank n c →
    (∀ h ∈ st, rank h.lock < n) → Fits rank st r → Fits rank st (acts c ++ r) := by
  induction c with
  | skip => intro n st r _ _ hr; exact hr
  | seq a b iha ihb =>
    intro n st r ho hst hr
    simp only [acts, List.append_assoc]
    exact iha n st _ ho.1 hst (ihb n st r ho.2 hst hr)
  | hold l b ih =>
    intro n st r ho hst hr
    have hlt : ∀ h ∈ st, rank h.lock < rank l := fun h hm => Nat.lt_of_lt_of_le (hst h hm) ho.1
    simp only [acts, List.cons_append, List.append_assoc, List.nil_append, Fits]
    refine ⟨hlt, st, rfl, ih _ _ _ ho.2 ?_ ⟨st, rfl, hr⟩⟩
    intro h hm
    rcases List.mem_cons.1 hm with rfl | hm
    · exact Nat.lt_succ_self _
    · exact Nat.lt_succ_of_lt (hlt h hm)
  | share l b ih =>
    intro n st r ho hst hr
    have hlt : ∀ h ∈ st, rank h.lock < rank l := fun h hm => Nat.lt_of_lt_of_le (hst h hm) ho.1
    simp only [acts, List.cons_append, List.append_assoc, List.nil_append, Fits]
    refine ⟨hlt, ih _ _ _ ho.2 ?_ ⟨st, rfl, hr⟩⟩
    intro h hm
    rcases List.mem_cons.1 hm with rfl | hm
    · exact Nat.lt_succ_self _
    · exact Nat.lt_succ_of_lt (hlt h hm)

/-- The ranks in a stack are all different: a lock is held once. -/
def Strict (rank : Lock → Nat) : List Hold → Prop
  | [] => True
  | h :: st => (∀ k ∈ st, rank k.lock < rank h.lock) ∧ Strict rank st

/-- What is held and what is still to be done, of every goroutine. -/
structure LkInv (rank : Lock → Nat) (s : St) (st : Nat → List Hold) : Prop where
  fits : ∀ i, Fits rank (st i) (s.todo i)
  strict : ∀ i, Strict rank (st i)
  writer : ∀ l i, s.writer l = some i ↔ (.wait l ∈ st i ∨ .excl l ∈ st i)
  readers : ∀ l i, i ∈ s.readers l ↔ .shared l ∈ st i
  nodup : ∀ l, (s.readers l).Nodup

theorem lupd_same {α β : Type} [DecidableEq α] (f : α → β) (a : α) (b : β) : Locks.upd f a b a = b := by simp [Locks.upd]

theorem lupd_ne {α β : Type} [DecidableEq α] (f : α → β) {a x : α} (b : β) (h : x ≠ a) : Locks.upd f a b x = f x := by
  simp [Locks.upd, h]

theorem strict_notMem {rank : Lock → Nat} {st : List Hold} {l : Lock} (h : ∀ k ∈ st, rank k.lock < rank l) (k : Hold)
    (hk : k.lock = l) : k ∉ st := by
  intro hm
  have := h k hm
  rw [hk] at this
  exact Nat.lt_irrefl _ this

theorem LkInv.step {rank : Lock → Nat} {s t : St} {st : Nat → List Hold} (hI : LkInv rank s st) {i : Nat}
    (hs : step s i = some t) : ∃ st', LkInv rank t st' := by
  have hf := hI.fits i
  have hst := hI.strict i
  unfold Locks.step at hs
  split at hs
  · cases hs
  · rename_i l r heq
    rw [heq] at hf
    obtain ⟨hlt, hf⟩ := hf
    split at hs
    · rename_i hw
      cases hs
      refine ⟨Locks.upd st i (.wait l :: st i), ?_, ?_, ?_, ?_, hI.nodup⟩
      · intro j
        by_cases hj : j = i
        · subst hj; simp only [lupd_same]; exact hf
        · simp only [lupd_ne _ _ hj]; exact hI.fits j
      · intro j
        by_cases hj : j = i
        · subst hj; simp only [lupd_same]; exact ⟨hlt, hst⟩
        · simp only [lupd_ne _ _ hj]; exact hI.strict j
      · intro m j
        have hno : ∀ j, ¬ (Hold.wait l ∈ st j ∨ Hold.excl l ∈ st j) := by
          intro j hh
          have := (hI.writer l j).2 hh
          rw [hw] at this; cases this
        by_cases hm : m = l
        · subst hm
          simp only [lupd_same]
          by_cases hj : j = i
          · subst hj; simp [lupd_same]
          · rw [lupd_ne _ _ hj]
            constructor
            · intro h; cases h; exact absurd rfl hj
            · intro h; exact absurd h (hno j)
        · simp only [lupd_ne _ _ hm]
          rw [hI.writer m j]
          by_cases hj : j = i
          · subst hj; simp [lupd_same, hm]
          · rw [lupd_ne _ _ hj]
      · intro m j
        rw [hI.readers m j]
        by_cases hj : j = i
        · subst hj; simp [lupd_same]
        · rw [lupd_ne _ _ hj]
    · cases hs
  · rename_i l r heq
    rw [heq] at hf
    obtain ⟨st0, hst0, hf⟩ := hf
    split at hs
    · cases hs
      rw [hst0] at hst
      refine ⟨Locks.upd st i (.excl l :: st0), ?_, ?_, ?_, ?_, hI.nodup⟩
      · intro j
        by_cases hj : j = i
        · subst hj; simp only [lupd_same]; exact hf
        · simp only [lupd_ne _ _ hj]; exact hI.fits j
      · intro j
        by_cases hj : j = i
        · subst hj; simp only [lupd_same]; exact ⟨hst.1, hst.2⟩
        · simp only [lupd_ne _ _ hj]; exact hI.strict j
      · intro m j
        rw [hI.writer m j]
        by_cases hj : j = i
        · subst hj
          rw [hst0]
          simp only [lupd_same, List.mem_cons, Hold.wait.injEq, Hold.excl.injEq]
          grind
        · rw [lupd_ne _ _ hj]
      · intro m j
        rw [hI.readers m j]
        by_cases hj : j = i
        · subst hj; rw [hst0]; simp [lupd_same]
        · rw [lupd_ne _ _ hj]
    · cases hs
  · rename_i l r heq
    rw [heq] at hf
    obtain ⟨st0, hst0, hf⟩ := hf
    have hwi : s.writer l = some i := (hI.writer l i).2 (by rw [hst0]; simp)
    rw [if_pos hwi] at hs
    cases hs
    rw [hst0] at hst
    refine ⟨Locks.upd st i st0, ?_, ?_, ?_, ?_, hI.nodup⟩
    · intro j
      by_cases hj : j = i
      · subst hj; simp only [lupd_same]; exact hf
      · simp only [lupd_ne _ _ hj]; exact hI.fits j
    · intro j
      by_cases hj : j = i
      · subst hj; simp only [lupd_same]; exact hst.2
      · simp only [lupd_ne _ _ hj]; exact hI.strict j
    · have hw : s.writer l = some i := (hI.writer l i).2 (by rw [hst0]; simp)
      intro m j
      by_cases hm : m = l
      · subst hm
        simp only [lupd_same]
        constructor
        · intro h; cases h
        · intro h
          by_cases hj : j = i
          · subst hj
            simp only [lupd_same] at h
            rcases h with h | h
            · exact absurd h (strict_notMem hst.1 _ rfl)
            · exact absurd h (strict_notMem hst.1 _ rfl)
          · rw [lupd_ne _ _ hj] at h
            have := (hI.writer m j).2 h
            rw [hw] at this
            cases this
            exact absurd rfl hj
      · simp only [lupd_ne _ _ hm]
        rw [hI.writer m j]
        by_cases hj : j = i
        · subst hj; rw [hst0]; simp [lupd_same, hm]
        · rw [lupd_ne _ _ hj]
    · intro m j
      rw [hI.readers m j]
      by_cases hj : j = i
      · subst hj; rw [hst0]; simp [lupd_same]
      · rw [lupd_ne _ _ hj]
  · rename_i l r heq
    rw [heq] at hf
    obtain ⟨hlt, hf⟩ := hf
    split at hs
    · cases hs
      have hno : i ∉ s.readers l := fun h => strict_notMem hlt _ rfl ((hI.readers l i).1 h)
      refine ⟨Locks.upd st i (.shared l :: st i), ?_, ?_, ?_, ?_, ?_⟩
      · intro j
        by_cases hj : j = i
        · subst hj; simp only [lupd_same]; exact hf
        · simp only [lupd_ne _ _ hj]; exact hI.fits j
      · intro j
        by_cases hj : j = i
        · subst hj; simp only [lupd_same]; exact ⟨hlt, hst⟩
        · simp only [lupd_ne _ _ hj]; exact hI.strict j
      · intro m j
        rw [hI.writer m j]
        by_cases hj : j = i
        · subst hj; simp [lupd_same]
        · rw [lupd_ne _ _ hj]
      · intro m j
        by_cases hm : m = l
        · subst hm
          simp only [lupd_same, List.mem_cons]
          rw [hI.readers m j]
          by_cases hj : j = i
          · subst hj; simp [lupd_same]
          · rw [lupd_ne _ _ hj]; simp [hj]
        · simp only [lupd_ne _ _ hm]
          rw [hI.readers m j]
          by_cases hj : j = i
          · subst hj; simp [lupd_same, hm]
          · rw [lupd_ne _ _ hj]
      · intro m
        by_cases hm : m = l
        · subst hm; simp only [lupd_same]; exact List.nodup_cons.2 ⟨hno, hI.nodup m⟩
        · simp only [lupd_ne _ _ hm]; exact hI.nodup m
    · cases hs
  · rename_i l r heq
    rw [heq] at hf
    obtain ⟨st0, hst0, hf⟩ := hf
    cases hs
    rw [hst0] at hst
    refine ⟨Locks.upd st i st0, ?_, ?_, ?_, ?_, ?_⟩
    · intro j
      by_cases hj : j = i
      · subst hj; simp only [lupd_same]; exact hf
      · simp only [lupd_ne _ _ hj]; exact hI.fits j
    · intro j
      by_cases hj : j = i
      · subst hj; simp only [lupd_same]; exact hst.2
      · simp only [lupd_ne _ _ hj]; exact hI.strict j
    · intro m j
      rw [hI.writer m j]
      by_cases hj : j = i
      · subst hj; rw [hst0]; simp [lupd_same]
      · rw [lupd_ne _ _ hj]
    · intro m j
      by_cases hm : m = l
      · subst hm
        simp only [lupd_same]
        rw [(hI.nodup m).mem_erase_iff, hI.readers m j]
        by_cases hj : j = i
        · subst hj
          simp only [lupd_same, ne_eq, not_true_eq_false, false_and, false_iff]
          exact strict_notMem hst.1 _ rfl
        · rw [lupd_ne _ _ hj]; simp [hj]
      · simp only [lupd_ne _ _ hm]
        rw [hI.readers m j]
        by_cases hj : j = i
        · subst hj; rw [hst0]; simp [lupd_same, hm]
        · rw [lupd_ne _ _ hj]
    · intro m
      by_cases hm : m = l
      · subst hm; simp only [lupd_same]; exact (hI.nodup m).erase _
      · simp only [lupd_ne _ _ hm]; exact hI.nodup m

/-- What a step waits for: the rank, and whether it waits for readers. -/
def waitsFor (rank : Lock → Nat) : Act → Nat
  | .ask l => 2 * rank l
  | .rlock l => 2 * rank l
  | .drain l => 2 * rank l + 1
  | _ => 0

theorem LkInv.blocked {rank : Lock → Nat} {s : St} {st : Nat → List Hold} (hI : LkInv rank s st) {j : Nat} {h : Hold}
    (hm : h ∈ st j) (hb : Locks.step s j = none) :
    ∃ a r, s.todo j = a :: r ∧ 2 * rank h.lock < waitsFor rank a ∧
      (∀ l, h = .shared l → 2 * rank l + 1 < waitsFor rank a) := by
  have hf := hI.fits j
  have hst := hI.strict j
  cases htd : s.todo j with
  | nil => rw [htd] at hf; rw [hf] at hm; cases hm
  | cons a r =>
    rw [htd] at hf
    refine ⟨a, r, rfl, ?_⟩
    cases a with
    | ask l =>
      have := hf.1 h hm
      refine ⟨by simp only [waitsFor]; omega, fun k hk => ?_⟩
      subst hk
      simp only [Hold.lock, waitsFor] at *
      omega
    | rlock l =>
      have := hf.1 h hm
      refine ⟨by simp only [waitsFor]; omega, fun k hk => ?_⟩
      subst hk
      simp only [Hold.lock, waitsFor] at *
      omega
    | drain l =>
      obtain ⟨st0, hst0, _⟩ := hf
      rw [hst0] at hst hm
      rcases List.mem_cons.1 hm with rfl | hm
      · exact ⟨by simp only [Hold.lock, waitsFor]; omega, fun k hk => by cases hk⟩
      · have := hst.1 h hm
        refine ⟨by simp only [Hold.lock, waitsFor] at *; omega, fun k hk => ?_⟩
        subst hk
        simp only [Hold.lock, waitsFor] at *
        omega
    | unlock l =>
      obtain ⟨st0, hst0, _⟩ := hf
      have hwj : s.writer l = some j := (hI.writer l j).2 (by rw [hst0]; simp)
      simp [Locks.step, htd, hwj] at hb
    | runlock l => simp [Locks.step, htd] at hb

theorem LkInv.chain {rank : Lock → Nat} {s : St} {st : Nat → List Hold} (hI : LkInv rank s st)
    (hb : ∀ j, Locks.step s j = none) {i : Nat} {a : Act} {r : List Act} (ha : s.todo i = a :: r) :
    ∃ j a' r', s.todo j = a' :: r' ∧ waitsFor rank a < waitsFor rank a' := by
  have hbi := hb i
  unfold Locks.step at hbi
  rw [ha] at hbi
  have key : ∀ l, s.writer l ≠ none → ∃ j a' r', s.todo j = a' :: r' ∧ 2 * rank l < waitsFor rank a' := by
    intro l hw
    cases hw' : s.writer l with
    | none => exact absurd hw' hw
    | some j =>
      rcases (hI.writer l j).1 hw' with h | h
      · obtain ⟨a', r', h1, h2, _⟩ := hI.blocked h (hb j)
        exact ⟨j, a', r', h1, h2⟩
      · obtain ⟨a', r', h1, h2, _⟩ := hI.blocked h (hb j)
        exact ⟨j, a', r', h1, h2⟩
  cases a with
  | ask l =>
    simp only at hbi
    split at hbi
    · cases hbi
    · rename_i hw; exact key l hw
  | rlock l =>
    simp only at hbi
    split at hbi
    · cases hbi
    · rename_i hw; exact key l hw
  | drain l =>
    simp only at hbi
    split at hbi
    · cases hbi
    · rename_i hw
      cases hrd : s.readers l with
      | nil => exact absurd hrd hw
      | cons j js =>
        have hj : Hold.shared l ∈ st j := (hI.readers l j).1 (by rw [hrd]; simp)
        obtain ⟨a', r', h1, _, h3⟩ := hI.blocked hj (hb j)
        exact ⟨j, a', r', h1, h3 l rfl⟩
  | unlock l =>
    have hf := hI.fits i
    rw [ha] at hf
    obtain ⟨st0, hst0, _⟩ := hf
    have hwi : s.writer l = some i := (hI.writer l i).2 (by rw [hst0]; simp)
    simp [hwi] at hbi
  | runlock l => simp at hbi

theorem LkInv.progress {rank : Lock → Nat} {B : Nat} (hB : ∀ l, rank l ≤ B) {s : St} {st : Nat → List Hold}
    (hI : LkInv rank s st) (hb : ∀ j, Locks.step s j = none) (i : Nat) : s.todo i = [] := by
  have hw : ∀ a, waitsFor rank a ≤ 2 * B + 1 := by
    intro a
    cases a with
    | ask l => have := hB l; simp only [waitsFor]; omega
    | rlock l => have := hB l; simp only [waitsFor]; omega
    | drain l => have := hB l; simp only [waitsFor]; omega
    | unlock l => simp [waitsFor]
    | runlock l => simp [waitsFor]
  have key : ∀ n (i : Nat) (a : Act) (r : List Act), s.todo i = a :: r → 2 * B + 1 - waitsFor rank a = n → False := by
    intro n
    induction n using Nat.strongRecOn with
    | ind n ih =>
      intro i a r ha hn
      obtain ⟨j, a', r', h1, h2⟩ := hI.chain hb ha
      have := hw a'
      exact ih (2 * B + 1 - waitsFor rank a') (by omega) j a' r' h1 rfl
  cases h : s.todo i with
  | nil => rfl
  | cons a r => exact (key _ i a r h rfl).elim

/-! ## All finish -/

/-- What is left of the first `n` goroutines. -/
def left (s : St) : Nat → Nat
  | 0 => 0
  | n + 1 => left s n + (s.todo n).length

theorem step_todo {s t : St} {i : Nat} (hs : Locks.step s i = some t) :
    ∃ a, s.todo i = a :: t.todo i ∧ ∀ j, j ≠ i → t.todo j = s.todo j := by
  unfold Locks.step at hs
  split at hs
  · cases hs
  · rename_i l r heq
    split at hs
    · cases hs
      exact ⟨.ask l, by rw [heq]; simp only [lupd_same], fun j hj => lupd_ne _ _ hj⟩
    · cases hs
  · rename_i l r heq
    split at hs
    · cases hs
      exact ⟨.drain l, by rw [heq]; simp only [lupd_same], fun j hj => lupd_ne _ _ hj⟩
    · cases hs
  · rename_i l r heq
    split at hs
    · cases hs
      exact ⟨.unlock l, by rw [heq]; simp only [lupd_same], fun j hj => lupd_ne _ _ hj⟩
    · cases hs
  · rename_i l r heq
    split at hs
    · cases hs
      exact ⟨.rlock l, by rw [heq]; simp only [lupd_same], fun j hj => lupd_ne _ _ hj⟩
    · cases hs
  · rename_i l r heq
    cases hs
    exact ⟨.runlock l, by rw [heq]; simp only [lupd_same], fun j hj => lupd_ne _ _ hj⟩

theorem left_step {s t : St} {i : Nat} (hs : Locks.step s i = some t) : ∀ n,
    left s n = left t n + if i < n then 1 else 0 := by
  obtain ⟨a, h1, h2⟩ := step_todo hs
  intro n
  induction n with
  | zero => rfl
  | succ n ih =>
    simp only [left, ih]
    by_cases hn : n = i
    · subst hn
      rw [h1]
      simp
      omega
    · rw [h2 n hn]
      have : (i < n + 1) ↔ (i < n) := by omega
      simp only [this]
      omega

theorem lkRun_append (s : St) (a b : List Nat) : run s (a ++ b) = (run s a).bind fun t => run t b := by
  induction a generalizing s with
  | nil => rfl
  | cons i is ih =>
    simp only [List.cons_append, run]
    cases step s i with
    | none => rfl
    | some t => exact ih t

theorem lkRun_inv {rank : Lock → Nat} : ∀ (is : List Nat) {s t : St} {st : Nat → List Hold}, LkInv rank s st →
    run s is = some t → ∃ st', LkInv rank t st' := by
  intro is
  induction is with
  | nil => intro s t st hI h; cases h; exact ⟨st, hI⟩
  | cons i is ih =>
    intro s t st hI h
    simp only [run] at h
    cases hs : Locks.step s i with
    | none => rw [hs] at h; cases h
    | some u =>
      rw [hs] at h
      obtain ⟨st', hI'⟩ := hI.step hs
      exact ih hI' h

/-- Nothing is beyond the first `n` goroutines. -/
def Within (n : Nat) (s : St) : Prop := ∀ i, n ≤ i → s.todo i = []

theorem run_left {n : Nat} : ∀ (is : List Nat) {s t : St}, Within n s → run s is = some t →
    Within n t ∧ left s n = left t n + is.length := by
  intro is
  induction is with
  | nil => intro s t hw h; cases h; exact ⟨hw, rfl⟩
  | cons i is ih =>
    intro s t hw h
    simp only [run] at h
    cases hs : Locks.step s i with
    | none => rw [hs] at h; cases h
    | some u =>
      rw [hs] at h
      obtain ⟨a, h1, h2⟩ := step_todo hs
      have hin : i < n := by
        by_cases hin : i < n
        · exact hin
        · rw [hw i (by omega)] at h1; cases h1
      have hwu : Within n u := by
        intro j hj
        rw [h2 j (by omega)]
        exact hw j hj
      obtain ⟨h3, h4⟩ := ih hwu h
      refine ⟨h3, ?_⟩
      rw [left_step hs n, h4]
      simp only [hin, if_true, List.length_cons]
      omega

theorem finish {rank : Lock → Nat} {B n : Nat} (hB : ∀ l, rank l ≤ B) : ∀ (k : Nat) {s : St} {st : Nat → List Hold},
    LkInv rank s st → Within n s → left s n = k → ∃ js u, run s js = some u ∧ Spec.AllDone u := by
  intro k
  induction k with
  | zero =>
    intro s st hI hw hk
    refine ⟨[], s, rfl, ?_⟩
    apply hI.progress hB
    intro j
    cases hs : Locks.step s j with
    | none => rfl
    | some t =>
      exfalso
      have := (run_left [j] hw (t := t) (by simp [run, hs])).2
      simp at this
      omega
  | succ k ih =>
    intro s st hI hw hk
    by_cases hex : ∃ j t, Locks.step s j = some t
    · obtain ⟨j, t, hs⟩ := hex
      obtain ⟨st', hI'⟩ := hI.step hs
      have hr : run s [j] = some t := by simp [run, hs]
      obtain ⟨hw', hl⟩ := run_left [j] hw hr
      obtain ⟨js, u, h1, h2⟩ := ih hI' hw' (by simp at hl; omega)
      exact ⟨j :: js, u, by simp [run, hs, h1], h2⟩
    · refine ⟨[], s, rfl, ?_⟩
      apply hI.progress hB
      intro j
      cases hs : Locks.step s j with
      | none => rfl
      | some t => exact absurd ⟨j, t, hs⟩ hex

theorem lkStart_inv {rank : Lock → Nat} {ops : List Op} (h : ∀ op ∈ ops, Ordered rank 0 (code op)) :
    LkInv rank (start ops) fun _ => [] := by
  refine ⟨?_, fun _ => trivial, ?_, ?_, fun _ => List.nodup_nil⟩
  · intro i
    simp only [start]
    cases hi : ops[i]? with
    | none => rfl
    | some op =>
      have := fits_acts rank (code op) 0 [] [] (h op (List.mem_of_getElem? hi)) (by simp) rfl
      simpa using this
  · intro l i; simp [start]
  · intro l i; simp [start]

theorem start_within (ops : List Op) : Within ops.length (start ops) := by
  intro i hi
  simp only [start]
  rw [List.getElem?_eq_none hi]

/-! ## The order of the locks of the code -/

open Classical in
/-- The ranks, given the clusters that are destroyed and the paths that are given up. -/
noncomputable def rankOf (D G : Nat → Prop) : Lock → Nat
  | .dynSave => 0
  | .dynReg => 1
  | .dynSub => 2
  | .svc => 3
  | .agentReg => 3
  | .cls => 4
  | .http _ => 5
  | .holder _ _ => 6
  | .exporter _ => 7
  | .watch p => if G p then 26 else 10
  | .newReg => 16
  | .notify c => if D c then 18 else 30
  | .mux _ _ => 20
  | .regs _ => 24
  | .sub _ => 24
  | .snap => 28
  | .lbAll => 32
  | .lbRef _ _ => 33
  | .lbSel _ _ => 34
  | .cmdRec _ _ => 40
  | .ntfRec _ _ => 40
  | .switchers => 40
  | .listeners _ => 41
  | .cow _ => 45

theorem rankOf_le (D G : Nat → Prop) (l : Lock) : rankOf D G l ≤ 45 := by
  cases l <;> simp only [rankOf] <;> (try split) <;> omega

theorem Ordered.mono {rank : Lock → Nat} {c : Code} : ∀ {n m : Nat}, m ≤ n → Ordered rank n c → Ordered rank m c := by
  induction c with
  | skip => intros; trivial
  | seq a b iha ihb => intro n m h ho; exact ⟨iha h ho.1, ihb h ho.2⟩
  | hold l b _ => intro n m h ho; exact ⟨Nat.le_trans h ho.1, ho.2⟩
  | share l b _ => intro n m h ho; exact ⟨Nat.le_trans h ho.1, ho.2⟩

theorem ordered_all {rank : Lock → Nat} {n : Nat} {cs : List Code} : Ordered rank n (all cs) ↔ ∀ c ∈ cs, Ordered rank n c := by
  induction cs with
  | nil => simp [all, Ordered]
  | cons c cs ih => simp [all, Ordered, ih]

theorem ordered_onlyIf {rank : Lock → Nat} {n : Nat} {b : Bool} {c : Code} (h : b = true → Ordered rank n c) :
    Ordered rank n (onlyIf b c) := by
  cases b with
  | false => trivial
  | true => exact h rfl

variable {D G : Nat → Prop}

theorem ordered_snapshot {n : Nat} (hn : n ≤ 28) : Ordered (rankOf D G) n saveSnapshot := ⟨hn, trivial⟩

theorem ordered_zkSubscribe {n : Nat} (hn : n ≤ 24) (r : Nat) : Ordered (rankOf D G) n (zkSubscribe r) := ⟨hn, trivial⟩

theorem ordered_zkDiscover {n : Nat} (hn : n ≤ 24) (r : Nat) : Ordered (rankOf D G) n (zkDiscover r) :=
  ⟨hn, ordered_snapshot (by simp [rankOf])⟩

theorem ordered_newSubscribe {n : Nat} (hn : n ≤ 24) (r : Nat) : Ordered (rankOf D G) n (newSubscribe r) :=
  ⟨ordered_zkSubscribe hn r, ordered_zkDiscover hn r⟩

theorem ordered_unsubscribe {n : Nat} (hn : n ≤ 24) (r : Nat) (d : Drop) (hd : d.last = true → G d.path) :
    Ordered (rankOf D G) n (zkUnsubscribe r d) := by
  refine ⟨hn, ordered_onlyIf fun h => ⟨?_, trivial⟩⟩
  simp only [rankOf, if_pos (hd h)]
  omega

theorem ordered_unsubscribes {n : Nat} (hn : n ≤ 24) (r : Nat) (ds : List Drop) (hd : ∀ p, Spec.lastOf ds p → G p) :
    Ordered (rankOf D G) n (all (ds.map (zkUnsubscribe r))) := by
  rw [ordered_all]
  intro c hc
  obtain ⟨d, hdm, rfl⟩ := List.mem_map.1 hc
  exact ordered_unsubscribe hn r d fun h => hd _ ⟨d, hdm, rfl, h⟩

theorem ordered_weight {n : Nat} (hn : n ≤ 33) (c g : Nat) : Ordered (rankOf D G) n (notifyWeight c g) := by
  refine ⟨hn, ⟨?_, trivial⟩, ⟨?_, trivial⟩⟩ <;> simp [rankOf]

theorem ordered_refresh {n : Nat} (hn : n ≤ 32) (c : Nat) (b : Lb) : Ordered (rankOf D G) n (onRefresh c b) := by
  unfold onRefresh
  split
  · exact ordered_onlyIf fun _ => ordered_weight (by omega) c 0
  · refine ⟨hn, ?_⟩
    rw [ordered_all]
    intro x hx
    obtain ⟨g, _, rfl⟩ := List.mem_map.1 hx
    exact ordered_onlyIf fun _ => ordered_weight (by simp [rankOf]) c _

theorem ordered_notify {n c : Nat} (hn : n ≤ 18 ∨ (¬ D c ∧ n ≤ 30)) (b : Option Lb) :
    Ordered (rankOf D G) n (clusterNotify c b) := by
  refine ⟨?_, ?_⟩
  · simp only [rankOf]
    split
    · rename_i h
      rcases hn with hn | hn
      · exact hn
      · exact absurd h hn.1
    · omega
  · cases b with
    | none => trivial
    | some b =>
      refine ordered_refresh ?_ c b
      simp only [rankOf]
      split <;> omega

theorem ordered_subscribes {n : Nat} (hn : n ≤ 24) (r k : Nat) :
    Ordered (rankOf D G) n (all (List.replicate k (newSubscribe r))) := by
  rw [ordered_all]
  intro c hc
  rw [List.eq_of_mem_replicate hc]
  exact ordered_newSubscribe hn r

theorem ordered_result {n c : Nat} (hn : n ≤ 20) (r : Nat) (w : Work) (hw : w.tell = true → ¬ D c) :
    Ordered (rankOf D G) n (getResult c r w) := by
  refine ⟨hn, ordered_subscribes (by simp [rankOf]) r _, ordered_onlyIf fun h => ⟨?_, ?_, trivial⟩⟩
  · exact ordered_notify (Or.inr ⟨hw h, by simp [rankOf]⟩) _
  · simp [rankOf]

theorem ordered_command {n c : Nat} (hn : n ≤ 20) (r : Nat) (k : Change) (hk : ∀ p, Spec.lastOf k.gone p → G p) :
    Ordered (rankOf D G) n (processCommand c r k) := by
  refine ⟨⟨by simp only [rankOf]; omega, trivial⟩, hn, ordered_onlyIf fun _ => ⟨?_, ?_, ?_⟩⟩
  · exact ordered_subscribes (by simp [rankOf]) r _
  · exact ordered_unsubscribes (by simp [rankOf]) r _ hk
  · rw [ordered_all]
    intro x hx
    rw [List.eq_of_mem_replicate hx]
    exact ⟨by simp [rankOf], trivial⟩

theorem ordered_notifyCommand {n c : Nat} (hn : n ≤ 20) (r : Nat) (k : Change) (w : Option Work)
    (hk : ∀ p, Spec.lastOf k.gone p → G p) (hc : ¬ D c) : Ordered (rankOf D G) n (notifyCommand c r k w) := by
  refine ⟨ordered_command hn r k hk, ?_⟩
  cases w with
  | none => trivial
  | some w => exact ordered_result hn r w fun _ => hc

theorem ordered_new {n : Nat} (hn : n ≤ 16) (c : Nat) (js : List Join)
    (hj : ∀ j ∈ js, ∀ p, Spec.lastOf j.change.gone p → G p) : Ordered (rankOf D G) n (newCluster c js) := by
  unfold newCluster
  rw [ordered_all]
  intro x hx
  obtain ⟨j, hjm, rfl⟩ := List.mem_map.1 hx
  unfold joinRegistry
  rw [ordered_all]
  intro y hy
  simp only [List.mem_cons, List.not_mem_nil, or_false] at hy
  rcases hy with rfl | rfl | rfl | rfl | rfl | rfl | rfl
  · exact ⟨hn, trivial⟩
  · exact ordered_zkSubscribe (by omega) _
  · exact ordered_zkSubscribe (by omega) _
  · exact ordered_zkDiscover (by omega) _
  · exact ordered_command (by omega) _ _ (hj j hjm)
  · exact ordered_result (by omega) _ _ fun h => by cases h
  · exact ordered_notify (Or.inl (by omega)) _

theorem ordered_destroy {n : Nat} (hn : n ≤ 18) (c : Nat) (vs : List Leave) (hD : D c) (hG : ∀ p, Spec.leaves vs p → G p) :
    Ordered (rankOf D G) n (destroyCluster c vs) := by
  refine ⟨by simp only [rankOf, if_pos hD]; exact hn, ?_⟩
  rw [ordered_all]
  intro x hx
  obtain ⟨v, hv, rfl⟩ := List.mem_map.1 hx
  have hr : rankOf D G (.notify c) + 1 = 19 := by simp only [rankOf, if_pos hD]
  rw [hr]
  refine ⟨?_, ?_, ?_⟩
  · exact ordered_unsubscribes (by omega) _ _ fun p hp => hG p ⟨v, hv, Or.inl hp⟩
  · simp [rankOf]
  · exact ordered_unsubscribes (by simp [rankOf]) _ _ fun p hp => hG p ⟨v, hv, Or.inr hp⟩

theorem ordered_saveDynamic : Ordered (rankOf D G) 0 saveDynamic := by simp [saveDynamic, Ordered, rankOf]

theorem ordered_op (op : Op) (hD : ∀ c, Spec.destroys op c → D c) (hT : ∀ c, Spec.tells op c → ¬ D c)
    (hG : ∀ p, Spec.gives op p → G p) (hH : ∀ p, Spec.handles op p → ¬ G p)
    (hS : ∀ n ws, op = .switchTell n ws → ws = []) : Ordered (rankOf D G) 0 (code op) := by
  cases op with
  | serverEvent r p ls =>
    have hp : rankOf D G (.watch p) = 10 := by simp only [rankOf, if_neg (hH p rfl)]
    refine ⟨Nat.zero_le _, ?_⟩
    rw [hp]
    refine ⟨ordered_snapshot (by omega), ?_⟩
    rw [ordered_all]
    intro x hx
    obtain ⟨l, hl, rfl⟩ := List.mem_map.1 hx
    unfold lisNotify
    split
    · trivial
    · exact ordered_result (by omega) _ _ fun _ => hT _ ⟨l, hl, rfl⟩
  | commandEvent r p ls =>
    have hp : rankOf D G (.watch p) = 10 := by simp only [rankOf, if_neg (hH p rfl)]
    refine ⟨Nat.zero_le _, ?_⟩
    rw [hp, ordered_all]
    intro x hx
    obtain ⟨l, hl, rfl⟩ := List.mem_map.1 hx
    exact ordered_notifyCommand (by omega) _ _ _ (fun q hq => hG q ⟨l, hl, hq⟩) (hT _ ⟨l, hl, rfl⟩)
  | agentCommand c ks =>
    show Ordered _ 0 (all _)
    rw [ordered_all]
    intro x hx
    obtain ⟨k, hk, rfl⟩ := List.mem_map.1 hx
    exact ordered_notifyCommand (by omega) _ _ _ (fun q hq => hG q ⟨k, hk, hq⟩) (hT _ rfl)
  | create c js => exact ordered_new (by omega) c js fun j hj p hp => hG p ⟨j, hj, hp⟩
  | destroy c vs => exact ordered_destroy (by omega) c vs (hD c rfl) hG
  | info c rs =>
    refine ⟨Nat.zero_le _, ?_⟩
    rw [ordered_all]
    intro x hx
    obtain ⟨r, _, rfl⟩ := List.mem_map.1 hx
    have : rankOf D G (.notify c) ≤ 30 := by simp only [rankOf]; split <;> omega
    refine ⟨⟨?_, trivial⟩, ?_, trivial⟩ <;> simp only [rankOf] at * <;> omega
  | setFilter c b => exact ordered_notify (Or.inl (by omega)) b
  | call c g => exact ⟨Nat.zero_le _, trivial⟩
  | weightTick c g => exact ordered_weight (by omega) c g
  | reload new gone =>
    refine ⟨Nat.zero_le _, ?_⟩
    rw [ordered_all]
    intro x hx
    simp only [List.mem_cons, List.not_mem_nil, or_false] at hx
    rcases hx with rfl | rfl | rfl | rfl
    · rw [ordered_all]
      intro y hy
      obtain ⟨n, hn, rfl⟩ := List.mem_map.1 hy
      exact ordered_new (by simp [rankOf]) _ _ fun j hj p hp => hG p (Or.inl ⟨n, hn, j, hj, hp⟩)
    · exact ⟨by simp [rankOf], trivial⟩
    · exact ⟨by simp [rankOf], trivial⟩
    · rw [ordered_all]
      intro y hy
      obtain ⟨n, hn, rfl⟩ := List.mem_map.1 hy
      exact ordered_destroy (by simp [rankOf]) _ _ (hD _ ⟨n, hn, rfl⟩) fun p hp => hG p (Or.inr ⟨n, hn, hp⟩)
  | newSession r => exact ⟨⟨Nat.zero_le _, trivial⟩, Nat.zero_le _, trivial⟩
  | registration r => exact ⟨Nat.zero_le _, trivial⟩
  | allServices rs =>
    refine ⟨Nat.zero_le _, ?_⟩
    rw [ordered_all]
    intro x hx
    obtain ⟨r, _, rfl⟩ := List.mem_map.1 hx
    exact ⟨by simp [rankOf], trivial⟩
  | dynRegister e rs =>
    refine ⟨⟨Nat.zero_le _, ?_⟩, ordered_saveDynamic⟩
    refine ⟨by simp [rankOf], ⟨by simp [rankOf], trivial⟩, ⟨by simp [rankOf], ?_⟩, ⟨by simp [rankOf], trivial⟩, by simp [rankOf], trivial⟩
    rw [ordered_all]
    intro x hx
    obtain ⟨r, _, rfl⟩ := List.mem_map.1 hx
    exact ⟨⟨by simp [rankOf], trivial⟩, by simp [rankOf], trivial⟩
  | dynUnregister e rs =>
    refine ⟨⟨Nat.zero_le _, ?_⟩, ordered_saveDynamic⟩
    refine ⟨by simp [rankOf], ⟨by simp [rankOf], trivial⟩, by simp [rankOf], ?_, by simp [rankOf], trivial⟩
    rw [ordered_all]
    intro x hx
    obtain ⟨r, _, rfl⟩ := List.mem_map.1 hx
    exact ⟨by simp [rankOf], trivial⟩
  | dynSubscribe cs =>
    refine ⟨?_, ordered_saveDynamic⟩
    rw [ordered_all]
    intro x hx
    obtain ⟨n, hn, rfl⟩ := List.mem_map.1 hx
    refine ⟨Nat.zero_le _, ?_⟩
    unfold agentCluster
    rw [ordered_all]
    intro y hy
    simp only [List.mem_cons, List.not_mem_nil, or_false] at hy
    rcases hy with rfl | rfl | rfl
    · exact ordered_new (by simp [rankOf]) _ _ fun j hj p hp => hG p ⟨n, hn, j, hj, hp⟩
    · exact ⟨by simp [rankOf], trivial⟩
    · exact ⟨by simp [rankOf], by simp [rankOf], trivial⟩
  | httpCall h s known c =>
    refine ⟨⟨Nat.zero_le _, trivial⟩, ordered_onlyIf fun _ => ⟨Nat.zero_le _, trivial⟩, ?_⟩
    match c, hG with
    | none, _ => trivial
    | some (c, js), hG => exact ⟨Nat.zero_le _, ordered_new (by simp [rankOf]) _ _ fun j hj p hp => hG p ⟨_, rfl, j, hj, hp⟩⟩
  | httpServe h => exact ⟨Nat.zero_le _, trivial⟩
  | httpRemove h => exact ⟨Nat.zero_le _, trivial⟩
  | httpDestroy h cs =>
    refine ⟨Nat.zero_le _, ?_⟩
    rw [ordered_all]
    intro x hx
    obtain ⟨n, hn, rfl⟩ := List.mem_map.1 hx
    refine ⟨by simp [rankOf], ?_⟩
    split
    · trivial
    · rename_i c vs heq
      exact ordered_destroy (by simp [rankOf]) _ _ (hD _ ⟨n, hn, vs, heq⟩) fun p hp => hG p ⟨n, hn, _, heq, hp⟩
  | flush => exact ⟨Nat.zero_le _, trivial⟩
  | switchRegister n watched => exact ⟨Nat.zero_le _, ordered_onlyIf fun _ => ⟨by simp [rankOf], trivial⟩⟩
  | switchRead => exact ⟨Nat.zero_le _, trivial⟩
  | switchWatch n => exact ⟨Nat.zero_le _, trivial⟩
  | switchTell n ws =>
    rw [hS n ws rfl]
    exact ⟨Nat.zero_le _, trivial⟩

/-! ## C92 -/

theorem noCrossing_ordered {ops : List Op} (h : Spec.NoCrossing ops) : ∀ op ∈ ops,
    Ordered (rankOf (fun c => ∃ a ∈ ops, Spec.destroys a c) (fun p => ∃ a ∈ ops, Spec.gives a p)) 0 (code op) := by
  intro op hop
  refine ordered_op op (fun c hc => ⟨op, hop, hc⟩) ?_ (fun p hp => ⟨op, hop, hp⟩) ?_ ?_
  · rintro c hc ⟨a, ha, hd⟩
    exact h.1 a ha op hop c hd hc
  · rintro p hp ⟨a, ha, hd⟩
    exact h.2.1 a ha op hop p hd hp
  · intro n ws e
    exact h.2.2 n ws (e ▸ hop)

/-- C92: operations that do not cross all finish: at any time of any run, what is left can be carried out, ... -/
theorem operations_finish (ops : List Op) (h : Spec.NoCrossing ops) (is : List Nat) (s : St)
    (hr : run (start ops) is = some s) : ∃ js t, run s js = some t ∧ Spec.AllDone t := by
  obtain ⟨st, hI⟩ := lkRun_inv is (lkStart_inv (noCrossing_ordered h)) hr
  exact finish (rankOf_le _ _) _ hI (run_left is (start_within ops) hr).1 rfl

/-- ... some operation can go on until all are done, whichever went on so far, ... -/
theorem operations_go_on (ops : List Op) (h : Spec.NoCrossing ops) (is : List Nat) (s : St)
    (hr : run (start ops) is = some s) (hn : ¬ Spec.AllDone s) : ∃ i t, step s i = some t := by
  obtain ⟨st, hI⟩ := lkRun_inv is (lkStart_inv (noCrossing_ordered h)) hr
  by_cases hex : ∃ i t, Locks.step s i = some t
  · exact hex
  · refine absurd (hI.progress (rankOf_le _ _) ?_) hn
    intro j
    cases hs : Locks.step s j with
    | none => rfl
    | some t => exact absurd ⟨j, t, hs⟩ hex

/-- ... and no run goes on for ever: every one has at most as many steps as the operations have. -/
theorem operations_end (ops : List Op) (is : List Nat) (s : St) (hr : run (start ops) is = some s) :
    is.length ≤ (ops.map fun op => (acts (code op)).length).sum := by
  have h := (run_left is (start_within ops) hr).2
  have hl : ∀ n, n ≤ ops.length → left (start ops) n = ((ops.take n).map fun op => (acts (code op)).length).sum := by
    intro n
    induction n with
    | zero => intro _; rfl
    | succ n ih =>
      intro hn
      have hlt : n < ops.length := hn
      rw [left, ih (by omega)]
      simp only [List.take_add_one, start, List.getElem?_eq_getElem hlt, Option.toList_some, List.map_append,
        List.map_cons, List.map_nil, List.sum_append, List.sum_cons, List.sum_nil, Nat.add_zero]
  have h2 := hl ops.length (Nat.le_refl _)
  rw [List.take_length] at h2
  omega

/-! ## Operations that cross -/

/-- Two goroutines wait for each other. -/
def Crossed (s : St) (i j : Nat) (a b : Lock) : Prop :=
  (∃ r, s.todo i = .ask a :: r) ∧ s.writer a = some j ∧ (∃ r, s.todo j = .ask b :: r) ∧ s.writer b = some i

theorem Crossed.other {s t : St} {i j k : Nat} {a b : Lock} (h : Crossed s i j a b) (hs : Locks.step s k = some t) :
    k ≠ i ∧ k ≠ j := by
  obtain ⟨⟨r, h1⟩, h2, ⟨r', h3⟩, h4⟩ := h
  constructor
  · rintro rfl
    simp [Locks.step, h1, h2] at hs
  · rintro rfl
    simp [Locks.step, h3, h4] at hs

theorem keeps_writer {s t : St} {k m : Nat} (hk : k ≠ m) (hs : Locks.step s k = some t) {l : Lock} (hl : s.writer l = some m) :
    t.writer l = some m := by
  unfold Locks.step at hs
  split at hs
  · cases hs
  · rename_i l' q heq
    split at hs
    · rename_i hn
      cases hs
      have : l ≠ l' := by rintro rfl; rw [hn] at hl; cases hl
      simp only [lupd_ne _ _ this]; exact hl
    · cases hs
  · split at hs
    · cases hs; exact hl
    · cases hs
  · rename_i l' q heq
    split at hs
    · rename_i hn
      cases hs
      have : l ≠ l' := by
        rintro rfl
        rw [hn] at hl
        cases hl
        exact hk rfl
      simp only [lupd_ne _ _ this]; exact hl
    · cases hs
  · split at hs
    · cases hs; exact hl
    · cases hs
  · cases hs; exact hl

theorem Crossed.step {s t : St} {i j k : Nat} {a b : Lock} (h : Crossed s i j a b) (hs : Locks.step s k = some t) :
    Crossed t i j a b := by
  obtain ⟨hki, hkj⟩ := h.other hs
  obtain ⟨⟨r, h1⟩, h2, ⟨r', h3⟩, h4⟩ := h
  obtain ⟨x, _, hrest⟩ := step_todo hs
  exact ⟨⟨r, by rw [hrest i (fun e => hki e.symm)]; exact h1⟩, keeps_writer hkj hs h2,
    ⟨r', by rw [hrest j (fun e => hkj e.symm)]; exact h3⟩, keeps_writer hki hs h4⟩

theorem Crossed.run {s : St} {i j : Nat} {a b : Lock} (h : Crossed s i j a b) (is : List Nat) : ∀ {t : St},
    run s is = some t → Crossed t i j a b := by
  induction is generalizing s with
  | nil => intro t ht; cases ht; exact h
  | cons k is ih =>
    intro t ht
    simp only [Locks.run] at ht
    cases hs : Locks.step s k with
    | none => rw [hs] at ht; cases ht
    | some u => rw [hs] at ht; exact ih (h.step hs) ht

theorem Crossed.never {s : St} {i j : Nat} {a b : Lock} (h : Crossed s i j a b) : Spec.Never s i ∧ Spec.Never s j := by
  constructor
  · intro is t ht e
    obtain ⟨⟨r, h1⟩, _⟩ := h.run is ht
    rw [e] at h1; cases h1
  · intro is t ht e
    obtain ⟨_, _, ⟨r, h1⟩, _⟩ := h.run is ht
    rw [e] at h1; cases h1

/-- Who has still to take a lock that one of them holds, or to wait for, is never done. -/
theorem Crossed.third {s : St} {i j m k : Nat} {a b c : Lock} (h : Crossed s i j a b) (hm : m = i ∨ m = j)
    (hc : s.writer c = some m) (hk : .ask c ∈ s.todo k) : Spec.Never s k := by
  intro is
  induction is generalizing s with
  | nil => intro t ht e; cases ht; rw [e] at hk; cases hk
  | cons n is ih =>
    intro t ht
    simp only [Locks.run] at ht
    cases hs : Locks.step s n with
    | none => rw [hs] at ht; cases ht
    | some u =>
      rw [hs] at ht
      have ho := h.other hs
      have hnm : n ≠ m := by rcases hm with rfl | rfl; exact ho.1; exact ho.2
      refine ih (h.step hs) (keeps_writer hnm hs hc) ?_ t ht
      obtain ⟨x, hx, hrest⟩ := step_todo hs
      by_cases hn : k = n
      · subst hn
        rw [hx] at hk
        rcases List.mem_cons.1 hk with e | hk
        · rw [← e] at hx
          simp [Locks.step, hx, hc] at hs
        · exact hk
      · rw [hrest k hn]; exact hk

/-- The same for the goroutines `X`. -/
structure Agree (X : Nat → Prop) (s t : St) : Prop where
  todo : ∀ i, X i → s.todo i = t.todo i
  writer : s.writer = t.writer
  readers : s.readers = t.readers

theorem Agree.step {X : Nat → Prop} {s s' t : St} {i : Nat} (h : Agree X s s') (hi : X i) (hs : Locks.step s i = some t) :
    ∃ t', Locks.step s' i = some t' ∧ Agree X t t' ∧ ∀ j, j ≠ i → t'.todo j = s'.todo j := by
  obtain ⟨h1, h2, h3⟩ := h
  have hti := h1 i hi
  have key : ∀ r, ∀ j, X j → Locks.upd s.todo i r j = Locks.upd s'.todo i r j := by
    intro r j hj
    simp only [Locks.upd]
    split
    · rfl
    · exact h1 j hj
  unfold Locks.step at hs ⊢
  rw [← hti]
  split at hs
  · cases hs
  · split at hs
    · rename_i l r heq hw
      cases hs
      simp only [← h2, hw, if_true]
      exact ⟨_, rfl, ⟨key r, rfl, h3⟩, fun j hj => lupd_ne _ _ hj⟩
    · cases hs
  · split at hs
    · rename_i l r heq hw
      cases hs
      simp only [← h3, hw, if_true]
      exact ⟨_, rfl, ⟨key r, h2, rfl⟩, fun j hj => lupd_ne _ _ hj⟩
    · cases hs
  · split at hs
    · rename_i l r heq hw
      cases hs
      simp only [← h2, hw, if_true]
      exact ⟨_, rfl, ⟨key r, rfl, h3⟩, fun j hj => lupd_ne _ _ hj⟩
    · cases hs
  · split at hs
    · rename_i l r heq hw
      cases hs
      simp only [← h2, hw, if_true]
      exact ⟨_, rfl, ⟨key r, h2 ▸ rfl, by rw [h3]⟩, fun j hj => lupd_ne _ _ hj⟩
    · cases hs
  · rename_i l r heq
    cases hs
    exact ⟨_, rfl, ⟨key r, h2, by rw [h3]⟩, fun j hj => lupd_ne _ _ hj⟩

theorem Agree.run {X : Nat → Prop} (is : List Nat) : ∀ {s s' t : St}, Agree X s s' → (∀ i ∈ is, X i) →
    run s is = some t → ∃ t', run s' is = some t' ∧ Agree X t t' ∧ ∀ j, j ∉ is → t'.todo j = s'.todo j := by
  induction is with
  | nil => intro s s' t h _ ht; cases ht; exact ⟨s', rfl, h, fun _ _ => rfl⟩
  | cons i is ih =>
    intro s s' t h hX ht
    simp only [Locks.run] at ht
    cases hs : Locks.step s i with
    | none => rw [hs] at ht; cases ht
    | some u =>
      rw [hs] at ht
      obtain ⟨u', h1, h2, h3⟩ := h.step (hX i (by simp)) hs
      obtain ⟨t', h4, h5, h6⟩ := ih h2 (fun j hj => hX j (by simp [hj])) ht
      refine ⟨t', by simp [Locks.run, h1, h4], h5, fun j hj => ?_⟩
      simp only [List.mem_cons, not_or] at hj
      rw [h6 j hj.2, h3 j hj.1]

theorem start_agree (a b : Op) (rest : List Op) : Agree (fun i => i < 2) (start [a, b]) (start (a :: b :: rest)) := by
  refine ⟨?_, rfl, rfl⟩
  intro i hi
  match i, hi with
  | 0, _ => rfl
  | 1, _ => rfl

/-- Two operations that come to wait for each other do so whatever else runs. -/
theorem crossed_anyhow (a b : Op) (is : List Nat) (his : ∀ i ∈ is, i < 2) (la lb : Lock) (s : St)
    (hr : run (start [a, b]) is = some s) (hc : Crossed s 0 1 la lb) (rest : List Op) :
    ∃ t, run (start (a :: b :: rest)) is = some t ∧ Crossed t 0 1 la lb ∧ t.writer = s.writer ∧
      ∀ i, 2 ≤ i → t.todo i = (start (a :: b :: rest)).todo i := by
  obtain ⟨t, h1, h2, h3⟩ := (start_agree a b rest).run is his hr
  refine ⟨t, h1, ?_, h2.writer.symm, fun i hi => h3 i fun hm => by have := his i hm; omega⟩
  obtain ⟨⟨r, c1⟩, c2, ⟨r', c3⟩, c4⟩ := hc
  exact ⟨⟨r, by rw [← h2.todo 0 (by omega)]; exact c1⟩, by rw [← h2.writer]; exact c2,
    ⟨r', by rw [← h2.todo 1 (by omega)]; exact c3⟩, by rw [← h2.writer]; exact c4⟩

namespace LockCase

/-- A list is worked out and the cluster is told. -/
def work : Work := ⟨0, true, none⟩

/-- A command that gives up the subscription of another group, as its last listener. -/
def change (gone : List Drop) : Change := ⟨false, 0, gone, 0⟩

end LockCase

theorem asks_create {c r : Nat} {js : List Join} (h : ∃ j ∈ js, j.registry = r) : Act.ask (.sub r) ∈ acts (newCluster c js) := by
  obtain ⟨j, hj, rfl⟩ := h
  unfold newCluster
  induction js with
  | nil => cases hj
  | cons x xs ih =>
    simp only [List.map_cons, all, acts, List.mem_append]
    rcases List.mem_cons.1 hj with rfl | hj
    · refine Or.inl ?_
      simp [joinRegistry, all, acts, zkSubscribe]
    · exact Or.inr (ih hj)

open LockCase in
/-- Not so if operations cross: a cluster that is destroyed while an agent command is passed on to it. Whatever else
runs, both can come to wait for each other for good: `Destroy` has `notifyLock` and wants `mux`, the command has `mux`
and wants `notifyLock`. -/
theorem destroy_command_violated (rest : List Op) : ∃ is s,
    run (start (.destroy 0 [⟨0, [], []⟩] :: .agentCommand 0 [(0, change [], some work)] :: rest)) is = some s ∧
    Spec.Never s 0 ∧ Spec.Never s 1 := by
  have h : (run (start [.destroy 0 [⟨0, [], []⟩], .agentCommand 0 [(0, change [], some work)]])
      [0, 0, 1, 1, 1, 1, 1, 1, 1, 1]).map (fun s => ((s.todo 0).head?, (s.todo 1).head?, s.writer (.mux 0 0), s.writer (.notify 0)))
      = some (some (.ask (.mux 0 0)), some (.ask (.notify 0)), some 1, some 0) := by decide +kernel
  obtain ⟨s, hs, he⟩ := Option.map_eq_some_iff.1 h
  simp only [Prod.mk.injEq] at he
  obtain ⟨e1, e2, e3, e4⟩ := he
  have hc : Crossed s 0 1 (.mux 0 0) (.notify 0) :=
    ⟨List.head?_eq_some_iff.1 e1, e3, List.head?_eq_some_iff.1 e2, e4⟩
  obtain ⟨t, h1, h2, _⟩ := crossed_anyhow _ _ _ (by decide) _ _ s hs hc rest
  exact ⟨_, t, h1, h2.never⟩

open LockCase in
/-- A command that gives up another group while the servers of that group change: the watcher of the command has `mux`
and the lock of the registry and waits for the watcher of the group, which wants `mux`. From then on nobody can subscribe
to anything in this registry. -/
theorem group_change_violated (rest : List Op) : ∃ is s,
    run (start (.commandEvent 0 1 [⟨0, change [⟨2, true⟩], none⟩] :: .serverEvent 0 2 [⟨0, some work⟩] :: rest)) is = some s ∧
    Spec.Never s 0 ∧ Spec.Never s 1 ∧
    ∀ i c js, rest[i]? = some (.create c js) → (∃ j ∈ js, j.registry = 0) → Spec.Never s (i + 2) := by
  have h : (run (start [.commandEvent 0 1 [⟨0, change [⟨2, true⟩], none⟩], .serverEvent 0 2 [⟨0, some work⟩]])
      [1, 1, 1, 1, 1, 0, 0, 0, 0, 0, 0, 0, 0, 0]).map (fun s => ((s.todo 0).head?, (s.todo 1).head?, s.writer (.watch 2),
        s.writer (.mux 0 0), s.writer (.sub 0)))
      = some (some (.ask (.watch 2)), some (.ask (.mux 0 0)), some 1, some 0, some 0) := by decide +kernel
  obtain ⟨s, hs, he⟩ := Option.map_eq_some_iff.1 h
  simp only [Prod.mk.injEq] at he
  obtain ⟨e1, e2, e3, e4, e5⟩ := he
  have hc : Crossed s 0 1 (.watch 2) (.mux 0 0) :=
    ⟨List.head?_eq_some_iff.1 e1, e3, List.head?_eq_some_iff.1 e2, e4⟩
  obtain ⟨t, h1, h2, h3, h4⟩ := crossed_anyhow _ _ _ (by decide) _ _ s hs hc rest
  refine ⟨_, t, h1, h2.never.1, h2.never.2, ?_⟩
  intro i c js hi hj
  refine h2.third (Or.inl rfl) (c := .sub 0) (by rw [h3]; exact e5) ?_
  rw [h4 _ (by omega)]
  simp only [start, List.getElem?_cons_succ, hi, code]
  exact asks_create hj

open LockCase in
/-- A reload that destroys a cluster while an agent command is passed on to it: from then on no reload, and no
subscription at run time, is ever done. -/
theorem reload_command_violated (rest : List Op) : ∃ is s,
    run (start (.reload [] [(0, [⟨0, [], []⟩])] :: .agentCommand 0 [(0, change [], some work)] :: rest)) is = some s ∧
    Spec.Never s 0 ∧ Spec.Never s 1 ∧
    (∀ i new gone, rest[i]? = some (.reload new gone) → Spec.Never s (i + 2)) ∧
    ∀ i n cs, rest[i]? = some (.dynSubscribe (n :: cs)) → Spec.Never s (i + 2) := by
  have h : (run (start [.reload [] [(0, [⟨0, [], []⟩])], .agentCommand 0 [(0, change [], some work)]])
      [0, 0, 0, 0, 0, 0, 0, 0, 0, 0, 1, 1, 1, 1, 1, 1, 1, 1]).map (fun s => ((s.todo 0).head?, (s.todo 1).head?, s.writer (.mux 0 0),
        s.writer (.notify 0), s.writer .cls))
      = some (some (.ask (.mux 0 0)), some (.ask (.notify 0)), some 1, some 0, some 0) := by decide +kernel
  obtain ⟨s, hs, he⟩ := Option.map_eq_some_iff.1 h
  simp only [Prod.mk.injEq] at he
  obtain ⟨e1, e2, e3, e4, e5⟩ := he
  have hc : Crossed s 0 1 (.mux 0 0) (.notify 0) :=
    ⟨List.head?_eq_some_iff.1 e1, e3, List.head?_eq_some_iff.1 e2, e4⟩
  obtain ⟨t, h1, h2, h3, h4⟩ := crossed_anyhow _ _ _ (by decide) _ _ s hs hc rest
  refine ⟨_, t, h1, h2.never.1, h2.never.2, ?_, ?_⟩
  · intro i new gone hi
    refine h2.third (Or.inl rfl) (c := .cls) (by rw [h3]; exact e5) ?_
    rw [h4 _ (by omega)]
    simp [start, hi, code, acts]
  · intro i n cs hi
    refine h2.third (Or.inl rfl) (c := .cls) (by rw [h3]; exact e5) ?_
    rw [h4 _ (by omega)]
    simp [start, hi, code, acts, all, agentCluster]

/-- A listener of a switcher that watches the same switcher waits for itself for good. -/
theorem listener_watch_violated (n : Nat) (rest : List Op) : ∃ is s,
    run (start (.switchTell n [n] :: rest)) is = some s ∧ Spec.Never s 0 := by
  refine ⟨[0, 0], { (start (.switchTell n [n] :: rest)) with
      todo := upd (upd (start (.switchTell n [n] :: rest)).todo 0 [.ask (.listeners n), .drain (.listeners n), .unlock (.listeners n), .runlock (.listeners n)])
        0 [.drain (.listeners n), .unlock (.listeners n), .runlock (.listeners n)]
      writer := upd (fun _ => none) (.listeners n) (some 0)
      readers := upd (fun _ => []) (.listeners n) [0] }, ?_, ?_⟩
  · simp [run, step, start, code, acts, all, lupd_same]
  · have key : ∀ (is : List Nat) (s t : St) r, s.todo 0 = .drain (.listeners n) :: r → 0 ∈ s.readers (.listeners n) →
        run s is = some t → t.todo 0 ≠ [] := by
      intro is
      induction is with
      | nil => intro s t r h1 _ ht e; cases ht; rw [h1] at e; cases e
      | cons k is ih =>
        intro s t r h1 h2 ht
        simp only [run] at ht
        cases hs : Locks.step s k with
        | none => rw [hs] at ht; cases ht
        | some u =>
          rw [hs] at ht
          have hk : k ≠ 0 := by
            rintro rfl
            have : s.readers (.listeners n) ≠ [] := by intro e; rw [e] at h2; cases h2
            simp [Locks.step, h1, this] at hs
          obtain ⟨x, hx, hrest⟩ := step_todo hs
          refine ih u t r (by rw [hrest 0 (fun e => hk e.symm)]; exact h1) ?_ ht
          unfold Locks.step at hs
          split at hs
          · cases hs
          · split at hs
            · cases hs; exact h2
            · cases hs
          · split at hs
            · cases hs; exact h2
            · cases hs
          · split at hs
            · cases hs; exact h2
            · cases hs
          · rename_i l q heq
            split at hs
            · cases hs
              simp only [Locks.upd]
              split
              · rename_i e; rw [← e]; exact List.mem_cons_of_mem _ h2
              · exact h2
            · cases hs
          · rename_i l q heq
            cases hs
            simp only [Locks.upd]
            split
            · rename_i e; rw [← e]; exact (List.mem_erase_of_ne (fun e => hk e.symm)).2 h2
            · exact h2
    intro is t ht
    exact key is _ t _ (by simp only [lupd_same]; rfl) (by simp [lupd_same]) ht

namespace LockCase

/-- A change of the servers of one group, a command that gives another group up, an agent command, a reload that makes
and destroys clusters, a subscription at run time, a session that is new, calls and switchers. -/
def busy : List Op :=
  [.serverEvent 0 1 [⟨0, some ⟨2, true, some ⟨some 2, true⟩⟩⟩, ⟨1, none⟩],
   .commandEvent 0 2 [⟨0, change [⟨5, true⟩], some work⟩],
   .agentCommand 1 [(0, change [⟨6, true⟩, ⟨1, false⟩], some work)],
   .reload [(2, [⟨0, change [], work, some ⟨none, true⟩⟩])] [(3, [⟨0, [⟨7, true⟩], [⟨8, true⟩]⟩])],
   .dynSubscribe [(4, [⟨0, change [], work, none⟩])],
   .newSession 0, .call 0 0, .weightTick 0 0, .flush, .switchRegister 0 true, .switchTell 0 []]

end LockCase

open LockCase in
theorem busy_noCrossing : Spec.NoCrossing busy := by
  refine ⟨?_, ?_, ?_⟩
  · intro a ha b hb c h1 h2
    simp only [busy, List.mem_cons, List.not_mem_nil, or_false] at ha hb
    rcases ha with rfl | rfl | rfl | rfl | rfl | rfl | rfl | rfl | rfl | rfl | rfl <;>
      simp [Spec.destroys] at h1
    rcases hb with rfl | rfl | rfl | rfl | rfl | rfl | rfl | rfl | rfl | rfl | rfl <;>
      simp [Spec.tells] at h2 <;> omega
  · intro a ha b hb p h1 h2
    simp only [busy, List.mem_cons, List.not_mem_nil, or_false] at ha hb
    rcases hb with rfl | rfl | rfl | rfl | rfl | rfl | rfl | rfl | rfl | rfl | rfl <;>
      simp [Spec.handles] at h2 <;> subst h2 <;>
    (rcases ha with rfl | rfl | rfl | rfl | rfl | rfl | rfl | rfl | rfl | rfl | rfl <;>
      simp [Spec.gives, Spec.lastOf, Spec.leaves, change] at h1)
  · intro n ws h
    simp only [busy, List.mem_cons, List.not_mem_nil, or_false] at h
    simp at h
    exact h.2

open LockCase in
/-- They take more than a hundred steps, and some have to wait on the way. -/
example : 100 < (busy.map fun op => (acts (code op)).length).sum ∧
    ((run (start busy) [0, 0, 0, 0, 0, 0, 0, 1, 1, 1, 1, 1]).map fun s =>
      ((s.todo 1).head?, (step s 1).isNone, s.writer (.mux 0 0), (step s 0).isSome))
      = some (some (.ask (.mux 0 0)), true, some 0, true) := by decide +kernel

end Motan.Props
