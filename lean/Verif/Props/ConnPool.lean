import Verif.Model.ConnPool
import Verif.Props.Recycle

/-!
# C59: the connections of an endpoint

However goroutines getting connections, breaking connections and closing the pool interleave: no more connections are open
than configured; when the pool has been closed and the goroutines have left `Get`, none is open; and as long as there is a
goroutine in `Get`, one of them can go on. A goroutine that finds a broken connection while the pool is closed calls a nil
function, which is shown.
-/

namespace Motan.Props

open Motan ConnPool

/-! ## The specification -/

/-- How many connections are open. -/
def Spec.openConns (s : ConnPool.St) : Nat := ((List.range s.conns.length).filter s.isOpen).length

/-- The goroutine has left `Get`. -/
def Spec.left : ConnPool.PC → Prop
  | .done _ => True
  | .panicked => True
  | _ => False

/-! ## The invariant -/

/-- The goroutine has taken a slot. -/
def slotHeld : ConnPool.PC → Bool
  | .got ok _ => ok
  | .calling => true
  | .dialing => true
  | .back ok _ => ok
  | _ => false

/-- The connection it has taken. -/
def connHeld : ConnPool.PC → Option Nat
  | .got _ c => c
  | .back _ c => c
  | _ => none

/-- What a step may assume of a goroutine. -/
def pcOk (closed : Bool) : ConnPool.PC → Prop
  | .got ok c => ok = false → closed = true ∧ c = none
  | .back ok c => ok = false → closed = true ∧ c = none
  | _ => True

structure ConnPoolInv (s : ConnPool.St) : Prop where
  atMost : s.slots.length + s.getters.countP slotHeld ≤ s.cap
  exact : s.released = false → s.slots.length + s.getters.countP slotHeld = s.cap
  own : ∀ c, s.isOpen c = true → some c ∈ s.slots ∨ ∃ pc ∈ s.getters, slotHeld pc = true ∧ connHeld pc = some c
  fine : ∀ pc ∈ s.getters, pcOk s.closed pc
  closer : match s.closer with
    | .never => s.closed = false ∧ s.released = false
    | .locked => s.closed = false ∧ s.released = true
    | .draining => s.closed = true ∧ s.released = true
    | .done => s.closed = true ∧ s.released = true ∧ s.slots = []

theorem isOpen_closeConn (conns : List Bool) (c d : Nat) :
    (closeConn conns c)[d]?.getD false = (conns[d]?.getD false && (d != c)) := by
  unfold closeConn
  rw [List.getElem?_set]
  by_cases h : c = d
  · subst h
    by_cases hl : c < conns.length <;> simp [hl]
  · have : (d != c) = true := by simpa using fun e => h e.symm
    simp [h, this]

theorem pcOk_mono {pc : ConnPool.PC} {b : Bool} (h : pcOk b pc) : pcOk true pc := by
  cases pc <;> first | trivial | exact fun e => ⟨rfl, (h e).2⟩

theorem pool_inv_getStep {s s' : ConnPool.St} (hi : ConnPoolInv s) (i : Nat) (pc : ConnPool.PC)
    (hg : s.getters[i]? = some pc) (h : getStep s i pc = some s') : ConnPoolInv s' := by
  obtain ⟨a, b, hab, -, -, hset⟩ := index_split hg
  obtain ⟨h1, h2, h3, h4, h5⟩ := hi
  have hpc := h4 pc (by rw [hab]; simp)
  rw [hab, List.countP_append, List.countP_cons] at h1 h2
  have mem : ∀ (x : ConnPool.PC) (p : ConnPool.PC), p ∈ a ++ x :: b → p = x ∨ p ∈ s.getters := by
    intro x p hp
    rw [hab]
    simp only [List.mem_append, List.mem_cons] at hp ⊢
    rcases hp with h | h | h
    · exact .inr (.inl h)
    · exact .inl h
    · exact .inr (.inr (.inr h))
  have old : ∀ (x : ConnPool.PC) (p : ConnPool.PC), p ∈ s.getters → p = pc ∨ p ∈ a ++ x :: b := by
    intro x p hp
    rw [hab] at hp
    simp only [List.mem_append, List.mem_cons] at hp ⊢
    rcases hp with h | h | h
    · exact .inr (.inl h)
    · exact .inl h
    · exact .inr (.inr (.inr h))
  -- goroutine `i` moves and nothing else changes, and it keeps or had nothing
  have plain : ∀ x : ConnPool.PC, slotHeld x = slotHeld pc → (∀ c, s.isOpen c = true → connHeld pc = some c → slotHeld pc = true → connHeld x = some c) →
      pcOk s.closed x → ConnPoolInv (s.at i x) := by
    intro x e1 e2 e3
    unfold St.at
    rw [hset]
    refine ⟨?_, ?_, ?_, ?_, h5⟩
    · simpa [List.countP_append, List.countP_cons, e1] using h1
    · simpa [List.countP_append, List.countP_cons, e1] using h2
    · intro c hc
      rcases h3 c hc with h | ⟨p, hp, hp1, hp2⟩
      · exact .inl h
      · rcases old x p hp with rfl | hp'
        · exact .inr ⟨x, by simp, by rw [e1]; exact hp1, e2 c hc hp2 hp1⟩
        · exact .inr ⟨p, hp', hp1, hp2⟩
    · intro p hp
      rcases mem x p hp with rfl | hp
      · exact e3
      · exact h4 p hp
  cases pc with
  | start =>
    simp only [getStep] at h
    cases h
    by_cases hr : s.released = true
    · rw [if_pos hr]; exact plain _ rfl (fun _ _ h => by cases h) trivial
    · rw [if_neg hr]; exact plain _ rfl (fun _ _ h => by cases h) trivial
  | waiting =>
    simp only [getStep] at h
    cases hs : s.slots with
    | nil =>
      rw [hs] at h
      by_cases hc : s.closed = true
      · simp only [hc, if_true] at h
        cases h
        exact plain _ rfl (fun _ _ h => by cases h) (fun _ => ⟨hc, rfl⟩)
      · simp [hc] at h
    | cons c rest =>
      rw [hs] at h
      cases h
      rw [hs] at h1 h2 h3
      simp only [slotHeld, List.length_cons] at h1 h2
      unfold St.at
      rw [hset]
      refine ⟨?_, ?_, ?_, ?_, ?_⟩
      · simp only [List.countP_append, List.countP_cons, slotHeld, if_true]
        simp at h1
        omega
      · intro hc
        have := h2 hc
        simp only [List.countP_append, List.countP_cons, slotHeld, if_true]
        simp at this
        omega
      · intro d hd
        rcases h3 d hd with h | ⟨p, hp, hp1, hp2⟩
        · rcases List.mem_cons.mp h with h | h
          · exact .inr ⟨.got true c, by simp, rfl, h.symm⟩
          · exact .inl h
        · rcases old (.got true c) p hp with rfl | hp'
          · cases hp1
          · exact .inr ⟨p, hp', hp1, hp2⟩
      · intro p hp
        rcases mem _ p hp with rfl | hp
        · intro e; cases e
        · exact h4 p hp
      · cases hcl : s.closer with
        | done => rw [hcl] at h5; rw [hs] at h5; cases h5.2.2
        | _ => rw [hcl] at h5; exact h5
  | got ok c =>
    simp only [getStep] at h
    by_cases hc : (ok && s.stale c) = true
    · rw [if_pos hc] at h
      cases h
      rw [Bool.and_eq_true] at hc
      refine plain _ hc.1.symm ?_ trivial
      intro d hd e _
      simp only [connHeld] at e
      subst e
      simp [St.stale, hd] at hc
    · rw [if_neg hc] at h
      cases h
      exact plain _ rfl (fun d _ e _ => e) hpc
  | calling =>
    simp only [getStep] at h
    cases h
    by_cases hr : s.released = true
    · rw [if_pos hr]
      -- the slot is lost
      unfold St.at
      rw [hset]
      simp only [slotHeld, if_true] at h1 h2
      refine ⟨?_, ?_, ?_, ?_, h5⟩
      · simp only [List.countP_append, List.countP_cons, slotHeld]; simp; omega
      · intro e; rw [hr] at e; cases e
      · intro d hd
        rcases h3 d hd with h | ⟨p, hp, hp1, hp2⟩
        · exact .inl h
        · rcases old .panicked p hp with rfl | hp'
          · cases hp2
          · exact .inr ⟨p, hp', hp1, hp2⟩
      · intro p hp
        rcases mem _ p hp with rfl | hp
        · trivial
        · exact h4 p hp
    · rw [if_neg hr]
      exact plain _ rfl (fun _ _ h => by cases h) trivial
  | dialing => cases h
  | back ok c =>
    simp only [getStep] at h
    -- the connection goes to `conns'`, the slots to `slots'`
    by_cases hc : s.closed = true
    · rw [if_pos hc] at h
      have hrel : s.released = true := by
        cases hcl : s.closer <;> rw [hcl] at h5 <;> simp_all
      have key : ∀ conns', (∀ d, conns'[d]?.getD false = true → s.isOpen d = true ∧ c ≠ some d) →
          ConnPoolInv { s.at i (.done c) with conns := conns' } := by
        intro conns' hk
        unfold St.at
        rw [hset]
        refine ⟨?_, ?_, ?_, ?_, h5⟩
        · simp only [List.countP_append, List.countP_cons, slotHeld]
          simp
          omega
        · intro e; rw [hrel] at e; cases e
        · intro d hd
          obtain ⟨hd, hne⟩ := hk d hd
          rcases h3 d hd with h | ⟨p, hp, hp1, hp2⟩
          · exact .inl h
          · rcases old (.done c) p hp with rfl | hp'
            · exact absurd hp2 hne
            · exact .inr ⟨p, hp', hp1, hp2⟩
        · intro p hp
          rcases mem _ p hp with rfl | hp
          · trivial
          · exact h4 p hp
      cases c with
      | none =>
        cases h
        exact key s.conns fun d hd => ⟨hd, by simp⟩
      | some c =>
        cases h
        refine key (closeConn s.conns c) fun d hd => ?_
        rw [isOpen_closeConn, Bool.and_eq_true] at hd
        refine ⟨hd.1, fun e => ?_⟩
        cases e
        simp at hd
    · rw [if_neg hc] at h
      have hok : ok = true := by
        cases ok with
        | true => rfl
        | false => exact absurd (hpc rfl).1 hc
      subst hok
      by_cases hl : s.slots.length < s.cap
      · rw [if_pos hl] at h
        cases h
        unfold St.at
        rw [hset]
        simp only [slotHeld, if_true] at h1 h2
        refine ⟨?_, ?_, ?_, ?_, ?_⟩
        · simp only [List.countP_append, List.countP_cons, slotHeld, List.length_append, List.length_cons]
          simp
          omega
        · intro e
          have := h2 e
          simp only [List.countP_append, List.countP_cons, slotHeld, List.length_append, List.length_cons]
          simp
          omega
        · intro d hd
          rcases h3 d hd with h | ⟨p, hp, hp1, hp2⟩
          · exact .inl (by simp [h])
          · rcases old (.done c) p hp with rfl | hp'
            · simp only [connHeld] at hp2
              exact .inl (by simp [hp2])
            · exact .inr ⟨p, hp', hp1, hp2⟩
        · intro p hp
          rcases mem _ p hp with rfl | hp
          · trivial
          · exact h4 p hp
        · cases hcl : s.closer with
          | done => rw [hcl] at h5; exact absurd h5.1 hc
          | _ => rw [hcl] at h5; exact h5
      · rw [if_neg hl] at h; cases h
  | done c => cases h
  | panicked => cases h

theorem pool_inv_step {s s' : ConnPool.St} (hi : ConnPoolInv s) (a : ConnPool.Act) (h : ConnPool.step s a = some s') : ConnPoolInv s' := by
  cases a with
  | call =>
    cases h
    obtain ⟨h1, h2, h3, h4, h5⟩ := hi
    refine ⟨?_, ?_, ?_, ?_, h5⟩
    · simpa [List.countP_append, List.countP_cons, slotHeld] using h1
    · simpa [List.countP_append, List.countP_cons, slotHeld] using h2
    · intro c hc
      rcases h3 c hc with h | ⟨p, hp, h⟩
      · exact .inl h
      · exact .inr ⟨p, List.mem_append_left _ hp, h⟩
    · intro p hp
      rcases List.mem_append.mp hp with hp | hp
      · exact h4 p hp
      · cases List.mem_singleton.mp hp; trivial
  | get i =>
    simp only [ConnPool.step] at h
    cases hg : s.getters[i]? with
    | none => rw [hg] at h; cases h
    | some pc => rw [hg] at h; exact pool_inv_getStep hi i pc hg h
  | dialled i ok =>
    simp only [ConnPool.step] at h
    split at h
    · next hg =>
      obtain ⟨a, b, hab, -, -, hset⟩ := index_split hg
      obtain ⟨h1, h2, h3, h4, h5⟩ := hi
      rw [hab] at h1 h2
      have key : ∀ c conns', (∀ d, conns'[d]?.getD false = true → s.isOpen d = true ∨ c = some d) →
          ConnPoolInv { s.at i (.back true c) with conns := conns' } := by
        intro c conns' hk
        unfold St.at
        rw [hset]
        refine ⟨?_, ?_, ?_, ?_, h5⟩
        · simpa [List.countP_append, List.countP_cons, slotHeld] using h1
        · simpa [List.countP_append, List.countP_cons, slotHeld] using h2
        · intro d hd
          rcases hk d hd with hd | hd
          · rcases h3 d hd with h | ⟨p, hp, hp1, hp2⟩
            · exact .inl h
            · rw [hab] at hp
              simp only [List.mem_append, List.mem_cons] at hp
              rcases hp with hp | rfl | hp
              · exact .inr ⟨p, by simp [hp], hp1, hp2⟩
              · cases hp2
              · exact .inr ⟨p, by simp [hp], hp1, hp2⟩
          · exact .inr ⟨.back true c, by simp, rfl, hd⟩
        · intro p hp
          simp only [List.mem_append, List.mem_cons] at hp
          rcases hp with hp | rfl | hp
          · exact h4 p (by rw [hab]; simp [hp])
          · intro e; cases e
          · exact h4 p (by rw [hab]; simp [hp])
      cases ok with
      | true =>
        simp only [if_true] at h
        cases h
        refine key _ _ fun d hd => ?_
        rw [List.getElem?_append] at hd
        by_cases hl : d < s.conns.length
        · rw [if_pos hl] at hd; exact .inl hd
        · rw [if_neg hl] at hd
          refine .inr ?_
          have : d - s.conns.length = 0 := by
            cases hn : d - s.conns.length with
            | zero => rfl
            | succ n => rw [hn] at hd; simp at hd
          congr 1
          omega
      | false =>
        simp only [Bool.false_eq_true, if_false] at h
        cases h
        exact key none s.conns fun d hd => .inl hd
    · cases h
  | broken c =>
    cases h
    obtain ⟨h1, h2, h3, h4, h5⟩ := hi
    refine ⟨h1, h2, fun d hd => ?_, h4, h5⟩
    refine h3 d ?_
    simp only [St.isOpen] at hd
    rw [isOpen_closeConn, Bool.and_eq_true] at hd
    exact hd.1
  | close =>
    simp only [ConnPool.step] at h
    obtain ⟨h1, h2, h3, h4, h5⟩ := hi
    cases hcl : s.closer with
    | never =>
      rw [hcl] at h h5
      cases h
      exact ⟨h1, (fun e => by cases e), h3, h4, h5.1, rfl⟩
    | _ => rw [hcl] at h; cases h; exact ⟨h1, h2, h3, h4, h5⟩
  | closer =>
    simp only [ConnPool.step] at h
    obtain ⟨h1, h2, h3, h4, h5⟩ := hi
    cases hcl : s.closer with
    | never => rw [hcl] at h; cases h
    | done => rw [hcl] at h; cases h
    | locked =>
      rw [hcl] at h h5
      cases h
      exact ⟨h1, h2, h3, fun p hp => pcOk_mono (h4 p hp), rfl, h5.2⟩
    | draining =>
      rw [hcl] at h h5
      simp only at h
      cases hs : s.slots with
      | nil =>
        rw [hs] at h
        cases h
        rw [hs] at h1 h2 h3
        exact ⟨h1, h2, h3, h4, h5.1, h5.2, rfl⟩
      | cons x rest =>
        rw [hs] at h h1 h2 h3
        rw [List.length_cons] at h1 h2
        cases x with
        | none =>
          cases h
          refine ⟨(by simp only; omega), (fun e => absurd (h5.2.symm.trans e) (by decide)), fun d hd => ?_, h4, ?_⟩
          · rcases h3 d hd with h | h
            · exact .inl (by simpa using h)
            · exact .inr h
          · exact h5
        | some c =>
          cases h
          refine ⟨(by simp only; omega), (fun e => absurd (h5.2.symm.trans e) (by decide)), fun d hd => ?_, h4, ?_⟩
          · simp only [St.isOpen] at hd
            rw [isOpen_closeConn, Bool.and_eq_true] at hd
            rcases h3 d hd.1 with h | h
            · refine .inl ?_
              rcases List.mem_cons.mp h with h | h
              · cases h; simp at hd
              · exact h
            · exact .inr h
          · exact h5

theorem pool_inv_run {s : ConnPool.St} (hi : ConnPoolInv s) (as : List ConnPool.Act) : ConnPoolInv (ConnPool.run s as) := by
  induction as generalizing s with
  | nil => exact hi
  | cons a as ih =>
    rw [ConnPool.run]
    refine ih ?_
    cases h : ConnPool.step s a with
    | none => exact hi
    | some s' => exact pool_inv_step hi a h

theorem newPool_inv (cap : Nat) (lazyInit : Bool) (dials : List Bool) (s : ConnPool.St)
    (h : newPool cap lazyInit dials = .ok s) : ConnPoolInv s ∧ s.cap = cap ∧ 0 < cap ∧ s.getters = [] := by
  unfold newPool at h
  by_cases h0 : cap = 0
  · rw [if_pos h0] at h; cases h
  · rw [if_neg h0] at h
    cases lazyInit with
    | true =>
      simp only [if_true] at h
      cases h
      refine ⟨⟨by simp [made], by simp [made], ?_, by simp [made], rfl, rfl⟩, rfl, by omega, rfl⟩
      intro c hc
      simp [made, St.isOpen] at hc
    | false =>
      simp only [Bool.false_eq_true, if_false] at h
      by_cases hn : ((dials.take cap).takeWhile id).length < cap
      · rw [if_pos hn] at h; cases h
      · rw [if_neg hn] at h
        cases h
        have hle : ((dials.take cap).takeWhile id).length ≤ cap :=
          Nat.le_trans (List.takeWhile_prefix _).length_le (by simp; omega)
        refine ⟨⟨?_, ?_, ?_, by simp [made], rfl, rfl⟩, rfl, by omega, rfl⟩
        · simp only [made, List.length_map, List.length_range, List.countP_nil]; omega
        · intro _
          simp only [made, List.length_map, List.length_range, List.countP_nil]; omega
        · intro c hc
          refine .inl ?_
          simp only [made, St.isOpen, List.getElem?_replicate] at hc
          simp only [made, List.mem_map, List.mem_range, Option.some.injEq]
          refine ⟨c, ?_, rfl⟩
          by_cases hlt : c < ((dials.take cap).takeWhile id).length
          · exact hlt
          · rw [if_neg hlt] at hc; cases hc

/-- A list without repetitions is not longer than one that contains it. -/
theorem nodup_length_le {α : Type} [DecidableEq α] {l m : List α} (hn : l.Nodup) (h : ∀ x ∈ l, x ∈ m) :
    l.length ≤ m.length := by
  induction l generalizing m with
  | nil => simp
  | cons a l ih =>
    rw [List.nodup_cons] at hn
    have hm := h a (List.mem_cons_self ..)
    have := ih hn.2 (m := m.erase a) fun x hx => by
      refine (List.mem_erase_of_ne ?_).mpr (h x (List.mem_cons_of_mem _ hx))
      rintro rfl
      exact hn.1 hx
    rw [List.length_erase_of_mem hm] at this
    have : 0 < m.length := List.length_pos_of_mem hm
    simp only [List.length_cons]
    omega

theorem openConns_le {s : ConnPool.St} (hi : ConnPoolInv s) : Spec.openConns s ≤ s.slots.length + s.getters.countP slotHeld := by
  have h := nodup_length_le (l := (List.range s.conns.length).filter s.isOpen)
    (m := s.slots.filterMap id ++ (s.getters.filter slotHeld).filterMap connHeld)
    (List.nodup_range.filter _) (fun c hc => by
      rcases hi.own c (List.mem_filter.mp hc).2 with h | ⟨p, hp, h1, h2⟩
      · exact List.mem_append_left _ (List.mem_filterMap.mpr ⟨_, h, rfl⟩)
      · exact List.mem_append_right _ (List.mem_filterMap.mpr ⟨p, List.mem_filter.mpr ⟨hp, h1⟩, h2⟩))
  refine Nat.le_trans h ?_
  rw [List.length_append, List.countP_eq_length_filter]
  exact Nat.add_le_add (List.length_filterMap_le ..) (List.length_filterMap_le ..)

/-! ## The theorems -/

/-- **C59.** At no time are more connections open than configured, however the goroutines interleave and the connections
break. -/
theorem pool_bounded (cap : Nat) (lazyInit : Bool) (dials : List Bool) (s : ConnPool.St)
    (h : newPool cap lazyInit dials = .ok s) (as : List ConnPool.Act) : Spec.openConns (ConnPool.run s as) ≤ cap := by
  obtain ⟨hi, hc, -, -⟩ := newPool_inv cap lazyInit dials s h
  have hr := pool_inv_run hi as
  have hcap : ∀ (as : List ConnPool.Act) (t : ConnPool.St), (ConnPool.run t as).cap = t.cap := by
    intro as
    induction as with
    | nil => intro t; rfl
    | cons a as ih =>
      intro t
      rw [ConnPool.run, ih]
      cases hs : ConnPool.step t a with
      | none => rfl
      | some t' =>
        show t'.cap = t.cap
        cases a <;> simp only [ConnPool.step, getStep, St.at] at hs <;> (repeat' split at hs) <;> cases hs <;> rfl
  have := openConns_le hr
  have := hr.atMost
  rw [hcap, hc] at this
  omega

/-- **C59.** When the pool has been closed and every goroutine has left `Get`, no connection is open. -/
theorem pool_closed_clean (cap : Nat) (lazyInit : Bool) (dials : List Bool) (s : ConnPool.St)
    (h : newPool cap lazyInit dials = .ok s) (as : List ConnPool.Act) (hd : (ConnPool.run s as).closer = .done)
    (hg : ∀ pc ∈ (ConnPool.run s as).getters, Spec.left pc) : ∀ c, (ConnPool.run s as).isOpen c = false := by
  obtain ⟨hi, -, -, -⟩ := newPool_inv cap lazyInit dials s h
  have hr := pool_inv_run hi as
  intro c
  have hcl := hr.closer
  rw [hd] at hcl
  cases ho : (ConnPool.run s as).isOpen c with
  | false => rfl
  | true =>
    rcases hr.own c ho with h | ⟨pc, hp, h1, -⟩
    · rw [hcl.2.2] at h; cases h
    · have := hg pc hp
      cases pc <;> first | exact this.elim | cases h1

/-- **C59.** If the pool cannot be made, the connections made for it are closed. -/
theorem pool_failed_clean (cap : Nat) (lazyInit : Bool) (dials : List Bool) (s : ConnPool.St)
    (h : newPool cap lazyInit dials = .error s) : ∀ c, s.isOpen c = false := by
  have fold : ∀ (l : List Nat) (conns : List Bool) (d : Nat),
      (closeAll (l.map some) conns)[d]?.getD false
        = (conns[d]?.getD false && !l.contains d) := by
    intro l
    induction l with
    | nil => intro conns d; simp [closeAll]
    | cons x l ih =>
      intro conns d
      rw [List.map_cons, closeAll, ih, isOpen_closeConn, List.contains_cons]
      simp only [bne, Bool.not_or, Bool.and_assoc]
  intro c
  unfold newPool at h
  by_cases h0 : cap = 0
  · rw [if_pos h0] at h; cases h; rfl
  · rw [if_neg h0] at h
    cases lazyInit with
    | true => simp only [if_true] at h; cases h
    | false =>
      simp only [Bool.false_eq_true, if_false] at h
      by_cases hn : ((dials.take cap).takeWhile id).length < cap
      · rw [if_pos hn] at h
        cases h
        simp only [St.isOpen, made, fold, List.getElem?_replicate]
        by_cases hlt : c < ((dials.take cap).takeWhile id).length
        · have : (List.range ((dials.take cap).takeWhile id).length).contains c = true := by
            rw [List.contains_iff_mem]; exact List.mem_range.mpr hlt
          rw [this, Bool.not_true, Bool.and_false]
        · rw [if_neg hlt]; rfl
      · rw [if_neg hn] at h; cases h

/-- **C59.** As long as there is a goroutine in `Get`, one of them, or `Close` if it is under way, can go on: there is no
deadlock (dialling ends at some time, with success or not). -/
theorem pool_progress (cap : Nat) (lazyInit : Bool) (dials : List Bool) (s : ConnPool.St)
    (h : newPool cap lazyInit dials = .ok s) (as : List ConnPool.Act)
    (hg : ∃ pc ∈ (ConnPool.run s as).getters, ¬ Spec.left pc) :
    (∃ i, (ConnPool.step (ConnPool.run s as) (.get i)).isSome) ∨
      (∃ i, ∀ ok, (ConnPool.step (ConnPool.run s as) (.dialled i ok)).isSome) ∨
      ((ConnPool.run s as).closer = .locked ∧ (ConnPool.step (ConnPool.run s as) .closer).isSome) := by
  obtain ⟨hi, hc0, hpos, -⟩ := newPool_inv cap lazyInit dials s h
  have hr := pool_inv_run hi as
  have hcap : (ConnPool.run s as).cap = cap := by
    have : ∀ (as : List ConnPool.Act) (t : ConnPool.St), (ConnPool.run t as).cap = t.cap := by
      intro as
      induction as with
      | nil => intro t; rfl
      | cons a as ih =>
        intro t
        rw [ConnPool.run, ih]
        cases hs : ConnPool.step t a with
        | none => rfl
        | some t' =>
          show t'.cap = t.cap
          cases a <;> simp only [ConnPool.step, getStep, St.at] at hs <;> (repeat' split at hs) <;> cases hs <;> rfl
    rw [this, hc0]
  generalize ConnPool.run s as = t at hr hg hcap
  have one : ∀ pc ∈ t.getters, slotHeld pc = true ∨ pc = .start →
      (∃ i, (ConnPool.step t (.get i)).isSome) ∨ (∃ i, ∀ ok, (ConnPool.step t (.dialled i ok)).isSome) := by
    intro pc hp hh
    obtain ⟨i, hi, he⟩ := List.getElem_of_mem hp
    have hget : t.getters[i]? = some pc := by rw [List.getElem?_eq_getElem hi, he]
    cases pc with
    | dialing =>
      refine .inr ⟨i, fun ok => ?_⟩
      simp only [ConnPool.step, hget]
      cases ok <;> rfl
    | back ok c =>
      refine .inl ⟨i, ?_⟩
      simp only [ConnPool.step, hget, getStep]
      by_cases hcl : t.closed = true
      · rw [if_pos hcl]; cases c <;> rfl
      · rw [if_neg hcl, if_pos]
        · rfl
        · have := hr.atMost
          have hok : slotHeld (.back ok c) = true := by
            rcases hh with h | h
            · exact h
            · cases h
          have : 0 < t.getters.countP slotHeld := List.countP_pos_iff.mpr ⟨_, hp, hok⟩
          omega
    | got ok c =>
      refine .inl ⟨i, ?_⟩
      simp only [ConnPool.step, hget, getStep]
      split <;> rfl
    | waiting => rcases hh with h | h <;> cases h
    | start => exact .inl ⟨i, by simp only [ConnPool.step, hget, getStep]; rfl⟩
    | calling => exact .inl ⟨i, by simp only [ConnPool.step, hget, getStep]; rfl⟩
    | done c => rcases hh with h | h <;> cases h
    | panicked => rcases hh with h | h <;> cases h
  obtain ⟨pc, hp, hl⟩ := hg
  by_cases hh : slotHeld pc = true ∨ pc = .start
  · rcases one pc hp hh with h | h
    · exact .inl h
    · exact .inr (.inl h)
  · obtain ⟨i, hi, he⟩ := List.getElem_of_mem hp
    have hget : t.getters[i]? = some pc := by rw [List.getElem?_eq_getElem hi, he]
    have hfine := hr.fine pc hp
    -- a goroutine that waits, or that came after the end
    have hcase : pc = .waiting ∨ t.closed = true := by
      cases pc with
      | waiting => exact .inl rfl
      | got ok c =>
        cases ok with
        | false => exact .inr (hfine rfl).1
        | true => exact absurd (.inl rfl) hh
      | back ok c =>
        cases ok with
        | false => exact .inr (hfine rfl).1
        | true => exact absurd (.inl rfl) hh
      | start => exact absurd (.inr rfl) hh
      | calling => exact absurd (.inl rfl) hh
      | dialing => exact absurd (.inl rfl) hh
      | done c => exact absurd trivial hl
      | panicked => exact absurd trivial hl
    by_cases hcl : t.closed = true
    · refine .inl ⟨i, ?_⟩
      cases pc with
      | waiting =>
        simp only [ConnPool.step, hget, getStep]
        cases t.slots <;> simp [hcl]
      | got ok c => simp only [ConnPool.step, hget, getStep]; split <;> rfl
      | back ok c => simp only [ConnPool.step, hget, getStep, hcl, if_true]; cases c <;> rfl
      | start => exact absurd (.inr rfl) hh
      | calling => exact absurd (.inl rfl) hh
      | dialing => exact absurd (.inl rfl) hh
      | done c => exact absurd trivial hl
      | panicked => exact absurd trivial hl
    · rcases hcase with rfl | h
      · cases hs : t.slots with
        | cons x rest =>
          refine .inl ⟨i, ?_⟩
          simp only [ConnPool.step, hget, getStep, hs]
          rfl
        | nil =>
          have h5 := hr.closer
          cases hcl2 : t.closer with
          | never =>
            rw [hcl2] at h5
            have := hr.exact h5.2
            rw [hs, hcap] at this
            have : 0 < t.getters.countP slotHeld := by simp at this; omega
            obtain ⟨q, hq, hq2⟩ := List.countP_pos_iff.mp this
            rcases one q hq (.inl hq2) with h | h
            · exact .inl h
            · exact .inr (.inl h)
          | locked => exact .inr (.inr ⟨rfl, by simp only [ConnPool.step, hcl2]; rfl⟩)
          | draining => rw [hcl2] at h5; exact absurd h5.1 hcl
          | done => rw [hcl2] at h5; exact absurd h5.1 hcl
      · exact absurd h hcl

/-- **C59.** A connection that `Get` takes from the pool is open when it is looked at; otherwise a new one is dialled. -/
theorem pool_gets_open (s s' : ConnPool.St) (i : Nat) (ok : Bool) (c : Option Nat) (d : Option Nat)
    (hg : s.getters[i]? = some (.got ok c)) (h : ConnPool.step s (.get i) = some s')
    (hd : s'.getters[i]? = some (.back true d)) : ∃ n, d = some n ∧ s.isOpen n = true := by
  simp only [ConnPool.step, hg, getStep] at h
  have hi : i < s.getters.length := by
    rcases Nat.lt_or_ge i s.getters.length with h | h
    · exact h
    · rw [List.getElem?_eq_none h] at hg; cases hg
  by_cases hc : (ok && s.stale c) = true
  · rw [if_pos hc] at h
    cases h
    simp [St.at, hi] at hd
  · rw [if_neg hc] at h
    cases h
    simp only [St.at, List.getElem?_set_self hi, Option.some.injEq, PC.back.injEq] at hd
    obtain ⟨rfl, rfl⟩ := hd
    cases c with
    | none => simp [St.stale] at hc
    | some n => exact ⟨n, rfl, by simpa [St.stale] using hc⟩

/-! ## Schedules -/

/-- Two connections; one breaks while two goroutines use the pool. -/
example : newPool 2 false [true, true, true] = .ok (made 2 [some 0, some 1] [true, true]) := rfl
example :
    let s := ConnPool.run (made 2 [some 0, some 1] [true, true])
      [.call, .call, .call, .get 0, .broken 0, .get 0, .get 0, .get 0, .get 1, .get 1, .get 2, .get 2, .dialled 0 true,
        .get 0, .get 1, .get 2, .get 2]
    s.getters = [.done (some 2), .back true (some 1), .back true (some 2)] ∧ Spec.openConns s = 2 := by decide +kernel

/-- Closing with a goroutine in `Get`: the connection it has is closed when it gives it back. -/
example :
    let s := ConnPool.run (made 1 [some 0] [true]) [.call, .get 0, .get 0, .close, .closer, .closer, .get 0, .get 0]
    s.closer = .done ∧ s.getters = [.done (some 0)] ∧ Spec.openConns s = 0 := by decide +kernel

/-- **C59, violated.** `Get` panics if the pool is closed after a broken or missing connection was taken from it. -/
theorem pool_get_panics_violated :
    (ConnPool.run (made 1 [none] []) [.call, .get 0, .get 0, .get 0, .close, .get 0]).getters = [.panicked] := by
  decide +kernel

end Motan.Props
