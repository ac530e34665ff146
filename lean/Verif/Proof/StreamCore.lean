import Verif.Model.Stream

/-!
# The invariant of calls over a shared connection: first part
-/

namespace Motan.StreamProof
open Motan.Stream
variable {T C : Type} [DecidableEq T] [DecidableEq C]

def callOf : PC C → Option (Call C)
  | .register k | .send k | .recv k | .took k | .remove k _ | .release k _ | .put k _ | .ret k _ => some k
  | _ => none

theorem callOf_upd (f : T → PC C) (t x : T) (p : PC C) :
    callOf (upd f t p x) = if x = t then callOf p else callOf (f x) := by unfold upd; split <;> rfl

structure InvA (s : St T C) : Prop where
  sid : ∀ i k, s.issued i = some k → k.sid = i
  live : ∀ t k, callOf (s.pc t) = some k → s.issued k.sid = some k
  uniq : ∀ a b k k', callOf (s.pc a) = some k → callOf (s.pc b) = some k' → k.sid = k'.sid → a = b
  sent : ∀ c i, s.sent c i = true → ∃ k, s.issued i = some k ∧ k.chan = c
  failed : ∀ i, s.failed i = true → ∃ k, s.issued i = some k
  log : ∀ e ∈ s.log, s.issued e.1.sid = some e.1
  logLive : ∀ e ∈ s.log, ∀ t k, callOf (s.pc t) = some k → k.sid ≠ e.1.sid
  logNodup : (s.log.map (·.1.sid)).Nodup

theorem invA {b : Bool} {s : St T C} (h : Reach b s) : InvA s := by
  induction h with
  | init => constructor <;> simp [init, callOf]
  | @step s t s' hr hs ih =>
    obtain ⟨h1, h2, h3, h4, h5, h6, h7, h8⟩ := ih
    have hk : ∀ p, s.pc t = p → callOf (s.pc t) = callOf p := fun p h => by rw [h]
    cases hs with
    | forget | close => exact ⟨h1, h2, h3, h4, h5, h6, h7, h8⟩
    | _ =>
      have hk := hk _ (by assumption)
      constructor <;> simp only [callOf_upd] <;> grind [callOf, upd, setSent]
/-- Where a stream object is in its life (for the proof). -/
inductive Stage (T C : Type)
  | unborn
  | pooled
  | gone
  /-- In the hands of one caller, empty. -/
  | clean (t : T)
  /-- In the hands of one caller, with a call's fields. -/
  | priv (t : T) (k : Call C)
  /-- In a table. -/
  | listed (t : T) (k : Call C)
  /-- A goroutine is in `notify`; the caller may have left. -/
  | noting (h : T) (k : Call C) (own : Option T)
  /-- Notified, and not yet seen by the caller, who may have left. -/
  | ready (k : Call C) (own : Option T)

def holds : Stage T C → T → Prop
  | .clean t, x | .priv t _, x | .listed t _, x => x = t
  | .noting h _ own, x => x = h ∨ own = some x
  | .ready _ own, x => own = some x
  | _, _ => False

def objOf : PC C → Option Nat
  | .fill _ _ o => some o
  | .register k | .send k | .recv k | .took k | .remove k _ | .release k _ | .put k _ => some k.obj
  | .notify o _ _ | .setRes o _ | .signal o => some o
  | _ => none

def Good (msgs : List (C × Bool × UInt64)) (k : Call C) (r : Resp) : Prop :=
  msgs[r.msg]? = some (k.chan, k.heartbeat, k.sid) ∧ r.rid = k.rid.getD k.sid

def Handed (st : Stage T C) (t : T) (k : Call C) : Prop :=
  (∃ h, st = .noting h k (some t)) ∨ st = .ready k (some t)

/-- What a goroutine knows about its object. -/
def Thr (msgs : List (C × Bool × UInt64)) (x : Obj C) (st : Stage T C) (t : T) : PC C → Prop
  | .fill _ _ _ => st = .clean t
  | .register k => st = .priv t k ∧ x.canRelease = true
  | .send k => st = .listed t k ∧ x.canRelease = true
  | .recv k => (st = .listed t k ∨ Handed st t k) ∧ x.canRelease = true
  | .took k => st = .priv t k ∧ x.canRelease = true ∧ ∃ r, x.res = some r ∧ Good msgs k r
  | .remove k (some _) => st = .priv t k ∧ x.canRelease = true
  | .remove k none => (st = .listed t k ∨ Handed st t k) ∧ x.canRelease = false
  | .release k r => (st = .priv t k ∧ x.canRelease = true) ∨ (Handed st t k ∧ x.canRelease = false ∧ r = none)
  | .put _ _ => st = .clean t
  | .notify _ m wid => ∃ k own, st = .noting t k own ∧ k.sid = wid ∧ msgs[m]? = some (k.chan, k.heartbeat, k.sid)
  | .setRes _ r => ∃ k own, st = .noting t k own ∧ Good msgs k r
  | .signal _ => ∃ k own r, st = .noting t k own ∧ x.res = some r ∧ Good msgs k r
  | _ => True

/-- Whether a goroutine's id was handed over for sending. -/
def SentOk (sent : C → UInt64 → Bool) (failed : UInt64 → Bool) : PC C → Prop
  | .register k | .send k => sent k.chan k.sid = false ∧ failed k.sid = false
  | .recv k | .took k | .remove k _ => sent k.chan k.sid = true
  | .handle c _ _ wid => sent c wid = true
  | _ => True

/-- What a goroutine knows besides. -/
def Thr0 (msgs : List (C × Bool × UInt64)) : PC C → Prop
  | .handle c m hb wid => msgs[m]? = some (c, hb, wid)
  | .remove k (some r) | .release k (some r) | .put k (some r) | .ret k (some r) => Good msgs k r
  | _ => True

def Own (x : Obj C) (k : Call C) (o : Nat) : Prop :=
  x.channel = some k.chan ∧ x.streamId = k.sid ∧ x.isHeartbeat = k.heartbeat ∧ x.req = k.rid ∧ k.obj = o

/-- What is known about an object. -/
def Ob (msgs : List (C × Bool × UInt64)) (x : Obj C) (o : Nat) : Stage T C → Prop
  | .pooled | .clean _ => x.token = false ∧ x.req = none
  | .priv _ k | .listed _ k => x.token = false ∧ Own x k o
  | .noting h k own => x.token = false ∧ Own x k o ∧ own ≠ some h
  | .ready k _ => x.token = true ∧ Own x k o ∧ ∃ r, x.res = some r ∧ Good msgs k r
  | _ => True

structure Core (objs : Nat → Obj C) (pc : T → PC C) (msgs : List (C × Bool × UInt64))
    (g : Nat → Stage T C) : Prop where
  thr : ∀ t o, objOf (pc t) = some o → Thr msgs (objs o) (g o) t (pc t)
  thr0 : ∀ t, Thr0 msgs (pc t)
  link : ∀ o t, holds (g o) t → objOf (pc t) = some o
  ob : ∀ o, Ob msgs (objs o) o (g o)

theorem thr_holds {msgs x o} {st : Stage T C} {t : T} {p : PC C} (h : Thr msgs x st t p)
    (ho : objOf p = some o) : holds st t := by
  cases p with
  | recv k => obtain ⟨h | ⟨_, h⟩ | h, _⟩ := h <;> subst h <;> simp [holds]
  | remove k r =>
    cases r with
    | none => obtain ⟨h | ⟨_, h⟩ | h, _⟩ := h <;> subst h <;> simp [holds]
    | some r => obtain ⟨h, _⟩ := h; subst h; simp [holds]
  | release k r => obtain ⟨h, _⟩ | ⟨⟨_, h⟩ | h, _⟩ := h <;> subst h <;> simp [holds]
  | fill | put => simp only [Thr] at h; subst h; simp [holds]
  | register | send | took => obtain ⟨h, _⟩ := h; subst h; simp [holds]
  | notify => obtain ⟨k, own, h, _⟩ := h; subst h; simp [holds]
  | setRes => obtain ⟨k, own, h, _⟩ := h; subst h; simp [holds]
  | signal => obtain ⟨k, own, r, h, _⟩ := h; subst h; simp [holds]
  | _ => simp [objOf] at ho

/-- A step of `t` that touches one object. -/
theorem core_step {objs : Nat → Obj C} {pc : T → PC C} {msgs} {g : Nat → Stage T C}
    (ih : Core objs pc msgs g) (t : T) (p' : PC C) (o : Nat) (x' : Obj C) (st' : Stage T C)
    (ho : objOf (pc t) = none ∨ objOf (pc t) = some o) (hp : objOf p' = none ∨ objOf p' = some o)
    (self : objOf p' = some o → Thr msgs x' st' t p') (self0 : Thr0 msgs p')
    (others : ∀ y, y ≠ t → objOf (pc y) = some o → Thr msgs x' st' y (pc y))
    (hlink : ∀ y, holds st' y → (y = t ∧ objOf p' = some o) ∨ (y ≠ t ∧ objOf (pc y) = some o))
    (hob : Ob msgs x' o st') : Core (upd objs o x') (upd pc t p') msgs (upd g o st') := by
  constructor
  · intro y o' h
    by_cases hy : y = t
    · subst hy
      simp only [upd, if_true] at h ⊢
      have : o' = o := by rcases hp with hp | hp <;> rw [hp] at h <;> cases h; rfl
      subst this
      simp only [if_true]; exact self h
    · simp only [upd, if_neg hy] at h ⊢
      by_cases ho' : o' = o
      · subst ho'; simp only [if_true]; exact others y hy h
      · simp only [if_neg ho']; exact ih.thr y o' h
  · intro y
    by_cases hy : y = t
    · subst hy; simp only [upd, if_true]; exact self0
    · simp only [upd, if_neg hy]; exact ih.thr0 y
  · intro o' y h
    by_cases ho' : o' = o
    · subst ho'
      simp only [upd, if_true] at h
      rcases hlink y h with ⟨h1, h2⟩ | ⟨h1, h2⟩
      · subst h1; simp only [upd, if_true]; exact h2
      · simp only [upd, if_neg h1]; exact h2
    · simp only [upd, if_neg ho'] at h
      have h1 := ih.link o' y h
      by_cases hy : y = t
      · subst hy
        rcases ho with ho | ho <;> rw [ho] at h1 <;> cases h1
        exact absurd rfl ho'
      · simp only [upd, if_neg hy]; exact h1
  · intro o'
    by_cases ho' : o' = o
    · subst ho'; simp only [upd, if_true]; exact hob
    · simp only [upd, if_neg ho']; exact ih.ob o'

/-- A step of `t` that touches no object. -/
theorem core_none {objs : Nat → Obj C} {pc : T → PC C} {msgs} {g : Nat → Stage T C}
    (ih : Core objs pc msgs g) (t : T) (p' : PC C) (ho : objOf (pc t) = none) (hp : objOf p' = none)
    (self0 : Thr0 msgs p') : Core objs (upd pc t p') msgs g := by
  constructor
  · intro y o' h
    by_cases hy : y = t
    · subst hy; simp only [upd, if_true] at h; rw [hp] at h; cases h
    · simp only [upd, if_neg hy] at h ⊢; exact ih.thr y o' h
  · intro y
    by_cases hy : y = t
    · subst hy; simp only [upd, if_true]; exact self0
    · simp only [upd, if_neg hy]; exact ih.thr0 y
  · intro o' y h
    have h1 := ih.link o' y h
    by_cases hy : y = t
    · subst hy; rw [ho] at h1; cases h1
    · simp only [upd, if_neg hy]; exact h1
  · exact ih.ob

theorem upd_same {α β : Type} [DecidableEq α] (f : α → β) (a : α) : upd f a (f a) = f := by
  funext x; unfold upd; split
  · subst_vars; rfl
  · rfl

/-- A step of `t` from its object that changes neither the object nor its stage. -/
theorem core_pc {objs : Nat → Obj C} {pc : T → PC C} {msgs} {g : Nat → Stage T C}
    (ih : Core objs pc msgs g) (t : T) (p' : PC C) (o : Nat) (ho : objOf (pc t) = some o) (hp : objOf p' = some o)
    (self : Thr msgs (objs o) (g o) t p') (self0 : Thr0 msgs p') : Core objs (upd pc t p') msgs g := by
  have := core_step ih t p' o (objs o) (g o) (.inr ho) (.inr hp) (fun _ => self) self0 (fun y _ h => ih.thr y o h)
    (fun y h => by
      by_cases hy : y = t
      · subst hy; exact .inl ⟨rfl, hp⟩
      · exact .inr ⟨hy, ih.link o y h⟩) (ih.ob o)
  rwa [upd_same, upd_same] at this

theorem others_of_exclusive {objs : Nat → Obj C} {pc : T → PC C} {msgs}
    {g : Nat → Stage T C} (ih : Core objs pc msgs g) {t : T} {o : Nat} {x' : Obj C} {st' : Stage T C}
    (h : ∀ y, holds (g o) y → y = t) (y : T) (hy : y ≠ t) (ho : objOf (pc y) = some o) : Thr msgs x' st' y (pc y) :=
  absurd (h y (thr_holds (ih.thr y o ho) ho)) hy
theorem listed_pc {objs : Nat → Obj C} {pc : T → PC C} {msgs} {g : Nat → Stage T C} (ih : Core objs pc msgs g) {o : Nat}
    {t : T} {k : Call C} (h : g o = .listed t k) : pc t = .send k ∨ pc t = .recv k ∨ pc t = .remove k none := by
  have hl := ih.link o t (by rw [h]; rfl)
  have ht := ih.thr t o hl
  rw [h] at ht
  revert hl ht
  cases pc t with
  | send k' => rintro _ ⟨h, _⟩; simp only [Stage.listed.injEq] at h; rw [h.2]; exact .inl rfl
  | recv k' =>
    rintro _ ⟨h | ⟨_, h⟩ | h, _⟩
    · simp only [Stage.listed.injEq] at h; rw [h.2]; exact .inr (.inl rfl)
    · cases h
    · cases h
  | remove k' r =>
    cases r with
    | none =>
      rintro _ ⟨h | ⟨_, h⟩ | h, _⟩
      · simp only [Stage.listed.injEq] at h; rw [h.2]; exact .inr (.inr rfl)
      · cases h
      · cases h
    | some r => rintro _ ⟨h, _⟩; cases h
  | fill | put => intro _ h; cases h
  | register | took => rintro _ ⟨h, _⟩; cases h
  | release => rintro _ (⟨h, _⟩ | ⟨⟨_, h⟩ | h, _⟩) <;> cases h
  | notify | setRes | signal => simp [Thr]
  | _ => intro h; cases h

theorem listed_call {objs : Nat → Obj C} {pc : T → PC C} {msgs} {g : Nat → Stage T C} (ih : Core objs pc msgs g) {o : Nat}
    {t : T} {k : Call C} (h : g o = .listed t k) : callOf (pc t) = some k := by
  rcases listed_pc ih h with h | h | h <;> rw [h] <;> rfl

/-- Another goroutine that holds an object in `notify`. -/
theorem noting_other {objs : Nat → Obj C} {pc : T → PC C} {msgs} {g : Nat → Stage T C} (ih : Core objs pc msgs g) {o : Nat}
    {t y : T} {k : Call C} {own : Option T} (h : g o = .noting t k own) (hy : y ≠ t) (ho : objOf (pc y) = some o) :
    own = some y ∧ ((pc y = .recv k ∧ (objs o).canRelease = true) ∨ (pc y = .remove k none ∧ (objs o).canRelease = false) ∨
      (pc y = .release k none ∧ (objs o).canRelease = false)) := by
  have ht := ih.thr y o ho
  rw [h] at ht
  revert ho ht
  cases pc y with
  | recv k' =>
    rintro _ ⟨h | ⟨_, h⟩ | h, hc⟩
    · cases h
    · simp only [Stage.noting.injEq] at h; rw [h.2.1, h.2.2]; exact ⟨rfl, .inl ⟨rfl, hc⟩⟩
    · cases h
  | remove k' r =>
    cases r with
    | none =>
      rintro _ ⟨h | ⟨_, h⟩ | h, hc⟩
      · cases h
      · simp only [Stage.noting.injEq] at h; rw [h.2.1, h.2.2]; exact ⟨rfl, .inr (.inl ⟨rfl, hc⟩)⟩
      · cases h
    | some r => rintro _ ⟨h, _⟩; cases h
  | release k' r =>
    rintro _ (⟨h, _⟩ | ⟨⟨_, h⟩ | h, hc, rfl⟩)
    · cases h
    · simp only [Stage.noting.injEq] at h; rw [h.2.1, h.2.2]; exact ⟨rfl, .inr (.inr ⟨rfl, hc⟩)⟩
    · cases h
  | fill | put => intro _ h; cases h
  | register | send | took => rintro _ ⟨h, _⟩; cases h
  | notify => rintro _ ⟨_, _, h, _⟩; simp only [Stage.noting.injEq] at h; exact absurd h.1.symm hy
  | setRes => rintro _ ⟨_, _, h, _⟩; simp only [Stage.noting.injEq] at h; exact absurd h.1.symm hy
  | signal => rintro _ ⟨_, _, _, h, _⟩; simp only [Stage.noting.injEq] at h; exact absurd h.1.symm hy
  | _ => intro h; cases h

/-- What the goroutine in `notify` knows does not depend on who else holds the object. -/
theorem noting_handler {objs : Nat → Obj C} {pc : T → PC C} {msgs} {g : Nat → Stage T C} (ih : Core objs pc msgs g) {o : Nat}
    {t h : T} {k : Call C} (hg : g o = .noting h k (some t)) (ht : t ≠ h) (ho : objOf (pc h) = some o) (x' : Obj C)
    (hx : x'.res = (objs o).res) (own' : Option T) : Thr msgs x' (.noting h k own') h (pc h) := by
  have hh := ih.thr h o ho
  rw [hg] at hh
  revert ho hh
  cases pc h with
  | recv k' =>
    rintro _ ⟨h | ⟨_, h⟩ | h, hc⟩
    · cases h
    · simp only [Stage.noting.injEq, Option.some.injEq] at h; exact absurd h.2.2 ht
    · cases h
  | remove k' r =>
    cases r with
    | none =>
      rintro _ ⟨h | ⟨_, h⟩ | h, hc⟩
      · cases h
      · simp only [Stage.noting.injEq, Option.some.injEq] at h; exact absurd h.2.2 ht
      · cases h
    | some r => rintro _ ⟨h, _⟩; cases h
  | release k' r =>
    rintro _ (⟨h, _⟩ | ⟨⟨_, h⟩ | h, hc, rfl⟩)
    · cases h
    · simp only [Stage.noting.injEq, Option.some.injEq] at h; exact absurd h.2.2 ht
    · cases h
  | fill | put => intro _ h; cases h
  | register | send | took => rintro _ ⟨h, _⟩; cases h
  | notify => rintro _ ⟨k, own, h, h'⟩; simp only [Stage.noting.injEq] at h; exact ⟨k, own', by rw [h.2.1], h'⟩
  | setRes => rintro _ ⟨k, own, h, h'⟩; simp only [Stage.noting.injEq] at h; exact ⟨k, own', by rw [h.2.1], h'⟩
  | signal =>
    rintro _ ⟨k, own, r, h, h'⟩; simp only [Stage.noting.injEq] at h
    exact ⟨k, own', r, by rw [h.2.1], by rw [hx]; exact h'⟩
  | _ => intro h; cases h

theorem good_append {msgs : List (C × Bool × UInt64)} {k : Call C} {r : Resp} (x) (h : Good msgs k r) :
    Good (msgs ++ [x]) k r := by
  obtain ⟨h1, h2⟩ := h
  refine ⟨?_, h2⟩
  rw [List.getElem?_append_left (by
    rcases Nat.lt_or_ge r.msg msgs.length with h | h
    · exact h
    · rw [List.getElem?_eq_none h] at h1; cases h1)]
  exact h1

theorem get_append {msgs : List (C × Bool × UInt64)} {m : Nat} {v} (x) (h : msgs[m]? = some v) :
    (msgs ++ [x])[m]? = some v := by
  rw [List.getElem?_append_left (by
    rcases Nat.lt_or_ge m msgs.length with h' | h'
    · exact h'
    · rw [List.getElem?_eq_none h'] at h; cases h)]
  exact h

theorem core_msgs {objs : Nat → Obj C} {pc : T → PC C} {msgs} {g : Nat → Stage T C}
    (ih : Core objs pc msgs g) (x) : Core objs pc (msgs ++ [x]) g := by
  constructor
  · intro t o h
    have h1 := ih.thr t o h
    revert h1
    cases s : pc t with
    | took k => rintro ⟨a, b, r, c, d⟩; exact ⟨a, b, r, c, good_append x d⟩
    | notify => rintro ⟨k, own, a, b, c⟩; exact ⟨k, own, a, b, get_append x c⟩
    | setRes => rintro ⟨k, own, a, b⟩; exact ⟨k, own, a, good_append x b⟩
    | signal => rintro ⟨k, own, r, a, b, c⟩; exact ⟨k, own, r, a, b, good_append x c⟩
    | remove k r => cases r <;> exact id
    | _ => exact id
  · intro t
    have h1 := ih.thr0 t
    revert h1
    cases pc t with
    | handle => intro h; exact get_append x h
    | remove k r | release k r | put k r | ret k r =>
      cases r with
      | none => exact id
      | some r => exact good_append x
    | _ => exact id
  · exact ih.link
  · intro o
    have h1 := ih.ob o
    revert h1
    cases g o with
    | ready => rintro ⟨a, b, r, c, d⟩; exact ⟨a, b, r, c, good_append x d⟩
    | _ => exact id

theorem sentOk_upd {sent : C → UInt64 → Bool} {failed : UInt64 → Bool} {pc : T → PC C}
    (h : ∀ y, SentOk sent failed (pc y)) (t : T) (p : PC C) (hp : SentOk sent failed p) : ∀ y, SentOk sent failed (upd pc t p y) := by
  intro y; unfold upd; split
  · exact hp
  · exact h y

end Motan.StreamProof
