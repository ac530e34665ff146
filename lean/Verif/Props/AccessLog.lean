import Verif.Model.AccessLog

/-!
# C79: Every access log entry is written once, as it was, or counted as discarded

Ranges over every schedule of callers, of the goroutines that write, of `SetAsync`, `SetAccessLogAvailable`, the sampler
and the pool of entities.
-/

namespace Motan.Props

open AccessLog (Entry Act Try Op play step init)

/-! ## Specification -/

/-- The entities under way: in the hands of a goroutine that has not written them yet, or in a channel. -/
def Spec.unwritten (s : AccessLog.St) : List Nat :=
  (s.gs.flatMap fun
    | .log id => [id]
    | .send id _ => [id]
    | .write id => [id]
    | .drain id => [id]
    | _ => []) ++ s.chans.flatten

/-- No goroutine can go on. -/
def Spec.AtRest (s : AccessLog.St) : Prop := ∀ g, step s (.go g) = none

/-- The caller of `AccessLog` is at work here. -/
def Spec.LogCaller : Act → Prop
  | .log _ => True
  | .send _ _ => True
  | .write _ => True
  | .release _ => True
  | _ => False

/-- How often asynchronous logging was switched on. -/
def Spec.switchedOn (ops : List Op) : Nat := ops.count (.setAsync true)

/-! ## The entities -/

namespace AccessLog

def holds : Act → List Nat
  | .log id => [id]
  | .send id _ => [id]
  | .write id => [id]
  | .release id => [id]
  | .drain id => [id]
  | .drained id => [id]
  | _ => []

def carries : Act → List Nat
  | .log id => [id]
  | .send id _ => [id]
  | .write id => [id]
  | .drain id => [id]
  | _ => []

theorem unwritten_eq (s : AccessLog.St) : Spec.unwritten s = s.gs.flatMap carries ++ s.chans.flatten := by
  unfold Spec.unwritten
  congr 2

/-- How often an entity is held, queued or pooled. -/
def uses (s : AccessLog.St) (i : Nat) : Nat := (s.gs.flatMap holds).count i + s.chans.flatten.count i + s.pool.count i

/-- How often an entry is under way. -/
def waits (s : AccessLog.St) (e : Entry) : Nat :=
  ((s.gs.flatMap carries).map s.mem).count e + (s.chans.flatten.map s.mem).count e

structure Inv (s : AccessLog.St) : Prop where
  own : ∀ i, uses s i ≤ 1
  bound : ∀ i, s.next ≤ i → uses s i = 0
  cons : ∀ e, s.began.count e = (s.tries.map (·.entry)).count e + s.dropped.count e + waits s e
  drop : s.dropped.length = s.count + s.reported
  cur : ∀ c, s.cur = some c → c < s.chans.length
  send : ∀ id c, .send id (some c) ∈ s.gs → c < s.chans.length

theorem inv_init (cap : Nat) : Inv (init cap) :=
  ⟨fun _ => Nat.zero_le _, fun _ _ => rfl, fun _ => rfl, rfl, fun _ h => (by cases h), fun _ _ h => (by cases h)⟩

theorem split_at {α : Type} {l : List α} {g : Nat} {a : α} (h : l[g]? = some a) :
    ∃ l1 l2, l = l1 ++ a :: l2 ∧ ∀ b, l.set g b = l1 ++ b :: l2 := by
  obtain ⟨hg, rfl⟩ := List.getElem?_eq_some_iff.1 h
  refine ⟨l.take g, l.drop (g + 1), ?_, ?_⟩
  · rw [List.getElem_cons_drop, List.take_append_drop]
  · intro b
    rw [List.set_eq_take_append_cons_drop, if_pos hg]

theorem map_update {l : List Nat} {m : Nat → Entry} {id : Nat} {e : Entry} (h : l.count id = 0) :
    (l.map fun i => if i = id then e else m i) = l.map m := by
  refine List.map_congr_left fun i hi => ?_
  rw [if_neg]
  rintro rfl
  exact absurd hi (List.count_eq_zero.1 h)

theorem count_carries (gs : List Act) (i : Nat) : (gs.flatMap carries).count i ≤ (gs.flatMap holds).count i := by
  induction gs with
  | nil => exact Nat.le_refl _
  | cons a gs ih =>
    rw [List.flatMap_cons, List.flatMap_cons, List.count_append, List.count_append]
    refine Nat.add_le_add ?_ ih
    cases a <;> first | exact Nat.le_refl _ | exact Nat.zero_le _

theorem eraseIdx_count {l : List Nat} {i id : Nat} (h : l[i]? = some id) (j : Nat) :
    l.count j = (l.eraseIdx i).count j + if id = j then 1 else 0 := by
  induction l generalizing i with
  | nil => simp at h
  | cons a l ih =>
    cases i with
    | zero =>
      simp only [List.getElem?_cons_zero, Option.some.injEq] at h
      subst h
      simp [List.count_cons]
    | succ i =>
      simp only [List.getElem?_cons_succ] at h
      simp only [List.eraseIdx_cons_succ, List.count_cons, ih h]
      omega

theorem eraseIdx_count_le (l : List Nat) (i j : Nat) : (l.eraseIdx i).count j ≤ l.count j :=
  (List.eraseIdx_sublist l i).count_le j

theorem inv_begin {s s' : AccessLog.St} {e : Entry} {f : Option Nat} (h : Inv s) (hs : step s (.begin e f) = some s') :
    Inv s' := by
  have key : ∀ (id : Nat) (pool : List Nat) (next : Nat), (∀ j, (s.pool.count j : Nat) + (if id = j ∧ f = none then 1 else 0) = pool.count j + if id = j then 1 else 0) → 
      s' = { s with pool := pool, next := next, mem := fun i => if i = id then e else s.mem i, gs := s.gs ++ [.log id], began := s.began ++ [e] } →
      (∀ i, next ≤ i → uses s' i = 0) →
      (s.gs.flatMap holds).count id + s.chans.flatten.count id = 0 → (∀ i, uses s' i ≤ 1) → Inv s' := by
    intro id pool next hp hs' hb h0 ho
    have hc := count_carries s.gs id
    subst hs'
    refine ⟨ho, hb, ?_, h.drop, h.cur, ?_⟩
    · intro x
      have := h.cons x
      simp only [waits, List.flatMap_append, List.flatMap_cons, List.flatMap_nil, List.append_nil, List.map_append, List.count_append, carries, List.map_cons, List.map_nil, if_true] at this ⊢
      rw [map_update (by omega), map_update (by omega)]
      omega
    · intro i c hm
      rw [List.mem_append, List.mem_singleton] at hm
      rcases hm with hm | hm
      · exact h.send i c hm
      · cases hm
  unfold step AccessLog.acquire at hs
  cases f with
  | none =>
    simp only [Option.map_some, Option.some.injEq] at hs
    have hb := h.bound s.next (Nat.le_refl _)
    have hu : ∀ i, uses s' i = uses s i + if s.next = i then 1 else 0 := by
      intro i
      subst hs
      simp only [uses, List.flatMap_append, List.flatMap_cons, List.flatMap_nil, List.append_nil, List.count_append, holds, List.count_cons, List.count_nil, beq_iff_eq]
      omega
    refine key s.next s.pool (s.next + 1) (by simp) hs.symm ?_ ?_ ?_
    · intro i hi
      rw [hu, h.bound i (by omega), if_neg (by omega)]
    · unfold uses at hb; omega
    · intro i
      rw [hu]
      split
      · rename_i e; rw [← e, hb]; omega
      · exact h.own i
  | some i =>
    simp only at hs
    split at hs
    · cases hs
    · rename_i id hid
      simp only [Option.map_some, Option.some.injEq] at hs
      have hcnt := eraseIdx_count hid
      have hu : ∀ j, uses s' j = uses s j := by
        intro j
        subst hs
        simp only [uses, List.flatMap_append, List.flatMap_cons, List.flatMap_nil, List.append_nil, List.count_append, holds, List.count_cons, List.count_nil, beq_iff_eq, hcnt j]
        omega
      refine key id (s.pool.eraseIdx i) s.next (by intro j; simp [hcnt j]) hs.symm ?_ ?_ ?_
      · intro j hj; rw [hu, h.bound j hj]
      · have := h.own id
        have h2 := hcnt id
        rw [if_pos rfl] at h2
        unfold uses at this; omega
      · intro j; rw [hu]; exact h.own j

theorem flatten_set {l : List (List Nat)} {c : Nat} {b b' : List Nat} (h : l[c]? = some b) :
    ∃ x y, l.flatten = x ++ (b ++ y) ∧ (l.set c b').flatten = x ++ (b' ++ y) := by
  obtain ⟨l1, l2, rfl, hs⟩ := split_at h
  exact ⟨l1.flatten, l2.flatten, by simp, by rw [hs]; simp⟩

theorem inv_go {s s' : AccessLog.St} {g : Nat} (h : Inv s) (hs : step s (.go g) = some s') : Inv s' := by
  simp only [step] at hs
  split at hs
  · cases hs
  rename_i a ha
  rw [Option.map_eq_some_iff] at hs
  obtain ⟨⟨t, a'⟩, hact, rfl⟩ := hs
  obtain ⟨l1, l2, hgs, hset⟩ := split_at ha
  have key : (∀ i, (holds a').count i + t.chans.flatten.count i + t.pool.count i ≤ (holds a).count i + s.chans.flatten.count i + s.pool.count i) →
      t.next = s.next → t.mem = s.mem → t.began = s.began →
      (∀ e, ((carries a).map s.mem).count e + (s.chans.flatten.map s.mem).count e + (s.tries.map (·.entry)).count e + s.dropped.count e =
        ((carries a').map s.mem).count e + (t.chans.flatten.map s.mem).count e + (t.tries.map (·.entry)).count e + t.dropped.count e) →
      t.dropped.length = t.count + t.reported → s.chans.length ≤ t.chans.length → (∀ c, t.cur = some c → c < t.chans.length) →
      (∀ id c, a' = .send id (some c) → c < t.chans.length) → Inv { t with gs := s.gs.set g a' } := by
    intro k1 k2 k3 k4 k5 k6 k7 k8 k9
    have hu : ∀ i, uses { t with gs := s.gs.set g a' } i ≤ uses s i := by
      intro i
      have := k1 i
      simp only [uses, hset]
      simp only [hgs, List.flatMap_append, List.flatMap_cons, List.count_append]
      omega
    refine ⟨fun i => Nat.le_trans (hu i) (h.own i), ?_, ?_, k6, k8, ?_⟩
    · intro i hi
      have := h.bound i (k2 ▸ hi)
      have := hu i
      omega
    · intro e
      have h1 := k5 e
      have h2 := h.cons e
      simp only [waits, hset] at h2 ⊢
      simp only [hgs, List.flatMap_append, List.flatMap_cons, List.map_append, List.count_append, k3, k4] at h2 ⊢
      omega
    · intro id c hm
      simp only [hset, List.mem_append, List.mem_cons] at hm
      rcases hm with hm | hm | hm
      · exact Nat.lt_of_lt_of_le (h.send id c (by rw [hgs]; simp [hm])) k7
      · exact k9 id c hm.symm
      · exact Nat.lt_of_lt_of_le (h.send id c (by rw [hgs]; simp [hm])) k7
  have hcur := h.cur
  have hdrop := h.drop
  cases a with
  | log id =>
    simp only [AccessLog.act, Option.some.injEq, Prod.mk.injEq] at hact
    obtain ⟨rfl, rfl⟩ := hact
    have e1 : holds (if s.async then .send id s.cur else .write id) = [id] := by split <;> rfl
    have e2 : carries (if s.async then .send id s.cur else .write id) = [id] := by split <;> rfl
    refine key (fun i => by rw [e1]; exact Nat.le_refl _) rfl rfl rfl (fun e => by rw [e2]; rfl) hdrop (Nat.le_refl _) hcur ?_
    intro i c e
    split at e
    · injection e with _ e; exact hcur c e
    · cases e
  | send id c =>
    simp only [AccessLog.act, Option.map_eq_some_iff] at hact
    obtain ⟨t', hsend, e⟩ := hact
    injection e with e1 e2
    subst e1 e2
    unfold AccessLog.send at hsend
    simp only at hsend
    split at hsend
    · cases hsend
      refine key (fun i => by simp [holds]) rfl rfl rfl (fun e => by simp [carries]; omega) (by simp; omega) (Nat.le_refl _) hcur (fun _ _ e => by cases e)
    · split at hsend
      · cases hsend
      · rename_i c buf hbuf
        split at hsend
        · cases hsend
          obtain ⟨x, y, hx, hy⟩ := flatten_set (b' := buf ++ [id]) hbuf
          refine key (fun i => by simp [holds, hx, hy, List.count_cons]; omega) rfl rfl rfl (fun e => by simp [carries, hx, hy, List.count_cons]; omega) hdrop (by simp) (by simpa using hcur) (fun _ _ e => by cases e)
        · cases hsend
          refine key (fun i => by simp [holds]) rfl rfl rfl (fun e => by simp [carries]; omega) (by simp; omega) (Nat.le_refl _) hcur (fun _ _ e => by cases e)
  | write id =>
    simp only [AccessLog.act, Option.some.injEq, Prod.mk.injEq] at hact
    obtain ⟨rfl, rfl⟩ := hact
    exact key (fun i => Nat.le_refl _) rfl rfl rfl (fun e => by simp [carries, AccessLog.write]; omega) hdrop (Nat.le_refl _) hcur (fun _ _ e => by cases e)
  | release id =>
    simp only [AccessLog.act, Option.some.injEq, Prod.mk.injEq] at hact
    obtain ⟨rfl, rfl⟩ := hact
    exact key (fun i => by simp [holds]; omega) rfl rfl rfl (fun e => rfl) hdrop (Nat.le_refl _) hcur (fun _ _ e => by cases e)
  | makeChan =>
    simp only [AccessLog.act, Option.some.injEq, Prod.mk.injEq] at hact
    obtain ⟨rfl, rfl⟩ := hact
    exact key (fun i => by simp [holds]) rfl rfl rfl (fun e => by simp [carries]) hdrop (by simp) (fun c e => by cases e; simp) (fun _ _ e => by cases e)
  | spawn =>
    simp only [AccessLog.act, Option.some.injEq, Prod.mk.injEq] at hact
    obtain ⟨rfl, rfl⟩ := hact
    exact key (fun i => Nat.le_refl _) rfl rfl rfl (fun e => rfl) hdrop (Nat.le_refl _) hcur (fun _ _ e => by cases e)
  | top =>
    simp only [AccessLog.act, Option.some.injEq, Prod.mk.injEq] at hact
    obtain ⟨rfl, rfl⟩ := hact
    exact key (fun i => Nat.le_refl _) rfl rfl rfl (fun e => rfl) hdrop (Nat.le_refl _) hcur (fun _ _ e => by cases e)
  | recv c =>
    cases c with
    | none => cases hact
    | some c =>
      simp only [AccessLog.act] at hact
      split at hact
      · rename_i id buf hbuf
        simp only [Option.some.injEq, Prod.mk.injEq] at hact
        obtain ⟨rfl, rfl⟩ := hact
        obtain ⟨x, y, hx, hy⟩ := flatten_set (b' := buf) hbuf
        exact key (fun i => by simp [holds, hx, hy, List.count_cons]; omega) rfl rfl rfl (fun e => by simp [carries, hx, hy, List.count_cons]; omega) hdrop (by simp) (by simpa using hcur) (fun _ _ e => by cases e)
      · cases hact
  | drain id =>
    simp only [AccessLog.act, Option.some.injEq, Prod.mk.injEq] at hact
    obtain ⟨rfl, rfl⟩ := hact
    exact key (fun i => Nat.le_refl _) rfl rfl rfl (fun e => by simp [carries, AccessLog.write]; omega) hdrop (Nat.le_refl _) hcur (fun _ _ e => by cases e)
  | drained id =>
    simp only [AccessLog.act, Option.some.injEq, Prod.mk.injEq] at hact
    obtain ⟨rfl, rfl⟩ := hact
    exact key (fun i => by simp [holds]; omega) rfl rfl rfl (fun e => rfl) hdrop (Nat.le_refl _) hcur (fun _ _ e => by cases e)
  | done => cases hact

theorem inv_step {s s' : AccessLog.St} {op : Op} (h : Inv s) (hs : step s op = some s') : Inv s' := by
  cases op with
  | begin e f => exact inv_begin h hs
  | go g => exact inv_go h hs
  | setAsync b =>
    cases hs
    have hh : (if b = true then s.gs ++ [.makeChan] else s.gs).flatMap holds = s.gs.flatMap holds := by
      split
      · rw [List.flatMap_append]; simp [holds]
      · rfl
    have hc : (if b = true then s.gs ++ [.makeChan] else s.gs).flatMap carries = s.gs.flatMap carries := by
      split
      · rw [List.flatMap_append]; simp [carries]
      · rfl
    refine ⟨fun i => ?_, fun i hi => ?_, fun e => ?_, h.drop, h.cur, fun i c hm => ?_⟩
    · have := h.own i
      simpa only [uses, hh] using this
    · have := h.bound i hi
      simpa only [uses, hh] using this
    · have := h.cons e
      simpa only [waits, hc] using this
    · refine h.send i c ?_
      revert hm
      simp only
      split
      · intro hm
        rcases List.mem_append.1 hm with hm | hm
        · exact hm
        · cases List.mem_singleton.1 hm
      · exact id
  | setShown b => cases hs; exact ⟨h.own, h.bound, h.cons, h.drop, h.cur, h.send⟩
  | sample =>
    cases hs
    exact ⟨h.own, h.bound, h.cons, by have := h.drop; show s.dropped.length = 0 + (s.reported + s.count); omega, h.cur, h.send⟩
  | forget i =>
    cases hs
    have hle : ∀ j, uses { s with pool := s.pool.eraseIdx i } j ≤ uses s j := fun j => by
      have := eraseIdx_count_le s.pool i j
      simp only [uses]; omega
    exact ⟨fun j => Nat.le_trans (hle j) (h.own j), fun j hj => by have := h.bound j hj; have := hle j; omega, h.cons, h.drop, h.cur, h.send⟩

theorem inv_play {s s' : AccessLog.St} {ops : List Op} (h : Inv s) (hs : play s ops = some s') : Inv s' := by
  induction ops generalizing s with
  | nil => cases hs; exact h
  | cons op ops ih =>
    unfold play at hs
    rw [Option.bind_eq_some_iff] at hs
    obtain ⟨t, h1, h2⟩ := hs
    exact ih (inv_step h h1) h2

theorem inv_of {cap : Nat} {ops : List Op} {s : AccessLog.St} (hs : play (init cap) ops = some s) : Inv s :=
  inv_play (inv_init cap) hs

/-! ## One channel -/

def worker : Act → Bool
  | .makeChan => true
  | .spawn => true
  | .top => true
  | .recv _ => true
  | .drain _ => true
  | .drained _ => true
  | _ => false

def queued (s : AccessLog.St) : List Entry := (s.tries.filter (·.queued)).map (·.entry)

/-- Nothing was switched on yet. -/
structure Off (s : AccessLog.St) : Prop where
  ws : s.gs.filter worker = []
  chans : s.chans = []
  cur : s.cur = none
  accepted : s.accepted = []
  queued : queued s = []
  async : s.async = false
  send : ∀ id c, .send id c ∉ s.gs
  dropped : s.dropped = []

/-- Switched on once, but the channel is not there yet. -/
structure Making (s : AccessLog.St) : Prop where
  ws : s.gs.filter worker = [.makeChan]
  chans : s.chans = []
  cur : s.cur = none
  accepted : s.accepted = []
  queued : queued s = []

/-- One channel, one goroutine that writes. -/
structure On (s : AccessLog.St) (w : Act) (buf : List Nat) : Prop where
  ws : s.gs.filter worker = [w]
  made : w ≠ .makeChan
  recv : ∀ c, w = .recv c → c = some 0
  chans : s.chans = [buf]
  cur : s.cur = some 0
  accepted : s.accepted = queued s ++ (carries w ++ buf).map s.mem

inductive Single : Nat → AccessLog.St → Prop
  | off {s} : Off s → Single 0 s
  | making {s} : Making s → Single 1 s
  | on {s w buf} : On s w buf → Single 1 s

theorem begin_spec {s s' : AccessLog.St} {e : Entry} {f : Option Nat} (h : Inv s) (hs : step s (.begin e f) = some s') :
    ∃ id pool next, s' = { s with pool := pool, next := next, mem := fun i => if i = id then e else s.mem i,
                                  gs := s.gs ++ [.log id], began := s.began ++ [e] } ∧
      (s.gs.flatMap holds).count id = 0 ∧ s.chans.flatten.count id = 0 := by
  unfold step AccessLog.acquire at hs
  cases f with
  | none =>
    simp only [Option.map_some, Option.some.injEq] at hs
    have hb := h.bound s.next (Nat.le_refl _)
    unfold uses at hb
    exact ⟨s.next, s.pool, s.next + 1, hs.symm, by omega, by omega⟩
  | some i =>
    simp only at hs
    split at hs
    · cases hs
    · rename_i id hid
      simp only [Option.map_some, Option.some.injEq] at hs
      have := h.own id
      have h2 := eraseIdx_count hid id
      rw [if_pos rfl] at h2
      unfold uses at this
      exact ⟨id, s.pool.eraseIdx i, s.next, hs.symm, by omega, by omega⟩

theorem carries_of_mem {gs : List Act} {w : Act} (h : w ∈ gs) (i : Nat) : (carries w).count i ≤ (gs.flatMap holds).count i := by
  obtain ⟨l1, l2, rfl⟩ := List.append_of_mem h
  refine Nat.le_trans ?_ (count_carries _ i)
  simp only [List.flatMap_append, List.flatMap_cons, List.count_append]
  omega

theorem filter_single {gs : List Act} {g : Nat} {a w : Act} (ha : gs[g]? = some a) (hw : worker a = true)
    (h : gs.filter worker = [w]) : a = w ∧ ∀ b, worker b = true → (gs.set g b).filter worker = [b] := by
  obtain ⟨l1, l2, rfl, hset⟩ := split_at ha
  rw [List.filter_append, List.filter_cons_of_pos hw] at h
  have h1 : l1.filter worker = [] := by
    cases e : l1.filter worker with
    | nil => rfl
    | cons x xs => rw [e] at h; simp at h
  rw [h1, List.nil_append] at h
  injection h with h h2
  refine ⟨h, fun b hb => ?_⟩
  rw [hset, List.filter_append, List.filter_cons_of_pos hb, h1, h2]
  rfl

theorem filter_other {gs : List Act} {g : Nat} {a : Act} (ha : gs[g]? = some a) (hw : worker a = false) {b : Act}
    (hb : worker b = false) : (gs.set g b).filter worker = gs.filter worker := by
  obtain ⟨l1, l2, rfl, hset⟩ := split_at ha
  rw [hset, List.filter_append, List.filter_append, List.filter_cons_of_neg (a := a) (by simp [hw]),
    List.filter_cons_of_neg (a := b) (by simp [hb])]

theorem single_go {s s' : AccessLog.St} {g n : Nat} (hi : Inv s) (h : Single n s) (hs : step s (.go g) = some s') : Single n s' := by
  simp only [step] at hs
  split at hs
  · cases hs
  rename_i a ha
  have hmem : a ∈ s.gs := List.mem_of_getElem? ha
  rw [Option.map_eq_some_iff] at hs
  obtain ⟨⟨t, a'⟩, hact, rfl⟩ := hs
  have hset : ∀ id c, .send id c ∈ s.gs.set g a' → .send id c ∈ s.gs ∨ a' = .send id c := by
    intro id c hm
    rcases List.mem_or_eq_of_mem_set hm with hm | hm
    · exact .inl hm
    · exact .inr hm.symm
  cases h with
  | off h =>
    have hnot : worker a = false := by
      cases hw : worker a with
      | false => rfl
      | true =>
        have : a ∈ s.gs.filter worker := List.mem_filter.2 ⟨hmem, hw⟩
        rw [h.ws] at this; cases this
    cases a with
    | log id =>
      cases hact
      refine .off ⟨?_, h.chans, h.cur, h.accepted, h.queued, h.async, ?_, h.dropped⟩
      · show (s.gs.set g _).filter worker = []
        rw [filter_other ha hnot (by split <;> rfl), h.ws]
      · intro id c hm
        rcases hset id c hm with hm | hm
        · exact h.send id c hm
        · rw [h.async] at hm; cases hm
    | send id c => exact absurd hmem (h.send id c)
    | write id =>
      cases hact
      refine .off ⟨?_, h.chans, h.cur, h.accepted, ?_, h.async, ?_, h.dropped⟩
      · show (s.gs.set g _).filter worker = []
        rw [filter_other ha hnot rfl, h.ws]
      · have := h.queued
        unfold queued AccessLog.write at *
        simpa using this
      · intro id c hm
        rcases hset id c hm with hm | hm
        · exact h.send id c hm
        · cases hm
    | release id =>
      cases hact
      refine .off ⟨?_, h.chans, h.cur, h.accepted, h.queued, h.async, ?_, h.dropped⟩
      · show (s.gs.set g _).filter worker = []
        rw [filter_other ha hnot rfl, h.ws]
      · intro id c hm
        rcases hset id c hm with hm | hm
        · exact h.send id c hm
        · cases hm
    | done => cases hact
    | _ => cases hnot
  | making h =>
    cases hw : worker a with
    | true =>
      obtain ⟨rfl, hf⟩ := filter_single ha hw h.ws
      cases hact
      refine .on (w := .spawn) (buf := []) ⟨hf _ rfl, (by simp), (fun c e => by cases e), ?_, ?_, ?_⟩
      · show s.chans ++ [[]] = [[]]; rw [h.chans]; rfl
      · show some s.chans.length = some 0; rw [h.chans]; rfl
      · show s.accepted = queued s ++ _; rw [h.accepted, h.queued]; rfl
    | false =>
      cases a with
      | log id =>
        cases hact
        refine .making ⟨?_, h.chans, h.cur, h.accepted, h.queued⟩
        show (s.gs.set g _).filter worker = _
        rw [filter_other ha hw (by split <;> rfl), h.ws]
      | send id c =>
        simp only [AccessLog.act, Option.map_eq_some_iff] at hact
        obtain ⟨t', hsend, e⟩ := hact
        injection e with e1 e2
        subst e1 e2
        have hc : c = none := by
          cases c with
          | none => rfl
          | some c => have := hi.send id c hmem; rw [h.chans] at this; simp at this
        subst hc
        cases hsend
        refine .making ⟨?_, h.chans, h.cur, h.accepted, h.queued⟩
        show (s.gs.set g _).filter worker = _
        rw [filter_other ha hw rfl, h.ws]
      | write id =>
        cases hact
        refine .making ⟨?_, h.chans, h.cur, h.accepted, ?_⟩
        · show (s.gs.set g _).filter worker = _
          rw [filter_other ha hw rfl, h.ws]
        · have := h.queued
          unfold queued AccessLog.write at *
          simpa using this
      | release id =>
        cases hact
        refine .making ⟨?_, h.chans, h.cur, h.accepted, h.queued⟩
        show (s.gs.set g _).filter worker = _
        rw [filter_other ha hw rfl, h.ws]
      | done => cases hact
      | _ => cases hw
  | on h =>
    rename_i w buf
    cases hw : worker a with
    | true =>
      obtain ⟨rfl, hf⟩ := filter_single ha hw h.ws
      cases a with
      | makeChan => exact absurd rfl h.made
      | spawn =>
        cases hact
        exact .on (w := .top) ⟨hf _ rfl, (by simp), (fun c e => by cases e), h.chans, h.cur, h.accepted⟩
      | top =>
        cases hact
        exact .on (w := .recv s.cur) ⟨hf _ rfl, (by simp), (fun c e => by cases e; exact h.cur), h.chans, h.cur, h.accepted⟩
      | recv c =>
        obtain rfl := h.recv c rfl
        simp only [AccessLog.act, h.chans, List.getElem?_cons_zero] at hact
        split at hact
        · rename_i id rest hb
          injection hb with hb
          subst hb
          cases hact
          refine .on (w := .drain id) (buf := rest) ⟨hf _ rfl, (by simp), (fun c e => by cases e), rfl, h.cur, h.accepted⟩
        · cases hact
      | drain id =>
        cases hact
        refine .on (w := .drained id) (buf := buf) ⟨hf _ rfl, (by simp), (fun c e => by cases e), h.chans, h.cur, ?_⟩
        show s.accepted = _
        rw [h.accepted]
        simp [queued, AccessLog.write, carries]
      | drained id =>
        cases hact
        exact .on (w := .top) ⟨hf _ rfl, (by simp), (fun c e => by cases e), h.chans, h.cur, h.accepted⟩
      | _ => cases hw
    | false =>
      cases a with
      | log id =>
        cases hact
        refine .on ⟨?_, h.made, h.recv, h.chans, h.cur, h.accepted⟩
        show (s.gs.set g _).filter worker = _
        rw [filter_other ha hw (by split <;> rfl), h.ws]
      | send id c =>
        simp only [AccessLog.act, Option.map_eq_some_iff] at hact
        obtain ⟨t', hsend, e⟩ := hact
        injection e with e1 e2
        subst e1 e2
        have hg : (s.gs.set g .done).filter worker = [w] := by rw [filter_other ha hw rfl, h.ws]
        unfold AccessLog.send at hsend
        simp only at hsend
        split at hsend
        · cases hsend
          exact .on ⟨hg, h.made, h.recv, h.chans, h.cur, h.accepted⟩
        · rename_i c
          have hc : c = 0 := by have := hi.send id c hmem; rw [h.chans] at this; simpa using this
          subst hc
          rw [h.chans] at hsend
          simp only [List.getElem?_cons_zero] at hsend
          split at hsend
          · cases hsend
            refine .on (buf := buf ++ [id]) ⟨hg, h.made, h.recv, rfl, h.cur, ?_⟩
            show s.accepted ++ [s.mem id] = _
            rw [h.accepted]
            simp [queued]
          · cases hsend
            exact .on (buf := buf) ⟨hg, h.made, h.recv, rfl, h.cur, h.accepted⟩
      | write id =>
        cases hact
        refine .on ⟨?_, h.made, h.recv, h.chans, h.cur, ?_⟩
        · show (s.gs.set g _).filter worker = _
          rw [filter_other ha hw rfl, h.ws]
        · have := h.accepted
          unfold queued AccessLog.write at *
          simpa using this
      | release id =>
        cases hact
        refine .on ⟨?_, h.made, h.recv, h.chans, h.cur, h.accepted⟩
        show (s.gs.set g _).filter worker = _
        rw [filter_other ha hw rfl, h.ws]
      | done => cases hact
      | _ => cases hw

theorem single_begin {s s' : AccessLog.St} {e : Entry} {f : Option Nat} {n : Nat} (hi : Inv s) (h : Single n s)
    (hs : step s (.begin e f) = some s') : Single n s' := by
  obtain ⟨id, pool, next, rfl, h1, h2⟩ := begin_spec hi hs
  have hf : (s.gs ++ [Act.log id]).filter worker = s.gs.filter worker := by
    rw [List.filter_append]; simp [worker]
  cases h with
  | off h =>
    refine .off ⟨hf.trans h.ws, h.chans, h.cur, h.accepted, h.queued, h.async, ?_, h.dropped⟩
    intro i c hm
    rcases List.mem_append.1 hm with hm | hm
    · exact h.send i c hm
    · cases List.mem_singleton.1 hm
  | making h => exact .making ⟨hf.trans h.ws, h.chans, h.cur, h.accepted, h.queued⟩
  | on h =>
    rename_i w buf
    refine .on ⟨hf.trans h.ws, h.made, h.recv, h.chans, h.cur, ?_⟩
    have hw : w ∈ s.gs := by
      have : w ∈ s.gs.filter worker := by rw [h.ws]; exact List.mem_singleton.2 rfl
      exact (List.mem_filter.1 this).1
    have := carries_of_mem hw id
    rw [h.chans, List.flatten_singleton] at h2
    show s.accepted = queued s ++ _
    rw [map_update (by rw [List.count_append]; omega)]
    exact h.accepted

theorem single_step {s s' : AccessLog.St} {op : Op} {n : Nat} (hi : Inv s) (h : Single n s) (hs : step s op = some s')
    (hn : n + (if op = .setAsync true then 1 else 0) ≤ 1) : Single (n + if op = .setAsync true then 1 else 0) s' := by
  cases op with
  | begin e f => simpa using single_begin hi h hs
  | go g => simpa using single_go hi h hs
  | setAsync b =>
    cases hs
    cases b with
    | false =>
      simp only [Op.setAsync.injEq, reduceCtorEq, if_false, Nat.add_zero, Bool.false_eq_true]
      cases h with
      | off h => exact .off ⟨h.ws, h.chans, h.cur, h.accepted, h.queued, rfl, h.send, h.dropped⟩
      | making h => exact .making ⟨h.ws, h.chans, h.cur, h.accepted, h.queued⟩
      | on h => exact .on ⟨h.ws, h.made, h.recv, h.chans, h.cur, h.accepted⟩
    | true =>
      simp only [if_true] at hn ⊢
      cases h with
      | off h =>
        refine .making ⟨?_, h.chans, h.cur, h.accepted, h.queued⟩
        show (s.gs ++ [Act.makeChan]).filter worker = _
        rw [List.filter_append, h.ws]; rfl
      | making h => omega
      | on h => omega
  | setShown b =>
    cases hs
    simp only [reduceCtorEq, if_false, Nat.add_zero]
    cases h with
    | off h => exact .off ⟨h.ws, h.chans, h.cur, h.accepted, h.queued, h.async, h.send, h.dropped⟩
    | making h => exact .making ⟨h.ws, h.chans, h.cur, h.accepted, h.queued⟩
    | on h => exact .on ⟨h.ws, h.made, h.recv, h.chans, h.cur, h.accepted⟩
  | sample =>
    cases hs
    simp only [reduceCtorEq, if_false, Nat.add_zero]
    cases h with
    | off h => exact .off ⟨h.ws, h.chans, h.cur, h.accepted, h.queued, h.async, h.send, h.dropped⟩
    | making h => exact .making ⟨h.ws, h.chans, h.cur, h.accepted, h.queued⟩
    | on h => exact .on ⟨h.ws, h.made, h.recv, h.chans, h.cur, h.accepted⟩
  | forget i =>
    cases hs
    simp only [reduceCtorEq, if_false, Nat.add_zero]
    cases h with
    | off h => exact .off ⟨h.ws, h.chans, h.cur, h.accepted, h.queued, h.async, h.send, h.dropped⟩
    | making h => exact .making ⟨h.ws, h.chans, h.cur, h.accepted, h.queued⟩
    | on h => exact .on ⟨h.ws, h.made, h.recv, h.chans, h.cur, h.accepted⟩

theorem single_play {s s' : AccessLog.St} {ops : List Op} {n : Nat} (hi : Inv s) (h : Single n s)
    (hn : n + Spec.switchedOn ops ≤ 1) (hs : play s ops = some s') : Single (n + Spec.switchedOn ops) s' := by
  induction ops generalizing s n with
  | nil => cases hs; exact h
  | cons op ops ih =>
    unfold play at hs
    rw [Option.bind_eq_some_iff] at hs
    obtain ⟨t, h1, h2⟩ := hs
    unfold Spec.switchedOn at *
    rw [List.count_cons] at hn ⊢
    simp only [beq_iff_eq] at hn ⊢
    have := ih (inv_step hi h1) (single_step hi h h1 (by omega)) (by omega) h2
    rwa [Nat.add_assoc, Nat.add_comm (ite _ _ _)] at this

theorem single_of {cap : Nat} {ops : List Op} {s : AccessLog.St} (hs : play (init cap) ops = some s)
    (h : Spec.switchedOn ops ≤ 1) : Single (Spec.switchedOn ops) s := by
  have := single_play (inv_init cap) (n := 0) (.off ⟨rfl, rfl, rfl, rfl, rfl, rfl, fun _ _ h => (by cases h), rfl⟩) (by omega) hs
  rwa [Nat.zero_add] at this

theorem play_append {s s' : AccessLog.St} {a b : List Op} : play s (a ++ b) = some s' ↔ ∃ t, play s a = some t ∧ play t b = some s' := by
  induction a generalizing s with
  | nil => simp [play]
  | cons op a ih =>
    simp only [List.cons_append, play, Option.bind_eq_some_iff, ih]
    constructor
    · rintro ⟨u, h1, t, h2, h3⟩; exact ⟨t, ⟨u, h1, h2⟩, h3⟩
    · rintro ⟨t, ⟨u, h1, h2⟩, h3⟩; exact ⟨u, h1, t, h2, h3⟩

/-- What one step adds. -/
theorem step_adds {s s' : AccessLog.St} {op : Op} (hs : step s op = some s') :
    s'.cap = s.cap ∧ s.accepted <+: s'.accepted ∧
    (∃ new, s'.tries = s.tries ++ new ∧ ∀ t ∈ new, t.shown = s.shown) ∧ ((∀ b, op ≠ .setShown b) → s'.shown = s.shown) ∧
    (s.dropped.length < s'.dropped.length → ∃ id c, .send id c ∈ s.gs ∧
      (c = none ∨ ∃ n buf, c = some n ∧ s.chans[n]? = some buf ∧ s.cap ≤ buf.length)) ∧
    ((∀ buf ∈ s.chans, buf.length ≤ s.cap) → ∀ buf ∈ s'.chans, buf.length ≤ s.cap) := by
  have triv : ∀ l : List Try, ∃ new, l = l ++ new ∧ ∀ t ∈ new, t.shown = s.shown := fun l => ⟨[], by simp, by simp⟩
  cases op with
  | begin e f =>
    unfold step AccessLog.acquire at hs
    cases f with
    | none =>
      simp only [Option.map_some, Option.some.injEq] at hs
      subst hs
      exact ⟨rfl, List.prefix_refl _, triv _, fun _ => rfl, fun h => absurd h (Nat.lt_irrefl _), id⟩
    | some i =>
      simp only at hs
      split at hs
      · cases hs
      · simp only [Option.map_some, Option.some.injEq] at hs
        subst hs
        exact ⟨rfl, List.prefix_refl _, triv _, fun _ => rfl, fun h => absurd h (Nat.lt_irrefl _), id⟩
  | setAsync b => cases hs; exact ⟨rfl, List.prefix_refl _, triv _, fun _ => rfl, fun h => absurd h (Nat.lt_irrefl _), id⟩
  | setShown b => cases hs; exact ⟨rfl, List.prefix_refl _, triv _, fun h => absurd rfl (h b), fun h => absurd h (Nat.lt_irrefl _), id⟩
  | sample => cases hs; exact ⟨rfl, List.prefix_refl _, triv _, fun _ => rfl, fun h => absurd h (Nat.lt_irrefl _), id⟩
  | forget i => cases hs; exact ⟨rfl, List.prefix_refl _, triv _, fun _ => rfl, fun h => absurd h (Nat.lt_irrefl _), id⟩
  | go g =>
    simp only [step] at hs
    split at hs
    · cases hs
    rename_i a ha
    have hmem : a ∈ s.gs := List.mem_of_getElem? ha
    rw [Option.map_eq_some_iff] at hs
    obtain ⟨⟨t, a'⟩, hact, rfl⟩ := hs
    have hset : ∀ c b, b.length ≤ s.cap → (∀ buf ∈ s.chans, buf.length ≤ s.cap) → ∀ buf ∈ s.chans.set c b, buf.length ≤ s.cap := by
      intro c b hb h buf hm
      rcases List.mem_or_eq_of_mem_set hm with hm | rfl
      · exact h buf hm
      · exact hb
    cases a with
    | log id => cases hact; exact ⟨rfl, List.prefix_refl _, triv _, fun _ => rfl, fun h => absurd h (Nat.lt_irrefl _), fun h => h⟩
    | send id c =>
      simp only [AccessLog.act, Option.map_eq_some_iff] at hact
      obtain ⟨t', hsend, e⟩ := hact
      injection e with e1 e2
      subst e1 e2
      unfold AccessLog.send at hsend
      simp only at hsend
      split at hsend
      · cases hsend
        exact ⟨rfl, List.prefix_refl _, triv _, fun _ => rfl, fun _ => ⟨id, none, hmem, .inl rfl⟩, fun h => h⟩
      · rename_i c
        split at hsend
        · cases hsend
        · rename_i buf hbuf
          split at hsend
          · rename_i hlt
            cases hsend
            exact ⟨rfl, List.prefix_append _ _, triv _, fun _ => rfl, fun h => absurd h (Nat.lt_irrefl _), hset c _ (by simp; omega)⟩
          · rename_i hge
            cases hsend
            exact ⟨rfl, List.prefix_refl _, triv _, fun _ => rfl, fun _ => ⟨id, some c, hmem, .inr ⟨c, buf, rfl, hbuf, by omega⟩⟩, fun h => h⟩
    | write id =>
      cases hact
      exact ⟨rfl, List.prefix_refl _, ⟨_, rfl, by simp⟩, fun _ => rfl, fun h => absurd h (Nat.lt_irrefl _), fun h => h⟩
    | release id => cases hact; exact ⟨rfl, List.prefix_refl _, triv _, fun _ => rfl, fun h => absurd h (Nat.lt_irrefl _), fun h => h⟩
    | makeChan =>
      cases hact
      refine ⟨rfl, List.prefix_refl _, triv _, fun _ => rfl, fun h => absurd h (Nat.lt_irrefl _), fun h buf hm => ?_⟩
      rcases List.mem_append.1 hm with hm | hm
      · exact h buf hm
      · rw [List.mem_singleton.1 hm]; exact Nat.zero_le _
    | spawn => cases hact; exact ⟨rfl, List.prefix_refl _, triv _, fun _ => rfl, fun h => absurd h (Nat.lt_irrefl _), fun h => h⟩
    | top => cases hact; exact ⟨rfl, List.prefix_refl _, triv _, fun _ => rfl, fun h => absurd h (Nat.lt_irrefl _), fun h => h⟩
    | recv c =>
      cases c with
      | none => cases hact
      | some c =>
        simp only [AccessLog.act] at hact
        split at hact
        · rename_i id buf hbuf
          cases hact
          refine ⟨rfl, List.prefix_refl _, triv _, fun _ => rfl, fun h => absurd h (Nat.lt_irrefl _), fun h => hset c _ ?_ h⟩
          have := h _ (List.mem_of_getElem? hbuf)
          simp at this; omega
        · cases hact
    | drain id =>
      cases hact
      exact ⟨rfl, List.prefix_refl _, ⟨_, rfl, by simp⟩, fun _ => rfl, fun h => absurd h (Nat.lt_irrefl _), fun h => h⟩
    | drained id => cases hact; exact ⟨rfl, List.prefix_refl _, triv _, fun _ => rfl, fun h => absurd h (Nat.lt_irrefl _), fun h => h⟩
    | done => cases hact

end AccessLog

open AccessLog (inv_of single_of unwritten_eq step_adds play_append)

/-! ## The theorems -/

/-- **C79, conservation.** At any moment, whatever the schedule, every entry handed to the logger has been written, or is
counted as discarded, or is under way, with the content it was logged with and exactly as often as it was logged. -/
theorem access_conserved {cap : Nat} {ops : List Op} {s : AccessLog.St} (h : play (init cap) ops = some s) :
    s.began.Perm (s.tries.map (·.entry) ++ s.dropped ++ (Spec.unwritten s).map s.mem) ∧
    s.dropped.length = s.count + s.reported := by
  have hi := inv_of h
  refine ⟨?_, hi.drop⟩
  rw [List.perm_iff_count]
  intro e
  rw [unwritten_eq, hi.cons e]
  simp only [AccessLog.waits, List.map_append, List.count_append]

/-- **C79, nothing is lost.** If asynchronous logging is switched on at most once (as `LogInit` does), then whenever all
goroutines have come to rest every entry has been written exactly once, or is in the count of discarded entries. -/
theorem access_nothing_lost {cap : Nat} {ops : List Op} {s : AccessLog.St} (h : play (init cap) ops = some s)
    (h1 : Spec.switchedOn ops ≤ 1) (hr : Spec.AtRest s) :
    s.began.Perm (s.tries.map (·.entry) ++ s.dropped) ∧
    s.began.length = s.tries.length + s.count + s.reported := by
  obtain ⟨hp, hd⟩ := access_conserved h
  have hidle : ∀ a ∈ s.gs, AccessLog.act s a = none := by
    intro a ha
    obtain ⟨g, hg⟩ := List.getElem?_of_mem ha
    have := hr g
    simpa only [step, hg, Option.map_eq_none_iff] using this
  have hgs : s.gs.flatMap AccessLog.carries = [] := by
    rw [List.flatMap_eq_nil_iff]
    intro a ha
    have := hidle a ha
    cases a with
    | send id c =>
      exfalso
      simp only [AccessLog.act, Option.map_eq_none_iff, AccessLog.send] at this
      cases c with
      | none => cases this
      | some c =>
        have hc := (inv_of h).send id c ha
        simp only [List.getElem?_eq_getElem hc] at this
        split at this <;> cases this
    | log id => cases this
    | write id => cases this
    | drain id => cases this
    | _ => rfl
  have hch : s.chans.flatten = [] := by
    have hs := single_of h h1
    revert hs
    generalize Spec.switchedOn ops = n
    intro hs
    cases hs with
    | off h => rw [h.chans]; rfl
    | making h => rw [h.chans]; rfl
    | on h =>
      rename_i w buf
      have hw : w ∈ s.gs.filter AccessLog.worker := by rw [h.ws]; exact List.mem_singleton.2 rfl
      obtain ⟨hw, hk⟩ := List.mem_filter.1 hw
      have hn := hidle w hw
      cases w with
      | recv c =>
        obtain rfl := h.recv c rfl
        simp only [AccessLog.act, h.chans, List.getElem?_cons_zero] at hn
        cases buf with
        | nil => rw [h.chans]; rfl
        | cons id buf => cases hn
      | makeChan => exact absurd rfl h.made
      | spawn => cases hn
      | top => cases hn
      | drain id => cases hn
      | drained id => cases hn
      | _ => cases hk
  rw [unwritten_eq, hgs, hch] at hp
  simp only [List.append_nil, List.map_nil] at hp
  refine ⟨hp, ?_⟩
  rw [hp.length_eq]
  simp only [List.length_append, List.length_map]
  omega

/-- **C79, order.** If asynchronous logging is switched on at most once, the entries that went through the channel are
written in the order in which they were accepted; and what was accepted stays accepted, so an entry whose call has returned
comes before every entry logged later. -/
theorem access_order {cap : Nat} {before after : List Op} {s s' : AccessLog.St} (h : play (init cap) before = some s)
    (h' : play s after = some s') (h1 : Spec.switchedOn (before ++ after) ≤ 1) :
    s.accepted <+: s'.accepted ∧ (s'.tries.filter (·.queued)).map (·.entry) <+: s'.accepted := by
  constructor
  · clear h h1
    induction after generalizing s with
    | nil => cases h'; exact List.prefix_refl _
    | cons op after ih =>
      unfold play at h'
      rw [Option.bind_eq_some_iff] at h'
      obtain ⟨t, e1, e2⟩ := h'
      exact (step_adds e1).2.1.trans (ih e2)
  · have hs := single_of (play_append.2 ⟨s, h, h'⟩) h1
    revert hs
    generalize Spec.switchedOn _ = n
    intro hs
    cases hs with
    | off h => rw [show (s'.tries.filter (·.queued)).map (·.entry) = [] from h.queued]; exact List.nil_prefix
    | making h => rw [show (s'.tries.filter (·.queued)).map (·.entry) = [] from h.queued]; exact List.nil_prefix
    | on h => exact ⟨_, h.accepted.symm⟩

/-- **C79, without asynchronous logging** nothing is queued and nothing is discarded: the callers write themselves. -/
theorem access_sync {cap : Nat} {ops : List Op} {s : AccessLog.St} (h : play (init cap) ops = some s)
    (h0 : Spec.switchedOn ops = 0) :
    s.count + s.reported = 0 ∧ s.accepted = [] ∧ ∀ t ∈ s.tries, t.queued = false := by
  have hs := single_of h (by omega)
  rw [h0] at hs
  cases hs with
  | off ho =>
    refine ⟨?_, ho.accepted, ?_⟩
    · rw [← (inv_of h).drop, ho.dropped]; rfl
    · have := ho.queued
      unfold AccessLog.queued at this
      intro t ht
      rw [List.map_eq_nil_iff, List.filter_eq_nil_iff] at this
      simpa using this t ht

theorem AccessLog.go_step {s t : AccessLog.St} {g : Nat} {a b : Act} (hg : s.gs[g]? = some a) (ha : AccessLog.act s a = some (t, b)) :
    step s (.go g) = some { t with gs := s.gs.set g b } := by
  simp only [step, hg, ha, Option.map_some]

theorem AccessLog.send_done {s : AccessLog.St} (hi : AccessLog.Inv s) {g id : Nat} {c : Option Nat}
    (hg : s.gs[g]? = some (.send id c)) : ∃ s', step s (.go g) = some s' ∧ s'.gs[g]? = some .done := by
  obtain ⟨hlt, _⟩ := List.getElem?_eq_some_iff.1 hg
  have : ∃ t, AccessLog.send s id c = some t := by
    unfold AccessLog.send
    cases c with
    | none => exact ⟨_, rfl⟩
    | some c =>
      have hc := hi.send id c (List.mem_of_getElem? hg)
      simp only [List.getElem?_eq_getElem hc]
      split <;> exact ⟨_, rfl⟩
  obtain ⟨t, ht⟩ := this
  refine ⟨{ t with gs := s.gs.set g .done }, ?_, ?_⟩
  · simp only [step, hg, AccessLog.act, ht, Option.map_some]
  · simp [hlt]

theorem AccessLog.release_done {s : AccessLog.St} {g id : Nat} (hg : s.gs[g]? = some (.release id)) :
    ∃ s', step s (.go g) = some s' ∧ s'.gs[g]? = some .done := by
  obtain ⟨hlt, _⟩ := List.getElem?_eq_some_iff.1 hg
  exact ⟨_, AccessLog.go_step hg rfl, by simp [hlt]⟩

theorem AccessLog.write_done {s : AccessLog.St} {g id : Nat} (hg : s.gs[g]? = some (.write id)) :
    ∃ t s', step s (.go g) = some t ∧ step t (.go g) = some s' ∧ s'.gs[g]? = some .done := by
  obtain ⟨hlt, _⟩ := List.getElem?_eq_some_iff.1 hg
  have e1 := AccessLog.go_step hg (t := AccessLog.write s id false) (b := .release id) rfl
  obtain ⟨s', e2, e3⟩ := AccessLog.release_done (s := { AccessLog.write s id false with gs := s.gs.set g (.release id) }) (g := g)
    (id := id) (by simp [hlt])
  exact ⟨_, s', e1, e2, e3⟩

/-- **C79, the callers never wait.** A goroutine that logs is done after at most three steps of its own, even if nobody
else moves: neither the file's goroutine nor a full channel holds up a request. -/
theorem access_never_waits {cap : Nat} {ops : List Op} {s : AccessLog.St} (h : play (init cap) ops = some s) {g : Nat} {a : Act}
    (hg : s.gs[g]? = some a) (ha : Spec.LogCaller a) :
    ∃ k s', k ≤ 3 ∧ play s (List.replicate k (.go g)) = some s' ∧ s'.gs[g]? = some .done := by
  obtain ⟨hlt, _⟩ := List.getElem?_eq_some_iff.1 hg
  have hi := inv_of h
  cases a with
  | send id c =>
    obtain ⟨s', e1, e2⟩ := AccessLog.send_done hi hg
    exact ⟨1, s', by omega, by simp [play, e1], e2⟩
  | write id =>
    obtain ⟨t, s', e1, e2, e3⟩ := AccessLog.write_done hg
    exact ⟨2, s', by omega, by simp only [List.replicate, play, e1, e2, Option.bind_some], e3⟩
  | release id =>
    obtain ⟨s', e1, e2⟩ := AccessLog.release_done hg
    exact ⟨1, s', by omega, by simp only [List.replicate, play, e1, Option.bind_some], e2⟩
  | log id =>
    have hs : step s (.go g) = some { s with gs := s.gs.set g (if s.async then .send id s.cur else .write id) } :=
      AccessLog.go_step hg rfl
    have hi' := AccessLog.inv_step hi hs
    cases ha : s.async with
    | true =>
      obtain ⟨s', e1, e2⟩ := AccessLog.send_done (g := g) (id := id) (c := s.cur) hi' (by simp [hlt, ha])
      exact ⟨2, s', by omega, by simp only [List.replicate, play, hs, e1, Option.bind_some], e2⟩
    | false =>
      obtain ⟨t, s', e1, e2, e3⟩ := AccessLog.write_done
        (s := { s with gs := s.gs.set g (if s.async then .send id s.cur else .write id) }) (g := g) (id := id) (by simp [hlt, ha])
      exact ⟨3, s', by omega, by simp only [List.replicate, play, hs, e1, e2, Option.bind_some], e3⟩
  | _ => cases ha

/-- **C79, why entries are discarded.** An entry is only discarded when the channel is full, or when asynchronous logging
is being switched on and there is no channel yet. No channel ever holds more than `log_buffer_size` entries. -/
theorem access_discarded {cap : Nat} {ops : List Op} {s : AccessLog.St} (h : play (init cap) ops = some s) :
    (∀ buf ∈ s.chans, buf.length ≤ cap) ∧
    ∀ op s', step s op = some s' → s.dropped.length < s'.dropped.length → ∃ id c, .send id c ∈ s.gs ∧
      (c = none ∨ ∃ n buf, c = some n ∧ s.chans[n]? = some buf ∧ cap ≤ buf.length) := by
  have key : ∀ (ops : List Op) (t : AccessLog.St), t.cap = cap → (∀ buf ∈ t.chans, buf.length ≤ cap) → play t ops = some s →
      s.cap = cap ∧ ∀ buf ∈ s.chans, buf.length ≤ cap := by
    intro ops
    induction ops with
    | nil => intro t h1 h2 h3; cases h3; exact ⟨h1, h2⟩
    | cons op ops ih =>
      intro t h1 h2 h3
      unfold play at h3
      rw [Option.bind_eq_some_iff] at h3
      obtain ⟨u, e1, e2⟩ := h3
      obtain ⟨k1, _, _, _, _, k2⟩ := step_adds e1
      rw [h1] at k1 k2
      exact ih u k1 (k2 h2) e2
  obtain ⟨k1, k2⟩ := key ops (init cap) rfl (fun _ h => by cases h) h
  refine ⟨k2, ?_⟩
  intro op s' hs hlt
  obtain ⟨id, c, hm, hc⟩ := (step_adds hs).2.2.2.2.1 hlt
  rw [k1] at hc
  exact ⟨id, c, hm, hc⟩

theorem AccessLog.switch_kept {ops : List Op} {s s' : AccessLog.St} (h : play s ops = some s') (hno : ∀ b, .setShown b ∉ ops) :
    s'.shown = s.shown ∧ ∃ new, s'.tries = s.tries ++ new ∧ ∀ t ∈ new, t.shown = s.shown := by
  induction ops generalizing s with
  | nil => cases h; exact ⟨rfl, [], by simp, by simp⟩
  | cons op ops ih =>
    unfold play at h
    rw [Option.bind_eq_some_iff] at h
    obtain ⟨t, e1, e2⟩ := h
    obtain ⟨_, _, ⟨n1, k1, k2⟩, k3, _⟩ := step_adds e1
    have k3 := k3 (fun b e => hno b (by rw [e]; exact List.mem_cons_self ..))
    obtain ⟨j1, n2, j2, j3⟩ := ih e2 (fun b hb => hno b (List.mem_cons_of_mem _ hb))
    refine ⟨j1.trans k3, n1 ++ n2, by rw [j2, k1, List.append_assoc], ?_⟩
    intro x hx
    rcases List.mem_append.1 hx with hx | hx
    · exact k2 x hx
    · rw [j3 x hx, k3]

/-- **C79, the switch.** After `SetAccessLogAvailable(b)`, and as long as it is not called again, exactly the entries
written are shown if `b` is true, and none if it is false. What was written before stays as it was. -/
theorem access_switch {ops : List Op} {b : Bool} {s s' : AccessLog.St} (h : play s (.setShown b :: ops) = some s')
    (hno : ∀ b, .setShown b ∉ ops) : ∃ new, s'.tries = s.tries ++ new ∧ ∀ t ∈ new, t.shown = b :=
  (AccessLog.switch_kept (s := { s with shown := b }) h hno).2

/-! ## The lines -/

/-- An entry whose fields do not contain the separator or the end of line. (The exception may contain the separator: it
is the text of a JSON object, with messages from elsewhere in it.) -/
structure Spec.PlainEntry (e : Entry) : Prop where
  bars : ∀ f ∈ [e.filterName, e.role, e.service, e.method, e.desc, e.remoteAddress, e.responseCode, e.upstreamCode],
    (124 : UInt8) ∉ f
  lines : ∀ f ∈ [e.filterName, e.role, e.service, e.method, e.desc, e.remoteAddress, e.responseCode, e.exception,
    e.upstreamCode], (10 : UInt8) ∉ f
  id : e.requestID < 2 ^ 64
  numbers : ∀ n ∈ [e.reqSize, e.resSize, e.bizTime, e.totalTime], -2 ^ 63 ≤ n ∧ n < 2 ^ 63

theorem field_left {c : UInt8} {a a' r r' : Bytes} (h : a ++ c :: r = a' ++ c :: r') (ha : c ∉ a) (ha' : c ∉ a') :
    a = a' ∧ r = r' := by
  induction a generalizing a' with
  | nil =>
    cases a' with
    | nil => injection h with _ h; exact ⟨rfl, h⟩
    | cons x a' => injection h with h _; exact absurd (by rw [h]; exact List.mem_cons_self ..) ha'
  | cons x a ih =>
    cases a' with
    | nil => injection h with h _; exact absurd (by rw [h]; exact List.mem_cons_self ..) ha
    | cons y a' =>
      injection h with h1 h2
      obtain ⟨e1, e2⟩ := ih h2 (fun hm => ha (List.mem_cons_of_mem _ hm)) (fun hm => ha' (List.mem_cons_of_mem _ hm))
      exact ⟨by rw [h1, e1], e2⟩

theorem field_right {c : UInt8} {a a' r r' : Bytes} (h : a ++ c :: r = a' ++ c :: r') (hr : c ∉ r) (hr' : c ∉ r') :
    a = a' ∧ r = r' := by
  have := congrArg List.reverse h
  simp only [List.reverse_append, List.reverse_cons, List.append_assoc, List.singleton_append] at this
  obtain ⟨e1, e2⟩ := field_left this (by simpa using hr) (by simpa using hr')
  exact ⟨List.reverse_inj.1 e2, List.reverse_inj.1 e1⟩

theorem digits_no_bar (n : Nat) : (124 : UInt8) ∉ natDigits n ∧ (10 : UInt8) ∉ natDigits n := by
  constructor <;> intro h <;> exact absurd (natDigits_digit n _ h) (by decide)

theorem int_no_bar (n : Int) : (124 : UInt8) ∉ formatInt n ∧ (10 : UInt8) ∉ formatInt n := by
  constructor <;> intro h <;> exact absurd (formatInt_mem n _ h) (by decide)

theorem bool_no_bar (b : Bool) : (124 : UInt8) ∉ AccessLog.boolString b ∧ (10 : UInt8) ∉ AccessLog.boolString b := by
  cases b <;> decide

/-- **C79, a line** says what the entry said: two entries with the same line are the same. -/
theorem access_line_readable {e e' : Entry} (h : Spec.PlainEntry e) (h' : Spec.PlainEntry e')
    (heq : AccessLog.line e = AccessLog.line e') : e = e' := by
  have hb := h.bars; have hb' := h'.bars
  have hn := h.numbers; have hn' := h'.numbers
  simp only [List.mem_cons, List.not_mem_nil, or_false, forall_eq_or_imp, forall_eq] at hb hb' hn hn'
  obtain ⟨a1, a2, a3, a4, a5, a6, a7, a8⟩ := hb
  obtain ⟨b1, b2, b3, b4, b5, b6, b7, b8⟩ := hb'
  obtain ⟨n1, n2, n3, n4⟩ := hn
  obtain ⟨m1, m2, m3, m4⟩ := hn'
  unfold AccessLog.line at heq
  simp only [List.append_assoc, List.singleton_append, List.cons_append, List.nil_append] at heq
  obtain ⟨c1, heq⟩ := field_left heq a1 b1
  obtain ⟨c2, heq⟩ := field_left heq a2 b2
  obtain ⟨c3, heq⟩ := field_left heq (digits_no_bar _).1 (digits_no_bar _).1
  obtain ⟨c4, heq⟩ := field_left heq a3 b3
  obtain ⟨c5, heq⟩ := field_left heq a4 b4
  obtain ⟨c6, heq⟩ := field_left heq a5 b5
  obtain ⟨c7, heq⟩ := field_left heq a6 b6
  obtain ⟨c8, heq⟩ := field_left heq (int_no_bar _).1 (int_no_bar _).1
  obtain ⟨c9, heq⟩ := field_left heq (int_no_bar _).1 (int_no_bar _).1
  obtain ⟨c10, heq⟩ := field_left heq (int_no_bar _).1 (int_no_bar _).1
  obtain ⟨c11, heq⟩ := field_left heq (int_no_bar _).1 (int_no_bar _).1
  obtain ⟨c12, heq⟩ := field_left heq (bool_no_bar _).1 (bool_no_bar _).1
  obtain ⟨c13, heq⟩ := field_left heq a7 b7
  obtain ⟨c14, c15⟩ := field_right heq a8 b8
  have d3 : e.requestID = e'.requestID := by
    have := parseUint64_natDigits e.requestID h.id
    rw [c3, parseUint64_natDigits _ h'.id] at this
    injection this with this; exact this.symm
  have d12 : e.success = e'.success := by
    revert c12
    cases e.success <;> cases e'.success <;> decide
  have d8 := formatInt_injective n1.1 n1.2 m1.1 m1.2 c8
  have d9 := formatInt_injective n2.1 n2.2 m2.1 m2.2 c9
  have d10 := formatInt_injective n3.1 n3.2 m3.1 m3.2 c10
  have d11 := formatInt_injective n4.1 n4.2 m4.1 m4.2 c11
  cases e; cases e'
  simp_all

/-- The parts of a line between the bars. -/
def Spec.barFields : Bytes → List Bytes
  | [] => [[]]
  | c :: r =>
    if c = 124 then [] :: Spec.barFields r
    else match Spec.barFields r with
      | [] => [[c]]
      | f :: fs => (c :: f) :: fs

theorem barFields_cons {a : Bytes} (h : (124 : UInt8) ∉ a) (r : Bytes) : Spec.barFields (a ++ 124 :: r) = a :: Spec.barFields r := by
  induction a with
  | nil => simp [Spec.barFields]
  | cons c a ih =>
    have hc : c ≠ 124 := fun e => h (by simp [e])
    simp only [List.cons_append, Spec.barFields, if_neg hc, ih fun hm => h (List.mem_cons_of_mem _ hm)]

theorem barFields_plain {a : Bytes} (h : (124 : UInt8) ∉ a) : Spec.barFields a = [a] := by
  induction a with
  | nil => rfl
  | cons c a ih =>
    have hc : c ≠ 124 := fun e => h (by simp [e])
    simp only [Spec.barFields, if_neg hc, ih fun hm => h (List.mem_cons_of_mem _ hm)]

theorem barFields_ne (x : Bytes) : Spec.barFields x ≠ [] := by
  cases x with
  | nil => simp [Spec.barFields]
  | cons c x =>
    simp only [Spec.barFields]
    split
    · simp
    · split <;> simp

theorem barFields_last {u : Bytes} (h : (124 : UInt8) ∉ u) (x : Bytes) : Spec.barFields (x ++ 124 :: u) = Spec.barFields x ++ [u] := by
  induction x with
  | nil => simp [Spec.barFields, barFields_plain h]
  | cons c x ih =>
    simp only [List.cons_append, Spec.barFields, ih]
    split
    · rfl
    · cases hx : Spec.barFields x with
      | nil => exact absurd hx (barFields_ne x)
      | cons f fs => rfl

/-- **C79, a line** has the fields of its entry in a fixed order between bars: the exception, which may have bars in it, stands between
the thirteenth field and the last one. -/
theorem access_line_fields {e : Entry} (h : Spec.PlainEntry e) :
    Spec.barFields (AccessLog.line e) =
      [e.filterName, e.role, natDigits e.requestID, e.service, e.method, e.desc, e.remoteAddress, formatInt e.reqSize,
        formatInt e.resSize, formatInt e.bizTime, formatInt e.totalTime, if e.success then b!"true" else b!"false", e.responseCode] ++
      Spec.barFields e.exception ++ [e.upstreamCode] := by
  have hb := h.bars
  simp only [List.mem_cons, List.not_mem_nil, or_false, forall_eq_or_imp, forall_eq] at hb
  obtain ⟨a1, a2, a3, a4, a5, a6, a7, a8⟩ := hb
  have hs : AccessLog.boolString e.success = if e.success then b!"true" else b!"false" := rfl
  unfold AccessLog.line
  simp only [List.append_assoc, List.singleton_append, List.cons_append, List.nil_append]
  rw [barFields_cons a1, barFields_cons a2, barFields_cons (digits_no_bar _).1, barFields_cons a3, barFields_cons a4, barFields_cons a5,
    barFields_cons a6, barFields_cons (int_no_bar _).1, barFields_cons (int_no_bar _).1, barFields_cons (int_no_bar _).1,
    barFields_cons (int_no_bar _).1, barFields_cons (bool_no_bar _).1, barFields_cons a7, barFields_last a8, hs]

/-- **C79, a structured line** is an object of fifteen names, each once, and each name has what the entry says under it, as a text, a number
or a truth value. -/
theorem access_structured_fields (e : Entry) :
    ((AccessLog.structured e).map Prod.fst).Nodup ∧ (AccessLog.structured e).length = 15 ∧
    (∀ p ∈ [(b!"filterName", e.filterName), (b!"role", e.role), (b!"service", e.service), (b!"method", e.method), (b!"desc", e.desc),
        (b!"remoteAddress", e.remoteAddress), (b!"responseCode", e.responseCode), (b!"exception", e.exception),
        (b!"upstreamCode", e.upstreamCode)], (p.1, AccessLog.Field.text p.2) ∈ AccessLog.structured e) ∧
    (∀ p ∈ [(b!"requestID", (e.requestID : Int)), (b!"reqSize", e.reqSize), (b!"resSize", e.resSize), (b!"bizTime", e.bizTime),
        (b!"totalTime", e.totalTime)], (p.1, AccessLog.Field.number p.2) ∈ AccessLog.structured e) ∧
    (b!"success", AccessLog.Field.flag e.success) ∈ AccessLog.structured e := by
  refine ⟨?_, rfl, ?_, ?_, ?_⟩
  · simp only [AccessLog.structured, List.map_cons, List.map_nil]; decide +kernel
  · simp [AccessLog.structured]
  · simp [AccessLog.structured]
  · simp [AccessLog.structured]

/-- **C79, a structured line** tells the entry, whatever is in its fields and in whatever order they are read. -/
theorem access_structured_readable {e e' : Entry} (h : ∀ x, x ∈ AccessLog.structured e ↔ x ∈ AccessLog.structured e') : e = e' := by
  obtain ⟨-, -, ht, hn, hf⟩ := access_structured_fields e
  have same : ∀ k a b, (k, a) ∈ AccessLog.structured e → (k, b) ∈ AccessLog.structured e' → a = b := by
    intro k a b ha hb
    have hb := (h _).mpr hb
    have key : ∀ (l : List (Bytes × AccessLog.Field)), (l.map Prod.fst).Nodup → (k, a) ∈ l → (k, b) ∈ l → a = b := by
      intro l
      induction l with
      | nil => intro _ h; cases h
      | cons x l ih =>
        intro hd h1 h2
        rw [List.map_cons, List.nodup_cons] at hd
        rcases List.mem_cons.1 h1 with e1 | h1 <;> rcases List.mem_cons.1 h2 with e2 | h2
        · rw [← e1] at e2; injection e2 with _ e2; exact e2.symm
        · exact absurd (List.mem_map.2 ⟨_, h2, by rw [← e1]⟩) hd.1
        · exact absurd (List.mem_map.2 ⟨_, h1, by rw [← e2]⟩) hd.1
        · exact ih hd.2 h1 h2
    exact key _ (access_structured_fields e).1 ha hb
  obtain ⟨-, -, ht', hn', hf'⟩ := access_structured_fields e'
  simp only [List.mem_cons, List.not_mem_nil, or_false, forall_eq_or_imp, forall_eq] at ht ht' hn hn'
  obtain ⟨t1, t2, t3, t4, t5, t6, t7, t8, t9⟩ := ht
  obtain ⟨u1, u2, u3, u4, u5, u6, u7, u8, u9⟩ := ht'
  obtain ⟨n1, n2, n3, n4, n5⟩ := hn
  obtain ⟨m1, m2, m3, m4, m5⟩ := hn'
  have d1 := same _ _ _ t1 u1
  have d2 := same _ _ _ t2 u2
  have d3 := same _ _ _ t3 u3
  have d4 := same _ _ _ t4 u4
  have d5 := same _ _ _ t5 u5
  have d6 := same _ _ _ t6 u6
  have d7 := same _ _ _ t7 u7
  have d8 := same _ _ _ t8 u8
  have d9 := same _ _ _ t9 u9
  have c1 := same _ _ _ n1 m1
  have c2 := same _ _ _ n2 m2
  have c3 := same _ _ _ n3 m3
  have c4 := same _ _ _ n4 m4
  have c5 := same _ _ _ n5 m5
  have f1 := same _ _ _ hf hf'
  cases e; cases e'
  simp only [AccessLog.Field.text.injEq, AccessLog.Field.number.injEq, AccessLog.Field.flag.injEq, Int.ofNat_inj] at d1 d2 d3 d4 d5 d6 d7 d8 d9 c1 c2 c3 c4 c5 f1
  simp_all

/-- The two entries of `access_line_violated`, which have one plain line, have different structured ones. -/
example : ¬ ∀ x, x ∈ AccessLog.structured { method := b!"m|d", desc := b!"e" } ↔ x ∈ AccessLog.structured { method := b!"m", desc := b!"d|e" } :=
  fun h => absurd (access_structured_readable h) (by decide)

theorem line_one {e : Entry} (h : Spec.PlainEntry e) : (10 : UInt8) ∉ AccessLog.line e := by
  have hb := h.lines
  simp only [List.mem_cons, List.not_mem_nil, or_false, forall_eq_or_imp, forall_eq] at hb
  have hd := (digits_no_bar e.requestID).2
  have h1 := (int_no_bar e.reqSize).2
  have h2 := (int_no_bar e.resSize).2
  have h3 := (int_no_bar e.bizTime).2
  have h4 := (int_no_bar e.totalTime).2
  have h5 := (bool_no_bar e.success).2
  unfold AccessLog.line
  simp only [List.mem_append, hd, h1, h2, h3, h4, h5, hb, List.mem_singleton, not_or]
  decide

/-- **C79, the file** says which entries were logged, in which order: two loggers that wrote the same bytes were given the
same entries to show. -/
theorem access_file_readable {s s' : AccessLog.St} (h : ∀ t ∈ s.tries, Spec.PlainEntry t.entry)
    (h' : ∀ t ∈ s'.tries, Spec.PlainEntry t.entry) (heq : AccessLog.file s = AccessLog.file s') :
    (s.tries.filter (·.shown)).map (·.entry) = (s'.tries.filter (·.shown)).map (·.entry) := by
  have key : ∀ l l' : List Try, (∀ t ∈ l, Spec.PlainEntry t.entry) → (∀ t ∈ l', Spec.PlainEntry t.entry) →
      (l.map fun t => AccessLog.line t.entry ++ b!"\n").flatten = (l'.map fun t => AccessLog.line t.entry ++ b!"\n").flatten →
      l.map (·.entry) = l'.map (·.entry) := by
    intro l
    induction l with
    | nil =>
      intro l' _ _ he
      cases l' with
      | nil => rfl
      | cons t l' => simp at he
    | cons t l ih =>
      intro l' h h' he
      cases l' with
      | nil => simp at he
      | cons t' l' =>
        simp only [List.map_cons, List.flatten_cons, List.append_assoc, List.singleton_append] at he
        have p := h t (List.mem_cons_self ..)
        have p' := h' t' (List.mem_cons_self ..)
        obtain ⟨e1, e2⟩ := field_left he (line_one p) (line_one p')
        simp only [List.map_cons]
        rw [access_line_readable p p' e1, ih l' (fun t ht => h t (List.mem_cons_of_mem _ ht)) (fun t ht => h' t (List.mem_cons_of_mem _ ht)) e2]
  exact key _ _ (fun t ht => h t (List.mem_filter.1 ht).1) (fun t ht => h' t (List.mem_filter.1 ht).1) heq

/-! ## Where it fails -/

theorem AccessLog.shows {s : AccessLog.St} {ops : List Op} {f : AccessLog.St → Bool}
    (h : (play s ops).any (fun s => (List.range s.gs.length).all (fun g => (step s (.go g)).isNone) && f s) = true) :
    ∃ s', play s ops = some s' ∧ Spec.AtRest s' ∧ f s' = true := by
  cases hp : play s ops with
  | none => rw [hp] at h; cases h
  | some s' =>
    rw [hp] at h
    simp only [Option.any_some, Bool.and_eq_true, List.all_eq_true, List.mem_range, Option.isNone_iff_eq_none] at h
    refine ⟨s', rfl, fun g => ?_, h.2⟩
    by_cases hg : g < s'.gs.length
    · exact h.1 g hg
    · simp only [step, List.getElem?_eq_none (Nat.le_of_not_lt hg)]

/-- Switching asynchronous logging on a second time can lose entries: the goroutine that was to write them looks at the
new channel. The entry is neither written nor counted, and all goroutines are at rest. -/
theorem access_twice_violated : ∃ (ops : List Op) (s : AccessLog.St), play (init 5000) ops = some s ∧ Spec.switchedOn ops = 2 ∧
    Spec.AtRest s ∧ s.began.length = 1 ∧ s.tries = [] ∧ s.count + s.reported = 0 := by
  obtain ⟨s, h1, h2, h3⟩ := AccessLog.shows (s := init 5000)
    (ops := [.setAsync true, .go 0, .go 0, .begin { service := b!"s" } none, .go 1, .go 1, .setAsync true, .go 2, .go 2, .go 2, .go 0])
    (f := fun s => s.began.length = 1 ∧ s.tries = [] ∧ s.count + s.reported = 0) (by decide +kernel)
  exact ⟨_, s, h1, by decide, h2, by simpa using h3⟩

/-- Without the hypothesis on the fields, different entries have the same line: a method name with a separator in it reads
as a description. -/
theorem access_line_violated : ∃ e e' : Entry, e ≠ e' ∧ AccessLog.line e = AccessLog.line e' :=
  ⟨{ method := b!"m|d", desc := b!"e" }, { method := b!"m", desc := b!"d|e" }, by decide, by decide +kernel⟩

/-! ## The hypotheses are met -/

/-- A caller logs and the goroutine writes; a second entry meets a full channel; a third takes the released entity. -/
def exAccess : List Op :=
  [.setAsync true, .go 0, .go 0, .begin { service := b!"a" } none, .begin { service := b!"b" } none, .go 1, .go 2, .go 1, .go 2,
   .go 0, .go 0, .go 0, .go 0, .begin { service := b!"c" } (some 0), .go 3, .go 3, .go 0, .go 0, .go 0, .go 0, .go 0]

example : Spec.switchedOn exAccess = 1 ∧ ∃ s, play (init 1) exAccess = some s ∧ Spec.AtRest s ∧
    s.tries.map (·.entry.service) = [b!"a", b!"c"] ∧ s.count = 1 ∧ s.next = 2 := by
  obtain ⟨s, h1, h2, h3⟩ := AccessLog.shows (s := init 1) (ops := exAccess)
    (f := fun s => s.tries.map (·.entry.service) = [b!"a", b!"c"] ∧ s.count = 1 ∧ s.next = 2) (by decide +kernel)
  exact ⟨by decide, s, h1, h2, by simpa using h3⟩

example : Spec.barFields (AccessLog.line { filterName := b!"accessLog", role := b!"server", success := true, exception := b!"x|y" }) =
    [b!"accessLog", b!"server", b!"0", [], [], [], [], b!"0", b!"0", b!"0", b!"0", b!"true", [], b!"x", b!"y", []] :=
  (access_line_fields ⟨by decide, by decide, by decide, by decide⟩).trans (by decide +kernel)

example : Spec.PlainEntry { filterName := b!"accessLog", role := b!"server", service := b!"a.B", exception := b!"{\"errmsg\":\"x|y\"}" } :=
  ⟨by decide, by decide, by decide, by decide⟩

end Motan.Props
