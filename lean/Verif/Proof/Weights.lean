import Verif.Model.Weights

/-!
# Lemmas about the refresher of weights
-/

namespace Motan.Weights

variable {E : Type} [DecidableEq E]

/-! ## The holders of a new list -/

omit [DecidableEq E] in
theorem getElem?_append_old {heap ext : List (Holder E)} {i : Nat} (h : i < heap.length) :
    (heap ++ ext)[i]? = heap[i]? := List.getElem?_append_left h

theorem findHolder_some {heap : List (Holder E)} {old : List Nat} {e : E} {i : Nat}
    (h : findHolder heap old e = some i) : i ∈ old ∧ ∃ hd, heap[i]? = some hd ∧ hd.ep = e := by
  refine ⟨List.mem_of_find?_eq_some h, ?_⟩
  have := List.find?_some h
  simp only [decide_eq_true_eq] at this
  cases hh : heap[i]? with
  | none => rw [hh] at this; cases this
  | some hd => rw [hh] at this; exact ⟨hd, rfl, Option.some.inj this⟩

/-- What the loop over the new endpoints leaves. -/
theorem build_spec (env : Env E) (old : List Nat) : ∀ (eps : List E) (heap : List (Holder E)),
    (∀ h ∈ old, h < heap.length) →
    ∀ heap' all new, build env old eps heap = (heap', all, new) →
      (∃ ext, heap' = heap ++ ext) ∧
      all.map (fun i => (heap'[i]?).map Holder.ep) = eps.map some ∧
      (∀ h ∈ all, h < heap'.length) ∧
      (∀ h ∈ new, heap.length ≤ h ∧ h < heap'.length) ∧
      (∀ h ∈ all, h ∈ old ∨ h ∈ new) ∧ (∀ h ∈ new, h ∈ all) ∧ new.Nodup ∧
      (∀ i hd, heap.length ≤ i → heap'[i]? = some hd → ∃ e ∈ eps, hd = newHolder env e) := by
  intro eps
  induction eps with
  | nil =>
    intro heap hold heap' all new h
    simp only [build, Prod.mk.injEq] at h
    obtain ⟨rfl, rfl, rfl⟩ := h
    refine ⟨⟨[], by simp⟩, rfl, by simp, by simp, by simp, by simp, by simp, ?_⟩
    intro i hd hi hh
    rw [List.getElem?_eq_none hi] at hh; cases hh
  | cons e eps ih =>
    intro heap hold heap' all new h
    rw [build] at h
    cases hf : findHolder heap old e with
    | some i =>
      rw [hf] at h
      cases hb : build env old eps heap with
      | mk hp r =>
        obtain ⟨al, nw⟩ := r
        rw [hb] at h
        simp only [Prod.mk.injEq] at h
        obtain ⟨rfl, rfl, rfl⟩ := h
        obtain ⟨⟨ext, rfl⟩, h2, h3, h4, h5, h6, h7, h8⟩ := ih heap hold _ _ _ hb
        obtain ⟨hio, hd, hg, he⟩ := findHolder_some hf
        have hil := hold i hio
        refine ⟨⟨ext, rfl⟩, ?_, ?_, h4, ?_, ?_, h7, ?_⟩
        · simp only [List.map_cons, h2, getElem?_append_old hil, hg, Option.map_some, he]
        · intro h hm
          rcases List.mem_cons.1 hm with rfl | hm
          · simp; omega
          · exact h3 h hm
        · intro h hm
          rcases List.mem_cons.1 hm with rfl | hm
          · exact .inl hio
          · exact h5 h hm
        · intro h hm; exact List.mem_cons_of_mem _ (h6 h hm)
        · intro j hd' hj hh
          obtain ⟨e', he', hq⟩ := h8 j hd' hj hh
          exact ⟨e', List.mem_cons_of_mem _ he', hq⟩
    | none =>
      rw [hf] at h
      cases hb : build env old eps (heap ++ [newHolder env e]) with
      | mk hp r =>
        obtain ⟨al, nw⟩ := r
        rw [hb] at h
        simp only [Prod.mk.injEq] at h
        obtain ⟨rfl, rfl, rfl⟩ := h
        have hold' : ∀ h ∈ old, h < (heap ++ [newHolder env e]).length := by
          intro h hm; have := hold h hm; simp; omega
        obtain ⟨⟨ext, rfl⟩, h2, h3, h4, h5, h6, h7, h8⟩ := ih _ hold' _ _ _ hb
        have hlen : heap.length < (heap ++ [newHolder env e] ++ ext).length := by simp
        have hget : (heap ++ [newHolder env e] ++ ext)[heap.length]? = some (newHolder env e) := by simp
        refine ⟨⟨newHolder env e :: ext, by simp⟩, ?_, ?_, ?_, ?_, ?_, ?_, ?_⟩
        · simp only [List.map_cons, h2, hget, Option.map_some]; rfl
        · intro h hm
          rcases List.mem_cons.1 hm with rfl | hm
          · exact hlen
          · exact h3 h hm
        · intro h hm
          rcases List.mem_cons.1 hm with rfl | hm
          · exact ⟨Nat.le_refl _, hlen⟩
          · have := h4 h hm
            simp only [List.length_append, List.length_cons, List.length_nil] at this ⊢
            omega
        · intro h hm
          rcases List.mem_cons.1 hm with rfl | hm
          · exact .inr List.mem_cons_self
          · rcases h5 h hm with h | h
            · exact .inl h
            · exact .inr (List.mem_cons_of_mem _ h)
        · intro h hm
          rcases List.mem_cons.1 hm with rfl | hm
          · exact List.mem_cons_self
          · exact List.mem_cons_of_mem _ (h6 h hm)
        · refine List.nodup_cons.2 ⟨fun hm => ?_, h7⟩
          have := (h4 _ hm).1
          simp only [List.length_append, List.length_cons, List.length_nil] at this
          omega
        · intro j hd' hj hh
          by_cases hq : j = heap.length
          · subst hq
            rw [hget] at hh
            exact ⟨e, List.mem_cons_self, (Option.some.inj hh).symm⟩
          · obtain ⟨e', he', hq⟩ := h8 j hd' (by simp; omega) hh
            exact ⟨e', List.mem_cons_of_mem _ he', hq⟩

/-- An endpoint that was there keeps its holder. -/
theorem build_kept (env : Env E) (old : List Nat) : ∀ (eps : List E) (heap : List (Holder E)),
    (∀ h ∈ old, h < heap.length) →
    ∀ heap' all new, build env old eps heap = (heap', all, new) →
      ∀ (k : Nat) (e : E), eps[k]? = some e → ∀ i, findHolder heap old e = some i → all[k]? = some i := by
  intro eps
  induction eps with
  | nil => intro heap _ _ _ _ _ k e he; simp at he
  | cons e0 eps ih =>
    intro heap hold heap' all new h k e he i hi
    have hsame : ∀ x, findHolder (heap ++ [x]) old e = findHolder heap old e := by
      intro x
      unfold findHolder
      have : ∀ (l : List Nat), (∀ h ∈ l, h < heap.length) →
          l.find? (fun i => decide (((heap ++ [x])[i]?).map Holder.ep = some e)) =
          l.find? (fun i => decide ((heap[i]?).map Holder.ep = some e)) := by
        intro l
        induction l with
        | nil => intro _; rfl
        | cons a l ihl =>
          intro hl
          simp only [List.find?_cons, getElem?_append_old (hl a List.mem_cons_self),
            ihl (fun h hm => hl h (List.mem_cons_of_mem _ hm))]
      exact this old hold
    rw [build] at h
    cases hf : findHolder heap old e0 with
    | some j =>
      rw [hf] at h
      cases hb : build env old eps heap with
      | mk hp r =>
        obtain ⟨al, nw⟩ := r
        rw [hb] at h
        simp only [Prod.mk.injEq] at h
        obtain ⟨rfl, rfl, rfl⟩ := h
        cases k with
        | zero =>
          simp only [List.getElem?_cons_zero, Option.some.injEq] at he ⊢
          subst he; rw [hf] at hi; exact Option.some.inj hi
        | succ k =>
          simp only [List.getElem?_cons_succ] at he ⊢
          exact ih heap hold _ _ _ hb k e he i hi
    | none =>
      rw [hf] at h
      cases hb : build env old eps (heap ++ [newHolder env e0]) with
      | mk hp r =>
        obtain ⟨al, nw⟩ := r
        rw [hb] at h
        simp only [Prod.mk.injEq] at h
        obtain ⟨rfl, rfl, rfl⟩ := h
        cases k with
        | zero =>
          simp only [List.getElem?_cons_zero, Option.some.injEq] at he
          subst he; rw [hf] at hi; cases hi
        | succ k =>
          simp only [List.getElem?_cons_succ] at he ⊢
          refine ih _ ?_ _ _ _ hb k e he i ((hsame _).trans hi)
          intro h hm; have := hold h hm; simp; omega

theorem run_append (env : Env E) : ∀ (ops ops' : List (Op E)) (s : St E),
    run env s (ops ++ ops') = (run env s ops).bind fun s' => run env s' ops' := by
  intro ops ops'
  induction ops with
  | nil => intro s; rfl
  | cons op ops ih =>
    intro s
    simp only [List.cons_append, run]
    cases step env s op with
    | none => rfl
    | some s1 => simp only [Option.bind_some, ih]

/-- Induction along a schedule, whose end is the last operation. -/
theorem run_induct (env : Env E) (P : List (Op E) → St E → Prop) (h0 : P [] init)
    (hs : ∀ ops s op s', run env init ops = some s → P ops s → step env s op = some s' → P (ops ++ [op]) s') :
    ∀ ops s, run env init ops = some s → P ops s := by
  have key : ∀ (rest done : List (Op E)) (s s' : St E), run env init done = some s → P done s →
      run env s rest = some s' → P (done ++ rest) s' := by
    intro rest
    induction rest with
    | nil => intro done s s' _ hp h; simp only [run, Option.some.injEq] at h; subst h; simpa using hp
    | cons op rest ih =>
      intro done s s' hd hp h
      simp only [run] at h
      cases hst : step env s op with
      | none => rw [hst] at h; cases h
      | some s1 =>
        rw [hst] at h
        have hr : run env init (done ++ [op]) = some s1 := by
          rw [run_append, hd]; simp [run, hst]
        have := ih (done ++ [op]) s1 s' hr (hs done s op s1 hd hp hst) h
        simpa using this
  intro ops s h
  simpa using key ops [] init s rfl h0 h

/-! ## The invariant of schedules without timeouts -/

/-- The weight a holder has now. -/
def W (s : St E) (h : Nat) : Option Int := (s.heap[h]?).map Holder.weight

/-- All holders that somebody uses, except those that `OnRefresh` is about to add, are below `n`. -/
structure Below (s : St E) (n : Nat) : Prop where
  cur : ∀ cs, s.current = some cs → ∀ h ∈ cs, h < n
  sel : ∀ hs ws, s.selector = some (hs, ws) → ∀ h ∈ hs, h < n
  task : ∀ all b, s.tick = .fetching all b → ∀ t ∈ b.tasks, t.holder < n
  readR : ∀ hs ws, s.refresh = .reading hs ws → ∀ h ∈ hs, h < n
  readT : ∀ hs ws, s.tick = .reading hs ws → ∀ h ∈ hs, h < n

/-- A tick has changed the weight of the holder and is going to notify. -/
def Evidence (s : St E) (h : Nat) : Prop :=
  ∃ all b, s.tick = .fetching all b ∧
    (b.flag = true ∨ ∃ t ∈ b.tasks, t.holder = h ∧ ∃ old, t.prog = .wrote old ∧
      (s.heap[h]?).map Holder.dynamic ≠ some old)

/-- Somebody is going to set the selector anew. -/
def Renewing (s : St E) : Prop :=
  s.refresh = .locking ∨ s.tick = .locking ∨ (∃ hs ws, s.refresh = .reading hs ws) ∨ (∃ hs ws, s.tick = .reading hs ws)

structure Inv (s : St E) : Prop where
  alive : s.crashed = false
  noStray : s.stray = []
  excl : ∀ hs ws hs' ws', s.refresh = .reading hs ws → s.tick ≠ .reading hs' ws'
  tickShape : ∀ all, s.tick ≠ .storing all
  below : Below s s.heap.length
  curNodup : ∀ cs, s.current = some cs → cs.Nodup
  storeIds : ∀ all, s.refresh = .storing all → all.Nodup ∧ ∀ h ∈ all, h < s.heap.length
  fetchIds : ∀ all b, s.refresh = .fetching all b → all.Nodup ∧ ∀ h ∈ all, h < s.heap.length
  fresh : ∀ all b, s.refresh = .fetching all b → ∃ n, Below s n ∧ ∀ t ∈ b.tasks, n ≤ t.holder
  tickNodup : ∀ all b, s.tick = .fetching all b → (b.tasks.map Task.holder).Nodup
  asking : ∀ all b, s.tick = .fetching all b → ∀ t ∈ b.tasks, ∀ old, t.prog = .asking old →
    (s.heap[t.holder]?).map Holder.dynamic = some old
  sendDone : ∀ all b, s.tick = .fetching all b → b.sending = true → ∀ t ∈ b.tasks, t.prog = .done
  readLenR : ∀ hs ws, s.refresh = .reading hs ws → ws.length ≤ hs.length
  readLenT : ∀ hs ws, s.tick = .reading hs ws → ws.length ≤ hs.length
  selLen : ∀ hs ws, s.selector = some (hs, ws) → ws.length = hs.length
  selCur : s.current = none → s.selector = none
  hasSel : ∀ cs, s.current = some cs →
    s.refresh = .locking ∨ (∃ ws, s.refresh = .reading cs ws) ∨ ∃ ws, s.selector = some (cs, ws)
  readCur : ∀ hs ws, s.refresh = .reading hs ws → s.current = some hs
  tickCur : ∀ hs ws, s.tick = .reading hs ws → s.current = some hs ∨ s.refresh = .locking
  right : ∀ hs ws, s.selector = some (hs, ws) → ∀ (i h : Nat) (x : Int), hs[i]? = some h → ws[i]? = some x →
    W s h = some x ∨ Evidence s h ∨ Renewing s
  rightR : ∀ hs ws, s.refresh = .reading hs ws → ∀ (i h : Nat) (x : Int), hs[i]? = some h → ws[i]? = some x →
    W s h = some x ∨ Evidence s h ∨ s.tick = .locking
  rightT : ∀ hs ws, s.tick = .reading hs ws → ∀ (i h : Nat) (x : Int), hs[i]? = some h → ws[i]? = some x →
    W s h = some x ∨ s.refresh = .locking
  tickRead : ∀ hs ws, s.tick = .reading hs ws → s.current ≠ none

omit [DecidableEq E] in
theorem inv_init : Inv (init : St E) := by
  constructor <;>
    first | rfl | (constructor <;> intros <;> simp_all [init]; done) | (intros; simp_all [init]; done)

/-- A step of the goroutine of `OnRefresh`, or of those that ask for it, that does not concern the selector. -/
theorem inv_refresh_move {s s' : St E} (inv : Inv s) (n : Nat) (hn : Below s n)
    (hcur : s'.current = s.current) (hsel : s'.selector = s.selector) (htick : s'.tick = s.tick)
    (halive : s'.crashed = false) (hstray : s'.stray = [])
    (hheap : ∀ i, i < n → s'.heap[i]? = s.heap[i]?) (hlen : s.heap.length ≤ s'.heap.length)
    (hl0 : s.refresh ≠ .locking) (hr0 : ∀ hs ws, s.refresh ≠ .reading hs ws)
    (hl1 : s'.refresh ≠ .locking) (hr1 : ∀ hs ws, s'.refresh ≠ .reading hs ws)
    (hstore : ∀ all, s'.refresh = .storing all → all.Nodup ∧ ∀ h ∈ all, h < s'.heap.length)
    (hfetch : ∀ all b, s'.refresh = .fetching all b → all.Nodup ∧ ∀ h ∈ all, h < s'.heap.length)
    (hfresh : ∀ all b, s'.refresh = .fetching all b → ∃ m, Below s m ∧ ∀ t ∈ b.tasks, m ≤ t.holder) : Inv s' := by
  have hb : ∀ m, Below s m → Below s' m := by
    intro m hm
    refine ⟨?_, ?_, ?_, ?_, ?_⟩
    · rw [hcur]; exact hm.cur
    · rw [hsel]; exact hm.sel
    · rw [htick]; exact hm.task
    · intro hs ws hq; exact absurd hq (hr1 hs ws)
    · rw [htick]; exact hm.readT
  have hmono : ∀ m k, Below s' m → m ≤ k → Below s' k := by
    intro m k hm hk
    exact ⟨fun a b c d => Nat.lt_of_lt_of_le (hm.cur a b c d) hk, fun a b c d e => Nat.lt_of_lt_of_le (hm.sel a b c d e) hk,
      fun a b c d e => Nat.lt_of_lt_of_le (hm.task a b c d e) hk,
      fun a b c d e => Nat.lt_of_lt_of_le (hm.readR a b c d e) hk,
      fun a b c d e => Nat.lt_of_lt_of_le (hm.readT a b c d e) hk⟩
  have hev : ∀ h, Evidence s h → Evidence s' h := by
    rintro h ⟨all, b, ht, hf⟩
    refine ⟨all, b, by rw [htick]; exact ht, ?_⟩
    rcases hf with hf | ⟨t, htm, hth, old, hp, hd⟩
    · exact .inl hf
    · refine .inr ⟨t, htm, hth, old, hp, ?_⟩
      rw [hheap h (hth ▸ hn.task all b ht t htm)]; exact hd
  have hW : ∀ h, h < n → W s' h = W s h := by intro h hh; simp only [W, hheap h hh]
  refine ⟨halive, hstray, ?_, ?_, hmono _ _ (hb _ inv.below) hlen, ?_, hstore, hfetch, ?_, ?_, ?_, ?_, ?_, ?_, ?_, ?_, ?_,
    ?_, ?_, ?_, ?_, ?_, by rw [htick, hcur]; exact inv.tickRead⟩
  · intro hs ws hs' ws' hq; exact absurd hq (hr1 hs ws)
  · rw [htick]; exact inv.tickShape
  · rw [hcur]; exact inv.curNodup
  · intro all b hq
    obtain ⟨m, hm, ht⟩ := hfresh all b hq
    exact ⟨m, hb m hm, ht⟩
  · rw [htick]; exact inv.tickNodup
  · intro all b hq t ht old hp
    rw [htick] at hq
    rw [hheap _ (hn.task all b hq t ht)]
    exact inv.asking all b hq t ht old hp
  · rw [htick]; exact inv.sendDone
  · intro hs ws hq; exact absurd hq (hr1 hs ws)
  · rw [htick]; exact inv.readLenT
  · rw [hsel]; exact inv.selLen
  · rw [hsel, hcur]; exact inv.selCur
  · intro cs hq
    rw [hcur] at hq
    rcases inv.hasSel cs hq with h | ⟨ws, h⟩ | ⟨ws, h⟩
    · exact absurd h hl0
    · exact absurd h (hr0 _ _)
    · exact .inr (.inr ⟨ws, by rw [hsel]; exact h⟩)
  · intro hs ws hq; exact absurd hq (hr1 hs ws)
  · intro hs ws hq
    rw [htick] at hq
    rcases inv.tickCur hs ws hq with h | h
    · exact .inl (by rw [hcur]; exact h)
    · exact absurd h hl0
  · intro hs ws hq i h x hi hx
    rw [hsel] at hq
    have hlt := hn.sel hs ws hq h (List.mem_of_getElem? hi)
    rcases inv.right hs ws hq i h x hi hx with hh | hh | hh
    · exact .inl (by rw [hW h hlt]; exact hh)
    · exact .inr (.inl (hev h hh))
    · refine .inr (.inr ?_)
      rcases hh with hh | hh | ⟨a, b, hh⟩ | ⟨a, b, hh⟩
      · exact absurd hh hl0
      · exact .inr (.inl (by rw [htick]; exact hh))
      · exact absurd hh (hr0 _ _)
      · exact .inr (.inr (.inr ⟨a, b, by rw [htick]; exact hh⟩))
  · intro hs ws hq; exact absurd hq (hr1 hs ws)
  · intro hs ws hq i h x hi hx
    rw [htick] at hq
    have hlt := hn.readT hs ws hq h (List.mem_of_getElem? hi)
    rcases inv.rightT hs ws hq i h x hi hx with hh | hh
    · exact .inl (by rw [hW h hlt]; exact hh)
    · exact absurd hh hl0

theorem inv_onRefresh {env : Env E} {s s' : St E} {eps : List E} (inv : Inv s) (hn : eps.Nodup)
    (h : step env s (.onRefresh eps) = some s') : Inv s' := by
  simp only [step, inv.alive] at h
  split at h
  · cases h
  rename_i hc
  have hidle : s.refresh = .idle := by
    apply Classical.byContradiction; intro hx; exact hc (.inr hx)
  have hold : ∀ h ∈ s.current.getD [], h < s.heap.length := by
    intro h hm
    cases hq : s.current with
    | none => rw [hq] at hm; cases hm
    | some cs => rw [hq] at hm; exact inv.below.cur cs hq h hm
  cases hb : build env (s.current.getD []) eps s.heap with
  | mk hp r =>
    obtain ⟨al, nw⟩ := r
    rw [hb] at h
    simp only [Option.some.injEq] at h
    obtain ⟨⟨ext, rfl⟩, h2, h3, h4, h5, h6, h7, h8⟩ := build_spec env _ eps s.heap hold _ _ _ hb
    subst h
    have hanod : al.Nodup := by
      have : (al.map (fun i => ((s.heap ++ ext)[i]?).map Holder.ep)).Nodup := by
        rw [h2]
        exact List.Pairwise.map some (fun a b hab hq => hab (Option.some.inj hq)) hn
      exact List.Pairwise.of_map _ (fun a b hne heq => hne (by rw [heq])) this
    generalize hph : (if nw = [] then Phase.storing al else Phase.fetching al (launch (s.heap ++ ext) nw)) = ph
    have hph' : ph = .storing al ∨ ph = .fetching al (launch (s.heap ++ ext) nw) := by
      rw [← hph]; split <;> simp
    refine inv_refresh_move inv s.heap.length inv.below rfl rfl rfl rfl inv.noStray
      (fun i hi => getElem?_append_old hi) (by simp) (by rw [hidle]; simp) (by rw [hidle]; simp) ?_ ?_ ?_ ?_ ?_
    · intro hq; rcases hph' with e | e <;> rw [e] at hq <;> cases hq
    · intro _ _ hq; rcases hph' with e | e <;> rw [e] at hq <;> cases hq
    · intro all hq
      rcases hph' with e | e <;> rw [e] at hq <;> cases hq
      exact ⟨hanod, h3⟩
    · intro all b hq
      rcases hph' with e | e <;> rw [e] at hq <;> cases hq
      exact ⟨hanod, h3⟩
    · intro all b hq
      rcases hph' with e | e <;> rw [e] at hq <;> cases hq
      refine ⟨s.heap.length, inv.below, ?_⟩
      intro t ht
      simp only [launch, List.mem_map, List.mem_filter] at ht
      obtain ⟨i, ⟨hi, _⟩, rfl⟩ := ht
      exact (h4 i hi).1

/-- A step of the goroutine of the ticks, or of those that ask for it, that ends with their being awaited. -/
theorem inv_tick_move {s s' : St E} (inv : Inv s) {all' : List Nat} {b' : Batch}
    (hcur : s'.current = s.current) (hsel : s'.selector = s.selector) (href : s'.refresh = s.refresh)
    (halive : s'.crashed = false) (hstray : s'.stray = []) (htick : s'.tick = .fetching all' b')
    (hlen : s'.heap.length = s.heap.length)
    (hl0 : s.tick ≠ .locking) (hr0 : ∀ hs ws, s.tick ≠ .reading hs ws)
    (hb : ∀ n, Below s n → ∀ t ∈ b'.tasks, t.holder < n)
    (hnod : (b'.tasks.map Task.holder).Nodup)
    (hask : ∀ t ∈ b'.tasks, ∀ old, t.prog = .asking old → (s'.heap[t.holder]?).map Holder.dynamic = some old)
    (hsend : b'.sending = true → ∀ t ∈ b'.tasks, t.prog = .done)
    (hW : ∀ h, W s' h = W s h ∨ Evidence s' h) (hev : ∀ h, Evidence s h → Evidence s' h) : Inv s' := by
  have hbel : ∀ m, Below s m → Below s' m := by
    intro m hm
    refine ⟨?_, ?_, ?_, ?_, ?_⟩
    · rw [hcur]; exact hm.cur
    · rw [hsel]; exact hm.sel
    · intro a b hq; rw [htick] at hq; cases hq; exact hb m hm
    · rw [href]; exact hm.readR
    · intro hs ws hq; rw [htick] at hq; cases hq
  refine ⟨halive, hstray, ?_, ?_, ?_, ?_, ?_, ?_, ?_, ?_, ?_, ?_, ?_, ?_, ?_, ?_, ?_, ?_, ?_, ?_, ?_, ?_,
    by intro hs ws hq; rw [htick] at hq; cases hq⟩
  · intro hs ws hs' ws' _ hq; rw [htick] at hq; cases hq
  · intro a hq; rw [htick] at hq; cases hq
  · rw [hlen]; exact hbel _ inv.below
  · rw [hcur]; exact inv.curNodup
  · rw [href, hlen]; exact inv.storeIds
  · rw [href, hlen]; exact inv.fetchIds
  · intro a b hq
    rw [href] at hq
    obtain ⟨m, hm, ht⟩ := inv.fresh a b hq
    exact ⟨m, hbel m hm, ht⟩
  · intro a b hq; rw [htick] at hq; cases hq; exact hnod
  · intro a b hq; rw [htick] at hq; cases hq; exact hask
  · intro a b hq; rw [htick] at hq; cases hq; exact hsend
  · rw [href]; exact inv.readLenR
  · intro hs ws hq; rw [htick] at hq; cases hq
  · rw [hsel]; exact inv.selLen
  · rw [hsel, hcur]; exact inv.selCur
  · rw [hcur, href, hsel]; exact inv.hasSel
  · rw [hcur, href]; exact inv.readCur
  · intro hs ws hq; rw [htick] at hq; cases hq
  · intro hs ws hq i h x hi hx
    rw [hsel] at hq
    rcases inv.right hs ws hq i h x hi hx with hh | hh | hh
    · rcases hW h with e | e
      · exact .inl (e.trans hh)
      · exact .inr (.inl e)
    · exact .inr (.inl (hev h hh))
    · refine .inr (.inr ?_)
      rcases hh with hh | hh | ⟨a, b, hh⟩ | ⟨a, b, hh⟩
      · exact .inl (by rw [href]; exact hh)
      · exact absurd hh hl0
      · exact .inr (.inr (.inl ⟨a, b, by rw [href]; exact hh⟩))
      · exact absurd hh (hr0 _ _)
  · intro hs ws hq i h x hi hx
    rw [href] at hq
    rcases inv.rightR hs ws hq i h x hi hx with hh | hh | hh
    · rcases hW h with e | e
      · exact .inl (e.trans hh)
      · exact .inr (.inl e)
    · exact .inr (.inl (hev h hh))
    · exact absurd hh hl0
  · intro hs ws hq; rw [htick] at hq; cases hq

theorem inv_tick {env : Env E} {s s' : St E} (inv : Inv s) (h : step env s .tick = some s') : Inv s' := by
  simp only [step, inv.alive] at h
  split at h
  · cases h
  rename_i hc
  have hidle : s.tick = .idle := by
    apply Classical.byContradiction; intro hx; exact hc (.inr (.inl hx))
  simp only [Option.some.injEq] at h
  subst h
  refine inv_tick_move inv rfl rfl rfl rfl inv.noStray rfl rfl (by rw [hidle]; simp) (by rw [hidle]; simp) ?_ ?_ ?_ ?_
    (fun _ => .inl rfl) ?_
  · intro n hn t ht
    simp only [launch, List.mem_map, List.mem_filter] at ht
    obtain ⟨i, ⟨hi, _⟩, rfl⟩ := ht
    cases hq : s.current with
    | none => rw [hq] at hi; cases hi
    | some cs => rw [hq] at hi; exact hn.cur cs hq i hi
  · simp only [launch, List.map_map]
    rw [show (Task.holder ∘ fun i => ({ holder := i, prog := Prog.start } : Task)) = id from rfl, List.map_id]
    refine List.Pairwise.filter _ ?_
    cases hq : s.current with
    | none => simp
    | some cs => exact inv.curNodup cs hq
  · intro t ht old hp
    simp only [launch, List.mem_map, List.mem_filter] at ht
    obtain ⟨i, ⟨hi, _⟩, rfl⟩ := ht
    cases hp
  · intro hq; simp [launch] at hq
  · rintro h ⟨a, b, hq, _⟩; rw [hidle] at hq; cases hq

/-! ### The goroutines that ask -/

theorem map_holder_set {ts : List Task} {i : Nat} {t t' : Task} (h : ts[i]? = some t) (hh : t'.holder = t.holder) :
    (ts.set i t').map Task.holder = ts.map Task.holder := by
  rw [List.map_set, hh]
  apply List.ext_getElem?
  intro j
  rw [List.getElem?_set]
  split
  · rename_i e; subst e
    simp only [List.length_map, List.getElem?_map, h, Option.map_some]
    rw [if_pos (List.getElem?_eq_some_iff.1 h).1]
  · rfl

theorem mem_set_task {ts : List Task} {i : Nat} {t' u : Task} (h : u ∈ ts.set i t') :
    u = t' ∨ u ∈ ts := (List.mem_or_eq_of_mem_set h).symm

/-- The goroutine at another place has another holder. -/
theorem mem_set_nodup {ts : List Task} {i : Nat} {t t' u : Task} (hn : (ts.map Task.holder).Nodup)
    (h : ts[i]? = some t) (hh : t'.holder = t.holder) (hu : u ∈ ts.set i t') :
    u = t' ∨ (u ∈ ts ∧ u.holder ≠ t.holder) := by
  obtain ⟨j, hj⟩ := List.mem_iff_getElem?.1 hu
  rw [List.getElem?_set] at hj
  split at hj
  · split at hj
    · exact .inl (Option.some.inj hj).symm
    · cases hj
  · rename_i hij
    refine .inr ⟨List.mem_of_getElem? hj, fun he => hij ?_⟩
    have hi' := (List.getElem?_eq_some_iff.1 h).1
    have hj' := (List.getElem?_eq_some_iff.1 hj).1
    have e1 := (List.getElem?_eq_some_iff.1 h).2
    have e2 := (List.getElem?_eq_some_iff.1 hj).2
    have hnn := List.pairwise_iff_getElem.1 hn
    apply Classical.byContradiction
    intro hne
    rcases Nat.lt_or_gt_of_ne hne with hlt | hlt
    · exact hnn i j (by simpa using hi') (by simpa using hj') hlt (by simp [e1, e2, he])
    · exact hnn j i (by simpa using hj') (by simpa using hi') hlt (by simp [e1, e2, he])

theorem mem_set_other {ts : List Task} {i : Nat} {t t' u : Task} (h : ts[i]? = some t) (hu : u ∈ ts) :
    u = t ∨ u ∈ ts.set i t' := by
  obtain ⟨j, hj⟩ := List.mem_iff_getElem?.1 hu
  by_cases hij : i = j
  · subst hij; rw [h] at hj; exact .inl (Option.some.inj hj).symm
  · refine .inr (List.mem_of_getElem? (i := j) ?_)
    rw [List.getElem?_set, if_neg hij]; exact hj

/-- A step of a goroutine that asks for `OnRefresh`. -/
theorem inv_refresh_task {s s' : St E} (inv : Inv s) {all : List Nat} {b : Batch} {i h : Nat} {p p' : Prog} {f : Bool}
    (hf : s.refresh = .fetching all b) (ht : b.tasks[i]? = some ⟨h, p⟩)
    (hcur : s'.current = s.current) (hsel : s'.selector = s.selector) (htick : s'.tick = s.tick)
    (halive : s'.crashed = false) (hstray : s'.stray = s.stray)
    (hheap : ∀ j, j ≠ h → s'.heap[j]? = s.heap[j]?) (hlen : s'.heap.length = s.heap.length)
    (href : s'.refresh = .fetching all { b with tasks := b.tasks.set i ⟨h, p'⟩, flag := f }) : Inv s' := by
  obtain ⟨n, hn, hnt⟩ := inv.fresh all b hf
  have hge := hnt _ (List.mem_of_getElem? ht)
  refine inv_refresh_move inv n hn hcur hsel htick halive (hstray.trans inv.noStray)
    (fun j hj => hheap j (by simp only at hge; omega)) (by omega) (by rw [hf]; simp) (by rw [hf]; simp) (by rw [href]; simp)
    (by rw [href]; simp) ?_ ?_ ?_
  · intro a hq; rw [href] at hq; cases hq
  · intro a b' hq; rw [href] at hq; cases hq; rw [hlen]; exact inv.fetchIds all b hf
  · intro a b' hq
    rw [href] at hq; cases hq
    refine ⟨n, hn, ?_⟩
    intro t htm
    rcases mem_set_task htm with rfl | htm
    · exact hge
    · exact hnt t htm

/-- A step of a goroutine that asks for a tick. -/
theorem inv_tick_task {s s' : St E} (inv : Inv s) {all : List Nat} {b : Batch} {i h : Nat} {p p' : Prog} {f : Bool}
    (hf : s.tick = .fetching all b) (ht : b.tasks[i]? = some ⟨h, p⟩) (hpd : p ≠ .done)
    (hcur : s'.current = s.current) (hsel : s'.selector = s.selector) (href : s'.refresh = s.refresh)
    (halive : s'.crashed = false) (hstray : s'.stray = s.stray)
    (hheap : ∀ j, j ≠ h → s'.heap[j]? = s.heap[j]?) (hlen : s'.heap.length = s.heap.length)
    (htick : s'.tick = .fetching all { b with tasks := b.tasks.set i ⟨h, p'⟩, flag := f })
    (hfl : b.flag = true → f = true)
    (hask : ∀ old, p' = .asking old → (s'.heap[h]?).map Holder.dynamic = some old)
    (hW : W s' h = W s h ∨ f = true ∨ ∃ old, p' = .wrote old ∧ (s'.heap[h]?).map Holder.dynamic ≠ some old)
    (hwr : ∀ old, p = .wrote old → f = true ∨ (s.heap[h]?).map Holder.dynamic = some old) : Inv s' := by
  have hnod := inv.tickNodup all b hf
  have hmem : ⟨h, p'⟩ ∈ b.tasks.set i ⟨h, p'⟩ := by
    refine List.mem_of_getElem? (i := i) ?_
    rw [List.getElem?_set, if_pos rfl, if_pos (List.getElem?_eq_some_iff.1 ht).1]
  refine inv_tick_move inv hcur hsel href halive (hstray.trans inv.noStray) htick hlen
    (by rw [hf]; simp) (by rw [hf]; simp) ?_ ?_ ?_ ?_ ?_ ?_
  · intro n hn t htm
    rcases mem_set_task htm with rfl | htm
    · exact hn.task all b hf ⟨h, p⟩ (List.mem_of_getElem? ht)
    · exact hn.task all b hf t htm
  · show ((b.tasks.set i ⟨h, p'⟩).map Task.holder).Nodup
    rw [map_holder_set (t := ⟨h, p⟩) (t' := ⟨h, p'⟩) ht rfl]; exact hnod
  · intro t htm old hp
    rcases mem_set_nodup (t := ⟨h, p⟩) (t' := ⟨h, p'⟩) hnod ht rfl htm with rfl | ⟨htm, hne⟩
    · exact hask old hp
    · rw [hheap _ hne]; exact inv.asking all b hf t htm old hp
  · intro hsd
    exact absurd (inv.sendDone all b hf hsd _ (List.mem_of_getElem? ht)) hpd
  · intro k
    by_cases hk : k = h
    · subst hk
      rcases hW with e | e | ⟨old, e, hd⟩
      · exact .inl e
      · exact .inr ⟨_, _, htick, .inl e⟩
      · exact .inr ⟨_, _, htick, .inr ⟨_, hmem, rfl, old, e, hd⟩⟩
    · exact .inl (by simp only [W, hheap k hk])
  · rintro k ⟨a, b', hq, hev⟩
    rw [hf] at hq; cases hq
    refine ⟨_, _, htick, ?_⟩
    rcases hev with hev | ⟨t, htm, hth, old, hp, hd⟩
    · exact .inl (hfl hev)
    · by_cases hk : k = h
      · subst hk
        have : t = ⟨k, p⟩ := by
          rcases mem_set_other (t' := ⟨k, p⟩) ht htm with e | e
          · exact e
          · rcases mem_set_nodup (t := ⟨k, p⟩) (t' := ⟨k, p⟩) hnod ht rfl e with e | ⟨_, e⟩
            · exact e
            · exact absurd hth e
        subst this
        rcases hwr old hp with e | e
        · exact .inl e
        · exact absurd e hd
      · rcases mem_set_other (t' := ⟨h, p'⟩) ht htm with rfl | htm'
        · exact absurd hth (fun e => hk e.symm)
        · exact .inr ⟨t, htm', hth, old, hp, by rw [hheap k hk]; exact hd⟩

omit [DecidableEq E] in
theorem setTasks_refresh {s : St E} {all : List Nat} {b : Batch} (hf : s.refresh = .fetching all b) (ts : List Task)
    (f : Bool) : s.setTasks ts f (.of .refresh) =
      { s with refresh := .fetching all { b with tasks := ts, flag := b.flag || f } } := by
  simp only [St.setTasks, St.phase, hf, St.setPhase]

omit [DecidableEq E] in
theorem setTasks_tick {s : St E} {all : List Nat} {b : Batch} (hf : s.tick = .fetching all b) (ts : List Task)
    (f : Bool) : s.setTasks ts f (.of .tick) =
      { s with tick := .fetching all { b with tasks := ts, flag := b.flag || f } } := by
  simp only [St.setTasks, St.phase, hf, St.setPhase]

omit [DecidableEq E] in
/-- Who has goroutines is waiting for them. -/
theorem tasks_some {s : St E} (hstray : s.stray = []) {o : Owner} {i : Nat} {t : Task} (h : (s.tasks o)[i]? = some t) :
    (∃ all b, o = .of .refresh ∧ s.refresh = .fetching all b ∧ s.tasks o = b.tasks) ∨
    (∃ all b, o = .of .tick ∧ s.tick = .fetching all b ∧ s.tasks o = b.tasks) := by
  cases o with
  | stray => simp [St.tasks, hstray] at h
  | of w =>
    cases w with
    | refresh =>
      left
      cases hq : s.refresh <;> simp [St.tasks, St.phase, hq] at h ⊢
      exact ⟨_, _, ⟨rfl, rfl⟩, rfl⟩
    | tick =>
      right
      cases hq : s.tick <;> simp [St.tasks, St.phase, hq] at h ⊢
      exact ⟨_, _, ⟨rfl, rfl⟩, rfl⟩

theorem inv_reads {env : Env E} {s s' : St E} {o : Owner} {i k : Nat} (inv : Inv s)
    (h : step env s (.reads o i k) = some s') : Inv s' := by
  simp only [step, inv.alive, Bool.false_eq_true, if_false] at h
  split at h
  · rename_i h' hd ht hh
    split at h
    · rename_i e; subst e
      rw [Option.some.injEq] at h; subst h
      rcases tasks_some inv.noStray ht with ⟨all, b, rfl, hf, hts⟩ | ⟨all, b, rfl, hf, hts⟩
      · rw [hts] at ht ⊢
        rw [setTasks_refresh hf]
        exact inv_refresh_task inv hf ht rfl rfl rfl (by first | rfl | exact inv.alive) rfl (fun _ _ => rfl) rfl rfl
      · rw [hts] at ht ⊢
        rw [setTasks_tick hf]
        refine inv_tick_task inv hf ht (by simp) rfl rfl rfl (by first | rfl | exact inv.alive) rfl (fun _ _ => rfl) rfl rfl (fun e => by simp [e]) ?_
          (.inl rfl) ?_
        · intro old hq; cases hq; simp [hh]
        · intro old hq; cases hq
    · cases h
  · cases h

theorem inv_answers {env : Env E} {s s' : St E} {o : Owner} {i k : Nat} {a : Answer} (inv : Inv s)
    (h : step env s (.answers o i k a) = some s') : Inv s' := by
  simp only [step, inv.alive, Bool.false_eq_true, if_false] at h
  split at h
  · rename_i h' old hd ht hh
    have hlt := (List.getElem?_eq_some_iff.1 hh).1
    split at h
    · rename_i e; subst e
      rcases tasks_some inv.noStray ht with ⟨all, b, rfl, hf, hts⟩ | ⟨all, b, rfl, hf, hts⟩
      · rw [hts] at ht h
        cases a with
        | found m =>
          simp only [Option.some.injEq] at h; subst h
          simp only [St.setTasks, St.phase, hf, St.setPhase]
          exact inv_refresh_task inv hf ht rfl rfl rfl (by first | rfl | exact inv.alive) rfl
            (fun j hj => List.getElem?_set_ne (fun e => hj e.symm)) (by simp) rfl
        | notSupported =>
          simp only [Option.some.injEq] at h; subst h
          simp only [St.setTasks, St.phase, hf, St.setPhase]
          exact inv_refresh_task inv hf ht rfl rfl rfl (by first | rfl | exact inv.alive) rfl
            (fun j hj => List.getElem?_set_ne (fun e => hj e.symm)) (by simp) rfl
        | failed =>
          simp only [Option.some.injEq] at h; subst h
          rw [setTasks_refresh hf]
          exact inv_refresh_task inv hf ht rfl rfl rfl (by first | rfl | exact inv.alive) rfl (fun _ _ => rfl) rfl rfl
      · rw [hts] at ht h
        have hask := inv.asking all b hf _ (List.mem_of_getElem? ht) old rfl
        simp only [hh, Option.map_some, Option.some.injEq] at hask
        cases a with
        | found m =>
          simp only [Option.some.injEq] at h; subst h
          simp only [St.setTasks, St.phase, hf, St.setPhase]
          refine inv_tick_task inv hf ht (by simp) rfl rfl rfl (by first | rfl | exact inv.alive) rfl
            (fun j hj => List.getElem?_set_ne (fun e => hj e.symm)) (by simp) rfl (fun e => by simp [e]) ?_ ?_ ?_
          · intro old hq; cases hq
          · by_cases hd' : dynamicWeight env.envPrefix m = old
            · left
              simp only [W, hh, List.getElem?_set_self hlt, Option.map_some, Holder.weight, hd', hask]
            · right; right
              refine ⟨old, rfl, ?_⟩
              simpa [List.getElem?_set_self hlt] using hd'
          · intro old hq; cases hq
        | notSupported =>
          simp only [Option.some.injEq] at h; subst h
          simp only [St.setTasks, St.phase, hf, St.setPhase]
          refine inv_tick_task inv hf ht (by simp) rfl rfl rfl (by first | rfl | exact inv.alive) rfl
            (fun j hj => List.getElem?_set_ne (fun e => hj e.symm)) (by simp) rfl (fun e => by simp [e]) ?_ ?_ ?_
          · intro old hq; cases hq
          · left; simp only [W, hh, List.getElem?_set_self hlt, Option.map_some, Holder.weight]
          · intro old hq; cases hq
        | failed =>
          simp only [Option.some.injEq] at h; subst h
          rw [setTasks_tick hf]
          refine inv_tick_task inv hf ht (by simp) rfl rfl rfl (by first | rfl | exact inv.alive) rfl (fun _ _ => rfl) rfl rfl (fun e => by simp [e]) ?_
            (.inl rfl) ?_
          · intro old hq; cases hq
          · intro old hq; cases hq
    · cases h
  · cases h

theorem inv_compares {env : Env E} {s s' : St E} {o : Owner} {i k : Nat} (inv : Inv s)
    (h : step env s (.compares o i k) = some s') : Inv s' := by
  simp only [step, inv.alive, Bool.false_eq_true, if_false] at h
  split at h
  · rename_i h' old hd ht hh
    split at h
    · rename_i e; subst e
      rw [Option.some.injEq] at h; subst h
      rcases tasks_some inv.noStray ht with ⟨all, b, rfl, hf, hts⟩ | ⟨all, b, rfl, hf, hts⟩
      · rw [hts] at ht ⊢
        rw [setTasks_refresh hf]
        exact inv_refresh_task inv hf ht rfl rfl rfl (by first | rfl | exact inv.alive) rfl (fun _ _ => rfl) rfl rfl
      · rw [hts] at ht ⊢
        rw [setTasks_tick hf]
        refine inv_tick_task inv hf ht (by simp) rfl rfl rfl (by first | rfl | exact inv.alive) rfl (fun _ _ => rfl) rfl rfl (fun e => by simp [e]) ?_
          (.inl rfl) ?_
        · intro old hq; cases hq
        · intro old' hq; cases hq
          simp only [hh, Option.map_some, Option.some.injEq, Bool.or_eq_true, decide_eq_true_eq]
          by_cases e : hd.dynamic = old
          · exact .inr e
          · exact .inl (.inr fun e' => e e'.symm)
    · cases h
  · cases h

/-! ### Waiting, storing and notifying -/

theorem inv_waited {env : Env E} {s s' : St E} {w : Who} (inv : Inv s) (h : step env s (.waited w) = some s') :
    Inv s' := by
  simp only [step, inv.alive, Bool.false_eq_true, if_false] at h
  split at h
  · rename_i all b hf
    split at h
    · rename_i hc
      simp only [Option.some.injEq] at h; subst h
      cases w with
      | refresh =>
        simp only [St.phase] at hf
        obtain ⟨n, hn, hnt⟩ := inv.fresh all b hf
        refine inv_refresh_move inv n hn rfl rfl rfl inv.alive inv.noStray (fun _ _ => rfl) (Nat.le_refl _)
          (by rw [hf]; simp) (by rw [hf]; simp) (by simp [St.setPhase]) (by simp [St.setPhase]) ?_ ?_ ?_
        · intro a hq; cases hq
        · intro a b' hq; cases hq; exact inv.fetchIds all b hf
        · intro a b' hq; cases hq; exact ⟨n, hn, hnt⟩
      | tick =>
        simp only [St.phase] at hf
        refine inv_tick_move inv rfl rfl rfl inv.alive inv.noStray rfl rfl
          (by rw [hf]; simp) (by rw [hf]; simp) ?_ (inv.tickNodup all b hf) (inv.asking all b hf) ?_ (fun _ => .inl rfl) ?_
        · intro n hn; exact hn.task all b hf
        · intro _ t ht
          have := List.all_eq_true.1 hc.2 t ht
          simpa using this
        · rintro k ⟨a, b', hq, hev⟩
          rw [hf] at hq; cases hq
          exact ⟨_, _, rfl, hev⟩
    · cases h
  · cases h

/-- The end of a tick. -/
theorem inv_tick_end {s : St E} (inv : Inv s) {ph : Phase} (hph : ph = .idle ∨ ph = .locking)
    (hr0 : ∀ hs ws, s.tick ≠ .reading hs ws) (hl0 : s.tick ≠ .locking)
    (hev : ∀ h, Evidence s h → ph = .locking) : Inv { s with tick := ph } := by
  have hbel : ∀ m, Below s m → Below { s with tick := ph } m := by
    intro m hm
    refine ⟨hm.cur, hm.sel, ?_, hm.readR, ?_⟩
    · intro a b hq; rcases hph with e | e <;> rw [e] at hq <;> cases hq
    · intro a b hq; rcases hph with e | e <;> rw [e] at hq <;> cases hq
  refine ⟨inv.alive, inv.noStray, ?_, ?_, hbel _ inv.below, inv.curNodup, inv.storeIds, inv.fetchIds, ?_, ?_, ?_, ?_,
    inv.readLenR, ?_, inv.selLen, inv.selCur, inv.hasSel, inv.readCur, ?_, ?_, ?_, ?_,
    by intro a b hq; rcases hph with e | e <;> rw [e] at hq <;> cases hq⟩
  · intro hs ws hs' ws' _ hq; rcases hph with e | e <;> rw [e] at hq <;> cases hq
  · intro a hq; rcases hph with e | e <;> rw [e] at hq <;> cases hq
  · intro a b hq
    obtain ⟨m, hm, ht⟩ := inv.fresh a b hq
    exact ⟨m, hbel m hm, ht⟩
  · intro a b hq; rcases hph with e | e <;> rw [e] at hq <;> cases hq
  · intro a b hq; rcases hph with e | e <;> rw [e] at hq <;> cases hq
  · intro a b hq; rcases hph with e | e <;> rw [e] at hq <;> cases hq
  · intro a b hq; rcases hph with e | e <;> rw [e] at hq <;> cases hq
  · intro a b hq; rcases hph with e | e <;> rw [e] at hq <;> cases hq
  · intro hs ws hq i h x hi hx
    rcases inv.right hs ws hq i h x hi hx with hh | hh | hh
    · exact .inl hh
    · exact .inr (.inr (.inr (.inl (hev h hh))))
    · refine .inr (.inr ?_)
      rcases hh with hh | hh | ⟨a, b, hh⟩ | ⟨a, b, hh⟩
      · exact .inl hh
      · exact absurd hh hl0
      · exact .inr (.inr (.inl ⟨a, b, hh⟩))
      · exact absurd hh (hr0 _ _)
  · intro hs ws hq i h x hi hx
    rcases inv.rightR hs ws hq i h x hi hx with hh | hh | hh
    · exact .inl hh
    · exact .inr (.inr (hev h hh))
    · exact absurd hh hl0
  · intro a b hq; rcases hph with e | e <;> rw [e] at hq <;> cases hq

theorem inv_finish {env : Env E} {s s' : St E} {w : Who} (inv : Inv s) (h : step env s (.finish w) = some s') :
    Inv s' := by
  simp only [step, inv.alive, Bool.false_eq_true, if_false] at h
  split at h
  · rename_i all b hf
    split at h
    · rename_i hc
      simp only [Option.some.injEq] at h; subst h
      cases w with
      | refresh =>
        simp only [St.phase] at hf
        refine inv_refresh_move inv _ inv.below rfl rfl rfl inv.alive inv.noStray (fun _ _ => rfl) (Nat.le_refl _)
          (by rw [hf]; simp) (by rw [hf]; simp) (by simp [St.setPhase, after]) (by simp [St.setPhase, after]) ?_ ?_ ?_
        · intro a hq; simp only [St.setPhase, after, Phase.storing.injEq] at hq; subst hq; exact inv.fetchIds all b hf
        · intro a b' hq; simp [St.setPhase, after] at hq
        · intro a b' hq; simp [St.setPhase, after] at hq
      | tick =>
        simp only [St.phase] at hf
        simp only [St.setPhase, after]
        refine inv_tick_end inv (by split <;> simp) (by rw [hf]; simp) (by rw [hf]; simp) ?_
        rintro k ⟨a, b', hq, hev⟩
        rw [hf] at hq; cases hq
        rcases hev with e | ⟨t, ht, _, old, hp, _⟩
        · rw [e]; rfl
        · rw [inv.sendDone all b hf hc t ht] at hp; cases hp
    · cases h
  · cases h

theorem inv_stores {env : Env E} {s s' : St E} (inv : Inv s) (h : step env s .stores = some s') : Inv s' := by
  simp only [step, inv.alive, Bool.false_eq_true, if_false] at h
  split at h
  · rename_i all hf
    simp only [Option.some.injEq] at h; subst h
    obtain ⟨hnod, hids⟩ := inv.storeIds all hf
    have hB := inv.below
    refine ⟨rfl, inv.noStray, ?_, inv.tickShape, ⟨?_, hB.sel, hB.task, ?_, hB.readT⟩, ?_, ?_, ?_, ?_, inv.tickNodup,
      inv.asking, inv.sendDone, ?_, inv.readLenT, inv.selLen, (fun hq => by cases hq), ?_, ?_, ?_, ?_, ?_, ?_,
      fun _ _ _ hq => by cases hq⟩
    · intro _ _ _ _ hq; cases hq
    · intro cs hq; cases hq; exact hids
    · intro _ _ hq; cases hq
    · intro cs hq; cases hq; exact hnod
    · intro _ hq; cases hq
    · intro _ _ hq; cases hq
    · intro _ _ hq; cases hq
    · intro _ _ hq; cases hq
    · intro _ _; exact .inl rfl
    · intro _ _ hq; cases hq
    · intro _ _ _; exact .inr rfl
    · intro _ _ _ _ _ _ _ _; exact .inr (.inr (.inl rfl))
    · intro _ _ hq; cases hq
    · intro _ _ _ _ _ _ _ _; exact .inr rfl
  · cases h

theorem inv_locks {env : Env E} {s s' : St E} {w : Who} (inv : Inv s) (h : step env s (.locks w) = some s') :
    Inv s' := by
  simp only [step, inv.alive, Bool.false_eq_true, if_false] at h
  have hB := inv.below
  split at h
  · cases h
  · rename_i hl hno
    cases w with
    | refresh =>
      simp only [St.phase, Who.other] at hl hno
      split at h
      · rename_i hc
        simp only [Option.some.injEq] at h; subst h
        simp only [St.setPhase]
        refine ⟨inv.alive, inv.noStray, ?_, inv.tickShape, ⟨hB.cur, hB.sel, hB.task, ?_, hB.readT⟩, inv.curNodup, ?_, ?_,
          ?_, inv.tickNodup, inv.asking, inv.sendDone, ?_, inv.readLenT, inv.selLen, inv.selCur, ?_, ?_, ?_, ?_, ?_, ?_,
          inv.tickRead⟩
        · intro _ _ _ _ hq; cases hq
        · intro _ _ hq; cases hq
        · intro _ hq; cases hq
        · intro _ _ hq; cases hq
        · intro _ _ hq; cases hq
        · intro _ _ hq; cases hq
        · intro cs hq; rw [hc] at hq; cases hq
        · intro _ _ hq; cases hq
        · intro _ _ hq; exact absurd hq (hno _ _)
        · intro hs ws hq; rw [inv.selCur hc] at hq; cases hq
        · intro _ _ hq; cases hq
        · intro _ _ hq; exact absurd hq (hno _ _)
      · rename_i hs hc
        simp only [Option.some.injEq] at h; subst h
        simp only [St.setPhase]
        refine ⟨inv.alive, inv.noStray, ?_, inv.tickShape, ⟨hB.cur, hB.sel, hB.task, ?_, hB.readT⟩, inv.curNodup, ?_, ?_,
          ?_, inv.tickNodup, inv.asking, inv.sendDone, ?_, inv.readLenT, inv.selLen, inv.selCur, ?_, ?_, ?_, ?_, ?_, ?_,
          inv.tickRead⟩
        · intro _ _ _ _ _; exact hno _ _
        · intro _ _ hq; cases hq; exact hB.cur hs hc
        · intro _ hq; cases hq
        · intro _ _ hq; cases hq
        · intro _ _ hq; cases hq
        · intro _ _ hq; cases hq; simp
        · intro cs hq; rw [hc] at hq; cases hq; exact .inr (.inl ⟨_, rfl⟩)
        · intro _ _ hq; cases hq; exact hc
        · intro _ _ hq; exact absurd hq (hno _ _)
        · intro _ _ _ _ _ _ _ _; exact .inr (.inr (.inr (.inr (.inl ⟨_, _, rfl⟩))))
        · intro _ _ hq i h x _ hx; cases hq; simp at hx
        · intro _ _ hq; exact absurd hq (hno _ _)
    | tick =>
      simp only [St.phase, Who.other] at hl hno
      split at h
      · rename_i hc
        simp only [Option.some.injEq] at h; subst h
        simp only [St.setPhase]
        have hbel : ∀ m, Below s m → Below { s with tick := .idle } m := by
          intro m hm
          refine ⟨hm.cur, hm.sel, ?_, hm.readR, ?_⟩
          · intro a b hq; cases hq
          · intro a b hq; cases hq
        refine ⟨inv.alive, inv.noStray, ?_, ?_, hbel _ hB, inv.curNodup, inv.storeIds, inv.fetchIds,
          ?_, ?_, ?_, ?_, inv.readLenR, ?_, inv.selLen, inv.selCur, inv.hasSel, inv.readCur, ?_, ?_, ?_, ?_,
          by intro _ _ hq; cases hq⟩
        · intro _ _ _ _ _ hq; cases hq
        · intro _ hq; cases hq
        · intro a b hq
          obtain ⟨m, hm, ht⟩ := inv.fresh a b hq
          exact ⟨m, hbel m hm, ht⟩
        · intro _ _ hq; cases hq
        · intro _ _ hq; cases hq
        · intro _ _ hq; cases hq
        · intro _ _ hq; cases hq
        · intro _ _ hq; cases hq
        · intro hs ws hq; rw [inv.selCur hc] at hq; cases hq
        · intro hs ws hq; exact absurd hq (hno _ _)
        · intro _ _ hq; cases hq
      · rename_i hs hc
        simp only [Option.some.injEq] at h; subst h
        simp only [St.setPhase]
        have hbel : ∀ m, Below s m → Below { s with tick := .reading hs [] } m := by
          intro m hm
          refine ⟨hm.cur, hm.sel, ?_, hm.readR, ?_⟩
          · intro a b hq; cases hq
          · intro a b hq; cases hq; exact hm.cur hs hc
        refine ⟨inv.alive, inv.noStray, ?_, ?_, hbel _ hB, inv.curNodup, inv.storeIds, inv.fetchIds,
          ?_, ?_, ?_, ?_, inv.readLenR, ?_, inv.selLen, inv.selCur, inv.hasSel, inv.readCur, ?_, ?_, ?_, ?_,
          by intro _ _ _ hq; rw [hc] at hq; cases hq⟩
        · intro _ _ _ _ hq; exact absurd hq (hno _ _)
        · intro _ hq; cases hq
        · intro a b hq
          obtain ⟨m, hm, ht⟩ := inv.fresh a b hq
          exact ⟨m, hbel m hm, ht⟩
        · intro _ _ hq; cases hq
        · intro _ _ hq; cases hq
        · intro _ _ hq; cases hq
        · intro _ _ hq; cases hq; simp
        · intro _ _ hq; cases hq; exact .inl hc
        · intro _ _ _ _ _ _ _ _; exact .inr (.inr (.inr (.inr (.inr ⟨_, _, rfl⟩))))
        · intro hs ws hq; exact absurd hq (hno _ _)
        · intro _ _ hq i h x _ hx; cases hq; simp at hx
  · cases h

/-- The weights read so far, and one more. -/
theorem snoc_right {P : Nat → Int → Prop} {hs : List Nat} {ws : List Int} {h : Nat} {x : Int}
    (hh : hs[ws.length]? = some h) (hx : P h x)
    (hw : ∀ (i k : Nat) (y : Int), hs[i]? = some k → ws[i]? = some y → P k y) :
    ∀ (i k : Nat) (y : Int), hs[i]? = some k → (ws ++ [x])[i]? = some y → P k y := by
  intro i k y hi hy
  by_cases hlt : i < ws.length
  · rw [List.getElem?_append_left hlt] at hy
    exact hw i k y hi hy
  · have hlen := (List.getElem?_eq_some_iff.1 hy).1
    simp only [List.length_append, List.length_cons, List.length_nil] at hlen
    have : i = ws.length := by omega
    subst this
    rw [hh] at hi; cases hi
    simp at hy; subst hy; exact hx

theorem inv_readsWeight {env : Env E} {s s' : St E} {w : Who} (inv : Inv s)
    (h : step env s (.readsWeight w) = some s') : Inv s' := by
  simp only [step, inv.alive, Bool.false_eq_true, if_false] at h
  have hB := inv.below
  split at h
  · rename_i hs ws hf
    split at h
    · rename_i k hk
      split at h
      · rename_i hd hh
        simp only [Option.some.injEq] at h; subst h
        have hlt := (List.getElem?_eq_some_iff.1 hk).1
        have hWk : W s k = some hd.weight := by simp [W, hh]
        cases w with
        | refresh =>
          simp only [St.phase] at hf
          simp only [St.setPhase]
          refine ⟨inv.alive, inv.noStray, ?_, inv.tickShape, ⟨hB.cur, hB.sel, hB.task, ?_, hB.readT⟩, inv.curNodup, ?_, ?_,
            ?_, inv.tickNodup, inv.asking, inv.sendDone, ?_, inv.readLenT, inv.selLen, inv.selCur, ?_, ?_, ?_, ?_, ?_, ?_,
          inv.tickRead⟩
          · intro _ _ _ _ _; exact inv.excl _ _ _ _ hf
          · intro _ _ hq; cases hq; exact hB.readR _ _ hf
          · intro _ hq; cases hq
          · intro _ _ hq; cases hq
          · intro _ _ hq; cases hq
          · intro _ _ hq; cases hq; simp; omega
          · intro cs hq
            have := inv.readCur _ _ hf
            rw [this] at hq; cases hq
            exact .inr (.inl ⟨_, rfl⟩)
          · intro _ _ hq; cases hq; exact inv.readCur _ _ hf
          · intro _ _ hq; exact absurd hq (inv.excl _ _ _ _ hf)
          · intro _ _ _ _ _ _ _ _; exact .inr (.inr (.inr (.inr (.inl ⟨_, _, rfl⟩))))
          · intro _ _ hq; cases hq
            exact snoc_right hk (.inl hWk) (inv.rightR _ _ hf)
          · intro _ _ hq; exact absurd hq (inv.excl _ _ _ _ hf)
        | tick =>
          simp only [St.phase] at hf
          simp only [St.setPhase]
          have hbel : ∀ m, Below s m → Below { s with tick := .reading hs (ws ++ [hd.weight]) } m := by
            intro m hm
            refine ⟨hm.cur, hm.sel, ?_, hm.readR, ?_⟩
            · intro a b hq; cases hq
            · intro a b hq; cases hq; exact hm.readT _ _ hf
          have hnoR : ∀ a b, s.refresh ≠ .reading a b := fun a b hq => inv.excl _ _ _ _ hq hf
          refine ⟨inv.alive, inv.noStray, ?_, ?_, hbel _ hB, inv.curNodup, inv.storeIds, inv.fetchIds,
            ?_, ?_, ?_, ?_, inv.readLenR, ?_, inv.selLen, inv.selCur, inv.hasSel, inv.readCur, ?_, ?_, ?_, ?_,
          fun _ _ _ => inv.tickRead _ _ hf⟩
          · intro _ _ _ _ hq; exact absurd hq (hnoR _ _)
          · intro _ hq; cases hq
          · intro a b hq
            obtain ⟨m, hm, ht⟩ := inv.fresh a b hq
            exact ⟨m, hbel m hm, ht⟩
          · intro _ _ hq; cases hq
          · intro _ _ hq; cases hq
          · intro _ _ hq; cases hq
          · intro _ _ hq; cases hq; simp; omega
          · intro _ _ hq; cases hq; exact inv.tickCur _ _ hf
          · intro _ _ _ _ _ _ _ _; exact .inr (.inr (.inr (.inr (.inr ⟨_, _, rfl⟩))))
          · intro hs ws hq; exact absurd hq (hnoR _ _)
          · intro _ _ hq; cases hq
            exact snoc_right hk (.inl hWk) (inv.rightT _ _ hf)
      · cases h
    · cases h
  · cases h

theorem inv_sets {env : Env E} {s s' : St E} {w : Who} (inv : Inv s) (h : step env s (.sets w) = some s') : Inv s' := by
  simp only [step, inv.alive, Bool.false_eq_true, if_false] at h
  have hB := inv.below
  split at h
  · rename_i hs ws hf
    split at h
    · rename_i hlen
      simp only [Option.some.injEq] at h; subst h
      cases w with
      | refresh =>
        simp only [St.phase] at hf
        simp only [St.setPhase]
        have hcur := inv.readCur _ _ hf
        refine ⟨rfl, inv.noStray, ?_, inv.tickShape, ⟨hB.cur, ?_, hB.task, ?_, hB.readT⟩, inv.curNodup, ?_, ?_,
          ?_, inv.tickNodup, inv.asking, inv.sendDone, ?_, inv.readLenT, ?_, ?_, ?_, ?_, ?_, ?_, ?_, ?_,
          inv.tickRead⟩
        · intro _ _ _ _ hq; cases hq
        · intro _ _ hq; cases hq; exact hB.readR _ _ hf
        · intro _ _ hq; cases hq
        · intro _ hq; cases hq
        · intro _ _ hq; cases hq
        · intro _ _ hq; cases hq
        · intro _ _ hq; cases hq
        · intro _ _ hq; cases hq; exact hlen
        · intro hq; rw [hcur] at hq; cases hq
        · intro cs hq; rw [hcur] at hq; cases hq; exact .inr (.inr ⟨_, rfl⟩)
        · intro _ _ hq; cases hq
        · intro _ _ hq; exact absurd hq (inv.excl _ _ _ _ hf)
        · intro _ _ hq i h x hi hx
          cases hq
          rcases inv.rightR _ _ hf i h x hi hx with e | e | e
          · exact .inl e
          · exact .inr (.inl e)
          · exact .inr (.inr (.inr (.inl e)))
        · intro _ _ hq; cases hq
        · intro _ _ hq; exact absurd hq (inv.excl _ _ _ _ hf)
      | tick =>
        simp only [St.phase] at hf
        simp only [St.setPhase]
        have hnoR : ∀ a b, s.refresh ≠ .reading a b := fun a b hq => inv.excl _ _ _ _ hq hf
        have hbel : ∀ m, Below s m → Below { s with selector := some (hs, ws), tick := .idle, crashed := false } m := by
          intro m hm
          refine ⟨hm.cur, ?_, ?_, hm.readR, ?_⟩
          · intro a b hq; cases hq; exact hm.readT _ _ hf
          · intro a b hq; cases hq
          · intro a b hq; cases hq
        refine ⟨rfl, inv.noStray, ?_, ?_, hbel _ hB, inv.curNodup, inv.storeIds, inv.fetchIds,
          ?_, ?_, ?_, ?_, inv.readLenR, ?_, ?_, ?_, ?_, inv.readCur, ?_, ?_, ?_, ?_,
          by intro _ _ hq; cases hq⟩
        · intro _ _ _ _ _ hq; cases hq
        · intro _ hq; cases hq
        · intro a b hq
          obtain ⟨m, hm, ht⟩ := inv.fresh a b hq
          exact ⟨m, hbel m hm, ht⟩
        · intro _ _ hq; cases hq
        · intro _ _ hq; cases hq
        · intro _ _ hq; cases hq
        · intro _ _ hq; cases hq
        · intro _ _ hq; cases hq; exact hlen
        · intro hq; exact absurd hq (inv.tickRead _ _ hf)
        · intro cs hq
          rcases inv.tickCur _ _ hf with e | e
          · rw [e] at hq; cases hq; exact .inr (.inr ⟨_, rfl⟩)
          · exact .inl e
        · intro _ _ hq; cases hq
        · intro _ _ hq i h x hi hx
          cases hq
          rcases inv.rightT _ _ hf i h x hi hx with e | e
          · exact .inl e
          · exact .inr (.inr (.inl e))
        · intro hs ws hq; exact absurd hq (hnoR _ _)
        · intro _ _ hq; cases hq
    · cases h
  · cases h

/-- No call of `refreshDynamicWeight` has given up. -/
def NoTimeout (ops : List (Op E)) : Prop := ∀ w, Op.timeout w ∉ ops

/-- The endpoints of each list are distinct. -/
def Distinct (ops : List (Op E)) : Prop := ∀ eps, Op.onRefresh eps ∈ ops → eps.Nodup

theorem inv_step {env : Env E} {s s' : St E} {op : Op E} (inv : Inv s) (ht : ∀ w, op ≠ .timeout w)
    (hd : ∀ eps, op = .onRefresh eps → eps.Nodup) (h : step env s op = some s') : Inv s' := by
  cases op with
  | onRefresh eps => exact inv_onRefresh inv (hd eps rfl) h
  | tick => exact inv_tick inv h
  | reads o i k => exact inv_reads inv h
  | answers o i k a => exact inv_answers inv h
  | compares o i k => exact inv_compares inv h
  | waited w => exact inv_waited inv h
  | finish w => exact inv_finish inv h
  | timeout w => exact absurd rfl (ht w)
  | stores => exact inv_stores inv h
  | locks w => exact inv_locks inv h
  | readsWeight w => exact inv_readsWeight inv h
  | sets w => exact inv_sets inv h

theorem inv_run (env : Env E) : ∀ ops s, run env init ops = some s → NoTimeout ops → Distinct ops → Inv s := by
  refine run_induct env _ (fun _ _ => inv_init) ?_
  intro ops s op s' _ ih hst ht hd
  refine inv_step (ih (fun w hm => ht w (List.mem_append_left _ hm)) (fun e hm => hd e (List.mem_append_left _ hm))) ?_ ?_ hst
  · intro w e; exact ht w (by simp [e])
  · intro eps e; exact hd eps (by simp [e])

/-! ## All schedules -/

omit [DecidableEq E] in
theorem setTasks_heap (s : St E) (ts : List Task) (f : Bool) (o : Owner) : (s.setTasks ts f o).heap = s.heap := by
  cases o with
  | stray => rfl
  | of w =>
    simp only [St.setTasks]
    split
    · cases w <;> rfl
    · rfl

omit [DecidableEq E] in
theorem setPhase_heap (s : St E) (w : Who) (p : Phase) : (s.setPhase w p).heap = s.heap := by cases w <;> rfl

/-- The dynamic weight of the holder `k` after an operation. -/
def dynAfter (env : Env E) (op : Op E) (k : Nat) (d : Int) : Int :=
  match op with
  | .answers _ _ h (.found m) => if h = k then dynamicWeight env.envPrefix m else d
  | _ => d

/-- What an operation does to the holders. -/
theorem step_heap {env : Env E} {s s' : St E} {op : Op E} (h : step env s op = some s')
    (hold : ∀ cs, s.current = some cs → ∀ k ∈ cs, k < s.heap.length) :
    (∀ (k : Nat) hd, s.heap[k]? = some hd → ∃ hd', s'.heap[k]? = some hd' ∧ hd'.ep = hd.ep ∧ hd'.static = hd.static ∧
      hd'.dynamic = dynAfter env op k hd.dynamic) ∧
    (∀ (k : Nat) hd', s'.heap[k]? = some hd' → s.heap[k]? = none → hd' = newHolder env hd'.ep) := by
  have same : s'.heap = s.heap → (∀ k d, dynAfter env op k d = d) →
      (∀ (k : Nat) hd, s.heap[k]? = some hd → ∃ hd', s'.heap[k]? = some hd' ∧ hd'.ep = hd.ep ∧ hd'.static = hd.static ∧
        hd'.dynamic = dynAfter env op k hd.dynamic) ∧
      (∀ (k : Nat) hd', s'.heap[k]? = some hd' → s.heap[k]? = none → hd' = newHolder env hd'.ep) := by
    intro he hd
    refine ⟨fun k x hx => ⟨x, by rw [he]; exact hx, rfl, rfl, (hd k _).symm⟩, ?_⟩
    intro k x hx hn
    rw [he, hn] at hx; cases hx
  cases op with
  | onRefresh eps =>
    simp only [step] at h
    split at h
    · cases h
    cases hb : build env (s.current.getD []) eps s.heap with
    | mk hp r =>
      obtain ⟨al, nw⟩ := r
      rw [hb] at h
      simp only [Option.some.injEq] at h
      have hold' : ∀ k ∈ s.current.getD [], k < s.heap.length := by
        intro k hm
        cases hq : s.current with
        | none => rw [hq] at hm; cases hm
        | some cs => rw [hq] at hm; exact hold cs hq k hm
      obtain ⟨⟨ext, rfl⟩, _, _, _, _, _, _, h8⟩ := build_spec env _ eps s.heap hold' _ _ _ hb
      subst h
      refine ⟨fun k hd hk => ⟨hd, ?_, rfl, rfl, rfl⟩, ?_⟩
      · simp only [getElem?_append_old (List.getElem?_eq_some_iff.1 hk).1, hk]
      · intro k hd' hk hn
        obtain ⟨e, _, he⟩ := h8 k hd' (List.getElem?_eq_none_iff.1 hn) hk
        rw [he]; rfl
  | tick =>
    simp only [step] at h
    split at h
    · cases h
    · rw [Option.some.injEq] at h; subst h; exact same rfl (fun _ _ => rfl)
  | reads o i k =>
    simp only [step] at h
    split at h
    · cases h
    split at h
    · split at h
      · rw [Option.some.injEq] at h; subst h; exact same (setTasks_heap _ _ _ _) (fun _ _ => rfl)
      · cases h
    · cases h
  | answers o i k a =>
    simp only [step] at h
    split at h
    · cases h
    split at h
    · rename_i h' old hd ht hh
      have hlt := (List.getElem?_eq_some_iff.1 hh).1
      split at h
      · rename_i e; subst e
        cases a with
        | found m =>
          simp only [Option.some.injEq] at h; subst h
          refine ⟨?_, ?_⟩
          · intro j hj hjs
            rw [setTasks_heap]
            by_cases e : h' = j
            · subst e
              rw [hh] at hjs; cases hjs
              exact ⟨_, List.getElem?_set_self hlt, rfl, rfl, by simp [dynAfter]⟩
            · exact ⟨hj, by rw [List.getElem?_set_ne e]; exact hjs, rfl, rfl, by simp [dynAfter, e]⟩
          · intro j hj hjs hn
            rw [setTasks_heap] at hjs
            have : j < s.heap.length := by
              have := (List.getElem?_eq_some_iff.1 hjs).1
              simpa using this
            rw [List.getElem?_eq_none_iff] at hn; omega
        | notSupported =>
          simp only [Option.some.injEq] at h; subst h
          refine ⟨?_, ?_⟩
          · intro j hj hjs
            rw [setTasks_heap]
            by_cases e : h' = j
            · subst e
              rw [hh] at hjs; cases hjs
              exact ⟨_, List.getElem?_set_self hlt, rfl, rfl, rfl⟩
            · exact ⟨hj, by rw [List.getElem?_set_ne e]; exact hjs, rfl, rfl, rfl⟩
          · intro j hj hjs hn
            rw [setTasks_heap] at hjs
            have : j < s.heap.length := by
              have := (List.getElem?_eq_some_iff.1 hjs).1
              simpa using this
            rw [List.getElem?_eq_none_iff] at hn; omega
        | failed =>
          simp only [Option.some.injEq] at h; subst h
          exact same (setTasks_heap _ _ _ _) (fun _ _ => rfl)
      · cases h
    · cases h
  | compares o i k =>
    simp only [step] at h
    split at h
    · cases h
    split at h
    · split at h
      · rw [Option.some.injEq] at h; subst h; exact same (setTasks_heap _ _ _ _) (fun _ _ => rfl)
      · cases h
    · cases h
  | waited w =>
    simp only [step] at h
    split at h
    · cases h
    split at h
    · split at h
      · rw [Option.some.injEq] at h; subst h; exact same (setPhase_heap _ _ _) (fun _ _ => rfl)
      · cases h
    · cases h
  | finish w =>
    simp only [step] at h
    split at h
    · cases h
    split at h
    · split at h
      · rw [Option.some.injEq] at h; subst h; exact same (setPhase_heap _ _ _) (fun _ _ => rfl)
      · cases h
    · cases h
  | timeout w =>
    simp only [step] at h
    split at h
    · cases h
    split at h
    · split at h
      · rw [Option.some.injEq] at h; subst h; exact same rfl (fun _ _ => rfl)
      · rw [Option.some.injEq] at h; subst h; exact same (setPhase_heap _ _ _) (fun _ _ => rfl)
    · cases h
  | stores =>
    simp only [step] at h
    split at h
    · cases h
    split at h
    · rw [Option.some.injEq] at h; subst h; exact same rfl (fun _ _ => rfl)
    · cases h
  | locks w =>
    simp only [step] at h
    split at h
    · cases h
    split at h
    · cases h
    · split at h <;> (rw [Option.some.injEq] at h; subst h; exact same (setPhase_heap _ _ _) (fun _ _ => rfl))
    · cases h
  | readsWeight w =>
    simp only [step] at h
    split at h
    · cases h
    split at h
    · split at h
      · split at h
        · rw [Option.some.injEq] at h; subst h; exact same (setPhase_heap _ _ _) (fun _ _ => rfl)
        · cases h
      · cases h
    · cases h
  | sets w =>
    simp only [step] at h
    split at h
    · cases h
    split at h
    · split at h
      · rw [Option.some.injEq] at h; subst h; exact same (setPhase_heap _ _ _) (fun _ _ => rfl)
      · cases h
    · cases h

/-- The lists of holders in a state satisfy `P`, and with the weights read for them `Q`. -/
structure Uses (s : St E) (P : List Nat → Prop) (Q : List Nat → List Int → Prop) : Prop where
  cur : ∀ cs, s.current = some cs → P cs
  sel : ∀ hs ws, s.selector = some (hs, ws) → P hs ∧ Q hs ws ∧ ws.length = hs.length
  readR : ∀ hs ws, s.refresh = .reading hs ws → P hs ∧ Q hs ws
  readT : ∀ hs ws, s.tick = .reading hs ws → P hs ∧ Q hs ws
  store : ∀ all, s.refresh = .storing all → P all
  fetch : ∀ all b, s.refresh = .fetching all b → P all

omit [DecidableEq E] in
theorem Uses.mono {s : St E} {P P' : List Nat → Prop} {Q Q' : List Nat → List Int → Prop} (h : Uses s P Q)
    (hP : ∀ hs, P hs → P' hs) (hQ : ∀ hs ws, P hs → Q hs ws → Q' hs ws) : Uses s P' Q' :=
  ⟨fun a b => hP _ (h.cur a b), fun a b c => ⟨hP _ (h.sel a b c).1, hQ _ _ (h.sel a b c).1 (h.sel a b c).2.1, (h.sel a b c).2.2⟩,
    fun a b c => ⟨hP _ (h.readR a b c).1, hQ _ _ (h.readR a b c).1 (h.readR a b c).2⟩,
    fun a b c => ⟨hP _ (h.readT a b c).1, hQ _ _ (h.readT a b c).1 (h.readT a b c).2⟩,
    fun a b => hP _ (h.store a b), fun a b c => hP _ (h.fetch a b c)⟩

omit [DecidableEq E] in
theorem uses_setTasks {s : St E} {P : List Nat → Prop} {Q : List Nat → List Int → Prop} (h : Uses s P Q)
    (ts : List Task) (f : Bool) (o : Owner) : Uses (s.setTasks ts f o) P Q := by
  cases o with
  | stray => exact ⟨h.cur, h.sel, h.readR, h.readT, h.store, h.fetch⟩
  | of w =>
    simp only [St.setTasks]
    split
    · rename_i all b hf
      cases w with
      | refresh =>
        refine ⟨h.cur, h.sel, ?_, h.readT, ?_, ?_⟩
        · intro _ _ hq; cases hq
        · intro _ hq; cases hq
        · intro a b' hq; cases hq; exact h.fetch all b hf
      | tick =>
        refine ⟨h.cur, h.sel, h.readR, ?_, h.store, h.fetch⟩
        intro _ _ hq; cases hq
    · exact h

/-- What an operation does to the lists of holders. -/
theorem step_uses {env : Env E} {s s' : St E} {op : Op E} {P : List Nat → Prop} {Q : List Nat → List Int → Prop}
    (h : step env s op = some s') (hu : Uses s P Q)
    (hnew : ∀ eps, op = .onRefresh eps → ∀ heap all new,
      build env (s.current.getD []) eps s.heap = (heap, all, new) → P all)
    (hnil : ∀ hs, P hs → Q hs [])
    (hsnoc : ∀ (hs : List Nat) (ws : List Int) (k : Nat) (hd : Holder E), P hs → Q hs ws → hs[ws.length]? = some k →
      s.heap[k]? = some hd → Q hs (ws ++ [hd.weight])) : Uses s' P Q := by
  cases op with
  | onRefresh eps =>
    simp only [step] at h
    split at h
    · cases h
    cases hb : build env (s.current.getD []) eps s.heap with
    | mk hp r =>
      obtain ⟨al, nw⟩ := r
      have hal := hnew eps rfl _ _ _ hb
      rw [hb] at h
      simp only [Option.some.injEq] at h
      subst h
      refine ⟨hu.cur, hu.sel, ?_, hu.readT, ?_, ?_⟩
      · intro _ _ hq; simp only at hq; split at hq <;> cases hq
      · intro a hq; simp only at hq; split at hq <;> cases hq; exact hal
      · intro a b hq; simp only at hq; split at hq <;> cases hq; exact hal
  | tick =>
    simp only [step] at h
    split at h
    · cases h
    · rw [Option.some.injEq] at h; subst h
      exact ⟨hu.cur, hu.sel, hu.readR, fun _ _ hq => (by cases hq), hu.store, hu.fetch⟩
  | reads o i k =>
    simp only [step] at h
    split at h
    · cases h
    split at h
    · split at h
      · rw [Option.some.injEq] at h; subst h; exact uses_setTasks hu _ _ _
      · cases h
    · cases h
  | answers o i k a =>
    simp only [step] at h
    split at h
    · cases h
    split at h
    · split at h
      · cases a with
        | found m =>
          simp only [Option.some.injEq] at h; subst h
          refine uses_setTasks ?_ _ _ _
          exact ⟨hu.cur, hu.sel, hu.readR, hu.readT, hu.store, hu.fetch⟩
        | notSupported =>
          simp only [Option.some.injEq] at h; subst h
          refine uses_setTasks ?_ _ _ _
          exact ⟨hu.cur, hu.sel, hu.readR, hu.readT, hu.store, hu.fetch⟩
        | failed =>
          simp only [Option.some.injEq] at h; subst h
          exact uses_setTasks hu _ _ _
      · cases h
    · cases h
  | compares o i k =>
    simp only [step] at h
    split at h
    · cases h
    split at h
    · split at h
      · rw [Option.some.injEq] at h; subst h; exact uses_setTasks hu _ _ _
      · cases h
    · cases h
  | waited w =>
    simp only [step] at h
    split at h
    · cases h
    split at h
    · rename_i all b hf
      split at h
      · rw [Option.some.injEq] at h; subst h
        cases w with
        | refresh =>
          exact ⟨hu.cur, hu.sel, fun _ _ hq => (by cases hq), hu.readT, fun _ hq => (by cases hq),
            fun _ _ hq => (by cases hq; exact hu.fetch all b hf)⟩
        | tick => exact ⟨hu.cur, hu.sel, hu.readR, fun _ _ hq => (by cases hq), hu.store, hu.fetch⟩
      · cases h
    · cases h
  | finish w =>
    simp only [step] at h
    split at h
    · cases h
    split at h
    · rename_i all b hf
      split at h
      · rw [Option.some.injEq] at h; subst h
        cases w with
        | refresh =>
          exact ⟨hu.cur, hu.sel, fun _ _ hq => (by cases hq), hu.readT, fun _ hq => (by cases hq; exact hu.fetch all b hf),
            fun _ _ hq => (by cases hq)⟩
        | tick =>
          refine ⟨hu.cur, hu.sel, hu.readR, fun _ _ hq => ?_, hu.store, hu.fetch⟩
          simp only [St.setPhase, after] at hq
          split at hq <;> cases hq
      · cases h
    · cases h
  | timeout w =>
    simp only [step] at h
    split at h
    · cases h
    split at h
    · rename_i all b hf
      split at h
      · rw [Option.some.injEq] at h; subst h
        exact ⟨hu.cur, hu.sel, hu.readR, hu.readT, hu.store, hu.fetch⟩
      · rw [Option.some.injEq] at h; subst h
        cases w with
        | refresh =>
          exact ⟨hu.cur, hu.sel, fun _ _ hq => (by cases hq), hu.readT, fun _ hq => (by cases hq; exact hu.fetch all b hf),
            fun _ _ hq => (by cases hq)⟩
        | tick =>
          refine ⟨hu.cur, hu.sel, hu.readR, fun _ _ hq => ?_, hu.store, hu.fetch⟩
          simp only [St.setPhase, after] at hq
          split at hq <;> cases hq
    · cases h
  | stores =>
    simp only [step] at h
    split at h
    · cases h
    split at h
    · rename_i all hf
      rw [Option.some.injEq] at h; subst h
      exact ⟨fun _ hq => (by cases hq; exact hu.store all hf), hu.sel, fun _ _ hq => (by cases hq), hu.readT,
        fun _ hq => (by cases hq), fun _ _ hq => (by cases hq)⟩
    · cases h
  | locks w =>
    simp only [step] at h
    split at h
    · cases h
    split at h
    · cases h
    · split at h
      · rw [Option.some.injEq] at h; subst h
        cases w with
        | refresh =>
          exact ⟨hu.cur, hu.sel, fun _ _ hq => (by cases hq), hu.readT, fun _ hq => (by cases hq), fun _ _ hq => (by cases hq)⟩
        | tick => exact ⟨hu.cur, hu.sel, hu.readR, fun _ _ hq => (by cases hq), hu.store, hu.fetch⟩
      · rename_i hs hc
        rw [Option.some.injEq] at h; subst h
        have hp := hu.cur hs hc
        cases w with
        | refresh =>
          exact ⟨hu.cur, hu.sel, fun _ _ hq => (by cases hq; exact ⟨hp, hnil _ hp⟩), hu.readT, fun _ hq => (by cases hq),
            fun _ _ hq => (by cases hq)⟩
        | tick =>
          exact ⟨hu.cur, hu.sel, hu.readR, fun _ _ hq => (by cases hq; exact ⟨hp, hnil _ hp⟩), hu.store, hu.fetch⟩
    · cases h
  | readsWeight w =>
    simp only [step] at h
    split at h
    · cases h
    split at h
    · rename_i hs ws hf
      split at h
      · rename_i k hk
        split at h
        · rename_i hd hh
          rw [Option.some.injEq] at h; subst h
          cases w with
          | refresh =>
            obtain ⟨hp, hq'⟩ := hu.readR hs ws hf
            exact ⟨hu.cur, hu.sel, fun _ _ hq => (by cases hq; exact ⟨hp, hsnoc _ _ _ _ hp hq' hk hh⟩), hu.readT,
              fun _ hq => (by cases hq), fun _ _ hq => (by cases hq)⟩
          | tick =>
            obtain ⟨hp, hq'⟩ := hu.readT hs ws hf
            exact ⟨hu.cur, hu.sel, hu.readR, fun _ _ hq => (by cases hq; exact ⟨hp, hsnoc _ _ _ _ hp hq' hk hh⟩), hu.store,
              hu.fetch⟩
        · cases h
      · cases h
    · cases h
  | sets w =>
    simp only [step] at h
    split at h
    · cases h
    split at h
    · rename_i hs ws hf
      split at h
      · rename_i hl
        rw [Option.some.injEq] at h; subst h
        cases w with
        | refresh =>
          obtain ⟨hp, hq'⟩ := hu.readR hs ws hf
          exact ⟨hu.cur, fun _ _ hq => (by cases hq; exact ⟨hp, hq', hl⟩), fun _ _ hq => (by cases hq), hu.readT,
            fun _ hq => (by cases hq), fun _ _ hq => (by cases hq)⟩
        | tick =>
          obtain ⟨hp, hq'⟩ := hu.readT hs ws hf
          exact ⟨hu.cur, fun _ _ hq => (by cases hq; exact ⟨hp, hq', hl⟩), hu.readR, fun _ _ hq => (by cases hq), hu.store,
            hu.fetch⟩
      · cases h
    · cases h

end Motan.Weights
