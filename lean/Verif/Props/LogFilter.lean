import Verif.Model.LogFilter

/-!
# C85: filters get a copy of what is logged, without holding up the program
-/

namespace Motan.Props

open Motan.LogFilter

namespace Spec

/-- The items logged in a schedule, in order. -/
def filterLogged (ops : List LogFilter.Op) : List Item := ops.filterMap fun o => match o with | .log i => some i | _ => none

/-- The item that is being offered and that a filter has not been offered yet. -/
def toCome (s : LogFilter.St) (f : Nat) : List Item :=
  match s.offering with
  | some (i, fs) => if f ∈ fs then [i] else []
  | none => []

/-- What readers of a filter got and what waits for them. -/
def copies (s : LogFilter.St) (f : Nat) : List Item := (s.chan f).got ++ (s.chan f).queue

/-- A filter can take an item: its channel is open and a reader waits or there is room. -/
def Ready (s : LogFilter.St) (f : Nat) : Prop :=
  (s.chan f).closed = false ∧ (0 < (s.chan f).readers ∨ (s.chan f).queue.length < (s.chan f).cap)

/-- Nothing is lost for a filter in a step. -/
def RoomAt (f : Nat) (s : LogFilter.St) : LogFilter.Op → Prop
  | .log _ => s.queue.length < 5000
  | .offer g => g = f → Ready s f
  | _ => True

/-- Nothing was lost for a filter: fewer than 5000 items waited whenever something was logged, and the filter could take an item
whenever it was offered one. -/
def Roomy (f : Nat) : LogFilter.St → List LogFilter.Op → Prop
  | _, [] => True
  | s, o :: os => RoomAt f s o ∧ ∀ s', LogFilter.step s o = some s' → Roomy f s' os

end Spec

/-! ## Invariants -/

theorem count_store (m : AMap Bytes Nat) (k : Bytes) (v f : Nat) :
    ((m.store k v).map (·.2)).count f + (if m.load k = some f then 1 else 0) =
      (m.map (·.2)).count f + (if v = f then 1 else 0) := by
  induction m with
  | nil => simp [AMap.store, AMap.load, List.count_cons]
  | cons p m ih =>
    obtain ⟨k', v'⟩ := p
    by_cases hk : k' = k
    · subst hk
      simp [AMap.store, AMap.load, List.count_cons]
      split <;> split <;> omega
    · simp only [AMap.store, AMap.load, if_neg hk, List.map_cons, List.count_cons]
      omega

/-- Readers wait only if nothing waits for them. -/
def ChanOk (c : Chan) : Prop := (0 < c.readers → c.queue = []) ∧ c.queue.length ≤ c.cap

theorem chanOk_send {c : Chan} (h : ChanOk c) (i : Item) : ChanOk (send c i) := by
  unfold ChanOk send at *
  grind

theorem chanOk_receive {c : Chan} (h : ChanOk c) : ChanOk c.receive := by
  unfold ChanOk Chan.receive at *
  grind

theorem log_chanOk {s s' : LogFilter.St} {o : LogFilter.Op} (h : ∀ f, ChanOk (s.chan f)) (hs : LogFilter.step s o = some s') :
    ∀ f, ChanOk (s'.chan f) := by
  intro f
  cases o with
  | offer g =>
    simp only [LogFilter.step] at hs
    split at hs
    · split at hs
      · cases hs
        simp only [St.setChan]
        split
        · subst f; exact chanOk_send (h _) _
        · exact h f
      · cases hs
    · cases hs
  | receive g =>
    cases hs
    simp only [St.setChan]
    split
    · exact chanOk_receive (h _)
    · exact h f
  | close g =>
    cases hs
    simp only [St.setChan]
    split
    · exact ⟨fun h0 => absurd h0 (by simp), (h g).2⟩
    · exact h f
  | log i =>
    simp only [LogFilter.step] at hs
    (repeat' split at hs) <;> cases hs <;> exact h f
  | add n g =>
    simp only [LogFilter.step] at hs
    (repeat' split at hs) <;> cases hs <;> exact h f
  | take =>
    simp only [LogFilter.step] at hs
    (repeat' split at hs) <;> cases hs <;> exact h f
  | finish =>
    simp only [LogFilter.step] at hs
    (repeat' split at hs) <;> cases hs <;> exact h f

theorem log_chanOk_play {s s' : LogFilter.St} {ops : List LogFilter.Op} (h : ∀ f, ChanOk (s.chan f))
    (hs : LogFilter.play s ops = some s') : ∀ f, ChanOk (s'.chan f) := by
  induction ops generalizing s with
  | nil => cases hs; exact h
  | cons o os ih =>
    simp only [LogFilter.play, Option.bind_eq_some_iff] at hs
    obtain ⟨m, h1, h2⟩ := hs
    exact ih (log_chanOk h h1) h2

theorem copies_send {c : Chan} (h : ChanOk c) (i : Item) :
    ((send c i).got ++ (send c i).queue = c.got ++ c.queue ++ [i] ∧ c.closed = false ∧
      (0 < c.readers ∨ c.queue.length < c.cap)) ∨
    (send c i = c ∧ ¬ (c.closed = false ∧ (0 < c.readers ∨ c.queue.length < c.cap))) := by
  unfold send
  by_cases hc : c.closed = true
  · right; simp [hc]
  · by_cases hr : 0 < c.readers
    · left; simp [hc, hr, h.1 hr]
    · by_cases hq : c.queue.length < c.cap
      · left; simp [hc, hr, hq]
      · right; simp [hc, hr, hq]

theorem copies_receive (c : Chan) : c.receive.got ++ c.receive.queue = c.got ++ c.queue := by
  unfold Chan.receive
  split
  · rename_i h; simp [h]
  · rename_i h; split <;> simp [h]

/-- A filter that is registered under no name and is being offered nothing. -/
structure Absent (f : Nat) (s : LogFilter.St) : Prop where
  name : ∀ k, s.filters.load k ≠ some f
  count : (s.filters.map (·.2)).count f = 0
  come : ∀ i fs, s.offering = some (i, fs) → f ∉ fs

/-- A filter that is registered under one name. -/
structure Under (n : Bytes) (f : Nat) (s : LogFilter.St) : Prop where
  name : ∀ k, s.filters.load k = some f ↔ k = n
  count : (s.filters.map (·.2)).count f = 1
  come : ∀ i fs, s.offering = some (i, fs) → fs.count f ≤ 1

theorem absent_step {f : Nat} {s s' : LogFilter.St} {o : LogFilter.Op} (h : Absent f s) (ho : ∀ k, o ≠ .add k f)
    (hs : LogFilter.step s o = some s') : Absent f s' ∧ Spec.copies s' f = Spec.copies s f := by
  obtain ⟨h1, h2, h3⟩ := h
  cases o with
  | log i =>
    simp only [LogFilter.step] at hs
    (repeat' split at hs) <;> cases hs <;> exact ⟨⟨h1, h2, h3⟩, rfl⟩
  | add n g =>
    simp only [LogFilter.step] at hs
    split at hs
    · rename_i hn
      cases hs
      have hg : g ≠ f := fun e => ho n (by rw [e])
      refine ⟨⟨fun k => ?_, ?_, ?_⟩, rfl⟩
      · simp only [AMap.load_store]
        split
        · simp [hg]
        · exact h1 k
      · have := count_store s.filters n g f
        simp only [h1 n, hg, if_false] at this
        simpa [h2] using this
      · simp [hn]
    · cases hs
  | take =>
    simp only [LogFilter.step] at hs
    split at hs
    · cases hs
      refine ⟨⟨h1, h2, ?_⟩, rfl⟩
      intro i fs e
      simp only [Option.some.injEq, Prod.mk.injEq] at e
      rw [← e.2]
      exact List.count_eq_zero.mp h2
    · cases hs
  | offer g =>
    simp only [LogFilter.step] at hs
    split at hs
    · rename_i i fs hoff
      split at hs
      · rename_i hm
        cases hs
        have hne : f ≠ g := fun e => h3 i fs hoff (e ▸ hm)
        refine ⟨⟨h1, h2, ?_⟩, by simp [Spec.copies, St.setChan, hne]⟩
        intro i' fs' e
        simp only [Option.some.injEq, Prod.mk.injEq] at e
        rw [← e.2]
        exact fun hf => h3 i fs hoff (List.mem_of_mem_erase hf)
      · cases hs
    · cases hs
  | finish =>
    simp only [LogFilter.step] at hs
    split at hs
    · cases hs; exact ⟨⟨h1, h2, by simp⟩, rfl⟩
    · cases hs
  | receive g =>
    cases hs
    refine ⟨⟨h1, h2, h3⟩, ?_⟩
    simp only [Spec.copies, St.setChan]
    split
    · subst f; exact copies_receive _
    · rfl
  | close g =>
    cases hs
    refine ⟨⟨h1, h2, h3⟩, ?_⟩
    simp only [Spec.copies, St.setChan]
    split
    · subst f; rfl
    · rfl

theorem absent_play {f : Nat} {s s' : LogFilter.St} {ops : List LogFilter.Op} (h : Absent f s) (ho : ∀ k, .add k f ∉ ops)
    (hs : LogFilter.play s ops = some s') : Absent f s' ∧ Spec.copies s' f = Spec.copies s f := by
  induction ops generalizing s with
  | nil => cases hs; exact ⟨h, rfl⟩
  | cons o os ih =>
    simp only [LogFilter.play, Option.bind_eq_some_iff] at hs
    obtain ⟨m, h1, h2⟩ := hs
    have a := absent_step h (fun k e => ho k (by simp [e])) h1
    have b := ih a.1 (fun k e => ho k (by simp [e])) h2
    exact ⟨b.1, b.2.trans a.2⟩

/-- All that is on its way to a filter or there already. -/
def stream (s : LogFilter.St) (f : Nat) : List Item := Spec.copies s f ++ Spec.toCome s f ++ s.queue

theorem under_step {n : Bytes} {f : Nat} {s s' : LogFilter.St} {o : LogFilter.Op} (h : Under n f s)
    (hc : ∀ g, ChanOk (s.chan g)) (ho : ∀ k g, o = .add k g → k ≠ n ∧ g ≠ f) (hs : LogFilter.step s o = some s') :
    Under n f s' ∧ (stream s' f).Sublist (stream s f ++ Spec.filterLogged [o]) ∧
      (Spec.RoomAt f s o → stream s' f = stream s f ++ Spec.filterLogged [o]) := by
  obtain ⟨h1, h2, h3⟩ := h
  cases o with
  | log i =>
    simp only [LogFilter.step] at hs
    have hne : s.filters ≠ [] := fun e => by simp [e] at h2
    rw [if_neg hne] at hs
    split at hs
    · cases hs
      refine ⟨⟨h1, h2, h3⟩, ?_⟩
      have : stream { s with queue := s.queue ++ [i] } f = stream s f ++ Spec.filterLogged [.log i] := by
        simp [stream, Spec.copies, Spec.toCome, Spec.filterLogged]
      exact ⟨this ▸ List.Sublist.refl _, fun _ => this⟩
    · rename_i hr
      cases hs
      exact ⟨⟨h1, h2, h3⟩, List.sublist_append_left _ _, fun hl => absurd hl (by simpa [room, Spec.RoomAt] using hr)⟩
  | add k g =>
    simp only [LogFilter.step] at hs
    split at hs
    · rename_i hn
      cases hs
      obtain ⟨hk, hg⟩ := ho k g rfl
      have hk' : s.filters.load k ≠ some f := fun e => hk ((h1 k).mp e)
      refine ⟨⟨fun k' => ?_, ?_, by simp [hn]⟩, ?_⟩
      · simp only [AMap.load_store]
        split
        · rename_i e; subst e
          simp [hg, hk]
        · exact h1 k'
      · have := count_store s.filters k g f
        simp only [hk', hg, if_false] at this
        simpa [h2] using this
      · simp [stream, Spec.copies, Spec.toCome, Spec.filterLogged]
    · cases hs
  | take =>
    simp only [LogFilter.step] at hs
    split at hs
    · rename_i i q hoff hq
      cases hs
      have hm : f ∈ s.filters.map (·.2) := List.count_pos_iff.mp (by omega)
      refine ⟨⟨h1, h2, ?_⟩, ?_⟩
      · intro i' fs e
        simp only [Option.some.injEq, Prod.mk.injEq] at e
        rw [← e.2]; omega
      · have : stream { s with queue := q, offering := some (i, s.filters.map (·.2)) } f = stream s f ++ Spec.filterLogged [.take] := by
          simp only [stream, Spec.copies, Spec.toCome, hoff, hq, if_pos hm]
          simp [Spec.filterLogged]
        exact ⟨this ▸ List.Sublist.refl _, fun _ => this⟩
    · cases hs
  | offer g =>
    simp only [LogFilter.step] at hs
    split at hs
    · rename_i i fs hoff
      split at hs
      · rename_i hm
        cases hs
        have hcount := h3 i fs hoff
        refine ⟨⟨h1, h2, ?_⟩, ?_⟩
        · intro i' fs' e
          simp only [Option.some.injEq, Prod.mk.injEq] at e
          rw [← e.2]
          exact Nat.le_trans (List.Sublist.count_le f (List.erase_sublist)) hcount
        · by_cases hg : g = f
          · subst hg
            have hgone : g ∉ fs.erase g := by
              intro hx
              have := List.count_pos_iff.mpr hx
              rw [List.count_erase_self] at this
              omega
            have e1 : stream s g = Spec.copies s g ++ [i] ++ s.queue := by simp [stream, Spec.toCome, hoff, hm]
            have e2 : stream { s.setChan g (send (s.chan g) i) with offering := some (i, fs.erase g) } g =
                ((send (s.chan g) i).got ++ (send (s.chan g) i).queue) ++ s.queue := by
              simp [stream, Spec.copies, Spec.toCome, St.setChan, hgone]
            rw [e1, e2]
            rcases copies_send (hc g) i with ⟨e, _⟩ | ⟨e, hno⟩
            · rw [e]; simp [Spec.copies, Spec.filterLogged]
            · rw [e]
              refine ⟨?_, fun hr => absurd (hr rfl) hno⟩
              simp [Spec.copies, Spec.filterLogged]
          · have hne : f ≠ g := fun e => hg e.symm
            have : stream { s.setChan g (send (s.chan g) i) with offering := some (i, fs.erase g) } f =
                stream s f ++ Spec.filterLogged [.offer g] := by
              simp [stream, Spec.copies, Spec.toCome, St.setChan, hne, hoff, List.mem_erase_of_ne hne, Spec.filterLogged]
            exact ⟨this ▸ List.Sublist.refl _, fun _ => this⟩
      · cases hs
    · cases hs
  | finish =>
    simp only [LogFilter.step] at hs
    split at hs
    · rename_i i hoff
      cases hs
      refine ⟨⟨h1, h2, by simp⟩, ?_⟩
      simp [stream, Spec.copies, Spec.toCome, hoff, Spec.filterLogged]
    · cases hs
  | receive g =>
    cases hs
    refine ⟨⟨h1, h2, h3⟩, ?_⟩
    have : stream (s.setChan g (s.chan g).receive) f = stream s f ++ Spec.filterLogged [.receive g] := by
      by_cases hg : f = g
      · subst hg
        have := copies_receive (s.chan f)
        simp [stream, Spec.copies, Spec.toCome, St.setChan, Spec.filterLogged] at this ⊢
        rw [← List.append_assoc, this]; simp
      · simp [stream, Spec.copies, Spec.toCome, St.setChan, hg, Spec.filterLogged]
    exact ⟨this ▸ List.Sublist.refl _, fun _ => this⟩
  | close g =>
    cases hs
    refine ⟨⟨h1, h2, h3⟩, ?_⟩
    have : stream (s.setChan g { s.chan g with closed := true, readers := 0 }) f = stream s f ++ Spec.filterLogged [.close g] := by
      by_cases hg : f = g
      · subst hg; simp [stream, Spec.copies, Spec.toCome, St.setChan, Spec.filterLogged]
      · simp [stream, Spec.copies, Spec.toCome, St.setChan, hg, Spec.filterLogged]
    exact ⟨this ▸ List.Sublist.refl _, fun _ => this⟩

theorem logged_cons (o : LogFilter.Op) (os : List LogFilter.Op) : Spec.filterLogged (o :: os) = Spec.filterLogged [o] ++ Spec.filterLogged os := by
  cases o <;> simp [Spec.filterLogged]

theorem under_play {n : Bytes} {f : Nat} {s s' : LogFilter.St} {ops : List LogFilter.Op} (h : Under n f s)
    (hc : ∀ g, ChanOk (s.chan g)) (ho : ∀ k g, .add k g ∈ ops → k ≠ n ∧ g ≠ f) (hs : LogFilter.play s ops = some s') :
    Under n f s' ∧ (stream s' f).Sublist (stream s f ++ Spec.filterLogged ops) ∧
      (Spec.Roomy f s ops → stream s' f = stream s f ++ Spec.filterLogged ops) := by
  induction ops generalizing s with
  | nil => cases hs; exact ⟨h, by simp [Spec.filterLogged], fun _ => by simp [Spec.filterLogged]⟩
  | cons o os ih =>
    simp only [LogFilter.play, Option.bind_eq_some_iff] at hs
    obtain ⟨m, h1, h2⟩ := hs
    obtain ⟨a1, a2, a3⟩ := under_step h hc (fun k g e => ho k g (by simp [e])) h1
    obtain ⟨b0, b1, b2⟩ := ih a1 (log_chanOk hc h1) (fun k g e => ho k g (by simp [e])) h2
    rw [logged_cons o os, ← List.append_assoc]
    refine ⟨b0, b1.trans (a2.append (List.Sublist.refl _)), fun hr => ?_⟩
    obtain ⟨r1, r2⟩ := hr
    rw [b2 (r2 m h1), a3 r1]

theorem filter_added {cap : Nat → Nat} {f : Nat} {n : Bytes} {pre post : List LogFilter.Op} {s0 s : LogFilter.St}
    (h0 : LogFilter.play (LogFilter.init cap) pre = some s0) (hp : ∀ k, .add k f ∉ pre)
    (ha : ∀ k g, .add k g ∈ post → k ≠ n ∧ g ≠ f) (h : LogFilter.play s0 (.add n f :: post) = some s) :
    Under n f s ∧ (stream s f).Sublist (s0.queue ++ Spec.filterLogged post) ∧
      (Spec.Roomy f s0 (.add n f :: post) → stream s f = s0.queue ++ Spec.filterLogged post) := by
  have hc0 : ∀ g, ChanOk ((LogFilter.init cap).chan g) := fun g => by simp [LogFilter.init, ChanOk]
  have hc := log_chanOk_play hc0 h0
  have hi : Absent f (LogFilter.init cap) := ⟨by simp [LogFilter.init], by simp [LogFilter.init], by simp [LogFilter.init]⟩
  obtain ⟨⟨p1, p2, p3⟩, p4⟩ := absent_play hi hp h0
  simp only [LogFilter.play, Option.bind_eq_some_iff] at h
  obtain ⟨m, h1, h2⟩ := h
  have h1' := h1
  simp only [LogFilter.step] at h1
  split at h1
  · rename_i hn
    cases h1
    have hu : Under n f { s0 with filters := s0.filters.store n f } := by
      refine ⟨fun k => ?_, ?_, by simp [hn]⟩
      · simp only [AMap.load_store]
        split
        · rename_i e; simp [e]
        · rename_i e
          exact ⟨fun x => absurd x (p1 k), fun x => absurd x (by first | exact e | exact fun y => e y.symm)⟩
      · have := count_store s0.filters n f f
        simp only [p1 n, if_false, if_true] at this
        simpa [p2] using this
    obtain ⟨u, a, b⟩ := under_play hu (by exact hc) ha h2
    have e : stream { s0 with filters := s0.filters.store n f } f = s0.queue := by
      have : Spec.copies s0 f = [] := by rw [p4]; simp [Spec.copies, LogFilter.init]
      simp only [Spec.copies] at this
      simp [stream, Spec.copies, Spec.toCome, hn, this]
    rw [e] at a b
    exact ⟨u, a, fun hr => b (hr.2 _ h1')⟩
  · cases h1

theorem log_play_append {s : LogFilter.St} {a b : List LogFilter.Op} :
    LogFilter.play s (a ++ b) = (LogFilter.play s a).bind fun m => LogFilter.play m b := by
  induction a generalizing s with
  | nil => rfl
  | cons o a ih =>
    simp only [List.cons_append, LogFilter.play]
    cases LogFilter.step s o with
    | none => rfl
    | some m => simpa using ih

/-! ## The property -/

/-- C85: a filter added under one name, and not replaced there, gets what waited when it was added and what was logged
afterwards: each item at most once, unaltered, in the order of the log calls, and none is missing if neither the first channel nor the
filter's own channel was ever full (or closed) when an item came. Full channels of other filters do not matter. -/
theorem filter_copies {cap : Nat → Nat} {f : Nat} {n : Bytes} {pre post : List LogFilter.Op} {s0 s : LogFilter.St}
    (h0 : LogFilter.play (LogFilter.init cap) pre = some s0) (hp : ∀ k, .add k f ∉ pre)
    (ha : ∀ k g, .add k g ∈ post → k ≠ n ∧ g ≠ f) (h : LogFilter.play s0 (.add n f :: post) = some s) :
    (Spec.copies s f ++ Spec.toCome s f ++ s.queue).Sublist (s0.queue ++ Spec.filterLogged post) ∧
      (Spec.Roomy f s0 (.add n f :: post) →
        Spec.copies s f ++ Spec.toCome s f ++ s.queue = s0.queue ++ Spec.filterLogged post) := by
  obtain ⟨_, a, b⟩ := filter_added h0 hp ha h
  exact ⟨a, b⟩

/-- C85: whether a filter gets an item it is offered depends on its own channel only, and no other filter notices. -/
theorem filter_own_room {cap : Nat → Nat} {ops : List LogFilter.Op} {s s' : LogFilter.St} {f : Nat} {i : Item} {fs : List Nat}
    (h : LogFilter.play (LogFilter.init cap) ops = some s) (hoff : s.offering = some (i, fs))
    (hs : LogFilter.step s (.offer f) = some s') :
    (Spec.Ready s f → Spec.copies s' f = Spec.copies s f ++ [i]) ∧
    (¬ Spec.Ready s f → s'.chan f = s.chan f) ∧ (∀ g, g ≠ f → s'.chan g = s.chan g) ∧
    s'.queue = s.queue ∧ s'.filters = s.filters := by
  have hc := log_chanOk_play (fun g => by simp [LogFilter.init, ChanOk]) h f
  simp only [LogFilter.step, hoff] at hs
  split at hs
  · cases hs
    refine ⟨fun hr => ?_, fun hr => ?_, fun g hg => by simp [St.setChan, hg], rfl, rfl⟩
    · rcases copies_send hc i with ⟨e, _⟩ | ⟨_, e⟩
      · simpa [Spec.copies, St.setChan] using e
      · exact absurd hr e
    · rcases copies_send hc i with ⟨_, e⟩ | ⟨e, _⟩
      · exact absurd e hr
      · simpa [St.setChan] using e
  · cases hs

/-- C85: a filter that was replaced under its only name (or never added) gets nothing more. -/
theorem filter_replaced {cap : Nat → Nat} {f g : Nat} {n : Bytes} {pre mid post : List LogFilter.Op} {s0 s1 s : LogFilter.St}
    (h0 : LogFilter.play (LogFilter.init cap) (pre ++ .add n f :: mid) = some s0) (hp : ∀ k, .add k f ∉ pre)
    (hm : ∀ k g, .add k g ∈ mid → k ≠ n ∧ g ≠ f) (hg : g ≠ f) (h1 : LogFilter.step s0 (.add n g) = some s1)
    (ha : ∀ k, .add k f ∉ post) (h : LogFilter.play s1 post = some s) : Spec.copies s f = Spec.copies s0 f := by
  rw [log_play_append, Option.bind_eq_some_iff] at h0
  obtain ⟨m, hpre, hmid⟩ := h0
  obtain ⟨⟨u1, u2, u3⟩, _⟩ := filter_added hpre hp hm hmid
  simp only [LogFilter.step] at h1
  split at h1
  · rename_i hn
    cases h1
    have hab : Absent f { s0 with filters := s0.filters.store n g } := by
      refine ⟨fun k => ?_, ?_, by simp [hn]⟩
      · simp only [AMap.load_store]
        split
        · simp [hg]
        · rename_i e
          exact fun x => absurd ((u1 k).mp x) (by first | exact e | exact fun y => e y.symm)
      · have := count_store s0.filters n g f
        simp only [(u1 n).mpr rfl, hg, if_false, if_true] at this
        rw [u2] at this
        exact Nat.succ.inj this
    exact (absent_play hab ha h).2
  · cases h1

/-- C85: a log call never waits, whatever the channels hold. -/
theorem filter_log_never_waits (s : LogFilter.St) (i : Item) : ∃ s', LogFilter.step s (.log i) = some s' ∧ s'.chan = s.chan ∧
    s'.offering = s.offering ∧ s'.filters = s.filters := by
  simp only [LogFilter.step]
  (repeat' split) <;> exact ⟨_, rfl, rfl, rfl, rfl⟩

/-- C85: the goroutine never waits for a filter: by its own steps alone everything logged so far is offered to every filter,
even if no filter is ever read. -/
theorem filter_offers_all (s : LogFilter.St) : ∃ ops s', LogFilter.play s ops = some s' ∧ s'.queue = [] ∧ s'.offering = none ∧
    ∀ o ∈ ops, o = .take ∨ o = .finish ∨ ∃ f, o = .offer f := by
  have one : ∀ (fs : List Nat) (s : LogFilter.St) (i : Item), s.offering = some (i, fs) →
      ∃ ops s', LogFilter.play s ops = some s' ∧ s'.queue = s.queue ∧ s'.offering = none ∧
        ∀ o ∈ ops, o = .take ∨ o = .finish ∨ ∃ f, o = .offer f := by
    intro fs
    induction fs with
    | nil =>
      intro s i h
      exact ⟨[.finish], { s with offering := none }, by simp [LogFilter.play, LogFilter.step, h], rfl, rfl, by simp⟩
    | cons f fs ih =>
      intro s i h
      obtain ⟨ops, s', h1, h2, h3, h4⟩ := ih { s.setChan f (send (s.chan f) i) with offering := some (i, fs) } i rfl
      refine ⟨.offer f :: ops, s', ?_, h2, h3, ?_⟩
      · simp [LogFilter.play, LogFilter.step, h]
        exact h1
      · intro o ho
        rcases List.mem_cons.mp ho with e | e
        · exact .inr (.inr ⟨f, e⟩)
        · exact h4 o e
  have idle : ∀ (q : List Item) (s : LogFilter.St), s.queue = q → s.offering = none →
      ∃ ops s', LogFilter.play s ops = some s' ∧ s'.queue = [] ∧ s'.offering = none ∧
        ∀ o ∈ ops, o = .take ∨ o = .finish ∨ ∃ f, o = .offer f := by
    intro q
    induction q with
    | nil => intro s h h'; exact ⟨[], s, rfl, h, h', by simp⟩
    | cons i q ih =>
      intro s h h'
      obtain ⟨o1, s1, a1, a2, a3, a4⟩ := one (s.filters.map (·.2))
        { s with queue := q, offering := some (i, s.filters.map (·.2)) } i rfl
      obtain ⟨o2, s2, b1, b2, b3, b4⟩ := ih s1 a2 a3
      refine ⟨.take :: (o1 ++ o2), s2, ?_, b2, b3, ?_⟩
      · simp only [LogFilter.play, LogFilter.step, h, h', Option.bind_some, log_play_append, a1, b1]
      · intro o ho
        rcases List.mem_cons.mp ho with e | e
        · exact .inl e
        · rcases List.mem_append.mp e with e | e
          · exact a4 o e
          · exact b4 o e
  cases h : s.offering with
  | none => exact idle s.queue s rfl h
  | some x =>
    obtain ⟨i, fs⟩ := x
    obtain ⟨o1, s1, a1, a2, a3, a4⟩ := one fs s i h
    obtain ⟨o2, s2, b1, b2, b3, b4⟩ := idle s1.queue s1 rfl a3
    refine ⟨o1 ++ o2, s2, by simp [log_play_append, a1, b1], b2, b3, ?_⟩
    intro o ho
    rcases List.mem_append.mp ho with e | e
    · exact a4 o e
    · exact b4 o e

/-- C85: no more than 5000 items wait to be offered, and no more wait for a filter than its channel has room for. -/
theorem filter_bounded {cap : Nat → Nat} {ops : List LogFilter.Op} {s : LogFilter.St}
    (h : LogFilter.play (LogFilter.init cap) ops = some s) :
    s.queue.length ≤ 5000 ∧ ∀ f, (s.chan f).queue.length ≤ cap f := by
  have key : ∀ (ops : List LogFilter.Op) (t : LogFilter.St), t.queue.length ≤ 5000 → (∀ f, ChanOk (t.chan f)) →
      (∀ f, (t.chan f).cap = cap f) → LogFilter.play t ops = some s →
      s.queue.length ≤ 5000 ∧ ∀ f, (s.chan f).queue.length ≤ cap f := by
    intro ops
    induction ops with
    | nil =>
      intro t h1 h2 h3 h4
      cases h4
      exact ⟨h1, fun f => h3 f ▸ (h2 f).2⟩
    | cons o os ih =>
      intro t h1 h2 h3 h4
      simp only [LogFilter.play, Option.bind_eq_some_iff] at h4
      obtain ⟨m, a, b⟩ := h4
      have capSend : ∀ (c : Chan) (i : Item), (send c i).cap = c.cap := by intro c i; unfold send; grind
      have capRecv : ∀ c : Chan, c.receive.cap = c.cap := by intro c; unfold Chan.receive; grind
      have hq : m.queue.length ≤ 5000 ∧ ∀ f, (m.chan f).cap = cap f := by
        have hroom : room = 5000 := rfl
        cases o <;> simp only [LogFilter.step, St.setChan] at a <;> (repeat' split at a) <;> cases a <;> grind
      exact ih m hq.1 (log_chanOk h2 a) hq.2 b
  exact key ops _ (by simp [LogFilter.init]) (fun f => by simp [LogFilter.init, ChanOk]) (fun f => rfl) h

/-! ## What an item says -/

/-- C85: the functions with a format give the formatted text; without arguments the format as it is. -/
theorem filter_format {α : Type} (lib : Lib α) (format : Bytes) (args : List α) (hf : format ≠ []) :
    (item lib .infof format args).content = (if args = [] then format else lib.sprintf format args) ∧
    (item lib .warningf format args).content = (if args = [] then format else lib.sprintf format args) ∧
    (item lib .errorf format args).content = (if args = [] then format else lib.sprintf format args) ∧
    (item lib .fatalf format args).content = (if args = [] then format else lib.sprintf format args) := by
  cases args <;> simp [item, content, Func.entry, hf]

/-- C85: the functions without one give the printed arguments, nothing if there are none; an access log entry is given as JSON. -/
theorem filter_print {α : Type} (lib : Lib α) (format : Bytes) (a : α) (args : List α) (f : Func)
    (hf : f = .infoln ∨ f = .warningln ∨ f = .errorln ∨ f = .fatalln ∨ f = .metricsLog) :
    (item lib f format (a :: args)).content = lib.sprint (a :: args) ∧ (item lib f format []).content = [] ∧
    (item lib .accessLog format [a]).content = lib.json a := by
  rcases hf with h | h | h | h | h <;> subst h <;> simp [item, content, Func.entry]

/-- C85: the level and the number of the entry point of each function; no level is left out. -/
theorem filter_levels {α : Type} (lib : Lib α) (format : Bytes) (args : List α) :
    [Func.infoln, .infof, .warningln, .warningf, .errorln, .errorf, .fatalln, .fatalf, .accessLog, .metricsLog].map
        (fun f => ((item lib f format args).level, (item lib f format args).entry)) =
      [(0, 0), (0, 1), (1, 2), (1, 3), (2, 4), (2, 5), (5, 6), (5, 7), (0, 8), (0, 9)] := rfl

/-- C85: an empty format is as good as none: the arguments are printed, not formatted. -/
theorem filter_empty_format {α : Type} (lib : Lib α) (a : α) (args : List α) :
    (item lib .infof [] (a :: args)).content = lib.sprint (a :: args) ∧ (item lib .infof [] []).content = [] := by
  simp [item, content, Func.entry]

/-! ## Cases -/

namespace LogCase

def a : Item := ⟨0, 0, b!"a"⟩
def b : Item := ⟨2, 4, b!"b"⟩
def c : Item := ⟨1, 2, b!"c"⟩

def caps : Nat → Nat := fun f => if f = 1 then 2 else 0

def pre : List LogFilter.Op := [.log a, .add b!"other" 2, .log b]
def post : List LogFilter.Op :=
  [.log c, .take, .offer 2, .offer 1, .finish, .take, .offer 1, .receive 1]

/-- What is seen of a state. -/
def view (s : LogFilter.St) : List Item × List Item × List Item × List Item × List Nat :=
  (s.queue, (s.chan 1).got, (s.chan 1).queue, (s.chan 2).got, (s.offering.map (·.2)).getD [])

theorem shown (s : LogFilter.St) (ops : List LogFilter.Op) (v : List Item × List Item × List Item × List Item × List Nat)
    (h : (LogFilter.play s ops).map view = some v) : ∃ s', LogFilter.play s ops = some s' ∧ view s' = v := by
  cases e : LogFilter.play s ops with
  | none => simp [e] at h
  | some s' => exact ⟨s', rfl, by simpa [e] using h⟩

/-- Filter 1 gets what waited when it came and what was logged after, though filter 2 is never read. -/
example : ∃ s, LogFilter.play (LogFilter.init caps) (pre ++ .add b!"mine" 1 :: post) = some s ∧
    view s = ([], [b], [c], [], [2]) := shown _ _ _ (by decide +kernel)

example : (∀ k, LogFilter.Op.add k 1 ∉ pre) ∧ (∀ k g, LogFilter.Op.add k g ∈ post → k ≠ b!"mine" ∧ g ≠ 1) := by
  constructor <;> simp [pre, post]

/-- Whether nothing is lost, by computation. -/
def roomy (f : Nat) : LogFilter.St → List LogFilter.Op → Bool
  | _, [] => true
  | s, o :: os =>
    (match o with
      | .log _ => decide (s.queue.length < 5000)
      | .offer g => decide (g ≠ f ∨ ((s.chan f).closed = false ∧
          (0 < (s.chan f).readers ∨ (s.chan f).queue.length < (s.chan f).cap)))
      | _ => true) &&
    (match LogFilter.step s o with
      | some s' => roomy f s' os
      | none => true)

theorem roomy_spec {f : Nat} {s : LogFilter.St} {ops : List LogFilter.Op} (h : roomy f s ops = true) : Spec.Roomy f s ops := by
  induction ops generalizing s with
  | nil => trivial
  | cons o os ih =>
    simp only [roomy, Bool.and_eq_true] at h
    refine ⟨?_, fun s' hs => ih (by simpa [hs] using h.2)⟩
    cases o with
    | log i => simpa [Spec.RoomAt] using h.1
    | offer g =>
      intro e
      rcases of_decide_eq_true h.1 with n | n
      · exact absurd e n
      · exact n
    | _ => trivial

/-- In the first case nothing is lost for filter 1, though filter 2 gets nothing. -/
example : ∃ s0, LogFilter.play (LogFilter.init caps) pre = some s0 ∧ s0.queue = [b] ∧
    Spec.Roomy 1 s0 (.add b!"mine" 1 :: post) :=
  ⟨_, rfl, rfl, roomy_spec (by decide +kernel)⟩

/-- A filter under two names gets everything twice. -/
example : ∃ s, LogFilter.play (LogFilter.init caps)
      [.add b!"x" 1, .add b!"y" 1, .log a, .take, .offer 1, .offer 1, .finish] = some s ∧
    view s = ([], [], [a, a], [], []) := shown _ _ _ (by decide +kernel)

/-- A filter that is replaced gets nothing more; a channel without room takes an item only when a reader waits. -/
example : ∃ s, LogFilter.play (LogFilter.init caps)
      [.add b!"x" 1, .log a, .take, .offer 1, .finish, .add b!"x" 2, .receive 2, .log b, .take, .offer 2, .finish, .log c, .take,
        .offer 2, .finish] = some s ∧
    view s = ([], [], [a], [b], []) := shown _ _ _ (by decide +kernel)

end LogCase

end Motan.Props
