import Verif.Proof.StreamCore

/-!
# The invariant of calls over a shared connection: second part
-/

namespace Motan.StreamProof
open Motan.Stream
variable {T C : Type} [DecidableEq T] [DecidableEq C]

structure InvB (s : St T C) (g : Nat → Stage T C) : Prop where
  core : Core s.objs s.pc s.msgs g
  sentOk : ∀ t, SentOk s.sent s.failed (s.pc t)
  log : ∀ k r, (k, some r) ∈ s.log → Good s.msgs k r
  unborn : ∀ o, g o = .unborn ↔ s.next ≤ o
  pooled : ∀ o, o ∈ s.pool ↔ g o = .pooled
  nodup : s.pool.Nodup
  listed : ∀ o t k, g o = .listed t k → s.table k.chan k.heartbeat k.sid = some o
  table : ∀ c hb i o, s.table c hb i = some o → ∃ k, s.issued i = some k ∧ k.chan = c ∧ k.heartbeat = hb ∧ k.obj = o ∧
    (s.failed i = true ∨ ∃ t, g o = .listed t k)
  failed : ∀ c i, s.failed i = true → s.sent c i = false

theorem invB {s : St T C} (h : Reach true s) : ∃ g, InvB s g := by
  induction h with
  | init =>
    refine ⟨fun _ => .unborn, ?_, ?_, ?_, ?_, ?_, ?_, ?_, ?_, ?_⟩
    · constructor <;> simp [init, objOf, Thr0, holds, Ob]
    all_goals simp [init, SentOk]
  | @step s t s' hr hs ih =>
    obtain ⟨g, ih⟩ := ih
    have ia := invA hr
    obtain ⟨core, sentOk, log, unborn, pooled, nodup, listed, table, failed⟩ := ih
    have own : ∀ p, s.pc t = p → ∀ o, objOf p = some o → Thr s.msgs (s.objs o) (g o) t p := by
      intro p h o ho; have := core.thr t o (by rw [h]; exact ho); rwa [h] at this
    have own0 : ∀ p, s.pc t = p → Thr0 s.msgs p := fun p h => by have := core.thr0 t; rwa [h] at this
    have ownS : ∀ p, s.pc t = p → SentOk s.sent s.failed p := fun p h => by have := sentOk t; rwa [h] at this
    have obj : ∀ p, s.pc t = p → objOf (s.pc t) = objOf p := fun p h => by rw [h]
    cases hs with
    | call c rid h0 =>
      exact ⟨g, core_none core t _ (by rw [h0]; rfl) rfl trivial, sentOk_upd sentOk t _ trivial, log, unborn, pooled, nodup,
        listed, table, failed⟩
    | callClosed h0 h1 =>
      exact ⟨g, core_none core t _ (by rw [h0]; rfl) rfl trivial, sentOk_upd sentOk t _ trivial, log, unborn, pooled, nodup,
        listed, table, failed⟩
    | @acquire c rid o h0 h1 h2 =>
      have hg := (pooled o).1 h2
      have hob := core.ob o
      rw [hg] at hob
      refine ⟨upd g o (.clean t), ?_, sentOk_upd sentOk t _ trivial, log, ?_, ?_, nodup.erase _, ?_, ?_, failed⟩
      · have := core_step core t (.fill c rid o) o (s.objs o) (.clean t) (.inl (by rw [h0]; rfl)) (.inr rfl)
          (fun _ => rfl) trivial (others_of_exclusive core (by rw [hg]; exact fun _ h => h.elim))
          (fun y hy => .inl ⟨hy, rfl⟩) hob
        rwa [upd_same] at this
      · grind [upd]
      · grind [upd, List.Nodup.mem_erase_iff]
      · grind [upd]
      · grind [upd]
    | @acquireNew c rid h0 h1 =>
      have hg := (unborn s.next).2 (Nat.le_refl _)
      refine ⟨upd g s.next (.clean t), ?_, sentOk_upd sentOk t _ trivial, log, ?_, ?_, nodup, ?_, ?_, failed⟩
      · exact core_step core t (.fill c rid s.next) s.next newObj (.clean t) (.inl (by rw [h0]; rfl)) (.inr rfl)
          (fun _ => rfl) trivial (others_of_exclusive core (by rw [hg]; exact fun _ h => h.elim))
          (fun y hy => .inl ⟨hy, rfl⟩) ⟨rfl, rfl⟩
      · grind [upd]
      · grind [upd]
      · grind [upd]
      · grind [upd]
    | @fill c rid o id h0 h1 =>
      have hg : g o = .clean t := own _ h0 o rfl
      have hob := core.ob o
      rw [hg] at hob
      have hs1 : ∀ c, s.sent c id = false := by
        intro c
        cases hc : s.sent c id with
        | false => rfl
        | true => obtain ⟨k, hk, _⟩ := ia.sent c id hc; rw [h1] at hk; cases hk
      have hf1 : s.failed id = false := by
        cases hc : s.failed id with
        | false => rfl
        | true => obtain ⟨k, hk⟩ := ia.failed id hc; rw [h1] at hk; cases hk
      refine ⟨upd g o (.priv t ⟨c, rid, o, id⟩), ?_, sentOk_upd sentOk t _ ⟨hs1 c, hf1⟩, log, ?_, ?_, nodup, ?_, ?_, failed⟩
      · refine core_step core t (.register _) o _ (.priv t ⟨c, rid, o, id⟩) (.inr (obj _ h0)) (.inr rfl)
          (fun _ => ⟨rfl, rfl⟩) trivial (others_of_exclusive core (by rw [hg]; exact fun _ h => h))
          (fun y hy => .inl ⟨hy, rfl⟩) ⟨hob.1, rfl, rfl, rfl, ?_, rfl⟩
        cases rid with
        | none => exact hob.2
        | some r => rfl
      · grind [upd]
      · grind [upd]
      · grind [upd]
      · grind [upd]
    | @register k h0 =>
      obtain ⟨hg, hcr⟩ := own _ h0 k.obj rfl
      have hob := core.ob k.obj
      rw [hg] at hob
      have hlive := ia.live t k (by rw [h0]; rfl)
      have hsent := ownS _ h0
      refine ⟨upd g k.obj (.listed t k), ?_, sentOk_upd sentOk t _ hsent, log, ?_, ?_, nodup, ?_, ?_, failed⟩
      · have := core_step core t (.send k) k.obj (s.objs k.obj) (.listed t k) (.inr (obj _ h0)) (.inr rfl)
          (fun _ => ⟨rfl, hcr⟩) trivial (others_of_exclusive core (by rw [hg]; exact fun _ h => h))
          (fun y hy => .inl ⟨hy, rfl⟩) hob
        rwa [upd_same] at this
      · grind [upd]
      · grind [upd]
      · intro o t' k' h
        simp only [upd] at h
        split at h
        · simp only [Stage.listed.injEq] at h
          obtain ⟨rfl, rfl⟩ := h
          simp [setTable, *]
        · rename_i ho
          have := listed o t' k' h
          simp only [setTable]
          rw [if_neg ?_]
          · exact this
          · rintro ⟨_, _, e3⟩
            have h2 := ia.live t' k' (listed_call core h)
            have h3 := ia.uniq t t' k k' (by rw [h0]; rfl) (listed_call core h) e3.symm
            subst h3
            have h4 := listed_call core h
            rw [h0] at h4
            cases h4
            have := core.link o t (by rw [h]; rfl)
            rw [h0] at this
            cases this
            exact ho rfl
      · intro c hb i o h
        simp only [setTable] at h
        split at h
        · rename_i he
          obtain ⟨rfl, rfl, rfl⟩ := he
          cases h
          exact ⟨k, hlive, rfl, rfl, rfl, .inr ⟨t, by simp [upd]⟩⟩
        · obtain ⟨k', e1, e2, e3, e4, e5⟩ := table c hb i o h
          refine ⟨k', e1, e2, e3, e4, ?_⟩
          rcases e5 with e5 | ⟨t', e5⟩
          · exact .inl e5
          · refine .inr ⟨t', ?_⟩
            simp only [upd]
            rw [if_neg ?_]
            · exact e5
            · rintro rfl; rw [hg] at e5; cases e5
    | @sendOk k h0 =>
      obtain ⟨hg, hcr⟩ := own _ h0 k.obj rfl
      have hlive := ia.live t k (by rw [h0]; rfl)
      have hmono : ∀ c i, s.sent c i = true → setSent s.sent k.chan k.sid c i = true := by
        intro c i h; simp only [setSent]; split
        · rfl
        · exact h
      refine ⟨g, core_pc core t (.recv k) k.obj (obj _ h0) rfl ⟨.inl hg, hcr⟩ trivial, ?_, log, unborn, pooled, nodup, listed,
        table, ?_⟩
      · intro y
        by_cases hy : y = t
        · subst hy; simp [upd, SentOk, setSent]
        · simp only [upd, if_neg hy]
          have h1 := sentOk y
          have huq := ia.uniq y t
          revert h1 huq
          rw [h0]
          cases s.pc y with
          | register k' | send k' =>
            intro h1 huq
            simp only [SentOk, setSent] at h1 ⊢
            rw [if_neg ?_]
            · exact h1
            · rintro ⟨_, h2⟩; exact hy (huq k' k rfl rfl h2)
          | recv k' | took k' | remove k' _ => intro h1 _; exact hmono _ _ h1
          | handle => intro h1 _; exact hmono _ _ h1
          | _ => exact fun h _ => h
      · intro c i h
        simp only [setSent]
        rw [if_neg ?_]
        · exact failed c i h
        · rintro ⟨rfl, rfl⟩
          have := (ownS _ h0).2
          rw [h] at this; cases this
    | @sendFail k h0 =>
      obtain ⟨hg, hcr⟩ := own _ h0 k.obj rfl
      have hob := core.ob k.obj
      rw [hg] at hob
      refine ⟨upd g k.obj (.priv t k), ?_, ?_, log, ?_, ?_, nodup, ?_, ?_, ?_⟩
      · have := core_step core t (.release k none) k.obj (s.objs k.obj) (.priv t k) (.inr (obj _ h0)) (.inr rfl)
          (fun _ => .inl ⟨rfl, hcr⟩) trivial (others_of_exclusive core (by rw [hg]; exact fun _ h => h))
          (fun y hy => .inl ⟨hy, rfl⟩) hob
        rwa [upd_same] at this
      · intro y
        by_cases hy : y = t
        · subst hy; simp [upd, SentOk]
        · simp only [upd, if_neg hy]
          have h1 := sentOk y
          have huq := ia.uniq y t
          revert h1 huq
          rw [h0]
          cases s.pc y with
          | register k' | send k' =>
            intro h1 huq
            simp only [SentOk, upd] at h1 ⊢
            rw [if_neg ?_]
            · exact h1
            · intro h2; exact hy (huq k' k rfl rfl h2)
          | _ => exact fun h _ => h
      · grind [upd]
      · grind [upd]
      · grind [upd]
      · intro c hb i o h
        obtain ⟨k', e1, e2, e3, e4, e5⟩ := table c hb i o h
        refine ⟨k', e1, e2, e3, e4, ?_⟩
        by_cases hi : i = k.sid
        · left; simp [upd, hi]
        · rcases e5 with e5 | ⟨t', e5⟩
          · left; simp [upd, hi, e5]
          · refine .inr ⟨t', ?_⟩
            simp only [upd]
            rw [if_neg ?_]
            · exact e5
            · rintro rfl
              rw [hg] at e5
              cases e5
              exact hi (ia.sid i _ e1).symm
      · intro c i h
        simp only [upd] at h
        split at h
        · rename_i hi
          subst hi
          cases hc : s.sent c k.sid with
          | false => rfl
          | true =>
            obtain ⟨k', hk, hc'⟩ := ia.sent c _ hc
            rw [ia.live t k (by rw [h0]; rfl)] at hk
            cases hk
            subst hc'
            have := (ownS _ h0).1
            rw [hc] at this; cases this
        · exact failed c i h
    | @recvToken k h0 h1 =>
      obtain ⟨hg, hcr⟩ := own _ h0 k.obj rfl
      have hob := core.ob k.obj
      have hg : g k.obj = .ready k (some t) := by
        rcases hg with hg | ⟨x, hg⟩ | hg
        · rw [hg] at hob; rw [hob.1] at h1; cases h1
        · rw [hg] at hob; rw [hob.1] at h1; cases h1
        · exact hg
      rw [hg] at hob
      obtain ⟨_, hown, hres⟩ := hob
      refine ⟨upd g k.obj (.priv t k), ?_, sentOk_upd sentOk t _ (by have := ownS _ h0; exact this), log, ?_, ?_, nodup, ?_, ?_, failed⟩
      · exact core_step core t (.took k) k.obj _ (.priv t k) (.inr (obj _ h0)) (.inr rfl)
          (fun _ => ⟨rfl, hcr, hres⟩) trivial (others_of_exclusive core (by rw [hg]; exact fun _ h => (Option.some.inj h).symm))
          (fun y hy => .inl ⟨hy, rfl⟩) ⟨rfl, hown⟩
      · grind [upd]
      · grind [upd]
      · grind [upd]
      · grind [upd]
    | @recvRes k h0 =>
      obtain ⟨hg, hcr, r, hr1, hr2⟩ := own _ h0 k.obj rfl
      rw [hr1]
      exact ⟨g, core_pc core t (.remove k (some r)) k.obj (obj _ h0) rfl ⟨hg, hcr⟩ hr2, sentOk_upd sentOk t _ (by have := ownS _ h0; exact this), log,
        unborn, pooled, nodup, listed, table, failed⟩
    | @recvGiveUp k h0 =>
      obtain ⟨hg, hcr⟩ := own _ h0 k.obj rfl
      have hob := core.ob k.obj
      refine ⟨g, ?_, sentOk_upd sentOk t _ (by have := ownS _ h0; exact this), log, unborn, pooled, nodup, listed, table, failed⟩
      have := core_step core t (.remove k none) k.obj { s.objs k.obj with canRelease := false } (g k.obj)
        (.inr (obj _ h0)) (.inr rfl) (fun _ => ⟨hg, rfl⟩) trivial ?_ ?_ ?_
      · rwa [upd_same] at this
      · intro y hy ho
        have ht := core.thr y k.obj ho
        rcases hg with hg | ⟨x, hg⟩ | hg
        · exact others_of_exclusive core (by rw [hg]; exact fun _ h => h) y hy ho
        · by_cases hyx : y = x
          · subst hyx
            rw [hg]
            exact noting_handler core hg (Ne.symm hy) ho { s.objs k.obj with canRelease := false } rfl _
          · have := (noting_other core hg hyx ho).1
            exact absurd (Option.some.inj this).symm hy
        · exact others_of_exclusive core (by rw [hg]; exact fun _ h => (Option.some.inj h).symm) y hy ho
      · intro y hh
        by_cases hy : y = t
        · exact .inl ⟨hy, rfl⟩
        · exact .inr ⟨hy, core.link _ _ hh⟩
      · revert hob
        cases g k.obj <;> exact id
    | @remove k r c h0 h1 h2 =>
      obtain ⟨o, ho⟩ := Option.isSome_iff_exists.1 h2
      have hlive := ia.live t k (by rw [h0]; rfl)
      have hsent : s.sent k.chan k.sid = true := ownS _ h0
      obtain ⟨k', e1, e2, e3, e4, e5⟩ := table _ _ _ _ ho
      have hob := core.ob k.obj
      have hstage : g k.obj = .priv t k ∨ g k.obj = .listed t k ∨ Handed (g k.obj) t k := by
        have := own _ h0 k.obj rfl
        cases r with
        | none => exact .inr this.1
        | some r => exact .inl this.1
      have hown : Own (s.objs k.obj) k k.obj := by
        rcases hstage with h | h | ⟨x, h⟩ | h <;> rw [h] at hob
        · exact hob.2
        · exact hob.2
        · exact hob.2.1
        · exact hob.2.1
      obtain ⟨w1, w2, w3, w4, w5⟩ := hown
      rw [w2] at e1 e5
      rw [hlive] at e1
      cases e1
      subst e4
      have hg : g k.obj = .listed t k := by
        rcases e5 with e5 | ⟨t', e5⟩
        · rw [failed _ _ e5] at hsent; cases hsent
        · have := ia.uniq t' t k k (listed_call core e5) (by rw [h0]; rfl) rfl
          rw [← this]; exact e5
      rw [h1] at w1
      cases w1
      rw [w2, w3]
      have hr : r = none := by
        have := own _ h0 k.obj rfl
        rw [hg] at this
        cases r with
        | none => rfl
        | some r => cases this.1
      subst hr
      rw [hg] at hob
      refine ⟨upd g k.obj (.priv t k), ?_, sentOk_upd sentOk t _ trivial, log, ?_, ?_, nodup, ?_, ?_, failed⟩
      · exact core_step core t (.release k none) k.obj { s.objs k.obj with canRelease := true } (.priv t k) (.inr (obj _ h0)) (.inr rfl)
          (fun _ => .inl ⟨rfl, rfl⟩) trivial (others_of_exclusive core (by rw [hg]; exact fun _ h => h))
          (fun y hy => .inl ⟨hy, rfl⟩) hob
      · grind [upd]
      · grind [upd]
      · intro o t' k' h
        simp only [upd] at h
        split at h
        · cases h
        · rename_i hne
          have hl := listed_call core h
          simp only [setTable]
          rw [if_neg ?_]
          · exact listed o t' k' h
          · rintro ⟨_, _, h3⟩
            have h4 := ia.uniq t' t k' k hl (by rw [h0]; rfl) h3
            subst h4
            have := core.link o t' (by rw [h]; rfl)
            rw [h0] at this
            exact hne (Option.some.inj this).symm
      · intro c hb i o h
        simp only [setTable] at h
        split at h
        · cases h
        · rename_i hne
          obtain ⟨k', e1, e2, e3, e4, e5⟩ := table c hb i o h
          refine ⟨k', e1, e2, e3, e4, ?_⟩
          rcases e5 with e5 | ⟨t', e5⟩
          · exact .inl e5
          · refine .inr ⟨t', ?_⟩
            simp only [upd]
            rw [if_neg ?_]
            · exact e5
            · rintro rfl
              rw [hg] at e5
              cases e5
              exact hne ⟨e2.symm, e3.symm, (ia.sid _ _ e1).symm⟩
    | @removeNot k r c h0 h1 h2 =>
      have ht := own _ h0 k.obj rfl
      have h00 := own0 _ h0
      have hob := core.ob k.obj
      refine ⟨g, ?_, sentOk_upd sentOk t _ trivial, log, unborn, pooled, nodup, listed, table, failed⟩
      refine core_pc core t (.release k r) k.obj (obj _ h0) rfl ?_ (by cases r <;> exact h00)
      cases r with
      | some r => exact .inl ⟨ht.1, ht.2⟩
      | none =>
        obtain ⟨hg | hg, hcr⟩ := ht
        · rw [hg] at hob
          obtain ⟨_, w1, w2, w3, w4, w5⟩ := hob
          rw [h1] at w1
          cases w1
          rw [w2, w3, listed _ _ _ hg] at h2
          cases h2
        · exact .inr ⟨hg, hcr, rfl⟩
    | @reset k r h0 h1 =>
      have ht := own _ h0 k.obj rfl
      have hg : g k.obj = .priv t k := by
        rcases ht with ⟨ht, _⟩ | ⟨_, ht, _⟩
        · exact ht
        · rw [h1] at ht; cases ht
      have h00 := own0 _ h0
      refine ⟨upd g k.obj (.clean t), ?_, sentOk_upd sentOk t _ trivial, log, ?_, ?_, nodup, ?_, ?_, failed⟩
      · exact core_step core t (.put k r) k.obj _ (.clean t) (.inr (obj _ h0)) (.inr rfl)
          (fun _ => rfl) (by cases r <;> exact h00) (others_of_exclusive core (by rw [hg]; exact fun _ h => h))
          (fun y hy => .inl ⟨hy, rfl⟩) ⟨rfl, rfl⟩
      · grind [upd]
      · grind [upd]
      · grind [upd]
      · grind [upd]
    | @keep k r h0 h1 =>
      have ht := own _ h0 k.obj rfl
      have h00 := own0 _ h0
      have hob := core.ob k.obj
      have hh : Handed (g k.obj) t k := by
        rcases ht with ⟨_, ht⟩ | ⟨ht, _⟩
        · rw [h1] at ht; cases ht
        · exact ht
      rcases hh with ⟨x, hg⟩ | hg
      · rw [hg] at hob
        have hxt : x ≠ t := by rintro rfl; exact hob.2.2 rfl
        refine ⟨upd g k.obj (.noting x k none), ?_, sentOk_upd sentOk t _ trivial, log, ?_, ?_, nodup, ?_, ?_, failed⟩
        · have := core_step core t (.ret k r) k.obj (s.objs k.obj) (.noting x k none) (.inr (obj _ h0)) (.inl rfl)
            (fun h => by cases h) (by cases r <;> exact h00) ?_ ?_ ⟨hob.1, hob.2.1, by simp⟩
          · rwa [upd_same] at this
          · intro y hy ho
            by_cases hyx : y = x
            · subst hyx; exact noting_handler core hg (Ne.symm hy) ho _ rfl _
            · have := (noting_other core hg hyx ho).1
              exact absurd (Option.some.inj this).symm hy
          · intro y hy
            rcases hy with hy | hy
            · subst hy
              exact .inr ⟨hxt, core.link _ _ (by rw [hg]; exact .inl rfl)⟩
            · cases hy
        · grind [upd]
        · grind [upd]
        · grind [upd]
        · grind [upd]
      · rw [hg] at hob
        refine ⟨upd g k.obj (.ready k none), ?_, sentOk_upd sentOk t _ trivial, log, ?_, ?_, nodup, ?_, ?_, failed⟩
        · have := core_step core t (.ret k r) k.obj (s.objs k.obj) (.ready k none) (.inr (obj _ h0)) (.inl rfl)
            (fun h => by cases h) (by cases r <;> exact h00)
            (others_of_exclusive core (by rw [hg]; exact fun _ h => (Option.some.inj h).symm)) (fun y h => by cases h) hob
          rwa [upd_same] at this
        · grind [upd]
        · grind [upd]
        · grind [upd]
        · grind [upd]
    | @put k r h0 =>
      have hg : g k.obj = .clean t := own _ h0 k.obj rfl
      have h00 := own0 _ h0
      have hob := core.ob k.obj
      rw [hg] at hob
      refine ⟨upd g k.obj .pooled, ?_, sentOk_upd sentOk t _ trivial, log, ?_, ?_, ?_, ?_, ?_, failed⟩
      · have := core_step core t (.ret k r) k.obj (s.objs k.obj) .pooled (.inr (obj _ h0)) (.inl rfl)
          (fun h => by cases h) (by cases r <;> exact h00) (others_of_exclusive core (by rw [hg]; exact fun _ h => h))
          (fun y h => h.elim) hob
        rwa [upd_same] at this
      · grind [upd]
      · grind [upd]
      · grind
      · grind [upd]
      · grind [upd]
    | @ret k r h0 =>
      have h00 := own0 _ h0
      refine ⟨g, core_none core t _ (by rw [h0]; rfl) rfl trivial, sentOk_upd sentOk t _ trivial, ?_, unborn, pooled, nodup,
        listed, table, failed⟩
      intro k' r' h
      rcases List.mem_cons.1 h with h | h
      · cases h; exact h00
      · exact log _ _ h
    | forget o h0 =>
      have hg := (pooled o).1 h0
      refine ⟨upd g o .gone, ?_, sentOk, log, ?_, ?_, nodup.erase _, ?_, ?_, failed⟩
      · refine ⟨?_, core.thr0, ?_, ?_⟩
        · intro y o' h
          simp only [upd]
          split
          · rename_i he
            subst he
            have := thr_holds (core.thr y _ h) h
            rw [hg] at this; exact this.elim
          · exact core.thr y o' h
        · intro o' y h
          simp only [upd] at h
          split at h
          · exact h.elim
          · exact core.link o' y h
        · intro o'
          simp only [upd]
          split
          · trivial
          · exact core.ob o'
      · grind [upd]
      · grind [upd, List.Nodup.mem_erase_iff]
      · grind [upd]
      · grind [upd]
    | close c => exact ⟨g, core, sentOk, log, unborn, pooled, nodup, listed, table, failed⟩
    | @receive c hb wid h0 h1 =>
      refine ⟨g, core_none (core_msgs core _) t _ (by rw [h0]; rfl) rfl (by simp [Thr0]), sentOk_upd sentOk t _ (h1 rfl),
        fun k r h => good_append _ (log k r h), unborn, pooled, nodup, listed, table, failed⟩
    | @handlePanic c m hb wid h0 =>
      exact ⟨g, core_none core t _ (by rw [h0]; rfl) rfl trivial, sentOk_upd sentOk t _ trivial, log, unborn, pooled, nodup,
        listed, table, failed⟩
    | @handleMiss c m hb wid h0 h1 =>
      exact ⟨g, core_none core t _ (by rw [h0]; rfl) rfl trivial, sentOk_upd sentOk t _ trivial, log, unborn, pooled, nodup,
        listed, table, failed⟩
    | @handleHit c m hb wid o h0 h1 =>
      have hm := own0 _ h0
      have hsent : s.sent c wid = true := ownS _ h0
      obtain ⟨k, e1, e2, e3, e4, e5⟩ := table _ _ _ _ h1
      have hsid := ia.sid _ _ e1
      obtain ⟨t', hg⟩ : ∃ t', g o = .listed t' k := by
        rcases e5 with e5 | e5
        · rw [failed _ _ e5] at hsent; cases hsent
        · exact e5
      have hob := core.ob o
      rw [hg] at hob
      have hpc := listed_pc core hg
      have hne : t' ≠ t := by rintro rfl; rw [h0] at hpc; rcases hpc with h | h | h <;> cases h
      have hthr := core.thr t' o (core.link _ _ (by rw [hg]; rfl))
      subst hsid e2 e3 e4
      refine ⟨upd g k.obj (.noting t k (some t')), ?_, sentOk_upd sentOk t _ trivial, log, ?_, ?_, nodup, ?_, ?_, failed⟩
      · have := core_step core t (.notify k.obj m k.sid) k.obj (s.objs k.obj) (.noting t k (some t')) (.inl (by rw [h0]; rfl)) (.inr rfl)
          (fun _ => ⟨k, some t', rfl, rfl, hm⟩) trivial ?_ ?_ ⟨hob.1, hob.2, by simpa using hne⟩
        · rwa [upd_same] at this
        · intro y hy ho
          have hh := thr_holds (core.thr y _ ho) ho
          rw [hg] at hh
          have hh : y = t' := hh
          subst hh
          rcases hpc with h | h | h
          · have := sentOk y
            rw [h] at this
            rw [this.1] at hsent; cases hsent
          · rw [h] at hthr ⊢
            exact ⟨.inr (.inl ⟨t, rfl⟩), hthr.2⟩
          · rw [h] at hthr ⊢
            exact ⟨.inr (.inl ⟨t, rfl⟩), hthr.2⟩
        · intro y hy
          rcases hy with hy | hy
          · exact .inl ⟨hy, rfl⟩
          · cases hy; exact .inr ⟨hne, core.link _ _ (by rw [hg]; rfl)⟩
      · grind [upd]
      · grind [upd]
      · intro o t'' k' h
        simp only [upd] at h
        split at h
        · cases h
        · rename_i hno
          have hl := listed_call core h
          simp only [setTable]
          rw [if_neg ?_]
          · exact listed o t'' k' h
          · rintro ⟨_, _, h3⟩
            have h4 := ia.uniq t'' t' k' k hl (listed_call core hg) h3
            subst h4
            have h5 := core.link o t'' (by rw [h]; rfl)
            have h6 := core.link k.obj t'' (by rw [hg]; rfl)
            rw [h5] at h6
            exact hno (Option.some.inj h6)
      · intro c hb i o h
        simp only [setTable] at h
        split at h
        · cases h
        · rename_i hne
          obtain ⟨k', e1, e2, e3, e4, e5⟩ := table c hb i o h
          refine ⟨k', e1, e2, e3, e4, ?_⟩
          rcases e5 with e5 | ⟨t'', e5⟩
          · exact .inl e5
          · refine .inr ⟨t'', ?_⟩
            simp only [upd]
            rw [if_neg ?_]
            · exact e5
            · rintro rfl
              rw [hg] at e5
              cases e5
              exact hne ⟨e2.symm, e3.symm, (ia.sid _ _ e1).symm⟩
    | @notify o m wid h0 h1 =>
      obtain ⟨k, ow, hg, hsid, hm⟩ := own _ h0 o rfl
      have hob := core.ob o
      rw [hg] at hob
      refine ⟨g, core_pc core t _ o (obj _ h0) rfl ⟨k, ow, hg, hm, ?_⟩ trivial, sentOk_upd sentOk t _ trivial, log, unborn,
        pooled, nodup, listed, table, failed⟩
      rw [hob.2.1.2.2.2.1, hsid]
    | @notifyPanic o m wid h0 h1 =>
      obtain ⟨k, ow, hg, hsid, hm⟩ := own _ h0 o rfl
      have hob := core.ob o
      rw [hg] at hob
      rw [hob.2.1.1] at h1; cases h1
    | @setRes o r h0 =>
      obtain ⟨k, ow, hg, hgood⟩ := own _ h0 o rfl
      have hob := core.ob o
      rw [hg] at hob
      refine ⟨g, ?_, sentOk_upd sentOk t _ trivial, log, unborn, pooled, nodup, listed, table, failed⟩
      have := core_step core t (.signal o) o { s.objs o with res := some r } (g o) (.inr (obj _ h0)) (.inr rfl)
        (fun _ => ⟨k, ow, r, hg, rfl, hgood⟩) trivial ?_ ?_ (by rw [hg]; exact hob)
      · rwa [upd_same] at this
      · intro y hy ho
        obtain ⟨h1, ⟨h2, h3⟩ | ⟨h2, h3⟩ | ⟨h2, h3⟩⟩ := noting_other core hg hy ho
        · rw [h2, hg, h1]; exact ⟨.inr (.inl ⟨t, rfl⟩), h3⟩
        · rw [h2, hg, h1]; exact ⟨.inr (.inl ⟨t, rfl⟩), h3⟩
        · rw [h2, hg, h1]; exact .inr ⟨.inl ⟨t, rfl⟩, h3, rfl⟩
      · intro y hh
        by_cases hy : y = t
        · exact .inl ⟨hy, rfl⟩
        · exact .inr ⟨hy, core.link _ _ hh⟩
    | @signal o h0 h1 =>
      obtain ⟨k, ow, r, hg, hres, hgood⟩ := own _ h0 o rfl
      have hob := core.ob o
      rw [hg] at hob
      have how : ow ≠ some t := hob.2.2
      refine ⟨upd g o (.ready k ow), ?_, sentOk_upd sentOk t _ trivial, log, ?_, ?_, nodup, ?_, ?_, failed⟩
      · refine core_step core t .idle o _ (.ready k ow) (.inr (obj _ h0)) (.inl rfl)
          (fun h => by cases h) trivial ?_ ?_ ⟨rfl, hob.2.1, r, hres, hgood⟩
        · intro y hy ho
          obtain ⟨h1, ⟨h2, h3⟩ | ⟨h2, h3⟩ | ⟨h2, h3⟩⟩ := noting_other core hg hy ho
          · rw [h2, h1]; exact ⟨.inr (.inr rfl), h3⟩
          · rw [h2, h1]; exact ⟨.inr (.inr rfl), h3⟩
          · rw [h2, h1]; exact .inr ⟨.inr rfl, h3, rfl⟩
        · intro y hh
          have hyt : y ≠ t := by rintro rfl; exact how hh
          exact .inr ⟨hyt, core.link _ _ (by rw [hg]; exact .inr hh)⟩
      · grind [upd]
      · grind [upd]
      · grind [upd]
      · grind [upd]

end Motan.StreamProof
