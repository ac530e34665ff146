import Verif.Model.Meta
import Verif.Props.Server
import Verif.Props.Params

/-!
# C90: the metadata of an endpoint is asked for, kept for a while, and never older than that
-/

namespace Motan.Props

open Motan.Meta Motan.Url Motan.Strings

namespace Spec

/-- The operations of a history with their times. -/
def metaTimed : Int → List Meta.Op → List (Int × Meta.Op)
  | _, [] => []
  | t, .wait d :: ops => metaTimed (t + d) ops
  | t, o :: ops => (t, o) :: metaTimed t ops

/-- The metadata an answer gives. An answer that is neither a map nor serialized counts as no metadata. -/
def Gives (a : Meta.Answer) (m : Meta.Map) : Prop := a = .map m ∨ a = .body (.ok m) ∨ (a = .other ∧ m = [])

/-- In the history, at time `t`, a question for the address `k` was answered with the metadata `m`. -/
def AnsweredAt (s : Meta.St) (ops : List Meta.Op) (k : Bytes) (m : Meta.Map) (t : Int) : Prop :=
  ∃ i a, (t, Meta.Op.answer i a) ∈ metaTimed 0 ops ∧ Gives a m ∧ (s.asks[i]?).map Prod.fst = some k

/-- In the history, at time `t`, a caller was told that the address `k` does not support this. -/
def RefusedAt (s : Meta.St) (k : Bytes) (t : Int) : Prop := (k, Meta.Result.notSupported, t) ∈ s.results

end Spec

theorem meta_play_snoc {x : Int} {s s' : Meta.St} {ops : List Meta.Op} {o : Meta.Op} :
    Meta.play x s (ops ++ [o]) = some s' ↔ ∃ m, Meta.play x s ops = some m ∧ Meta.step x m o = some s' := by
  induction ops generalizing s with
  | nil => simp [Meta.play]
  | cons a ops ih =>
    simp only [List.cons_append, Meta.play]
    cases Meta.step x s a with
    | none => simp
    | some m => simpa using ih

/-- How much time passes. -/
def elapsed : List Meta.Op → Int
  | [] => 0
  | .wait d :: ops => d + elapsed ops
  | _ :: ops => elapsed ops

theorem elapsed_nonneg (ops : List Meta.Op) : 0 ≤ elapsed ops := by
  induction ops with
  | nil => simp [elapsed]
  | cons o ops ih => cases o <;> simp only [elapsed] <;> omega

theorem timed_snoc (t : Int) (ops : List Meta.Op) (o : Meta.Op) :
    Spec.metaTimed t (ops ++ [o]) = Spec.metaTimed t ops ++ Spec.metaTimed (t + elapsed ops) [o] := by
  induction ops generalizing t with
  | nil => simp [Spec.metaTimed, elapsed]
  | cons a ops ih =>
    cases a with
    | wait d => simp only [List.cons_append, Spec.metaTimed, ih, elapsed, Int.add_assoc]
    | ask e => simp only [List.cons_append, Spec.metaTimed, ih, elapsed]
    | answer i a => simp only [List.cons_append, Spec.metaTimed, ih, elapsed]

theorem elapsed_snoc (ops : List Meta.Op) (o : Meta.Op) : elapsed (ops ++ [o]) = elapsed ops + elapsed [o] := by
  induction ops with
  | nil => simp [elapsed]
  | cons a ops ih => cases a <;> simp only [List.cons_append, elapsed, ih] <;> omega

theorem judge_got {a : Meta.Answer} {m : Meta.Map} : judge a = .got m ↔ Spec.Gives a m := by
  unfold Spec.Gives
  cases a with
  | exception msg => simp only [judge]; split <;> simp
  | body r => cases r <;> simp [judge]
  | map m' => simp [judge]
  | other => simp [judge, eq_comm]

structure MetaInv (x : Int) (ops : List Meta.Op) (s : Meta.St) : Prop where
  now : s.now = elapsed ops
  cache : ∀ k m e, AMap.load s.cache k = some (m, e) → Spec.AnsweredAt s ops k m (e - x) ∧ e - x ≤ s.now
  mark : ∀ k e, AMap.load s.unsupported k = some e → Spec.RefusedAt s k (e - markFor) ∧ e - markFor ≤ s.now
  given : ∀ k m t, (k, Meta.Result.got m, t) ∈ s.results →
    ∃ t', Spec.AnsweredAt s ops k m t' ∧ t' ≤ t ∧ t ≤ t' + x

theorem answeredAt_mono {s s' : Meta.St} {ops : List Meta.Op} {o : Meta.Op} {k : Bytes} {m : Meta.Map} {t : Int}
    (h : Spec.AnsweredAt s ops k m t)
    (hs : ∀ (i : Nat) (k : Bytes), (s.asks[i]?).map Prod.fst = some k → (s'.asks[i]?).map Prod.fst = some k) :
    Spec.AnsweredAt s' (ops ++ [o]) k m t := by
  obtain ⟨i, a, h1, h2, h3⟩ := h
  exact ⟨i, a, by rw [timed_snoc]; exact List.mem_append_left _ h1, h2, hs i k h3⟩

theorem metaInv {x : Int} (hx : 0 ≤ x) (ops : List Meta.Op) (s : Meta.St) (h : Meta.play x {} ops = some s) : MetaInv x ops s := by
  suffices H : ∀ rs : List Meta.Op, ∀ s, Meta.play x {} rs.reverse = some s → MetaInv x rs.reverse s by
    simpa using H ops.reverse s (by simpa using h)
  clear h ops s
  intro rs
  induction rs with
  | nil =>
    intro s h
    simp [Meta.play] at h
    subst h
    constructor <;> simp [elapsed]
  | cons o rs ih =>
    intro s' h
    rw [List.reverse_cons] at h ⊢
    generalize rs.reverse = ops at h ih
    obtain ⟨s, h1, h2⟩ := meta_play_snoc.mp h
    obtain ⟨hnow, hcache, hmark, hgiven⟩ := ih s h1
    have hn : ∀ o, elapsed (ops ++ [o]) = s.now + elapsed [o] := by intro o; rw [elapsed_snoc, hnow]
    cases o with
    | wait d =>
      cases h2
      have mono : ∀ {k m t}, Spec.AnsweredAt s ops k m t → Spec.AnsweredAt { s with now := s.now + d } (ops ++ [.wait d]) k m t :=
        fun h => answeredAt_mono h (fun _ _ h => h)
      refine ⟨by rw [hn]; simp [elapsed], ?_, ?_, ?_⟩
      · intro k m e he
        obtain ⟨a, b⟩ := hcache k m e he
        exact ⟨mono a, by show e - x ≤ s.now + d; omega⟩
      · intro k e he
        obtain ⟨a, b⟩ := hmark k e he
        exact ⟨a, by show e - markFor ≤ s.now + d; omega⟩
      · intro k m t ht
        obtain ⟨t', a, b⟩ := hgiven k m t ht
        exact ⟨t', mono a, b⟩
    | ask e =>
      have he0 : elapsed [Meta.Op.ask e] = 0 := rfl
      -- a result that is no metadata, with the mark of the address perhaps renewed
      have keep : ∀ (r : Meta.Result) (u : AMap Bytes Int), (∀ m, r ≠ .got m) →
          (∀ k v, AMap.load u k = some v → (AMap.load s.unsupported k = some v) ∨ (k = cacheKey e.url ∧ r = .notSupported ∧ v = s.now + markFor)) →
          MetaInv x (ops ++ [.ask e]) { s with unsupported := u, results := (cacheKey e.url, r, s.now) :: s.results } := by
        intro r u hr hu
        refine ⟨by rw [hn, he0]; simp, ?_, ?_, ?_⟩
        · intro k m e' he
          obtain ⟨a, b⟩ := hcache k m e' he
          exact ⟨answeredAt_mono a (fun _ _ h => h), b⟩
        · intro k e' he
          rcases hu k e' he with h | ⟨h1, h2, h3⟩
          · obtain ⟨a, b⟩ := hmark k e' h
            exact ⟨List.mem_cons_of_mem _ a, b⟩
          · subst h3
            refine ⟨?_, by show s.now + markFor - markFor ≤ s.now; omega⟩
            show (k, Meta.Result.notSupported, s.now + markFor - markFor) ∈ _ :: _
            rw [h1, h2, show s.now + markFor - markFor = s.now by omega]
            exact List.mem_cons_self ..
        · intro k m t ht
          rcases List.mem_cons.mp ht with h | h
          · exact absurd (by simpa using (congrArg (fun p => p.2.1) h).symm) (hr m)
          · obtain ⟨t', a, b⟩ := hgiven k m t h
            exact ⟨t', answeredAt_mono a (fun _ _ h => h), b⟩
      simp only [Meta.step] at h2
      split at h2
      · rename_i m hm
        cases h2
        have hfresh : ∃ e', AMap.load s.cache (cacheKey e.url) = some (m, e') ∧ s.now ≤ e' := by
          unfold fresh at hm
          split at hm
          · rename_i v e' hl
            split at hm
            · cases hm
            · rename_i hle; cases hm; exact ⟨e', hl, by omega⟩
          · cases hm
        obtain ⟨e', hl, hle⟩ := hfresh
        refine ⟨by rw [hn, he0]; simp, ?_, ?_, ?_⟩
        · intro k m e' he
          obtain ⟨a, b⟩ := hcache k m e' he
          exact ⟨answeredAt_mono a (fun _ _ h => h), b⟩
        · intro k e' he
          obtain ⟨a, b⟩ := hmark k e' he
          exact ⟨List.mem_cons_of_mem _ a, b⟩
        · intro k m' t ht
          rcases List.mem_cons.mp ht with h | h
          · cases h
            obtain ⟨a, b⟩ := hcache _ _ _ hl
            exact ⟨e' - x, answeredAt_mono a (fun _ _ h => h), b, by omega⟩
          · obtain ⟨t', a, b⟩ := hgiven k m' t h
            exact ⟨t', answeredAt_mono a (fun _ _ h => h), b⟩
      · split at h2
        · cases h2
          exact keep .notSupported s.unsupported (by simp) (fun k e h => .inl h)
        · split at h2
          · cases h2
            refine keep .notSupported _ (by simp) (fun k e' h => ?_)
            rw [AMap.load_store] at h
            split at h
            · rename_i ek; cases h; exact .inr ⟨ek.symm, rfl, rfl⟩
            · exact .inl h
          · split at h2
            · cases h2
              exact keep (.error _) s.unsupported (by simp) (fun k e h => .inl h)
            · cases h2
              have hs : ∀ (i : Nat) (k : Bytes), (s.asks[i]?).map Prod.fst = some k →
                  ((s.asks ++ [(cacheKey e.url, true)])[i]?).map Prod.fst = some k := by
                intro i k hi
                have hlt : i < s.asks.length := by
                  rcases Nat.lt_or_ge i s.asks.length with h | h
                  · exact h
                  · rw [List.getElem?_eq_none h] at hi; cases hi
                rw [List.getElem?_append_left hlt]; exact hi
              refine ⟨by rw [hn, he0]; simp, ?_, ?_, ?_⟩
              · intro k m e' he
                obtain ⟨a, b⟩ := hcache k m e' he
                exact ⟨answeredAt_mono a hs, b⟩
              · exact hmark
              · intro k m t ht
                obtain ⟨t', a, b⟩ := hgiven k m t ht
                exact ⟨t', answeredAt_mono a hs, b⟩
    | answer i a =>
      have he0 : elapsed [Meta.Op.answer i a] = 0 := rfl
      simp only [Meta.step] at h2
      split at h2
      · rename_i k hk
        have hlt : i < s.asks.length := (List.getElem?_eq_some_iff.mp hk).1
        have hs : ∀ (j : Nat) (k' : Bytes), (s.asks[j]?).map Prod.fst = some k' →
            ((s.asks.set i (k, false))[j]?).map Prod.fst = some k' := by
          intro j k' hj
          rw [List.getElem?_set]
          by_cases ej : i = j
          · subst ej
            rw [hk] at hj
            simpa [hlt] using hj
          · simpa [ej] using hj
        -- what the answer gave, as an event of the longer history
        have here : ∀ (s' : Meta.St) (m : Meta.Map), s'.asks = s.asks.set i (k, false) → judge a = .got m →
            Spec.AnsweredAt s' (ops ++ [.answer i a]) k m s.now := by
          intro s' m h1 h2
          refine ⟨i, a, ?_, judge_got.mp h2, ?_⟩
          · rw [timed_snoc, ← hnow]; simp [Spec.metaTimed]
          · rw [h1]; simp [hlt]
        have results : ∀ (s' : Meta.St), s'.asks = s.asks.set i (k, false) → s'.results = (k, judge a, s.now) :: s.results →
            ∀ k' m t, (k', Meta.Result.got m, t) ∈ s'.results →
              ∃ t', Spec.AnsweredAt s' (ops ++ [.answer i a]) k' m t' ∧ t' ≤ t ∧ t ≤ t' + x := by
          intro s' h1 h2 k' m t ht
          rw [h2] at ht
          rcases List.mem_cons.mp ht with h | h
          · simp only [Prod.mk.injEq] at h
            obtain ⟨rfl, h3, rfl⟩ := h
            exact ⟨s.now, here s' m h1 h3.symm, by omega, by omega⟩
          · obtain ⟨t', a', b⟩ := hgiven k' m t h
            exact ⟨t', answeredAt_mono a' (by rw [h1]; exact hs), b⟩
        split at h2
        · rename_i m hj
          cases h2
          refine ⟨by rw [hn, he0]; simp, ?_, ?_, results _ rfl (by simp [hj])⟩
          · intro k' m' e' he
            simp only [AMap.load_store] at he
            split at he
            · rename_i ek
              cases he
              subst ek
              refine ⟨?_, by show s.now + x - x ≤ s.now; omega⟩
              rw [show s.now + x - x = s.now by omega]
              exact here _ m rfl hj
            · obtain ⟨a', b⟩ := hcache k' m' e' he
              exact ⟨answeredAt_mono a' hs, b⟩
          · intro k' e' he
            obtain ⟨a', b⟩ := hmark k' e' he
            exact ⟨List.mem_cons_of_mem _ a', b⟩
        · rename_i hj
          cases h2
          refine ⟨by rw [hn, he0]; simp, ?_, ?_, results _ rfl (by simp [hj])⟩
          · intro k' m' e' he
            obtain ⟨a', b⟩ := hcache k' m' e' he
            exact ⟨answeredAt_mono a' hs, b⟩
          · intro k' e' he
            simp only [AMap.load_store] at he
            split at he
            · rename_i ek
              cases he
              subst ek
              refine ⟨?_, by show s.now + markFor - markFor ≤ s.now; omega⟩
              show (k, Meta.Result.notSupported, s.now + markFor - markFor) ∈ _ :: _
              rw [show s.now + markFor - markFor = s.now by omega, hj]
              exact List.mem_cons_self ..
            · obtain ⟨a', b⟩ := hmark k' e' he
              exact ⟨List.mem_cons_of_mem _ a', b⟩
        · rename_i hj
          cases h2
          refine ⟨by rw [hn, he0]; simp, ?_, ?_, results _ rfl (by simp [hj])⟩
          · intro k' m' e' he
            obtain ⟨a', b⟩ := hcache k' m' e' he
            exact ⟨answeredAt_mono a' hs, b⟩
          · intro k' e' he
            obtain ⟨a', b⟩ := hmark k' e' he
            exact ⟨List.mem_cons_of_mem _ a', b⟩
      · cases h2

theorem last_colon_inj {a b p q : Bytes} (hp : (58 : UInt8) ∉ p) (hq : (58 : UInt8) ∉ q) (h : a ++ 58 :: p = b ++ 58 :: q) :
    a = b ∧ p = q := by
  rcases List.append_eq_append_iff.mp h with ⟨t, h1, h2⟩ | ⟨t, h1, h2⟩
  · cases t with
    | nil => simp at h1 h2; exact ⟨h1.symm, h2⟩
    | cons x t =>
      simp only [List.cons_append, List.cons.injEq] at h2
      exact absurd (by rw [h2.2]; simp) hp
  · cases t with
    | nil => simp at h1 h2; exact ⟨h1, h2.symm⟩
    | cons x t =>
      simp only [List.cons_append, List.cons.injEq] at h2
      exact absurd (by rw [h2.2]; simp) hq

/-- **C90.** An address is a host and a port: endpoints share answers and marks exactly if they have both in common. -/
theorem meta_addresses {u v : URL} (hu : u.portStrC = none ∨ u.portStrC = some (formatInt u.port))
    (hv : v.portStrC = none ∨ v.portStrC = some (formatInt v.port)) (ru : -2 ^ 63 ≤ u.port ∧ u.port < 2 ^ 63)
    (rv : -2 ^ 63 ≤ v.port ∧ v.port < 2 ^ 63) : cacheKey u = cacheKey v ↔ u.host = v.host ∧ u.port = v.port := by
  have hcolon : (b!":" : Bytes) = [58] := by decide
  unfold cacheKey
  rw [getPortStr_fresh u hu, getPortStr_fresh v hv, hcolon]
  simp only [List.append_assoc, List.singleton_append]
  constructor
  · intro h
    obtain ⟨h1, h2⟩ := last_colon_inj (not_mem_formatInt _ (by decide) (by decide)) (not_mem_formatInt _ (by decide) (by decide)) h
    exact ⟨h1, formatInt_injective ru.1 ru.2 rv.1 rv.2 h2⟩
  · rintro ⟨h1, h2⟩
    rw [h1, h2]

/-- **C90.** Metadata is never made up and never older than the time for which answers are kept: whatever a caller gets for an
address, an endpoint at that address answered a question with it, at most that long before. -/
theorem meta_fresh {x : Int} (hx : 0 ≤ x) {ops : List Meta.Op} {s : Meta.St} (h : Meta.play x {} ops = some s)
    {k : Bytes} {m : Meta.Map} {t : Int} (hr : (k, Meta.Result.got m, t) ∈ s.results) :
    ∃ t', Spec.AnsweredAt s ops k m t' ∧ t' ≤ t ∧ t ≤ t' + x :=
  (metaInv hx ops s h).given k m t hr

theorem meta_play_append {x : Int} {s : Meta.St} {o1 o2 : List Meta.Op} :
    Meta.play x s (o1 ++ o2) = (Meta.play x s o1).bind fun m => Meta.play x m o2 := by
  induction o1 generalizing s with
  | nil => rfl
  | cons a o1 ih =>
    simp only [List.cons_append, Meta.play]
    cases Meta.step x s a with
    | none => rfl
    | some m => simpa using ih

/-- What an operation does to the caches. -/
theorem meta_step_caches {x : Int} {s s' : Meta.St} {o : Meta.Op} (h : Meta.step x s o = some s') (k : Bytes) :
    (AMap.load s'.cache k = AMap.load s.cache k ∨ ∃ m, AMap.load s'.cache k = some (m, s.now + x)) ∧
    (AMap.load s'.unsupported k = AMap.load s.unsupported k ∨ AMap.load s'.unsupported k = some (s.now + markFor)) ∧
    s'.now = s.now + elapsed [o] := by
  have store : ∀ {V : Type} (m : AMap Bytes V) (k' : Bytes) (v : V),
      AMap.load (AMap.store m k' v) k = AMap.load m k ∨ AMap.load (AMap.store m k' v) k = some v := by
    intro V m k' v
    rw [AMap.load_store]
    split
    · exact .inr rfl
    · exact .inl rfl
  cases o with
  | wait d => cases h; exact ⟨.inl rfl, .inl rfl, by simp [elapsed]⟩
  | ask e =>
    simp only [Meta.step] at h
    (repeat' split at h) <;> cases h
    · exact ⟨.inl rfl, .inl rfl, by simp [elapsed]⟩
    · exact ⟨.inl rfl, .inl rfl, by simp [elapsed]⟩
    · exact ⟨.inl rfl, store _ _ _, by simp [elapsed]⟩
    · exact ⟨.inl rfl, .inl rfl, by simp [elapsed]⟩
    · exact ⟨.inl rfl, .inl rfl, by simp [elapsed]⟩
  | answer i a =>
    simp only [Meta.step] at h
    split at h
    · split at h <;> cases h
      · refine ⟨?_, .inl rfl, by simp [elapsed]⟩
        rcases store s.cache _ (_, s.now + x) with h | h
        · exact .inl h
        · exact .inr ⟨_, h⟩
      · exact ⟨.inl rfl, store _ _ _, by simp [elapsed]⟩
      · exact ⟨.inl rfl, .inl rfl, by simp [elapsed]⟩
    · cases h

theorem elapsed_cons (o : Meta.Op) (ops : List Meta.Op) : elapsed (o :: ops) = elapsed [o] + elapsed ops := by
  cases o <;> simp [elapsed]

/-- What is kept stays kept until it is replaced by what is kept longer. -/
theorem meta_lasts {x : Int} {ops : List Meta.Op} {s s' : Meta.St} (h : Meta.play x s ops = some s') (k : Bytes) :
    (∀ t0, t0 ≤ s.now → (∃ m e, AMap.load s.cache k = some (m, e) ∧ t0 + x ≤ e) → ∃ m e, AMap.load s'.cache k = some (m, e) ∧ t0 + x ≤ e) ∧
    (∀ t0, t0 ≤ s.now → (∃ e, AMap.load s.unsupported k = some e ∧ t0 + markFor ≤ e) →
      ∃ e, AMap.load s'.unsupported k = some e ∧ t0 + markFor ≤ e) ∧
    s'.now = s.now + elapsed ops := by
  induction ops generalizing s with
  | nil => cases h; exact ⟨fun _ _ h => h, fun _ _ h => h, by simp [elapsed]⟩
  | cons o ops ih =>
    simp only [Meta.play] at h
    cases hs : Meta.step x s o with
    | none => rw [hs] at h; cases h
    | some s1 =>
      rw [hs] at h
      obtain ⟨h1, h2, h3⟩ := ih h
      obtain ⟨c1, c2, c3⟩ := meta_step_caches hs k
      have hn := elapsed_nonneg [o]
      refine ⟨?_, ?_, by rw [h3, c3, elapsed_cons o ops]; omega⟩
      · rintro t0 ht ⟨m, e, hl, he⟩
        refine h1 t0 (by omega) ?_
        rcases c1 with c | ⟨m', c⟩
        · exact ⟨m, e, by rw [c, hl], he⟩
        · exact ⟨m', _, c, by omega⟩
      · rintro t0 ht ⟨e, hl, he⟩
        refine h2 t0 (by omega) ?_
        rcases c2 with c | c
        · exact ⟨e, by rw [c, hl], he⟩
        · exact ⟨_, c, by omega⟩

/-- **C90.** An endpoint that answered with its metadata is left alone for as long as answers are kept: until then every caller
gets metadata at once, none of it older than that answer, and nothing is asked. -/
theorem meta_not_asked {x : Int} (hx : 0 ≤ x) {before between : List Meta.Op} {i : Nat} {a : Meta.Answer} {m : Meta.Map} {e : Ep}
    {s s' : Meta.St} (h : Meta.play x {} (before ++ .answer i a :: between) = some s) (ha : Spec.Gives a m)
    (hk : (s.asks[i]?).map Prod.fst = some (cacheKey e.url)) (ht : elapsed between ≤ x) (hs : Meta.step x s (.ask e) = some s') :
    s'.asks = s.asks ∧ ∃ m' t', s'.results = (cacheKey e.url, .got m', s.now) :: s.results ∧
      Spec.AnsweredAt s (before ++ .answer i a :: between) (cacheKey e.url) m' t' ∧ elapsed before ≤ t' := by
  have hinv := metaInv hx _ _ h
  rw [meta_play_append] at h
  cases hb : Meta.play x {} before with
  | none => rw [hb] at h; cases h
  | some s0 =>
    rw [hb] at h
    simp only [Option.bind_some, Meta.play] at h
    cases h0 : Meta.step x s0 (.answer i a) with
    | none => rw [h0] at h; cases h
    | some s1 =>
      rw [h0] at h
      simp only [Option.bind_some] at h
      have hn0 := (metaInv hx _ _ hb).now
      -- the question was for this address, and its answer is kept
      have hkey : ∀ (ops : List Meta.Op) (s1 s : Meta.St), Meta.play x s1 ops = some s → ∀ k, (s1.asks[i]?).map Prod.fst = some k →
          (s.asks[i]?).map Prod.fst = some k := by
        intro ops
        induction ops with
        | nil => intro s1 s h k hk; cases h; exact hk
        | cons o ops ih =>
          intro s1 s h k hk
          simp only [Meta.play] at h
          cases ho : Meta.step x s1 o with
          | none => rw [ho] at h; cases h
          | some s2 =>
            rw [ho] at h
            refine ih s2 s h k ?_
            have hlt : i < s1.asks.length := by
              rcases Nat.lt_or_ge i s1.asks.length with h | h
              · exact h
              · rw [List.getElem?_eq_none h] at hk; cases hk
            cases o with
            | wait d => cases ho; exact hk
            | ask e =>
              simp only [Meta.step] at ho
              (repeat' split at ho) <;> cases ho
              · exact hk
              · exact hk
              · exact hk
              · exact hk
              · show ((s1.asks ++ [_])[i]?).map Prod.fst = some k
                rw [List.getElem?_append_left hlt]; exact hk
            | answer j b =>
              simp only [Meta.step] at ho
              split at ho
              · rename_i k' hj
                have : ∀ s2 : Meta.St, s2.asks = s1.asks.set j (k', false) → (s2.asks[i]?).map Prod.fst = some k := by
                  intro s2 e2
                  rw [e2, List.getElem?_set]
                  by_cases ej : j = i
                  · subst ej; rw [hj] at hk; simpa [hlt] using hk
                  · simpa [ej] using hk
                split at ho <;> (cases ho; exact this _ rfl)
              · cases ho
      have hcached : ∃ e', AMap.load s1.cache (cacheKey e.url) = some (m, e') ∧ elapsed before + x ≤ e' := by
        simp only [Meta.step] at h0
        split at h0
        · rename_i k hq
          have hlt : i < s0.asks.length := (List.getElem?_eq_some_iff.mp hq).1
          have e1 : s1.asks = s0.asks.set i (k, false) := by split at h0 <;> (cases h0; rfl)
          have := hkey between s1 s h k (by rw [e1]; simp [hlt])
          rw [hk] at this
          cases this
          rw [judge_got.mpr ha] at h0
          cases h0
          exact ⟨s0.now + x, by simp, by omega⟩
        · cases h0
      obtain ⟨e', hl, hle⟩ := hcached
      have hn1 : s1.now = elapsed before := by rw [(meta_step_caches h0 []).2.2, hn0]; simp [elapsed]
      obtain ⟨k1, -, k3⟩ := meta_lasts h (cacheKey e.url)
      obtain ⟨m', e2, hl2, hle2⟩ := k1 (elapsed before) (by omega) ⟨m, e', hl, hle⟩
      have hf : fresh s.cache (cacheKey e.url) s.now = some m' := by
        unfold fresh
        rw [hl2]
        exact if_neg (by omega)
      simp only [Meta.step, hf] at hs
      cases hs
      exact ⟨rfl, m', e2 - x, rfl, (hinv.cache _ _ _ hl2).1, by omega⟩

/-- **C90.** An endpoint that said it has no such service is not asked again for 30 seconds, nor is any other at its address. -/
theorem meta_marked {x : Int} (hx : 0 ≤ x) {before between : List Meta.Op} {i : Nat} {e : Ep} {s0 s s' : Meta.St}
    (h0 : Meta.play x {} before = some s0) (hk : s0.asks[i]? = some (cacheKey e.url, true))
    (h : Meta.play x s0 (.answer i (.exception b!"service not support") :: between) = some s)
    (ht : elapsed between ≤ 30 * 1000000000) (hs : Meta.step x s (.ask e) = some s') : s'.asks = s.asks := by
  simp only [Meta.play, Meta.step, hk] at h
  have hj : judge (.exception b!"service not support") = .notSupported := by decide +kernel
  rw [hj] at h
  simp only [Option.bind_some] at h
  obtain ⟨-, k2, k3⟩ := meta_lasts h (cacheKey e.url)
  obtain ⟨e', hl, hle⟩ := k2 s0.now (Int.le_refl _) ⟨s0.now + markFor, by simp, Int.le_refl _⟩
  have hm : markFor = 30 * 1000000000 := rfl
  have hmk : marked s (cacheKey e.url) = true := by
    unfold marked
    rw [hl]
    simp only [k3]
    simp
    omega
  simp only [Meta.step, hmk] at hs
  split at hs
  · cases hs; rfl
  · simp at hs
    cases hs; rfl

/-- **C90.** Nothing else keeps an endpoint from being asked: errors are not remembered. -/
theorem meta_asks_again {x : Int} (hx : 0 ≤ x) {ops : List Meta.Op} {s : Meta.St} (h : Meta.play x {} ops = some s) {e : Ep}
    (hsup : supports e.url = true) (hav : e.available = true)
    (hold : ∀ m t, Spec.AnsweredAt s ops (cacheKey e.url) m t → t + x < s.now)
    (hno : ∀ t, Spec.RefusedAt s (cacheKey e.url) t → t + 30 * 1000000000 < s.now) :
    Meta.step x s (.ask e) = some { s with asks := s.asks ++ [(cacheKey e.url, true)] } := by
  have hinv := metaInv hx _ _ h
  have hf : fresh s.cache (cacheKey e.url) s.now = none := by
    unfold fresh
    cases hl : AMap.load s.cache (cacheKey e.url) with
    | none => rfl
    | some p =>
      obtain ⟨m, e'⟩ := p
      have := hold _ _ (hinv.cache _ _ _ hl).1
      exact if_pos (by omega)
  have hm : marked s (cacheKey e.url) = false := by
    unfold marked
    cases hl : AMap.load s.unsupported (cacheKey e.url) with
    | none => rfl
    | some e' =>
      have := hno _ (hinv.mark _ _ hl).1
      have hmf : markFor = 30 * 1000000000 := rfl
      simp
      omega
  simp [Meta.step, hf, hm, hsup, hav]

/-- **C90.** Which endpoints are asked at all: the motan2 ones whose URL does not turn the question off and does not use a
protobuf serialization. -/
theorem meta_supports (u : URL) : supports u = true ↔
    u.protocol = b!"motan2" ∧
    ¬ (∃ v, u.param b!"dynamicMeta" = some v ∧ v ∈ [b!"0", b!"f", b!"F", b!"FALSE", b!"false", b!"False"]) ∧
    ∀ v, u.param b!"serialization" = some v → v ≠ b!"protobuf" ∧ v ≠ b!"grpc-pb" ∧ v ≠ b!"grpc-pb-json" := by
  unfold supports
  have h1 : getBoolValue u b!"dynamicMeta" true = true ↔
      ¬ (∃ v, u.param b!"dynamicMeta" = some v ∧ v ∈ [b!"0", b!"f", b!"F", b!"FALSE", b!"false", b!"False"]) := by
    unfold getBoolValue
    cases u.param b!"dynamicMeta" with
    | none => simp
    | some v =>
      simp only [Option.bind_some, Url.parseBool, Option.some.injEq, exists_eq_left']
      by_cases ht : v ∈ [b!"1", b!"t", b!"T", b!"TRUE", b!"true", b!"True"]
      · rw [if_pos ht]
        simp only [Option.getD_some, true_iff]
        simp only [List.mem_cons, List.not_mem_nil, or_false] at ht
        rcases ht with rfl | rfl | rfl | rfl | rfl | rfl <;> decide +kernel
      · rw [if_neg ht]
        split
        · rename_i hf; simp only [Option.getD_some, hf]; simp
        · rename_i hf; simp [hf]
  have h2 : getStringParamsWithDefault u b!"serialization" [] = (u.param b!"serialization").getD [] := by
    unfold getStringParamsWithDefault
    simp only
    split
    · rename_i h; exact h.symm
    · rfl
  rw [Bool.and_eq_true, Bool.and_eq_true, h1, h2]
  constructor
  · rintro ⟨⟨a, b⟩, c⟩
    refine ⟨of_decide_eq_true c, a, fun v hv => ?_⟩
    rw [hv] at b
    simpa using b
  · rintro ⟨c, a, b⟩
    refine ⟨⟨a, ?_⟩, decide_eq_true c⟩
    cases hv : u.param b!"serialization" with
    | none => decide +kernel
    | some v => simpa using b v hv

/-- **C90.** A question is only put to an available endpoint whose URL supports it. -/
theorem meta_asked_only {x : Int} {s s' : Meta.St} {e : Ep} (h : Meta.step x s (.ask e) = some s') (hne : s'.asks ≠ s.asks) :
    supports e.url = true ∧ e.available = true ∧ s'.asks = s.asks ++ [(cacheKey e.url, true)] ∧ s'.results = s.results := by
  simp only [Meta.step] at h
  (repeat' split at h) <;> cases h
  · exact absurd rfl hne
  · exact absurd rfl hne
  · exact absurd rfl hne
  · exact absurd rfl hne
  · rename_i h1 h2
    exact ⟨by simpa using h1, by simpa using h2, rfl, rfl⟩

theorem judge_notSupported {a : Meta.Answer} : judge a = .notSupported ↔ a = .exception b!"service not support" := by
  cases a with
  | exception msg =>
    rw [judge]
    by_cases h : msg = Server.serviceNotSupport
    · rw [if_pos h, h]; exact ⟨fun _ => rfl, fun _ => rfl⟩
    · rw [if_neg h]; exact ⟨fun e => (by cases e), fun e => absurd (by cases e; rfl) h⟩
  | body r => cases r <;> simp [judge]
  | map m => simp [judge]
  | other => simp [judge]

theorem judge_error {a : Meta.Answer} {msg : Bytes} :
    judge a = .error msg ↔ (a = .exception msg ∧ msg ≠ b!"service not support") ∨ a = .body (.error msg) := by
  cases a with
  | exception m =>
    rw [judge]
    by_cases h : m = Server.serviceNotSupport
    · rw [if_pos h]
      refine ⟨fun e => (by cases e), ?_⟩
      rintro (⟨e, h'⟩ | e)
      · cases e; exact absurd h h'
      · cases e
    · rw [if_neg h]
      refine ⟨fun e => (by cases e; exact .inl ⟨rfl, h⟩), ?_⟩
      rintro (⟨e, -⟩ | e)
      · cases e; rfl
      · cases e
  | body r => cases r <;> simp [judge]
  | map m => simp [judge]
  | other => simp [judge]

/-- **C90.** What the caller whose question was answered gets. -/
theorem meta_answered {x : Int} {s s' : Meta.St} {i : Nat} {a : Meta.Answer} (h : Meta.step x s (.answer i a) = some s') :
    ∃ k r, s.asks[i]? = some (k, true) ∧ s'.results = (k, r, s.now) :: s.results ∧
      (∀ m, r = .got m ↔ Spec.Gives a m) ∧ (r = .notSupported ↔ a = .exception b!"service not support") ∧
      (∀ msg, r = .error msg ↔ (a = .exception msg ∧ msg ≠ b!"service not support") ∨ a = .body (.error msg)) := by
  simp only [Meta.step] at h
  split at h
  · rename_i k hk
    refine ⟨k, judge a, hk, by split at h <;> cases h <;> simp_all, fun m => judge_got, ?_, ?_⟩
    · exact judge_notSupported
    · exact fun msg => judge_error
  · cases h

/-! ## What a process answers -/

/-- **C90.** The two ends fit: a server without a metadata service answers the question with the very message that marks its
address, and one with it answers with the dynamic metadata as it is at that moment. -/
theorem meta_server_end (h : Server.Handler) (req : Convert.Request) (hf : req.attachment.load b!"M_fws" = some b!"y") :
    (h.framework.load req.service = none → ∀ out, out = Server.defaultCall h req ∨ out = Server.agentCall h req →
      ∃ res e, out = some res ∧ res.r.exception = some e ∧ judge (.exception e.errMsg) = .notSupported) ∧
    ∀ (ser : Meta.Map → Option Bytes) (m : Meta.Map) (b : Bytes), provide ser false m = .ok b ↔ ser m = some b := by
  have hf' : (req.attachment.load b!"M_fws").getD [] ≠ [] := by rw [hf]; decide
  refine ⟨?_, ?_⟩
  · intro hn out ho
    obtain ⟨-, -, h3⟩ := framework_requests_separate h [] req hf'
    obtain ⟨r, h4, h5, h6⟩ := h3 hn out ho
    exact ⟨r, _, h4, h6, by decide +kernel⟩
  · intro ser m b
    simp only [provide]
    cases ser m <;> simp

/-! ## The environment -/

namespace Spec

/-- The last value a list of pairs has for a key. -/
def lastValue (ps : List (Bytes × Bytes)) (k : Bytes) : Option Bytes := (ps.reverse.find? (·.1 = k)).map (·.2)

end Spec

theorem lastValue_snoc (ps : List (Bytes × Bytes)) (p : Bytes × Bytes) (k : Bytes) :
    Spec.lastValue (ps ++ [p]) k = if p.1 = k then some p.2 else Spec.lastValue ps k := by
  unfold Spec.lastValue
  rw [List.reverse_append]
  simp only [List.reverse_cons, List.reverse_nil, List.nil_append, List.singleton_append, List.find?_cons]
  split
  · rename_i h; rw [if_pos (by simpa using h)]; rfl
  · rename_i h; rw [if_neg (by simpa using h)]

theorem envMeta_snoc (pre : Bytes) (m : Meta.Map) (es : List Bytes) (e : Bytes) :
    envMeta pre m (es ++ [e]) = (envMeta pre m es).bind fun m => addEnv pre m e := by
  induction es generalizing m with
  | nil => simp only [List.nil_append, envMeta, Option.bind_some]; cases addEnv pre m e <;> rfl
  | cons a es ih =>
    simp only [List.cons_append, envMeta]
    cases addEnv pre m a with
    | none => rfl
    | some m1 => simpa using ih m1

theorem isPrefixOf_before {pre k v : Bytes} (hp : (61 : UInt8) ∉ pre) : pre.isPrefixOf (k ++ (61 :: v)) = pre.isPrefixOf k := by
  induction k generalizing pre with
  | nil =>
    cases pre with
    | nil => rfl
    | cons c pre =>
      simp only [List.mem_cons, not_or] at hp
      simp [List.isPrefixOf, Ne.symm hp.1]
  | cons a k ih =>
    cases pre with
    | nil => rfl
    | cons c pre =>
      simp only [List.mem_cons, not_or] at hp
      simp only [List.cons_append, List.isPrefixOf, ih hp.2]

/-- **C90.** The environment metadata is exactly the variables whose names begin with the prefix, with their values, for all
environments in which no name and no value has an equals sign in it. -/
theorem env_meta {pre : Bytes} (hp : (61 : UInt8) ∉ pre) (vars : List (Bytes × Bytes))
    (h : ∀ p ∈ vars, (61 : UInt8) ∉ p.1 ∧ (61 : UInt8) ∉ p.2) :
    ∃ m, envMeta pre [] (vars.map fun p => p.1 ++ b!"=" ++ p.2) = some m ∧
      ∀ k, AMap.load m k = if pre <+: k then Spec.lastValue vars k else none := by
  suffices H : ∀ rs : List (Bytes × Bytes), (∀ p ∈ rs, (61 : UInt8) ∉ p.1 ∧ (61 : UInt8) ∉ p.2) →
      ∃ m, envMeta pre [] (rs.reverse.map fun p => p.1 ++ b!"=" ++ p.2) = some m ∧
        ∀ k, AMap.load m k = if pre.isPrefixOf k then Spec.lastValue rs.reverse k else none by
    obtain ⟨m, h1, h2⟩ := H vars.reverse (by simpa using h)
    rw [List.reverse_reverse] at h1 h2
    refine ⟨m, h1, fun k => ?_⟩
    rw [h2 k]
    have : (pre.isPrefixOf k = true) ↔ pre <+: k := List.isPrefixOf_iff_prefix
    by_cases hk : pre.isPrefixOf k = true
    · rw [if_pos hk, if_pos (this.mp hk)]
    · rw [if_neg hk, if_neg (fun h => hk (this.mpr h))]
  intro rs
  induction rs with
  | nil => intro _; exact ⟨[], rfl, fun k => by simp [Spec.lastValue]⟩
  | cons p rs ih =>
    intro hr
    obtain ⟨m, h1, h2⟩ := ih (fun q hq => hr q (List.mem_cons_of_mem _ hq))
    obtain ⟨hk, hv⟩ := hr p (List.mem_cons_self ..)
    have hsplit : split b!"=" (p.1 ++ b!"=" ++ p.2) = [p.1, p.2] := by
      have e : b!"=" = [(61 : UInt8)] := by decide
      rw [e, split_cons hk, split_single hv]
    have hpre : hasPrefix (p.1 ++ b!"=" ++ p.2) pre = pre.isPrefixOf p.1 := by
      have e : b!"=" = [(61 : UInt8)] := by decide
      rw [hasPrefix, e, List.append_assoc]
      exact isPrefixOf_before hp
    rw [List.reverse_cons, List.map_append, List.map_cons, List.map_nil, envMeta_snoc, h1, Option.bind_some, addEnv, hpre, hsplit]
    by_cases hq : pre.isPrefixOf p.1 = true
    · rw [if_pos hq]
      refine ⟨_, rfl, fun k => ?_⟩
      rw [AMap.load_store, lastValue_snoc, h2 k]
      by_cases ek : p.1 = k
      · subst ek; simp [hq]
      · rw [if_neg ek, if_neg ek]
    · rw [if_neg hq]
      refine ⟨m, rfl, fun k => ?_⟩
      rw [h2 k, lastValue_snoc]
      by_cases ek : p.1 = k
      · subst ek; simp [hq]
      · simp [ek]

/-- **C90 does not hold of values with an equals sign.** The value of such a variable is cut at the sign; and an entry with the
prefix but without the sign ends the process. -/
theorem env_value_cut_violated (pre n v w : Bytes) (hn : (61 : UInt8) ∉ pre ++ n) (hv : (61 : UInt8) ∉ v) :
    envMeta pre [] [pre ++ n ++ b!"=" ++ (v ++ b!"=" ++ w)] = some [(pre ++ n, v)] ∧ envMeta pre [] [pre ++ n] = none := by
  have e : b!"=" = [(61 : UInt8)] := by decide
  have hp : (61 : UInt8) ∉ pre := fun h => hn (List.mem_append_left _ h)
  have h1 : pre.isPrefixOf (pre ++ n) = true := List.isPrefixOf_iff_prefix.mpr ⟨n, rfl⟩
  constructor
  · simp only [envMeta, addEnv]
    rw [e, split_cons hn, split_cons hv, List.append_assoc (pre ++ n)]
    have : hasPrefix ((pre ++ n) ++ ([(61 : UInt8)] ++ (v ++ [61] ++ w))) pre = true := by
      rw [hasPrefix, List.singleton_append, isPrefixOf_before hp]; exact h1
    rw [if_pos this]
    rfl
  · simp only [envMeta, addEnv, hasPrefix, h1, if_true]
    rw [e, split_single hn]
    rfl

example : envMeta b!"META_" [] [b!"HOME=/root", b!"META_WEIGHT=12", b!"META_IDC=yf"] =
    some [(b!"META_WEIGHT", b!"12"), (b!"META_IDC", b!"yf")] := by decide +kernel

/-- **C90.** How long answers are kept: a positive number of seconds, the one in the configuration if it is a text naming one,
3 if there is none. -/
theorem meta_expire (conf : Option (AMap Bytes ConfUrl.Val)) :
    0 < expireSeconds conf ∧
    (∀ c (n : Int), conf = some c → AMap.load c b!"metaCacheExpireSecond" = some (.str (formatInt n)) → 0 < n → n < 2 ^ 63 →
      expireSeconds conf = n) ∧
    ((∀ c, conf = some c → AMap.load c b!"metaCacheExpireSecond" = none) → expireSeconds conf = 3) := by
  have hkey : b!"metaCacheExpireSecond" ≠ [] := by decide
  refine ⟨?_, ?_, ?_⟩
  · unfold expireSeconds
    split
    · omega
    · simp only
      split
      · omega
      · split
        · split <;> omega
        · omega
  · rintro c n rfl hl h0 h1
    simp only [expireSeconds, Params.stringWithDefault, Params.getData, if_neg hkey, hl, Option.bind_some, ConfUrl.asString,
      Option.getD_some, if_neg (formatInt_ne_nil n), atoi_formatInt (show -2 ^ 63 ≤ n by omega) h1, if_pos h0]
  · intro h
    cases conf with
    | none => rfl
    | some c => simp [expireSeconds, Params.stringWithDefault, Params.getData, h c rfl]

/-- **C90 does not hold of numbers.** A configuration that gives the seconds as a number, as YAML reads `10`, is ignored. -/
theorem meta_expire_number_violated (c : AMap Bytes ConfUrl.Val) (n : Int)
    (h : AMap.load c b!"metaCacheExpireSecond" = some (.int n)) : expireSeconds (some c) = 3 := by
  have hkey : b!"metaCacheExpireSecond" ≠ [] := by decide
  simp [expireSeconds, Params.stringWithDefault, Params.getData, h, ConfUrl.asString]

/-- **C90.** Merged metadata: the dynamic value of a key, else the one of the environment. -/
theorem meta_merged {env dynamic : Meta.Map} (he : env.NodupKeys) (hd : dynamic.NodupKeys) (k : Bytes) :
    AMap.load (merged env dynamic) k = (AMap.load dynamic k).or (AMap.load env k) := by
  unfold merged
  rw [AMap.load_storeAll _ _ hd, AMap.load_storeAll _ _ he]
  cases AMap.load dynamic k with
  | some v => rfl
  | none => cases AMap.load env k <;> rfl

namespace MetaCase

/-- A motan2 server. -/
def good : Ep := ⟨{ protocol := b!"motan2", host := b!"10.0.0.1", port := 8002 }, true⟩

/-- The same address, used with a protobuf serialization. -/
def grpc : Ep := ⟨{ protocol := b!"motan2", host := b!"10.0.0.1", port := 8002, params := some [(b!"serialization", b!"grpc-pb")] }, true⟩

/-- What a test looks at. -/
def seen (s : Meta.St) : List Bool × List Meta.Result := (s.asks.map Prod.snd, s.results.map fun r => r.2.1)

/-- A history, seen from outside. -/
def after (x : Int) (ops : List Meta.Op) : Option (List Bool × List Meta.Result) := (Meta.play x {} ops).map seen

end MetaCase

open MetaCase in
/-- **C90 does not hold across services.** Marks go by the address: when a caller of one service at an address uses a serialization
that does not support the question, the callers of another that does are told "service not support" for 30 seconds although
the endpoint was never asked. (lb/weightedEpRefresher.go:97-100 then never asks it again.) -/
theorem meta_spread_violated :
    supports good.url = true ∧ cacheKey good.url = cacheKey grpc.url ∧
    after 3000000000 [.ask grpc, .wait 29000000000, .ask good] = some ([], [.notSupported, .notSupported]) ∧
    after 3000000000 [.wait 29000000000, .ask good] = some ([true], []) := by decide +kernel

open MetaCase in
/-- Asked, kept, asked again after the time; an error is not kept. -/
example :
    after 3 [.ask good, .answer 0 (.map [(b!"META_WEIGHT", b!"5")]), .wait 3, .ask good, .wait 1, .ask good,
      .answer 1 (.exception b!"busy"), .ask good] =
    some ([false, false, true], [.error b!"busy", .got [(b!"META_WEIGHT", b!"5")], .got [(b!"META_WEIGHT", b!"5")]]) := by decide +kernel

open MetaCase in
/-- An endpoint without the service: not asked for 30 seconds, then asked again. -/
example :
    after 3 [.ask good, .answer 0 (.exception b!"service not support"), .wait 30000000000, .ask good, .wait 1, .ask good] =
    some ([false, true], [.notSupported, .notSupported]) := by decide +kernel

example : expireSeconds (some [(b!"metaCacheExpireSecond", .str b!"10")]) = 10 ∧
    expireSeconds (some [(b!"metaCacheExpireSecond", .int 10)]) = 3 := by decide +kernel

end Motan.Props
