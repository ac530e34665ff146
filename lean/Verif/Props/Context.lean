import Verif.Model.Context
import Verif.Props.DynParam

/-!
# C105: the contexts of clients and servers
-/

namespace Motan.Props

open Motan Motan.Url
open Motan.Config (V Conf withDynamic)
open Motan.Context (World Ctx Out getClientContext getServerContext getClient newContext startLoop register sectionOf asBool decodeBool
  initSwitcher registerSwitchers logOk logOptions isTy)

/-! ## Specification -/

/-- The values of a section are booleans. -/
def Spec.Bools (c : Conf) (k : Bytes) : Prop :=
  ∀ m, AMap.load c k = some (.map m) → ∀ p ∈ m, p.2 = .other b!"true" ∨ p.2 = .other b!"false"

/-- Every option of the log that has a value has one of its type. -/
def Spec.LogTyped (c : Conf) (sect : Bytes) : Prop :=
  ∀ m, AMap.load c sect = some (.map m) → ∀ v, v ≠ .nil →
    (AMap.load m b!"log_dir" = some v ∨ AMap.load m b!"log_level" = some v → ∃ s, v = .str s) ∧
    (AMap.load m b!"log_async" = some v ∨ AMap.load m b!"log_structured" = some v ∨ AMap.load m b!"rotate_per_hour" = some v ∨
      AMap.load m b!"log_filter_caller" = some v → v = .other b!"true" ∨ v = .other b!"false") ∧
    (AMap.load m b!"log_buffer_size" = some v → ∃ sign digits, v = .other (sign ++ digits) ∧ (sign = [] ∨ sign = b!"-") ∧
      digits ≠ [] ∧ ∀ d ∈ digits, 48 ≤ d ∧ d ≤ 57)

/-- A configuration a context can be made of. -/
def Spec.Usable (w : World) (c : Conf) (sect : Bytes) : Prop :=
  (∃ rs, w.refers c = some rs) ∧ Spec.LogTyped c sect ∧ Spec.Bools c b!"switcher"

/-- Two states in which the contexts of the first are contexts of the second, with the same configuration and references. -/
def Spec.Kept (s s' : Context.St) : Prop :=
  ∀ (n : Nat) (x : Ctx), s.ctxs[n]? = some x → ∃ x' : Ctx, s'.ctxs[n]? = some x' ∧ x'.conf = x.conf ∧ x'.refers = x.refers

/-! ## Lemmas -/

theorem asBool_some {v : V} : (asBool v).isSome = true ↔ v = .other b!"true" ∨ v = .other b!"false" := by
  cases v with
  | other s =>
    rw [asBool]
    by_cases h1 : s = b!"true"
    · simp [h1]
    · by_cases h2 : s = b!"false"
      · simp [h2]
      · simp [h1, h2]
  | _ => simp [asBool]

theorem registerSwitchers_ok (t : AMap Bytes Bool) (l : List (Bytes × V)) :
    (registerSwitchers t l).2 = true ↔ ∀ p ∈ l, (asBool p.2).isSome = true := by
  induction l generalizing t with
  | nil => simp [registerSwitchers]
  | cons p r ih =>
    obtain ⟨n, v⟩ := p
    rw [registerSwitchers]
    cases h : asBool v with
    | none => simp [h]
    | some b => simp [h, ih]

theorem bools_iff (c : Conf) (k : Bytes) : Spec.Bools c k ↔ ∀ p ∈ sectionOf c k, (asBool p.2).isSome = true := by
  rw [sectionOf]
  constructor
  · intro h
    split
    · rename_i m hm; exact fun p hp => asBool_some.mpr (h m hm p hp)
    · exact fun _ hp => by (cases hp)
  · intro h m hm p hp
    rw [hm] at h
    exact asBool_some.mp (h p hp)

theorem isTy_int (v : V) : isTy .int v = true ↔ ∃ sign digits, v = .other (sign ++ digits) ∧ (sign = [] ∨ sign = b!"-") ∧
      digits ≠ [] ∧ ∀ d ∈ digits, 48 ≤ d ∧ d ≤ 57 := by
  constructor
  · intro h
    cases v with
    | other s =>
      simp only [isTy, Bool.and_eq_true, decide_eq_true_eq, List.all_eq_true] at h
      by_cases hs : s.head? = some 45
      · rw [if_pos hs] at h
        cases s with
        | nil => cases hs
        | cons a r => cases hs; exact ⟨b!"-", r, rfl, .inr rfl, h.1, h.2⟩
      · rw [if_neg hs] at h; exact ⟨[], s, rfl, .inl rfl, h.1, h.2⟩
    | _ => simp [isTy] at h
  · rintro ⟨sign, digits, rfl, hs, hne, hd⟩
    simp only [isTy, Bool.and_eq_true, decide_eq_true_eq, List.all_eq_true]
    rcases hs with rfl | rfl
    · have : ([] ++ digits).head? ≠ some 45 := by
        cases digits with
        | nil => exact absurd rfl hne
        | cons d r =>
          intro e; cases e
          exact absurd (hd 45 List.mem_cons_self).1 (by decide)
      rw [if_neg this]; exact ⟨hne, hd⟩
    · simpa using ⟨hne, hd⟩

theorem isTy_text (v : V) : isTy .text v = true ↔ ∃ s, v = .str s := by
  cases v <;> simp [isTy]

theorem isTy_bool (v : V) : isTy .bool v = true ↔ v = .other b!"true" ∨ v = .other b!"false" := by
  rw [← asBool_some]; cases v <;> simp [isTy]

theorem logOk_iff (c : Conf) (sect : Bytes) : logOk c sect = true ↔ Spec.LogTyped c sect := by
  have key : ∀ (m : AMap Bytes V) (k : Bytes) (t : Context.Ty),
      (match Config.value (AMap.load m k) with | none => true | some v => isTy t v) = true ↔
        ∀ v, v ≠ .nil → AMap.load m k = some v → isTy t v = true := by
    intro m k t
    cases h : Config.value (AMap.load m k) with
    | none => exact ⟨fun _ v hv hl => absurd (value_none.mp h v hl) hv, fun _ => rfl⟩
    | some v =>
      have := value_some.mp h
      refine ⟨fun ht v' _ hl => ?_, fun hall => hall v this.2 this.1⟩
      rw [this.1] at hl; cases hl; exact ht
  rw [logOk, List.all_eq_true, sectionOf, Spec.LogTyped]
  have hsec : ∀ m : AMap Bytes V, (∀ o ∈ logOptions, (match Config.value (AMap.load m o.1) with | none => true | some v => isTy o.2 v) = true) ↔
      ∀ v, v ≠ .nil →
    (AMap.load m b!"log_dir" = some v ∨ AMap.load m b!"log_level" = some v → ∃ s, v = .str s) ∧
    (AMap.load m b!"log_async" = some v ∨ AMap.load m b!"log_structured" = some v ∨ AMap.load m b!"rotate_per_hour" = some v ∨
      AMap.load m b!"log_filter_caller" = some v → v = .other b!"true" ∨ v = .other b!"false") ∧
    (AMap.load m b!"log_buffer_size" = some v → ∃ sign digits, v = .other (sign ++ digits) ∧ (sign = [] ∨ sign = b!"-") ∧
      digits ≠ [] ∧ ∀ d ∈ digits, 48 ≤ d ∧ d ≤ 57) := by
    intro m
    simp only [key]
    simp only [logOptions, List.forall_mem_cons, List.not_mem_nil, false_implies, implies_true, and_true, isTy_text, isTy_bool, isTy_int]
    constructor
    · rintro ⟨h1, h2, h3, h4, h5, h6, h7⟩ v hv
      refine ⟨fun h => h.elim (h1 v hv) (h5 v hv), fun h => ?_, h7 v hv⟩
      rcases h with h | h | h | h
      · exact h2 v hv h
      · exact h3 v hv h
      · exact h4 v hv h
      · exact h6 v hv h
    · intro h
      exact ⟨fun v hv hl => (h v hv).1 (.inl hl), fun v hv hl => (h v hv).2.1 (.inl hl), fun v hv hl => (h v hv).2.1 (.inr (.inl hl)),
        fun v hv hl => (h v hv).2.1 (.inr (.inr (.inl hl))), fun v hv hl => (h v hv).1 (.inr hl),
        fun v hv hl => (h v hv).2.1 (.inr (.inr (.inr hl))), fun v hv hl => (h v hv).2.2 hl⟩
  split
  · rename_i m hm
    exact ⟨fun h m' hm' => by rw [hm] at hm'; cases hm'; exact (hsec m).mp h, fun h => (hsec m).mpr (h m hm)⟩
  · rename_i hno
    refine ⟨fun _ m hm => absurd hm (hno m), fun _ => (hsec []).mpr fun v _ => ?_⟩
    refine ⟨fun h => ?_, fun h => ?_, fun h => ?_⟩
    · rcases h with h | h <;> cases h
    · rcases h with h | h | h | h <;> cases h
    · cases h

theorem newContext_iff (w : World) (t : AMap Bytes Bool) (sect : Bytes) (c : Conf) :
    (∃ x, (newContext w t sect c).1 = some x) ↔ Spec.Usable w c sect := by
  rw [Spec.Usable, bools_iff, ← logOk_iff, newContext]
  cases hr : w.refers c with
  | none => simp
  | some rs =>
    dsimp only
    cases hl : logOk c sect with
    | false => simp
    | true =>
      rw [if_pos rfl, ← registerSwitchers_ok (initSwitcher t c)]
      cases hs : registerSwitchers (initSwitcher t c) (sectionOf c b!"switcher") with
      | mk t2 b => cases b <;> simp

theorem newContext_some {w : World} {t : AMap Bytes Bool} {sect : Bytes} {c : Conf} {x : Ctx}
    (h : (newContext w t sect c).1 = some x) : x.conf = c ∧ w.refers c = some x.refers ∧ x.clients = [] := by
  rw [newContext] at h
  cases hr : w.refers c with
  | none => rw [hr] at h; cases h
  | some rs =>
    rw [hr] at h; dsimp only at h
    split at h
    · cases hs : registerSwitchers (initSwitcher t c) (sectionOf c b!"switcher") with
      | mk t2 b =>
        rw [hs] at h
        cases b with
        | true => cases h; exact ⟨rfl, rfl, rfl⟩
        | false => cases h
    · cases h

/-- The two ways to get a context differ in when they look at the table; this is what they do when it has no entry. -/
theorem getClientContext_cases (w : World) (s : Context.St) (f : Bytes) (o : Option Conf) :
    (∃ n, AMap.load s.clientTable f = some n ∧ getClientContext w s f o = (.ctx n, s)) ∨
    (AMap.load s.clientTable f = none ∧
      ((o = none ∧ getClientContext w s f o = (.nil, s)) ∨
       (∃ c x, o = some c ∧ (newContext w s.switchers b!"motan-client" c).1 = some x ∧
        getClientContext w s f o = (.ctx s.ctxs.length, { s with
          clientTable := AMap.store s.clientTable f s.ctxs.length, ctxs := s.ctxs ++ [x],
          switchers := (newContext w s.switchers b!"motan-client" c).2 })) ∨
       (∃ c, o = some c ∧ (newContext w s.switchers b!"motan-client" c).1 = none ∧
        getClientContext w s f o = (.panic, { s with switchers := (newContext w s.switchers b!"motan-client" c).2 })))) := by
  unfold getClientContext
  cases hl : AMap.load s.clientTable f with
  | some n => exact .inl ⟨n, rfl, rfl⟩
  | none =>
    refine .inr ⟨rfl, ?_⟩
    cases o with
    | none => exact .inl ⟨rfl, rfl⟩
    | some c =>
      dsimp only
      cases hc : newContext w s.switchers b!"motan-client" c with
      | mk x t =>
        cases x with
        | some x => exact .inr (.inl ⟨c, x, rfl, by rw [hc], by rw [hc]⟩)
        | none => exact .inr (.inr ⟨c, rfl, by rw [hc], by rw [hc]⟩)

theorem getServerContext_cases (w : World) (s : Context.St) (f : Bytes) (o : Option Conf) :
    (o = none ∧ getServerContext w s f o = (.nil, s)) ∨
    (∃ c n, o = some c ∧ AMap.load s.serverTable f = some n ∧ getServerContext w s f o = (.ctx n, s)) ∨
    (AMap.load s.serverTable f = none ∧
      ((∃ c x, o = some c ∧ (newContext w s.switchers b!"motan-server" c).1 = some x ∧
        getServerContext w s f o = (.ctx s.ctxs.length, { s with
          serverTable := AMap.store s.serverTable f s.ctxs.length, ctxs := s.ctxs ++ [x],
          switchers := (newContext w s.switchers b!"motan-server" c).2 })) ∨
       (∃ c, o = some c ∧ (newContext w s.switchers b!"motan-server" c).1 = none ∧
        getServerContext w s f o = (.panic, { s with switchers := (newContext w s.switchers b!"motan-server" c).2 })))) := by
  unfold getServerContext
  cases o with
  | none => exact .inl ⟨rfl, rfl⟩
  | some c =>
    dsimp only
    cases hl : AMap.load s.serverTable f with
    | some n => exact .inr (.inl ⟨c, n, rfl, rfl, rfl⟩)
    | none =>
      refine .inr (.inr ⟨rfl, ?_⟩)
      cases hc : newContext w s.switchers b!"motan-server" c with
      | mk x t =>
        cases x with
        | some x => exact .inl ⟨c, x, rfl, by rw [hc], by rw [hc]⟩
        | none => exact .inr ⟨c, rfl, by rw [hc], by rw [hc]⟩

theorem kept_refl (s : Context.St) : Spec.Kept s s := fun _ x h => ⟨x, h, rfl, rfl⟩

theorem kept_trans {a b c : Context.St} (h : Spec.Kept a b) (h' : Spec.Kept b c) : Spec.Kept a c := fun n x hx => by
  obtain ⟨y, hy, e1, e2⟩ := h n x hx
  obtain ⟨z, hz, f1, f2⟩ := h' n y hy
  exact ⟨z, hz, f1.trans e1, f2.trans e2⟩

/-- What a step leaves alone: the two tables and, unless it makes a context, their number. -/
theorem startLoop_spec (s : Context.St) (n : Nat) (l : List (Bytes × URL)) :
    (startLoop s n l).clientTable = s.clientTable ∧ (startLoop s n l).serverTable = s.serverTable ∧
    (startLoop s n l).switchers = s.switchers ∧ (startLoop s n l).ctxs.length = s.ctxs.length ∧
    (startLoop s n l).clusters = s.clusters ++ l.map Prod.snd ∧
    (∀ m, m ≠ n → (startLoop s n l).ctxs[m]? = s.ctxs[m]?) ∧ Spec.Kept s (startLoop s n l) := by
  induction l generalizing s with
  | nil => exact ⟨rfl, rfl, rfl, rfl, by simp [startLoop], fun _ _ => rfl, kept_refl s⟩
  | cons p r ih =>
    obtain ⟨k, u⟩ := p
    rw [startLoop]
    have h := ih { s with
      ctxs := s.ctxs.modify n fun x => { x with clients := AMap.store x.clients k (u, s.clusters.length) }
      clusters := s.clusters ++ [u] }
    refine ⟨h.1, h.2.1, h.2.2.1, ?_, ?_, fun m hm => ?_, kept_trans ?_ h.2.2.2.2.2.2⟩
    · rw [h.2.2.2.1]; simp
    · rw [h.2.2.2.2.1]; simp
    · rw [h.2.2.2.2.2.1 m hm]; simp [List.getElem?_modify, Ne.symm hm]
    · intro m x hx
      by_cases hm : n = m
      · subst hm
        refine ⟨_, by simp only [List.getElem?_modify, hx]; rfl, ?_⟩
        simp
      · exact ⟨x, by simp only [List.getElem?_modify, if_neg hm, hx]; rfl, rfl, rfl⟩

theorem step_spec (w : World) (s : Context.St) (o : Context.Op) :
    Spec.Kept s (Context.step w s o) ∧ s.ctxs.length ≤ (Context.step w s o).ctxs.length ∧
    (∀ f n, AMap.load s.clientTable f = some n → AMap.load (Context.step w s o).clientTable f = some n) ∧
    (∀ f n, AMap.load s.serverTable f = some n → AMap.load (Context.step w s o).serverTable f = some n) := by
  have hadd : ∀ (x : Ctx) (s' : Context.St), s'.ctxs = s.ctxs ++ [x] → Spec.Kept s s' ∧ s.ctxs.length ≤ s'.ctxs.length := by
    intro x s' h
    refine ⟨fun n y hy => ⟨y, ?_, rfl, rfl⟩, by rw [h]; simp⟩
    rw [h, List.getElem?_append_left (List.getElem?_eq_some_iff.mp hy).1, hy]
  have hst : ∀ (t : AMap Bytes Nat) f g n m, AMap.load t g = none → AMap.load t f = some n →
      AMap.load (AMap.store t g m) f = some n := by
    intro t f g n m h1 h2
    rw [AMap.load_store_ne _ _ fun e => by rw [e, h2] at h1; cases h1]; exact h2
  cases o with
  | client f o =>
    show Spec.Kept s (getClientContext w s f o).2 ∧ _
    rw [show Context.step w s (.client f o) = (getClientContext w s f o).2 from rfl]
    rcases getClientContext_cases w s f o with ⟨n, _, h⟩ | ⟨hn, ⟨_, h⟩ | ⟨c, x, _, _, h⟩ | ⟨c, _, _, h⟩⟩
    · rw [h]; exact ⟨kept_refl s, Nat.le_refl _, fun _ _ h => h, fun _ _ h => h⟩
    · rw [h]; exact ⟨kept_refl s, Nat.le_refl _, fun _ _ h => h, fun _ _ h => h⟩
    · rw [h]; exact ⟨(hadd x _ rfl).1, (hadd x _ rfl).2, fun g n hg => hst _ _ _ _ _ hn hg, fun _ _ h => h⟩
    · rw [h]; exact ⟨kept_refl s, Nat.le_refl _, fun _ _ h => h, fun _ _ h => h⟩
  | server f o =>
    rw [show Context.step w s (.server f o) = (getServerContext w s f o).2 from rfl]
    rcases getServerContext_cases w s f o with ⟨_, h⟩ | ⟨c, n, _, _, h⟩ | ⟨hn, ⟨c, x, _, _, h⟩ | ⟨c, _, _, h⟩⟩
    · rw [h]; exact ⟨kept_refl s, Nat.le_refl _, fun _ _ h => h, fun _ _ h => h⟩
    · rw [h]; exact ⟨kept_refl s, Nat.le_refl _, fun _ _ h => h, fun _ _ h => h⟩
    · rw [h]; exact ⟨(hadd x _ rfl).1, (hadd x _ rfl).2, fun _ _ h => h, fun g n hg => hst _ _ _ _ _ hn hg⟩
    · rw [h]; exact ⟨kept_refl s, Nat.le_refl _, fun _ _ h => h, fun _ _ h => h⟩
  | start n =>
    rw [show Context.step w s (.start n) = Context.start s n from rfl, Context.start]
    split
    · exact ⟨kept_refl s, Nat.le_refl _, fun _ _ h => h, fun _ _ h => h⟩
    · rename_i x _
      have h := startLoop_spec s n x.refers
      exact ⟨h.2.2.2.2.2.2, Nat.le_of_eq h.2.2.2.1.symm, fun f m hf => by rw [h.1]; exact hf, fun f m hf => by rw [h.2.1]; exact hf⟩

/-- The state after further operations. -/
def Spec.after (w : World) (s : Context.St) (ops : List Context.Op) : Context.St := ops.foldl (Context.step w) s

theorem after_spec (w : World) (ops : List Context.Op) (s : Context.St) :
    Spec.Kept s (Spec.after w s ops) ∧ s.ctxs.length ≤ (Spec.after w s ops).ctxs.length ∧
    (∀ f n, AMap.load s.clientTable f = some n → AMap.load (Spec.after w s ops).clientTable f = some n) ∧
    (∀ f n, AMap.load s.serverTable f = some n → AMap.load (Spec.after w s ops).serverTable f = some n) := by
  induction ops generalizing s with
  | nil => exact ⟨kept_refl s, Nat.le_refl _, fun _ _ h => h, fun _ _ h => h⟩
  | cons o r ih =>
    have h1 := step_spec w s o
    have h2 := ih (Context.step w s o)
    exact ⟨kept_trans h1.1 h2.1, Nat.le_trans h1.2.1 h2.2.1, fun f n h => h2.2.2.1 f n (h1.2.2.1 f n h),
      fun f n h => h2.2.2.2 f n (h1.2.2.2 f n h)⟩

theorem ctxRun_snoc (w : World) (ops : List Context.Op) (o : Context.Op) :
    Context.run w (ops ++ [o]) = Context.step w (Context.run w ops) o := by simp [Context.run]

theorem run_append_after (w : World) (a b : List Context.Op) : Context.run w (a ++ b) = Spec.after w (Context.run w a) b := by
  simp [Context.run, Spec.after]

/-- The contexts in the tables exist, and belong to one file of one kind. -/
structure TableOk (s : Context.St) : Prop where
  clt : ∀ f n, AMap.load s.clientTable f = some n → n < s.ctxs.length
  srv : ∀ f n, AMap.load s.serverTable f = some n → n < s.ctxs.length
  cc : ∀ f g n, AMap.load s.clientTable f = some n → AMap.load s.clientTable g = some n → f = g
  ss : ∀ f g n, AMap.load s.serverTable f = some n → AMap.load s.serverTable g = some n → f = g
  cs : ∀ f g n, AMap.load s.clientTable f = some n → AMap.load s.serverTable g ≠ some n

theorem tableOk_client {s : Context.St} (h : TableOk s) (f : Bytes) (x : Ctx) (t : AMap Bytes Bool) :
    TableOk { s with clientTable := AMap.store s.clientTable f s.ctxs.length, ctxs := s.ctxs ++ [x], switchers := t } := by
  have hl : ∀ g n, AMap.load (AMap.store s.clientTable f s.ctxs.length) g = some n →
      (g = f ∧ n = s.ctxs.length) ∨ (g ≠ f ∧ AMap.load s.clientTable g = some n) := by
    intro g n hg
    by_cases e : g = f
    · subst e; rw [AMap.load_store_self] at hg; cases hg; exact .inl ⟨rfl, rfl⟩
    · rw [AMap.load_store_ne _ _ (Ne.symm e)] at hg; exact .inr ⟨e, hg⟩
  refine ⟨fun g n hg => ?_, fun g n hg => ?_, fun g g' n hg hg' => ?_, h.ss, fun g g' n hg hg' => ?_⟩
  · have := h.clt g n
    rw [List.length_append]
    rcases hl g n hg with ⟨_, rfl⟩ | ⟨_, hg⟩
    · simp
    · have := this hg; omega
  · have := h.srv g n hg; rw [List.length_append]; omega
  · rcases hl g n hg with ⟨e, e1⟩ | ⟨e, h1⟩ <;> rcases hl g' n hg' with ⟨e', e1'⟩ | ⟨e', h1'⟩
    · rw [e, e']
    · have := h.clt _ _ h1'; omega
    · have := h.clt _ _ h1; omega
    · exact h.cc _ _ _ h1 h1'
  · have := h.srv _ _ hg'
    rcases hl g n hg with ⟨e, e1⟩ | ⟨e, h1⟩
    · omega
    · exact h.cs _ _ _ h1 hg'

theorem tableOk_server {s : Context.St} (h : TableOk s) (f : Bytes) (x : Ctx) (t : AMap Bytes Bool) :
    TableOk { s with serverTable := AMap.store s.serverTable f s.ctxs.length, ctxs := s.ctxs ++ [x], switchers := t } := by
  have hl : ∀ g n, AMap.load (AMap.store s.serverTable f s.ctxs.length) g = some n →
      (g = f ∧ n = s.ctxs.length) ∨ (g ≠ f ∧ AMap.load s.serverTable g = some n) := by
    intro g n hg
    by_cases e : g = f
    · subst e; rw [AMap.load_store_self] at hg; cases hg; exact .inl ⟨rfl, rfl⟩
    · rw [AMap.load_store_ne _ _ (Ne.symm e)] at hg; exact .inr ⟨e, hg⟩
  refine ⟨fun g n hg => ?_, fun g n hg => ?_, h.cc, fun g g' n hg hg' => ?_, fun g g' n hg hg' => ?_⟩
  · have := h.clt g n hg; rw [List.length_append]; omega
  · have := h.srv g n
    rw [List.length_append]
    rcases hl g n hg with ⟨_, rfl⟩ | ⟨_, hg⟩
    · simp
    · have := this hg; omega
  · rcases hl g n hg with ⟨e, e1⟩ | ⟨e, h1⟩ <;> rcases hl g' n hg' with ⟨e', e1'⟩ | ⟨e', h1'⟩
    · rw [e, e']
    · have := h.srv _ _ h1'; omega
    · have := h.srv _ _ h1; omega
    · exact h.ss _ _ _ h1 h1'
  · have := h.clt _ _ hg
    rcases hl g' n hg' with ⟨e, e1⟩ | ⟨e, h1⟩
    · omega
    · exact h.cs _ _ _ hg h1

theorem tableOk_step (w : World) {s : Context.St} (h : TableOk s) (o : Context.Op) : TableOk (Context.step w s o) := by
  have hsame : ∀ t, TableOk { s with switchers := t } := fun t => ⟨h.clt, h.srv, h.cc, h.ss, h.cs⟩
  cases o with
  | client f o =>
    rw [show Context.step w s (.client f o) = (getClientContext w s f o).2 from rfl]
    rcases getClientContext_cases w s f o with ⟨n, _, e⟩ | ⟨hn, ⟨_, e⟩ | ⟨c, x, _, _, e⟩ | ⟨c, _, _, e⟩⟩ <;> rw [e]
    · exact h
    · exact h
    · exact tableOk_client h f x _
    · exact hsame _
  | server f o =>
    rw [show Context.step w s (.server f o) = (getServerContext w s f o).2 from rfl]
    rcases getServerContext_cases w s f o with ⟨_, e⟩ | ⟨c, n, _, _, e⟩ | ⟨hn, ⟨c, x, _, _, e⟩ | ⟨c, _, _, e⟩⟩ <;> rw [e]
    · exact h
    · exact h
    · exact tableOk_server h f x _
    · exact hsame _
  | start n =>
    rw [show Context.step w s (.start n) = Context.start s n from rfl, Context.start]
    split
    · exact h
    · rename_i x _
      have e := startLoop_spec s n x.refers
      refine ⟨?_, ?_, ?_, ?_, ?_⟩ <;> simp only [e.1, e.2.1, e.2.2.2.1]
      · exact h.clt
      · exact h.srv
      · exact h.cc
      · exact h.ss
      · exact h.cs

theorem tableOk_run (w : World) (ops : List Context.Op) : TableOk (Context.run w ops) := by
  have : ∀ (ops : List Context.Op) s, TableOk s → TableOk (ops.foldl (Context.step w) s) := by
    intro ops
    induction ops with
    | nil => exact fun _ h => h
    | cons o r ih => exact fun s h => ih _ (tableOk_step w h o)
  exact this ops {} ⟨fun _ _ h => by (cases h), fun _ _ h => by (cases h), fun _ _ _ h => by (cases h), fun _ _ _ h => by (cases h),
    fun _ _ _ h => by (cases h)⟩

/-- No call for the file has given a context so far. -/
def Spec.NoClientYet (w : World) (ops : List Context.Op) (f : Bytes) : Prop :=
  ∀ pre o, pre ++ [.client f o] <+: ops → ∀ m, (getClientContext w (Context.run w pre) f o).1 ≠ .ctx m

theorem client_new (w : World) (s : Context.St) (o : Context.Op) (f : Bytes) (n : Nat) (h0 : AMap.load s.clientTable f = none)
    (h1 : AMap.load (Context.step w s o).clientTable f = some n) :
    ∃ c x, o = .client f (some c) ∧ (getClientContext w s f (some c)).1 = .ctx n ∧
      (Context.step w s o).ctxs[n]? = some x ∧ x.conf = c ∧ w.refers c = some x.refers ∧ x.clients = [] := by
  cases o with
  | client g o =>
    rw [show Context.step w s (.client g o) = (getClientContext w s g o).2 from rfl] at h1 ⊢
    rcases getClientContext_cases w s g o with ⟨m, _, e⟩ | ⟨hn, ⟨_, e⟩ | ⟨c, x, rfl, hx, e⟩ | ⟨c, _, _, e⟩⟩
    · rw [e, h0] at h1; cases h1
    · rw [e, h0] at h1; cases h1
    ·
      rw [e] at h1
      by_cases hfg : g = f
      · subst hfg
        rw [AMap.load_store_self] at h1; cases h1
        have hc := newContext_some hx
        refine ⟨c, x, rfl, by rw [e], ?_, hc.1, hc.2.1, hc.2.2⟩
        rw [e]; simp
      · rw [AMap.load_store_ne _ _ hfg, h0] at h1; cases h1
    · rw [e, h0] at h1; cases h1
  | server g o =>
    rw [show Context.step w s (.server g o) = (getServerContext w s g o).2 from rfl] at h1
    rcases getServerContext_cases w s g o with ⟨_, e⟩ | ⟨c, m, _, _, e⟩ | ⟨hn, ⟨c, x, _, _, e⟩ | ⟨c, _, _, e⟩⟩ <;>
      (rw [e] at h1; exact absurd (h0.symm.trans h1) (by simp))
  | start m =>
    rw [show Context.step w s (.start m) = Context.start s m from rfl, Context.start] at h1
    split at h1
    · rw [h0] at h1; cases h1
    · rw [(startLoop_spec s m _).1, h0] at h1; cases h1

theorem client_ctx_load {w : World} {s : Context.St} {f : Bytes} {o : Option Conf} {n : Nat}
    (h : (getClientContext w s f o).1 = .ctx n) : AMap.load (getClientContext w s f o).2.clientTable f = some n := by
  rcases getClientContext_cases w s f o with ⟨m, hm, e⟩ | ⟨hn, ⟨_, e⟩ | ⟨c, x, rfl, hx, e⟩ | ⟨c, _, _, e⟩⟩ <;> rw [e] at h ⊢
  · cases h; exact hm
  · cases h
  · cases h; exact AMap.load_store_self _ _ _
  · cases h

theorem client_first (w : World) (ops : List Context.Op) (f : Bytes) (n : Nat)
    (h : AMap.load (Context.run w ops).clientTable f = some n) :
    ∃ pre c, pre ++ [.client f (some c)] <+: ops ∧ AMap.load (Context.run w pre).clientTable f = none ∧
      (getClientContext w (Context.run w pre) f (some c)).1 = .ctx n ∧
      ∃ x, (Context.run w (pre ++ [.client f (some c)])).ctxs[n]? = some x ∧ x.conf = c ∧ w.refers c = some x.refers := by
  rw [← List.reverse_reverse ops] at h ⊢
  generalize ops.reverse = l at h ⊢
  induction l with
  | nil => cases h
  | cons o r ih =>
    rw [List.reverse_cons] at h ⊢
    cases h0 : AMap.load (Context.run w r.reverse).clientTable f with
    | some m =>
      have := (step_spec w (Context.run w r.reverse) o).2.2.1 f m h0
      rw [ctxRun_snoc, this] at h; cases h
      obtain ⟨pre, c, hp, rest⟩ := ih h0
      exact ⟨pre, c, List.IsPrefix.trans hp (List.prefix_append _ _), rest⟩
    | none =>
      rw [ctxRun_snoc] at h
      obtain ⟨c, x, rfl, h1, h2, h3, h4, _⟩ := client_new w _ o f n h0 h
      refine ⟨r.reverse, c, List.prefix_rfl, h0, h1, x, ?_, h3, h4⟩
      rw [ctxRun_snoc]; exact h2

theorem no_client_yet_iff (w : World) (ops : List Context.Op) (f : Bytes) :
    Spec.NoClientYet w ops f ↔ AMap.load (Context.run w ops).clientTable f = none := by
  constructor
  · intro h
    cases hl : AMap.load (Context.run w ops).clientTable f with
    | none => rfl
    | some n =>
      obtain ⟨pre, c, hp, _, h1, _⟩ := client_first w ops f n hl
      exact absurd h1 (h pre _ hp n)
  · intro h pre o ⟨rest, hp⟩ m hm
    have h1 := client_ctx_load hm
    rw [← hp, run_append_after, ctxRun_snoc] at h
    have h2 := (after_spec w rest (Context.step w (Context.run w pre) (.client f o))).2.2.1 f m h1
    rw [h2] at h; cases h

/-- No call for the file has given a context so far. -/
def Spec.NoServerYet (w : World) (ops : List Context.Op) (f : Bytes) : Prop :=
  ∀ pre o, pre ++ [.server f o] <+: ops → ∀ m, (getServerContext w (Context.run w pre) f o).1 ≠ .ctx m

theorem server_new (w : World) (s : Context.St) (o : Context.Op) (f : Bytes) (n : Nat) (h0 : AMap.load s.serverTable f = none)
    (h1 : AMap.load (Context.step w s o).serverTable f = some n) :
    ∃ c x, o = .server f (some c) ∧ (getServerContext w s f (some c)).1 = .ctx n ∧
      (Context.step w s o).ctxs[n]? = some x ∧ x.conf = c ∧ w.refers c = some x.refers ∧ x.clients = [] := by
  cases o with
  | server g o =>
    rw [show Context.step w s (.server g o) = (getServerContext w s g o).2 from rfl] at h1 ⊢
    rcases getServerContext_cases w s g o with ⟨_, e⟩ | ⟨c, m, _, _, e⟩ | ⟨hn, ⟨c, x, rfl, hx, e⟩ | ⟨c, _, _, e⟩⟩
    · rw [e, h0] at h1; cases h1
    · rw [e, h0] at h1; cases h1
    ·
      rw [e] at h1
      by_cases hfg : g = f
      · subst hfg
        rw [AMap.load_store_self] at h1; cases h1
        have hc := newContext_some hx
        refine ⟨c, x, rfl, by rw [e], ?_, hc.1, hc.2.1, hc.2.2⟩
        rw [e]; simp
      · rw [AMap.load_store_ne _ _ hfg, h0] at h1; cases h1
    · rw [e, h0] at h1; cases h1
  | client g o =>
    rw [show Context.step w s (.client g o) = (getClientContext w s g o).2 from rfl] at h1
    rcases getClientContext_cases w s g o with ⟨m, _, e⟩ | ⟨hn, ⟨_, e⟩ | ⟨c, x, _, _, e⟩ | ⟨c, _, _, e⟩⟩ <;>
      (rw [e] at h1; exact absurd (h0.symm.trans h1) (by simp))
  | start m =>
    rw [show Context.step w s (.start m) = Context.start s m from rfl, Context.start] at h1
    split at h1
    · rw [h0] at h1; cases h1
    · rw [(startLoop_spec s m _).2.1, h0] at h1; cases h1

theorem server_ctx_load {w : World} {s : Context.St} {f : Bytes} {o : Option Conf} {n : Nat}
    (h : (getServerContext w s f o).1 = .ctx n) : AMap.load (getServerContext w s f o).2.serverTable f = some n := by
  rcases getServerContext_cases w s f o with ⟨_, e⟩ | ⟨c, m, _, hm, e⟩ | ⟨hn, ⟨c, x, rfl, hx, e⟩ | ⟨c, _, _, e⟩⟩ <;> rw [e] at h ⊢
  · cases h
  · cases h; exact hm
  · cases h; exact AMap.load_store_self _ _ _
  · cases h

theorem server_first (w : World) (ops : List Context.Op) (f : Bytes) (n : Nat)
    (h : AMap.load (Context.run w ops).serverTable f = some n) :
    ∃ pre c, pre ++ [.server f (some c)] <+: ops ∧ AMap.load (Context.run w pre).serverTable f = none ∧
      (getServerContext w (Context.run w pre) f (some c)).1 = .ctx n ∧
      ∃ x, (Context.run w (pre ++ [.server f (some c)])).ctxs[n]? = some x ∧ x.conf = c ∧ w.refers c = some x.refers := by
  rw [← List.reverse_reverse ops] at h ⊢
  generalize ops.reverse = l at h ⊢
  induction l with
  | nil => cases h
  | cons o r ih =>
    rw [List.reverse_cons] at h ⊢
    cases h0 : AMap.load (Context.run w r.reverse).serverTable f with
    | some m =>
      have := (step_spec w (Context.run w r.reverse) o).2.2.2 f m h0
      rw [ctxRun_snoc, this] at h; cases h
      obtain ⟨pre, c, hp, rest⟩ := ih h0
      exact ⟨pre, c, List.IsPrefix.trans hp (List.prefix_append _ _), rest⟩
    | none =>
      rw [ctxRun_snoc] at h
      obtain ⟨c, x, rfl, h1, h2, h3, h4, _⟩ := server_new w _ o f n h0 h
      refine ⟨r.reverse, c, List.prefix_rfl, h0, h1, x, ?_, h3, h4⟩
      rw [ctxRun_snoc]; exact h2

theorem no_server_yet_iff (w : World) (ops : List Context.Op) (f : Bytes) :
    Spec.NoServerYet w ops f ↔ AMap.load (Context.run w ops).serverTable f = none := by
  constructor
  · intro h
    cases hl : AMap.load (Context.run w ops).serverTable f with
    | none => rfl
    | some n =>
      obtain ⟨pre, c, hp, _, h1, _⟩ := server_first w ops f n hl
      exact absurd h1 (h pre _ hp n)
  · intro h pre o ⟨rest, hp⟩ m hm
    have h1 := server_ctx_load hm
    rw [← hp, run_append_after, ctxRun_snoc] at h
    have h2 := (after_spec w rest (Context.step w (Context.run w pre) (.server f o))).2.2.2 f m h1
    rw [h2] at h; cases h

/-! ## C105: getting a context -/

/-- C105: a file has one context for clients: it is made by the first call that can make it, of what the file says then (and the
references of the context are those of this configuration); every later call gives the same one, whatever the file says then. -/
theorem client_context_once (w : World) (ops : List Context.Op) (f : Bytes) (o : Option Conf) (n : Nat)
    (h : (getClientContext w (Context.run w ops) f o).1 = .ctx n) :
    (∃ pre c, pre ++ [.client f (some c)] <+: ops ++ [.client f o] ∧ Spec.NoClientYet w pre f ∧
      (getClientContext w (Context.run w pre) f (some c)).1 = .ctx n ∧
      ∃ x, (Context.run w (ops ++ [.client f o])).ctxs[n]? = some x ∧ x.conf = c ∧ w.refers c = some x.refers) ∧
    ∀ later o', (getClientContext w (Context.run w (ops ++ [.client f o] ++ later)) f o').1 = .ctx n := by
  have hl := client_ctx_load h
  rw [show (getClientContext w (Context.run w ops) f o).2 = Context.run w (ops ++ [.client f o]) by rw [ctxRun_snoc]; rfl] at hl
  constructor
  · obtain ⟨pre, c, hp, h0, h1, x, hx, h2, h3⟩ := client_first w _ f n hl
    obtain ⟨rest, hr⟩ := hp
    obtain ⟨x', hx', e1, e2⟩ := (after_spec w rest (Context.run w (pre ++ [.client f (some c)]))).1 n x hx
    refine ⟨pre, c, ⟨rest, hr⟩, (no_client_yet_iff w pre f).mpr h0, h1, x', ?_, by rw [e1, h2], by rw [e2, h3]⟩
    rw [← hr, run_append_after]; exact hx'
  · intro later o'
    have := (after_spec w later (Context.run w (ops ++ [.client f o]))).2.2.1 f n hl
    rw [← run_append_after] at this
    simp only [getClientContext, this]

/-- C105: a call for a file that has no context yet gives nil if the file cannot be read or parsed, panics if the configuration is not
of the types expected, and otherwise gives a new context. A failed call is forgotten: the next one for the file tries again. -/
theorem client_context_made (w : World) (ops : List Context.Op) (f : Bytes) (hno : Spec.NoClientYet w ops f) :
    (getClientContext w (Context.run w ops) f none).1 = .nil ∧
    (∀ c, ¬ Spec.Usable w c b!"motan-client" → (getClientContext w (Context.run w ops) f (some c)).1 = .panic) ∧
    (∀ c, Spec.Usable w c b!"motan-client" → ∃ n, (getClientContext w (Context.run w ops) f (some c)).1 = .ctx n) ∧
    ∀ o, (∀ n, (getClientContext w (Context.run w ops) f o).1 ≠ .ctx n) → Spec.NoClientYet w (ops ++ [.client f o]) f := by
  have h0 := (no_client_yet_iff w ops f).mp hno
  refine ⟨by rw [getClientContext, h0], fun c hc => ?_, fun c hc => ?_, fun o ho => ?_⟩
  · rcases getClientContext_cases w (Context.run w ops) f (some c) with ⟨n, hn, _⟩ | ⟨_, ⟨e, _⟩ | ⟨c', x, e, hx, _⟩ | ⟨c', _, _, e⟩⟩
    · rw [h0] at hn; cases hn
    · cases e
    · cases e; exact absurd ((newContext_iff w _ _ c).mp ⟨x, hx⟩) hc
    · rw [e]
  · rcases getClientContext_cases w (Context.run w ops) f (some c) with ⟨n, hn, _⟩ | ⟨_, ⟨e, _⟩ | ⟨c', x, _, _, e⟩ | ⟨c', e, hx, _⟩⟩
    · rw [h0] at hn; cases hn
    · cases e
    · rw [e]; exact ⟨_, rfl⟩
    · cases e
      obtain ⟨x, hx'⟩ := (newContext_iff w (Context.run w ops).switchers b!"motan-client" c).mpr hc
      rw [hx] at hx'; cases hx'
  · rw [no_client_yet_iff, ctxRun_snoc]
    cases hl : AMap.load (Context.step w (Context.run w ops) (.client f o)).clientTable f with
    | none => rfl
    | some n =>
      obtain ⟨c, _, e, h1, _⟩ := client_new w _ _ f n h0 hl
      cases e; exact absurd h1 (ho n)

/-- C105: the same for servers, as long as the file can be read and parsed when it is asked for. -/
theorem server_context_once (w : World) (ops : List Context.Op) (f : Bytes) (o : Option Conf) (n : Nat)
    (h : (getServerContext w (Context.run w ops) f o).1 = .ctx n) :
    (∃ pre c, pre ++ [.server f (some c)] <+: ops ++ [.server f o] ∧ Spec.NoServerYet w pre f ∧
      (getServerContext w (Context.run w pre) f (some c)).1 = .ctx n ∧
      ∃ x, (Context.run w (ops ++ [.server f o])).ctxs[n]? = some x ∧ x.conf = c ∧ w.refers c = some x.refers) ∧
    ∀ later c', (getServerContext w (Context.run w (ops ++ [.server f o] ++ later)) f (some c')).1 = .ctx n := by
  have hl := server_ctx_load h
  rw [show (getServerContext w (Context.run w ops) f o).2 = Context.run w (ops ++ [.server f o]) by rw [ctxRun_snoc]; rfl] at hl
  constructor
  · obtain ⟨pre, c, hp, h0, h1, x, hx, h2, h3⟩ := server_first w _ f n hl
    obtain ⟨rest, hr⟩ := hp
    obtain ⟨x', hx', e1, e2⟩ := (after_spec w rest (Context.run w (pre ++ [.server f (some c)]))).1 n x hx
    refine ⟨pre, c, ⟨rest, hr⟩, (no_server_yet_iff w pre f).mpr h0, h1, x', ?_, by rw [e1, h2], by rw [e2, h3]⟩
    rw [← hr, run_append_after]; exact hx'
  · intro later c'
    have := (after_spec w later (Context.run w (ops ++ [.server f o]))).2.2.2 f n hl
    rw [← run_append_after] at this
    rw [getServerContext]; simp only [this]

/-- C105: a call for a file that has no context for servers yet. -/
theorem server_context_made (w : World) (ops : List Context.Op) (f : Bytes) (hno : Spec.NoServerYet w ops f) (c : Conf) :
    (¬ Spec.Usable w c b!"motan-server" → (getServerContext w (Context.run w ops) f (some c)).1 = .panic) ∧
    (Spec.Usable w c b!"motan-server" → ∃ n, (getServerContext w (Context.run w ops) f (some c)).1 = .ctx n) := by
  have h0 := (no_server_yet_iff w ops f).mp hno
  rcases getServerContext_cases w (Context.run w ops) f (some c) with ⟨e, _⟩ | ⟨_, n, _, hn, _⟩ | ⟨_, ⟨c', x, e, hx, e'⟩ | ⟨c', e, hx, e'⟩⟩
  · cases e
  · rw [h0] at hn; cases hn
  · cases e; rw [e']
    exact ⟨fun h => absurd ((newContext_iff w _ _ c).mp ⟨x, hx⟩) h, fun _ => ⟨_, rfl⟩⟩
  · cases e; rw [e']
    refine ⟨fun _ => rfl, fun h => ?_⟩
    obtain ⟨x, hx'⟩ := (newContext_iff w (Context.run w ops).switchers b!"motan-server" c).mpr h
    rw [hx] at hx'; cases hx'

/-- C105, violated: a server whose context exists is given nil when the file cannot be read or parsed at the moment. -/
theorem server_context_lost_violated (w : World) (ops later : List Context.Op) (f : Bytes) (o : Option Conf) (n : Nat)
    (h : (getServerContext w (Context.run w ops) f o).1 = .ctx n) :
    (getServerContext w (Context.run w (ops ++ [.server f o] ++ later)) f none).1 = .nil ∧
    ∀ c', (getServerContext w (Context.run w (ops ++ [.server f o] ++ later ++ [.server f none])) f (some c')).1 = .ctx n := by
  refine ⟨rfl, fun c' => ?_⟩
  rw [List.append_assoc]
  exact (server_context_once w ops f o n h).2 _ c'

/-- C105: different files have different contexts, and a client and a server never share one. -/
theorem contexts_distinct (w : World) (ops : List Context.Op) (f g : Bytes) (o o' : Option Conf) (n : Nat) :
    ((getClientContext w (Context.run w ops) f o).1 = .ctx n →
      (getClientContext w (Context.run w (ops ++ [.client f o])) g o').1 = .ctx n → f = g) ∧
    ((getServerContext w (Context.run w ops) f o).1 = .ctx n →
      (getServerContext w (Context.run w (ops ++ [.server f o])) g o').1 = .ctx n → f = g) ∧
    ((getClientContext w (Context.run w ops) f o).1 = .ctx n →
      (getServerContext w (Context.run w (ops ++ [.client f o])) g o').1 ≠ .ctx n) := by
  have hk : ∀ (s : Context.St) (o : Context.Op) f n, AMap.load s.clientTable f = some n →
      AMap.load (Context.step w s o).clientTable f = some n := fun s o f n => (step_spec w s o).2.2.1 f n
  have hk' : ∀ (s : Context.St) (o : Context.Op) f n, AMap.load s.serverTable f = some n →
      AMap.load (Context.step w s o).serverTable f = some n := fun s o f n => (step_spec w s o).2.2.2 f n
  refine ⟨fun h h' => ?_, fun h h' => ?_, fun h h' => ?_⟩
  · have h1 := client_ctx_load h
    have h2 := client_ctx_load h'
    have hr : (getClientContext w (Context.run w ops) f o).2 = Context.run w (ops ++ [.client f o]) := by rw [ctxRun_snoc]; rfl
    rw [hr] at h1
    have h3 := hk _ (.client g o') f n h1
    rw [← ctxRun_snoc] at h3
    exact (tableOk_run w (ops ++ [.client f o] ++ [.client g o'])).cc f g n h3 (by rw [ctxRun_snoc]; exact h2)
  · have h1 := server_ctx_load h
    have h2 := server_ctx_load h'
    have hr : (getServerContext w (Context.run w ops) f o).2 = Context.run w (ops ++ [.server f o]) := by rw [ctxRun_snoc]; rfl
    rw [hr] at h1
    have h3 := hk' _ (.server g o') f n h1
    rw [← ctxRun_snoc] at h3
    exact (tableOk_run w (ops ++ [.server f o] ++ [.server g o'])).ss f g n h3 (by rw [ctxRun_snoc]; exact h2)
  · have h1 := client_ctx_load h
    have h2 := server_ctx_load h'
    have hr : (getClientContext w (Context.run w ops) f o).2 = Context.run w (ops ++ [.client f o]) := by rw [ctxRun_snoc]; rfl
    rw [hr] at h1
    have h3 := hk _ (.server g o') f n h1
    rw [← ctxRun_snoc] at h3
    exact (tableOk_run w (ops ++ [.client f o] ++ [.server g o'])).cs f g n h3 (by rw [ctxRun_snoc]; exact h2)

/-- C105, violated: an agent replaces placeholders by the parameters of its pool, and a client and a server do not. What the file says at a
place stays, whether or not the parameter has a value. -/
theorem client_placeholders_violated (w : World) (ops : List Context.Op) (f k : Bytes) (c : Conf) (v : V) (n : Nat) (p : List Bytes)
    (re : Bytes → Bytes → Option Bool) (pool : Bytes) (hno : Spec.NoClientYet w ops f)
    (h : (getClientContext w (Context.run w ops) f (some c)).1 = .ctx n)
    (hk : k ≠ []) (hb : (125 : UInt8) ∉ k) (hp : Spec.valueAt c p = some (.str (b!"${" ++ k ++ b!"}")))
    (hv : Spec.ParamIs re pool c k v) :
    (∃ x, (Context.run w (ops ++ [.client f (some c)])).ctxs[n]? = some x ∧
      Spec.valueAt x.conf p = some (.str (b!"${" ++ k ++ b!"}"))) ∧
    ∃ a, Config.parseSingle re pool (some c) = some a ∧ Spec.valueAt a p = some v := by
  refine ⟨?_, _, rfl, (agent_placeholders re pool c p).1 k v hp hk hb hv⟩
  obtain ⟨⟨pre, c', ⟨rest, hpre⟩, h0, h1, x, hx, e1, _⟩, _⟩ := client_context_once w ops f (some c) n h
  refine ⟨x, hx, ?_⟩
  -- the context was made by this call
  have : rest = [] := by
    rcases List.eq_nil_or_concat rest with h | ⟨r, a, rfl⟩
    · exact h
    · rw [List.concat_eq_append, ← List.append_assoc] at hpre
      exact absurd h1 (hno pre _ ⟨r, (List.append_inj' hpre rfl).1⟩ n)
  subst this
  rw [List.append_nil] at hpre
  have := (List.append_inj' hpre rfl).2
  cases this
  rw [e1]; exact hp

/-! ## C105: starting a client context -/

/-- What holds of the clients: the client of a key is for the reference of this key and has a cluster of its own. -/
structure ClientsOk (s : Context.St) : Prop where
  own : ∀ (n : Nat) (x : Ctx) k u i, s.ctxs[n]? = some x → AMap.load x.clients k = some (u, i) →
    (k, u) ∈ x.refers ∧ s.clusters[i]? = some u
  one : ∀ (n : Nat) (x : Ctx) k u i (n' : Nat) (x' : Ctx) k' u', s.ctxs[n]? = some x → AMap.load x.clients k = some (u, i) →
    s.ctxs[n']? = some x' → AMap.load x'.clients k' = some (u', i) → n = n' ∧ k = k'

theorem ClientsOk.lt {s : Context.St} (h : ClientsOk s) {n : Nat} {x : Ctx} {k : Bytes} {u : URL} {i : Nat} (hx : s.ctxs[n]? = some x)
    (hl : AMap.load x.clients k = some (u, i)) : i < s.clusters.length :=
  (List.getElem?_eq_some_iff.mp (h.own n x k u i hx hl).2).1

/-- One turn of the loop. -/
theorem clientsOk_turn {s : Context.St} (h : ClientsOk s) (n : Nat) (x : Ctx) (hx : s.ctxs[n]? = some x) (k : Bytes) (u : URL)
    (hm : (k, u) ∈ x.refers) :
    ClientsOk { s with
      ctxs := s.ctxs.modify n fun x => { x with clients := AMap.store x.clients k (u, s.clusters.length) }
      clusters := s.clusters ++ [u] } := by
  -- a client afterwards is the new one or was there before
  have key : ∀ (m : Nat) (y : Ctx) k' u' i,
      (s.ctxs.modify n fun x => { x with clients := AMap.store x.clients k (u, s.clusters.length) })[m]? = some y →
      AMap.load y.clients k' = some (u', i) →
      (m = n ∧ k' = k ∧ u' = u ∧ i = s.clusters.length ∧ y.refers = x.refers) ∨
      (∃ y', s.ctxs[m]? = some y' ∧ y'.refers = y.refers ∧ AMap.load y'.clients k' = some (u', i)) := by
    intro m y k' u' i hy hl
    rw [List.getElem?_modify] at hy
    by_cases hmn : n = m
    · subst hmn
      rw [hx] at hy; simp at hy; subst hy
      by_cases hk : k = k'
      · subst hk; rw [AMap.load_store_self] at hl; cases hl; exact .inl ⟨rfl, rfl, rfl, rfl, rfl⟩
      · rw [AMap.load_store_ne _ _ hk] at hl; exact .inr ⟨x, hx, rfl, hl⟩
    · cases hm' : s.ctxs[m]? with
      | none => rw [hm'] at hy; cases hy
      | some y' => rw [hm'] at hy; simp [hmn] at hy; subst hy; exact .inr ⟨_, rfl, rfl, hl⟩
  refine ⟨fun m y k' u' i hy hl => ?_, fun m y k' u' i m' y' k'' u'' hy hl hy' hl' => ?_⟩
  · rcases key m y k' u' i hy hl with ⟨_, rfl, rfl, rfl, hr⟩ | ⟨y', hy', hr, hl'⟩
    · rw [hr]; exact ⟨hm, by simp⟩
    · have := h.own m y' k' u' i hy' hl'
      exact ⟨hr ▸ this.1, by rw [List.getElem?_append_left (h.lt hy' hl')]; exact this.2⟩
  · rcases key m y k' u' i hy hl with ⟨e1, e2, _, e3, _⟩ | ⟨z, hz, _, hz'⟩ <;>
      rcases key m' y' k'' u'' i hy' hl' with ⟨f1, f2, _, f3, _⟩ | ⟨z', hw, _, hw'⟩
    · exact ⟨e1.trans f1.symm, e2.trans f2.symm⟩
    · have := h.lt hw hw'; omega
    · have := h.lt hz hz'; omega
    · exact h.one m z k' u' i m' z' k'' u'' hz hz' hw hw'

theorem clientsOk_loop (l : List (Bytes × URL)) {s : Context.St} (h : ClientsOk s) (n : Nat) (x : Ctx) (hx : s.ctxs[n]? = some x)
    (hl : ∀ p ∈ l, p ∈ x.refers) : ClientsOk (startLoop s n l) := by
  induction l generalizing s x with
  | nil => exact h
  | cons p r ih =>
    obtain ⟨k, u⟩ := p
    rw [startLoop]
    refine ih (clientsOk_turn h n x hx k u (hl _ List.mem_cons_self))
      { x with clients := AMap.store x.clients k (u, s.clusters.length) } ?_ fun p hp => hl p (List.mem_cons_of_mem _ hp)
    simp [List.getElem?_modify, hx]

theorem clientsOk_add {s s' : Context.St} (h : ClientsOk s) {x : Ctx} (hx : x.clients = []) (h1 : s'.ctxs = s.ctxs ++ [x])
    (h2 : s'.clusters = s.clusters) : ClientsOk s' := by
  have key : ∀ (m : Nat) (y : Ctx) k p, s'.ctxs[m]? = some y → AMap.load y.clients k = some p → s.ctxs[m]? = some y := by
    intro m y k p hy hl
    rw [h1] at hy
    rcases Nat.lt_trichotomy m s.ctxs.length with hm | hm | hm
    · rwa [List.getElem?_append_left hm] at hy
    · rw [List.getElem?_append_right (by omega), hm] at hy; simp at hy; subst hy; rw [hx] at hl; cases hl
    · rw [List.getElem?_append_right (by omega), List.getElem?_eq_none (by simp; omega)] at hy; cases hy
  refine ⟨fun m y k u i hy hl => ?_, fun m y k u i m' y' k' u' hy hl hy' hl' => ?_⟩
  · rw [h2]; exact h.own m y k u i (key m y k _ hy hl) hl
  · exact h.one m y k u i m' y' k' u' (key m y k _ hy hl) hl (key m' y' k' _ hy' hl') hl'

theorem clientsOk_step (w : World) {s : Context.St} (h : ClientsOk s) (o : Context.Op) : ClientsOk (Context.step w s o) := by
  have hsame : ∀ t, ClientsOk { s with switchers := t } := fun t => ⟨h.own, h.one⟩
  cases o with
  | client f o =>
    rw [show Context.step w s (.client f o) = (getClientContext w s f o).2 from rfl]
    rcases getClientContext_cases w s f o with ⟨n, _, e⟩ | ⟨hn, ⟨_, e⟩ | ⟨c, x, _, hx, e⟩ | ⟨c, _, _, e⟩⟩ <;> rw [e]
    · exact h
    · exact h
    · exact clientsOk_add h (newContext_some hx).2.2 rfl rfl
    · exact hsame _
  | server f o =>
    rw [show Context.step w s (.server f o) = (getServerContext w s f o).2 from rfl]
    rcases getServerContext_cases w s f o with ⟨_, e⟩ | ⟨c, n, _, _, e⟩ | ⟨hn, ⟨c, x, _, hx, e⟩ | ⟨c, _, _, e⟩⟩ <;> rw [e]
    · exact h
    · exact h
    · exact clientsOk_add h (newContext_some hx).2.2 rfl rfl
    · exact hsame _
  | start n =>
    rw [show Context.step w s (.start n) = Context.start s n from rfl, Context.start]
    split
    · exact h
    · rename_i x hx; exact clientsOk_loop _ h n x hx fun _ hp => hp

theorem clientsOk_run (w : World) (ops : List Context.Op) : ClientsOk (Context.run w ops) := by
  have : ∀ (ops : List Context.Op) s, ClientsOk s → ClientsOk (ops.foldl (Context.step w) s) := by
    intro ops
    induction ops with
    | nil => exact fun _ h => h
    | cons o r ih => exact fun s h => ih _ (clientsOk_step w h o)
  exact this ops {} ⟨fun _ _ _ _ _ h => by (cases h), fun _ _ _ _ _ _ _ _ _ h => by (cases h)⟩

/-- The clients after the loop: new for the references it went over, the others as they were. -/
theorem getClient_loop (l : List (Bytes × URL)) (hn : AMap.NodupKeys (l : AMap Bytes URL)) (s : Context.St) (n : Nat) (hlt : n < s.ctxs.length)
    (k : Bytes) :
    (∀ u, (k, u) ∈ l → ∃ i, getClient (startLoop s n l) n k = some (u, i) ∧ s.clusters.length ≤ i) ∧
    ((∀ u, (k, u) ∉ l) → getClient (startLoop s n l) n k = getClient s n k) := by
  induction l generalizing s with
  | nil => exact ⟨fun _ h => by (cases h), fun _ => rfl⟩
  | cons p r ih =>
    obtain ⟨k', u'⟩ := p
    rw [startLoop]
    have hn' : AMap.NodupKeys (r : AMap Bytes URL) := (List.nodup_cons.mp hn).2
    have hk' : k' ∉ AMap.keys (r : AMap Bytes URL) := (List.nodup_cons.mp hn).1
    have ih := ih hn' { s with
      ctxs := s.ctxs.modify n fun x => { x with clients := AMap.store x.clients k' (u', s.clusters.length) }
      clusters := s.clusters ++ [u'] } (by simpa using hlt)
    obtain ⟨x, hx⟩ : ∃ x, s.ctxs[n]? = some x := ⟨_, List.getElem?_eq_getElem hlt⟩
    have hg : ∀ k, getClient { s with
        ctxs := s.ctxs.modify n fun x => { x with clients := AMap.store x.clients k' (u', s.clusters.length) }
        clusters := s.clusters ++ [u'] } n k = if k' = k then some (u', s.clusters.length) else getClient s n k := by
      intro k
      simp only [getClient, List.getElem?_modify, hx]
      by_cases e : k' = k
      · subst e; simp
      · simp [e, AMap.load_store_ne _ _ e]
    constructor
    · intro u hu
      rcases List.mem_cons.mp hu with e | hu
      · cases e
        refine ⟨s.clusters.length, ?_, Nat.le_refl _⟩
        rw [ih.2 fun u hu => hk' (List.mem_map.mpr ⟨_, hu, rfl⟩), hg, if_pos rfl]
      · obtain ⟨i, h1, h2⟩ := ih.1 u hu
        refine ⟨i, h1, ?_⟩
        simp at h2; omega
    · intro hno
      rw [ih.2 fun u hu => hno u (List.mem_cons_of_mem _ hu), hg, if_neg fun (e : k' = k) => hno u' (by rw [← e]; exact List.mem_cons_self)]

/-- C105: once its context is started there is a client for every reference of the configuration, and for nothing else; it is a client of
this reference, and its cluster is new and no other client's. -/
theorem started_clients (w : World) (ops : List Context.Op) (n : Nat) (x : Ctx) (hx : (Context.run w ops).ctxs[n]? = some x)
    (hn : x.refers.NodupKeys) :
    (∀ k u, AMap.load x.refers k = some u → ∃ i, getClient (Context.run w (ops ++ [.start n])) n k = some (u, i) ∧
      (Context.run w ops).clusters.length ≤ i ∧ (Context.run w (ops ++ [.start n])).clusters[i]? = some u ∧
      ∀ n' k' u', getClient (Context.run w (ops ++ [.start n])) n' k' = some (u', i) → n' = n ∧ k' = k) ∧
    (∀ k, AMap.load x.refers k = none → getClient (Context.run w (ops ++ [.start n])) n k = none) ∧
    ∀ n' k, n' ≠ n → getClient (Context.run w (ops ++ [.start n])) n' k = getClient (Context.run w ops) n' k := by
  have hs : Context.run w (ops ++ [.start n]) = startLoop (Context.run w ops) n x.refers := by
    rw [ctxRun_snoc]
    show Context.start _ n = _
    rw [Context.start, hx]
  have hok := clientsOk_run w (ops ++ [.start n])
  have hlt : n < (Context.run w ops).ctxs.length := (List.getElem?_eq_some_iff.mp hx).1
  have hloop := fun k => getClient_loop x.refers hn (Context.run w ops) n hlt k
  have hof : ∀ (s : Context.St) m k (p : URL × Nat), getClient s m k = some p →
      ∃ y, s.ctxs[m]? = some y ∧ AMap.load y.clients k = some p := by
    intro s m k p h
    rw [getClient] at h
    cases hy : s.ctxs[m]? with
    | none => rw [hy] at h; cases h
    | some y => rw [hy] at h; exact ⟨y, rfl, h⟩
  refine ⟨fun k u hu => ?_, fun k hk => ?_, fun n' k hne => ?_⟩
  · obtain ⟨i, h1, h2⟩ := (hloop k).1 u (AMap.mem_of_load hu)
    rw [← hs] at h1
    obtain ⟨y, hy, hl⟩ := hof _ _ _ _ h1
    refine ⟨i, h1, h2, (hok.own n y k u i hy hl).2, fun n' k' u' h' => ?_⟩
    obtain ⟨y', hy', hl'⟩ := hof _ _ _ _ h'
    have := hok.one n y k u i n' y' k' u' hy hl hy' hl'
    exact ⟨this.1.symm, this.2.symm⟩
  · rw [hs, (hloop k).2 fun u hu => by rw [AMap.load_of_mem hn hu] at hk; cases hk]
    cases hg : getClient (Context.run w ops) n k with
    | none => rfl
    | some p =>
      obtain ⟨y, hy, hl⟩ := hof _ _ _ _ hg
      rw [hx] at hy; cases hy
      have := ((clientsOk_run w ops).own n x k p.1 p.2 hx hl).1
      rw [AMap.load_of_mem hn this] at hk; cases hk
  · rw [hs, getClient, getClient, (startLoop_spec (Context.run w ops) n x.refers).2.2.2.2.2.1 n' hne]

/-- C105: before its context is started there is no client. -/
theorem clients_after_start (w : World) (ops : List Context.Op) (n : Nat) (hno : Context.Op.start n ∉ ops) (k : Bytes) :
    getClient (Context.run w ops) n k = none := by
  suffices h : ∀ (x : Ctx), (Context.run w ops).ctxs[n]? = some x → x.clients = [] by
    rw [getClient]
    cases hx : (Context.run w ops).ctxs[n]? with
    | none => rfl
    | some x => show AMap.load x.clients k = none; rw [h x hx]; rfl
  rw [← List.reverse_reverse ops]
  rw [← List.mem_reverse] at hno
  generalize ops.reverse = l at hno ⊢
  induction l with
  | nil => intro x h; cases h
  | cons o r ih =>
    have ih := ih fun h => hno (List.mem_cons_of_mem _ h)
    rw [List.reverse_cons, ctxRun_snoc]
    have hadd : ∀ y : Ctx, y.clients = [] → ∀ x : Ctx, ((Context.run w r.reverse).ctxs ++ [y])[n]? = some x → x.clients = [] := by
      intro y hy x hx
      rcases Nat.lt_or_ge n (Context.run w r.reverse).ctxs.length with hm | hm
      · rw [List.getElem?_append_left hm] at hx; exact ih x hx
      · rw [List.getElem?_append_right hm] at hx
        have := List.mem_of_getElem? hx
        simp at this; rw [this]; exact hy
    cases o with
    | client f o =>
      rw [show Context.step w (Context.run w r.reverse) (.client f o) = (getClientContext w (Context.run w r.reverse) f o).2 from rfl]
      rcases getClientContext_cases w (Context.run w r.reverse) f o with ⟨m, _, e⟩ | ⟨_, ⟨_, e⟩ | ⟨c, y, _, hy, e⟩ | ⟨c, _, _, e⟩⟩ <;> rw [e]
      · exact ih
      · exact ih
      · exact hadd y (newContext_some hy).2.2
      · exact ih
    | server f o =>
      rw [show Context.step w (Context.run w r.reverse) (.server f o) = (getServerContext w (Context.run w r.reverse) f o).2 from rfl]
      rcases getServerContext_cases w (Context.run w r.reverse) f o with ⟨_, e⟩ | ⟨c, m, _, _, e⟩ | ⟨_, ⟨c, y, _, hy, e⟩ | ⟨c, _, _, e⟩⟩ <;> rw [e]
      · exact ih
      · exact ih
      · exact hadd y (newContext_some hy).2.2
      · exact ih
    | start m =>
      have hne : n ≠ m := fun e => hno (by rw [e]; exact List.mem_cons_self)
      show ∀ x, (Context.start (Context.run w r.reverse) m).ctxs[n]? = some x → _
      rw [Context.start]
      split
      · exact ih
      · rename_i y _
        rw [(startLoop_spec (Context.run w r.reverse) m y.refers).2.2.2.2.2.1 n hne]; exact ih

/-- C105, violated: starting a context again makes a second cluster for every reference; the first ones are still there, and no client has them. -/
theorem start_again_violated (w : World) (ops : List Context.Op) (n : Nat) (x : Ctx) (hx : (Context.run w ops).ctxs[n]? = some x)
    (hn : x.refers.NodupKeys) (k : Bytes) (u : URL) (i : Nat) (hg : getClient (Context.run w ops) n k = some (u, i)) :
    (Context.run w (ops ++ [.start n])).clusters[i]? = some u ∧
    (∀ n' k' u', getClient (Context.run w (ops ++ [.start n])) n' k' ≠ some (u', i)) ∧
    (Context.run w (ops ++ [.start n])).clusters.length = (Context.run w ops).clusters.length + x.refers.length := by
  have hs : Context.run w (ops ++ [.start n]) = startLoop (Context.run w ops) n x.refers := by
    rw [ctxRun_snoc]
    show Context.start _ n = _
    rw [Context.start, hx]
  have hl : AMap.load x.clients k = some (u, i) := by rw [getClient, hx] at hg; exact hg
  have hok := clientsOk_run w ops
  have hi := hok.lt hx hl
  have hcl := (startLoop_spec (Context.run w ops) n x.refers).2.2.2.2.1
  have hst := started_clients w ops n x hx hn
  refine ⟨?_, fun n' k' u' h' => ?_, ?_⟩
  · rw [hs, hcl, List.getElem?_append_left hi]; exact (hok.own n x k u i hx hl).2
  · by_cases hne : n' = n
    · subst hne
      cases hr : AMap.load x.refers k' with
      | none => rw [hst.2.1 k' hr] at h'; cases h'
      | some v =>
        obtain ⟨j, h1, h2, _⟩ := hst.1 k' v hr
        rw [h1] at h'; cases h'; omega
    · rw [hst.2.2 n' k' hne] at h'
      rw [getClient] at h'
      cases hy : (Context.run w ops).ctxs[n']? with
      | none => rw [hy] at h'; cases h'
      | some y => rw [hy] at h'; exact hne (hok.one n x k u i n' y k' u' hx hl hy h').1.symm
  · rw [hs, hcl]; simp

/-! ## C105: switchers of the configuration -/

/-- The value the file gives to a switcher: that of the section `switchers`, if all its values are booleans or nothing (which is false);
otherwise that of the section `switcher`. -/
def Spec.Switch (c : Conf) (name : Bytes) (b : Bool) : Prop :=
  let inFirst := fun b => ∃ m v, AMap.load c b!"switchers" = some (.map m) ∧ (∀ p ∈ m, p.2 = .nil ∨ p.2 = .other b!"true" ∨ p.2 = .other b!"false") ∧
    AMap.load m name = some v ∧ (v = .other b!"true" ∧ b = true ∨ (v = .other b!"false" ∨ v = .nil) ∧ b = false)
  inFirst b ∨ (∀ b', ¬ inFirst b') ∧ ∃ m, AMap.load c b!"switcher" = some (.map m) ∧
    (AMap.load m name = some (.other b!"true") ∧ b = true ∨ AMap.load m name = some (.other b!"false") ∧ b = false)

theorem load_register (t : AMap Bytes Bool) (n name : Bytes) (v : Bool) (h : name ≠ []) :
    AMap.load (register t n v) name = (AMap.load t name).or (if n = name then some v else none) := by
  rw [register]
  by_cases hn : n = []
  · rw [if_pos hn, if_neg (fun (e : n = name) => h (e ▸ hn))]; simp
  · rw [if_neg hn]
    by_cases e : n = name
    · subst e
      cases hl : AMap.load t n with
      | none => simp
      | some b => simp [hl]
    · rw [if_neg e]
      split
      · simp
      · rw [AMap.load_store_ne _ _ e]; simp

theorem load_foldl_register (g : V → Bool) (l : List (Bytes × V)) (t : AMap Bytes Bool) (name : Bytes) (h : name ≠ []) :
    AMap.load (l.foldl (fun t p => register t p.1 (g p.2)) t) name = (AMap.load t name).or ((AMap.load (l : AMap Bytes V) name).map g) := by
  induction l generalizing t with
  | nil => rw [List.foldl_nil]; show _ = (AMap.load t name).or (Option.map g (AMap.load ([] : AMap Bytes V) name)); simp [AMap.load]
  | cons p r ih =>
    obtain ⟨k, v⟩ := p
    rw [List.foldl_cons, ih, load_register _ _ _ _ h, AMap.load_cons]
    by_cases e : k = name
    · rw [if_pos e, if_pos e]; cases AMap.load t name <;> rfl
    · rw [if_neg e, if_neg e]; simp

theorem registerSwitchers_all (l : List (Bytes × V)) (t : AMap Bytes Bool) (h : (registerSwitchers t l).2 = true) :
    (registerSwitchers t l).1 = l.foldl (fun t p => register t p.1 ((asBool p.2).getD false)) t := by
  induction l generalizing t with
  | nil => rfl
  | cons p r ih =>
    obtain ⟨k, v⟩ := p
    rw [registerSwitchers] at h ⊢
    cases hv : asBool v with
    | none => rw [hv] at h; cases h
    | some b => rw [hv] at h; simp only [List.foldl_cons, hv]; exact ih _ h

theorem decodeBool_some {v : V} : (decodeBool v).isSome = true ↔ v = .nil ∨ v = .other b!"true" ∨ v = .other b!"false" := by
  rw [← asBool_some]
  cases v <;> simp [decodeBool, asBool]

theorem asBool_eq {v : V} {b : Bool} : asBool v = some b ↔ v = .other b!"true" ∧ b = true ∨ v = .other b!"false" ∧ b = false := by
  cases v with
  | other s =>
    rw [asBool]
    by_cases h1 : s = b!"true"
    · subst h1; cases b <;> simp
    · by_cases h2 : s = b!"false"
      · subst h2; cases b <;> simp
      · simp [h1, h2]
  | _ => simp [asBool]

theorem decodeBool_eq {v : V} {b : Bool} : decodeBool v = some b ↔
    v = .other b!"true" ∧ b = true ∨ (v = .other b!"false" ∨ v = .nil) ∧ b = false := by
  cases v with
  | nil => cases b <;> simp [decodeBool]
  | other s => rw [show decodeBool (.other s) = asBool (.other s) from rfl, asBool_eq]; simp
  | _ => simp [decodeBool, asBool]

theorem newContext_switchers {w : World} {t : AMap Bytes Bool} {sect : Bytes} {c : Conf} {x : Ctx}
    (h : (newContext w t sect c).1 = some x) (name : Bytes) (hne : name ≠ []) :
    (∀ b, AMap.load t name = some b → AMap.load (newContext w t sect c).2 name = some b) ∧
    (AMap.load t name = none → ∀ b, AMap.load (newContext w t sect c).2 name = some b ↔ Spec.Switch c name b) := by
  have hu := (newContext_iff w t sect c).mp ⟨x, h⟩
  obtain ⟨⟨rs, hr⟩, hlog, hb⟩ := hu
  have hlog := (logOk_iff c sect).mpr hlog
  have hall := (bools_iff c _).mp hb
  have hok := (registerSwitchers_ok (initSwitcher t c) (sectionOf c b!"switcher")).mpr hall
  have e : (newContext w t sect c).2 = (registerSwitchers (initSwitcher t c) (sectionOf c b!"switcher")).1 := by
    rw [newContext, hr]; dsimp only; rw [if_pos hlog]
    cases hs : registerSwitchers (initSwitcher t c) (sectionOf c b!"switcher") with
    | mk t2 b => rw [hs] at hok; simp only at hok; subst hok; rfl
  rw [e, registerSwitchers_all _ _ hok, load_foldl_register (fun v => (asBool v).getD false) _ _ _ hne]
  -- the first section
  have hfirst : AMap.load (initSwitcher t c) name = (AMap.load t name).or
      (if (sectionOf c b!"switchers").all (fun p => (decodeBool p.2).isSome) then
        (AMap.load (sectionOf c b!"switchers" : AMap Bytes V) name).map fun v => (decodeBool v).getD false else none) := by
    rw [initSwitcher]
    split
    · exact load_foldl_register (fun v => (decodeBool v).getD false) _ _ _ hne
    · simp
  rw [hfirst]
  constructor
  · intro b hb; rw [hb]; rfl
  · intro h0 b
    rw [h0, Option.none_or]
    have h1 : ∀ b, (if (sectionOf c b!"switchers").all (fun p => (decodeBool p.2).isSome) then
        (AMap.load (sectionOf c b!"switchers" : AMap Bytes V) name).map fun v => (decodeBool v).getD false else none) = some b ↔
        ∃ m v, AMap.load c b!"switchers" = some (.map m) ∧ (∀ p ∈ m, p.2 = .nil ∨ p.2 = .other b!"true" ∨ p.2 = .other b!"false") ∧
          AMap.load m name = some v ∧ (v = .other b!"true" ∧ b = true ∨ (v = .other b!"false" ∨ v = .nil) ∧ b = false) := by
      intro b
      rw [sectionOf]
      split
      · rename_i m hm
        constructor
        · intro hh
          split at hh
          · rename_i ha
            rw [List.all_eq_true] at ha
            cases hv : AMap.load (m : AMap Bytes V) name with
            | none => rw [hv] at hh; cases hh
            | some v =>
              rw [hv] at hh
              refine ⟨m, v, hm, fun p hp => decodeBool_some.mp (ha p hp), hv, decodeBool_eq.mp ?_⟩
              have := ha _ (AMap.mem_of_load hv)
              obtain ⟨y, hy⟩ := Option.isSome_iff_exists.mp this
              simp only [Option.map_some, hy, Option.getD_some] at hh
              rw [hy]; exact hh
          · cases hh
        · rintro ⟨m', v, hm', ha, hv, hb⟩
          rw [hm] at hm'; cases hm'
          rw [if_pos (List.all_eq_true.mpr fun p hp => decodeBool_some.mpr (ha p hp)), hv]
          rw [← decodeBool_eq] at hb
          simp [hb]
      · rename_i hno
        constructor
        · intro hh; split at hh <;> cases hh
        · rintro ⟨m, _, hm, _⟩; exact absurd hm (hno m)
    have h2 : ((AMap.load (sectionOf c b!"switcher" : AMap Bytes V) name).map fun v => (asBool v).getD false) = some b ↔
        ∃ m, AMap.load c b!"switcher" = some (.map m) ∧
          (AMap.load m name = some (.other b!"true") ∧ b = true ∨ AMap.load m name = some (.other b!"false") ∧ b = false) := by
      revert hall
      rw [sectionOf]
      split
      · rename_i m hm
        intro hall
        constructor
        · intro hh
          cases hv : AMap.load (m : AMap Bytes V) name with
          | none => rw [hv] at hh; cases hh
          | some v =>
            rw [hv] at hh
            obtain ⟨y, hy⟩ := Option.isSome_iff_exists.mp (hall _ (AMap.mem_of_load hv))
            simp only [Option.map_some, hy, Option.getD_some, Option.some.injEq] at hh
            subst hh
            refine ⟨m, hm, ?_⟩
            rw [hv]
            rcases asBool_eq.mp hy with ⟨e1, e2⟩ | ⟨e1, e2⟩
            · exact .inl ⟨by rw [show v = _ from e1], e2⟩
            · exact .inr ⟨by rw [show v = _ from e1], e2⟩
        · rintro ⟨m', hm', hb⟩
          rw [hm] at hm'; cases hm'
          rcases hb with ⟨hv, rfl⟩ | ⟨hv, rfl⟩ <;> rw [hv] <;> rfl
      · rename_i hno
        intro _
        constructor
        · intro hh; cases hh
        · rintro ⟨m, hm, _⟩; exact absurd hm (hno m)
    rw [Spec.Switch]
    simp only
    rw [← h1 b]
    simp only [← h1]
    cases hq : (if (sectionOf c b!"switchers").all (fun p => (decodeBool p.2).isSome) then
        (AMap.load (sectionOf c b!"switchers" : AMap Bytes V) name).map fun v => (decodeBool v).getD false else none) with
    | some y => simp
    | none => rw [Option.none_or, h2]; simp

/-- C105: a new context gives its switchers the values of its file, but those that have one already keep it. -/
theorem context_switchers (w : World) (ops : List Context.Op) (f : Bytes) (c : Conf) (n : Nat) (name : Bytes) (hne : name ≠ []) :
    (Spec.NoClientYet w ops f → (getClientContext w (Context.run w ops) f (some c)).1 = .ctx n →
      (∀ b, AMap.load (Context.run w ops).switchers name = some b →
        AMap.load (Context.run w (ops ++ [.client f (some c)])).switchers name = some b) ∧
      (AMap.load (Context.run w ops).switchers name = none →
        ∀ b, AMap.load (Context.run w (ops ++ [.client f (some c)])).switchers name = some b ↔ Spec.Switch c name b)) ∧
    (Spec.NoServerYet w ops f → (getServerContext w (Context.run w ops) f (some c)).1 = .ctx n →
      (∀ b, AMap.load (Context.run w ops).switchers name = some b →
        AMap.load (Context.run w (ops ++ [.server f (some c)])).switchers name = some b) ∧
      (AMap.load (Context.run w ops).switchers name = none →
        ∀ b, AMap.load (Context.run w (ops ++ [.server f (some c)])).switchers name = some b ↔ Spec.Switch c name b)) := by
  constructor
  · intro hno h
    have h0 := (no_client_yet_iff w ops f).mp hno
    rw [ctxRun_snoc, show Context.step w (Context.run w ops) (.client f (some c)) = (getClientContext w (Context.run w ops) f (some c)).2 from rfl]
    rcases getClientContext_cases w (Context.run w ops) f (some c) with ⟨m, hm, _⟩ | ⟨_, ⟨e, _⟩ | ⟨c', x, e, hx, e'⟩ | ⟨c', _, _, e⟩⟩
    · rw [h0] at hm; cases hm
    · cases e
    · cases e; rw [e']; exact newContext_switchers hx name hne
    · rw [e] at h; cases h
  · intro hno h
    have h0 := (no_server_yet_iff w ops f).mp hno
    rw [ctxRun_snoc, show Context.step w (Context.run w ops) (.server f (some c)) = (getServerContext w (Context.run w ops) f (some c)).2 from rfl]
    rcases getServerContext_cases w (Context.run w ops) f (some c) with ⟨e, _⟩ | ⟨_, m, _, hm, _⟩ | ⟨_, ⟨c', x, e, hx, e'⟩ | ⟨c', _, _, e⟩⟩
    · cases e
    · rw [h0] at hm; cases hm
    · cases e; rw [e']; exact newContext_switchers hx name hne
    · rw [e] at h; cases h

/-! ## C105: examples and what goes wrong -/

/-- One reference in every configuration. -/
def exWorld : World := { refers := fun _ => some [(b!"a", { group := b!"g", path := b!"svc" })] }

/-- A file of a client with a placeholder, options of the log and two switchers. -/
def exClientConf : Conf :=
  [(b!"motan-client", .map [(b!"log_dir", .str b!"./logs"), (b!"log_async", .other b!"true"), (b!"log_buffer_size", .other b!"100")]),
   (b!"dynamic-param", .map [(b!"zk", .str b!"10.0.0.1:2181")]),
   (b!"motan-registry", .map [(b!"main", .map [(b!"host", .str b!"${zk}")])]),
   (b!"switchers", .map [(b!"s1", .other b!"true")]),
   (b!"switcher", .map [(b!"s1", .other b!"false"), (b!"s2", .other b!"false")])]

example : (getClientContext exWorld {} b!"a.yaml" (some exClientConf)).1 = .ctx 0 ∧
    (Context.run exWorld [.client b!"a.yaml" (some exClientConf)]).switchers = [(b!"s1", true), (b!"s2", false)] ∧
    (getClientContext exWorld (Context.run exWorld [.client b!"a.yaml" (some exClientConf)]) b!"a.yaml" none).1 = .ctx 0 ∧
    (getServerContext exWorld (Context.run exWorld [.client b!"a.yaml" (some exClientConf)]) b!"a.yaml" (some exClientConf)).1 = .ctx 1 ∧
    (getClient (Context.run exWorld [.client b!"a.yaml" (some exClientConf)]) 0 b!"a") = none ∧
    (getClient (Context.run exWorld [.client b!"a.yaml" (some exClientConf), .start 0]) 0 b!"a").map (·.2) = some 0 ∧
    (getClient (Context.run exWorld [.client b!"a.yaml" (some exClientConf), .start 0, .start 0]) 0 b!"a").map (·.2) = some 1 ∧
    (Context.run exWorld [.client b!"a.yaml" (some exClientConf), .start 0, .start 0]).clusters.length = 2 := by
  refine ⟨?_, ?_, ?_, ?_, ?_, ?_, ?_, ?_⟩ <;> decide +kernel

example : Spec.ParamIs (fun _ _ => none) [] exClientConf b!"zk" (.str b!"10.0.0.1:2181") ∧
    Spec.valueAt exClientConf [b!"motan-registry", b!"main", b!"host"] = some (.str (b!"${" ++ b!"zk" ++ b!"}")) :=
  ⟨⟨_, _, rfl, rfl, rfl⟩, rfl⟩

/-- C105, violated: one switcher of `switcher` that is no boolean makes the call panic; one of `switchers` takes all the others away, without a
word. -/
theorem switcher_types_violated :
    (getClientContext exWorld {} b!"a.yaml" (some [(b!"switcher", .map [(b!"s1", .other b!"true"), (b!"s2", .str b!"on")])])).1 = .panic ∧
    (getClientContext exWorld {} b!"a.yaml" (some [(b!"switchers", .map [(b!"s1", .other b!"true"), (b!"s2", .str b!"on")])])).1 = .ctx 0 ∧
    (Context.run exWorld [.client b!"a.yaml" (some [(b!"switchers", .map [(b!"s1", .other b!"true"), (b!"s2", .str b!"on")])])]).switchers = [] := by
  refine ⟨?_, ?_, ?_⟩ <;> decide +kernel

end Motan.Props
