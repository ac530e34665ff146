import Verif.Model.Ext
import Verif.Props.Dynamic

/-!
# C95: the extension factory

A look-up gives the extension registered last under the name the URL asks for, for every history of registrations. A
registry is made once for each identity and shared; the serializations shipped with the library are found under the
number they put into messages.
-/

namespace Motan.Props

open Motan.Strings Motan.Url Ext

/-! ## Specification -/

/-- The last registration of an extension of the kind under the name is that of `c`. -/
def Spec.ExtRegistered (h : List Op) (k : Ext.Kind) (name : Bytes) (c : Ctor) : Prop :=
  ∃ pre post, h = pre ++ .regist k name c :: post ∧ ∀ c', .regist k name c' ∉ post

/-- The last serialization registered under the key, which is its name or its number in decimal, is `c`. -/
def Spec.SerRegistered (h : List Op) (key : Bytes) (c : Ctor) : Prop :=
  ∃ pre post name id, h = pre ++ .registSerialization name id c :: post ∧ (name = key ∨ formatInt id = key) ∧
    ∀ name' id' c', .registSerialization name' id' c' ∈ post → name' ≠ key ∧ formatInt id' ≠ key

/-- What a URL asks for: the value of the parameter unless it is absent or empty. -/
inductive Spec.Asked (u : URL) (key dflt : Bytes) : Bytes → Prop
  | given {v} : u.param key = some v → v ≠ [] → Asked u key dflt v
  | absent : u.param key = none → Asked u key dflt dflt
  | empty : u.param key = some [] → Asked u key dflt dflt

/-- The provider a URL asks for: the one named, else that of the protocol in the proxy
setting `protocol:port` (motan2 if the setting is not of this form), else the default one. -/
inductive Spec.AskedProvider (u : URL) : Bytes → Prop
  | named {v} : u.param b!"provider" = some v → v ≠ [] → AskedProvider u v
  | proxied {x p n} : Spec.Asked u b!"provider" [] [] → u.param b!"proxy" = some x → trimSplit x b!":" = [p, n] →
      AskedProvider u p
  | port {x} : Spec.Asked u b!"provider" [] [] → u.param b!"proxy" = some x → x ≠ [] →
      (∀ p n, trimSplit x b!":" ≠ [p, n]) → AskedProvider u b!"motan2"
  | plain : Spec.Asked u b!"provider" [] [] → Spec.Asked u b!"proxy" [] [] → AskedProvider u b!"default"

/-- The registry `GetRegistry` gives after a history. -/
def Spec.registryAfter (h : List Op) (u : URL) : Option Inst := (step (after h) (.getRegistry u)).2

/-- The identity of a URL. -/
def Spec.idOf (u : URL) : Bytes := (getIdentity u).1

/-! ## Registrations -/

theorem after_snoc (h : List Op) (op : Op) : after (h ++ [op]) = (step (after h) op).1 := by
  simp [after]

theorem ext_snocRec {α : Type} {motive : List α → Prop} (nil : motive [])
    (snoc : ∀ (l : List α) (a : α), motive l → motive (l ++ [a])) (l : List α) : motive l := by
  rw [← List.reverse_reverse l]
  induction l.reverse with
  | nil => exact nil
  | cons a t ih => rw [List.reverse_cons]; exact snoc _ _ ih

/-- The last operation for which `sets` is something. -/
def LastSet (sets : Op → Option Ctor) (h : List Op) (c : Ctor) : Prop :=
  ∃ pre op post, h = pre ++ op :: post ∧ sets op = some c ∧ ∀ o ∈ post, sets o = none

theorem lastSet_nil (sets : Op → Option Ctor) (c : Ctor) : ¬ LastSet sets [] c := by
  rintro ⟨pre, op, post, h, -⟩
  cases pre <;> simp at h

theorem lastSet_snoc (sets : Op → Option Ctor) (h : List Op) (op : Op) (c : Ctor) :
    LastSet sets (h ++ [op]) c ↔ (match sets op with | some c' => c' = c | none => LastSet sets h c) := by
  constructor
  · rintro ⟨pre, o, post, e, ho, hp⟩
    rcases List.eq_nil_or_concat post with rfl | ⟨post, q, rfl⟩
    · have := List.append_inj' e rfl
      cases this.2
      rw [ho]
    · rw [List.concat_eq_append] at e hp
      rw [show pre ++ o :: (post ++ [q]) = (pre ++ o :: post) ++ [q] by simp] at e
      have := List.append_inj' e rfl
      cases this.2
      rw [hp op (by simp)]
      exact ⟨pre, o, post, this.1, ho, fun x hx => hp x (by simp [hx])⟩
  · cases hs : sets op with
    | some c' =>
      rintro rfl
      exact ⟨h, op, [], rfl, hs, by simp⟩
    | none =>
      rintro ⟨pre, o, post, rfl, ho, hp⟩
      refine ⟨pre, o, post ++ [op], by simp, ho, ?_⟩
      intro x hx
      rcases List.mem_append.1 hx with hx | hx
      · exact hp x hx
      · rw [List.mem_singleton.1 hx]; exact hs

/-- The table of a kind. -/
def tab (f : Fac) : Ext.Kind → AMap Bytes Ctor
  | .filter => f.filters
  | .ha => f.has
  | .lb => f.lbs
  | .endpoint => f.endpoints
  | .provider => f.providers
  | .registry => f.registryFactories
  | .server => f.servers
  | .handler => f.messageHandlers

def setsExt (k : Ext.Kind) (name : Bytes) : Op → Option Ctor
  | .regist k' name' c => if k' = k ∧ name' = name then some c else none
  | _ => none

def setsSer (key : Bytes) : Op → Option Ctor
  | .registSerialization name id c => if name = key ∨ formatInt id = key then some c else none
  | _ => none

theorem tab_getRegistry (f : Fac) (u : URL) (k : Ext.Kind) : tab (getRegistry f u).1 k = tab f k := by
  unfold getRegistry
  dsimp only
  split
  · rfl
  · split <;> cases k <;> rfl

theorem ser_getRegistry (f : Fac) (u : URL) : (getRegistry f u).1.serializations = f.serializations := by
  unfold getRegistry
  dsimp only
  split
  · rfl
  · split <;> rfl

theorem tab_regist (f : Fac) (k k' : Ext.Kind) (name : Bytes) (c : Ctor) :
    tab (regist f k' name c) k = if k' = k then (tab f k).store name c else tab f k := by
  cases k' <;> cases k <;> rfl

theorem tab_load (h : List Op) (k : Ext.Kind) (name : Bytes) (c : Ctor) :
    (tab (after h) k).load name = some c ↔ LastSet (setsExt k name) h c := by
  induction h using ext_snocRec with
  | nil =>
    constructor
    · intro h; cases k <;> cases h
    · intro h; exact absurd h (lastSet_nil _ _)
  | snoc h op ih =>
    rw [after_snoc, lastSet_snoc]
    cases op with
    | regist k' n' c' =>
      show (tab (regist _ _ _ _) k).load name = some c ↔ _
      rw [tab_regist, setsExt]
      by_cases hk : k' = k
      · rw [if_pos hk, AMap.load_store]
        by_cases hn : n' = name
        · rw [if_pos hn, if_pos ⟨hk, hn⟩]
          simp
        · rw [if_neg hn, if_neg (fun h => hn h.2)]
          exact ih
      · rw [if_neg hk, if_neg (fun h => hk h.1)]
        exact ih
    | registSerialization n i c' =>
      rw [show tab (step (after h) (.registSerialization n i c')).1 k = tab (after h) k by cases k <;> rfl]
      exact ih
    | getRegistry u =>
      rw [show (step (after h) (.getRegistry u)).1 = (getRegistry (after h) u).1 from rfl, tab_getRegistry]
      exact ih

theorem ser_load (h : List Op) (key : Bytes) (c : Ctor) :
    (after h).serializations.load key = some c ↔ LastSet (setsSer key) h c := by
  induction h using ext_snocRec with
  | nil =>
    constructor
    · intro h; cases h
    · intro h; exact absurd h (lastSet_nil _ _)
  | snoc h op ih =>
    rw [after_snoc, lastSet_snoc]
    cases op with
    | regist k' n' c' =>
      rw [show (step (after h) (.regist k' n' c')).1.serializations = (after h).serializations by cases k' <;> rfl]
      exact ih
    | registSerialization n i c' =>
      show (((after h).serializations.store n c').store (formatInt i) c').load key = some c ↔ _
      rw [AMap.load_store, AMap.load_store, setsSer]
      by_cases h1 : formatInt i = key
      · rw [if_pos h1, if_pos (.inr h1)]; simp
      · rw [if_neg h1]
        by_cases h2 : n = key
        · rw [if_pos h2, if_pos (.inl h2)]; simp
        · rw [if_neg h2, if_neg (by simp [h1, h2])]
          exact ih
    | getRegistry u =>
      rw [show (step (after h) (.getRegistry u)).1 = (getRegistry (after h) u).1 from rfl, ser_getRegistry]
      exact ih

theorem lastSet_ext (h : List Op) (k : Ext.Kind) (name : Bytes) (c : Ctor) :
    LastSet (setsExt k name) h c ↔ Spec.ExtRegistered h k name c := by
  constructor
  · rintro ⟨pre, op, post, rfl, ho, hp⟩
    cases op with
    | regist k' n' c' =>
      rw [setsExt] at ho
      split at ho
      · rename_i hh
        cases ho
        obtain ⟨rfl, rfl⟩ := hh
        refine ⟨pre, post, rfl, fun c' hm => ?_⟩
        have := hp _ hm
        rw [setsExt, if_pos ⟨rfl, rfl⟩] at this
        cases this
      · cases ho
    | registSerialization => cases ho
    | getRegistry => cases ho
  · rintro ⟨pre, post, rfl, hp⟩
    refine ⟨pre, _, post, rfl, by simp [setsExt], fun o ho => ?_⟩
    cases o with
    | regist k' n' c' =>
      rw [setsExt, if_neg]
      rintro ⟨rfl, rfl⟩
      exact hp _ ho
    | registSerialization => rfl
    | getRegistry => rfl

theorem lastSet_ser (h : List Op) (key : Bytes) (c : Ctor) :
    LastSet (setsSer key) h c ↔ Spec.SerRegistered h key c := by
  constructor
  · rintro ⟨pre, op, post, rfl, ho, hp⟩
    cases op with
    | registSerialization n i c' =>
      rw [setsSer] at ho
      split at ho
      · rename_i hh
        cases ho
        refine ⟨pre, post, n, i, rfl, hh, fun n' i' c' hm => ?_⟩
        have := hp _ hm
        rw [setsSer] at this
        split at this
        · cases this
        · rename_i hh'
          exact ⟨fun e => hh' (.inl e), fun e => hh' (.inr e)⟩
      · cases ho
    | regist => cases ho
    | getRegistry => cases ho
  · rintro ⟨pre, post, n, i, rfl, hk, hp⟩
    refine ⟨pre, _, post, rfl, by simp [setsSer, hk], fun o ho => ?_⟩
    cases o with
    | registSerialization n' i' c' =>
      obtain ⟨h1, h2⟩ := hp _ _ _ ho
      rw [setsSer, if_neg (by simp [h1, h2])]
    | regist => rfl
    | getRegistry => rfl

theorem asked_param {u : URL} {key dflt name : Bytes} (h : Spec.Asked u key dflt name) : getParam u key dflt = name := by
  cases h with
  | given h hv => simp [getParam, h, hv]
  | absent h => simp [getParam, h]
  | empty h => simp [getParam, h]

theorem asked_provider {u : URL} {name : Bytes} (h : Spec.AskedProvider u name) : Export.providerName u = name := by
  unfold Export.providerName
  cases h with
  | named h hv =>
    have : getParam u b!"provider" [] = name := by simp [getParam, h, hv]
    simp only [this, if_neg hv]
  | proxied h hx hs =>
    rename_i x n
    have hne : x ≠ [] := by
      rintro rfl
      rw [show trimSplit [] b!":" = [] by decide +kernel] at hs
      cases hs
    have hpx : getParam u b!"proxy" [] = x := by simp [getParam, hx, hne]
    simp only [asked_param h, if_true, hpx, ne_eq, hne, not_false_eq_true, Dynamic.parseExportInfo, hs]
  | port h hx hne hs =>
    rename_i x
    have hpx : getParam u b!"proxy" [] = x := by simp [getParam, hx, hne]
    simp only [asked_param h, if_true, hpx, ne_eq, hne, not_false_eq_true, Dynamic.parseExportInfo]
    split
    · rfl
    · rename_i p n e
      exact absurd e (hs p n)
    · rfl
  | plain h hp => simp only [asked_param h, asked_param hp, if_true, ne_eq, not_true_eq_false, if_false]

/-- Every URL asks for something. -/
theorem asked_total (u : URL) (key dflt : Bytes) : ∃ name, Spec.Asked u key dflt name := by
  cases h : u.param key with
  | none => exact ⟨_, .absent h⟩
  | some v =>
    by_cases hv : v = []
    · subst hv; exact ⟨_, .empty h⟩
    · exact ⟨_, .given h hv⟩

theorem asked_provider_total (u : URL) : ∃ name, Spec.AskedProvider u name := by
  have non : ∀ key, (∃ v, u.param key = some v ∧ v ≠ []) ∨ Spec.Asked u key [] [] := by
    intro key
    obtain ⟨name, h⟩ := asked_total u key []
    cases h with
    | given h hv => exact .inl ⟨_, h, hv⟩
    | absent h => exact .inr (.absent h)
    | empty h => exact .inr (.empty h)
  rcases non b!"provider" with ⟨v, h, hv⟩ | hp
  · exact ⟨v, .named h hv⟩
  · rcases non b!"proxy" with ⟨x, h, hx⟩ | hx
    · by_cases hs : ∃ p n, trimSplit x b!":" = [p, n]
      · obtain ⟨p, n, hs⟩ := hs
        exact ⟨p, .proxied hp h hs⟩
      · exact ⟨_, .port hp h hx (fun p n e => hs ⟨p, n, e⟩)⟩
    · exact ⟨_, .plain hp hx⟩

/-- **C95, look-ups.** After any history, a look-up gives the extension registered last under the name asked for, and nothing
if there is none: the strategy and the load balance named in the URL, or `failover` and `random`; the endpoint and the server
of the URL's protocol, a server without protocol being that of motan2; the provider of the URL; filters and message handlers
by name, blanks around it ignored. -/
theorem ext_lookup (h : List Op) (u : URL) (c : Ctor) :
    (∀ name, Spec.Asked u b!"haStrategy" b!"failover" name → (getHa (after h) u = some c ↔ Spec.ExtRegistered h .ha name c)) ∧
    (∀ name, Spec.Asked u b!"loadbalance" b!"random" name → (getLB (after h) u = some c ↔ Spec.ExtRegistered h .lb name c)) ∧
    (getEndPoint (after h) u = some c ↔ Spec.ExtRegistered h .endpoint u.protocol c) ∧
    (∀ name, Spec.AskedProvider u name → (getProvider (after h) u = some c ↔ Spec.ExtRegistered h .provider name c)) ∧
    (u.protocol ≠ [] → (getServer (after h) u = some c ↔ Spec.ExtRegistered h .server u.protocol c)) ∧
    (u.protocol = [] → (getServer (after h) u = some c ↔ Spec.ExtRegistered h .server b!"motan2" c)) ∧
    (∀ name, getFilter (after h) name = some c ↔ Spec.ExtRegistered h .filter (trimSpace name) c) ∧
    (∀ name, getMessageHandler (after h) name = some c ↔ Spec.ExtRegistered h .handler (trimSpace name) c) := by
  have key : ∀ k name, (tab (after h) k).load name = some c ↔ Spec.ExtRegistered h k name c := fun k name => by
    rw [tab_load, lastSet_ext]
  refine ⟨fun name hn => ?_, fun name hn => ?_, key .endpoint _, fun name hn => ?_, fun hp => ?_, fun hp => ?_,
    fun name => key .filter _, fun name => key .handler _⟩
  · rw [getHa, asked_param hn]; exact key .ha name
  · rw [getLB, asked_param hn]; exact key .lb name
  · rw [getProvider, asked_provider hn]; exact key .provider name
  · rw [getServer, Export.serverName, if_neg hp]; exact key .server _
  · rw [getServer, Export.serverName, if_pos hp]; exact key .server _

/-- **C95, serializations.** A serialization asked for by name is the last one registered under that name, the number being
ignored; without a name it is the last one registered under the number, and none for a negative number. -/
theorem serialization_lookup (h : List Op) (name : Bytes) (id : Int) (c : Ctor) :
    (name ≠ [] → (getSerialization (after h) name id = some c ↔ Spec.SerRegistered h (trimSpace name) c)) ∧
    (name = [] → 0 ≤ id → (getSerialization (after h) name id = some c ↔ Spec.SerRegistered h (formatInt id) c)) ∧
    (name = [] → id < 0 → getSerialization (after h) name id = none) := by
  refine ⟨fun hn => ?_, fun hn hi => ?_, fun hn hi => ?_⟩
  · rw [getSerialization, if_pos hn, ser_load, lastSet_ser]
  · rw [getSerialization, if_neg (by simp [hn]), if_pos (by omega), ser_load, lastSet_ser]
  · rw [getSerialization, if_neg (by simp [hn]), if_neg (by omega)]

/-! ## Registries -/

/-- What holds of the registries at every moment. -/
structure RegInv (f : Fac) : Prop where
  kept : ∀ k r, f.registries.load k = some r → f.made[r.no]? = some r ∧ Spec.idOf r.url = k
  all : ∀ i r, f.made[i]? = some r → r.no = i ∧ f.registries.load (Spec.idOf r.url) = some r

theorem regInv_congr {f g : Fac} (h1 : g.registries = f.registries) (h2 : g.made = f.made) (h : RegInv f) : RegInv g := by
  constructor
  · rw [h1, h2]; exact h.kept
  · rw [h1, h2]; exact h.all

theorem regist_keeps (f : Fac) (k : Ext.Kind) (name : Bytes) (c : Ctor) :
    (regist f k name c).registries = f.registries ∧ (regist f k name c).made = f.made := by
  cases k <;> exact ⟨rfl, rfl⟩

theorem regInv_step (f : Fac) (op : Op) (h : RegInv f) : RegInv (step f op).1 := by
  cases op with
  | regist k n c => exact regInv_congr (regist_keeps f k n c).1 (regist_keeps f k n c).2 h
  | registSerialization n i c =>
    exact regInv_congr (f := f) (g := registSerialization f n i c) rfl rfl h
  | getRegistry u =>
    show RegInv (getRegistry f u).1
    unfold getRegistry
    dsimp only
    split
    · exact h
    · rename_i hnone
      split
      · rename_i c hc
        constructor
        · intro k r hl
          simp only [AMap.load_store] at hl
          split at hl
          · rename_i e
            cases hl
            exact ⟨by simp, e⟩
          · obtain ⟨h1, h2⟩ := h.kept k r hl
            exact ⟨by rw [List.getElem?_append_left (List.getElem?_eq_some_iff.1 h1).1]; exact h1, h2⟩
        · intro i r hi
          simp only [AMap.load_store]
          by_cases hlt : i < f.made.length
          · rw [List.getElem?_append_left hlt] at hi
            obtain ⟨h1, h2⟩ := h.all i r hi
            refine ⟨h1, ?_⟩
            split
            · rename_i e
              rw [← e] at h2
              rw [hnone] at h2
              cases h2
            · exact h2
          · rw [List.getElem?_append_right (by omega)] at hi
            have hi' : i - f.made.length = 0 := by
              have := (List.getElem?_eq_some_iff.1 hi).1
              simp at this; omega
            rw [hi'] at hi
            cases hi
            exact ⟨by simp; omega, if_pos rfl⟩
      · exact h

theorem regInv_after (h : List Op) : RegInv (after h) := by
  induction h using ext_snocRec with
  | nil =>
    constructor
    · intro k r hl; cases hl
    · intro i r hi; simp [after] at hi
  | snoc h op ih => rw [after_snoc]; exact regInv_step _ _ ih

theorem registries_grow (f : Fac) (op : Op) {k : Bytes} {r : Inst} (h : f.registries.load k = some r) :
    (step f op).1.registries.load k = some r := by
  cases op with
  | regist kd n c => rw [show (step f (.regist kd n c)).1.registries = f.registries from (regist_keeps f kd n c).1]; exact h
  | registSerialization n i c => exact h
  | getRegistry u =>
    show (getRegistry f u).1.registries.load k = some r
    unfold getRegistry
    dsimp only
    split
    · exact h
    · rename_i hnone
      split
      · simp only [AMap.load_store]
        split
        · rename_i e
          rw [← e] at h
          rw [hnone] at h
          cases h
        · exact h
      · exact h

theorem registries_grow' (h h2 : List Op) {k : Bytes} {r : Inst} (hl : (after h).registries.load k = some r) :
    (after (h ++ h2)).registries.load k = some r := by
  induction h2 using ext_snocRec with
  | nil => rw [List.append_nil]; exact hl
  | snoc h2 op ih => rw [← List.append_assoc, after_snoc]; exact registries_grow _ _ ih

theorem getRegistry_kept {f : Fac} {u : URL} {r : Inst} (h : (getRegistry f u).2 = some r) :
    (getRegistry f u).1.registries.load (Spec.idOf u) = some r := by
  unfold getRegistry at h ⊢
  dsimp only at h ⊢
  split at h
  · rename_i hl; cases h; exact hl
  · split at h
    · cases h
      exact AMap.load_store_self ..
    · cases h

theorem registryAfter_of_load {h : List Op} {u : URL} {r : Inst} (hl : (after h).registries.load (Spec.idOf u) = some r) :
    Spec.registryAfter h u = some r := by
  show (getRegistry (after h) u).2 = some r
  unfold getRegistry
  dsimp only
  rw [show (after h).registries.load (getIdentity u).1 = some r from hl]

theorem load_after_get {h1 : List Op} {u : URL} {x : Inst} (hu : Spec.registryAfter h1 u = some x) (h2 : List Op) :
    (after (h1 ++ .getRegistry u :: h2)).registries.load (Spec.idOf u) = some x := by
  rw [show h1 ++ .getRegistry u :: h2 = (h1 ++ [.getRegistry u]) ++ h2 by simp]
  refine registries_grow' _ _ ?_
  rw [after_snoc]
  exact getRegistry_kept hu

/-- **C95, one registry.** Once a registry was given for a URL, every later request for a URL of the same identity gives that
same registry, whatever happened in between. -/
theorem registry_shared {h1 : List Op} {u : URL} {x : Inst} (hu : Spec.registryAfter h1 u = some x) (h2 : List Op) {v : URL}
    (hid : Spec.idOf v = Spec.idOf u) : Spec.registryAfter (h1 ++ .getRegistry u :: h2) v = some x :=
  registryAfter_of_load (by rw [hid]; exact load_after_get hu h2)

/-- **C95, different registries.** URLs of different identities never share a registry. -/
theorem registry_apart {h1 : List Op} {u : URL} {x : Inst} (hu : Spec.registryAfter h1 u = some x) (h2 : List Op) {v : URL}
    {y : Inst} (hv : Spec.registryAfter (h1 ++ .getRegistry u :: h2) v = some y) (hid : Spec.idOf v ≠ Spec.idOf u) :
    x.no ≠ y.no := by
  intro e
  have hx : (after (h1 ++ .getRegistry u :: h2 ++ [.getRegistry v])).registries.load (Spec.idOf u) = some x := by
    rw [after_snoc]
    exact registries_grow _ _ (load_after_get hu h2)
  have hy : (after (h1 ++ .getRegistry u :: h2 ++ [.getRegistry v])).registries.load (Spec.idOf v) = some y := by
    rw [after_snoc]
    exact getRegistry_kept hv
  have inv := regInv_after (h1 ++ .getRegistry u :: h2 ++ [.getRegistry v])
  obtain ⟨a1, a2⟩ := inv.kept _ _ hx
  obtain ⟨b1, b2⟩ := inv.kept _ _ hy
  rw [e, b1] at a1
  cases a1
  exact hid (b2.symm.trans a2)

/-- Where a kept registry comes from. -/
theorem registry_origin (h : List Op) {k : Bytes} {x : Inst} (hl : (after h).registries.load k = some x) :
    ∃ pre w post, h = pre ++ .getRegistry w :: post ∧ Spec.idOf w = k ∧ x.url = w ∧
      Spec.ExtRegistered pre .registry w.protocol x.ctor ∧ (after pre).registries.load k = none := by
  induction h using ext_snocRec with
  | nil => cases hl
  | snoc h op ih =>
    rw [after_snoc] at hl
    have old : (after h).registries.load k = some x → ∃ pre w post, h ++ [op] = pre ++ .getRegistry w :: post ∧ Spec.idOf w = k ∧
        x.url = w ∧ Spec.ExtRegistered pre .registry w.protocol x.ctor ∧ (after pre).registries.load k = none := by
      intro hl
      obtain ⟨pre, w, post, rfl, r⟩ := ih hl
      exact ⟨pre, w, post ++ [op], by simp, r⟩
    cases op with
    | regist kd n c => exact old (by rw [← (regist_keeps (after h) kd n c).1]; exact hl)
    | registSerialization n i c => exact old hl
    | getRegistry u =>
      have hl : (getRegistry (after h) u).1.registries.load k = some x := hl
      unfold getRegistry at hl
      dsimp only at hl
      split at hl
      · exact old hl
      · rename_i hnone
        split at hl
        · rename_i c hc
          simp only [AMap.load_store] at hl
          split at hl
          · rename_i e
            cases hl
            refine ⟨h, u, [], rfl, e, rfl, ?_, by rw [← e]; exact hnone⟩
            rw [← lastSet_ext, ← tab_load]
            exact hc
          · exact old hl
        · exact old hl

/-- **C95, how a registry is made.** A registry is made by the first request that finds its type, for the URL of that request, by
the constructor registered then for its protocol. -/
theorem registry_made {h : List Op} {u : URL} {x : Inst} (hu : Spec.registryAfter h u = some x) :
    ∃ pre w post, h ++ [.getRegistry u] = pre ++ .getRegistry w :: post ∧ Spec.idOf w = Spec.idOf u ∧ x.url = w ∧
      Spec.ExtRegistered pre .registry w.protocol x.ctor ∧
      ∀ p z q, pre = p ++ .getRegistry z :: q → Spec.idOf z = Spec.idOf u → Spec.registryAfter p z = none := by
  have hl : (after (h ++ [.getRegistry u])).registries.load (Spec.idOf u) = some x := by
    rw [after_snoc]; exact getRegistry_kept hu
  obtain ⟨pre, w, post, e, h1, h2, h3, h4⟩ := registry_origin _ hl
  refine ⟨pre, w, post, e, h1, h2, h3, ?_⟩
  rintro p z q rfl hz
  cases hr : Spec.registryAfter p z with
  | none => rfl
  | some r =>
    have := load_after_get hr q
    rw [hz, h4] at this
    cases this

/-- **C95, no registry.** Nothing is given exactly if no request of that identity was answered before and no registry is
registered for the protocol. -/
theorem registry_missing (h : List Op) (u : URL) : Spec.registryAfter h u = none ↔
    (∀ c, ¬ Spec.ExtRegistered h .registry u.protocol c) ∧
    ∀ p z q, h = p ++ .getRegistry z :: q → Spec.idOf z = Spec.idOf u → Spec.registryAfter p z = none := by
  constructor
  · intro hn
    have hl : (after h).registries.load (Spec.idOf u) = none := by
      cases hl : (after h).registries.load (Spec.idOf u) with
      | none => rfl
      | some r => rw [registryAfter_of_load hl] at hn; cases hn
    constructor
    · intro c hc
      rw [← lastSet_ext, ← tab_load] at hc
      have hn : (getRegistry (after h) u).2 = none := hn
      unfold getRegistry at hn
      dsimp only at hn
      rw [show (after h).registries.load (getIdentity u).1 = none from hl,
        show (after h).registryFactories.load u.protocol = some c from hc] at hn
      cases hn
    · rintro p z q rfl hz
      cases hr : Spec.registryAfter p z with
      | none => rfl
      | some r =>
        have := load_after_get hr q
        rw [hz, hl] at this
        cases this
  · rintro ⟨h1, h2⟩
    cases hr : Spec.registryAfter h u with
    | none => rfl
    | some x =>
      exfalso
      obtain ⟨pre, w, post, e, g1, g2, g3, -⟩ := registry_made hr
      rcases List.eq_nil_or_concat post with rfl | ⟨post, o, rfl⟩
      · have := List.append_inj' e rfl
        cases this.2
        rw [this.1] at h1
        exact h1 _ g3
      · rw [List.concat_eq_append, show pre ++ .getRegistry w :: (post ++ [o]) = (pre ++ .getRegistry w :: post) ++ [o] by simp] at e
        have e1 := (List.append_inj' e rfl).1
        have hn := h2 pre w post e1 g1
        have hn : (getRegistry (after pre) w).2 = none := hn
        unfold getRegistry at hn
        dsimp only at hn
        rw [← lastSet_ext, ← tab_load] at g3
        split at hn
        · cases hn
        · rw [show (after pre).registryFactories.load w.protocol = some x.ctor from g3] at hn
          cases hn

/-- **C95, made once.** Of all the registries ever made, no two have the same identity. -/
theorem registries_distinct (h : List Op) : ((after h).made.map fun r => Spec.idOf r.url).Nodup := by
  have inv := regInv_after h
  rw [List.Nodup, List.pairwise_iff_getElem]
  intro i j hi hj hij e
  rw [List.length_map] at hi hj
  rw [List.getElem_map, List.getElem_map] at e
  obtain ⟨a1, a2⟩ := inv.all i _ (List.getElem?_eq_getElem (by omega))
  obtain ⟨b1, b2⟩ := inv.all j _ (List.getElem?_eq_getElem hj)
  rw [e, b2] at a2
  injection a2 with a2
  rw [← a2, b1] at a1
  omega

/-! ## What is shipped -/

/-- The extensions shipped with the library, by kind and name. -/
theorem default_tables : ∀ k : Ext.Kind, tab (after defaults) k = match k with
    | .filter => [(b!"accessLog", b!"AccessLogFilter"), (b!"metrics", b!"MetricsFilter"),
        (b!"circuitBreaker", b!"CircuitBreakerFilter"), (b!"failfast", b!"FailfastFilter"), (b!"trace", b!"TracingFilter"),
        (b!"rateLimit", b!"RateLimitFilter"), (b!"clusterAccessLog", b!"ClusterAccessLogFilter"),
        (b!"clusterMetrics", b!"ClusterMetricsFilter"), (b!"clusterCircuitBreaker", b!"ClusterCircuitBreakerFilter")]
    | .ha => [(b!"failover", b!"FailOverHA"), (b!"backupRequest", b!"BackupRequestHA")]
    | .lb => [(b!"random", b!"RandomLB"), (b!"roundrobin", b!"RoundrobinLB"), (b!"consistentHashKey", b!"ConsistentHashLB"),
        (b!"wrr", b!"WeightRoundRobinLB")]
    | .endpoint => [(b!"motan2", b!"MotanCommonEndpoint"), (b!"grpc", b!"GrpcEndPoint"), (b!"local", b!"LocalEndpoint"),
        (b!"mockEndpoint", b!"MockEndpoint"), (b!"motan", b!"MotanCommonEndpoint")]
    | .provider => [(b!"cgi", b!"CgiProvider"), (b!"http", b!"HTTPProvider"), (b!"httpx", b!"HTTPXProvider"),
        (b!"motan2", b!"MotanProvider"), (b!"motan", b!"MotanProvider"), (b!"mockProvider", b!"MockProvider"),
        (b!"default", b!"DefaultProvider")]
    | .registry => [(b!"direct", b!"DirectRegistry"), (b!"local", b!"LocalRegistry"), (b!"zookeeper", b!"ZkRegistry"),
        (b!"consul", b!"ConsulRegistry"), (b!"mesh", b!"MeshRegistry")]
    | .server => [(b!"motan2", b!"MotanServer"), (b!"motan", b!"MotanServer"), (b!"cgi", b!"MotanServer")]
    | .handler => [(b!"default", b!"DefaultMessageHandler")] := by
  intro k
  cases k <;> decide +kernel

/-- **C95, numbers of serializations.** With the extensions shipped, the serialization found for the number in a message is the
one that puts this number into messages, and it is also found under its name; the numbers are 1, 5, 6 and 8. -/
theorem serialization_numbers (id : Int) (h0 : 0 ≤ id) (h1 : id < 2 ^ 63) :
    (∀ c, getSerialization (after defaults) [] id = some c → serialNum c = some id ∧
      ∃ name ∈ [b!"simple", b!"protobuf", b!"grpc-pb", b!"breeze"], ∀ i, getSerialization (after defaults) name i = some c) ∧
    ((getSerialization (after defaults) [] id).isSome ↔ id = 1 ∨ id = 5 ∨ id = 6 ∨ id = 8) := by
  have tabs : (after defaults).serializations =
      [(b!"simple", b!"SimpleSerialization"), (formatInt 6, b!"SimpleSerialization"), (b!"protobuf", b!"PbSerialization"),
       (formatInt 5, b!"PbSerialization"), (b!"grpc-pb", b!"GrpcPbSerialization"), (formatInt 1, b!"GrpcPbSerialization"),
       (b!"breeze", b!"BreezeSerialization"), (formatInt 8, b!"BreezeSerialization")] := by decide +kernel
  have e : getSerialization (after defaults) [] id = (after defaults).serializations.load (formatInt id) := by
    rw [getSerialization, if_neg (by simp), if_pos (by omega)]
  have name : ∀ n : Bytes, n ≠ [] → ∀ i, getSerialization (after defaults) n i = (after defaults).serializations.load (trimSpace n) := by
    intro n hn i
    rw [getSerialization, if_pos hn]
  have inj : ∀ a : Int, 0 ≤ a → a < 2 ^ 63 → formatInt id = formatInt a → id = a := fun a ha ha' h =>
    formatInt_injective (by omega) h1 (by omega) ha' h
  have word : ∀ w : Bytes, w ∈ [b!"simple", b!"protobuf", b!"grpc-pb", b!"breeze"] → formatInt id ≠ w := by
    intro w hw he
    have := formatInt_mem id
    rw [he] at this
    clear he
    revert w
    decide
  have keyed : ∀ c, (after defaults).serializations.load (formatInt id) = some c →
      (id = 6 ∧ c = b!"SimpleSerialization") ∨ (id = 5 ∧ c = b!"PbSerialization") ∨
      (id = 1 ∧ c = b!"GrpcPbSerialization") ∨ (id = 8 ∧ c = b!"BreezeSerialization") := by
    intro c hc
    rw [tabs] at hc
    have hm := AMap.mem_of_load hc
    simp only [List.mem_cons, Prod.mk.injEq, List.not_mem_nil, or_false] at hm
    rcases hm with ⟨h, -⟩ | ⟨h, hc⟩ | ⟨h, -⟩ | ⟨h, hc⟩ | ⟨h, -⟩ | ⟨h, hc⟩ | ⟨h, -⟩ | ⟨h, hc⟩
    · exact absurd h (word _ (by simp))
    · exact .inl ⟨inj 6 (by omega) (by omega) h, hc⟩
    · exact absurd h (word _ (by simp))
    · exact .inr (.inl ⟨inj 5 (by omega) (by omega) h, hc⟩)
    · exact absurd h (word _ (by simp))
    · exact .inr (.inr (.inl ⟨inj 1 (by omega) (by omega) h, hc⟩))
    · exact absurd h (word _ (by simp))
    · exact .inr (.inr (.inr ⟨inj 8 (by omega) (by omega) h, hc⟩))
  rw [e]
  constructor
  · intro c hc
    rcases keyed c hc with ⟨rfl, rfl⟩ | ⟨rfl, rfl⟩ | ⟨rfl, rfl⟩ | ⟨rfl, rfl⟩
    · exact ⟨by decide, b!"simple", by simp, fun i => by rw [name _ (by decide), tabs]; decide +kernel⟩
    · exact ⟨by decide, b!"protobuf", by simp, fun i => by rw [name _ (by decide), tabs]; decide +kernel⟩
    · exact ⟨by decide, b!"grpc-pb", by simp, fun i => by rw [name _ (by decide), tabs]; decide +kernel⟩
    · exact ⟨by decide, b!"breeze", by simp, fun i => by rw [name _ (by decide), tabs]; decide +kernel⟩
  · constructor
    · intro hs
      obtain ⟨c, hc⟩ := Option.isSome_iff_exists.1 hs
      rcases keyed c hc with ⟨h, -⟩ | ⟨h, -⟩ | ⟨h, -⟩ | ⟨h, -⟩ <;> omega
    · rw [tabs]
      rintro (rfl | rfl | rfl | rfl) <;> decide +kernel

/-- **C95, backup requests need statistics.** When a URL asks for backup requests, the metrics filter is among the filters its
cluster is then given, and the filters listed before are kept. -/
theorem backup_request_metrics (u : URL) (h : getHa (after defaults) u = some b!"BackupRequestHA") :
    ∃ fs, (Reload.haEffect u).param b!"filter" = some fs ∧ b!"metrics" ∈ trimSplit fs b!"," ∧
      (∀ f, f ∈ trimSplit ((u.param b!"filter").getD []) b!"," → f ∈ trimSplit fs b!",") ∧
      ∀ f, f ∈ trimSplit fs b!"," → f = b!"metrics" ∨ f ∈ trimSplit ((u.param b!"filter").getD []) b!"," := by
  have hb : getParam u b!"haStrategy" b!"failover" = b!"backupRequest" := by
    rw [getHa] at h
    have := AMap.mem_of_load h
    rw [show (after defaults).has = [(b!"failover", b!"FailOverHA"), (b!"backupRequest", b!"BackupRequestHA")] from default_tables .ha] at this
    simp only [List.mem_cons, Prod.mk.injEq, List.not_mem_nil, or_false] at this
    rcases this with ⟨-, h⟩ | ⟨h, -⟩
    · exact absurd h (by decide)
    · exact h
  have put : ∀ v, (putParam u b!"filter" v).param b!"filter" = some v := by
    intro v
    simp [putParam, URL.param]
  have happ : ∀ fs : Bytes, trimSplit (fs ++ b!"," ++ b!"metrics") b!"," = trimSplit fs b!"," ++ [b!"metrics"] := by
    intro fs
    rw [trimSplit_eq _ _ (by decide), trimSplit_eq _ _ (by decide),
      show (b!"," : Bytes) = [44] by decide, show fs ++ [44] ++ b!"metrics" = fs ++ 44 :: b!"metrics" by simp,
      split_byte_append, List.map_append, List.filter_append]
    congr 1
    decide +kernel
  unfold Reload.haEffect
  rw [if_pos hb]
  cases hf : u.param b!"filter" with
  | none =>
    refine ⟨b!"metrics", put _, by decide +kernel, ?_, ?_⟩
    · intro f hm
      rw [show trimSplit ((none : Option Bytes).getD []) b!"," = [] by decide +kernel] at hm
      cases hm
    · intro f hm
      rw [show trimSplit b!"metrics" b!"," = [b!"metrics"] by decide +kernel] at hm
      exact .inl (List.mem_singleton.1 hm)
  | some fs =>
    simp only [Option.getD_some]
    split
    · rename_i hm
      exact ⟨fs, hf, hm, fun f h => h, fun f h => .inr h⟩
    · refine ⟨_, put _, ?_, ?_, ?_⟩ <;> rw [happ]
      · simp
      · intro f h; simp [h]
      · intro f h
        rcases List.mem_append.1 h with h | h
        · exact .inr h
        · exact .inl (List.mem_singleton.1 h)

/-! ## Where the factory does not do what it seems to promise -/

/-- The parameters of a registry's URL are not part of its identity: of two registries configured at one address with different
parameters there is only one, made with those of the URL asked for first. -/
theorem registry_parameters_ignored_violated :
    ∃ u v : URL, u.param b!"timeout" = some b!"100" ∧ v.param b!"timeout" = some b!"5000" ∧
      ∃ x, Spec.registryAfter defaults u = some x ∧ Spec.registryAfter (defaults ++ [.getRegistry u]) v = some x ∧ x.url = u := by
  let u : URL := { protocol := b!"zookeeper", host := b!"zk", port := 2181, params := some [(b!"timeout", b!"100")] }
  let v : URL := { protocol := b!"zookeeper", host := b!"zk", port := 2181, params := some [(b!"timeout", b!"5000")] }
  have h : Spec.registryAfter defaults u = some ⟨b!"ZkRegistry", u, 0⟩ := by decide +kernel
  exact ⟨u, v, rfl, rfl, _, h, registry_shared h [] (by decide +kernel), rfl⟩

/-- Names and numbers of serializations share one table: one registered under the name `6` takes the place of number 6. -/
theorem serialization_number_shadowed_violated :
    ∃ h : List Op, h = defaults ++ [.registSerialization b!"6" 20 b!"Mine"] ∧
      getSerialization (after h) [] 6 = some b!"Mine" ∧ getSerialization (after h) b!"simple" (-1) = some b!"SimpleSerialization" :=
  ⟨_, rfl, by decide +kernel, by decide +kernel⟩

/-- Blanks around the name of a filter do not matter, but those around the name of a strategy or load balance do: nothing is found. -/
theorem blank_names_violated :
    ∃ u : URL, u.param b!"loadbalance" = some b!" wrr" ∧ getLB (after defaults) u = none ∧
      getFilter (after defaults) b!" trace" = some b!"TracingFilter" :=
  ⟨{ params := some [(b!"loadbalance", b!" wrr")] }, rfl, by decide +kernel, by decide +kernel⟩

/-! ## The hypotheses are met -/

example : Spec.ExtRegistered (defaults ++ [.regist .ha b!"failover" b!"Mine", .getRegistry {}]) .ha b!"failover" b!"Mine" :=
  ⟨defaults, [.getRegistry {}], rfl, by simp⟩

example : getHa (after (defaults ++ [.regist .ha b!"failover" b!"Mine"])) {} = some b!"Mine" := by decide +kernel

example : Spec.AskedProvider { params := some [(b!"proxy", b!"http:8080")] } b!"http" :=
  .proxied (n := b!"8080") (.absent rfl) rfl (by decide +kernel)

example : (Spec.registryAfter defaults { protocol := b!"direct", host := b!"a", port := 1 }).map (·.no) = some 0 ∧
    (Spec.registryAfter (defaults ++ .getRegistry { protocol := b!"direct", host := b!"a", port := 1 } :: [])
      { protocol := b!"direct", host := b!"b", port := 1 }).map (·.no) = some 1 := by
  constructor <;> decide +kernel

example : getHa (after defaults) { params := some [(b!"haStrategy", b!"backupRequest"), (b!"filter", b!"accessLog, trace")] } =
    some b!"BackupRequestHA" := by decide +kernel

end Motan.Props
