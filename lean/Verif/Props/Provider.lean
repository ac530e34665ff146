import Verif.Model.Provider
import Verif.Props.Pb
import Verif.Props.Server

/-!
# C58: a service method is called with the caller's arguments

A request whose arguments were serialized for the parameters of the method runs the method it names, once, with exactly
those arguments; whatever bytes arrive, a method runs only with arguments of the types of its parameters, and never with
others than the caller's. After any history of exporting and unexporting, a request reaches the provider that was last
exported for its path. Methods with `int` or `uint` parameters, nil arguments, an empty method name and two services with
one path in different groups do not work, which is shown.
-/

namespace Motan.Props

open Motan Pb Provider

variable {P V : Type}

/-! ## The specification -/

/-- The argument is of the type of the parameter, and the type is not `int`, not `uint` and not a pointer to a kind. -/
def Spec.Plain : Val P → PType → Prop
  | .prim p, .kind k => k = p.kind ∧ k ≠ .int ∧ k ≠ .uint ∧ ∀ s, p = .str s → s.length < 2 ^ 63
  | .msg _, .msg => True
  | _, _ => False

/-- A caller of the method can have passed this for the parameter: nil, or a value of the type, or a pointer to one. -/
def Spec.Passed : Val P → PType → Prop
  | .nil, _ => True
  | .prim p, .kind k => k = p.kind ∧ ∀ s, p = .str s → s.length < 2 ^ 63
  | .prim p, .ptr k => k = p.kind ∧ ∀ s, p = .str s → s.length < 2 ^ 63
  | .msg _, .msg => True
  | _, _ => False

/-- A Go value has the type of the parameter. -/
def Spec.HasType : Val P → PType → Prop
  | .prim p, .kind k => p.kind = k
  | .msg _, .msg => True
  | _, _ => False

/-- The provider that serves a path: exported, and since then neither unexported nor replaced. -/
def Spec.serves (hist : List HAct) (s : Bytes) (p : Exported) : Prop :=
  p.path = s ∧ ∃ a b, hist = a ++ .add p :: b ∧ .rm p ∉ b ∧ ∀ q, .add q ∈ b → q.path ≠ s

/-- The method a request names: in Go exported methods begin with an upper-case letter, requests may use either. -/
def Spec.namesMethod (upper : Bytes → Bytes) (n : Bytes) (m : Method P V) : Prop :=
  n = m.name ∨ (∃ c s, n = c :: s ∧ 97 ≤ c.toNat ∧ c.toNat ≤ 122 ∧ m.name = UInt8.ofNat (c.toNat - 32) :: s) ∨
    (∃ c s, n = c :: s ∧ 128 ≤ c.toNat ∧ m.name = upper n)

/-! ## Proofs -/

theorem callable_iff (vs : List (Val P)) (ts : List PType) :
    callable vs ts = true ↔ vs.length = ts.length ∧ ∀ a ∈ vs.zip ts, Spec.HasType a.1 a.2 := by
  induction vs generalizing ts with
  | nil => cases ts <;> simp [callable]
  | cons v vs ih =>
    cases ts with
    | nil => simp [callable]
    | cons t ts =>
      have ha : assignable v t = true ↔ Spec.HasType v t := by
        cases v <;> cases t <;> simp [assignable, Spec.HasType]
      simp only [callable, Bool.and_eq_true, ih, ha, List.length_cons, List.zip_cons_cons, List.mem_cons,
        forall_eq_or_imp]
      constructor
      · rintro ⟨h1, h2, h3⟩; exact ⟨by omega, h1, h3⟩
      · rintro ⟨h1, h2, h3⟩; exact ⟨h2, by omega, h3⟩

/-- The targets of the parameters. -/
theorem fits_of_passed (L : Lib P) (v : Val P) (t : PType) (h : Spec.Passed v t) : Spec.Fits L v t.target := by
  cases v with
  | nil => trivial
  | prim p =>
    cases t with
    | kind k => obtain ⟨rfl, h⟩ := h; cases p <;> simp_all [Spec.Fits, PType.target, Prim.kind]
    | ptr k => obtain ⟨rfl, h⟩ := h; cases p <;> simp_all [Spec.Fits, PType.target, Prim.kind]
    | _ => exact h.elim
  | msg m => cases t <;> first | exact h.elim | trivial
  | _ => exact h.elim

theorem serBuf_ne_nil (L : Lib P) (v : Val P) {bs : Bytes} (h : serBuf L v = .ok bs) : bs ≠ [] := by
  have he : ∀ n, encVarint n ≠ [] := by
    intro n
    unfold encVarint
    split <;> simp
  cases v with
  | nil => cases h; exact he _
  | prim p => simp only [serBuf] at h; cases h; simp [he]
  | msg m =>
    simp only [serBuf] at h
    cases hm : L.marshal m with
    | none => rw [hm] at h; cases h
    | some b => rw [hm] at h; cases h; simp [he]
  | msgValue m => cases h
  | msgs l =>
    simp only [serBuf] at h
    cases hl : serMsgs l with
    | error e => rw [hl] at h; cases h
    | ok b => rw [hl] at h; cases h; simp [he]
  | other => cases h

theorem serMulti_ne_nil (L : Lib P) {vs : List (Val P)} (hv : vs ≠ []) {bs : Bytes} (h : serMulti L vs = .ok bs) :
    bs ≠ [] := by
  cases vs with
  | nil => exact absurd rfl hv
  | cons v vs =>
    unfold serMulti at h
    cases h1 : serBuf L v with
    | error e => rw [h1] at h; cases h
    | ok b =>
      rw [h1] at h
      cases h2 : serMulti L vs with
      | error e => rw [h2] at h; cases h
      | ok b2 =>
        rw [h2] at h
        cases h
        have := serBuf_ne_nil L v h1
        simp [this]

/-- What the decoder makes of an argument. -/
def decoded : Val P → Val P
  | .prim p => .prim (Spec.widened p)
  | v => v

theorem arguments_passed (L : Lib P) (hL : Spec.Codec L) (args : List (Val P)) (params : List PType)
    (hlen : args.length = params.length) (hp : ∀ a ∈ args.zip params, Spec.Passed a.1 a.2) {body : Bytes}
    (hs : serMulti L args = .ok body) : arguments L params body = .ok (args.map decoded) := by
  unfold arguments
  by_cases hv : args = []
  · subst hv
    cases hs
    simp
  · have hb := serMulti_ne_nil L hv hs
    have hpn : params ≠ [] := by
      intro h
      subst h
      exact hv (List.length_eq_zero_iff.mp hlen)
    rw [if_neg hb, if_neg hpn]
    have hrt := pb_roundtrip L hL ((args.zip params).map fun a => (a.1, a.2.target)) (by
      intro a ha
      obtain ⟨b, hb, rfl⟩ := List.mem_map.mp ha
      exact fits_of_passed L _ _ (hp b hb)) (bs := body) (by
        rw [List.map_map]
        show serMulti L ((args.zip params).map Prod.fst) = _
        rw [List.map_fst_zip (by omega)]
        exact hs) []
    rw [List.append_nil, List.map_map, List.map_map] at hrt
    have e1 : (args.zip params).map (Prod.snd ∘ fun a => (a.1, (a.2.target : Target P))) = params.map PType.target := by
      have : (args.zip params).map (Prod.snd ∘ fun a => (a.1, (a.2.target : Target P)))
          = ((args.zip params).map Prod.snd).map PType.target := by rw [List.map_map]; rfl
      rw [this, List.map_snd_zip (by omega)]
    rw [e1] at hrt
    rw [hrt]
    simp only [Except.map, List.map_map]
    refine congrArg Except.ok ?_
    have e2 : args.map decoded = ((args.zip params).map Prod.fst).map decoded := by rw [List.map_fst_zip (by omega)]
    rw [e2, List.map_map]
    refine List.map_congr_left fun a ha => ?_
    have := hp a ha
    obtain ⟨v, t⟩ := a
    cases v <;> cases t <;> first | rfl | exact this.elim

theorem firstUpper_names (upper : Bytes → Bytes) (n : Bytes) (m : Method P V) (hm : m.name ≠ [])
    (hu : ∀ c s, m.name = c :: s → 65 ≤ c.toNat ∧ c.toNat ≤ 90 ∨ (128 ≤ c.toNat ∧ upper m.name = m.name))
    (h : Spec.namesMethod upper n m) : firstUpper upper n = some m.name := by
  rcases h with h | ⟨c, s, rfl, h1, h2, h3⟩ | ⟨c, s, rfl, h1, h2⟩
  · subst h
    cases hn : m.name with
    | nil => exact absurd hn hm
    | cons c s =>
      rcases hu c s hn with h | ⟨h, h'⟩
      · rw [firstUpper, if_pos (by omega), if_neg (by omega)]
      · rw [firstUpper, if_neg (by omega), ← hn, h']
  · rw [firstUpper, if_pos (by omega), if_pos ⟨h1, h2⟩, h3]
  · rw [firstUpper, if_neg (by omega), h2]

/-- **C58.** A request whose arguments were serialized for the parameters of the method runs the method it names with
exactly those arguments, and the answer is the method's. -/
theorem provider_called (L : Lib P) (hL : Spec.Codec L) (upper : Bytes → Bytes) (methods : List (Method P V))
    (hn : (methods.map Method.name).Nodup) (m : Method P V) (hm : m ∈ methods) (hne : m.name ≠ [])
    (hu : ∀ c s, m.name = c :: s → 65 ≤ c.toNat ∧ c.toNat ≤ 90 ∨ (128 ≤ c.toNat ∧ upper m.name = m.name))
    (name : Bytes) (hname : Spec.namesMethod upper name m) (args : List (Val P)) (hlen : args.length = m.params.length)
    (hp : ∀ a ∈ args.zip m.params, Spec.Plain a.1 a.2) (body : Bytes) (hs : serMulti L args = .ok body) :
    call L upper methods name body = .ran m.name args (m.run args) := by
  have hfind : methods.find? (fun x => x.name == m.name) = some m := by
    clear hu hne hname hp hlen
    induction methods with
    | nil => cases hm
    | cons x xs ih =>
      rw [List.map_cons, List.nodup_cons] at hn
      rw [List.find?_cons]
      rcases List.mem_cons.mp hm with rfl | hm
      · simp
      · have : (x.name == m.name) = false := by
          refine beq_false_of_ne fun h => hn.1 ?_
          rw [h]
          exact List.mem_map_of_mem hm
        rw [this]
        exact ih hn.2 hm
  have hpass : ∀ a ∈ args.zip m.params, Spec.Passed a.1 a.2 := by
    intro a ha
    have h := hp a ha
    obtain ⟨v, t⟩ := a
    cases v <;> cases t <;> first | exact h.elim | trivial | exact ⟨h.1, h.2.2.2⟩
  have hdec : args.map decoded = args := by
    have e : args = (args.zip m.params).map Prod.fst := (List.map_fst_zip (by omega)).symm
    have : ((args.zip m.params).map Prod.fst).map decoded = (args.zip m.params).map Prod.fst := by
      rw [List.map_map]
      refine List.map_congr_left fun a ha => ?_
      have h := hp a ha
      obtain ⟨v, t⟩ := a
      cases v with
      | prim p =>
        cases t with
        | kind k =>
          obtain ⟨rfl, h1, h2, -⟩ := h
          cases p <;> first | rfl | exact absurd rfl h1 | exact absurd rfl h2
        | _ => exact h.elim
      | _ => rfl
    rw [← e] at this
    exact this
  unfold call
  rw [firstUpper_names upper name m hne hu hname]
  simp only [hfind, arguments_passed L hL args m.params hlen hpass hs, hdec]
  rw [if_pos]
  rw [callable_iff]
  refine ⟨hlen, fun a ha => ?_⟩
  have h := hp a ha
  obtain ⟨v, t⟩ := a
  cases v <;> cases t <;> first | exact h.elim | trivial | exact h.1.symm

/-- **C58.** Whatever bytes arrive, a method runs only if the request names it, with one argument of the type of each
parameter, and the answer is what it returns. -/
theorem provider_typed (L : Lib P) (upper : Bytes → Bytes) (methods : List (Method P V)) (name body n : Bytes)
    (vs : List (Val P)) (r : Option V) (h : call L upper methods name body = .ran n vs r) :
    ∃ m ∈ methods, m.name = n ∧ firstUpper upper name = some n ∧ r = m.run vs ∧ vs.length = m.params.length ∧
      ∀ a ∈ vs.zip m.params, Spec.HasType a.1 a.2 := by
  unfold call at h
  cases hf : firstUpper upper name with
  | none => rw [hf] at h; cases h
  | some n' =>
    rw [hf] at h
    simp only at h
    cases hm : methods.find? (fun m => m.name == n') with
    | none => rw [hm] at h; cases h
    | some m =>
      rw [hm] at h
      simp only at h
      cases ha : arguments L m.params body with
      | error e => rw [ha] at h; cases e <;> cases h
      | ok ws =>
        rw [ha] at h
        simp only at h
        by_cases hc : callable ws m.params = true
        · rw [if_pos hc] at h
          cases h
          have hn := List.find?_some hm
          rw [beq_iff_eq] at hn
          exact ⟨m, List.mem_of_find?_eq_some hm, rfl, by rw [← hn], rfl, (callable_iff _ _).mp hc⟩
        · rw [if_neg hc] at h; cases h

/-- **C58.** A method never runs with other arguments than the caller passed for it, nil and pointers included. -/
theorem provider_faithful (L : Lib P) (hL : Spec.Codec L) (upper : Bytes → Bytes) (methods : List (Method P V))
    (name body n : Bytes) (args vs : List (Val P)) (r : Option V) (hs : serMulti L args = .ok body)
    (hp : ∀ m ∈ methods, firstUpper upper name = some m.name →
      args.length = m.params.length ∧ ∀ a ∈ args.zip m.params, Spec.Passed a.1 a.2)
    (h : call L upper methods name body = .ran n vs r) : vs = args := by
  unfold call at h
  cases hf : firstUpper upper name with
  | none => rw [hf] at h; cases h
  | some n' =>
    rw [hf] at h
    simp only at h
    cases hm : methods.find? (fun m => m.name == n') with
    | none => rw [hm] at h; cases h
    | some m =>
      rw [hm] at h
      simp only at h
      have hn := List.find?_some hm
      rw [beq_iff_eq] at hn
      obtain ⟨hlen, hpass⟩ := hp m (List.mem_of_find?_eq_some hm) (by rw [hf, hn])
      rw [arguments_passed L hL args m.params hlen hpass hs] at h
      simp only at h
      by_cases hc : callable (args.map decoded) m.params = true
      · rw [if_pos hc] at h
        cases h
        have ht := ((callable_iff _ _).mp hc).2
        have key : ∀ (as : List (Val P)) (ts : List PType), as.length = ts.length →
            (∀ a ∈ as.zip ts, Spec.Passed a.1 a.2) → (∀ a ∈ (as.map decoded).zip ts, Spec.HasType a.1 a.2) →
            as.map decoded = as := by
          intro as
          induction as with
          | nil => intros; rfl
          | cons a as ih =>
            intro ts hl h1 h2
            cases ts with
            | nil => simp at hl
            | cons t ts =>
              rw [List.map_cons, ih ts (by simpa using hl) (fun x hx => h1 x (by simp [hx]))
                (fun x hx => h2 x (by simp [hx]))]
              have p1 := h1 (a, t) (by simp)
              have p2 := h2 (decoded a, t) (by simp)
              congr 1
              cases a with
              | prim p =>
                cases t with
                | kind k =>
                  obtain ⟨rfl, -⟩ := p1
                  cases p <;> first | rfl | (exact absurd p2 (by simp [decoded, Spec.HasType, Spec.widened, Prim.kind]))
                | _ => exact p2.elim
              | _ => rfl
        exact key args m.params hlen hpass ht
      · rw [if_neg hc] at h; cases h

/-- **C58.** After any history of exporting and unexporting, the provider of a path is the one exported last for it,
unless it was unexported since. -/
theorem handler_serves (hist : List HAct) (s : Bytes) (p : Exported) :
    (hist.foldl hstep []).load s = some p ↔ Spec.serves hist s p := by
  induction hist using snocRec generalizing p with
  | nil => simp [AMap.load, Spec.serves]
  | append_singleton hist x ih =>
    rw [List.foldl_append, List.foldl_cons, List.foldl_nil]
    cases x with
    | add q =>
      rw [hstep, AMap.load_store]
      by_cases hq : q.path = s
      · simp only [hq, if_true, Option.some.injEq]
        constructor
        · rintro rfl
          exact ⟨hq, hist, [], rfl, by simp, by simp⟩
        · rintro ⟨hp, a, b, hab, hrm, hadd⟩
          rcases snoc_cases hab with ⟨-, -, h⟩ | ⟨b', rfl, -⟩
          · cases h; rfl
          · exact absurd hq (hadd q (by simp))
      · rw [if_neg (by simpa using hq), ih]
        constructor
        · rintro ⟨hp, a, b, rfl, hrm, hadd⟩
          refine ⟨hp, a, b ++ [.add q], by simp, by simpa using hrm, ?_⟩
          intro r hr
          rcases List.mem_append.mp hr with hr | hr
          · exact hadd r hr
          · cases List.mem_singleton.mp hr; exact hq
        · rintro ⟨hp, a, b, hab, hrm, hadd⟩
          rcases snoc_cases hab with ⟨-, -, h⟩ | ⟨b', rfl, rfl⟩
          · cases h; exact absurd hp hq
          · exact ⟨hp, a, b', rfl, fun h => hrm (by simp [h]), fun r hr => hadd r (by simp [hr])⟩
    | rm q =>
      have back : ∀ r, Spec.serves (hist ++ [HAct.rm q]) s r → Spec.serves hist s r ∧ r ≠ q := by
        rintro r ⟨hp, a, b, hab, hrm, hadd⟩
        rcases snoc_cases hab with ⟨-, -, h⟩ | ⟨b', rfl, rfl⟩
        · cases h
        · exact ⟨⟨hp, a, b', rfl, fun h => hrm (by simp [h]), fun r hr => hadd r (by simp [hr])⟩,
            fun h => hrm (by simp [h])⟩
      have fwd : ∀ r, Spec.serves hist s r → r ≠ q → Spec.serves (hist ++ [HAct.rm q]) s r := by
        rintro r ⟨hp, a, b, rfl, hrm, hadd⟩ hne
        refine ⟨hp, a, b ++ [.rm q], by simp, ?_, ?_⟩
        · simp [hrm, hne]
        · intro t ht
          rcases List.mem_append.mp ht with ht | ht
          · exact hadd t ht
          · cases List.mem_singleton.mp ht
      rw [hstep]
      by_cases hl : (hist.foldl hstep []).load q.path = some q
      · rw [if_pos hl, AMap.load_erase]
        by_cases hq : s = q.path
        · subst hq
          simp only [if_true]
          constructor
          · intro h; simp at h
          · intro h
            have := back p h
            have h2 := (ih p).mpr this.1
            rw [hl] at h2
            exact absurd (Option.some.inj h2).symm this.2
        · rw [if_neg (fun e => hq e.symm), ih]
          constructor
          · intro h
            exact fwd p h fun e => hq (by rw [← e]; exact h.1.symm)
          · exact fun h => (back p h).1
      · rw [if_neg hl, ih]
        constructor
        · intro h
          refine fwd p h fun e => hl ?_
          subst e
          have := (ih p).mpr h
          rw [h.1]
          exact this
        · exact fun h => (back p h).1

/-- **C58.** A request is answered by the provider of its path, and with an exception if there is none, if the call cannot
be made, or if the method panics. -/
theorem handler_answers (L : Lib P) (upper : Bytes → Bytes) (methods : Exported → List (Method P V)) (hist : List HAct)
    (s name body : Bytes) :
    (∀ p, Spec.serves hist s p → ∀ n vs v, call L upper (methods p) name body = .ran n vs (some v) →
      handle L upper methods (hist.foldl hstep []) s name body = .value v) ∧
    (∀ v, handle L upper methods (hist.foldl hstep []) s name body = .value v →
      ∃ p, Spec.serves hist s p ∧ ∃ n vs, call L upper (methods p) name body = .ran n vs (some v)) ∧
    ((∀ p, ¬ Spec.serves hist s p) → handle L upper methods (hist.foldl hstep []) s name body = .exception 404) ∧
    (∀ p, Spec.serves hist s p → (∀ n vs v, call L upper (methods p) name body ≠ .ran n vs (some v)) →
      handle L upper methods (hist.foldl hstep []) s name body = .exception 500) := by
  refine ⟨fun p hp n vs v h => ?_, fun v h => ?_, fun h => ?_, fun p hp h => ?_⟩
  · rw [handle, (handler_serves hist s p).mpr hp]
    simp only [h]
  · unfold handle at h
    cases hl : (hist.foldl hstep []).load s with
    | none => rw [hl] at h; cases h
    | some p =>
      rw [hl] at h
      simp only at h
      cases hc : call L upper (methods p) name body with
      | ran n vs w =>
        rw [hc] at h
        cases w with
        | none => cases h
        | some w => cases h; exact ⟨p, (handler_serves hist s p).mp hl, n, vs, hc⟩
      | _ => rw [hc] at h; cases h
  · unfold handle
    cases hl : (hist.foldl hstep []).load s with
    | none => rfl
    | some p => exact absurd ((handler_serves hist s p).mp hl) (h p)
  · rw [handle, (handler_serves hist s p).mpr hp]
    simp only
    cases hc : call L upper (methods p) name body with
    | ran n vs v =>
      cases v with
      | none => rfl
      | some v => exact absurd hc (h n vs v)
    | _ => rfl

/-! ## What does not work -/

/-- **C58, violated.** A method with an `int`, a `uint` or a pointer to a kind among its parameters never runs, whatever
arrives: the decoder makes an `int64`, a `uint64` or a value, which Go refuses to pass. -/
theorem provider_int_never_runs_violated (L : Lib P) (upper : Bytes → Bytes) (methods : List (Method P V))
    (hn : (methods.map Method.name).Nodup) (m : Method P V) (hm : m ∈ methods) (t : PType) (ht : t ∈ m.params)
    (hk : t = .kind .int ∨ t = .kind .uint ∨ ∃ k, t = .ptr k) (name body : Bytes) (vs : List (Val P)) (r : Option V) :
    call L upper methods name body ≠ .ran m.name vs r := by
  intro h
  unfold call at h
  cases hf : firstUpper upper name with
  | none => rw [hf] at h; cases h
  | some n' =>
    rw [hf] at h
    simp only at h
    cases hm' : methods.find? (fun m => m.name == n') with
    | none => rw [hm'] at h; cases h
    | some m' =>
      rw [hm'] at h
      simp only at h
      cases ha : arguments L m'.params body with
      | error e => rw [ha] at h; cases e <;> cases h
      | ok ws =>
        rw [ha] at h
        simp only at h
        by_cases hc : callable ws m'.params = true
        · rw [if_pos hc] at h
          have hnm : m'.name = m.name := by injection h
          have hmm : m' = m := by
            have hm2 := List.mem_of_find?_eq_some hm'
            clear hf hm' ha hc h ht hk
            induction methods with
            | nil => cases hm
            | cons x xs ih =>
              rw [List.map_cons, List.nodup_cons] at hn
              rcases List.mem_cons.mp hm with rfl | h1 <;> rcases List.mem_cons.mp hm2 with rfl | h2
              · rfl
              · exact absurd (by rw [← hnm]; exact List.mem_map_of_mem h2) hn.1
              · exact absurd (by rw [hnm]; exact List.mem_map_of_mem h1) hn.1
              · exact ih hn.2 h1 h2
          subst hmm
          have hne : m'.params ≠ [] := List.ne_nil_of_mem ht
          unfold arguments at ha
          by_cases hb : body = []
          · rw [if_pos hb] at ha
            cases ha
            cases hp : m'.params with
            | nil => exact hne hp
            | cons _ _ => rw [hp] at hc; simp [callable] at hc
          · rw [if_neg hb, if_neg hne] at ha
            cases hd : deMulti L (m'.params.map PType.target) body with
            | error e => rw [hd] at ha; cases ha
            | ok l =>
              rw [hd] at ha
              cases ha
              have key : ∀ (ts : List PType) (bs : Bytes) (l : List (Val P × Option (Val P))), t ∈ ts →
                  deMulti L (ts.map PType.target) bs = .ok l → callable (l.map Prod.fst) ts = false := by
                intro ts
                induction ts with
                | nil => intro _ _ h; cases h
                | cons u us ih =>
                  intro bs l hin hd
                  rw [List.map_cons, deMulti] at hd
                  cases hg : deBuf L u.target bs with
                  | error e => rw [hg] at hd; cases hd
                  | ok g =>
                    rw [hg] at hd
                    simp only at hd
                    cases hr : deMulti L (us.map PType.target) g.rest with
                    | error e => rw [hr] at hd; cases hd
                    | ok l' =>
                      rw [hr] at hd
                      cases hd
                      rw [List.map_cons, callable, Bool.and_eq_false_iff]
                      rcases List.mem_cons.mp hin with rfl | hin
                      · refine .inl ?_
                        rw [deBuf] at hg
                        cases hv : decVarint bs with
                        | error e => rw [hv] at hg; cases hg
                        | ok r =>
                          rw [hv] at hg
                          simp only at hg
                          by_cases h1 : r.1 = 1
                          · rw [if_pos h1] at hg
                            cases hg
                            cases t <;> rfl
                          · rw [if_neg h1] at hg
                            rcases hk with rfl | rfl | ⟨k, rfl⟩
                            · simp only [PType.target, deKind] at hg
                              cases hz : decZigzag64 r.2 with
                              | error e => rw [hz] at hg; cases hg
                              | ok z => rw [hz] at hg; cases hg; rfl
                            · simp only [PType.target, deKind] at hg
                              cases hz : decZigzag64 r.2 with
                              | error e => rw [hz] at hg; cases hg
                              | ok z => rw [hz] at hg; cases hg; rfl
                            · simp only [PType.target] at hg
                              cases hz : deKind k r.2 with
                              | error e => rw [hz] at hg; cases hg
                              | ok z => rw [hz] at hg; cases hg; rfl
                      · exact .inr (ih _ _ hin hr)
              rw [key _ _ _ ht hd] at hc
              cases hc
        · rw [if_neg hc] at h; cases h

/-- **C58, violated.** nil, although it can be serialized, cannot be passed to any parameter: the call panics. -/
theorem provider_nil_panics_violated (L : Lib P) (hL : Spec.Codec L) (upper : Bytes → Bytes)
    (methods : List (Method P V)) (name body : Bytes) (args : List (Val P)) (hs : serMulti L args = .ok body)
    (hnil : .nil ∈ args) (m : Method P V) (hf : firstUpper upper name = some m.name)
    (hm : methods.find? (fun x => x.name == m.name) = some m) (hlen : args.length = m.params.length)
    (hp : ∀ a ∈ args.zip m.params, Spec.Passed a.1 a.2) : call L upper methods name body = .panic := by
  unfold call
  rw [hf]
  simp only [hm, arguments_passed L hL args m.params hlen hp hs]
  rw [if_neg]
  rw [callable_iff]
  rintro ⟨h1, h2⟩
  obtain ⟨i, hi, he⟩ := List.getElem_of_mem hnil
  have hz : ((args.map decoded).zip m.params)[i]'(by simp; omega) = (.nil, m.params[i]'(by omega)) := by
    rw [List.getElem_zip, List.getElem_map, he]
    rfl
  have := h2 _ (List.getElem_mem (by simp; omega : i < ((args.map decoded).zip m.params).length))
  rw [hz] at this
  exact this

/-- **C58, violated.** A request without a method name panics in every provider. -/
theorem provider_no_name_panics_violated (L : Lib P) (upper : Bytes → Bytes) (methods : List (Method P V))
    (body : Bytes) : call L upper methods [] body = .panic := rfl

/-- **C58, violated.** Two services with one path (in different groups, say): the requests for the first are answered by
the second as soon as it is exported, and by none after it is unexported although the first still is exported. -/
theorem handler_paths_shared_violated (p q : Exported) (hp : p.path = q.path) :
    ([HAct.add p, .add q].foldl hstep []).load p.path = some q ∧
      ([HAct.add p, .add q, .rm q].foldl hstep []).load p.path = none := by
  constructor
  · rw [handler_serves]
    exact ⟨hp.symm, [.add p], [], rfl, by simp, by simp⟩
  · cases h : ([HAct.add p, .add q, .rm q].foldl hstep []).load p.path with
    | none => rfl
    | some r =>
      rw [handler_serves] at h
      obtain ⟨h1, a, b, h2, h3, h4⟩ := h
      exfalso
      match a, h2 with
      | [], h2 => cases h2; exact h4 q (by simp) hp.symm
      | [_], h2 => cases h2; exact h3 (by simp)
      | [_, _], h2 => cases h2
      | _ :: _ :: _ :: a, h2 => simp at h2

/-! ## A service -/

/-- A service with a method of a string, a 32-bit integer and a message. -/
def exService : List (Method Bytes Bytes) :=
  [{ name := b!"Hello", params := [.kind .str, .kind .i32, .msg], run := fun vs =>
      match vs with
      | [.prim (.str s), _, .msg m] => some (s ++ m)
      | _ => none },
   { name := b!"Ping", params := [], run := fun _ => some b!"pong" },
   { name := b!"Add", params := [.kind .int], run := fun _ => some b!"sum" },
   { name := b!"Fail", params := [], run := fun _ => none }]

example : call plainLib id exService b!"hello" (match serMulti plainLib
      [.prim (.str b!"hi "), .prim (.i32 (BitVec.ofInt 32 (-5))), .msg b!"x"] with | .ok b => b | .error _ => [])
    = .ran b!"Hello" [.prim (.str b!"hi "), .prim (.i32 (BitVec.ofInt 32 (-5))), .msg b!"x"] (some b!"hi x") := by
  obtain ⟨body, hb⟩ := pb_serializes plainLib [.prim (.str b!"hi "), .prim (.i32 (BitVec.ofInt 32 (-5))), .msg b!"x"]
    (by simp [plainLib])
  rw [hb]
  refine provider_called plainLib plainLib_codec id exService (by decide +kernel) exService[0] (by simp [exService])
    (by decide +kernel) ?_ b!"hello" (.inr (.inl ⟨104, b!"ello", rfl, by decide +kernel, by decide +kernel, rfl⟩)) _ rfl ?_ body hb
  · intro c s h
    have : c = 72 := by injection h with h; exact h.symm
    subst this
    exact .inl (by decide +kernel)
  · intro a ha
    simp only [exService, List.getElem_cons_zero, List.zip_cons_cons, List.mem_cons, List.zip_nil_right,
      List.not_mem_nil, or_false] at ha
    rcases ha with rfl | rfl | rfl
    · refine ⟨rfl, by decide, by decide, fun s h => ?_⟩
      cases h
      decide +kernel
    · exact ⟨rfl, by decide, by decide, fun s h => by cases h⟩
    · trivial

example : call plainLib id exService b!"Ping" [] = .ran b!"Ping" [] (some b!"pong") := rfl
example : handle plainLib id (fun _ => exService) [(b!"s", ⟨b!"s", 1⟩)] b!"s" b!"fail" [] = .exception 500 := rfl
example : call plainLib id exService b!"Ping" [0] = .panic := rfl
example : call plainLib id exService b!"nothing" [0] = .noMethod := rfl
example : call plainLib id exService b!"add" [0, 2] = .panic := rfl

example : Spec.serves [.add ⟨b!"s", 1⟩, .add ⟨b!"s", 2⟩, .rm ⟨b!"s", 1⟩] b!"s" ⟨b!"s", 2⟩ :=
  (handler_serves _ _ _).mp (by decide +kernel)

end Motan.Props
