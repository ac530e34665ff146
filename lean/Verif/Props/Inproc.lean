import Verif.Model.Inproc
import Verif.Props.Header

/-!
# C102: calls of a service in the same process, and calls over gRPC
-/

namespace Motan.Props

open Motan.Inproc Motan.Convert

namespace Spec

/-- The provider that the program registered last under a name. -/
def lastRegistered (ops : List Inproc.Op) (name : Bytes) : Option Nat :=
  ops.foldl (fun r o => match o with | .regist n p => if n = name then some p else r | _ => r) none

/-- The number of endpoints made. -/
def madeCount (ops : List Inproc.Op) : Nat := ops.countP fun o => match o with | .make _ => true | _ => false

/-- No endpoint that has taken the provider is still initializing it: all methods of a service that is a pointer are entered. -/
def NoneInitializing {V : Type} (svc : Nat → Option (Inproc.Service V)) (s : Inproc.St V) (p : Nat) : Prop :=
  ∀ ep ∈ s.eps, ep.provider = some p → ∀ sv, svc p = some sv → sv.pointer = true → ep.filled = sv.methods.length

/-- The services have no two methods of one name. -/
def MethodNamesDiffer {V : Type} (svc : Nat → Option (Inproc.Service V)) : Prop :=
  ∀ p s, svc p = some s → (s.methods.map (·.name)).Nodup

/-- The bytes that an argument gives a gRPC call: those of a value still to be deserialized, or a byte slice. -/
def GrpcMessage (a : Convert.Arg) (m : Bytes) : Prop := (∃ ser, a = .deser m ser) ∨ a = .val (.bytes m)

end Spec

namespace Inproc

variable {V : Type} {svc : Nat → Option (Service V)}

theorem run_snoc (s : St V) (ops : List Op) (o : Op) : Inproc.run svc s (ops ++ [o]) = Inproc.step svc (Inproc.run svc s ops) o := by
  simp [Inproc.run, List.foldl_append]

theorem run_append (s : St V) (a b : List Op) : Inproc.run svc s (a ++ b) = Inproc.run svc (Inproc.run svc s a) b := by
  simp [Inproc.run, List.foldl_append]

theorem step_table (s : St V) (o : Op) (name : Bytes) : (Inproc.step svc s o).table.load name =
    match o with | .regist n p => if n = name then some p else s.table.load name | _ => s.table.load name := by
  cases o with
  | regist n p => simp only [Inproc.step, AMap.load_store]
  | make u => simp only [Inproc.step]; split <;> rfl
  | fill e =>
    simp only [Inproc.step]
    split
    · rfl
    · split
      · rfl
      · split <;> rfl

theorem table_run (ops : List Op) (name : Bytes) :
    (Inproc.run svc {} ops).table.load name = Spec.lastRegistered ops name := by
  suffices h : ∀ (ops : List Op) (s : St V) (r : Option Nat), s.table.load name = r → (Inproc.run svc s ops).table.load name =
      ops.foldl (fun r o => match o with | .regist n p => if n = name then some p else r | _ => r) r from h ops {} none rfl
  intro ops
  induction ops with
  | nil => intro s r h; exact h
  | cons o ops ih =>
    intro s r h
    refine ih _ _ ?_
    rw [step_table, h]

/-- Endpoints stay, with their URL and provider. -/
theorem step_eps (s : St V) (o : Op) {k : Nat} {ep : Ep} (h : s.eps[k]? = some ep) :
    ∃ f, (Inproc.step svc s o).eps[k]? = some { ep with filled := f } := by
  have hk : k < s.eps.length := (List.getElem?_eq_some_iff.mp h).1
  cases o with
  | regist n p => exact ⟨_, h⟩
  | make u =>
    simp only [Inproc.step]
    split <;> exact ⟨ep.filled, by rw [List.getElem?_append_left hk, h]⟩
  | fill e =>
    simp only [Inproc.step]
    split
    · exact ⟨_, h⟩
    · rename_i ep' he
      split
      · exact ⟨_, h⟩
      · split
        · exact ⟨_, h⟩
        · simp only [List.getElem?_set]
          by_cases hke : e = k
          · subst hke
            rw [h] at he; cases he
            exact ⟨ep.filled + 1, by simp [hk]⟩
          · exact ⟨ep.filled, by rw [if_neg hke, h]⟩

theorem run_eps (ops : List Op) (s : St V) {k : Nat} {ep : Ep} (h : s.eps[k]? = some ep) :
    ∃ f, (Inproc.run svc s ops).eps[k]? = some { ep with filled := f } := by
  induction ops generalizing s ep with
  | nil => exact ⟨_, h⟩
  | cons o ops ih =>
    obtain ⟨f, hf⟩ := step_eps (svc := svc) s o h
    obtain ⟨g, hg⟩ := ih _ hf
    exact ⟨g, hg⟩

theorem length_eps (ops : List Op) : (Inproc.run svc {} ops).eps.length = Spec.madeCount ops := by
  suffices h : ∀ (ops : List Op) (s : St V), (Inproc.run svc s ops).eps.length = s.eps.length + Spec.madeCount ops by
    have := h ops {}; simpa using this
  intro ops
  induction ops with
  | nil => intro s; rfl
  | cons o ops ih =>
    intro s
    have h1 := ih (Inproc.step svc s o)
    rw [show Inproc.run svc s (o :: ops) = Inproc.run svc (Inproc.step svc s o) ops from rfl, h1]
    simp only [Spec.madeCount, List.countP_cons]
    cases o with
    | regist n p => simp [Inproc.step]
    | make u => simp only [Inproc.step]; split <;> simp <;> omega
    | fill e =>
      simp only [Inproc.step]
      split
      · simp
      · split
        · simp
        · split <;> simp

/-- What is entered is a method of the service under its name; and of each provider in use there is an endpoint all of whose entries are in
the table. -/
structure LocalInv (svc : Nat → Option (Service V)) (s : St V) : Prop where
  entered : ∀ p n m, (s.methods p).load n = some m → m ∈ toFill (svc p) ∧ m.name = n
  kept : ∀ (p k : Nat) (ep : Ep), s.eps[k]? = some ep → ep.provider = some p →
    ∃ (k' : Nat) (ep' : Ep), s.eps[k']? = some ep' ∧ ep'.provider = some p ∧
      ∀ i m, i < ep'.filled → (toFill (svc p))[i]? = some m → (s.methods p).load m.name = some m

theorem toFill_nodup (hn : Spec.MethodNamesDiffer svc) (p : Nat) : ((toFill (svc p)).map (·.name)).Nodup := by
  unfold toFill
  split
  · rename_i s hs
    split
    · exact hn p s hs
    · exact List.nodup_nil
  · exact List.nodup_nil

theorem name_inj {l : List (Method V)} (hn : (l.map (·.name)).Nodup) {a b : Method V} (ha : a ∈ l) (hb : b ∈ l)
    (h : a.name = b.name) : a = b := by
  induction l with
  | nil => cases ha
  | cons x l ih =>
    simp only [List.map_cons, List.nodup_cons, List.mem_map, not_exists, not_and] at hn
    rcases List.mem_cons.mp ha with rfl | ha
    · rcases List.mem_cons.mp hb with rfl | hb
      · rfl
      · exact absurd h.symm (hn.1 b hb)
    · rcases List.mem_cons.mp hb with rfl | hb
      · rename_i ha'; exact absurd h (hn.1 a ha')
      · exact ih hn.2 ha hb

theorem inv_step (hn : Spec.MethodNamesDiffer svc) {s : St V} (hi : LocalInv svc s) (o : Op) : LocalInv svc (Inproc.step svc s o) := by
  cases o with
  | regist n p => exact ⟨hi.entered, hi.kept⟩
  | make u =>
    simp only [Inproc.step]
    split
    · refine ⟨hi.entered, fun p k ep hk hp => ?_⟩
      by_cases hl : k < s.eps.length
      · rw [List.getElem?_append_left hl] at hk
        obtain ⟨k', ep', h1, h2, h3⟩ := hi.kept p k ep hk hp
        exact ⟨k', ep', by rw [List.getElem?_append_left (List.getElem?_eq_some_iff.mp h1).1]; exact h1, h2, h3⟩
      · rw [List.getElem?_append_right (by omega)] at hk
        have := List.mem_of_getElem? hk
        simp only [List.mem_singleton] at this
        subst this; cases hp
    · rename_i q hq
      refine ⟨fun p n m h => ?_, fun p k ep hk hp => ?_⟩
      · dsimp only at h
        split at h
        · cases h
        · exact hi.entered p n m h
      · by_cases hpq : p = q
        · subst hpq
          refine ⟨s.eps.length, { url := u, provider := some p }, by simp, rfl, fun i m hlt => absurd hlt (Nat.not_lt_zero i)⟩
        · simp only [if_neg hpq]
          by_cases hl : k < s.eps.length
          · rw [List.getElem?_append_left hl] at hk
            obtain ⟨k', ep', h1, h2, h3⟩ := hi.kept p k ep hk hp
            exact ⟨k', ep', by rw [List.getElem?_append_left (List.getElem?_eq_some_iff.mp h1).1]; exact h1, h2, h3⟩
          · rw [List.getElem?_append_right (by omega)] at hk
            have := List.mem_of_getElem? hk
            simp only [List.mem_singleton] at this
            subst this; cases hp; exact absurd rfl hpq
  | fill e =>
    simp only [Inproc.step]
    split
    · exact hi
    · rename_i ep0 he
      split
      · exact hi
      · rename_i q hq
        split
        · exact hi
        · rename_i m0 hm0
          have hel : e < s.eps.length := (List.getElem?_eq_some_iff.mp he).1
          have hm0m : m0 ∈ toFill (svc q) := List.mem_of_getElem? hm0
          -- entries survive the new one
          have keep : ∀ p m, m ∈ toFill (svc p) → (s.methods p).load m.name = some m →
              ((if p = q then (s.methods p).store m0.name m0 else s.methods p) : AMap Bytes (Method V)).load m.name = some m := by
            intro p m hm hl
            by_cases hpq : p = q
            · subst hpq
              rw [if_pos rfl, AMap.load_store]
              split
              · rename_i hname
                rw [name_inj (toFill_nodup hn p) hm0m hm hname]
              · exact hl
            · rw [if_neg hpq]; exact hl
          refine ⟨fun p n m h => ?_, fun p k ep hk hp => ?_⟩
          · dsimp only at h
            by_cases hpq : p = q
            · subst hpq
              rw [if_pos rfl, AMap.load_store] at h
              split at h
              · rename_i hname; cases h; exact ⟨hm0m, hname⟩
              · exact hi.entered p n m h
            · rw [if_neg hpq] at h; exact hi.entered p n m h
          · have hk0 : ∃ ep1, s.eps[k]? = some ep1 ∧ ep1.provider = some p := by
              simp only [List.getElem?_set] at hk
              split at hk
              · rename_i hek
                subst hek
                simp only [hel, if_true, Option.some.injEq] at hk
                subst hk
                exact ⟨ep0, he, hp⟩
              · exact ⟨ep, hk, hp⟩
            obtain ⟨ep1, hk1, hp1⟩ := hk0
            obtain ⟨k', ep', h1, h2, h3⟩ := hi.kept p k ep1 hk1 hp1
            by_cases hek : e = k'
            · subst hek
              rw [he] at h1; cases h1
              rw [hq] at h2; cases h2
              refine ⟨e, { ep0 with filled := ep0.filled + 1 }, by simp [hel], hq, fun i m hlt hm => ?_⟩
              by_cases hlast : i = ep0.filled
              · subst hlast
                rw [hm0] at hm; cases hm
                simp
              · exact keep _ m (List.mem_of_getElem? hm) (h3 i m (by dsimp only at hlt; omega) hm)
            · refine ⟨k', ep', by rw [List.getElem?_set]; simp [hek, h1], h2, fun i m hlt hm => ?_⟩
              exact keep p m (List.mem_of_getElem? hm) (h3 i m hlt hm)

theorem inv_run (hn : Spec.MethodNamesDiffer svc) (ops : List Op) : LocalInv svc (Inproc.run svc {} ops) := by
  suffices h : ∀ (ops : List Op) (s : St V), LocalInv svc s → LocalInv svc (Inproc.run svc s ops) from
    h ops {} ⟨fun _ _ _ h => (by cases h), fun _ k _ h => (by simp at h)⟩
  intro ops
  induction ops with
  | nil => intro s h; exact h
  | cons o ops ih => intro s h; exact ih _ (inv_step hn h o)

end Inproc

/-- **C102.** An endpoint takes the provider that was registered last under its path when it was made, and keeps it, whatever is registered
later. -/
theorem local_bound {V : Type} (svc : Nat → Option (Inproc.Service V)) (pre post : List Inproc.Op) (u : Inproc.Url) :
    ∃ f, (Inproc.run svc {} (pre ++ .make u :: post)).eps[Spec.madeCount pre]? =
      some { url := u, provider := Spec.lastRegistered pre u.path, filled := f } := by
  rw [show pre ++ Inproc.Op.make u :: post = (pre ++ [.make u]) ++ post by simp, Inproc.run_append]
  have h0 : (Inproc.run svc {} (pre ++ [.make u])).eps[Spec.madeCount pre]? =
      some { url := u, provider := Spec.lastRegistered pre u.path } := by
    rw [Inproc.run_snoc, ← Inproc.length_eps (svc := svc), ← Inproc.table_run (svc := svc)]
    simp only [Inproc.step]
    split
    · rename_i h; simp [h]
    · rename_i p h; simp [h]
  exact Inproc.run_eps post _ h0

/-- **C102.** A call of a service in the same process, after any history of registrations and initializations: if the provider the endpoint took is
not being initialized, the service's method of that name (the first letter made a capital) runs with the caller's own arguments, and its first
result is the answer, under the id of the request. -/
theorem local_call {V : Type} (upper : Bytes → Bytes) {svc : Nat → Option (Inproc.Service V)} (hn : Spec.MethodNamesDiffer svc)
    (pre post : List Inproc.Op) (u : Inproc.Url) (id : Nat) (method name : Bytes) {p : Nat} {sv : Inproc.Service V}
    {m : Inproc.Method V} (vs : List V)
    (hp : Spec.lastRegistered pre u.path = some p) (hs : svc p = some sv) (hptr : sv.pointer = true) (hm : m ∈ sv.methods)
    (hset : Spec.NoneInitializing svc (Inproc.run svc {} (pre ++ .make u :: post)) p)
    (hname : Provider.firstUpper upper method = some name) (hmn : m.name = name) (hacc : m.accepts vs = true) :
    Inproc.call upper (Inproc.run svc {} (pre ++ .make u :: post)) (Spec.madeCount pre) id method (vs.map some) =
      some (.value id (m.run vs).head?) := by
  obtain ⟨f, hf⟩ := local_bound svc pre post u
  have hi := Inproc.inv_run hn (pre ++ .make u :: post)
  obtain ⟨k', ep', h1, h2, h3⟩ := hi.kept p _ _ hf hp
  have hfill : toFill (svc p) = sv.methods := by rw [hs]; simp [toFill, hptr]
  have hlen := hset ep' (List.mem_of_getElem? h1) h2 sv hs hptr
  obtain ⟨i, hil, rfl⟩ := List.mem_iff_getElem.mp hm
  have hload := h3 i sv.methods[i] (by omega) (by rw [hfill]; exact List.getElem?_eq_getElem hil)
  rw [hmn] at hload
  have hfm : (vs.map some).filterMap (fun a : Option V => a) = vs := by
    clear hacc; induction vs with
    | nil => rfl
    | cons v vs ih => simpa using ih
  have hall : (vs.map some).all Option.isSome = true := by simp
  simp only [Inproc.call, hf, hp, Inproc.provide, hname, hload, hfm, hall, hacc, and_self, if_true]

/-- **C102.** A call of a method the service does not have is answered with an exception, at any time; and so is every call if nothing was
registered under the path. Both have the id of the request. -/
theorem local_refused {V : Type} (upper : Bytes → Bytes) {svc : Nat → Option (Inproc.Service V)} (hn : Spec.MethodNamesDiffer svc)
    (pre post : List Inproc.Op) (u : Inproc.Url) (id : Nat) (method name : Bytes) (args : List (Option V))
    (hname : Provider.firstUpper upper method = some name)
    (h : ∀ p sv m, Spec.lastRegistered pre u.path = some p → svc p = some sv → m ∈ sv.methods → m.name ≠ name) :
    Inproc.call upper (Inproc.run svc {} (pre ++ .make u :: post)) (Spec.madeCount pre) id method args = some (.exception id 500) := by
  obtain ⟨f, hf⟩ := local_bound svc pre post u
  have hi := Inproc.inv_run hn (pre ++ .make u :: post)
  simp only [Inproc.call, hf]
  cases hp : Spec.lastRegistered pre u.path with
  | none => rfl
  | some p =>
    simp only [Inproc.provide, hname]
    cases hl : ((Inproc.run svc {} (pre ++ .make u :: post)).methods p).load name with
    | none => rfl
    | some m =>
      obtain ⟨h1, h2⟩ := hi.entered p name m hl
      unfold toFill at h1
      split at h1
      · rename_i sv hs
        split at h1
        · exact absurd h2 (h p sv m hp hs h1)
        · cases h1
      · cases h1

/-- **C102.** No call runs anything but the service's method of that name, with the caller's arguments, at any time. -/
theorem local_only {V : Type} (upper : Bytes → Bytes) {svc : Nat → Option (Inproc.Service V)} (hn : Spec.MethodNamesDiffer svc)
    (ops : List Inproc.Op) (e id : Nat) (method : Bytes) (args : List (Option V)) {i : Nat} {v : Option V}
    (h : Inproc.call upper (Inproc.run svc {} ops) e id method args = some (.value i v)) :
    i = id ∧ ∃ p sv m vs, svc p = some sv ∧ m ∈ sv.methods ∧ Provider.firstUpper upper method = some m.name ∧ args = vs.map some ∧
      m.accepts vs = true ∧ v = (m.run vs).head? := by
  have hi := Inproc.inv_run hn ops
  unfold Inproc.call at h
  split at h
  · cases h
  · split at h
    · cases h
    · rename_i p _
      unfold Inproc.provide at h
      split at h
      · cases h
      · rename_i n hname
        split at h
        · cases h
        · rename_i m hl
          obtain ⟨h1, h2⟩ := hi.entered p n m hl
          split at h
          · rename_i hok
            cases h
            unfold toFill at h1
            split at h1
            · rename_i sv hs
              split at h1
              · refine ⟨rfl, p, sv, m, args.filterMap (fun a => a), hs, h1, by rw [hname, h2], ?_, hok.2, rfl⟩
                have hall := hok.1
                clear hok
                induction args with
                | nil => rfl
                | cons a args ih =>
                  simp only [List.all_cons, Bool.and_eq_true] at hall
                  cases a with
                  | none => exact absurd hall.1 (by simp)
                  | some a => simpa using ih hall.2
              · cases h1
            · cases h1
          · cases h

/-! ### Where the local endpoint does not keep what it seems to promise -/

/-- A service with one method that greets. -/
def exGreeter : Inproc.Service Bytes :=
  { pointer := true, methods := [{ name := b!"Hello", accepts := fun vs => vs.length == 1, run := fun vs => [b!"hello " ++ vs.headD []] }] }

/-- The hypotheses of `local_call` are met: two endpoints of one service, both initialized. -/
example : Inproc.call id (Inproc.run (fun _ => some exGreeter) {} [.regist b!"svc" 3, .make ⟨b!"svc", b!"g1"⟩, .make ⟨b!"svc", b!"g2"⟩, .fill 0, .fill 1])
    0 9 b!"hello" [some b!"bob"] = some (.value 9 (some b!"hello bob")) := by decide +kernel

example : Spec.MethodNamesDiffer (fun _ => some exGreeter) ∧
    Spec.NoneInitializing (fun _ => some exGreeter) (Inproc.run (fun _ => some exGreeter) {} ([.regist b!"svc" 3] ++ .make ⟨b!"svc", b!"g1"⟩ ::
      [.make ⟨b!"svc", b!"g2"⟩, .fill 0, .fill 1])) 3 := by
  refine ⟨fun p s h => by cases h; decide, fun ep hep _ sv hsv _ => ?_⟩
  cases hsv
  have he : (Inproc.run (fun _ => some exGreeter) {} ([.regist b!"svc" 3] ++ .make ⟨b!"svc", b!"g1"⟩ ::
      [.make ⟨b!"svc", b!"g2"⟩, .fill 0, .fill 1])).eps = [⟨⟨b!"svc", b!"g1"⟩, some 3, 1⟩, ⟨⟨b!"svc", b!"g2"⟩, some 3, 1⟩] := by decide +kernel
  rw [he] at hep
  simp only [List.mem_cons, List.not_mem_nil, or_false] at hep
  rcases hep with rfl | rfl <;> rfl

/-- **C102**: a client's call through a local endpoint has no error exactly if the endpoint has a provider, that provider has the method, and the
method takes the arguments. The reply is left as it was either way. -/
theorem local_client_error {V R : Type} (upper : Bytes → Bytes) (s : Inproc.St V) (e id : Nat) (method : Bytes) (args : List (Option V))
    (reply : R) {r : Inproc.Result V} (h : Inproc.call upper s e id method args = some r) :
    ((Inproc.clientCall r reply).1 = false ↔ ∃ ep p n m, s.eps[e]? = some ep ∧ ep.provider = some p ∧
      Provider.firstUpper upper method = some n ∧ (s.methods p).load n = some m ∧
      (∃ vs, args = vs.map some ∧ m.accepts vs = true)) ∧
    (Inproc.clientCall r reply).2 = reply := by
  refine ⟨?_, by cases r <;> rfl⟩
  constructor
  · intro hr
    obtain ⟨i, v, rfl⟩ : ∃ i v, r = .value i v := by
      cases r with
      | value i v => exact ⟨i, v, rfl⟩
      | exception => simp [Inproc.clientCall] at hr
      | panic => simp [Inproc.clientCall] at hr
    unfold Inproc.call at h
    split at h
    · cases h
    next ep hep =>
    split at h
    · simp at h
    next p hp =>
    unfold Inproc.provide at h
    split at h
    · simp at h
    next n hn =>
    split at h
    · simp at h
    next m hm =>
    split at h
    next hc =>
      refine ⟨ep, p, n, m, hep, hp, hn, hm, args.filterMap fun a => a, ?_, hc.2⟩
      have hall := hc.1
      clear h hc
      induction args with
      | nil => rfl
      | cons a as ih =>
        simp only [List.all_cons, Bool.and_eq_true] at hall
        cases a with
        | none => simp at hall
        | some a => simpa using ih hall.2
    · simp at h
  · rintro ⟨ep, p, n, m, hep, hp, hn, hm, vs, rfl, hv⟩
    have hfm : (vs.map some).filterMap (fun a => a) = vs := by simp [List.filterMap_map, Function.comp_def]
    have hall : (vs.map some).all Option.isSome = true := by simp
    simp only [Inproc.call, hep, hp, Inproc.provide, hn, hm, hfm, hall, hv, and_self, if_true, Option.some.injEq] at h
    subst h
    rfl

/-- The hypothesis of `local_client_error` is met by a call that succeeds and by one whose argument is nil, which panics. -/
example : Inproc.call id (Inproc.run (fun _ => some exGreeter) {} [.regist b!"svc" 3, .make ⟨b!"svc", b!"g1"⟩, .fill 0])
      0 9 b!"hello" [some b!"bob"] = some (.value 9 (some b!"hello bob")) ∧
    Inproc.call id (Inproc.run (fun _ => some exGreeter) {} [.regist b!"svc" 3, .make ⟨b!"svc", b!"g1"⟩, .fill 0])
      0 9 b!"hello" [none] = some .panic := by
  refine ⟨?_, ?_⟩ <;> decide +kernel

/-- **C102** (false of the code): "the client gets the answer". A client's call of a service in the same process succeeds, the service has answered,
and the reply is as it was. -/
theorem local_reply_violated : ∃ (ops : List Inproc.Op) (v : Bytes) (r : Inproc.Result Bytes),
    Inproc.call id (Inproc.run (fun _ => some exGreeter) {} ops) 0 9 b!"hello" [some b!"bob"] = some r ∧ r = .value 9 (some v) ∧
    ∀ reply : Bytes, Inproc.clientCall r reply = (false, reply) :=
  ⟨[.regist b!"svc" 3, .make ⟨b!"svc", b!"g"⟩, .fill 0], b!"hello bob", _, by decide +kernel, rfl, fun _ => rfl⟩

/-- **C102** (false of the code): "a service can be called once it is registered". An endpoint made before the registration answers every call, for
ever, with an exception. -/
theorem local_late_violated {V : Type} (upper : Bytes → Bytes) (svc : Nat → Option (Inproc.Service V)) (u : Inproc.Url) (p : Nat)
    (post : List Inproc.Op) (id : Nat) (method : Bytes) (args : List (Option V)) :
    Inproc.call upper (Inproc.run svc {} ([.make u, .regist u.path p] ++ post)) 0 id method args = some (.exception id 500) := by
  obtain ⟨f, hf⟩ := local_bound svc [] (.regist u.path p :: post) u
  have hf' : (Inproc.run svc {} ([.make u, .regist u.path p] ++ post)).eps[0]? = some { url := u, provider := none, filled := f } := hf
  simp only [Inproc.call, hf']

/-- **C102** (false of the code): "an endpoint that is initialized can be called". While another endpoint of the same path is initialized, the methods
of the service are not found. -/
theorem local_gap_violated :
    Inproc.call id (Inproc.run (fun _ => some exGreeter) {} [.regist b!"svc" 3, .make ⟨b!"svc", b!"g1"⟩, .fill 0]) 0 9 b!"hello" [some b!"bob"] =
      some (.value 9 (some b!"hello bob")) ∧
    Inproc.call id (Inproc.run (fun _ => some exGreeter) {} [.regist b!"svc" 3, .make ⟨b!"svc", b!"g1"⟩, .fill 0, .make ⟨b!"svc", b!"g2"⟩])
      0 9 b!"hello" [some b!"bob"] = some (.exception 9 500) :=
  ⟨by decide +kernel, by decide +kernel⟩

/-- **C102** (false of the code): "the provider behind an endpoint has the endpoint's URL". Two endpoints of one path share it, and its URL is that of the
one made last. -/
theorem local_url_violated :
    let s := Inproc.run (V := Bytes) (fun _ => some exGreeter) {} [.regist b!"svc" 3, .make ⟨b!"svc", b!"g1"⟩, .fill 0, .make ⟨b!"svc", b!"g2"⟩, .fill 1]
    (s.eps[0]?.map fun ep => (ep.url.group, ep.provider)) = some (b!"g1", some 3) ∧ (s.url 3).map (·.group) = some b!"g2" := by
  decide +kernel

/-! ## The gRPC endpoint -/

theorem metadataOf_load (lower : Bytes → Bytes) (atts : AMap Bytes Bytes) (k : Bytes) :
    ((metadataOf lower atts).load k).getD [] = (atts.filter fun p => lower p.1 == k).map (·.2) := by
  unfold metadataOf
  suffices h : ∀ (atts : List (Bytes × Bytes)) (md : AMap Bytes (List Bytes)),
      ((atts.foldl (fun md p => md.store (lower p.1) ((md.load (lower p.1)).getD [] ++ [p.2])) md).load k).getD [] =
        (md.load k).getD [] ++ (atts.filter fun p => lower p.1 == k).map (·.2) by
    simpa using h atts []
  intro atts
  induction atts with
  | nil => intro md; simp
  | cons p atts ih =>
    intro md
    rw [List.foldl_cons, ih, List.filter_cons]
    by_cases h : lower p.1 = k
    · subst h; simp
    · rw [AMap.load_store_ne _ _ h]; simp [h]

/-- **C102.** A call over gRPC invokes, once, the method of the request's service, with the bytes of the first argument as the message; the metadata
has under each name the values of the attachments whose names are that name in small letters. -/
theorem grpc_invokes (lower : Bytes → Bytes) (server : Invocation → Inproc.Reply) (time : Int) (r : Convert.Request) {a : Convert.Arg}
    {rest : List Convert.Arg} {m : Bytes} (ha : r.args = a :: rest) (hm : Spec.GrpcMessage a m) :
    ∃ inv, (grpcCall lower server time r).1 = [inv] ∧ inv.path = b!"/" ++ r.service ++ b!"/" ++ r.method ∧ inv.message = m ∧
      ∀ k, (inv.metadata.load k).getD [] = (r.attachment.filter fun p => lower p.1 == k).map (·.2) := by
  have hmo : messageOf a = some m := by rcases hm with ⟨ser, rfl⟩ | rfl <;> rfl
  refine ⟨{ path := b!"/" ++ r.service ++ b!"/" ++ r.method, metadata := metadataOf lower r.attachment, message := m }, ?_, rfl, rfl,
    metadataOf_load lower r.attachment⟩
  simp only [grpcCall, ha, hmo]
  split <;> rfl

/-- **C102.** The caller gets the message the gRPC server answers, or an exception with the server's code and description, under the id of its
request. -/
theorem grpc_answers (lower : Bytes → Bytes) (server : Invocation → Inproc.Reply) (time : Int) (r : Convert.Request) {inv : Invocation}
    (hi : (grpcCall lower server time r).1 = [inv]) :
    ∃ resp, (grpcCall lower server time r).2 = some resp ∧ resp.id = r.id ∧
      (∀ out, server inv = .ok out → resp.value = some (.val (.bytes out)) ∧ resp.exception = none) ∧
      (∀ code desc, server inv = .failed code desc →
        resp.value = none ∧ ∃ e, resp.exception = some e ∧ e.errCode = code ∧ e.errMsg = desc) := by
  unfold grpcCall at hi ⊢
  split
  · rename_i h; simp only [h] at hi; cases hi
  · rename_i a _ h
    simp only [h] at hi
    cases hmo : messageOf a with
    | none => simp only [hmo] at hi; cases hi
    | some m =>
      simp only [hmo] at hi ⊢
      cases hs : server { path := b!"/" ++ r.service ++ b!"/" ++ r.method, metadata := metadataOf lower r.attachment, message := m } with
      | ok out =>
        simp only [hs] at hi
        cases hi
        exact ⟨_, rfl, rfl, fun o h => (by rw [hs] at h; cases h; exact ⟨rfl, rfl⟩), fun c d h => (by rw [hs] at h; cases h)⟩
      | failed code desc =>
        simp only [hs] at hi
        cases hi
        exact ⟨_, rfl, rfl, fun o h => (by rw [hs] at h; cases h),
          fun c d h => (by rw [hs] at h; cases h; exact ⟨rfl, _, rfl, rfl, rfl⟩)⟩

/-- **C102.** An agent that relays a call to a gRPC server hands the server's message to the caller as it is, as the protobuf serialization (number 1) has
it, whatever serialization the agent is configured with. -/
theorem grpc_relayed (lower : Bytes → Bytes) (server : Invocation → Inproc.Reply) (time : Int) (r : Convert.Request) {inv : Invocation}
    {out : Bytes} (hi : (grpcCall lower server time r).1 = [inv]) (ho : server inv = .ok out) (lib : Convert.Lib) (ser : Option Ser) :
    ∃ resp msg, (grpcCall lower server time r).2 = some resp ∧ convertToResMessage lib ser resp = .ok msg ∧ msg.body = out ∧
      msg.header.getSerialize = 1 ∧ msg.header.requestID = r.id ∧ msg.header.getStatus = 0 ∧ msg.header.isGzip = false ∧
      msg.header.isRequest = false := by
  unfold grpcCall at hi ⊢
  split
  · rename_i h; simp only [h] at hi; cases hi
  · rename_i a _ h
    simp only [h] at hi
    cases hmo : messageOf a with
    | none => simp only [hmo] at hi; cases hi
    | some m =>
      simp only [hmo] at hi ⊢
      cases hs : server { path := b!"/" ++ r.service ++ b!"/" ++ r.method, metadata := metadataOf lower r.attachment, message := m } with
      | ok o =>
        simp only [hs] at hi
        cases hi
        rw [hs] at ho; cases ho
        refine ⟨_, _, rfl, rfl, rfl, ?_, rfl, ?_, ?_, ?_⟩ <;>
          (simp [encodeMessageGzip, exceptionRC, Motan2.buildHeader, Motan2.Header.getSerialize, Motan2.Header.getStatus,
            Motan2.Header.isGzip, Motan2.Header.isRequest]; decide)
      | failed code desc =>
        simp only [hs] at hi
        cases hi
        rw [hs] at ho; cases ho

/-- **C102.** A call whose first argument is neither serialized nor a byte slice is answered with an exception and nothing is sent. -/
theorem grpc_refused (lower : Bytes → Bytes) (server : Invocation → Inproc.Reply) (time : Int) (r : Convert.Request) {a : Convert.Arg}
    {rest : List Convert.Arg} (ha : r.args = a :: rest) (hm : ∀ m, ¬ Spec.GrpcMessage a m) :
    ∃ resp e, grpcCall lower server time r = ([], some resp) ∧ resp.id = r.id ∧ resp.value = none ∧ resp.exception = some e ∧
      e.errCode = 500 ∧ e.errType = 1 := by
  have hmo : messageOf a = none := by
    cases a with
    | deser b s => exact absurd (.inl ⟨s, rfl⟩) (hm b)
    | val v => cases v <;> first | rfl | exact absurd (.inr rfl) (hm _)
  simp only [grpcCall, ha, hmo]
  exact ⟨_, _, rfl, rfl, rfl, rfl, rfl, rfl⟩

/-- **C102.** A failure of the gRPC server is taken for an answer of the business, which is not tried again, exactly if its code is 2 (`Unknown`). -/
theorem grpc_retried (lower : Bytes → Bytes) (server : Invocation → Inproc.Reply) (time : Int) (r : Convert.Request) {inv : Invocation}
    {code : Nat} {desc : Bytes} (hi : (grpcCall lower server time r).1 = [inv]) (hf : server inv = .failed code desc) :
    ∃ resp, (grpcCall lower server time r).2 = some resp ∧ (Ha.accepted resp = true ↔ code = 2) := by
  unfold grpcCall at hi ⊢
  split
  · rename_i h; simp only [h] at hi; cases hi
  · rename_i a _ h
    simp only [h] at hi
    cases hmo : messageOf a with
    | none => simp only [hmo] at hi; cases hi
    | some m =>
      simp only [hmo] at hi ⊢
      cases hs : server { path := b!"/" ++ r.service ++ b!"/" ++ r.method, metadata := metadataOf lower r.attachment, message := m } with
      | ok o => simp only [hs] at hi; cases hi; rw [hs] at hf; cases hf
      | failed c d =>
        simp only [hs] at hi
        cases hi
        rw [hs] at hf; cases hf
        refine ⟨_, rfl, ?_⟩
        simp only [Ha.accepted, Ha.bizException, decide_eq_true_eq]
        exact ⟨fun h => (by have h' : (code : Int) = 2 := of_decide_eq_true h; omega), fun h => (by rw [h]; rfl)⟩

/-- A request for the examples. -/
def exGrpcReq (args : List Convert.Arg) : Convert.Request :=
  { id := 5, service := b!"helloworld.Greeter", method := b!"SayHello", desc := [], args := args,
    attachment := [(b!"M_g", b!"g"), (b!"Trace", b!"1"), (b!"trace", b!"2")] }

/-- **C102** (false of the code): "failures of the server are tried again, answers of the business are not". A refusal by the business logic (code 3,
`InvalidArgument`) is tried again; a failure of an unknown kind (code 2) is not. -/
theorem grpc_kind_violated : ∃ (r : Convert.Request) (resp3 resp2 : Convert.Response),
    (grpcCall id (fun _ => .failed 3 b!"bad name") 1 r).2 = some resp3 ∧ Ha.accepted resp3 = false ∧
    (grpcCall id (fun _ => .failed 2 b!"broken") 1 r).2 = some resp2 ∧ Ha.accepted resp2 = true :=
  ⟨exGrpcReq [.val (.bytes [1, 2])], _, _, rfl, by decide, rfl, by decide⟩

/-- **C102** (false of the code): "every call is answered". A call without arguments panics. -/
theorem grpc_no_argument_violated (lower : Bytes → Bytes) (server : Invocation → Inproc.Reply) (time : Int) :
    grpcCall lower server time (exGrpcReq []) = ([], none) := rfl

/-- The hypotheses are met. -/
example : (grpcCall id (fun i => .ok i.message) 1 (exGrpcReq [.deser [7, 8] none])).1 =
    [{ path := b!"/helloworld.Greeter/SayHello", metadata := [(b!"M_g", [b!"g"]), (b!"Trace", [b!"1"]), (b!"trace", [b!"2"])], message := [7, 8] }] := by
  decide +kernel

example : Spec.GrpcMessage (.deser [7, 8] none) [7, 8] := .inl ⟨none, rfl⟩

end Motan.Props
