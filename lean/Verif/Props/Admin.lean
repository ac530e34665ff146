import Verif.Model.Admin
import Verif.Props.Dynamic

/-!
# C101: the administrative pages answer what they are asked
-/

namespace Motan.Props

open Strings Url Dynamic Admin

/-! ## Specification -/

/-- The changes that can be asked for, by the URI of the request. -/
inductive Spec.Change : Bytes → Dynamic.Kind → Prop
  | register : Spec.Change b!"/registry/register" .register
  | unregister : Spec.Change b!"/registry/unregister" .unregister
  | subscribe : Spec.Change b!"/registry/subscribe" .subscribe

/-- The URIs that only show something. -/
def Spec.ShowsOnly (uri : Bytes) : Prop := uri = b!"/registry/list" ∨ uri = b!"/registry/info"

/-- The keys a request for the runtime page asks for. -/
def Spec.AskedKey (keys k : Bytes) : Prop :=
  if keys = [] then
    k ∈ [b!"clusters", b!"httpClusters", b!"exporters", b!"servers", b!"extensionFactory", b!"basic"]
  else k ∈ split b!"," keys

/-- What the part of a key does: it says something, or it panics (none). -/
inductive Spec.PartOf {α : Type} (p : Admin.Parts α) : Bytes → Option (Option α) → Prop
  | clusters : Spec.PartOf p b!"clusters" p.clusters
  | httpClusters : Spec.PartOf p b!"httpClusters" p.httpClusters
  | exporters : Spec.PartOf p b!"exporters" p.exporters
  | servers : Spec.PartOf p b!"servers" p.servers
  | extensionFactory : Spec.PartOf p b!"extensionFactory" p.extensionFactory
  | basic : Spec.PartOf p b!"basic" p.basic

/-- What a key stands for. -/
def Spec.StandsFor {α : Type} (p : Admin.Parts α) (k : Bytes) (i : Option α) : Prop := Spec.PartOf p k (some i)

/-! ## Dynamic registration -/

theorem change_uri {uri : Bytes} {k : Dynamic.Kind} (h : Spec.Change uri k) (E : Env) (port : Int) (sn : Snap) (s : Dynamic.St)
    (body : Option URL) : Admin.serveRegistry E port sn s uri body = Admin.change E s k body := by
  cases h with
  | register => rfl
  | unregister => unfold Admin.serveRegistry; rw [if_neg (by decide), if_pos rfl]
  | subscribe => unfold Admin.serveRegistry; rw [if_neg (by decide), if_neg (by decide), if_pos rfl]

/-- C101: a request to register, unregister or subscribe is answered 200 if its body can be parsed and it names a
registry or no group at all, and then its calls have been made; otherwise it is answered 400 and nothing is changed. The
answer repeats the status in its body. -/
theorem change_answer {uri : Bytes} {k : Dynamic.Kind} (h : Spec.Change uri k) {E : Env} (hid : ∀ p ∈ E.registries, p.1 ≠ [])
    (port : Int) (sn : Snap) (s : Dynamic.St) (body : Option URL) (hb : ∀ u, body = some u → Spec.Built u) :
    (∃ u calls, body = some u ∧
      ((∃ g, Spec.IsGroup E u g) → ∃ p ∈ E.registries, Spec.NamesRegistry E u p.2) ∧
      Dynamic.requestCalls E k u = some calls ∧
      Admin.serveRegistry E port sn s uri body = (⟨200, some (200, b!"ok", .nothing)⟩, calls.foldl (Dynamic.run E) s)) ∨
    ((∀ u, body = some u → (∃ g, Spec.IsGroup E u g) ∧ ∀ p ∈ E.registries, ¬ Spec.NamesRegistry E u p.2) ∧
      Admin.serveRegistry E port sn s uri body = (⟨400, some (400, [], .nothing)⟩, s)) := by
  rw [change_uri h]
  cases body with
  | none => exact .inr ⟨fun u e => (by cases e), rfl⟩
  | some u =>
    have hr := request_refused hid k (hb u rfl)
    cases hc : Dynamic.requestCalls E k u with
    | none =>
      refine .inr ⟨fun v e => ?_, ?_⟩
      · cases e; exact hr.1 hc
      · simp [Admin.change, hc, Admin.respond]
    | some calls =>
      refine .inl ⟨u, calls, rfl, fun hg => ?_, hc, ?_⟩
      · refine Classical.byContradiction fun hn => ?_
        have := hr.2 ⟨hg, fun p hp hq => hn ⟨p, hp, hq⟩⟩
        rw [hc] at this; cases this
      · simp [Admin.change, hc, Admin.respond]

/-- C101: the list shows the nodes there are and the information page the agent's port; neither changes anything. -/
theorem shows_answer (E : Env) (port : Int) (sn : Snap) (s : Dynamic.St) (body : Option URL) :
    Admin.serveRegistry E port sn s b!"/registry/list" body = (⟨200, some (200, b!"ok", .listing sn)⟩, s) ∧
      Admin.serveRegistry E port sn s b!"/registry/info" body = (⟨200, some (200, b!"ok", .port port)⟩, s) := by
  constructor
  · unfold Admin.serveRegistry; rw [if_neg (by decide), if_neg (by decide), if_neg (by decide), if_pos rfl]; rfl
  · unfold Admin.serveRegistry
    rw [if_neg (by decide), if_neg (by decide), if_neg (by decide), if_neg (by decide), if_pos rfl]; rfl

/-- C101: every other URI is answered 404 without a body, and nothing is changed. -/
theorem unknown_answer (E : Env) (port : Int) (sn : Snap) (s : Dynamic.St) (body : Option URL) (uri : Bytes)
    (hc : ∀ k, ¬ Spec.Change uri k) (hs : ¬ Spec.ShowsOnly uri) :
    Admin.serveRegistry E port sn s uri body = (⟨404, none⟩, s) := by
  unfold Admin.serveRegistry
  rw [if_neg (fun e => hc .register (by subst e; exact .register)), if_neg (fun e => hc .unregister (by subst e; exact .unregister)),
    if_neg (fun e => hc .subscribe (by subst e; exact .subscribe)), if_neg (fun e => hs (.inl e)), if_neg (fun e => hs (.inr e))]

/-- Not so for a user who adds a query: whatever is asked, the answer is 404. -/
theorem query_violated (E : Env) (port : Int) (sn : Snap) (s : Dynamic.St) (body : Option URL) (page query : Bytes) :
    Admin.serveRegistry E port sn s (page ++ b!"?" ++ query) body = (⟨404, none⟩, s) := by
  have hq : ∀ t : Bytes, (63 : UInt8) ∉ t → page ++ b!"?" ++ query ≠ t := by
    intro t ht e
    apply ht
    rw [← e]
    have : (63 : UInt8) ∈ (b!"?" : Bytes) := by decide
    simp only [List.mem_append]
    exact .inl (.inr this)
  refine unknown_answer E port sn s body _ (fun k h => ?_) (fun h => ?_)
  · generalize hu : page ++ b!"?" ++ query = uri at h
    cases h <;> exact hq _ (by decide) hu
  · rcases h with h | h <;> exact hq _ (by decide) h

/-- What a user may expect and does not get: the answer is 200 and "ok" although the agent refused to register a service
of its own configuration file. (`doRegister` only logs the error.) -/
theorem answered_ok_violated :
    let r := Admin.serveRegistry { dynEnv with services := [(getIdentity dynNode).1] } 9981 ⟨[], []⟩ {} b!"/registry/register"
      (some { dynBody with group := b!"g1" })
    r.1.status = 200 ∧ r.2.regNodes = [] ∧ r.2.exporters = [] := by
  refine ⟨by decide +kernel, by decide +kernel, by decide +kernel⟩

/-! ## Runtime information -/

theorem part_is {α : Type} (p : Admin.Parts α) (k : Bytes) (o : Option (Option α)) :
    Admin.part p k = some o ↔ Spec.PartOf p k o := by
  constructor
  · intro h
    unfold Admin.part at h
    repeat' split at h
    all_goals first
      | (rename_i e; subst e; simp only [Option.some.injEq] at h; subst h; constructor)
      | cases h
  · intro h
    cases h <;> rfl

theorem part_tells {α : Type} (p : Admin.Parts α) (k : Bytes) (i : Option α) :
    Admin.part p k = some (some i) ↔ Spec.StandsFor p k i := part_is p k (some i)

/-- The value of the page for what a part says. -/
def Spec.pageValue {α : Type} : Option α → Admin.Value α
  | some a => .info a
  | none => .empty

theorem runtimeFill_spec {α : Type} (p : Admin.Parts α) : ∀ (ks : List Bytes) (page : AMap Bytes (Admin.Value α)),
    (Admin.fill p ks page = none ↔ ∃ k ∈ ks, Spec.PartOf p k none) ∧
      ∀ m, Admin.fill p ks page = some m → ∀ k,
        (∀ i, k ∈ ks → Spec.StandsFor p k i → AMap.load m k = some (Spec.pageValue i)) ∧
        ((k ∉ ks ∨ ∀ i, ¬ Spec.StandsFor p k i) → AMap.load m k = AMap.load page k)
  | [], page => ⟨by simp [Admin.fill], fun m h k => by
      simp only [Admin.fill, Option.some.injEq] at h
      subst h
      exact ⟨fun i hk => absurd hk (by simp), fun _ => rfl⟩⟩
  | x :: ks, page => by
    unfold Admin.fill
    have hcons : ∀ (_ : Admin.part p x ≠ some none),
        (∃ k ∈ x :: ks, Spec.PartOf p k none) ↔ ∃ k ∈ ks, Spec.PartOf p k none := by
      intro hx
      constructor
      · rintro ⟨k, hk, h⟩
        rcases List.mem_cons.1 hk with e | hk
        · subst e; exact absurd ((part_is p k none).2 h) hx
        · exact ⟨k, hk, h⟩
      · rintro ⟨k, hk, h⟩; exact ⟨k, List.mem_cons_of_mem _ hk, h⟩
    cases hx : Admin.part p x with
    | none =>
      obtain ⟨h1, h2⟩ := runtimeFill_spec p ks page
      have hnt : ∀ i, ¬ Spec.StandsFor p x i := fun i h => by rw [(part_tells p x i).2 h] at hx; cases hx
      refine ⟨h1.trans (hcons (by rw [hx]; simp)).symm, fun m h k => ?_⟩
      obtain ⟨a, b⟩ := h2 m h k
      refine ⟨fun i hk ht => ?_, fun hk => ?_⟩
      · rcases List.mem_cons.1 hk with e | hk
        · subst e; exact absurd ht (hnt i)
        · exact a i hk ht
      · refine b ?_
        rcases hk with hk | hk
        · exact .inl fun h => hk (List.mem_cons_of_mem _ h)
        · exact .inr hk
    | some o =>
      cases o with
      | none => exact ⟨⟨fun _ => ⟨x, List.mem_cons_self .., (part_is p x none).1 hx⟩, fun _ => rfl⟩, fun m h => by cases h⟩
      | some i =>
        have ht := (part_tells p x i).1 hx
        obtain ⟨h1, h2⟩ := runtimeFill_spec p ks (Admin.addInfos i x page)
        have hadd : Admin.addInfos i x page = AMap.store page x (Spec.pageValue i) := by cases i <;> rfl
        have hfun : ∀ j, Spec.StandsFor p x j → j = i := fun j hj => by
          have := (part_tells p x j).2 hj
          rw [hx] at this
          simpa using this.symm
        refine ⟨h1.trans (hcons (by rw [hx]; simp)).symm, fun m h k => ?_⟩
        obtain ⟨a, b⟩ := h2 m h k
        refine ⟨fun j hk hj => ?_, fun hk => ?_⟩
        · by_cases hks : k ∈ ks
          · exact a j hks hj
          · rcases List.mem_cons.1 hk with e | hk
            · subst e
              rw [b (.inl hks), hadd, AMap.load_store_self, hfun j hj]
            · exact absurd hk hks
        · have hne : x ≠ k := fun e => by
            subst e
            rcases hk with hk | hk
            · exact hk (List.mem_cons_self ..)
            · exact hk i ht
          rw [b ?_, hadd, AMap.load_store_ne _ _ hne]
          rcases hk with hk | hk
          · exact .inl fun h => hk (List.mem_cons_of_mem _ h)
          · exact .inr hk

theorem tells_key {α : Type} {p : Admin.Parts α} {k : Bytes} {i : Option α} (h : Spec.StandsFor p k i) : k ≠ b!"result" ∧ k ≠ b!"instanceType" := by
  unfold Spec.StandsFor at h
  generalize some i = o at h
  cases h <;> decide

/-- C101: the page has the result, the kind of instance, and of the keys asked for those there are, each with what the
agent says, an empty object if it says nothing; nothing else. In which order and how often the keys are named does not
matter. -/
theorem runtime_page {α : Type} (p : Admin.Parts α) (keys : Bytes) (m : AMap Bytes (Admin.Value α))
    (h : Admin.runtimeInfo p b!"/runtime/info" keys = some (some m)) (k : Bytes) :
    (k = b!"result" → AMap.load m k = some (.text b!"ok")) ∧
      (k = b!"instanceType" → AMap.load m k = some (.text b!"motan-agent")) ∧
      (∀ i, Spec.AskedKey keys k → Spec.StandsFor p k i → AMap.load m k = some (Spec.pageValue i)) ∧
      (k ≠ b!"result" → k ≠ b!"instanceType" → (¬ Spec.AskedKey keys k ∨ ∀ i, ¬ Spec.StandsFor p k i) → AMap.load m k = none) := by
  unfold Admin.runtimeInfo at h
  rw [if_pos rfl] at h
  obtain ⟨m', hm, e⟩ := Option.map_eq_some_iff.1 h
  cases e
  obtain ⟨a, b⟩ := (runtimeFill_spec p _ _).2 m hm k
  have hask : Spec.AskedKey keys k ↔ k ∈ (if keys = [] then Admin.defaultKeys else split b!"," keys) := by
    unfold Spec.AskedKey
    split <;> rfl
  refine ⟨fun e => ?_, fun e => ?_, fun i hk ht => a i (hask.1 hk) ht, fun h1 h2 h3 => ?_⟩
  · subst e; rw [b (.inr fun i h => (tells_key h).1 rfl)]; rfl
  · subst e; rw [b (.inr fun i h => (tells_key h).2 rfl)]; rfl
  · rw [b (h3.imp (fun h h' => h (hask.2 h')) id), AMap.load_cons, if_neg (fun e => h1 e.symm), AMap.load_cons,
      if_neg (fun e => h2 e.symm)]
    rfl

/-- C101: it is given, unless a part asked for panics (C104: when that is). -/
theorem runtime_given {α : Type} (p : Admin.Parts α) (keys : Bytes) :
    Admin.runtimeInfo p b!"/runtime/info" keys = none ↔ ∃ k, Spec.AskedKey keys k ∧ Spec.PartOf p k none := by
  unfold Admin.runtimeInfo
  rw [if_pos rfl, Option.map_eq_none_iff, (runtimeFill_spec p _ _).1]
  unfold Spec.AskedKey
  split <;> rfl

/-- C101: other paths write nothing. -/
theorem runtime_other {α : Type} (p : Admin.Parts α) (path keys : Bytes) (h : path ≠ b!"/runtime/info") :
    Admin.runtimeInfo p path keys = some none := by
  unfold Admin.runtimeInfo; rw [if_neg h]

/-- Nor are spaces after the commas allowed: the second key is left out without a word. -/
theorem runtime_space_violated :
    ∃ m, Admin.runtimeInfo (α := Nat) ⟨some (some 1), some (some 2), some (some 3), some (some 4), some (some 5), some (some 6)⟩ b!"/runtime/info" b!"clusters, basic" = some (some m) ∧
      AMap.load m b!"clusters" = some (.info 1) ∧ AMap.load m b!"basic" = none := by
  refine ⟨[(b!"result", .text b!"ok"), (b!"instanceType", .text b!"motan-agent"), (b!"clusters", .info 1)], ?_, ?_, ?_⟩ <;> decide +kernel

/-! ## Cases -/

/-- A request that is accepted, one that is refused. -/
example : (Admin.serveRegistry dynEnv 9981 ⟨[], []⟩ {} b!"/registry/register" (some dynBody)).1.status = 200 ∧
    (Admin.serveRegistry dynEnv 9981 ⟨[], []⟩ {} b!"/registry/register" (some dynBody)).2.regNodes.length = 2 ∧
    (Admin.serveRegistry dynEnv 9981 ⟨[], []⟩ {} b!"/registry/subscribe" (some { dynBody with params := some [] })).1.status = 400 := by
  refine ⟨by decide +kernel, by decide +kernel, by decide +kernel⟩

/-- A page for two keys, one of them unknown, with a part that says nothing. -/
example : Admin.runtimeInfo (α := Nat) ⟨some (some 1), some none, some (some 3), some (some 4), some (some 5), some (some 6)⟩ b!"/runtime/info" b!"httpClusters,x,basic" =
    some (some [(b!"result", .text b!"ok"), (b!"instanceType", .text b!"motan-agent"), (b!"httpClusters", .empty), (b!"basic", .info 6)]) := by
  decide +kernel

end Motan.Props
