import Verif.Model.Manage

/-!
# C81: the management interface

The server mux `m` is the one the agent builds, whatever the order in which the handlers are visited. The specification
names paths, parameters and answers only.
-/

namespace Motan.Props

open Motan.Strings Motan.Url Motan.RefersFilter Motan.Manage

/-! ## Who answers -/

/-- The mux of an agent with handlers of its own and handlers chosen by the environment. -/
def Spec.IsMux (m : AMap Bytes Handler) (given : AMap Bytes Handler) (env : AMap Bytes (AMap Bytes Handler))
    (names : Bytes) : Prop :=
  ∃ order : List (Bytes × Handler), order.Perm (handlers given env names) ∧ m = mux order

/-- The mux of an agent with nothing added. -/
def Spec.IsDefaultMux (m : AMap Bytes Handler) : Prop := Spec.IsMux m [] [] []

/-- The paths of package net/http/pprof. -/
def Spec.imported : List Bytes :=
  [b!"/debug/pprof/", b!"/debug/pprof/cmdline", b!"/debug/pprof/profile", b!"/debug/pprof/symbol", b!"/debug/pprof/trace"]

/-- The last of the named groups of handlers that has this path. -/
def Spec.fromEnv (env : AMap Bytes (AMap Bytes Handler)) (path : Bytes) : List Bytes → Option Handler
  | [] => none
  | k :: ks =>
    match Spec.fromEnv env path ks with
    | some h => some h
    | none => (AMap.load env (trimSpace k)).bind fun hs => AMap.load hs path

theorem foldl_mhandle (order : List (Bytes × Handler)) (m : AMap Bytes Handler) (p : Bytes) :
    AMap.load (order.foldl (fun m p => mhandle m p.1 p.2) m) p
      = match AMap.load m p with
        | some h => some h
        | none => AMap.load order p := by
  induction order generalizing m with
  | nil => show AMap.load m p = _; cases AMap.load m p <;> rfl
  | cons x xs ih =>
    rw [List.foldl_cons, ih]
    obtain ⟨k, h⟩ := x
    unfold mhandle
    cases hk : AMap.load m k with
    | some h' =>
      simp only []
      by_cases e : k = p
      · subst e; simp [hk]
      · rw [AMap.load_cons, if_neg e]
    | none =>
      simp only []
      rw [AMap.load_store]
      by_cases e : k = p
      · subst e; simp [hk, AMap.load_cons]
      · rw [AMap.load_cons, if_neg e]
        simp only [e, if_false]

theorem nodup_defaults : AMap.NodupKeys defaults := by
  unfold AMap.NodupKeys; decide +kernel

theorem nodup_handlers (given env names) : AMap.NodupKeys (handlers given env names) := by
  unfold handlers
  generalize split b!"," names = l
  have : AMap.NodupKeys (AMap.storeAll defaults given) := AMap.nodupKeys_storeAll nodup_defaults _
  revert this
  generalize AMap.storeAll defaults given = m
  induction l generalizing m with
  | nil => exact id
  | cons k ks ih =>
    intro hn
    rw [List.foldl_cons]
    apply ih
    cases AMap.load env (trimSpace k) with
    | none => exact hn
    | some v => exact AMap.nodupKeys_storeAll hn _

theorem load_perm {a b : AMap Bytes Handler} (hp : a.Perm b) (hn : AMap.NodupKeys b) (p : Bytes) :
    AMap.load a p = AMap.load b p := by
  have ha : AMap.NodupKeys a := (hp.map Prod.fst).nodup_iff.mpr hn
  cases h : AMap.load b p with
  | none =>
    rw [AMap.load_eq_none] at h ⊢
    exact fun hm => h ((hp.map Prod.fst).mem_iff.mp hm)
  | some v => exact AMap.load_of_mem ha (hp.mem_iff.mpr (AMap.mem_of_load h))

theorem load_mux {m given env names} (hm : Spec.IsMux m given env names) (p : Bytes) :
    AMap.load m p = match AMap.load imported p with
      | some h => some h
      | none => AMap.load (handlers given env names) p := by
  obtain ⟨order, hp, rfl⟩ := hm
  rw [mux, foldl_mhandle, load_perm hp (nodup_handlers ..)]

theorem load_handlers (given env) (names : Bytes) (hg : AMap.NodupKeys given)
    (he : ∀ k hs, AMap.load env k = some hs → AMap.NodupKeys hs) (p : Bytes) :
    AMap.load (handlers given env names) p
      = match Spec.fromEnv env p (split b!"," names) with
        | some h => some h
        | none => match AMap.load given p with
          | some h => some h
          | none => AMap.load defaults p := by
  unfold handlers
  generalize split b!"," names = l
  have : (match AMap.load given p with
          | some h => some h
          | none => AMap.load defaults p) = AMap.load (AMap.storeAll defaults given) p := by
    rw [AMap.load_storeAll _ _ hg]; cases AMap.load given p <;> rfl
  rw [this]
  generalize AMap.storeAll defaults given = m
  induction l generalizing m with
  | nil => rfl
  | cons k ks ih =>
    rw [List.foldl_cons, ih, Spec.fromEnv]
    cases Spec.fromEnv env p ks with
    | some h => rfl
    | none =>
      simp only []
      cases hk : AMap.load env (trimSpace k) with
      | none => rfl
      | some hs =>
        simp only [Option.bind_some]
        rw [AMap.load_storeAll _ _ (he _ _ hk)]
        cases AMap.load hs p <;> rfl

/-- Except for the paths of net/http/pprof, a path is answered by the handler the environment chose last, else by the one
given to the agent, else by the default one. -/
theorem manage_override {m given env names} (hm : Spec.IsMux m given env names) (hg : AMap.NodupKeys given)
    (he : ∀ k hs, AMap.load env k = some hs → AMap.NodupKeys hs) {p : Bytes} {h : Handler} (hp : p ∉ Spec.imported)
    (hh : (match Spec.fromEnv env p (split b!"," names) with
        | some h => some h
        | none => match AMap.load given p with
          | some h => some h
          | none => AMap.load defaults p) = some h) :
    route m p = some h := by
  have hi : AMap.load imported p = none := AMap.load_eq_none.mpr hp
  have : AMap.load m p = some h := by
    rw [load_mux hm, hi]
    exact (load_handlers given env names hg he p).trans hh
  rw [route, this]

/-- The paths of net/http/pprof are answered by that package, whatever handlers the agent has for them. -/
theorem manage_imported {m given env names} (hm : Spec.IsMux m given env names) {p : Bytes} (hp : p ∈ Spec.imported) :
    route m p = some .own := by
  have hi : AMap.load imported p = some .own := by
    have := (by decide +kernel : ∀ p ∈ Spec.imported, AMap.load imported p = some .own)
    exact this p hp
  rw [route, load_mux hm, hi]

theorem default_load {m} (hm : Spec.IsDefaultMux m) {p : Bytes} (hp : p ∉ Spec.imported) :
    AMap.load m p = AMap.load defaults p := by
  have hi : AMap.load imported p = none := AMap.load_eq_none.mpr hp
  rw [load_mux hm, hi]
  show AMap.load (handlers [] [] []) p = _
  rw [load_handlers [] [] [] (by simp [AMap.NodupKeys, AMap.keys]) (by intro k hs h; cases h)]
  have : ∀ l, Spec.fromEnv [] p l = none := by
    intro l
    induction l with
    | nil => rfl
    | cons k ks ih => rw [Spec.fromEnv, ih]; rfl
  rw [this]
  rfl

theorem default_route {m} (hm : Spec.IsDefaultMux m) {p : Bytes} {h : Handler} (hp : p ∉ Spec.imported)
    (hh : AMap.load defaults p = some h) : route m p = some h := by
  rw [route, default_load hm hp, hh]

theorem subtree_some (m : AMap Bytes Handler) (path : Bytes) (j : Nat) (h : Handler) (h0 : 0 < j)
    (hl : (path.take j).getLast? = some 47) (hload : AMap.load m (path.take j) = some h) :
    ∀ n, j ≤ n → (∀ i, j < i → i ≤ n → (path.take i).getLast? = some 47 → AMap.load m (path.take i) = none) →
      subtree m path n = some h := by
  intro n
  induction n with
  | zero => intro h; omega
  | succ n ih =>
    intro hj hno
    unfold subtree
    by_cases e : j = n + 1
    · subst e; rw [if_pos hl, hload]
    · have hnone : (if (path.take (n + 1)).getLast? = some 47 then AMap.load m (path.take (n + 1)) else none) = none := by
        by_cases hs : (path.take (n + 1)).getLast? = some 47
        · rw [if_pos hs]; exact hno (n + 1) (by omega) (Nat.le_refl _) hs
        · rw [if_neg hs]
      rw [hnone]
      exact ih (by omega) fun i hi hin => hno i hi (by omega)

/-- A path nobody registered is answered by net/http/pprof below "/debug/pprof/", else by the status handler. -/
theorem manage_unknown {m} (hm : Spec.IsDefaultMux m) {p : Bytes} (hs : b!"/" <+: p) (hp : AMap.load m p = none) :
    route m p = some (if b!"/debug/pprof/" <+: p then .own else .status) := by
  have hdirs : ∀ q h, AMap.load m q = some h → q.getLast? = some 47 → q = b!"/" ∨ q = b!"/debug/pprof/" := by
    intro q h hl hq
    by_cases hi : q ∈ Spec.imported
    · exact (by decide +kernel : ∀ q ∈ Spec.imported, q.getLast? = some 47 → q = b!"/" ∨ q = b!"/debug/pprof/") q hi hq
    · rw [default_load hm hi] at hl
      have hmem := AMap.load_isSome.mp (by rw [hl]; rfl : (AMap.load defaults q).isSome)
      exact (by decide +kernel : ∀ q ∈ AMap.keys defaults, q.getLast? = some 47 → q = b!"/" ∨ q = b!"/debug/pprof/") q hmem hq
  rw [route, hp]
  have hno : ∀ j, (b!"/debug/pprof/" <+: p → j = 13) → (¬ b!"/debug/pprof/" <+: p → j = 1) → ∀ i, j < i → i ≤ p.length →
      (p.take i).getLast? = some 47 → AMap.load m (p.take i) = none := by
    intro j h1 h2 i hji hi hq
    cases hl : AMap.load m (p.take i) with
    | none => rfl
    | some h =>
      exfalso
      have hlen : (p.take i).length = i := by rw [List.length_take]; omega
      rcases hdirs _ _ hl hq with e | e
      · rw [e] at hlen
        have : i = 1 := hlen.symm
        by_cases hd : b!"/debug/pprof/" <+: p
        · have := h1 hd; omega
        · have := h2 hd; omega
      · have hd : b!"/debug/pprof/" <+: p := e ▸ List.take_prefix i p
        rw [e] at hlen
        have : i = 13 := hlen.symm
        have := h1 hd; omega
  by_cases hd : b!"/debug/pprof/" <+: p
  · rw [if_pos hd]
    obtain ⟨r, hr⟩ := hd
    have ht : p.take 13 = b!"/debug/pprof/" := by rw [← hr]; rfl
    refine subtree_some m p 13 .own (by omega) (by rw [ht]; rfl) ?_ p.length ?_ (hno 13 (fun _ => rfl) fun h => absurd ⟨r, hr⟩ h)
    · rw [ht, load_mux hm]; rfl
    · rw [← hr, List.length_append]; show 13 ≤ 13 + _; omega
  · rw [if_neg hd]
    obtain ⟨r, hr⟩ := hs
    have ht : p.take 1 = b!"/" := by rw [← hr]; rfl
    refine subtree_some m p 1 .status (by omega) (by rw [ht]; rfl) ?_ p.length ?_ (hno 1 (fun h => absurd h hd) fun _ => rfl)
    · rw [ht, default_load hm (by decide +kernel)]; rfl
    · rw [← hr, List.length_append]; show 1 ≤ 1 + _; omega

/-! ## Permission -/

/-- A path that package net/http/pprof answers. -/
def Spec.leaks (p : Bytes) : Prop :=
  p ∈ Spec.imported ∨ (b!"/debug/pprof/" <+: p ∧ p ∉ [b!"/debug/pprof/sw", b!"/debug/pprof/allocs", b!"/debug/pprof/block",
    b!"/debug/pprof/goroutine", b!"/debug/pprof/mutex", b!"/debug/pprof/heap"])

variable {N : Net} {L : Type} {parse : Bytes → Option (List Config)} {m : AMap Bytes Handler}

/-- The paths outside net/http/pprof have a handler of the agent. -/
theorem route_safe (hm : Spec.IsDefaultMux m) {p : Bytes} (hs : b!"/" <+: p) (hl : ¬ Spec.leaks p) :
    ∃ h, h ≠ .own ∧ route m p = some h := by
  have hi : p ∉ Spec.imported := fun h => hl (.inl h)
  cases hload : AMap.load m p with
  | none =>
    rw [manage_unknown hm hs hload]
    by_cases hd : b!"/debug/pprof/" <+: p
    · exfalso
      apply hl
      refine .inr ⟨hd, fun hmem => ?_⟩
      rw [default_load hm hi, AMap.load_eq_none] at hload
      exact hload ((by decide +kernel : ∀ q ∈ [b!"/debug/pprof/sw", b!"/debug/pprof/allocs", b!"/debug/pprof/block",
        b!"/debug/pprof/goroutine", b!"/debug/pprof/mutex", b!"/debug/pprof/heap"], q ∈ AMap.keys defaults) p hmem)
    · rw [if_neg hd]; exact ⟨_, by decide, rfl⟩
  | some h =>
    refine ⟨h, ?_, by rw [route, hload]⟩
    rw [default_load hm hi] at hload
    have := (by decide +kernel : ∀ x ∈ defaults, x.2 ≠ Handler.own) _ (AMap.mem_of_load hload)
    exact this

theorem own_of_leaks (hm : Spec.IsDefaultMux m) {p : Bytes} (hl : Spec.leaks p) : route m p = some .own := by
  rcases hl with hi | ⟨hd, hn⟩
  · exact manage_imported hm hi
  · by_cases hi : p ∈ Spec.imported
    · exact manage_imported hm hi
    · have hload : AMap.load m p = none := by
        rw [default_load hm hi, AMap.load_eq_none]
        intro hmem
        have := (by decide +kernel : ∀ q ∈ AMap.keys defaults, List.isPrefixOf b!"/debug/pprof/" q = true → q ∉ Spec.imported →
          q ∈ [b!"/debug/pprof/sw", b!"/debug/pprof/allocs", b!"/debug/pprof/block",
            b!"/debug/pprof/goroutine", b!"/debug/pprof/mutex", b!"/debug/pprof/heap"]) p hmem (List.isPrefixOf_iff_prefix.mpr hd) hi
        exact hn this
      obtain ⟨r, hr⟩ := hd
      rw [manage_unknown hm ⟨b!"debug/pprof/" ++ r, by rw [← hr]; rfl⟩ hload, if_pos ⟨r, hr⟩]

/-- A request without permission changes nothing and is told so, unless net/http/pprof answers its path. -/
theorem manage_denied (hm : Spec.IsDefaultMux m) (s : St N L) (r : Req) (hs : b!"/" <+: r.path) (hl : ¬ Spec.leaks r.path)
    (ha : r.allowed = false) : handle parse m s r = (s, [.text b!"need permission!"]) := by
  obtain ⟨h, hne, hr⟩ := route_safe hm hs hl
  rw [handle.eq_def, hr]
  cases h <;> simp_all

/-- Full claim (false): no request without permission is answered with a page. The import of net/http/pprof puts five
patterns at the mux first, so its pages are shown to everybody, also when they were never switched on. -/
theorem manage_permission_violated (hm : Spec.IsDefaultMux m) (s : St N L) (r : Req) (hl : Spec.leaks r.path) :
    handle parse m s r = (s, [.page r.path]) := by
  rw [handle.eq_def, own_of_leaks hm hl]

/-! ## What a request can change -/

theorem handle_sw (s : St N L) (r : Req) (h : ¬ (r.allowed = true ∧ r.path = b!"/switcher/set")) :
    (handle parse m s r).1.sw = s.sw := by
  rw [handle.eq_def]
  cases route m r.path with
  | none => rfl
  | some k =>
    by_cases ha : r.allowed = true
    · have hp : r.path ≠ b!"/switcher/set" := fun e => h ⟨ha, e⟩
      cases k <;> simp only [ha, if_true, serve] <;>
        (try simp only [serveSwitcher, serveLog, serveDebug, serveMeta, serveFilter, setAccess, setMetrics, hp, if_false]) <;>
        (repeat' split) <;> rfl
    · cases k <;> simp [ha]

theorem handle_log (s : St N L) (r : Req) (h : ¬ (r.allowed = true ∧ r.path = b!"/logConfig/set")) :
    (handle parse m s r).1.level = s.level ∧ (handle parse m s r).1.access = s.access ∧
    (handle parse m s r).1.metrics = s.metrics := by
  rw [handle.eq_def]
  cases route m r.path with
  | none => exact ⟨rfl, rfl, rfl⟩
  | some k =>
    by_cases ha : r.allowed = true
    · have hp : r.path ≠ b!"/logConfig/set" := fun e => h ⟨ha, e⟩
      cases k <;> simp only [ha, if_true, serve] <;>
        (try simp only [serveSwitcher, serveLog, serveDebug, serveMeta, serveFilter, hp, if_false]) <;>
        (repeat' split) <;> simp
    · cases k <;> simp [ha]

theorem handle_pages (s : St N L) (r : Req)
    (h : ¬ (r.allowed = true ∧ r.path = b!"/debug/pprof/sw" ∧ (r.ctr = b!"op" ∨ r.ctr = b!"cp"))) :
    (handle parse m s r).1.pages = s.pages := by
  rw [handle.eq_def]
  cases route m r.path with
  | none => rfl
  | some k =>
    by_cases ha : r.allowed = true
    · cases k <;> simp only [ha, if_true, serve] <;>
        (try simp only [serveSwitcher, serveLog, serveDebug, serveMeta, serveFilter, setAccess, setMetrics]) <;>
        (repeat' split) <;> first | rfl | (exfalso; simp_all)
    · cases k <;> simp [ha]

theorem handle_dyn (s : St N L) (r : Req)
    (h : ¬ (r.allowed = true ∧ (r.path = b!"/meta/update" ∨ r.path = b!"/meta/delete"))) :
    (handle parse m s r).1.dyn = s.dyn := by
  rw [handle.eq_def]
  cases route m r.path with
  | none => rfl
  | some k =>
    by_cases ha : r.allowed = true
    · have hp : r.path ≠ b!"/meta/update" := fun e => h ⟨ha, .inl e⟩
      have hp2 : r.path ≠ b!"/meta/delete" := fun e => h ⟨ha, .inr e⟩
      cases k <;> simp only [ha, if_true, serve] <;>
        (try simp only [serveSwitcher, serveLog, serveDebug, serveMeta, serveFilter, setAccess, setMetrics, hp, hp2, if_false]) <;>
        (repeat' split) <;> rfl
    · cases k <;> simp [ha]

theorem handle_rules (s : St N L) (r : Req)
    (h : ¬ (r.allowed = true ∧ r.path = b!"/refers/filter/set" ∧ r.formValue b!"config" ≠ [] ∧
      (parse (r.formValue b!"config")).isSome)) :
    (handle parse m s r).1.rules = s.rules ∧ (handle parse m s r).1.clusters = s.clusters := by
  rw [handle.eq_def]
  cases route m r.path with
  | none => exact ⟨rfl, rfl⟩
  | some k =>
    by_cases ha : r.allowed = true
    · cases k <;> simp only [ha, if_true, serve] <;>
        (try simp only [serveSwitcher, serveLog, serveDebug, serveMeta, serveFilter, setAccess, setMetrics]) <;>
        (repeat' split) <;> first | (simp; done) | (exfalso; simp_all; done)
    · cases k <;> simp [ha]

/-! ## Switchers -/

/-- An operation that may change this switcher: an allowed request to set it, with a value that is a truth value. -/
def Spec.setsSwitch (n : Bytes) (o : Op L) : Prop :=
  ∃ r, o = .request r ∧ r.allowed = true ∧ r.path = b!"/switcher/set" ∧ r.formValue b!"name" = n ∧
    (parseBool (r.formValue b!"value")).isSome

/-- The request to see a switcher. -/
def Spec.getSwitch (r : Req) (n : Bytes) : Prop :=
  r.allowed = true ∧ r.path = b!"/switcher/get" ∧ r.formValue b!"name" = n

/-- The answer to it. -/
def Spec.switchIs (n : Bytes) (b : Bool) : Bytes :=
  b!"Switcher value for " ++ n ++ b!" is " ++ (if b then b!"true" else b!"false") ++ b!"!"

theorem handle_at (hm : Spec.IsDefaultMux m) (s : St N L) (r : Req) (ha : r.allowed = true) {p : Bytes} (hp : r.path = p)
    {h : Handler} (hi : p ∉ Spec.imported) (hd : AMap.load defaults p = some h) (ho : h ≠ .own) :
    handle parse m s r = serve parse h s r := by
  rw [handle.eq_def, hp, default_route hm hi hd]
  cases h <;> simp_all

theorem get_answer (hm : Spec.IsDefaultMux m) (s : St N L) (r : Req) {n : Bytes} (hr : Spec.getSwitch r n) (hn : n ≠ []) :
    handle parse m s r = (s, [.text (match AMap.load s.sw.switchers n with
      | some sw => Spec.switchIs n sw.value
      | none => b!"Not a registered switcher, name: " ++ n)]) := by
  obtain ⟨ha, hp, hname⟩ := hr
  rw [handle_at hm s r ha hp (h := .switcher) (by decide +kernel) (by decide +kernel) (by decide)]
  rw [serve, serveSwitcher, hp]
  simp only [hname, hn, if_false, Switcher.getSwitcher]
  rw [if_neg (by decide +kernel), if_pos trivial]
  cases AMap.load s.sw.switchers n <;> rfl

theorem step_switch (s : St N L) (o : Op L) {n : Bytes} (hq : ¬ Spec.setsSwitch n o) {sw : Switcher.Sw L}
    (h : AMap.load s.sw.switchers n = some sw) : AMap.load (step parse m s o).sw.switchers n = some sw := by
  cases o with
  | cluster k u => exact h
  | register n' v ls =>
    simp only [step, Switcher.register]
    split
    · exact h
    · split
      · exact h
      · rename_i hno
        rw [AMap.load_store]
        by_cases e : n' = n
        · subst e; rw [h] at hno; cases hno
        · simp [e, h]
  | request r =>
    simp only [step]
    by_cases hset : r.allowed = true ∧ r.path = b!"/switcher/set"
    · obtain ⟨ha, hp⟩ := hset
      have hcases : ∀ k, k ≠ Handler.own → AMap.load (if r.allowed = true then serve parse k s r
          else (s, [Out.text b!"need permission!"])).1.sw.switchers n = some sw := by
        intro k _
        rw [if_pos ha]
        cases k <;> try exact h
        · simp only [serve, serveDebug]
          (repeat' split) <;> exact h
        · simp only [serve, serveSwitcher]
          rw [if_pos hp]
          (repeat' split) <;> try exact h
          rename_i hb _ sw' hsw
          simp only [Switcher.setSwitcher]
          split
          · exact h
          · simp only [AMap.load_store]
            by_cases e : r.formValue b!"name" = n
            · exact absurd ⟨r, rfl, ha, hp, e, by rw [hb]; rfl⟩ hq
            · rw [if_neg e]; exact h
        · simp only [serve, serveLog, setAccess, setMetrics]
          (repeat' split) <;> exact h
        · simp only [serve, serveMeta]
          (repeat' split) <;> exact h
        · simp only [serve, serveFilter]
          (repeat' split) <;> exact h
      rw [handle.eq_def]
      cases route m r.path with
      | none => exact h
      | some k => cases k <;> first | exact h | exact hcases _ (by simp)
    · rw [handle_sw s r hset]; exact h

theorem play_keeps (f : St N L → Prop) (ops : List (Op L)) (hops : ∀ o ∈ ops, ∀ s : St N L, f s → f (step parse m s o))
    (s : St N L) (h : f s) : f (play parse m s ops) := by
  induction ops generalizing s with
  | nil => exact h
  | cons o ops ih =>
    exact ih (fun o' ho' => hops o' (List.mem_cons_of_mem _ ho')) _ (hops o (List.mem_cons_self ..) s h)

/-- A switcher shows the value last given to it by an accepted request, whatever else happens. -/
theorem switcher_last (hm : Spec.IsDefaultMux m) (s : St N L) {n v : Bytes} {b : Bool} (hn : n ≠ [])
    (hreg : (AMap.load s.sw.switchers n).isSome) (hv : parseBool v = some b) (set get : Req) (hsa : set.allowed = true)
    (hsp : set.path = b!"/switcher/set") (hsn : set.formValue b!"name" = n) (hsv : set.formValue b!"value" = v)
    (ops : List (Op L)) (hops : ∀ o ∈ ops, ¬ Spec.setsSwitch n o) (hg : Spec.getSwitch get n) :
    answer parse m (play parse m s (.request set :: ops)) get = [.text (Spec.switchIs n b)] := by
  have hset : ∃ sw, AMap.load (step parse m s (.request set)).sw.switchers n = some sw ∧ sw.value = b := by
    simp only [step]
    rw [handle_at hm s set hsa hsp (h := .switcher) (by decide +kernel) (by decide +kernel) (by decide)]
    rw [serve, serveSwitcher, hsp]
    have hv0 : v ≠ [] := by
      rintro rfl
      rw [(by decide +kernel : parseBool [] = none)] at hv
      cases hv
    simp only [hsn, hsv, hn, hv0, hv, if_false, Switcher.getSwitcher, if_true]
    cases hl : AMap.load s.sw.switchers n with
    | none => rw [hl] at hreg; cases hreg
    | some sw =>
      simp only [Switcher.setSwitcher]
      split
      · exact ⟨sw, hl, by simp_all⟩
      · exact ⟨_, AMap.load_store_self .., rfl⟩
  obtain ⟨sw, h1, h2⟩ := hset
  have := play_keeps (parse := parse) (m := m) (fun s => AMap.load s.sw.switchers n = some sw) ops
    (fun o ho s h => step_switch s o (hops o ho) h) _ h1
  rw [answer, get_answer hm _ get hg hn]
  show [Out.text (match AMap.load (play parse m (step parse m s (.request set)) ops).sw.switchers n with
      | some sw => Spec.switchIs n sw.value
      | none => _)] = _
  rw [this, ← h2]

/-- A switcher nobody sets keeps its value. -/
theorem switcher_kept (hm : Spec.IsDefaultMux m) (s : St N L) {n : Bytes} (hn : n ≠ [])
    (hreg : (AMap.load s.sw.switchers n).isSome) (get : Req) (hg : Spec.getSwitch get n)
    (ops : List (Op L)) (hops : ∀ o ∈ ops, ¬ Spec.setsSwitch n o) :
    answer parse m (play parse m s ops) get = answer parse m s get := by
  cases hl : AMap.load s.sw.switchers n with
  | none => rw [hl] at hreg; cases hreg
  | some sw =>
    have := play_keeps (parse := parse) (m := m) (fun s => AMap.load s.sw.switchers n = some sw) ops
      (fun o ho s h => step_switch s o (hops o ho) h) s hl
    rw [answer, answer, get_answer hm _ get hg hn, get_answer hm _ get hg hn, this, hl]

/-- A request cannot make a switcher: what was not registered is still not registered. -/
theorem switcher_unknown (hm : Spec.IsDefaultMux m) (s : St N L) {n : Bytes} (hn : n ≠ [])
    (hreg : AMap.load s.sw.switchers n = none) (rs : List Req) (get : Req) (hg : Spec.getSwitch get n) :
    answer parse m (play parse m s (rs.map .request)) get = [.text (b!"Not a registered switcher, name: " ++ n)] := by
  have := play_keeps (parse := parse) (m := m) (L := L) (fun s => AMap.load s.sw.switchers n = none) (rs.map .request)
    (fun o ho s h => by
      obtain ⟨r, _, rfl⟩ := List.mem_map.mp ho
      simp only [step]
      by_cases hset : r.allowed = true ∧ r.path = b!"/switcher/set"
      · obtain ⟨ha, hp⟩ := hset
        rw [handle_at hm s r ha hp (h := .switcher) (by decide +kernel) (by decide +kernel) (by decide)]
        rw [serve, serveSwitcher, if_pos hp]
        simp only []
        (repeat' split) <;> try exact h
        rename_i hsw
        simp only [Switcher.setSwitcher]
        split
        · exact h
        · simp only [AMap.load_store]
          by_cases e : r.formValue b!"name" = n
          · simp only [e, Switcher.getSwitcher, h] at hsw; cases hsw
          · rw [if_neg e]; exact h
      · rw [handle_sw s r hset]; exact h) s hreg
  rw [answer, get_answer hm _ get hg hn, this]

/-- The list of all switchers shows the same values. -/
theorem switcher_all (hm : Spec.IsDefaultMux m) (s : St N L) (r : Req) (ha : r.allowed = true)
    (hp : r.path = b!"/switcher/getAll") :
    ∃ all, handle parse m s r = (s, [.switchers all]) ∧
      ∀ n, AMap.load all n = (AMap.load s.sw.switchers n).map (·.value) := by
  refine ⟨Switcher.getAllSwitchers s.sw, ?_, ?_⟩
  · rw [handle_at hm s r ha hp (h := .switcher) (by decide +kernel) (by decide +kernel) (by decide)]
    rw [serve, serveSwitcher, hp]
    rfl
  · intro n
    rw [Switcher.getAllSwitchers]
    induction s.sw.switchers with
    | nil => rfl
    | cons x xs ih =>
      rw [List.map_cons, AMap.load_cons, ih]
      obtain ⟨k, sw⟩ := x
      rw [AMap.load_cons]
      by_cases e : k = n <;> simp [e]

/-! ## The log configuration -/

/-- The request to see the log configuration. -/
def Spec.getLog (r : Req) : Prop := r.allowed = true ∧ r.path = b!"/logConfig/get"

/-- An accepted request to set it. -/
def Spec.setLog (r : Req) : Prop := r.allowed = true ∧ r.path = b!"/logConfig/set"

/-- The names of the levels. -/
def Spec.levelNames : List Bytes :=
  [b!"trace", b!"debug", b!"info", b!"warn", b!"error", b!"dpanic", b!"panic", b!"fatal"]

theorem log_answer (hm : Spec.IsDefaultMux m) (s : St N L) (get : Req) (hg : Spec.getLog get) :
    answer parse m s get = [.logConf (Params.levelString s.level) s.access s.metrics] := by
  rw [answer, handle_at hm s get hg.1 hg.2 (h := .log) (by decide +kernel) (by decide +kernel) (by decide)]
  rw [serve, serveLog, if_pos hg.2]

theorem log_serve (hm : Spec.IsDefaultMux m) (s : St N L) (set : Req) (hs : Spec.setLog set) :
    handle parse m s set = (if set.formValue b!"level" ≠ [] then
        match Params.levelSet (set.formValue b!"level") with
        | some l => ({ s with level := l }, [.code 200 (b!"set log level:" ++ set.formValue b!"level")])
        | none => (s, [.code 500 b!"set log level failed. err:"])
      else if set.formValue b!"access" ≠ [] then setAccess s (set.formValue b!"access")
      else if set.formValue b!"metrics" ≠ [] then setMetrics s (set.formValue b!"metrics")
      else (s, [])) := by
  rw [handle_at hm s set hs.1 hs.2 (h := .log) (by decide +kernel) (by decide +kernel) (by decide)]
  rw [serve, serveLog, if_neg (by rw [hs.2]; decide +kernel), if_pos hs.2]
  split
  · cases Params.levelSet (set.formValue b!"level") <;> rfl
  · rfl

/-- A level that exists is set and shown, in lower case; the rest stays, also what else the request asks for. -/
theorem log_level (hm : Spec.IsDefaultMux m) (s : St N L) (set get : Req) (hs : Spec.setLog set) (hg : Spec.getLog get)
    {name : Bytes} (hname : name ∈ Spec.levelNames) (hv : Params.toLower (set.formValue b!"level") = name)
    (before : Bytes) (a mt : Bool) (hb : answer parse m s get = [.logConf before a mt]) :
    answer parse m (handle parse m s set).1 get = [.logConf name a mt] ∧
    answer parse m s set = [.code 200 (b!"set log level:" ++ set.formValue b!"level")] := by
  rw [log_answer hm s get hg] at hb
  have hne : set.formValue b!"level" ≠ [] := by
    intro e
    rw [e] at hv
    rw [← hv] at hname
    exact absurd hname (by decide +kernel)
  have hl : ∃ l, Params.levelSet (set.formValue b!"level") = some l ∧ Params.levelString l = name := by
    have hall := (by decide +kernel : ∀ n ∈ Spec.levelNames, n ≠ [] ∧ ((Params.levels.find? (·.2 = n)).map (·.1)).any
      (fun l => Params.levelString l = n) = true)
    obtain ⟨hn0, hany⟩ := hall name hname
    rw [Params.levelSet]
    simp only [hv, hn0, if_false]
    cases hf : (Params.levels.find? (·.2 = name)).map (·.1) with
    | none => rw [hf] at hany; cases hany
    | some l => rw [hf] at hany; exact ⟨l, rfl, by simpa using hany⟩
  obtain ⟨l, h1, h2⟩ := hl
  have e := log_serve (parse := parse) hm s set hs
  rw [if_pos hne, h1] at e
  simp only [List.cons.injEq, Out.logConf.injEq] at hb
  refine ⟨?_, by rw [answer, e]⟩
  rw [e, log_answer hm _ get hg]
  simp [h2, hb]

/-- A level that does not exist is refused and changes nothing. -/
theorem log_level_refused (hm : Spec.IsDefaultMux m) (s : St N L) (set : Req) (hs : Spec.setLog set)
    (hne : set.formValue b!"level" ≠ []) (hv : Params.toLower (set.formValue b!"level") ∉ Spec.levelNames) :
    handle parse m s set = (s, [.code 500 b!"set log level failed. err:"]) := by
  have h1 : Params.levelSet (set.formValue b!"level") = none := by
    rw [Params.levelSet]
    have hn0 : Params.toLower (set.formValue b!"level") ≠ [] := by
      intro e
      rw [Params.toLower.eq_def] at e
      split at e
      · cases e
      · cases e
      · rename_i h; exact hne h
    simp only [hn0, if_false, Option.map_eq_none_iff, List.find?_eq_none]
    intro x hx hcon
    have := (by decide +kernel : ∀ x ∈ Params.levels, x.2 ∈ Spec.levelNames) x hx
    simp only [decide_eq_true_eq] at hcon
    rw [hcon] at this
    exact hv this
  rw [log_serve hm s set hs, if_pos hne, h1]

/-- Without a level the access log is switched, if the value is a truth value; else nothing changes. -/
theorem log_access (hm : Spec.IsDefaultMux m) (s : St N L) (set get : Req) (hs : Spec.setLog set) (hg : Spec.getLog get)
    (hl : set.formValue b!"level" = []) {v : Bytes} (hv : set.formValue b!"access" = v) (hne : v ≠ [])
    {lv : Bytes} {a mt : Bool} (hb : answer parse m s get = [.logConf lv a mt]) :
    answer parse m (handle parse m s set).1 get = [.logConf lv ((parseBool v).getD a) mt] ∧
    answer parse m s set = (if (parseBool v).isSome then [.code 200 (b!"set accessLog status:" ++ v)]
      else [.code 500 b!"set accessLog status failed. err:"]) := by
  rw [log_answer hm s get hg] at hb
  simp only [List.cons.injEq, Out.logConf.injEq] at hb
  obtain ⟨⟨rfl, rfl, rfl⟩, _⟩ := hb
  have e := log_serve (parse := parse) hm s set hs
  rw [if_neg (by simp [hl]), hv, if_pos hne, setAccess] at e
  rw [answer, answer, e]
  cases parseBool v with
  | some b =>
    have := log_answer (parse := parse) hm { s with access := b } get hg
    simp only [answer] at this
    simp [this]
  | none =>
    have := log_answer (parse := parse) hm s get hg
    simp only [answer] at this
    simp [this]

/-- With neither, the metrics log. -/
theorem log_metrics (hm : Spec.IsDefaultMux m) (s : St N L) (set get : Req) (hs : Spec.setLog set) (hg : Spec.getLog get)
    (hl : set.formValue b!"level" = []) (ha : set.formValue b!"access" = []) {v : Bytes}
    (hv : set.formValue b!"metrics" = v) (hne : v ≠ [])
    {lv : Bytes} {a mt : Bool} (hb : answer parse m s get = [.logConf lv a mt]) :
    answer parse m (handle parse m s set).1 get = [.logConf lv a ((parseBool v).getD mt)] ∧
    answer parse m s set = (if (parseBool v).isSome then [.code 200 (b!"set metricsLog status:" ++ v)]
      else [.code 500 b!"set metricsLog status failed. err:"]) := by
  rw [log_answer hm s get hg] at hb
  simp only [List.cons.injEq, Out.logConf.injEq] at hb
  obtain ⟨⟨rfl, rfl, rfl⟩, _⟩ := hb
  have e := log_serve (parse := parse) hm s set hs
  rw [if_neg (by simp [hl]), if_neg (by simp [ha]), hv, if_pos hne, setMetrics] at e
  rw [answer, answer, e]
  cases parseBool v with
  | some b =>
    have := log_answer (parse := parse) hm { s with metrics := b } get hg
    simp only [answer] at this
    simp [this]
  | none =>
    have := log_answer (parse := parse) hm s get hg
    simp only [answer] at this
    simp [this]

/-- Nothing else changes the log configuration. -/
theorem log_kept (hm : Spec.IsDefaultMux m) (s : St N L) (ops : List (Op L))
    (hops : ∀ r, Op.request r ∈ ops → ¬ Spec.setLog r) (get : Req) (hg : Spec.getLog get) :
    answer parse m (play parse m s ops) get = answer parse m s get := by
  have := play_keeps (parse := parse) (m := m) (L := L)
    (fun t => t.level = s.level ∧ t.access = s.access ∧ t.metrics = s.metrics) ops
    (fun o ho t ht => by
      cases o with
      | request r =>
        have h := handle_log (parse := parse) (m := m) t r (hops r ho)
        exact ⟨h.1.trans ht.1, h.2.1.trans ht.2.1, h.2.2.trans ht.2.2⟩
      | register => exact ht
      | cluster => exact ht) s ⟨rfl, rfl, rfl⟩
  rw [log_answer hm _ get hg, log_answer hm _ get hg, this.1, this.2.1, this.2.2]

/-! ## Debugging pages -/

/-- An accepted request to switch the pages on or off. -/
def Spec.switchesPages (r : Req) (b : Bool) : Prop :=
  r.allowed = true ∧ r.path = b!"/debug/pprof/sw" ∧ r.ctr = (if b then b!"op" else b!"cp")

/-- A path of the agent's own debugging pages. -/
def Spec.ownPage (p : Bytes) : Prop :=
  p ∈ [b!"/debug/mesh/trace", b!"/debug/stat/system", b!"/debug/stat/process", b!"/debug/stat/openFiles",
    b!"/debug/stat/connections", b!"/debug/pprof/allocs", b!"/debug/pprof/block", b!"/debug/pprof/goroutine",
    b!"/debug/pprof/mutex", b!"/debug/pprof/heap"]

theorem page_answer (hm : Spec.IsDefaultMux m) (s : St N L) (r : Req) (ha : r.allowed = true) (hp : Spec.ownPage r.path) :
    handle parse m s r = (s, if s.pages then [.page r.path] else []) := by
  have hall := (by decide +kernel : ∀ p ∈ [b!"/debug/mesh/trace", b!"/debug/stat/system", b!"/debug/stat/process",
    b!"/debug/stat/openFiles", b!"/debug/stat/connections", b!"/debug/pprof/allocs", b!"/debug/pprof/block",
    b!"/debug/pprof/goroutine", b!"/debug/pprof/mutex", b!"/debug/pprof/heap"],
    p ∉ Spec.imported ∧ AMap.load defaults p = some .debug ∧ p ≠ b!"/debug/pprof/sw")
  obtain ⟨h1, h2, h3⟩ := hall r.path hp
  rw [handle_at hm s r ha rfl h1 h2 (by decide), serve, serveDebug, if_neg h3]
  cases s.pages <;> rfl

/-- The agent's own debugging pages are shown exactly when the last accepted switch was on. -/
theorem pages_last (hm : Spec.IsDefaultMux m) (s : St N L) (sw r : Req) {b : Bool} (hsw : Spec.switchesPages sw b)
    (ops : List (Op L)) (hops : ∀ r b, Op.request r ∈ ops → ¬ Spec.switchesPages r b) (ha : r.allowed = true)
    (hp : Spec.ownPage r.path) :
    answer parse m (play parse m s (.request sw :: ops)) r = if b then [.page r.path] else [] := by
  have h0 : (step parse m s (.request sw)).pages = b := by
    obtain ⟨h1, h2, h3⟩ := hsw
    simp only [step]
    rw [handle_at hm s sw h1 h2 (h := .debug) (by decide +kernel) (by decide +kernel) (by decide), serve, serveDebug, if_pos h2]
    cases b with
    | true => rw [h3, if_pos (by decide)]
    | false => rw [h3, if_neg (by decide), if_pos (by decide)]
  have := play_keeps (parse := parse) (m := m) (L := L) (fun t => t.pages = b) ops
    (fun o ho t ht => by
      cases o with
      | request r =>
        refine (handle_pages (parse := parse) (m := m) t r ?_).trans ht
        rintro ⟨h1, h2, h3 | h3⟩
        · exact hops r true ho ⟨h1, h2, h3⟩
        · exact hops r false ho ⟨h1, h2, h3⟩
      | register => exact ht
      | cluster => exact ht) _ h0
  rw [answer, page_answer hm _ r ha hp]
  show (if (play parse m (step parse m s (.request sw)) ops).pages = true then _ else _) = _
  rw [this]

/-- They are not shown before they are switched on. -/
theorem pages_start (hm : Spec.IsDefaultMux m) (s : St N L) (hs : s.pages = false) (r : Req) (ops : List (Op L))
    (hops : ∀ r b, Op.request r ∈ ops → ¬ Spec.switchesPages r b) (ha : r.allowed = true) (hp : Spec.ownPage r.path) :
    answer parse m (play parse m s ops) r = [] := by
  have := play_keeps (parse := parse) (m := m) (L := L) (fun t => t.pages = false) ops
    (fun o ho t ht => by
      cases o with
      | request r =>
        refine (handle_pages (parse := parse) (m := m) t r ?_).trans ht
        rintro ⟨h1, h2, h3 | h3⟩
        · exact hops r true ho ⟨h1, h2, h3⟩
        · exact hops r false ho ⟨h1, h2, h3⟩
      | register => exact ht
      | cluster => exact ht) _ hs
  rw [answer, page_answer hm _ r ha hp, this]
  rfl

/-! ## Meta information -/

/-- An operation that changes this entry. -/
def Spec.touchesMeta (k : Bytes) (o : Op L) : Prop :=
  ∃ r, o = .request r ∧ r.allowed = true ∧
    ((r.path = b!"/meta/update" ∧ ∃ v vs, (k, v :: vs) ∈ r.form) ∨
     (r.path = b!"/meta/delete" ∧ r.formValue b!"key" = k))

/-- The request to see an entry. -/
def Spec.getMeta (r : Req) (k : Bytes) : Prop := r.allowed = true ∧ r.path = b!"/meta/get" ∧ r.formValue b!"key" = k

theorem meta_answer (hm : Spec.IsDefaultMux m) (s : St N L) (r : Req) {k : Bytes} (hr : Spec.getMeta r k) :
    answer parse m s r = [.entry k ((AMap.load s.dyn k).getD [])] := by
  obtain ⟨ha, hp, hk⟩ := hr
  rw [answer, handle_at hm s r ha hp (h := .metaInfo) (by decide +kernel) (by decide +kernel) (by decide), serve, serveMeta, hp, hk]
  rfl

theorem meta_update_eq (hm : Spec.IsDefaultMux m) (s : St N L) (r : Req) (ha : r.allowed = true)
    (hp : r.path = b!"/meta/update") :
    handle parse m s r = ({ s with dyn := AMap.storeAll s.dyn (updates r.form) }, [.ok]) := by
  rw [handle_at hm s r ha hp (h := .metaInfo) (by decide +kernel) (by decide +kernel) (by decide), serve, serveMeta, if_pos hp]

theorem meta_delete_eq (hm : Spec.IsDefaultMux m) (s : St N L) (r : Req) (ha : r.allowed = true)
    (hp : r.path = b!"/meta/delete") :
    handle parse m s r = ({ s with dyn := AMap.erase s.dyn (r.formValue b!"key") }, [.ok]) := by
  rw [handle_at hm s r ha hp (h := .metaInfo) (by decide +kernel) (by decide +kernel) (by decide), serve, serveMeta,
    if_neg (by rw [hp]; decide +kernel), if_pos hp]

theorem step_meta (hm : Spec.IsDefaultMux m) (s : St N L) (o : Op L) {k : Bytes} (h : ¬ Spec.touchesMeta k o) :
    AMap.load (step parse m s o).dyn k = AMap.load s.dyn k := by
  cases o with
  | register => rfl
  | cluster => rfl
  | request r =>
    simp only [step]
    by_cases ht : r.allowed = true ∧ (r.path = b!"/meta/update" ∨ r.path = b!"/meta/delete")
    · obtain ⟨ha, hp | hp⟩ := ht
      · rw [meta_update_eq hm s r ha hp]
        refine AMap.load_storeAll_of_not_mem _ _ _ fun hmem => ?_
        obtain ⟨x, hx, rfl⟩ := List.mem_map.mp hmem
        obtain ⟨⟨k, vs⟩, hy, he⟩ := List.mem_filterMap.mp hx
        cases vs with
        | nil => cases he
        | cons v vs => cases he; exact h ⟨r, rfl, ha, .inl ⟨hp, v, vs, hy⟩⟩
      · rw [meta_delete_eq hm s r ha hp]
        simp only [AMap.load_erase]
        rw [if_neg]
        intro e
        exact h ⟨r, rfl, ha, .inr ⟨hp, e⟩⟩
    · rw [handle_dyn s r ht]

theorem play_meta (hm : Spec.IsDefaultMux m) (s : St N L) {k : Bytes} (ops : List (Op L))
    (hops : ∀ o ∈ ops, ¬ Spec.touchesMeta k o) : AMap.load (play parse m s ops).dyn k = AMap.load s.dyn k :=
  play_keeps (parse := parse) (m := m) (L := L) (fun t => AMap.load t.dyn k = AMap.load s.dyn k) ops
    (fun o ho t ht => (step_meta hm t o (hops o ho)).trans ht) s rfl

/-- An entry shows the first value of the last update that had a value for it. -/
theorem meta_last (hm : Spec.IsDefaultMux m) (s : St N L) {k v : Bytes} {vs : List Bytes} (up get : Req)
    (ha : up.allowed = true) (hp : up.path = b!"/meta/update") (hn : AMap.NodupKeys up.form) (hk : (k, v :: vs) ∈ up.form)
    (ops : List (Op L)) (hops : ∀ o ∈ ops, ¬ Spec.touchesMeta k o) (hg : Spec.getMeta get k) :
    answer parse m (play parse m s (.request up :: ops)) get = [.entry k v] := by
  rw [meta_answer hm _ get hg]
  show [Out.entry k ((AMap.load (play parse m (step parse m s (.request up)) ops).dyn k).getD [])] = _
  rw [play_meta hm _ ops hops]
  simp only [step]
  rw [meta_update_eq hm s up ha hp]
  have hnu : AMap.NodupKeys (updates up.form) := by
    have : ((updates up.form).map Prod.fst).Sublist (up.form.map Prod.fst) := by
      rw [updates]
      generalize up.form = f
      induction f with
      | nil => exact .slnil
      | cons x xs ih =>
        obtain ⟨a, l⟩ := x
        cases l with
        | nil => exact ih.cons _
        | cons b bs => exact ih.cons_cons _
    exact List.Nodup.sublist this hn
  have hmem : (k, v) ∈ updates up.form := List.mem_filterMap.mpr ⟨_, hk, rfl⟩
  simp only []
  rw [AMap.load_storeAll _ _ hnu, AMap.load_of_mem hnu hmem]
  rfl

/-- A deleted entry is empty until it is updated. -/
theorem meta_deleted (hm : Spec.IsDefaultMux m) (s : St N L) {k : Bytes} (del get : Req)
    (ha : del.allowed = true) (hp : del.path = b!"/meta/delete") (hk : del.formValue b!"key" = k)
    (ops : List (Op L)) (hops : ∀ o ∈ ops, ¬ Spec.touchesMeta k o) (hg : Spec.getMeta get k) :
    answer parse m (play parse m s (.request del :: ops)) get = [.entry k []] := by
  rw [meta_answer hm _ get hg]
  show [Out.entry k ((AMap.load (play parse m (step parse m s (.request del)) ops).dyn k).getD [])] = _
  rw [play_meta hm _ ops hops]
  simp only [step]
  rw [meta_delete_eq hm s del ha hp]
  simp [AMap.load_erase, hk]

/-- What no request touches stays. -/
theorem meta_kept (hm : Spec.IsDefaultMux m) (s : St N L) {k : Bytes} (ops : List (Op L))
    (hops : ∀ o ∈ ops, ¬ Spec.touchesMeta k o) (get : Req) (hg : Spec.getMeta get k) :
    answer parse m (play parse m s ops) get = answer parse m s get := by
  rw [meta_answer hm _ get hg, meta_answer hm _ get hg, play_meta hm _ ops hops]

/-- All entries are shown with these values. -/
theorem meta_all (hm : Spec.IsDefaultMux m) (s : St N L) (r : Req) (ha : r.allowed = true) (hp : r.path = b!"/meta/getAll") :
    ∃ all, handle parse m s r = (s, [.entries all]) ∧
      ∀ k get, Spec.getMeta get k → answer parse m s get = [.entry k ((AMap.load all k).getD [])] := by
  refine ⟨s.dyn, ?_, fun k get hg => meta_answer hm s get hg⟩
  rw [handle_at hm s r ha hp (h := .metaInfo) (by decide +kernel) (by decide +kernel) (by decide), serve, serveMeta, hp]
  rfl

/-! ## The filter of endpoints -/

/-- A request that sets the rules to `rules`. -/
def Spec.setsRules (parse : Bytes → Option (List Config)) (r : Req) (rules : List Config) : Prop :=
  r.allowed = true ∧ r.path = b!"/refers/filter/set" ∧ r.formValue b!"config" ≠ [] ∧
    parse (r.formValue b!"config") = some rules

/-- The request to see the rules. -/
def Spec.getRules (r : Req) : Prop := r.allowed = true ∧ r.path = b!"/refers/filter/get"

/-- The rules of the last request that could be read are shown, and applied by every cluster that existed then and was not
created again (see `filter_invalid_violated` and `filter_later_violated` for what does not hold). -/
theorem filter_last (hm : Spec.IsDefaultMux m) (s : St N L) {rules : List Config} (set get : Req)
    (hs : Spec.setsRules parse set rules) (hg : Spec.getRules get) (ops : List (Op L))
    (hops : ∀ r rs, Op.request r ∈ ops → ¬ Spec.setsRules parse r rs) :
    answer parse m (play parse m s (.request set :: ops)) get = [.rules rules] ∧
    ∀ k u f, AMap.load s.clusters k = some (u, f) → (∀ u', Op.cluster k u' ∉ ops) →
      AMap.load (play parse m s (.request set :: ops)).clusters k = some (u, parseRefersFilters N rules u) := by
  obtain ⟨ha, hp, hne, hparse⟩ := hs
  have e : handle parse m s set = ({ s with rules := rules, clusters := applyRules N rules s.clusters },
      (if verify rules then [] else [.fail b!"verify"]) ++ [.ok]) := by
    rw [handle_at hm s set ha hp (h := .refersFilter) (by decide +kernel) (by decide +kernel) (by decide), serve, serveFilter,
      if_neg (by rw [hp]; decide +kernel), if_pos hp, if_neg hne, hparse]
  have hquiet : ∀ r, Op.request r ∈ ops → ∀ t : St N L, (handle parse m t r).1.rules = t.rules ∧
      (handle parse m t r).1.clusters = t.clusters := by
    intro r hr t
    refine handle_rules t r ?_
    rintro ⟨h1, h2, h3, h4⟩
    obtain ⟨rs, hrs⟩ := Option.isSome_iff_exists.mp h4
    exact hops r rs hr ⟨h1, h2, h3, hrs⟩
  constructor
  · have := play_keeps (parse := parse) (m := m) (L := L) (fun t => t.rules = rules) ops
      (fun o ho t ht => by
        cases o with
        | request r => exact (hquiet r ho t).1.trans ht
        | register => exact ht
        | cluster => exact ht) (step parse m s (.request set)) (by simp only [step, e])
    rw [answer, handle_at hm _ get hg.1 hg.2 (h := .refersFilter) (by decide +kernel) (by decide +kernel) (by decide), serve,
      serveFilter, if_pos hg.2]
    show [Out.rules (play parse m (step parse m s (.request set)) ops).rules] = _
    rw [this]
  · intro k u f hload hnot
    refine play_keeps (parse := parse) (m := m) (L := L)
      (fun t => AMap.load t.clusters k = some (u, parseRefersFilters N rules u)) ops
      (fun o ho t ht => by
        cases o with
        | request r => simp only [step]; rw [(hquiet r ho t).2]; exact ht
        | register => exact ht
        | cluster k' u' =>
          simp only [step]
          rw [AMap.load_store_ne]
          · exact ht
          · rintro rfl; exact hnot u' ho) (step parse m s (.request set)) ?_
    simp only [step, e]
    have hmap : ∀ c : AMap Bytes (URL × Option (Filter N)), AMap.load c k = some (u, f) →
        AMap.load (applyRules N rules c) k = some (u, parseRefersFilters N rules u) := by
      intro c
      induction c with
      | nil => intro h; cases h
      | cons x xs ih =>
        obtain ⟨a, b⟩ := x
        rw [AMap.load_cons, applyRules, List.map_cons, AMap.load_cons]
        by_cases e : a = k
        · rw [if_pos e, if_pos e]; intro h; cases h; rfl
        · rw [if_neg e, if_neg e]; exact ih
    exact hmap _ hload

/-- A request without rules, or with rules that cannot be read, changes nothing. -/
theorem filter_refused (hm : Spec.IsDefaultMux m) (s : St N L) (set : Req) (ha : set.allowed = true)
    (hp : set.path = b!"/refers/filter/set")
    (hbad : set.formValue b!"config" = [] ∨ parse (set.formValue b!"config") = none) :
    handle parse m s set =
      (s, [.fail (if set.formValue b!"config" = [] then b!"empty config" else b!"parse config failed")]) := by
  rw [handle_at hm s set ha hp (h := .refersFilter) (by decide +kernel) (by decide +kernel) (by decide), serve, serveFilter,
    if_neg (by rw [hp]; decide +kernel), if_pos hp]
  by_cases h : set.formValue b!"config" = []
  · rw [if_pos h, if_pos h]
  · rw [if_neg h, if_neg h, hbad.resolve_left h]

/-- Full claim (false): rules that are not valid are refused and change nothing. They are stored and applied; the answer
reports a failure and success. -/
theorem filter_invalid_violated (hm : Spec.IsDefaultMux m) (s : St N L) {rules : List Config} (set : Req)
    (hs : Spec.setsRules parse set rules) (hbad : verify rules = false) :
    answer parse m s set = [.fail b!"verify", .ok] ∧ (handle parse m s set).1.rules = rules := by
  obtain ⟨ha, hp, hne, hparse⟩ := hs
  rw [answer, handle_at hm s set ha hp (h := .refersFilter) (by decide +kernel) (by decide +kernel) (by decide), serve,
    serveFilter, if_neg (by rw [hp]; decide +kernel), if_pos hp, if_neg hne, hparse]
  simp [hbad]

/-- Full claim (false): every cluster applies the rules shown. A cluster created after the request has no filter. -/
theorem filter_later_violated (hm : Spec.IsDefaultMux m) (s : St N L) {rules : List Config} (set get : Req)
    (hs : Spec.setsRules parse set rules) (hg : Spec.getRules get) (k : Bytes) (u : URL) :
    answer parse m (play parse m s [.request set, .cluster k u]) get = [.rules rules] ∧
    AMap.load (play parse m s [.request set, .cluster k u]).clusters k = some (u, none) := by
  refine ⟨(filter_last hm s set get hs hg [.cluster k u] ?_).1, ?_⟩
  · intro r rs hr; simp at hr
  · exact AMap.load_store_self ..

/-! ## The hypotheses can be met -/

/-- The mux of a default agent. -/
theorem default_mux : Spec.IsDefaultMux (mux (handlers [] [] [])) := ⟨_, .refl _, rfl⟩

/-- C81: of a parameter given several times the first value counts; one that is not given counts as empty. -/
theorem form_value (path ctr k v : Bytes) (allowed : Bool) (pre post : AMap Bytes (List Bytes)) (vs : List Bytes)
    (h : k ∉ pre.map (·.1)) :
    Req.formValue { path, ctr, allowed, form := pre ++ (k, v :: vs) :: post } k = v ∧
    Req.formValue { path, ctr, allowed, form := pre } k = [] := by
  have h1 : ∀ (post : AMap Bytes (List Bytes)), AMap.load (pre ++ post) k = AMap.load post k := by
    intro post
    induction pre with
    | nil => rfl
    | cons p pre ih =>
      obtain ⟨a, b⟩ := p
      simp only [List.map_cons, List.mem_cons, not_or] at h
      rw [List.cons_append, AMap.load, if_neg (fun e => h.1 e.symm)]
      exact ih h.2
  constructor
  · simp only [Req.formValue, h1, AMap.load, if_true]
  · have := h1 []
    rw [List.append_nil] at this
    simp only [Req.formValue, this, AMap.load]

section Examples

private def net : Net := ⟨Unit, Unit, fun _ => none, fun _ => none, fun _ _ => false⟩

private def start : St net Unit :=
  { sw := ⟨[(b!"feature", ⟨false, []⟩)], [], []⟩, level := 0, access := true, metrics := true, pages := false, dyn := [],
    rules := [], clusters := [] }

private def setFeature (v : Bytes) : Req :=
  { path := b!"/switcher/set", form := [(b!"name", [b!"feature"]), (b!"value", [v])] }

private def getFeature : Req := { path := b!"/switcher/get", form := [(b!"name", [b!"feature"])] }

example (parse) : answer parse (mux (handlers [] [] [])) (play parse (mux (handlers [] [] [])) start
    [.request (setFeature b!"T"), .request (setFeature b!"maybe"), .register b!"feature" false []]) getFeature
    = [.text b!"Switcher value for feature is true!"] :=
  switcher_last default_mux start (n := b!"feature") (v := b!"T") (b := true) (by decide) (by decide +kernel) (by decide +kernel)
    _ _ rfl rfl (by decide +kernel) (by decide +kernel) _ (by
      intro o ho
      simp only [List.mem_cons, List.not_mem_nil, or_false] at ho
      rcases ho with rfl | rfl
      · rintro ⟨r, h, _, _, _, hv⟩
        cases h
        exact absurd hv (by decide +kernel)
      · rintro ⟨r, h, _⟩
        cases h) ⟨rfl, rfl, by decide +kernel⟩

/-- A handler named in the environment wins over one given to the agent, which wins over the default. -/
example : Spec.fromEnv [(b!"a", [(b!"/200", .custom 2)])] b!"/200" (split b!"," b!" a,b") = some (.custom 2) := by decide +kernel

/-- A page of net/http/pprof is shown to a request without permission. -/
example (parse) (s : St net Unit) :
    handle parse (mux (handlers [] [] [])) s { path := b!"/debug/pprof/cmdline", allowed := false }
      = (s, [.page b!"/debug/pprof/cmdline"]) :=
  manage_permission_violated default_mux s _ (.inl (by decide +kernel))

/-- A page of the agent is not. -/
example (parse) (s : St net Unit) :
    handle parse (mux (handlers [] [] [])) s { path := b!"/debug/pprof/heap", allowed := false }
      = (s, [.text b!"need permission!"]) :=
  manage_denied default_mux s _ ⟨_, rfl⟩ (by
    rintro (h | ⟨_, h⟩)
    · exact absurd h (by decide +kernel)
    · exact h (by decide +kernel)) rfl

example : Params.toLower b!"WARN" ∈ Spec.levelNames ∧ Params.toLower b!"loud" ∉ Spec.levelNames := by decide +kernel

example : Spec.switchesPages { path := b!"/debug/pprof/sw", ctr := b!"op" } true ∧ Spec.ownPage b!"/debug/stat/system" :=
  ⟨⟨rfl, rfl, rfl⟩, by rw [Spec.ownPage]; decide +kernel⟩

example : AMap.NodupKeys [(b!"zone", [b!"tc", b!"yf"]), (b!"empty", [])] := by unfold AMap.NodupKeys; decide +kernel

/-- Rules that are not valid. -/
example : Spec.setsRules (fun _ => some [⟨[], [], b!"inclde", b!"10."⟩])
    { path := b!"/refers/filter/set", form := [(b!"config", [b!"[…]"])] } [⟨[], [], b!"inclde", b!"10."⟩] ∧
    verify [⟨[], [], b!"inclde", b!"10."⟩] = false :=
  ⟨⟨rfl, rfl, by decide +kernel, rfl⟩, by decide +kernel⟩

end Examples

end Motan.Props
