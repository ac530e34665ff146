import Verif.Model.Command
import Verif.Props.Cluster

/-!
# C37: traffic commands
-/

namespace Motan.Props

open Motan.Strings Motan.Url Motan.Command

/-! ## Specification -/

/-- `sort.Sort` on commands: a permutation in increasing order of index. -/
structure Spec.SortsByIndex (sort : List Cmd → List Cmd) : Prop where
  perm : ∀ l, (sort l).Perm l
  sorted : ∀ l, (sort l).Pairwise fun a b => a.index ≤ b.index

/-- A command applies to the service of the cluster: switcher commands do, and others whose pattern is `*`, a prefix
of the service's name, or a regular expression matching it. -/
def Spec.applies (env : Env) (c : Cmd) : Prop :=
  c.type = 2 ∨ c.pattern = b!"*" ∨ c.pattern <+: env.url.path ∨ env.re c.pattern env.url.path = true

/-- Matching a text against a pattern up to its first star. -/
def Spec.starMatch : Bytes → Bytes → Bool
  | [], s => s.isEmpty
  | 42 :: _, _ => true
  | _ :: _, [] => false
  | c :: p, d :: s => c = d && Spec.starMatch p s

/-- Matching, with a leading `!` for negation. -/
def Spec.covers : Bytes → Bytes → Bool
  | 33 :: p, s => !Spec.starMatch p s
  | p, s => Spec.starMatch p s

/-- A node satisfies a route rule: `A to B` asks of a client whose address is covered by A that the node be covered
by B. Anything else asks nothing. -/
def Spec.obeys (ip : Bytes) (u : URL) (rule : Bytes) : Bool :=
  match (split b!"to" rule).map trimSpace with
  | [a, b] => a = [] || b = [] || !Spec.covers a ip || Spec.covers b u.host
  | _ => true

/-- A node satisfies all route rules (the entry carrying the weights is not a node). -/
def Spec.allowed (ip : Bytes) (rules : List Bytes) (u : URL) : Bool :=
  u.protocol = b!"rule" || rules.all (Spec.obeys ip u)

/-! ## Choosing commands -/

theorem applies_iff (env : Env) (c : Cmd) : matchCmdPattern env c = true ↔ Spec.applies env c := by
  unfold matchCmdPattern Spec.applies hasPrefix
  by_cases h2 : c.type = 2
  · simp [h2]
  · by_cases h3 : c.pattern = b!"*"
    · simp [h3]
    · simp only [h2, h3, if_false, false_or, List.isPrefixOf_iff_prefix]
      by_cases h4 : c.pattern <+: env.url.path
      · simp [h4]
      · simp [h4]

theorem choose_tc (env : Env) (l : List Cmd) (r : Chosen) :
    (l.foldl (choose env) r).tc = (r.tc.or (l.find? fun c => c.type = 0 && matchCmdPattern env c)) ∧
    (l.foldl (choose env) r).degrade =
      ((l.filter fun c => c.type = 1 && matchCmdPattern env c).getLast?).or r.degrade ∧
    (l.foldl (choose env) r).switcher =
      ((l.filter fun c => c.type = 2 && matchCmdPattern env c).getLast?).or r.switcher := by
  induction l generalizing r with
  | nil => simp
  | cons c l ih =>
    rw [List.foldl_cons, (ih _).1, (ih _).2.1, (ih _).2.2, List.find?_cons, List.filter_cons, List.filter_cons]
    unfold choose
    cases hm : matchCmdPattern env c with
    | false => simp
    | true =>
      by_cases h0 : c.type = 0
      · cases hr : r.tc <;> simp [h0, hr]
      · by_cases h1 : c.type = 1
        · have e : ∀ f : List Cmd, (c :: f).getLast?.or r.degrade = f.getLast?.or (some c) := by
            intro f; rw [List.getLast?_cons]; cases f.getLast? <;> rfl
          simp only [h1, decide_true, Bool.and_self, if_true, e]
          cases r.tc <;> simp
        · by_cases h2 : c.type = 2
          · have e : ∀ f : List Cmd, (c :: f).getLast?.or r.switcher = f.getLast?.or (some c) := by
              intro f; rw [List.getLast?_cons]; cases f.getLast? <;> rfl
            simp only [h2, decide_true, Bool.and_self, if_true, e]
            cases r.tc <;> simp
          · simp [h0, h1, h2]

theorem find_min {l : List Cmd} (hs : l.Pairwise fun a b => a.index ≤ b.index) (p : Cmd → Bool) (c : Cmd)
    (h : l.find? p = some c) : c ∈ l ∧ p c = true ∧ ∀ d ∈ l, p d = true → c.index ≤ d.index := by
  refine ⟨List.mem_of_find?_eq_some h, List.find?_some h, ?_⟩
  induction l with
  | nil => simp at h
  | cons a l ih =>
    rw [List.pairwise_cons] at hs
    rw [List.find?_cons] at h
    intro d hd hp
    cases ha : p a with
    | true =>
      rw [ha] at h
      obtain rfl : a = c := by simpa using h
      rcases List.mem_cons.mp hd with rfl | hd
      · exact Int.le_refl _
      · exact hs.1 d hd
    | false =>
      rw [ha] at h
      rcases List.mem_cons.mp hd with rfl | hd
      · rw [ha] at hp; exact absurd hp (by simp)
      · exact ih hs.2 h d hd hp

theorem last_max {l : List Cmd} (hs : l.Pairwise fun a b => a.index ≤ b.index) (p : Cmd → Bool) (c : Cmd)
    (h : (l.filter p).getLast? = some c) : c ∈ l ∧ p c = true ∧ ∀ d ∈ l, p d = true → d.index ≤ c.index := by
  have hm := List.mem_filter.mp (List.mem_of_getLast? h)
  refine ⟨hm.1, hm.2, ?_⟩
  have hs' := hs.filter p
  intro d hd hp
  have hd' : d ∈ l.filter p := List.mem_filter.mpr ⟨hd, hp⟩
  obtain ⟨pre, hpre⟩ := List.getLast?_eq_some_iff.mp h
  rw [hpre] at hs' hd'
  rw [List.pairwise_append] at hs'
  rcases List.mem_append.mp hd' with h1 | h1
  · exact hs'.2.2 d h1 c (by simp)
  · rw [List.mem_singleton.mp h1]; exact Int.le_refl _

/-- The traffic-control command taken from a set of commands is one with the lowest index among those that apply to
the service, and there is one if any applies. -/
theorem traffic_command_chosen (env : Env) (hs : Spec.SortsByIndex env.sort) (info : Bytes) (l : List Cmd)
    (hl : env.parse info = some l) :
    (∀ c, (mergeCommand env info).tc = some c →
      c ∈ l ∧ c.type = 0 ∧ Spec.applies env c ∧
      ∀ d ∈ l, d.type = 0 → Spec.applies env d → c.index ≤ d.index) ∧
    ((mergeCommand env info).tc = none ↔ ∀ d ∈ l, ¬ (d.type = 0 ∧ Spec.applies env d)) := by
  have h : (mergeCommand env info).tc = (env.sort l).find? fun c => c.type = 0 && matchCmdPattern env c := by
    unfold mergeCommand
    rw [hl]
    simp only
    rw [(choose_tc env (env.sort l) {}).1]
    rfl
  rw [h]
  constructor
  · intro c hc
    obtain ⟨h1, h2, h3⟩ := find_min (hs.sorted l) _ c hc
    simp only [Bool.and_eq_true, decide_eq_true_eq] at h2
    refine ⟨(hs.perm l).mem_iff.mp h1, h2.1, (applies_iff env c).mp h2.2, fun d hd ht ha => ?_⟩
    exact h3 d ((hs.perm l).mem_iff.mpr hd) (by simp [ht, (applies_iff env d).mpr ha])
  · rw [List.find?_eq_none]
    constructor
    · intro h d hd hc
      exact h d ((hs.perm l).mem_iff.mpr hd) (by simp [hc.1, (applies_iff env d).mpr hc.2])
    · intro h d hd hc
      simp only [Bool.and_eq_true, decide_eq_true_eq] at hc
      exact h d ((hs.perm l).mem_iff.mp hd) ⟨hc.1, (applies_iff env d).mp hc.2⟩

/-- Of degrade commands and of switcher commands one with the highest index is taken instead. -/
theorem degrade_and_switcher_chosen (env : Env) (hs : Spec.SortsByIndex env.sort) (info : Bytes) (l : List Cmd)
    (hl : env.parse info = some l) :
    (∀ c, (mergeCommand env info).degrade = some c →
      c ∈ l ∧ c.type = 1 ∧ Spec.applies env c ∧
      ∀ d ∈ l, d.type = 1 → Spec.applies env d → d.index ≤ c.index) ∧
    ((mergeCommand env info).degrade = none ↔ ∀ d ∈ l, ¬ (d.type = 1 ∧ Spec.applies env d)) ∧
    (∀ c, (mergeCommand env info).switcher = some c →
      c ∈ l ∧ c.type = 2 ∧ ∀ d ∈ l, d.type = 2 → d.index ≤ c.index) ∧
    ((mergeCommand env info).switcher = none ↔ ∀ d ∈ l, d.type ≠ 2) := by
  have key : ∀ (t : Int),
      (∀ c, ((env.sort l).filter fun c => c.type = t && matchCmdPattern env c).getLast? = some c →
        c ∈ l ∧ c.type = t ∧ Spec.applies env c ∧
        ∀ d ∈ l, d.type = t → Spec.applies env d → d.index ≤ c.index) ∧
      (((env.sort l).filter fun c => c.type = t && matchCmdPattern env c).getLast? = none ↔
        ∀ d ∈ l, ¬ (d.type = t ∧ Spec.applies env d)) := by
    intro t
    constructor
    · intro c hc
      obtain ⟨h1, h2, h3⟩ := last_max (hs.sorted l) _ c hc
      simp only [Bool.and_eq_true, decide_eq_true_eq] at h2
      refine ⟨(hs.perm l).mem_iff.mp h1, h2.1, (applies_iff env c).mp h2.2, fun d hd ht ha => ?_⟩
      exact h3 d ((hs.perm l).mem_iff.mpr hd) (by simp [ht, (applies_iff env d).mpr ha])
    · rw [List.getLast?_eq_none_iff, List.filter_eq_nil_iff]
      constructor
      · intro h d hd hc
        exact h d ((hs.perm l).mem_iff.mpr hd) (by simp [hc.1, (applies_iff env d).mpr hc.2])
      · intro h d hd hc
        simp only [Bool.and_eq_true, decide_eq_true_eq] at hc
        exact h d ((hs.perm l).mem_iff.mp hd) ⟨hc.1, (applies_iff env d).mp hc.2⟩
  have hd : (mergeCommand env info).degrade =
      ((env.sort l).filter fun c => c.type = 1 && matchCmdPattern env c).getLast? := by
    unfold mergeCommand
    rw [hl]
    simp only
    rw [(choose_tc env (env.sort l) {}).2.1, Option.or_none]
  have hw : (mergeCommand env info).switcher =
      ((env.sort l).filter fun c => c.type = 2 && matchCmdPattern env c).getLast? := by
    unfold mergeCommand
    rw [hl]
    simp only
    rw [(choose_tc env (env.sort l) {}).2.2, Option.or_none]
  rw [hd, hw]
  refine ⟨(key 1).1, (key 1).2, fun c hc => ?_, ?_⟩
  · obtain ⟨h1, h2, _, h4⟩ := (key 2).1 c hc
    exact ⟨h1, h2, fun d hd ht => h4 d hd ht (Or.inl ht)⟩
  · rw [(key 2).2]
    constructor
    · intro h d hd ht; exact h d hd ⟨ht, Or.inl ht⟩
    · intro h d hd hc; exact h d hd hc.1

/-! ## Patterns and routes -/

theorem starMatch_star (p s t : Bytes) (h : (42 : UInt8) ∉ p) :
    Spec.starMatch (p ++ 42 :: t) s = hasPrefix s p := by
  induction p generalizing s with
  | nil => cases s <;> simp [Spec.starMatch, hasPrefix]
  | cons c p ih =>
    have hc : c ≠ 42 := fun e => h (by simp [e])
    cases s with
    | nil =>
      rw [List.cons_append, Spec.starMatch]
      · rfl
      · exact fun e => hc e
    | cons d s =>
      rw [List.cons_append, Spec.starMatch, ih s (fun e => h (by simp [e]))]
      · unfold hasPrefix
        rw [List.isPrefixOf_cons₂]
        rfl
      · exact fun e => hc e

theorem starMatch_plain (p s : Bytes) (h : (42 : UInt8) ∉ p) : Spec.starMatch p s = decide (s = p) := by
  induction p generalizing s with
  | nil => cases s <;> simp [Spec.starMatch]
  | cons c p ih =>
    have hc : c ≠ 42 := fun e => h (by simp [e])
    cases s with
    | nil =>
      rw [Spec.starMatch]
      · simp
      · exact fun e => hc e
    | cons d s =>
      rw [Spec.starMatch, ih s (fun e => h (by simp [e]))]
      · simp [eq_comm]
      · exact fun e => hc e

theorem split_at_byte (b : UInt8) (p : Bytes) : b ∉ p ∨ ∃ a t, p = a ++ b :: t ∧ b ∉ a := by
  induction p with
  | nil => left; simp
  | cons c p ih =>
    by_cases hc : c = b
    · right; exact ⟨[], p, by rw [hc]; rfl, by simp⟩
    · rcases ih with h | ⟨a, t, h, h'⟩
      · left; simp [h, Ne.symm hc]
      · right; exact ⟨c :: a, t, by rw [h]; rfl, by simp [h', Ne.symm hc]⟩

/-- Matching without negation. -/
def plainMatch (p s : Bytes) : Bool :=
  if p = b!"*" then true
  else match index b!"*" p with
    | some i => hasPrefix s (p.take i)
    | none => s = p

theorem isMatch_eq (p s : Bytes) :
    Command.isMatch p s = if hasPrefix p b!"!" then !plainMatch (p.drop 1) s else plainMatch p s := by
  unfold Command.isMatch plainMatch
  cases hasPrefix p b!"!" <;> rfl

theorem plain_match (p s : Bytes) : plainMatch p s = Spec.starMatch p s := by
  unfold plainMatch
  have hstar : (b!"*" : Bytes) = [42] := by decide
  rw [hstar]
  rcases split_at_byte 42 p with h | ⟨a, t, rfl, ha⟩
  · have hne : p ≠ [42] := by rintro rfl; simp at h
    rw [if_neg hne, index_none_of_not_mem h, starMatch_plain p s h]
  · rw [starMatch_star a s t ha]
    by_cases hp : a ++ 42 :: t = [42]
    · rw [if_pos hp]
      have : a = [] := by
        cases a with
        | nil => rfl
        | cons x a => simp at hp
      rw [this]; cases s <;> rfl
    · have hi : index [42] (a ++ 42 :: t) = some a.length := by
        have := index_append_of_not_mem (c := 42) (sep := []) (p := a) (r := 42 :: t) ha
        rw [this, show (42 :: t : Bytes) = [42] ++ t from rfl, index_self]
        simp
      rw [if_neg hp, hi]
      simp

/-- Patterns match as specified. -/
theorem pattern_covers (p s : Bytes) : Command.isMatch p s = Spec.covers p s := by
  rw [isMatch_eq]
  have h33 : (b!"!" : Bytes) = [33] := by decide
  rw [h33]
  by_cases h : ∃ q, p = 33 :: q
  · obtain ⟨q, rfl⟩ := h
    have hp : hasPrefix (33 :: q) [33] = true := by simp [hasPrefix, List.isPrefixOf]
    rw [hp, if_pos rfl, List.drop_succ_cons, List.drop_zero, plain_match]
    rfl
  · have hp : hasPrefix p [33] = false := by
      cases p with
      | nil => rfl
      | cons c p =>
        have : c ≠ 33 := fun e => h ⟨p, by rw [e]⟩
        simp [hasPrefix, List.isPrefixOf, Ne.symm this]
    rw [hp, if_neg (by simp), plain_match]
    unfold Spec.covers
    split
    · exact absurd ⟨_, rfl⟩ h
    · rfl

theorem routeStep_filter (ip : Bytes) (urls : List URL) (r : Bytes) :
    routeStep ip urls r = urls.filter fun u => u.protocol = b!"rule" || Spec.obeys ip u r := by
  unfold routeStep Spec.obeys
  rcases hs : split b!"to" r with _ | ⟨a, _ | ⟨b, _ | ⟨c, rest⟩⟩⟩
  · exact (List.filter_eq_self.mpr (by simp)).symm
  · exact (List.filter_eq_self.mpr (by simp)).symm
  · simp only [List.map_cons, List.map_nil]
    rw [pattern_covers]
    by_cases ha : trimSpace a = []
    · rw [if_neg (by simp [ha])]
      exact (List.filter_eq_self.mpr (by simp [ha])).symm
    · by_cases hb : trimSpace b = []
      · rw [if_neg (by simp [hb])]
        exact (List.filter_eq_self.mpr (by simp [hb])).symm
      · cases hc : Spec.covers (trimSpace a) ip with
        | false =>
          rw [if_neg (by simp)]
          exact (List.filter_eq_self.mpr (by simp)).symm
        | true =>
          rw [if_pos ⟨List.length_pos_iff.mpr ha, List.length_pos_iff.mpr hb, rfl⟩]
          congr 1
          funext u
          rw [pattern_covers]
          simp [ha, hb]
  · exact (List.filter_eq_self.mpr (by simp)).symm

/-- Route rules keep exactly the nodes satisfying all of them, in their order. -/
theorem routes_exact (ip : Bytes) (urls : List URL) (rules : List Bytes) :
    processRoute ip urls rules = urls.filter (Spec.allowed ip rules) := by
  have key : ∀ (rules : List Bytes) (urls : List URL),
      rules.foldl (routeStep ip) urls = urls.filter (Spec.allowed ip rules) := by
    intro rules
    induction rules with
    | nil => intro urls; exact (List.filter_eq_self.mpr (by simp [Spec.allowed])).symm
    | cons r rules ih =>
      intro urls
      rw [List.foldl_cons, ih, routeStep_filter, List.filter_filter]
      congr 1
      funext u
      simp only [Spec.allowed, List.all_cons]
      cases decide (u.protocol = b!"rule") <;> simp [Bool.and_comm]
  unfold processRoute
  split
  · exact key rules urls
  · rename_i h
    by_cases hu : urls = []
    · rw [hu]; rfl
    · have hr : rules = [] := by
        have := List.length_pos_iff.mpr hu
        cases rules with
        | nil => rfl
        | cons => exact absurd ⟨this, by simp⟩ h
      rw [hr]
      exact (List.filter_eq_self.mpr (by simp [Spec.allowed])).symm

/-! ## Histories -/

/-- The last agent-level command (empty if none, or withdrawn). -/
def Spec.agentInfo (h : List Event) : Bytes :=
  h.foldl (fun i e => match e with
    | .command true j _ => j
    | .unsubscribe => []
    | _ => i) []

/-- The last service-level command. -/
def Spec.serviceInfo (h : List Event) : Bytes :=
  h.foldl (fun i e => match e with
    | .command false j _ => j
    | .discover _ j _ => j
    | .unsubscribe => []
    | _ => i) []

/-- The last content of the cluster's own group. -/
def Spec.ownURLs (h : List Event) : List URL :=
  h.foldl (fun i e => match e with
    | .own us _ => us
    | .discover us _ _ => us
    | .unsubscribe => []
    | _ => i) []

/-- The commands of a text; an empty text has none. -/
def Spec.chosen (env : Env) (info : Bytes) : Chosen := if info = [] then {} else mergeCommand env info

theorem run_snoc (env : Env) (h : List Event) (e : Event) : run env (h ++ [e]) = step env (run env h) e := by
  rw [run, List.foldl_append]; rfl

theorem cmd_induct (env : Env) {P : List Event → State → Prop} (h0 : P [] (newWrapper env))
    (hs : ∀ h e, P h (run env h) → P (h ++ [e]) (step env (run env h) e)) (h : List Event) : P h (run env h) := by
  have key : ∀ (h' pre : List Event), P pre (run env pre) → P (pre ++ h') (run env (pre ++ h')) := by
    intro h'
    induction h' with
    | nil => intro pre hp; simpa using hp
    | cons e h' ih =>
      intro pre hp
      have h1 := hs pre e hp
      rw [← run_snoc] at h1
      have := ih (pre ++ [e]) h1
      simpa using this
  exact key h [] h0

theorem agentInfo_snoc (h : List Event) (e : Event) :
    Spec.agentInfo (h ++ [e]) = match e with
      | .command true j _ => j
      | .unsubscribe => []
      | _ => Spec.agentInfo h := by
  rw [Spec.agentInfo, List.foldl_append]; cases e <;> rfl

theorem serviceInfo_snoc (h : List Event) (e : Event) :
    Spec.serviceInfo (h ++ [e]) = match e with
      | .command false j _ => j
      | .discover _ j _ => j
      | .unsubscribe => []
      | _ => Spec.serviceInfo h := by
  rw [Spec.serviceInfo, List.foldl_append]; cases e <;> rfl

theorem ownURLs_snoc (h : List Event) (e : Event) :
    Spec.ownURLs (h ++ [e]) = match e with
      | .own us _ => us
      | .discover us _ _ => us
      | .unsubscribe => []
      | _ => Spec.ownURLs h := by
  rw [Spec.ownURLs, List.foldl_append]; cases e <;> rfl

/-! ### What each function changes -/

/-- The state apart from listeners and subscriptions is the same. -/
def SameCore (s s' : State) : Prop :=
  s' = { s with listeners := s'.listeners, next := s'.next, subs := s'.subs }

theorem SameCore.refl (s : State) : SameCore s s := rfl

theorem SameCore.trans {a b c : State} (h1 : SameCore a b) (h2 : SameCore b c) : SameCore a c := by
  unfold SameCore at *
  rw [h2, h1]

theorem newSubscribe_core (disc : Bytes → List URL) (s : State) (g : Bytes) :
    SameCore s (newSubscribe disc s g).2 ∧ (newSubscribe disc s g).2.listeners = s.listeners := ⟨rfl, rfl⟩

theorem groupURLs_core (env : Env) (disc : Bytes → List URL) (s : State) (g : Bytes) :
    SameCore s (groupURLs env disc s g).2 := by
  unfold groupURLs
  split
  · exact SameCore.refl s
  · split <;> rfl

theorem mergeURLs_core (env : Env) (disc : Bytes → List URL) (s : State) (gs : List Bytes) :
    SameCore s (mergeURLs env disc s gs).2 := by
  induction gs generalizing s with
  | nil => exact SameCore.refl s
  | cons g gs ih => exact (groupURLs_core env disc s g).trans (ih _)

theorem getResult_core (env : Env) (disc : Bytes → List URL) (s : State) : SameCore s (getResult env disc s).2 := by
  unfold getResult
  split
  · exact SameCore.refl s
  · exact mergeURLs_core env disc s _

theorem tcGroups_core (env : Env) (disc : Bytes → List URL) (old : AMap Bytes Listener) (gs : List Bytes)
    (new rm : AMap Bytes Listener) (ws : AMap Bytes Bytes) (s : State) :
    SameCore s (tcGroups env disc old gs (new, rm, ws, s)).2.2.2 := by
  induction gs generalizing new rm ws s with
  | nil => exact SameCore.refl s
  | cons g gs ih =>
    rw [tcGroups]
    simp only
    split
    · exact ih _ _ _ _
    · split
      · exact ih _ _ _ _
      · exact SameCore.trans (b := (newSubscribe disc s (groupName g)).2) rfl (ih _ _ _ _)

/-- `processTc` changes only the command, listeners, weights and subscriptions. -/
theorem processTc_core (env : Env) (disc : Bytes → List URL) (s : State) (tc : Option Cmd) :
    let s' := processTc env disc s tc
    s' = { s with listeners := s'.listeners, next := s'.next, subs := s'.subs, tc := tc, weights := s'.weights } := by
  unfold processTc
  split
  · rfl
  · rename_i c _
    have h := tcGroups_core env disc s.listeners c.mergeGroups [] s.listeners [] s
    generalize tcGroups env disc s.listeners c.mergeGroups ([], s.listeners, [], s) = r at h
    rw [SameCore] at h
    simp only [finishTc]
    rw [h]

/-- The commands taken from the two texts. -/
def pick (env : Env) (agent service : Bytes) : Chosen :=
  { tc := (Spec.chosen env agent).tc.or (Spec.chosen env service).tc
    degrade := (Spec.chosen env agent).degrade.or (Spec.chosen env service).degrade
    switcher := (Spec.chosen env agent).switcher.or (Spec.chosen env service).switcher }

theorem pick_eq (env : Env) (a b : Bytes) :
    (let x : Chosen := if a ≠ [] then mergeCommand env a else {}
     if b ≠ [] then
       let y := mergeCommand env b
       { tc := match x.tc with | some c => some c | none => y.tc
         degrade := match x.degrade with | some c => some c | none => y.degrade
         switcher := match x.switcher with | some c => some c | none => y.switcher }
     else x : Chosen) = pick env a b := by
  have hx : (if a ≠ [] then mergeCommand env a else {} : Chosen) = Spec.chosen env a := by
    unfold Spec.chosen; by_cases h : a = [] <;> simp [h]
  rw [hx]
  simp only
  unfold pick
  by_cases h : b = []
  · rw [if_neg (by simp [h])]
    have : Spec.chosen env b = {} := by unfold Spec.chosen; simp [h]
    rw [this]
    simp
  · rw [if_pos h]
    have : Spec.chosen env b = mergeCommand env b := by unfold Spec.chosen; simp [h]
    rw [this]
    cases (Spec.chosen env a).tc <;> cases (Spec.chosen env a).degrade <;> cases (Spec.chosen env a).switcher <;> rfl

/-- With the infos replaced. -/
def setInfo (s : State) (agent : Bool) (info : Bytes) : State :=
  if agent then { s with agentInfo := info } else { s with serviceInfo := info }

theorem processCommand_same (env : Env) (disc : Bytes → List URL) (s : State) (agent : Bool) (info : Bytes)
    (h : (if agent then s.agentInfo else s.serviceInfo) = info) :
    processCommand env disc s agent info = (false, s) := by
  unfold processCommand; rw [if_pos h]

theorem processCommand_new (env : Env) (disc : Bytes → List URL) (s : State) (agent : Bool) (info : Bytes)
    (h : (if agent then s.agentInfo else s.serviceInfo) ≠ info) :
    processCommand env disc s agent info =
      let t := setInfo s agent info
      let r := pick env t.agentInfo t.serviceInfo
      let p := processDegrade (processTc env disc t r.tc) r.degrade
      (r.tc.isSome || (t.tc.isSome && r.tc.isNone),
        { p with switcher := r.switcher, switched := p.switched ++ [r.switcher] }) := by
  unfold processCommand
  rw [if_neg h]
  simp only
  rw [← pick_eq]
  rfl

/-- The part of the state that is a function of the history. -/
structure Core (env : Env) (h : List Event) (s : State) : Prop where
  agent : s.agentInfo = Spec.agentInfo h
  service : s.serviceInfo = Spec.serviceInfo h
  own : s.own = Spec.ownURLs h
  tc : s.tc = (pick env s.agentInfo s.serviceInfo).tc
  degrade : s.degrade = (pick env s.agentInfo s.serviceInfo).degrade
  static : s.static = (newWrapper env).static

theorem newWrapper_core (env : Env) :
    newWrapper env = { static := (newWrapper env).static } := by
  unfold newWrapper
  simp only
  split
  · split <;> rfl
  · rfl

/-- What a command does to that part. -/
theorem processCommand_core (env : Env) (disc : Bytes → List URL) (s : State) (agent : Bool) (info : Bytes)
    (ht : s.tc = (pick env s.agentInfo s.serviceInfo).tc)
    (hd : s.degrade = (pick env s.agentInfo s.serviceInfo).degrade) :
    let s' := (processCommand env disc s agent info).2
    s'.agentInfo = (if agent then info else s.agentInfo) ∧ s'.serviceInfo = (if agent then s.serviceInfo else info) ∧
    s'.own = s.own ∧ s'.static = s.static ∧
    s'.tc = (pick env s'.agentInfo s'.serviceInfo).tc ∧ s'.degrade = (pick env s'.agentInfo s'.serviceInfo).degrade := by
  by_cases h : (if agent then s.agentInfo else s.serviceInfo) = info
  · rw [processCommand_same env disc s agent info h]
    cases agent
    · simp only [Bool.false_eq_true, if_false] at h ⊢
      exact ⟨trivial, h, trivial, trivial, ht, hd⟩
    · simp only [if_true] at h ⊢
      exact ⟨h, trivial, trivial, trivial, ht, hd⟩
  · rw [processCommand_new env disc s agent info h]
    simp only
    rw [processTc_core]
    cases agent <;> exact ⟨rfl, rfl, rfl, rfl, rfl, rfl⟩

theorem notifyResult_core (env : Env) (disc : Bytes → List URL) (s : State) :
    let s' := notifyResult env disc s
    s' = { s with listeners := s'.listeners, next := s'.next, subs := s'.subs, told := s'.told } := by
  unfold notifyResult
  have h := getResult_core env disc s
  generalize getResult env disc s = r at h
  obtain ⟨u, s'⟩ := r
  simp only at h ⊢
  rw [SameCore] at h
  rw [h]

theorem core_run (env : Env) (h : List Event) : Core env h (run env h) := by
  refine cmd_induct env (P := Core env) ?_ ?_ h
  · rw [newWrapper_core]
    constructor <;> rfl
  · intro h e ih
    cases e with
    | discover own info disc =>
      have hc := processCommand_core env disc { run env h with own := own } false info ih.tc ih.degrade
      have hn := notifyResult_core env disc (processCommand env disc { run env h with own := own } false info).2
      simp only at hc hn
      obtain ⟨h1, h2, h3, h4, h5, h6⟩ := hc
      show Core env _ (notifyResult env disc (processCommand env disc { run env h with own := own } false info).2)
      rw [hn]
      refine ⟨?_, ?_, ?_, h5, h6, ?_⟩
      · rw [agentInfo_snoc]; exact h1.trans ih.agent
      · rw [serviceInfo_snoc]; exact h2
      · rw [ownURLs_snoc]; exact h3
      · exact h4.trans ih.static
    | own urls disc =>
      show Core env _ (notifyOwn env disc (run env h) urls)
      have key : Core env (h ++ [.own urls disc]) { run env h with own := urls } := by
        refine ⟨?_, ?_, ?_, ih.tc, ih.degrade, ih.static⟩
        · rw [agentInfo_snoc]; exact ih.agent
        · rw [serviceInfo_snoc]; exact ih.service
        · rw [ownURLs_snoc]
      unfold notifyOwn
      split
      · rw [notifyResult_core]; exact ⟨key.1, key.2, key.3, key.4, key.5, key.6⟩
      · exact key
    | other id urls disc =>
      show Core env _ (notifyOther env disc (run env h) id urls)
      have key : Core env (h ++ [.other id urls disc]) (run env h) := by
        refine ⟨?_, ?_, ?_, ih.tc, ih.degrade, ih.static⟩
        · rw [agentInfo_snoc]; exact ih.agent
        · rw [serviceInfo_snoc]; exact ih.service
        · rw [ownURLs_snoc]; exact ih.own
      unfold notifyOther
      split
      · rw [notifyResult_core]; exact ⟨key.1, key.2, key.3, key.4, key.5, key.6⟩
      · exact key
    | command agent info disc =>
      have hc := processCommand_core env disc (run env h) agent info ih.tc ih.degrade
      simp only at hc
      obtain ⟨h1, h2, h3, h4, h5, h6⟩ := hc
      have key : Core env (h ++ [.command agent info disc]) (processCommand env disc (run env h) agent info).2 := by
        refine ⟨?_, ?_, ?_, h5, h6, ?_⟩
        · rw [agentInfo_snoc, h1, ih.agent]; cases agent <;> rfl
        · rw [serviceInfo_snoc, h2, ih.service]; cases agent <;> rfl
        · rw [ownURLs_snoc]; exact h3.trans ih.own
        · exact h4.trans ih.static
      show Core env _ (notifyCommand env disc (run env h) agent info)
      unfold notifyCommand
      simp only
      split
      · rw [notifyResult_core]; exact ⟨key.1, key.2, key.3, key.4, key.5, key.6⟩
      · exact key
    | unsubscribe =>
      refine ⟨?_, ?_, ?_, ?_, ?_, ih.static⟩
      · rw [agentInfo_snoc]; rfl
      · rw [serviceInfo_snoc]; rfl
      · rw [ownURLs_snoc]; rfl
      · rfl
      · rfl

/-- After any history the traffic and degrade commands in force are those of the last agent-level text, and those of
the last service-level text where the agent-level text has none. Nothing else of the history matters. -/
theorem commands_in_force (env : Env) (h : List Event) :
    (run env h).tc = (Spec.chosen env (Spec.agentInfo h)).tc.or (Spec.chosen env (Spec.serviceInfo h)).tc ∧
    (run env h).degrade =
      (Spec.chosen env (Spec.agentInfo h)).degrade.or (Spec.chosen env (Spec.serviceInfo h)).degrade := by
  have hc := core_run env h
  rw [hc.tc, hc.degrade, hc.agent, hc.service]
  exact ⟨rfl, rfl⟩

/-- A command equal to the last of its kind has no effect at all. -/
theorem repeated_command_ignored (env : Env) (h : List Event) (agent : Bool) (info : Bytes) (disc : Bytes → List URL)
    (hi : (if agent then Spec.agentInfo h else Spec.serviceInfo h) = info) :
    run env (h ++ [.command agent info disc]) = run env h := by
  have hc := core_run env h
  rw [run_snoc]
  show notifyCommand env disc (run env h) agent info = _
  unfold notifyCommand
  rw [processCommand_same env disc _ agent info (by rw [hc.agent, hc.service]; exact hi)]
  rfl

/-- While the wrapper is in use the cluster is degraded exactly when a degrade command is in force. -/
theorem degraded_iff (env : Env) (h : List Event) (hu : Event.unsubscribe ∉ h) :
    (run env h).available = (run env h).degrade.isNone := by
  have key : ∀ (disc : Bytes → List URL) (s : State) (agent : Bool) (info : Bytes),
      s.available = s.degrade.isNone →
      (processCommand env disc s agent info).2.available = (processCommand env disc s agent info).2.degrade.isNone := by
    intro disc s agent info hs
    by_cases h : (if agent then s.agentInfo else s.serviceInfo) = info
    · rw [processCommand_same env disc s agent info h]; exact hs
    · rw [processCommand_new env disc s agent info h]; rfl
  refine cmd_induct env (P := fun h s => Event.unsubscribe ∉ h → s.available = s.degrade.isNone) ?_ ?_ h hu
  · intro _; rw [newWrapper_core]; rfl
  · intro h e ih hu
    have ih := ih (fun hm => hu (by simp [hm]))
    cases e with
    | discover own info disc =>
      show (notifyResult env disc (processCommand env disc { run env h with own := own } false info).2).available = _
      have := key disc { run env h with own := own } false info ih
      rw [notifyResult_core]
      show _ = (notifyResult env disc (processCommand env disc { run env h with own := own } false info).2).degrade.isNone
      rw [notifyResult_core]
      exact this
    | own urls disc =>
      show (notifyOwn env disc (run env h) urls).available = (notifyOwn env disc (run env h) urls).degrade.isNone
      unfold notifyOwn
      split
      · rw [notifyResult_core]; exact ih
      · exact ih
    | other id urls disc =>
      show (notifyOther env disc (run env h) id urls).available = (notifyOther env disc (run env h) id urls).degrade.isNone
      unfold notifyOther
      split
      · rw [notifyResult_core]; exact ih
      · exact ih
    | command agent info disc =>
      show (notifyCommand env disc (run env h) agent info).available =
        (notifyCommand env disc (run env h) agent info).degrade.isNone
      unfold notifyCommand
      simp only
      split
      · rw [notifyResult_core]; exact key _ _ _ _ ih
      · exact key _ _ _ _ ih
    | unsubscribe => exact absurd (by simp) hu

/-! ## What the cluster is told -/

/-- The name of a merged group: what precedes the first colon (the rest is its weight). -/
def Spec.name (g : Bytes) : Bytes := g.takeWhile (· ≠ 58)

theorem groupName_eq (g : Bytes) : groupName g = Spec.name g := by
  unfold groupName Spec.name
  have hc : (b!":" : Bytes) = [58] := by decide
  rw [hc]
  by_cases h : (58 : UInt8) ∈ g
  · obtain ⟨a, t, rfl, ha⟩ := (split_at_byte 58 g).resolve_left (fun hn => hn h)
    have := split_cons (c := 58) (sep := []) (p := a) (r := t) ha
    rw [show a ++ 58 :: t = a ++ [58] ++ t by simp, this]
    simp only [List.headD_cons]
    rw [List.append_assoc, List.takeWhile_append_of_pos (by intro x hx; simp; rintro rfl; exact ha hx)]
    simp
  · rw [split_single h]
    simp only [List.headD_cons]
    have := List.takeWhile_append_of_pos (p := (· ≠ (58 : UInt8))) (l₁ := g) (l₂ := [])
      (by intro x hx; simp; rintro rfl; exact h hx)
    simpa using this.symm

/-- The nodes of the merged groups. -/
def Spec.merged (env : Env) (own : List URL) (others : Bytes → List URL) (groups : List Bytes) : List URL :=
  groups.flatMap fun g => if Spec.name g = env.url.group then own else others (Spec.name g)

/-- The entry carrying the weights of the groups. -/
def Spec.ruleURL (groups : List Bytes) : URL :=
  { protocol := b!"rule", params := some [(b!"weight", join b!"," (groups.dropWhile (· = [])))] }

/-- What the cluster should be told: without a command the nodes of its own group; with one the nodes of the merged
groups that satisfy the route rules, followed by the weights, or the own group if the merged groups have no nodes. -/
def Spec.answer (env : Env) (c : Option Cmd) (own : List URL) (others : Bytes → List URL) : List URL :=
  match c with
  | none => own
  | some c =>
    if Spec.merged env own others c.mergeGroups = [] then own
    else (Spec.merged env own others c.mergeGroups).filter (Spec.allowed env.localIP c.routeRules) ++
      [Spec.ruleURL c.mergeGroups]

/-- The last known nodes of another group. -/
def Spec.others (s : State) (g : Bytes) : List URL :=
  match AMap.load s.listeners g with
  | some l => l.urls
  | none => []

theorem weightString_eq (groups : List Bytes) : weightString groups = join b!"," (groups.dropWhile (· = [])) := by
  have key : ∀ (gs : List Bytes) (b : Bytes), b ≠ [] →
      gs.foldl (fun b g => (if b.length > 0 then b ++ b!"," else b) ++ g) b = join b!"," (b :: gs) := by
    intro gs
    induction gs with
    | nil => intro b _; rfl
    | cons g gs ih =>
      intro b hb
      rw [List.foldl_cons, if_pos (List.length_pos_iff.mpr hb), ih _ (by simp)]
      cases gs with
      | nil => simp [join]
      | cons g' gs => simp [join]
  unfold weightString
  induction groups with
  | nil => rfl
  | cons g gs ih =>
    rw [List.foldl_cons]
    by_cases hg : g = []
    · rw [hg, List.dropWhile_cons_of_pos (by simp)]
      exact ih
    · rw [List.dropWhile_cons_of_neg (by simpa using hg)]
      exact key gs g hg

theorem mergeURLs_spec (env : Env) (disc : Bytes → List URL) (s : State) (gs : List Bytes) :
    let r := mergeURLs env disc s gs
    (∀ k l, AMap.load s.listeners k = some l → AMap.load r.2.listeners k = some l) ∧
    (∀ g ∈ gs, Spec.name g ≠ env.url.group → (AMap.load r.2.listeners (Spec.name g)).isSome = true) ∧
    r.1 = Spec.merged env s.own (Spec.others r.2) gs ∧
    ((∀ g ∈ gs, Spec.name g ≠ env.url.group → (AMap.load s.listeners (Spec.name g)).isSome = true) → r.2 = s) := by
  induction gs generalizing s with
  | nil => exact ⟨fun k l h => h, fun g hg => absurd hg (by simp), rfl, fun _ => rfl⟩
  | cons g gs ih =>
    have hg : ∀ k l, AMap.load s.listeners k = some l → AMap.load (groupURLs env disc s g).2.listeners k = some l := by
      intro k l hl
      unfold groupURLs
      split
      · exact hl
      · split
        · exact hl
        · rename_i h
          show AMap.load (AMap.store s.listeners _ _) k = some l
          rw [AMap.load_store]
          split
          · rename_i e; rw [e, hl] at h; exact absurd h (by simp)
          · exact hl
    have hn : Spec.name g ≠ env.url.group →
        ∃ l, AMap.load (groupURLs env disc s g).2.listeners (Spec.name g) = some l ∧
          (groupURLs env disc s g).1 = l.urls := by
      intro hne
      unfold groupURLs
      rw [groupName_eq, if_neg (fun e => hne e.symm)]
      split
      · rename_i l hl; exact ⟨l, hl, rfl⟩
      · exact ⟨_, AMap.load_store_self _ _ _, rfl⟩
    have ho : Spec.name g = env.url.group → groupURLs env disc s g = (s.own, s) := by
      intro he
      unfold groupURLs
      rw [groupName_eq, if_pos he.symm]
    have hself : Spec.name g ≠ env.url.group → (AMap.load s.listeners (Spec.name g)).isSome = true →
        (groupURLs env disc s g).2 = s := by
      intro hne hs
      obtain ⟨l, hl⟩ := Option.isSome_iff_exists.mp hs
      unfold groupURLs
      rw [groupName_eq, if_neg (fun e => hne e.symm), hl]
    have hown : (groupURLs env disc s g).2.own = s.own := by
      rw [groupURLs_core env disc s g]
    obtain ⟨i1, i2, i3, i4⟩ := ih (groupURLs env disc s g).2
    refine ⟨fun k l h => i1 k l (hg k l h), ?_, ?_, ?_⟩
    · intro x hx hne
      rcases List.mem_cons.mp hx with rfl | hx
      · obtain ⟨l, hl, _⟩ := hn hne
        show (AMap.load (mergeURLs env disc (groupURLs env disc s x).2 gs).2.listeners (Spec.name x)).isSome = true
        rw [i1 _ _ hl]; rfl
      · exact i2 x hx hne
    · show (groupURLs env disc s g).1 ++ (mergeURLs env disc (groupURLs env disc s g).2 gs).1 = _
      rw [i3, hown]
      show _ = (if Spec.name g = env.url.group then s.own else _) ++ Spec.merged env s.own _ gs
      congr 1
      by_cases he : Spec.name g = env.url.group
      · rw [if_pos he, ho he]
      · rw [if_neg he]
        obtain ⟨l, hl, h2⟩ := hn he
        rw [h2]
        have hl' := i1 _ _ hl
        show _ = Spec.others (mergeURLs env disc (groupURLs env disc s g).2 gs).2 (Spec.name g)
        rw [Spec.others, hl']
    · intro hc
      show (mergeURLs env disc (groupURLs env disc s g).2 gs).2 = s
      have hs : (groupURLs env disc s g).2 = s := by
        by_cases he : Spec.name g = env.url.group
        · rw [ho he]
        · exact hself he (hc g (by simp) he)
      rw [hs] at i4 ⊢
      exact i4 (fun x hx => hc x (by simp [hx]))

/-- All other groups of the current command are subscribed. -/
def Cov (env : Env) (s : State) : Prop :=
  ∀ c, currentTc s = some c → ∀ g ∈ c.mergeGroups, Spec.name g ≠ env.url.group →
    (AMap.load s.listeners (Spec.name g)).isSome = true

theorem currentTc_core {s s' : State} (h : SameCore s s') : currentTc s' = currentTc s := by
  unfold currentTc
  rw [h]

theorem getResult_spec (env : Env) (disc : Bytes → List URL) (s : State) :
    let r := getResult env disc s
    Cov env r.2 ∧ r.1 = Spec.answer env (currentTc s) s.own (Spec.others r.2) ∧ (Cov env s → r.2 = s) := by
  have hcore := getResult_core env disc s
  have hcur := currentTc_core hcore
  simp only
  revert hcur
  unfold getResult Cov
  cases hc : currentTc s with
  | none =>
    intro hcur
    simp only at hcur ⊢
    refine ⟨fun c h => ?_, rfl, fun _ => trivial⟩
    rw [hcur] at h; exact absurd h (by simp)
  | some c =>
    intro hcur
    obtain ⟨h1, h2, h3, h4⟩ := mergeURLs_spec env disc s c.mergeGroups
    have hown : (mergeURLs env disc s c.mergeGroups).2.own = s.own := by rw [mergeURLs_core env disc s c.mergeGroups]
    refine ⟨fun d hd g hg hne => ?_, ?_, fun hcov => h4 (hcov c rfl)⟩
    · rw [hcur] at hd
      obtain rfl := Option.some.inj hd
      exact h2 g hg hne
    · show (if (processRoute env.localIP (if (mergeURLs env disc s c.mergeGroups).1.length > 0 then
            (mergeURLs env disc s c.mergeGroups).1 ++ [buildRuleURL (weightString c.mergeGroups)]
            else (mergeURLs env disc s c.mergeGroups).1) c.routeRules).length = 0
          then (mergeURLs env disc s c.mergeGroups).2.own
          else processRoute env.localIP (if (mergeURLs env disc s c.mergeGroups).1.length > 0 then
            (mergeURLs env disc s c.mergeGroups).1 ++ [buildRuleURL (weightString c.mergeGroups)]
            else (mergeURLs env disc s c.mergeGroups).1) c.routeRules) =
        if Spec.merged env s.own (Spec.others (mergeURLs env disc s c.mergeGroups).2) c.mergeGroups = [] then s.own
        else (Spec.merged env s.own (Spec.others (mergeURLs env disc s c.mergeGroups).2) c.mergeGroups).filter
          (Spec.allowed env.localIP c.routeRules) ++ [Spec.ruleURL c.mergeGroups]
      rw [h3, hown]
      generalize Spec.merged env s.own (Spec.others (mergeURLs env disc s c.mergeGroups).2) c.mergeGroups = m
      by_cases hm : m = []
      · subst hm
        rw [if_pos rfl]
        simp [processRoute]
      · rw [if_neg hm]
        have hlen : m.length > 0 := List.length_pos_iff.mpr hm
        rw [if_pos hlen, routes_exact, List.filter_append]
        have hr : [buildRuleURL (weightString c.mergeGroups)].filter (Spec.allowed env.localIP c.routeRules) =
            [Spec.ruleURL c.mergeGroups] := by
          rw [buildRuleURL, weightString_eq]
          rfl
        rw [hr, if_neg (by simp)]

/-- Every list the cluster is given is the right one for the commands, own nodes and last known nodes of other groups
at that moment. -/
theorem told_right (env : Env) (disc : Bytes → List URL) (s : State) :
    let s' := notifyResult env disc s
    s'.told = s.told ++ [Spec.answer env (currentTc s') s'.own (Spec.others s')] := by
  have h := getResult_spec env disc s
  have hcore := getResult_core env disc s
  simp only at h ⊢
  unfold notifyResult
  show (getResult env disc s).2.told ++ [(getResult env disc s).1] = _
  have h1 : (getResult env disc s).2.told = s.told := by rw [hcore]
  have h2 : (getResult env disc s).2.own = s.own := by rw [hcore]
  rw [h1, h.2.1]
  have h3 := currentTc_core hcore
  rw [← h3, ← h2]
  rfl

theorem tcGroups_spec (env : Env) (disc : Bytes → List URL) (old : AMap Bytes Listener) (gs : List Bytes)
    (new rm : AMap Bytes Listener) (ws : AMap Bytes Bytes) (s : State)
    (hno : ∀ k l l', AMap.load new k = some l' → AMap.load old k = some l → l' = l) :
    let r := tcGroups env disc old gs (new, rm, ws, s)
    (∀ k, (AMap.load new k).isSome = true → (AMap.load r.1 k).isSome = true) ∧
    (∀ g ∈ gs, Spec.name g ≠ env.url.group → (AMap.load r.1 (Spec.name g)).isSome = true) ∧
    (∀ k l l', AMap.load r.1 k = some l' → AMap.load old k = some l → l' = l) ∧
    (∀ k, (AMap.load r.1 k).isSome = true → (AMap.load new k).isSome = true ∨
      ∃ g ∈ gs, Spec.name g ≠ env.url.group ∧ Spec.name g = k) := by
  induction gs generalizing new rm ws s with
  | nil => exact ⟨fun k h => h, fun g hg => absurd hg (by simp), hno, fun k h => Or.inl h⟩
  | cons g gs ih =>
    rw [tcGroups]
    simp only [groupName_eq]
    by_cases he : env.url.group = Spec.name g
    · rw [if_pos he]
      obtain ⟨i1, i2, i3, i4⟩ := ih new rm _ s hno
      refine ⟨i1, fun x hx hne => ?_, i3, fun k hk => ?_⟩
      · rcases List.mem_cons.mp hx with rfl | hx
        · exact absurd he.symm hne
        · exact i2 x hx hne
      · rcases i4 k hk with h | ⟨x, hx, h⟩
        · exact Or.inl h
        · exact Or.inr ⟨x, by simp [hx], h⟩
    · rw [if_neg he]
      cases hl : AMap.load old (Spec.name g) with
      | some l =>
        simp only
        have hno' : ∀ k m m', AMap.load (AMap.store new (Spec.name g) l) k = some m' → AMap.load old k = some m →
            m' = m := by
          intro k m m' h1 h2
          rw [AMap.load_store] at h1
          split at h1
          · rename_i e; rw [← e, hl] at h2; rw [← Option.some.inj h1, ← Option.some.inj h2]
          · exact hno k m m' h1 h2
        obtain ⟨i1, i2, i3, i4⟩ := ih (AMap.store new (Spec.name g) l) (AMap.erase rm (Spec.name g)) _ s hno'
        refine ⟨fun k hk => i1 k ?_, fun x hx hne => ?_, i3, fun k hk => ?_⟩
        · rw [AMap.load_store]; split
          · rfl
          · exact hk
        · rcases List.mem_cons.mp hx with rfl | hx
          · exact i1 _ (by rw [AMap.load_store_self]; rfl)
          · exact i2 x hx hne
        · rcases i4 k hk with h | ⟨x, hx, h⟩
          · rw [AMap.load_store] at h
            split at h
            · rename_i e; exact Or.inr ⟨g, by simp, fun e => he e.symm, e⟩
            · exact Or.inl h
          · exact Or.inr ⟨x, by simp [hx], h⟩
      | none =>
        simp only
        have hno' : ∀ k m m', AMap.load (AMap.store new (Spec.name g) (newSubscribe disc s (Spec.name g)).1) k = some m' →
            AMap.load old k = some m → m' = m := by
          intro k m m' h1 h2
          rw [AMap.load_store] at h1
          split at h1
          · rename_i e; rw [← e, hl] at h2; exact absurd h2 (by simp)
          · exact hno k m m' h1 h2
        obtain ⟨i1, i2, i3, i4⟩ := ih (AMap.store new (Spec.name g) (newSubscribe disc s (Spec.name g)).1) rm _
          (newSubscribe disc s (Spec.name g)).2 hno'
        refine ⟨fun k hk => i1 k ?_, fun x hx hne => ?_, i3, fun k hk => ?_⟩
        · rw [AMap.load_store]; split
          · rfl
          · exact hk
        · rcases List.mem_cons.mp hx with rfl | hx
          · exact i1 _ (by rw [AMap.load_store_self]; rfl)
          · exact i2 x hx hne
        · rcases i4 k hk with h | ⟨x, hx, h⟩
          · rw [AMap.load_store] at h
            split at h
            · rename_i e; exact Or.inr ⟨g, by simp, fun e => he e.symm, e⟩
            · exact Or.inl h
          · exact Or.inr ⟨x, by simp [hx], h⟩

/-- The command current after `processTc`. -/
theorem processTc_current (env : Env) (disc : Bytes → List URL) (s : State) (tc : Option Cmd) :
    currentTc (processTc env disc s tc) = tc.or s.static := by
  unfold currentTc
  rw [processTc_core]
  cases tc <;> rfl

theorem processTc_spec (env : Env) (disc : Bytes → List URL) (s : State) (tc : Option Cmd) :
    let s' := processTc env disc s tc
    Cov env s' ∧ (∀ k l l', AMap.load s'.listeners k = some l' → AMap.load s.listeners k = some l → l' = l) ∧
    (∀ k, (AMap.load s'.listeners k).isSome = true →
      ∃ c, currentTc s' = some c ∧ ∃ g ∈ c.mergeGroups, Spec.name g ≠ env.url.group ∧ Spec.name g = k) := by
  have hcur := processTc_current env disc s tc
  simp only
  unfold Cov
  rw [hcur]
  unfold processTc
  cases hm : tc.or s.static with
  | none =>
    refine ⟨fun c hc => absurd hc (by simp), fun k l l' h => ?_, fun k h => ?_⟩
    · exact absurd h (by simp [finishTc, AMap.load])
    · exact absurd h (by simp [finishTc, AMap.load])
  | some c =>
    obtain ⟨_, i2, i3, i4⟩ := tcGroups_spec env disc s.listeners c.mergeGroups [] s.listeners [] s
      (fun k l l' h => by simp [AMap.load] at h)
    refine ⟨fun d hd g hg hne => ?_, i3, fun k hk => ⟨c, rfl, ?_⟩⟩
    · obtain rfl := Option.some.inj hd
      exact i2 g hg hne
    · rcases i4 k hk with h | h
      · exact absurd h (by simp [AMap.load])
      · exact h

/-- The own group is not merged and the merged groups have no nodes. -/
def Spec.Blind (env : Env) (c : Option Cmd) (others : Bytes → List URL) : Prop :=
  ∃ d, c = some d ∧ ∀ g ∈ d.mergeGroups, Spec.name g ≠ env.url.group ∧ others (Spec.name g) = []

/-- The last list given is right, or the case below holds. -/
def Told (env : Env) (s : State) : Prop :=
  s.told.getLast? = some (Spec.answer env (currentTc s) s.own (Spec.others s)) ∨
  (Spec.Blind env (currentTc s) (Spec.others s) ∧ s.told ≠ [])

theorem told_notify (env : Env) (disc : Bytes → List URL) (s : State) :
    Cov env (notifyResult env disc s) ∧ Told env (notifyResult env disc s) := by
  have h := getResult_spec env disc s
  simp only at h
  refine ⟨h.1, Or.inl ?_⟩
  rw [told_right]
  simp

/-- A command that changes nothing about the traffic command. -/
theorem quiet_command (env : Env) (disc : Bytes → List URL) (s : State) (agent : Bool) (info : Bytes)
    (hcov : Cov env s) (ht : Told env s) (hn : (processCommand env disc s agent info).1 = false) :
    Cov env (processCommand env disc s agent info).2 ∧ Told env (processCommand env disc s agent info).2 := by
  by_cases h : (if agent then s.agentInfo else s.serviceInfo) = info
  · rw [processCommand_same env disc s agent info h]; exact ⟨hcov, ht⟩
  · rw [processCommand_new env disc s agent info h] at hn ⊢
    simp only at hn ⊢
    generalize pick env (setInfo s agent info).agentInfo (setInfo s agent info).serviceInfo = r at hn ⊢
    have htc0 : (setInfo s agent info).tc = s.tc := by unfold setInfo; cases agent <;> rfl
    have hst0 : (setInfo s agent info).static = s.static := by unfold setInfo; cases agent <;> rfl
    have hli0 : (setInfo s agent info).listeners = s.listeners := by unfold setInfo; cases agent <;> rfl
    have hto0 : (setInfo s agent info).told = s.told := by unfold setInfo; cases agent <;> rfl
    have how0 : (setInfo s agent info).own = s.own := by unfold setInfo; cases agent <;> rfl
    rw [htc0] at hn
    have hr : r.tc = none ∧ s.tc = none := by
      cases h1 : r.tc <;> cases h2 : s.tc <;> simp_all
    have hs := processTc_spec env disc (setInfo s agent info) r.tc
    have hcore := processTc_core env disc (setInfo s agent info) r.tc
    have hcur := processTc_current env disc (setInfo s agent info) r.tc
    simp only at hs hcore
    generalize processTc env disc (setInfo s agent info) r.tc = p at hs hcore hcur
    have hcur2 : currentTc p = currentTc s := by
      rw [hcur, hr.1, hst0]
      unfold currentTc
      rw [hr.2]
      rfl
    have hoth : ∀ c, currentTc s = some c → ∀ g ∈ c.mergeGroups, Spec.name g ≠ env.url.group →
        Spec.others p (Spec.name g) = Spec.others s (Spec.name g) := by
      intro c hc g hg hne
      obtain ⟨l', hl'⟩ := Option.isSome_iff_exists.mp (hs.1 c (hcur2.trans hc) g hg hne)
      obtain ⟨l, hl⟩ := Option.isSome_iff_exists.mp (hcov c hc g hg hne)
      have := hs.2.1 _ l l' hl' (by rw [hli0]; exact hl)
      unfold Spec.others
      rw [hl, hl', this]
    have hown : p.own = s.own := by rw [hcore]; exact how0
    have htold : p.told = s.told := by rw [hcore]; exact hto0
    have hans : Spec.answer env (currentTc p) p.own (Spec.others p) =
        Spec.answer env (currentTc s) s.own (Spec.others s) := by
      rw [hcur2, hown]
      cases hc : currentTc s with
      | none => rfl
      | some c =>
        have hm : Spec.merged env s.own (Spec.others p) c.mergeGroups =
            Spec.merged env s.own (Spec.others s) c.mergeGroups := by
          unfold Spec.merged
          rw [List.flatMap_def, List.flatMap_def]
          congr 1
          apply List.map_congr_left
          intro g hg
          by_cases he : Spec.name g = env.url.group
          · rw [if_pos he, if_pos he]
          · rw [if_neg he, if_neg he, hoth c hc g hg he]
        simp only [Spec.answer, hm]
    refine ⟨hs.1, ?_⟩
    rcases ht with ht | ⟨⟨d, hd, hb⟩, ht⟩
    · left
      show p.told.getLast? = some (Spec.answer env (currentTc p) p.own (Spec.others p))
      rw [hans, htold, ht]
    · right
      refine ⟨⟨d, hcur2.trans hd, fun g hg => ⟨(hb g hg).1, ?_⟩⟩, ?_⟩
      · exact (hoth d hd g hg (hb g hg).1).trans (hb g hg).2
      · show p.told ≠ []
        rw [htold]; exact ht

/-- In every history that starts with the discovery of a new cluster and in which it is not yet destroyed, the last
list given to the cluster is the right one for the commands in force, the last own nodes and the last known nodes of
the other groups. The exception: a command merges only other groups, and these have no nodes. -/
theorem told_current (env : Env) (own0 : List URL) (info0 : Bytes) (disc0 : Bytes → List URL) (h : List Event)
    (hu : Event.unsubscribe ∉ h) :
    let s := run env (.discover own0 info0 disc0 :: h)
    s.told.getLast? = some (Spec.answer env (currentTc s) (Spec.ownURLs (.discover own0 info0 disc0 :: h)) (Spec.others s)) ∨
      Spec.Blind env (currentTc s) (Spec.others s) := by
  have key : ∀ (h' pre : List Event), Event.unsubscribe ∉ h' → Cov env (run env pre) ∧ Told env (run env pre) →
      Cov env (run env (pre ++ h')) ∧ Told env (run env (pre ++ h')) := by
    intro h'
    induction h' with
    | nil => intro pre _ hp; simpa using hp
    | cons e h' ih =>
      intro pre hu hp
      rw [show pre ++ e :: h' = pre ++ [e] ++ h' by simp]
      apply ih _ (fun hm => hu (by simp [hm]))
      rw [run_snoc]
      cases e with
      | discover own info disc => exact told_notify env disc _
      | own urls disc =>
        show Cov env (notifyOwn env disc (run env pre) urls) ∧ Told env (notifyOwn env disc (run env pre) urls)
        unfold notifyOwn
        split
        · exact told_notify env disc _
        · rename_i hneed
          refine ⟨hp.1, ?_⟩
          -- the command does not merge the own group
          have hcur : currentTc { run env pre with own := urls } = currentTc (run env pre) := rfl
          have hoth : Spec.others { run env pre with own := urls } = Spec.others (run env pre) := rfl
          unfold ownNeeded at hneed
          cases hc : currentTc (run env pre) with
          | none => rw [hc] at hneed; exact absurd rfl hneed
          | some c =>
            rw [hc] at hneed
            have hng : ∀ g ∈ c.mergeGroups, Spec.name g ≠ env.url.group := by
              intro g hg he
              apply hneed
              rw [List.any_eq_true]
              exact ⟨g, hg, by rw [groupName_eq, he]; simp⟩
            have hm : ∀ o, Spec.merged env o (Spec.others (run env pre)) c.mergeGroups =
                Spec.merged env [] (Spec.others (run env pre)) c.mergeGroups := by
              intro o
              unfold Spec.merged
              rw [List.flatMap_def, List.flatMap_def]
              congr 1
              apply List.map_congr_left
              intro g hg
              rw [if_neg (hng g hg), if_neg (hng g hg)]
            by_cases hmerged : Spec.merged env [] (Spec.others (run env pre)) c.mergeGroups = []
            · right
              constructor
              · refine ⟨c, hcur.trans hc, fun g hg => ⟨hng g hg, ?_⟩⟩
                have := List.flatMap_eq_nil_iff.mp hmerged g hg
                rw [if_neg (hng g hg)] at this
                exact this
              · rcases hp.2 with h1 | h1
                · intro e
                  have e : (run env pre).told = [] := e
                  rw [e] at h1
                  exact absurd h1 (by simp)
                · exact h1.2
            · rcases hp.2 with h1 | h1
              · left
                rw [hcur, hoth]
                show (run env pre).told.getLast? = some (Spec.answer env _ urls _)
                rw [h1, hc]
                simp only [Spec.answer, hm, if_neg hmerged]
              · obtain ⟨⟨d, hd, hb⟩, _⟩ := h1
                rw [hc] at hd
                obtain rfl := Option.some.inj hd
                exact absurd (List.flatMap_eq_nil_iff.mpr fun g hg => by
                  rw [if_neg (hng g hg)]; exact (hb g hg).2) hmerged
      | other id urls disc =>
        show Cov env (notifyOther env disc (run env pre) id urls) ∧ Told env (notifyOther env disc (run env pre) id urls)
        unfold notifyOther
        split
        · exact told_notify env disc _
        · exact hp
      | command agent info disc =>
        show Cov env (notifyCommand env disc (run env pre) agent info) ∧
          Told env (notifyCommand env disc (run env pre) agent info)
        unfold notifyCommand
        simp only
        cases hn : (processCommand env disc (run env pre) agent info).1 with
        | true => exact told_notify env disc _
        | false => exact quiet_command env disc _ agent info hp.1 hp.2 hn
      | unsubscribe => exact absurd (by simp) hu
  have h0 : Cov env (run env [.discover own0 info0 disc0]) ∧ Told env (run env [.discover own0 info0 disc0]) :=
    told_notify env disc0 _
  have h1 := (key h [.discover own0 info0 disc0] hu h0).2
  have hown := (core_run env (.discover own0 info0 disc0 :: h)).own
  rw [← hown]
  rcases h1 with h1 | h1
  · exact Or.inl h1
  · exact Or.inr h1.1

/-! ## Subscriptions -/

/-- The other groups of a command, each named once. -/
def Spec.DistinctGroups (env : Env) (c : Cmd) : Prop :=
  ((c.mergeGroups.map Spec.name).filter fun g => g ≠ env.url.group).Nodup

/-- No command the cluster can get names another group twice. -/
structure Spec.DistinctCommands (env : Env) : Prop where
  static : ∀ c, (newWrapper env).static = some c → Spec.DistinctGroups env c
  dynamic : ∀ info l, env.parse info = some l → ∀ c ∈ env.sort l, Spec.DistinctGroups env c

/-- Listeners with a given number. -/
def idCount (i : Nat) (m : AMap Bytes Listener) : Nat := wsum (fun l => if l.id = i then 1 else 0) m

/-- The live subscriptions are those of the listeners. -/
structure SubInv (s : State) : Prop where
  nodup : s.listeners.NodupKeys
  count : ∀ i, s.subs.count i = idCount i s.listeners
  once : ∀ i, s.subs.count i ≤ 1
  fresh : ∀ i, s.next ≤ i → s.subs.count i = 0

theorem subInv_subscribe (disc : Bytes → List URL) (s : State) (h : SubInv s) (g : Bytes)
    (hg : AMap.load s.listeners g = none) :
    SubInv { (newSubscribe disc s g).2 with listeners := AMap.store s.listeners g (newSubscribe disc s g).1 } := by
  constructor
  · exact AMap.nodupKeys_store h.nodup _ _
  · intro i
    show (s.subs ++ [s.next]).count i = idCount i (AMap.store s.listeners g ⟨s.next, disc g⟩)
    have hw := wsum_store (fun l : Listener => if l.id = i then 1 else 0) s.listeners g ⟨s.next, disc g⟩
    rw [hg] at hw
    simp only [Option.elim_none, Nat.add_zero] at hw
    unfold idCount
    rw [hw, List.count_append, h.count i, idCount]
    congr 1
    rw [List.count_singleton]
    by_cases hi : s.next = i <;> simp [hi]
  · intro i
    show (s.subs ++ [s.next]).count i ≤ 1
    rw [List.count_append, List.count_singleton]
    by_cases hi : s.next = i
    · rw [← hi]
      have := h.fresh s.next (Nat.le_refl _)
      rw [this]; simp
    · have := h.once i
      simp [hi, this]
  · intro i hi
    have hi : s.next + 1 ≤ i := hi
    show (s.subs ++ [s.next]).count i = 0
    rw [List.count_append, List.count_singleton, h.fresh i (by omega)]
    have : s.next ≠ i := by omega
    simp [this]

theorem subInv_merge (env : Env) (disc : Bytes → List URL) (s : State) (gs : List Bytes) (h : SubInv s) :
    SubInv (mergeURLs env disc s gs).2 := by
  induction gs generalizing s with
  | nil => exact h
  | cons g gs ih =>
    apply ih
    show SubInv (groupURLs env disc s g).2
    unfold groupURLs
    split
    · exact h
    · split
      · exact h
      · rename_i hl
        exact subInv_subscribe disc s h _ hl

theorem subInv_notify (env : Env) (disc : Bytes → List URL) (s : State) (h : SubInv s) :
    SubInv (notifyResult env disc s) := by
  have key : SubInv (getResult env disc s).2 := by
    unfold getResult
    split
    · exact h
    · exact subInv_merge env disc s _ h
  exact ⟨key.nodup, key.count, key.once, key.fresh⟩

/-- The loop over the groups, with the listeners to remove kept apart. -/
structure LoopInv (old new rm : AMap Bytes Listener) (s : State) (rest : List Bytes) : Prop where
  newNodup : new.NodupKeys
  rmNodup : rm.NodupKeys
  count : ∀ i, s.subs.count i = idCount i new + idCount i rm
  once : ∀ i, s.subs.count i ≤ 1
  fresh : ∀ i, s.next ≤ i → s.subs.count i = 0
  restNew : ∀ g ∈ rest, AMap.load new g = none
  restRm : ∀ g ∈ rest, AMap.load rm g = AMap.load old g

theorem loop (env : Env) (disc : Bytes → List URL) (old : AMap Bytes Listener) (gs : List Bytes)
    (new rm : AMap Bytes Listener) (ws : AMap Bytes Bytes) (s : State)
    (hd : ((gs.map Spec.name).filter fun g => g ≠ env.url.group).Nodup)
    (h : LoopInv old new rm s ((gs.map Spec.name).filter fun g => g ≠ env.url.group)) :
    let r := tcGroups env disc old gs (new, rm, ws, s)
    LoopInv old r.1 r.2.1 r.2.2.2 [] := by
  induction gs generalizing new rm ws s with
  | nil => exact h
  | cons g gs ih =>
    rw [tcGroups]
    simp only [groupName_eq]
    rw [List.map_cons, List.filter_cons] at hd h
    by_cases he : env.url.group = Spec.name g
    · rw [if_pos he]
      simp only [← he, ne_eq, not_true_eq_false, decide_false, Bool.false_eq_true, if_false] at hd h
      exact ih new rm _ s hd h
    · rw [if_neg he]
      have he' : decide (Spec.name g ≠ env.url.group) = true := by simp [Ne.symm he]
      rw [if_pos he'] at hd h
      rw [List.nodup_cons] at hd
      have hrn := h.restNew (Spec.name g) (by simp)
      have hrr := h.restRm (Spec.name g) (by simp)
      have hstep : ∀ (l : Listener) x, x ∈ (gs.map Spec.name).filter (fun g => g ≠ env.url.group) →
          AMap.load (AMap.store new (Spec.name g) l) x = none := by
        intro l x hx
        rw [AMap.load_store, if_neg (fun e : Spec.name g = x => hd.1 (by rw [e]; exact hx))]
        exact h.restNew x (List.mem_cons_of_mem _ hx)
      cases hl : AMap.load old (Spec.name g) with
      | some l =>
        simp only
        rw [hl] at hrr
        refine ih _ _ _ s hd.2 ⟨AMap.nodupKeys_store h.newNodup _ _, AMap.nodupKeys_erase h.rmNodup _, ?_, h.once, h.fresh,
          hstep l, ?_⟩
        · intro i
          have h1 := wsum_store (fun l : Listener => if l.id = i then 1 else 0) new (Spec.name g) l
          have h2 := wsum_erase (fun l : Listener => if l.id = i then 1 else 0) rm h.rmNodup (Spec.name g)
          rw [hrn] at h1
          rw [hrr] at h2
          have h3 := h.count i
          simp only [Option.elim_none, Option.elim_some] at h1 h2
          unfold idCount at h3 ⊢
          omega
        · intro x hx
          rw [AMap.load_erase, if_neg (fun e : Spec.name g = x => hd.1 (by rw [e]; exact hx))]
          exact h.restRm x (List.mem_cons_of_mem _ hx)
      | none =>
        simp only
        refine ih _ _ _ _ hd.2 ⟨AMap.nodupKeys_store h.newNodup _ _, h.rmNodup, ?_, ?_, ?_, hstep _,
          fun x hx => h.restRm x (List.mem_cons_of_mem _ hx)⟩
        · intro i
          have h1 := wsum_store (fun l : Listener => if l.id = i then 1 else 0) new (Spec.name g) ⟨s.next, disc (Spec.name g)⟩
          rw [hrn] at h1
          have h3 := h.count i
          simp only [Option.elim_none] at h1
          show (s.subs ++ [s.next]).count i = idCount i (AMap.store new (Spec.name g) ⟨s.next, disc (Spec.name g)⟩) + idCount i rm
          rw [List.count_append, List.count_singleton]
          unfold idCount at h3 ⊢
          by_cases hi : s.next = i
          · simp only [hi, BEq.rfl, if_true] at h1 ⊢; omega
          · have hi' : (s.next == i) = false := by simpa using hi
            simp only [hi, hi', if_false, Bool.false_eq_true] at h1 ⊢; omega
        · intro i
          show (s.subs ++ [s.next]).count i ≤ 1
          rw [List.count_append, List.count_singleton]
          by_cases hi : s.next = i
          · have := h.fresh s.next (Nat.le_refl _)
            rw [← hi, this]; simp
          · have := h.once i
            simp [hi, this]
        · intro i hi
          have hi : s.next + 1 ≤ i := hi
          show (s.subs ++ [s.next]).count i = 0
          rw [List.count_append, List.count_singleton, h.fresh i (by omega)]
          have : s.next ≠ i := by omega
          simp [this]

theorem idCount_pos {i : Nat} {m : AMap Bytes Listener} : (i ∈ m.map fun p => p.2.id) ↔ 0 < idCount i m := by
  unfold idCount
  induction m with
  | nil => simp [wsum]
  | cons p m ih =>
    rw [List.map_cons, List.mem_cons, ih, wsum]
    by_cases h : p.2.id = i
    · simp [h]; omega
    · simp [h, Ne.symm h]

theorem count_filter_notin (i : Nat) (l : List Nat) (r : List Nat) :
    (l.filter fun j => j ∉ r).count i = if i ∈ r then 0 else l.count i := by
  induction l with
  | nil => simp
  | cons a l ih =>
    rw [List.filter_cons]
    by_cases ha : a ∈ r
    · simp only [ha, not_true_eq_false, decide_false, Bool.false_eq_true, if_false]
      rw [ih]
      split
      · rfl
      · rename_i h
        rw [List.count_cons_of_ne (by rintro rfl; exact h ha)]
    · simp only [ha, not_false_eq_true, decide_true, if_true]
      rw [List.count_cons, List.count_cons, ih]
      by_cases hai : a = i
      · subst hai; simp [ha]
      · split <;> simp [hai]

theorem subInv_finish (tc : Option Cmd) (old new rm : AMap Bytes Listener) (ws : AMap Bytes Bytes) (s : State)
    (h : LoopInv old new rm s []) : SubInv (finishTc tc new rm ws s) := by
  have hc : ∀ i, (finishTc tc new rm ws s).subs.count i = if i ∈ rm.map (fun p => p.2.id) then 0 else s.subs.count i := by
    intro i
    exact count_filter_notin i s.subs _
  refine ⟨h.newNodup, ?_, ?_, ?_⟩
  · intro i
    rw [hc i]
    show _ = idCount i new
    have h1 := h.count i
    have h2 := h.once i
    split
    · rename_i hm
      have := idCount_pos.mp hm
      omega
    · rename_i hm
      have : ¬ 0 < idCount i rm := fun h => hm (idCount_pos.mpr h)
      omega
  · intro i; rw [hc i]; have := h.once i; split <;> omega
  · intro i hi; rw [hc i]; have := h.fresh i hi; split <;> omega

theorem loopInv_start (s : State) (h : SubInv s) (rest : List Bytes) :
    LoopInv s.listeners [] s.listeners s rest :=
  ⟨AMap.nodupKeys_nil, h.nodup, fun i => by rw [h.count i]; simp [idCount, wsum], h.once, h.fresh,
    fun _ _ => rfl, fun _ _ => rfl⟩

theorem subInv_processTc (env : Env) (disc : Bytes → List URL) (s : State) (tc : Option Cmd)
    (hd : ∀ c, tc.or s.static = some c → Spec.DistinctGroups env c) (h : SubInv s) :
    SubInv (processTc env disc s tc) := by
  unfold processTc
  split
  · have h0 := loopInv_start s h []
    exact subInv_finish tc s.listeners [] s.listeners s.weights s h0
  · rename_i c hc
    have hdc := hd c hc
    exact subInv_finish tc s.listeners _ _ _ _
      (loop env disc s.listeners c.mergeGroups [] s.listeners [] s hdc (loopInv_start s h _))

theorem subInv_command (env : Env) (hd : Spec.DistinctCommands env) (disc : Bytes → List URL) (s : State)
    (hst : s.static = (newWrapper env).static) (agent : Bool) (info : Bytes) (h : SubInv s) :
    SubInv (processCommand env disc s agent info).2 := by
  by_cases hi : (if agent then s.agentInfo else s.serviceInfo) = info
  · rw [processCommand_same env disc s agent info hi]; exact h
  · rw [processCommand_new env disc s agent info hi]
    have hst' : (setInfo s agent info).static = (newWrapper env).static := by
      rw [← hst]; unfold setInfo; cases agent <;> rfl
    have h' : SubInv (setInfo s agent info) := by
      unfold setInfo; cases agent <;> exact ⟨h.nodup, h.count, h.once, h.fresh⟩
    have hch : ∀ i c, (Spec.chosen env i).tc = some c → Spec.DistinctGroups env c := by
      intro i c hc
      unfold Spec.chosen at hc
      split at hc
      · exact absurd hc (by simp)
      · unfold mergeCommand at hc
        split at hc
        · exact absurd hc (by simp)
        · rename_i l hl
          rw [(choose_tc env (env.sort l) {}).1] at hc
          have hc : (env.sort l).find? (fun c => c.type = 0 && matchCmdPattern env c) = some c := by
            rw [← hc]; rfl
          exact hd.dynamic i l hl c (List.mem_of_find?_eq_some hc)
    have hp : ∀ c, ((pick env (setInfo s agent info).agentInfo (setInfo s agent info).serviceInfo).tc.or
        (setInfo s agent info).static) = some c → Spec.DistinctGroups env c := by
      intro c hc
      rw [hst'] at hc
      unfold pick at hc
      simp only at hc
      cases h1 : (Spec.chosen env (setInfo s agent info).agentInfo).tc with
      | some x =>
        rw [h1] at hc
        obtain rfl : x = c := by simpa using hc
        exact hch _ _ h1
      | none =>
        rw [h1] at hc
        cases h2 : (Spec.chosen env (setInfo s agent info).serviceInfo).tc with
        | some x =>
          rw [h2] at hc
          obtain rfl : x = c := by simpa using hc
          exact hch _ _ h2
        | none =>
          rw [h2] at hc
          exact hd.static c (by simpa using hc)
    have := subInv_processTc env disc (setInfo s agent info) _ hp h'
    exact ⟨this.nodup, this.count, this.once, this.fresh⟩

theorem subInv_run (env : Env) (hd : Spec.DistinctCommands env) (h : List Event) : SubInv (run env h) := by
  refine cmd_induct env (P := fun _ s => SubInv s) ?_ ?_ h
  · rw [newWrapper_core]
    exact ⟨AMap.nodupKeys_nil, fun i => rfl, fun i => by simp, fun i _ => by simp⟩
  · intro h e ih
    have hst := (core_run env h).static
    cases e with
    | discover own info disc =>
      exact subInv_notify env disc _ (subInv_command env hd disc { run env h with own := own } hst false info
        ⟨ih.nodup, ih.count, ih.once, ih.fresh⟩)
    | own urls disc =>
      show SubInv (notifyOwn env disc (run env h) urls)
      have h1 : SubInv { run env h with own := urls } := ⟨ih.nodup, ih.count, ih.once, ih.fresh⟩
      unfold notifyOwn
      split
      · exact subInv_notify env disc _ h1
      · exact h1
    | other id urls disc =>
      show SubInv (notifyOther env disc (run env h) id urls)
      unfold notifyOther
      split
      · apply subInv_notify
        have hmap : ∀ (m : AMap Bytes Listener) i,
            idCount i (m.map fun p => if p.2.id = id then (p.1, { p.2 with urls := urls }) else p) = idCount i m := by
          intro m i
          unfold idCount
          induction m with
          | nil => rfl
          | cons p m ih =>
            rw [List.map_cons, wsum, wsum, ih]
            by_cases hp : p.2.id = id
            · simp [hp]
            · simp [hp]
        have hkeys : ∀ (m : AMap Bytes Listener),
            AMap.keys (m.map fun p => if p.2.id = id then (p.1, { p.2 with urls := urls }) else p) = AMap.keys m := by
          intro m
          unfold AMap.keys
          rw [List.map_map]
          apply List.map_congr_left
          intro p _
          simp only [Function.comp]
          split <;> rfl
        refine ⟨?_, fun i => ?_, ih.once, ih.fresh⟩
        · show (AMap.keys _).Nodup
          rw [hkeys]; exact ih.nodup
        · rw [hmap]; exact ih.count i
      · exact ih
    | command agent info disc =>
      have h1 := subInv_command env hd disc (run env h) hst agent info ih
      show SubInv (notifyCommand env disc (run env h) agent info)
      unfold notifyCommand
      simp only
      split
      · exact subInv_notify env disc _ h1
      · exact h1
    | unsubscribe =>
      have hc : ∀ i, ((run env h).subs.filter fun i => i ∉ (run env h).listeners.map fun p => p.2.id).count i = 0 := by
        intro i
        rw [count_filter_notin]
        split
        · rfl
        · rename_i hm
          rw [ih.count i]
          have : ¬ 0 < idCount i (run env h).listeners := fun h => hm (idCount_pos.mpr h)
          omega
      exact ⟨AMap.nodupKeys_nil, hc, fun i => by rw [show (step env (run env h) .unsubscribe).subs.count i = 0 from hc i]; omega,
        fun i _ => hc i⟩

/-- When no command names another group twice, the live subscriptions are exactly those of the current listeners, one
for each group, after any history; in particular none is left after the cluster has unsubscribed. -/
theorem subscriptions_exact (env : Env) (hd : Spec.DistinctCommands env) (h : List Event) :
    (run env h).subs.Perm ((run env h).listeners.map fun p => p.2.id) ∧ (run env h).subs.Nodup ∧
    (run env h).listeners.NodupKeys ∧ (run env (h ++ [.unsubscribe])).subs = [] := by
  have hi := subInv_run env hd h
  have hcount : ∀ (m : AMap Bytes Listener) i, (m.map fun p => p.2.id).count i = idCount i m := by
    intro m i
    unfold idCount
    induction m with
    | nil => rfl
    | cons p m ih =>
      rw [List.map_cons, List.count_cons, ih, wsum]
      by_cases hp : p.2.id = i <;> simp [hp] <;> omega
  refine ⟨List.perm_iff_count.mpr fun i => ?_, ?_, hi.nodup, ?_⟩
  · rw [hcount]; exact hi.count i
  · rw [List.nodup_iff_count]; exact fun i => hi.once i
  · have hi' := subInv_run env hd (h ++ [.unsubscribe])
    rw [run_snoc] at hi' ⊢
    have : ∀ i, (step env (run env h) .unsubscribe).subs.count i = 0 := by
      intro i
      rw [hi'.count i]; rfl
    exact List.eq_nil_iff_forall_not_mem.mpr fun i hm => by
      have := this i
      have h2 := List.count_pos_iff.mpr hm
      omega

/-- Only other groups of the current command have listeners. -/
def Only (env : Env) (s : State) : Prop :=
  ∀ k, (AMap.load s.listeners k).isSome = true →
    ∃ c, currentTc s = some c ∧ ∃ g ∈ c.mergeGroups, Spec.name g ≠ env.url.group ∧ Spec.name g = k

theorem mergeURLs_only (env : Env) (disc : Bytes → List URL) (s : State) (gs : List Bytes) (k : Bytes)
    (hk : (AMap.load (mergeURLs env disc s gs).2.listeners k).isSome = true) :
    (AMap.load s.listeners k).isSome = true ∨ ∃ g ∈ gs, Spec.name g ≠ env.url.group ∧ Spec.name g = k := by
  induction gs generalizing s with
  | nil => exact Or.inl hk
  | cons g gs ih =>
    rcases ih (groupURLs env disc s g).2 hk with h | ⟨x, hx, h⟩
    · unfold groupURLs at h
      rw [groupName_eq] at h
      split at h
      · exact Or.inl h
      · rename_i hne
        split at h
        · exact Or.inl h
        · have h : (AMap.load (AMap.store s.listeners (Spec.name g) _) k).isSome = true := h
          rw [AMap.load_store] at h
          split at h
          · rename_i e; exact Or.inr ⟨g, by simp, fun e => hne e.symm, e⟩
          · exact Or.inl h
    · exact Or.inr ⟨x, by simp [hx], h⟩

theorem only_notify (env : Env) (disc : Bytes → List URL) (s : State) (h : Only env s) :
    Only env (notifyResult env disc s) := by
  intro k hk
  have hcur : currentTc (notifyResult env disc s) = currentTc s := by unfold currentTc; rw [notifyResult_core]
  rw [hcur]
  have hk : (AMap.load (getResult env disc s).2.listeners k).isSome = true := hk
  unfold getResult at hk
  cases hc : currentTc s with
  | none =>
    rw [hc] at hk
    obtain ⟨c, h1, h2⟩ := h k hk
    rw [hc] at h1; exact absurd h1 (by simp)
  | some c =>
    rw [hc] at hk
    refine ⟨c, rfl, ?_⟩
    rcases mergeURLs_only env disc s c.mergeGroups k hk with h1 | h1
    · obtain ⟨d, h1, h2⟩ := h k h1
      rw [hc] at h1
      rw [Option.some.inj h1]; exact h2
    · exact h1

theorem only_command (env : Env) (disc : Bytes → List URL) (s : State) (agent : Bool) (info : Bytes) (h : Only env s) :
    Only env (processCommand env disc s agent info).2 := by
  by_cases hi : (if agent then s.agentInfo else s.serviceInfo) = info
  · rw [processCommand_same env disc s agent info hi]; exact h
  · rw [processCommand_new env disc s agent info hi]
    exact (processTc_spec env disc (setInfo s agent info) _).2.2

theorem only_run (env : Env) (h : List Event) : Only env (run env h) := by
  refine cmd_induct env (P := fun _ s => Only env s) ?_ ?_ h
  · rw [newWrapper_core]
    intro k hk
    exact absurd hk (by simp [AMap.load])
  · intro h e ih
    cases e with
    | discover own info disc => exact only_notify env disc _ (only_command env disc { run env h with own := own } false info ih)
    | own urls disc =>
      show Only env (notifyOwn env disc (run env h) urls)
      unfold notifyOwn
      split
      · exact only_notify env disc { run env h with own := urls } ih
      · exact ih
    | other id urls disc =>
      show Only env (notifyOther env disc (run env h) id urls)
      unfold notifyOther
      split
      · apply only_notify
        intro k hk
        apply ih k
        have hk := AMap.load_isSome.mp hk
        apply AMap.load_isSome.mpr
        unfold AMap.keys at hk ⊢
        rw [List.map_map] at hk
        obtain ⟨p, hp, e⟩ := List.mem_map.mp hk
        refine List.mem_map.mpr ⟨p, hp, ?_⟩
        rw [← e]
        simp only [Function.comp]
        split <;> rfl
      · exact ih
    | command agent info disc =>
      have h1 := only_command env disc (run env h) agent info ih
      show Only env (notifyCommand env disc (run env h) agent info)
      unfold notifyCommand
      simp only
      split
      · exact only_notify env disc _ h1
      · exact h1
    | unsubscribe =>
      intro k hk
      exact absurd hk (by simp [step, clear, AMap.load])

/-- After any history only the other groups of the current command are subscribed to. -/
theorem subscribed_only (env : Env) (h : List Event) (k : Bytes) (hk : (AMap.load (run env h).listeners k).isSome = true) :
    ∃ c, currentTc (run env h) = some c ∧ ∃ g ∈ c.mergeGroups, Spec.name g ≠ env.url.group ∧ Spec.name g = k :=
  only_run env h k hk

/-- News about a subscribed group replaces what is known of it and of no other. -/
theorem other_group_recorded (env : Env) (hd : Spec.DistinctCommands env) (h : List Event) (g : Bytes) (l : Listener)
    (hl : AMap.load (run env h).listeners g = some l) (urls : List URL) (disc : Bytes → List URL) :
    Spec.others (run env (h ++ [.other l.id urls disc])) g = urls ∧
    ∀ k m, k ≠ g → AMap.load (run env h).listeners k = some m →
      Spec.others (run env (h ++ [.other l.id urls disc])) k = m.urls := by
  have hi := subInv_run env hd h
  have hmem : ∀ (k : Bytes) (m : Listener), AMap.load (run env h).listeners k = some m →
      m.id ∈ (run env h).listeners.map fun p => p.2.id := by
    intro k m hm
    exact List.mem_map.mpr ⟨(k, m), AMap.mem_of_load hm, rfl⟩
  have hin : l.id ∈ (run env h).subs := by
    apply List.count_pos_iff.mp
    rw [hi.count]
    exact idCount_pos.mp (hmem g l hl)
  -- listeners have distinct ids
  have hinj : ∀ k m, k ≠ g → AMap.load (run env h).listeners k = some m → m.id ≠ l.id := by
    intro k m hk hm e
    have h1 := hi.once l.id
    rw [hi.count] at h1
    unfold idCount at h1
    have h2 := wsum_erase (fun x : Listener => if x.id = l.id then 1 else 0) (run env h).listeners hi.nodup g
    rw [hl] at h2
    have h3 : AMap.load (AMap.erase (run env h).listeners g) k = some m := by
      rw [AMap.load_erase, if_neg (fun e => hk e.symm)]; exact hm
    have h4 := wsum_erase (fun x : Listener => if x.id = l.id then 1 else 0) (AMap.erase (run env h).listeners g)
      (AMap.nodupKeys_erase hi.nodup g) k
    rw [h3] at h4
    simp only [Option.elim_some, e, if_true] at h2 h4
    omega
  have hstep : run env (h ++ [.other l.id urls disc]) = notifyResult env disc { run env h with
      listeners := (run env h).listeners.map fun p => if p.2.id = l.id then (p.1, { p.2 with urls := urls }) else p } := by
    rw [run_snoc]
    show notifyOther env disc (run env h) l.id urls = _
    unfold notifyOther
    rw [if_pos hin]
  have hload : ∀ (m : AMap Bytes Listener) k, AMap.load (m.map fun p => if p.2.id = l.id then (p.1, { p.2 with urls := urls }) else p) k =
      (AMap.load m k).map fun x => if x.id = l.id then { x with urls := urls } else x := by
    intro m k
    induction m with
    | nil => rfl
    | cons p m ih =>
      obtain ⟨k', x⟩ := p
      rw [List.map_cons]
      by_cases hx : x.id = l.id
      · simp only [hx, if_true]
        rw [AMap.load_cons, AMap.load_cons, ih]
        split
        · simp [hx]
        · rfl
      · simp only [hx, if_false]
        rw [AMap.load_cons, AMap.load_cons, ih]
        split
        · simp [hx]
        · rfl
  have hkeep : ∀ (s : State) k m, AMap.load s.listeners k = some m →
      AMap.load (notifyResult env disc s).listeners k = some m := by
    intro s k m hm
    show AMap.load (getResult env disc s).2.listeners k = some m
    unfold getResult
    split
    · exact hm
    · exact (mergeURLs_spec env disc s _).1 k m hm
  rw [hstep]
  refine ⟨?_, fun k m hk hm => ?_⟩
  · unfold Spec.others
    rw [hkeep _ g { l with urls := urls } (by
      show AMap.load ((run env h).listeners.map _) g = _
      rw [hload, hl]; simp)]
  · unfold Spec.others
    rw [hkeep _ k m (by
      show AMap.load ((run env h).listeners.map _) k = _
      rw [hload, hm]; simp [hinj k m hk hm])]

/-! ## Examples and counterexamples -/

def exCmdURL : URL := { protocol := b!"motan2", path := b!"svc", group := b!"own", params := some [] }

def exNode (h : Bytes) : URL := { protocol := b!"motan2", host := h, port := 80, path := b!"svc", params := some [] }

/-- Commands: 1 merges two groups with a route, 2 has a second command of higher index, 3 merges another group only,
4 names a group twice, 5 degrades, 6 routes away every node. -/
def exParse : Bytes → Option (List Cmd)
  | [49] => some [{ index := 2, type := 0, pattern := b!"*", mergeGroups := [b!"own:3", b!"g:7"], routeRules := [b!"10.* to !10.2*"] }]
  | [50] => some [{ index := 1, type := 0, pattern := b!"sv", mergeGroups := [b!"own", b!"g"] },
      { index := 2, type := 0, pattern := b!"*", mergeGroups := [b!"g"] }]
  | [51] => some [{ index := 1, type := 0, pattern := b!"*", mergeGroups := [b!"g"] }]
  | [52] => some [{ index := 1, type := 0, pattern := b!"*", mergeGroups := [b!"own", b!"g", b!"g"] }]
  | [53] => some [{ index := 1, type := 1, pattern := b!"*" }]
  | [54] => some [{ index := 1, type := 0, pattern := b!"*", mergeGroups := [b!"own"], routeRules := [b!"* to none"] }]
  | _ => none

def exCmdEnv : Env := { url := exCmdURL, parse := exParse, re := fun _ _ => false, sort := id, localIP := b!"10.0.0.1" }

/-- Insertion sort: a sort as specified. -/
def exInsert (c : Cmd) : List Cmd → List Cmd
  | [] => [c]
  | d :: l => if c.index ≤ d.index then c :: d :: l else d :: exInsert c l

def exSort (l : List Cmd) : List Cmd := l.foldr exInsert []

theorem exSort_sorts : Spec.SortsByIndex exSort := by
  have hperm : ∀ c l, (exInsert c l).Perm (c :: l) := by
    intro c l
    induction l with
    | nil => exact List.Perm.refl _
    | cons d l ih =>
      unfold exInsert
      split
      · exact List.Perm.refl _
      · exact (ih.cons d).trans (List.Perm.swap c d l)
  have hp : ∀ l, (exSort l).Perm l := by
    intro l
    induction l with
    | nil => exact List.Perm.refl _
    | cons c l ih => exact (hperm c _).trans (ih.cons c)
  have hins : ∀ c l, l.Pairwise (fun a b : Cmd => a.index ≤ b.index) →
      (exInsert c l).Pairwise fun a b => a.index ≤ b.index := by
    intro c l h
    induction l with
    | nil => simp [exInsert]
    | cons d l ih =>
      rw [List.pairwise_cons] at h
      unfold exInsert
      split
      · rename_i hcd
        rw [List.pairwise_cons]
        refine ⟨fun x hx => ?_, List.pairwise_cons.mpr h⟩
        rcases List.mem_cons.mp hx with rfl | hx
        · exact hcd
        · have := h.1 x hx; omega
      · rename_i hcd
        rw [List.pairwise_cons]
        refine ⟨fun x hx => ?_, ih h.2⟩
        rcases List.mem_cons.mp ((hperm c l).mem_iff.mp hx) with rfl | hx
        · omega
        · exact h.1 x hx
  refine ⟨hp, fun l => ?_⟩
  induction l with
  | nil => exact List.Pairwise.nil
  | cons c l ih => exact hins c _ ih

/-- The environment of the examples with that sort. -/
def exCmdEnv' : Env := { exCmdEnv with sort := exSort }

example : (mergeCommand exCmdEnv' b!"2").tc = some { index := 1, type := 0, pattern := b!"sv", mergeGroups := [b!"own", b!"g"] } ∧
    (mergeCommand exCmdEnv' b!"5").degrade = some { index := 1, type := 1, pattern := b!"*" } := by decide +kernel

example : Command.isMatch b!"10.*" b!"10.3.4.5" = true ∧ Command.isMatch b!"!10.*" b!"10.3.4.5" = false ∧
    Command.isMatch b!"10.3" b!"10.3.4.5" = false := by decide +kernel

/-- The answers of the registry in the examples. -/
def exDisc : Bytes → List URL := fun g => if g = b!"g" then [exNode b!"10.2.1", exNode b!"10.3.1"] else []

def exTold (h : List Event) : Option (List Bytes) := (run exCmdEnv h).told.getLast?.map fun l => l.map (·.host)

/-- A command merges two groups, drops one node by its route and is then withdrawn; the empty host is that of the entry
with the weights. -/
example :
    exTold [.discover [exNode b!"10.1.1"] b!"1" exDisc] = some [b!"10.1.1", b!"10.3.1", []] ∧
    exTold [.discover [exNode b!"10.1.1"] b!"1" exDisc, .other 0 [exNode b!"10.9"] exDisc] = some [b!"10.1.1", b!"10.9", []] ∧
    exTold [.discover [exNode b!"10.1.1"] b!"1" exDisc, .command false [] exDisc] = some [b!"10.1.1"] := by
  decide +kernel

/-- An environment all of whose commands name groups once. -/
example : Spec.DistinctCommands { exCmdEnv with parse := fun i => if i = b!"4" then none else exParse i } := by
  constructor
  · intro c hc
    have h : (newWrapper { exCmdEnv with parse := fun i => if i = b!"4" then none else exParse i }).static = none := by
      decide +kernel
    rw [h] at hc; exact absurd hc (by simp)
  · intro info l hl c hc
    have hl : (if info = b!"4" then none else exParse info) = some l := hl
    have hc : c ∈ l := hc
    split at hl
    · exact absurd hl (by simp)
    · rename_i h4
      unfold exParse at hl
      split at hl
      · obtain rfl := Option.some.inj hl; simp only [List.mem_cons, List.not_mem_nil, or_false] at hc; subst hc
        unfold Spec.DistinctGroups; decide +kernel
      · obtain rfl := Option.some.inj hl; simp only [List.mem_cons, List.not_mem_nil, or_false] at hc
        rcases hc with hc | hc <;> subst hc <;> unfold Spec.DistinctGroups <;> decide +kernel
      · obtain rfl := Option.some.inj hl; simp only [List.mem_cons, List.not_mem_nil, or_false] at hc; subst hc
        unfold Spec.DistinctGroups; decide +kernel
      · exact absurd (by decide) h4
      · obtain rfl := Option.some.inj hl; simp only [List.mem_cons, List.not_mem_nil, or_false] at hc; subst hc
        unfold Spec.DistinctGroups; decide +kernel
      · obtain rfl := Option.some.inj hl; simp only [List.mem_cons, List.not_mem_nil, or_false] at hc; subst hc
        unfold Spec.DistinctGroups; decide +kernel
      · exact absurd hl (by simp)

/-- Routes that remove every node do not fall back to the own group: the cluster is given the weights only. -/
theorem routes_remove_all_counterexample :
    exTold [.discover [exNode b!"10.1.1"] b!"6" exDisc] = some [[]] := by decide +kernel

/-- With a command that merges only another group, which has no nodes, changes of the own group are not passed on,
although its nodes are being used. -/
theorem blind_counterexample :
    let h := [.discover [exNode b!"10.1.1"] b!"3" fun _ => [], .own [exNode b!"10.1.2"] fun _ => []]
    exTold h = some [b!"10.1.1"] ∧ (run exCmdEnv h).own.map (·.host) = [b!"10.1.2"] := by decide +kernel

/-- A command naming a group twice leaves a subscription that is never cancelled. -/
theorem duplicate_group_leaks_counterexample :
    (run exCmdEnv [.discover [] b!"4" exDisc, .command false [] exDisc, .unsubscribe]).subs = [0] := by decide +kernel

/-- Unsubscribing leaves a degraded cluster degraded, with no command in force. -/
theorem degraded_after_unsubscribe_counterexample :
    (run exCmdEnv [.discover [] b!"5" exDisc, .unsubscribe]).available = false ∧
    (run exCmdEnv [.discover [] b!"5" exDisc, .unsubscribe]).degrade = none := by decide +kernel

/-! ### The command of the configuration -/

/-- C37: a cluster whose URL names further groups in mixGroups has a traffic command of its own exactly if one of them, without the
spaces around it, is neither empty nor the cluster's own group. The command merges the own group, first, with those groups
in the order given, and has no routes. -/
theorem static_command (env : Command.Env) (parts : List Bytes) (hne : parts ≠ []) (hc : ∀ p ∈ parts, (44 : UInt8) ∉ p)
    (hm : getParam env.url b!"mixGroups" [] = join b!"," parts) :
    ((newWrapper env).static = none ↔ ∀ p ∈ parts, trimSpace p = [] ∨ trimSpace p = env.url.group) ∧
    ∀ c, (newWrapper env).static = some c →
      (∀ g, g ∈ c.mergeGroups ↔ g = env.url.group ∨ (g ≠ [] ∧ ∃ p ∈ parts, trimSpace p = g)) ∧
      c.mergeGroups.head? = some env.url.group ∧ (c.mergeGroups.drop 1).Sublist (parts.map trimSpace) ∧
      c.mergeGroups.drop 1 = (parts.map trimSpace).filter (fun g => g ≠ [] ∧ g ≠ env.url.group) ∧
      c.type = 0 ∧ c.index = 0 ∧ c.routeRules = [] := by
  have hs : split b!"," (join b!"," parts) = parts := split_join parts hne hc
  have key : (newWrapper env).static =
      if (parts.map trimSpace).filter (fun g => g ≠ [] ∧ g ≠ env.url.group) = [] then none
      else some { index := 0, type := 0,
                  mergeGroups := env.url.group :: (parts.map trimSpace).filter (fun g => g ≠ [] ∧ g ≠ env.url.group) } := by
    unfold newWrapper
    by_cases hj : join b!"," parts = []
    · have hp : parts = [[]] := by rw [← hs, hj]; exact split_single (by simp)
      have ht : trimSpace [] = [] := rfl
      have hm' : getParam env.url b!"mixGroups" [] = [] := hm.trans hj
      simp only [hm', hp]
      simp [ht]
    · simp only [hm, hs]
      rw [if_pos hj]
      cases h : (parts.map trimSpace).filter (fun g => g ≠ [] ∧ g ≠ env.url.group) with
      | nil => simp
      | cons a l => simp
  rw [key]
  constructor
  · split
    · rename_i h
      refine ⟨fun _ p hp => ?_, fun _ => rfl⟩
      have := List.filter_eq_nil_iff.mp h (trimSpace p) (List.mem_map_of_mem hp)
      by_cases e : trimSpace p = []
      · exact .inl e
      · exact .inr (by simpa [e] using this)
    · rename_i h
      refine ⟨fun x => (by cases x), fun hall => absurd (List.filter_eq_nil_iff.mpr ?_) h⟩
      intro g hg
      obtain ⟨p, hp, rfl⟩ := List.mem_map.mp hg
      rcases hall p hp with e | e <;> simp [e]
  · intro c hcs
    split at hcs
    · cases hcs
    · cases hcs
      refine ⟨fun g => ?_, rfl, List.filter_sublist, rfl, rfl, rfl, rfl⟩
      simp only [List.mem_cons, List.mem_filter, List.mem_map, decide_eq_true_eq]
      constructor
      · rintro (h | ⟨⟨p, hp, e⟩, h1, _⟩)
        · exact .inl h
        · exact .inr ⟨h1, p, hp, e⟩
      · rintro (h | ⟨h1, p, hp, e⟩)
        · exact .inl h
        · by_cases ho : g = env.url.group
          · exact .inl ho
          · exact .inr ⟨⟨p, hp, e⟩, h1, ho⟩

/-- A cluster of the group "g" with further groups. -/
def exMixed : Command.Env where
  url := { protocol := [], path := [], group := b!"g", params := some [(b!"mixGroups", b!"g, h,,i ")] }
  parse _ := none
  re _ _ := false
  sort := id
  localIP := []

/-- Own group and an empty name are left out, spaces around a name do not count. -/
example : (newWrapper exMixed).static = some { index := 0, type := 0, mergeGroups := [b!"g", b!"h", b!"i"] } := by
  decide +kernel

/-- Every known group has the nodes the registry gives for it. -/
def FromRegistry (disc : Bytes → List URL) (s : State) : Prop :=
  ∀ k l, AMap.load s.listeners k = some l → l.urls = disc k

theorem mergeURLs_fromRegistry (env : Command.Env) (disc : Bytes → List URL) (gs : List Bytes) :
    ∀ s, FromRegistry disc s → FromRegistry disc (mergeURLs env disc s gs).2 := by
  induction gs with
  | nil => exact fun s h => h
  | cons g gs ih =>
    intro s h
    show FromRegistry disc (mergeURLs env disc (groupURLs env disc s g).2 gs).2
    refine ih _ ?_
    unfold groupURLs
    split
    · exact h
    · split
      · exact h
      · intro k l hl
        simp only [newSubscribe, AMap.load_store] at hl
        split at hl
        · rename_i e
          cases hl
          rw [e]
        · exact h k l hl

theorem newWrapper_plain (env : Command.Env) : (newWrapper env).listeners = [] ∧ (newWrapper env).tc = none ∧
    (newWrapper env).told = [] := by
  unfold newWrapper
  dsimp only
  split
  · split <;> exact ⟨rfl, rfl, rfl⟩
  · exact ⟨rfl, rfl, rfl⟩

/-- C37 does not hold of a registry without commands: a cluster whose configuration names further groups is given its own
group alone when it starts, and all the groups only once its own group is announced again, even if unchanged. -/
theorem mixed_groups_ignored_violated (env : Command.Env) (c : Cmd) (hc : (newWrapper env).static = some c)
    (hown : env.url.group ∈ c.mergeGroups.map Spec.name) (own : List URL) (disc : Bytes → List URL) :
    let s := discoverPlain (newWrapper env) own
    s.told = [own] ∧ (notifyOwn env disc s own).told = [own, Spec.answer env (some c) own disc] := by
  obtain ⟨hl, ht, htold⟩ := newWrapper_plain env
  have h1 : (discoverPlain (newWrapper env) own).told = [own] := by simp [discoverPlain, htold]
  refine ⟨h1, ?_⟩
  generalize hs : discoverPlain (newWrapper env) own = s at h1
  have hcur : currentTc s = some c := by rw [← hs]; simp [currentTc, discoverPlain, ht, hc]
  have hso : s.own = own := by rw [← hs]; rfl
  have hneed : ownNeeded env s = true := by
    unfold ownNeeded
    rw [hcur]
    obtain ⟨g, hg, e⟩ := List.mem_map.mp hown
    exact List.any_eq_true.mpr ⟨g, hg, by rw [groupName_eq]; simpa using e⟩
  have hset : { s with own := own } = s := by rw [← hso]
  unfold notifyOwn
  rw [if_pos hneed, hset]
  show (getResult env disc s).2.told ++ [(getResult env disc s).1] = _
  have hcore := getResult_core env disc s
  have hg := getResult_spec env disc s
  simp only at hg
  have e1 : (getResult env disc s).2.told = s.told := by rw [hcore]
  have hf : FromRegistry disc (getResult env disc s).2 := by
    have : (getResult env disc s).2 = (mergeURLs env disc s c.mergeGroups).2 := by
      unfold getResult; rw [hcur]
    rw [this]
    refine mergeURLs_fromRegistry env disc _ s ?_
    intro k l hk
    rw [← hs] at hk
    simp [discoverPlain, hl, AMap.load] at hk
  have hm : Spec.merged env own (Spec.others (getResult env disc s).2) c.mergeGroups =
      Spec.merged env own disc c.mergeGroups := by
    unfold Spec.merged
    rw [List.flatMap_def, List.flatMap_def]
    refine congrArg List.flatten (List.map_congr_left fun g hgm => ?_)
    split
    · rfl
    · rename_i hne
      have hcov := hg.1 c (by rw [currentTc_core hcore, hcur]) g hgm hne
      unfold Spec.others
      cases hlo : AMap.load (getResult env disc s).2.listeners (Spec.name g) with
      | none => rw [hlo] at hcov; cases hcov
      | some l => exact hf _ _ hlo
  rw [e1, h1, hg.2.1, hcur, hso]
  simp only [Spec.answer, hm, List.cons_append, List.nil_append]

/-- Two groups of which the second is left out at first. -/
example :
    let s := discoverPlain (newWrapper exMixed) [exNode b!"10.1.1"]
    s.told.map (·.map (·.host)) = [[b!"10.1.1"]] ∧
    (notifyOwn exMixed (fun g => if g = b!"h" then [exNode b!"10.2.1"] else []) s [exNode b!"10.1.1"]).told.map
      (·.map (·.host)) = [[b!"10.1.1"], [b!"10.1.1", b!"10.2.1", []]] := by decide +kernel

end Motan.Props
