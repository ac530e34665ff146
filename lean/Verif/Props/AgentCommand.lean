import Verif.Model.AgentCommand

/-!
# C86: commands to the agent reach every cluster, once per change
-/

namespace Motan.Props

open Motan.AgentCommand

namespace Spec

/-- The commands that differ from the one before them. -/
def commandChanges : Bytes → List Bytes → List Bytes
  | _, [] => []
  | prev, c :: cs => if c = prev then commandChanges prev cs else c :: commandChanges c cs

/-- The registries that take commands, in order. -/
def takers (ks : List Sink) : List Nat := (ks.filter (·.listens)).map (·.name)

/-- No registry panics. -/
def SinksCalm (ks : List Sink) : Prop := ∀ k ∈ ks, ∀ url info, k.panics url info = false

end Spec

theorem agent_tell_calm {ks : List Sink} (h : Spec.SinksCalm ks) (url info : Bytes) :
    tell url info ks = (Spec.takers ks).map fun n => (n, url, info) := by
  induction ks with
  | nil => rfl
  | cons k ks ih =>
    have hk := h k (by simp) url info
    have := ih fun k' hk' => h k' (by simp [hk'])
    simp only [tell, hk, this, Spec.takers]
    cases hl : k.listens <;> simp [hl]

theorem agent_handle_pass {hs : List Handler} {url info : Bytes} (h : ∀ x ∈ hs, x url info = .pass) :
    handle url hs info = (info, [], false) := by
  induction hs with
  | nil => rfl
  | cons x hs ih =>
    simp only [handle, h x (by simp)]
    exact ih fun y hy => h y (by simp [hy])

/-- C86: a command equal to the one in force does nothing. -/
theorem agent_command_repeated (hs : List Handler) (ks : List Sink) (current url : Bytes) :
    notify hs ks current url current = { current := current } := by simp [notify]

/-- C86: a new command that no handler takes reaches every registry of every cluster that takes commands, once, unchanged, and is
then the one in force. -/
theorem agent_command_told {hs : List Handler} {ks : List Sink} {current url info : Bytes} (hn : info ≠ current)
    (hp : ∀ h ∈ hs, h url info = .pass) (hk : Spec.SinksCalm ks) :
    notify hs ks current url info =
      { current := info, told := (Spec.takers ks).map fun n => (n, url, info) } := by
  simp [notify, hn, agent_handle_pass hp, agent_tell_calm hk]

/-- C86: over any sequence of notifications that no handler takes, the clusters are told exactly the changes, in order, and the
last command is the one in force. -/
theorem agent_command_history {hs : List Handler} {ks : List Sink} {url : Bytes}
    (hp : ∀ h ∈ hs, ∀ info, h url info = .pass) (hk : Spec.SinksCalm ks) (current : Bytes) (infos : List Bytes) :
    notifyAll hs ks url current infos =
      ((current :: infos).getLast (by simp),
        (Spec.commandChanges current infos).flatMap fun c => (Spec.takers ks).map fun n => (n, url, c)) := by
  induction infos generalizing current with
  | nil => rfl
  | cons i is ih =>
    by_cases h : i = current
    · subst h
      simp only [notifyAll, agent_command_repeated, ih, Spec.commandChanges]
      simp
    · simp only [notifyAll, agent_command_told h (fun x hx => hp x hx i) hk, ih, Spec.commandChanges, if_neg h]
      simp

theorem agent_handle_served {url : Bytes} {hs : List Handler} {info : Bytes} (hc : ∀ h ∈ hs, ∀ i, h url i ≠ .panic) :
    (handle url hs info).2.2 = false ∧
    ((∃ pre h post now, hs = pre ++ h :: post ∧ (∀ x ∈ pre, x url info = .pass) ∧ h url info = .serve now ∧
        (handle url hs info).2.1 = info :: (handle url post now).2.1 ∧ (handle url hs info).1 = (handle url post now).1) ∨
      ((∀ x ∈ hs, x url info = .pass) ∧ (handle url hs info).2.1 = [] ∧ (handle url hs info).1 = info)) := by
  induction hs generalizing info with
  | nil => exact ⟨rfl, .inr ⟨by simp, rfl, rfl⟩⟩
  | cons h hs ih =>
    have hc' : ∀ x ∈ hs, ∀ i, x url i ≠ .panic := fun x hx => hc x (by simp [hx])
    cases e : h url info with
    | pass =>
      have E : handle url (h :: hs) info = handle url hs info := by simp [handle, e]
      rw [E]
      refine ⟨(ih hc').1, ?_⟩
      rcases (ih (info := info) hc').2 with ⟨pre, x, post, now, a, b, c, d⟩ | ⟨a, b⟩
      · exact .inl ⟨h :: pre, x, post, now, by simp [a], by simpa [e] using b, c, d⟩
      · exact .inr ⟨by simpa [e] using a, b⟩
    | serve now =>
      refine ⟨?_, .inl ⟨[], h, hs, now, rfl, by simp, e, by simp [handle, e], by simp [handle, e]⟩⟩
      simp only [handle, e]
      exact (ih (info := now) hc').1
    | panic => exact absurd e (hc h (by simp) info)

/-- C86: a command some handler takes is told to no cluster. The first handler that takes it is given the command itself; the
handlers after it are given what it said is in force now; what the last of them said is in force afterwards. -/
theorem agent_command_handled {hs pre post : List Handler} {h : Handler} {ks : List Sink} {current url info now : Bytes}
    (hc : ∀ h ∈ hs, ∀ i, h url i ≠ .panic) (hn : info ≠ current) (e : hs = pre ++ h :: post)
    (hp : ∀ x ∈ pre, x url info = .pass) (hh : h url info = .serve now) :
    (notify hs ks current url info).told = [] ∧
    (notify hs ks current url info).served = info :: (handle url post now).2.1 ∧
    (notify hs ks current url info).current = (handle url post now).1 ∧
    ((∀ x ∈ post, x url now = .pass) → (notify hs ks current url info).current = now ∧
      (notify hs ks current url info).served = [info]) := by
  have H : handle url hs info = ((handle url post now).1, info :: (handle url post now).2.1, (handle url post now).2.2) := by
    subst e
    clear hc
    induction pre with
    | nil => simp [handle, hh]
    | cons x pre ih =>
      simp only [List.cons_append, handle, hp x (by simp)]
      exact ih fun y hy => hp y (by simp [hy])
  have hpan := (agent_handle_served (info := info) hc).1
  rw [H] at hpan
  simp only at hpan
  have N : notify hs ks current url info =
      { current := (handle url post now).1, served := info :: (handle url post now).2.1 } := by
    simp [notify, hn, H, hpan]
  rw [N]
  refine ⟨rfl, rfl, rfl, fun hq => ?_⟩
  simp [agent_handle_pass hq]

/-- C86: with handlers that do not panic, clusters are told exactly if the command is new and every handler passes it. -/
theorem agent_command_told_iff {hs : List Handler} {ks : List Sink} {current url info : Bytes}
    (hc : ∀ h ∈ hs, ∀ i, h url i ≠ .panic) (hk : Spec.SinksCalm ks) (ht : Spec.takers ks ≠ []) :
    (notify hs ks current url info).told ≠ [] ↔ info ≠ current ∧ ∀ h ∈ hs, h url info = .pass := by
  constructor
  · intro h
    have hn : info ≠ current := fun e => by simp [notify, e] at h
    refine ⟨hn, ?_⟩
    rcases (agent_handle_served (info := info) hc).2 with ⟨pre, x, post, now, a, b, c, _⟩ | ⟨a, _⟩
    · exact absurd (agent_command_handled (ks := ks) hc hn a b c).1 h
    · exact a
  · rintro ⟨hn, hp⟩
    rw [agent_command_told hn hp hk]
    simpa using ht

/-- C86: after subscribing, with commands that no handler takes, the command in force is the one notified last of those that arrived
after the first command was delivered; if there is none, it is the first command. What was notified in between is told, before it. -/
theorem agent_command_subscribed {hs : List Handler} {ks : List Sink} {url : Bytes}
    (hp : ∀ h ∈ hs, ∀ info, h url info = .pass) (hk : Spec.SinksCalm ks) (found : Bytes) (between later : List Bytes) :
    (notifyAll hs ks url [] (subscribe found between later)).1 = later.getLast?.getD found ∧
    (notifyAll hs ks url [] (subscribe found between later)).2 =
      (Spec.commandChanges [] (between ++ found :: later)).flatMap fun c => (Spec.takers ks).map fun n => (n, url, c) := by
  rw [agent_command_history hp hk]
  refine ⟨?_, by simp [subscribe]⟩
  have e : ([] : Bytes) :: subscribe found between later = ([] :: between) ++ found :: later := by simp [subscribe]
  simp only [e]
  rw [List.getLast_append_of_ne_nil (by simp) (by simp)]
  cases later with
  | nil => rfl
  | cons l ls => rw [List.getLast_cons (by simp), List.getLast?_eq_some_getLast (by simp)]; rfl

/-! ## Cases -/

namespace AgentCommandCase

def sinks : List Sink := [{ name := 1 }, { name := 2, listens := false }, { name := 3 }]

theorem calm : Spec.SinksCalm sinks := by
  intro k hk url info
  simp [sinks] at hk
  rcases hk with rfl | rfl | rfl <;> rfl

example : notifyAll [fun _ _ => .pass] sinks b!"zk" [] [b!"A", b!"A", b!"B", b!"A"] =
    (b!"A", [(1, b!"zk", b!"A"), (3, b!"zk", b!"A"), (1, b!"zk", b!"B"), (3, b!"zk", b!"B"), (1, b!"zk", b!"A"),
      (3, b!"zk", b!"A")]) :=
  (agent_command_history (by simp) calm [] _).trans (by decide)

example : (notifyAll [fun _ _ => .pass] sinks b!"zk" [] (subscribe b!"A" [b!"B"] [b!"C", b!"D"])).1 = b!"D" :=
  (agent_command_subscribed (by simp) calm _ _ _).1.trans (by decide)

/-- A handler that takes "A" and one that takes what the first makes of it. -/
def first : Handler := fun _ i => if i = b!"A" then .serve b!"A1" else .pass
def second : Handler := fun _ i => if i = b!"A1" then .serve b!"A2" else .pass

example : notify [first, second] sinks [] b!"zk" b!"A" = { current := b!"A2", served := [b!"A", b!"A1"] } := by decide

example : (notify [first, second] sinks [] b!"zk" b!"B").told ≠ [] :=
  (agent_command_told_iff (by intro h hh i; simp at hh; rcases hh with rfl | rfl <;> simp only [first, second] <;> split <;> simp)
    calm (by decide)).mpr ⟨by decide, by intro h hh; simp at hh; rcases hh with rfl | rfl <;> decide⟩

end AgentCommandCase

open AgentCommandCase in
/-- C86 (false of the code): "a repeated command is ignored" — not if a handler said that another one is in force. -/
theorem agent_command_again_violated : ∃ (hs : List Handler) (ks : List Sink) (url info : Bytes),
    (notify hs ks (notify hs ks [] url info).current url info).served ≠ [] :=
  ⟨[first], sinks, b!"zk", b!"A", by decide⟩

/-- C86 (false of the code): "every cluster gets the command" — a panic in one registry keeps it from the registries after it, and
the same command, notified again, is ignored, so they never get it. -/
theorem agent_command_lost_violated : ∃ (ks : List Sink) (url info : Bytes) (n : Nat), n ∈ Spec.takers ks ∧ ∀ again,
    (n, url, info) ∉ (notifyAll [] ks url [] (List.replicate again info)).2 := by
  refine ⟨[{ name := 1, panics := fun _ _ => true }, { name := 2 }], b!"zk", b!"A", 2, by decide, fun again => ?_⟩
  cases again with
  | zero => simp [notifyAll]
  | succ k =>
    have key : ∀ k, (notifyAll [] [{ name := 1, panics := fun _ _ => true }, { name := 2 }] b!"zk" b!"A"
        (List.replicate k b!"A")).2 = [] := by
      intro k
      induction k with
      | zero => rfl
      | succ k ih =>
        rw [List.replicate_succ]
        simp only [notifyAll, agent_command_repeated, ih]
        rfl
    rw [List.replicate_succ]
    have h1 : notify [] [{ name := 1, panics := fun _ _ => true }, { name := 2 }] [] b!"zk" b!"A" =
        { current := b!"A", told := [(1, b!"zk", b!"A")] } := by decide
    simp only [notifyAll, h1, key]
    decide

open AgentCommandCase in
/-- C86 (false of the code): "the command in force is the registry's latest" — the first command is read before, and delivered
after, a change that arrives in between; the older one stays in force until the next change. -/
theorem agent_command_stale_violated : ∃ found newer : Bytes, found ≠ newer ∧
    (notifyAll [] sinks b!"zk" [] (subscribe found [newer] [])).1 = found :=
  ⟨b!"A", b!"B", by decide, by decide⟩

end Motan.Props
