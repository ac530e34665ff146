import Verif.Model.LogFile
import Verif.Basic.Decimal
import Verif.Props.ConnPool

/-!
# C66: log lines are kept, in order

What a program writes to its log ends up in the log file or in one of the files moved aside, completely
and in order, whatever system calls fail and wherever the process dies, as long as no file moved aside is
given a name that was used before.
-/

namespace Motan.Props

open Motan Motan.LogFile

/-- All that was written, in order: what `Write` said it wrote and what was written before the process
died. -/
def Spec.logged : List Event → Bytes
  | [] => []
  | .wrote p n :: evs => p.take n ++ Spec.logged evs
  | .torn p n :: evs => p.take n ++ Spec.logged evs
  | _ :: evs => Spec.logged evs

/-- The names given to the files moved aside, in order. -/
def Spec.movedTo : List Event → List Bytes
  | [] => []
  | .moved b _ :: evs => b :: Spec.movedTo evs
  | _ :: evs => Spec.movedTo evs

/-- No file moved aside gets the name of an existing file or of a file moved aside before. -/
def Spec.NamesFresh (evs : List Event) : Prop :=
  (∀ b, .moved b true ∉ evs) ∧ (Spec.movedTo evs).Nodup

/-- The contents are there, plain or compressed. -/
def Spec.Stored (c : Cfg) (fs : AMap Bytes Bytes) (name data : Bytes) : Prop :=
  fs.load name = some data ∨ fs.load (name ++ b!".gz") = some (c.gz data)

/-- What the log file holds. -/
def Spec.logFile (c : Cfg) (fs : AMap Bytes Bytes) : Bytes := (fs.load (c.stem ++ c.ext)).getD []

/-- `ext` is what `filepath.Ext` returns, and the format of the time has no dot. -/
def Spec.PlainNames (c : Cfg) : Prop :=
  (c.ext = [] ∨ ∃ e, c.ext = 46 :: e ∧ (46 : UInt8) ∉ e) ∧ ∀ t, (46 : UInt8) ∉ c.stamp t

/-- The name without the suffix of compressed files: a file and its compressed form are one backup. -/
def Spec.original (f : Bytes) : Bytes :=
  if b!".gz" <:+ f then f.take (f.length - 3) else f

/-- `f` is a file moved aside at the time `t`, plain or compressed, as its name says. -/
def Spec.IsBackup (c : Cfg) (f : Bytes) (t : Nat) : Prop :=
  ∃ ts, (f = c.stem ++ b!"-" ++ ts ++ c.ext ∨ f = c.stem ++ b!"-" ++ ts ++ c.ext ++ b!".gz") ∧
    c.parse ts = some t

/-- The maximal size of a log file in bytes. -/
def Spec.limit (c : Cfg) : Nat := if c.maxSize = 0 then 2 ^ 50 else c.maxSize * 2 ^ 20

theorem max_eq (c : Cfg) : LogFile.max c = Spec.limit c := by
  simp [LogFile.max, Spec.limit, defaultMaxSize, megabyte]

/-! ## Names -/

/-- A name the background goroutine may find. -/
def Backupish (c : Cfg) (f : Bytes) : Prop :=
  ∃ r, f = namePrefix c ++ r ∧ (c.ext <:+ f ∨ (c.ext ++ gzSuffix) <:+ f)

theorem backupish_backupName (c : Cfg) (t : Nat) : Backupish c (backupName c t) :=
  ⟨c.stamp t ++ c.ext, by simp [backupName], .inl ⟨namePrefix c ++ c.stamp t, rfl⟩⟩

theorem not_filename {c : Cfg} (hp : Spec.PlainNames c) (r : Bytes) : namePrefix c ++ r ≠ filename c := by
  intro h
  simp only [namePrefix, filename, List.append_assoc] at h
  have h := List.append_cancel_left h
  rcases hp.1 with he | ⟨e, he, -⟩ <;> rw [he] at h <;> simp at h

theorem backupish_ne {c : Cfg} (hp : Spec.PlainNames c) {f : Bytes} (h : Backupish c f) : f ≠ filename c := by
  obtain ⟨r, rfl, -⟩ := h; exact not_filename hp r

theorem backupish_gz_ne {c : Cfg} (hp : Spec.PlainNames c) {f : Bytes} (h : Backupish c f) :
    gzName f ≠ filename c := by
  obtain ⟨r, rfl, -⟩ := h
  simp only [gzName, List.append_assoc]; exact not_filename hp _

theorem gzName_inj {a b : Bytes} (h : gzName a = gzName b) : a = b := List.append_cancel_right h

/-- The part after the last dot. -/
theorem last_dot {a b x y : Bytes} (hx : (46 : UInt8) ∉ x) (hy : (46 : UInt8) ∉ y)
    (h : a ++ 46 :: x = b ++ 46 :: y) : a = b ∧ x = y := by
  induction a generalizing b with
  | nil =>
    cases b with
    | nil => simpa using h
    | cons z b =>
      simp only [List.nil_append, List.cons_append, List.cons.injEq] at h
      exact absurd (h.2 ▸ by simp : (46 : UInt8) ∈ x) hx
  | cons z a ih =>
    cases b with
    | nil =>
      simp only [List.nil_append, List.cons_append, List.cons.injEq] at h
      exact absurd (h.2 ▸ by simp : (46 : UInt8) ∈ y) hy
    | cons w b =>
      simp only [List.cons_append, List.cons.injEq] at h
      have := ih h.2
      exact ⟨by rw [h.1, this.1], this.2⟩

/-- A compressed file with the name of a file moved aside: the extension must be `.gz`. -/
theorem gz_eq_backup {c : Cfg} (hp : Spec.PlainNames c) {f : Bytes} (hf : Backupish c f) {t : Nat}
    (h : gzName f = backupName c t) : c.ext = gzSuffix ∧ f = namePrefix c ++ c.stamp t := by
  obtain ⟨r, rfl, -⟩ := hf
  simp only [gzName, backupName, List.append_assoc] at h
  have h := List.append_cancel_left h
  rcases hp.1 with he | ⟨e, he, hd⟩
  · rw [he, List.append_nil] at h
    exact absurd (h ▸ by simp [gzSuffix] : (46 : UInt8) ∈ c.stamp t) (hp.2 t)
  · rw [he] at h
    have := last_dot (x := [103, 122]) (by decide) hd h
    exact ⟨by rw [he, ← this.2]; rfl, by rw [this.1]⟩

theorem gz_ne_backup {c : Cfg} (hp : Spec.PlainNames c) (t t' : Nat) :
    gzName (backupName c t) ≠ backupName c t' := by
  intro h
  obtain ⟨he, hf⟩ := gz_eq_backup hp (backupish_backupName c t) h
  simp only [backupName, he, List.append_assoc] at hf
  have := List.append_cancel_left hf
  exact absurd (this ▸ by simp [gzSuffix] : (46 : UInt8) ∈ c.stamp t') (hp.2 t')

theorem compressed_ne_backup {c : Cfg} (hp : Spec.PlainNames c) {f : Bytes} (hf : Backupish c f)
    (hg : ¬ gzSuffix <:+ f) (t : Nat) : gzName f ≠ backupName c t := by
  intro h
  obtain ⟨he, -⟩ := gz_eq_backup hp hf h
  obtain ⟨-, -, h1 | h1⟩ := hf
  · exact hg (he ▸ h1)
  · exact hg ((List.suffix_append _ _).trans h1)

theorem timeFromName_time {c : Cfg} {f ext : Bytes} {t : Nat} (h : timeFromName c f ext = .time t) :
    namePrefix c <+: f ∧ ext <:+ f := by
  unfold timeFromName at h
  split at h
  · cases h
  · split at h
    · cases h
    · rename_i h1 h2
      exact ⟨List.isPrefixOf_iff_prefix.1 (by simpa using h1), List.isSuffixOf_iff_suffix.1 (by simpa using h2)⟩

theorem timeOf_backupish {c : Cfg} {f : Bytes} {t : Nat} (h : timeOf c f = .time t) : Backupish c f := by
  unfold timeOf at h
  split at h
  · obtain ⟨⟨r, h1⟩, h2⟩ := timeFromName_time h
    exact ⟨r, h1.symm, .inr h2⟩
  · obtain ⟨⟨r, h1⟩, h2⟩ := timeFromName_time h
    exact ⟨r, h1.symm, .inl h2⟩

/-- `oldLogFiles` returns the files of the directory that have a time in their name. -/
theorem mem_oldFiles {c : Cfg} {names : List Bytes} {l : List (Bytes × Nat)}
    (h : oldFiles c names = some l) (f : Bytes) (t : Nat) :
    (f, t) ∈ l ↔ f ∈ names ∧ timeOf c f = .time t := by
  induction names generalizing l with
  | nil => cases h; simp
  | cons g names ih =>
    unfold oldFiles at h
    split at h
    · cases h
    · rename_i t' ht
      obtain ⟨l', hl, rfl⟩ := Option.map_eq_some_iff.1 h
      rw [List.mem_cons, ih hl, List.mem_cons, Prod.mk.injEq]
      refine ⟨?_, ?_⟩
      · rintro (⟨rfl, rfl⟩ | ⟨h1, h2⟩)
        · exact ⟨.inl rfl, ht⟩
        · exact ⟨.inr h1, h2⟩
      · rintro ⟨rfl | h1, h2⟩
        · rw [ht] at h2; cases h2; exact .inl ⟨rfl, rfl⟩
        · exact .inr ⟨h1, h2⟩
    · rename_i ht
      rw [ih h, List.mem_cons]
      refine ⟨fun ⟨h1, h2⟩ => ⟨.inr h1, h2⟩, ?_⟩
      rintro ⟨rfl | h1, h2⟩
      · rw [ht] at h2; cases h2
      · exact ⟨h1, h2⟩

/-! ## The choice of files -/

theorem byCount_mem {n : Nat} {pre : List Bytes} {files : List (Bytes × Nat)} (f : Bytes × Nat) :
    f ∈ files ↔ f ∈ (byCount n pre files).1 ∨ f ∈ (byCount n pre files).2 := by
  induction files generalizing pre with
  | nil => simp [byCount]
  | cons g files ih =>
    simp only [byCount]
    split
    all_goals
      rw [List.mem_cons, ih (pre := if base g.1 ∈ pre then pre else base g.1 :: pre)]
      grind

theorem counted_mem {c : Cfg} {files : List (Bytes × Nat)} (f : Bytes × Nat) :
    f ∈ files ↔ f ∈ (counted c files).1 ∨ f ∈ (counted c files).2 := by
  unfold counted
  split
  · exact byCount_mem f
  · simp

theorem choose_mem {c : Cfg} {now : Nat} {files : List (Bytes × Nat)} (f : Bytes × Nat) :
    f ∈ files ↔ f ∈ (choose c now files).1 ∨ f ∈ (choose c now files).2 := by
  rw [counted_mem (c := c)]
  unfold choose
  split
  · simp only [List.mem_append, List.mem_filter, decide_not]
    by_cases h : tooOld c now f = true <;> simp [h] <;> grind
  · rfl

/-! ## The invariant of the writer -/

theorem logged_append (a b : List Event) : Spec.logged (a ++ b) = Spec.logged a ++ Spec.logged b := by
  induction a with
  | nil => rfl
  | cons e a ih => cases e <;> simp [Spec.logged, ih]

theorem movedTo_append (a b : List Event) : Spec.movedTo (a ++ b) = Spec.movedTo a ++ Spec.movedTo b := by
  induction a with
  | nil => rfl
  | cons e a ih => cases e <;> simp [Spec.movedTo, ih]

def payload : Cont → Nat
  | .done => 0
  | .check p => p.length
  | .write p => p.length

/-- What holds at each place of the writer. -/
def PcOk (c : Cfg) (s : St) : Pc → Prop
  | .idle => True
  | .openEx p => s.opened = false ∧ p.length ≤ max c
  | .openAppend p n => s.opened = false ∧ (∃ d, s.fs.load (filename c) = some d ∧ n = d.length) ∧
      n + p.length < max c
  | .openNew _ k => s.opened = false ∧ payload k ≤ max c
  | .rename _ k => s.opened = false ∧ payload k ≤ max c
  | .chown _ k => s.opened = false ∧ payload k ≤ max c
  | .create _ k => s.opened = false ∧ payload k ≤ max c
  | .check p => s.opened = true ∧ p.length ≤ max c
  | .write p => s.opened = true ∧ s.size + p.length ≤ max c

/-- The file a pending action is about. -/
def about : MPc → Bytes
  | .remove f | .gzOpen f | .gzCreate f _ | .gzCopy f _ | .gzRemove f => f

/-- The action compresses. -/
def compresses : MPc → Prop
  | .remove _ => False
  | _ => True

/-- Not yet begun. -/
def Pending : MPc → Prop
  | .remove _ | .gzOpen _ => True
  | _ => False

structure WInv (c : Cfg) (s : St) : Prop where
  opened : s.opened = true → ∃ d, s.fs.load (filename c) = some d ∧ s.size = d.length
  pc : PcOk c s s.pc
  names : ∀ m ∈ s.mill, Backupish c (about m) ∧ (compresses m → ¬ gzSuffix <:+ about m)
  pending : ∀ m ∈ s.mill.tail, Pending m
  bound : (Spec.logFile c s.fs).length ≤ max c

/-- The writer's file is the same. -/
structure SameFile (c : Cfg) (s s' : St) : Prop where
  fs : s'.fs.load (filename c) = s.fs.load (filename c)
  opened : s'.opened = s.opened
  size : s'.size = s.size
  pc : s'.pc = s.pc

theorem WInv.same {c : Cfg} {s s' : St} (h : WInv c s) (e : SameFile c s s')
    (hn : ∀ m ∈ s'.mill, Backupish c (about m) ∧ (compresses m → ¬ gzSuffix <:+ about m))
    (hp : ∀ m ∈ s'.mill.tail, Pending m) : WInv c s' where
  opened := by rw [e.opened, e.fs, e.size]; exact h.opened
  pc := by
    have := h.pc
    rw [e.pc]
    cases hpc : s.pc <;> rw [hpc] at this <;> simp only [PcOk] at this ⊢ <;>
      simpa only [e.opened, e.fs, e.size] using this
  names := hn
  pending := hp
  bound := by
    have := h.bound
    simp only [Spec.logFile] at this ⊢
    have e1 := e.fs
    simp only [filename] at e1
    rw [e1]; exact this

/-- The writer moves on, the rest is the same. -/
theorem WInv.goto {c : Cfg} {s : St} (h : WInv c s) {o : Bool} {n : Nat} {pc : Pc} {sig : Bool}
    (ho : o = true → ∃ d, s.fs.load (filename c) = some d ∧ n = d.length)
    (hpc : PcOk c { s with opened := o, size := n, pc := pc, signal := sig } pc) :
    WInv c { s with opened := o, size := n, pc := pc, signal := sig } where
  opened := ho
  pc := hpc
  names := h.names
  pending := h.pending
  bound := h.bound

/-- The log file gets other contents. -/
theorem WInv.gotoFs {c : Cfg} {s : St} (h : WInv c s) {fs : AMap Bytes Bytes} {o : Bool} {n : Nat}
    {pc : Pc} {sig : Bool} (hb : ((fs.load (filename c)).getD []).length ≤ max c)
    (ho : o = true → ∃ d, fs.load (filename c) = some d ∧ n = d.length)
    (hpc : PcOk c { s with fs := fs, opened := o, size := n, pc := pc, signal := sig } pc) :
    WInv c { s with fs := fs, opened := o, size := n, pc := pc, signal := sig } where
  opened := ho
  pc := hpc
  names := h.names
  pending := h.pending
  bound := hb

theorem goOn_ok {c : Cfg} {k : Cont} (hk : payload k ≤ max c) {s : St} (ho : s.opened = true)
    (hs : s.size = 0) : PcOk c s (goOn k) := by
  cases k <;> simp only [goOn, PcOk, payload] at hk ⊢
  · exact ⟨ho, hk⟩
  · exact ⟨ho, by omega⟩

theorem restart_W {c : Cfg} {fs : AMap Bytes Bytes} (hb : ((fs.load (filename c)).getD []).length ≤ max c) :
    WInv c (restart fs) where
  opened := nofun
  pc := trivial
  names := nofun
  pending := nofun
  bound := hb

theorem appended_load (c : Cfg) (fs : AMap Bytes Bytes) (p : Bytes) (n : Nat) :
    (appended c fs p n).load (filename c) = some ((fs.load (filename c)).getD [] ++ p.take n) := by
  simp [appended]

theorem act_W {c : Cfg} (hpl : Spec.PlainNames c) {s : St} (h : WInv c s) {m : MPc} {rest : List MPc}
    (hm : s.mill = m :: rest) (ok : Bool) (junk : Option Bytes) :
    WInv c (act c s m rest ok junk).1 := by
  have hn := h.names
  have hp := h.pending
  rw [hm] at hn hp
  simp only [List.tail_cons] at hp
  have hrest : ∀ m' ∈ rest, Backupish c (about m') ∧ (compresses m' → ¬ gzSuffix <:+ about m') :=
    fun m' h' => hn m' (.tail _ h')
  have hrp : ∀ m' ∈ rest.tail, Pending m' := fun m' h' => hp m' (List.mem_of_mem_tail h')
  have hb := (hn m (.head _)).1
  have h1 := backupish_ne hpl hb
  have h2 := backupish_gz_ne hpl hb
  cases m with
  | remove f =>
    simp only [act, about] at *
    split
    · exact h.same ⟨by simp only [AMap.load_erase, if_neg h1], rfl, rfl, rfl⟩ hrest hrp
    · exact h.same ⟨rfl, rfl, rfl, rfl⟩ hrest hrp
  | gzOpen f =>
    simp only [act, about] at *
    split
    · exact h.same ⟨rfl, rfl, rfl, rfl⟩
        (fun m' h' => by
          rcases List.mem_cons.1 h' with rfl | h'
          · exact hn _ (.head _)
          · exact hrest _ h') hp
    · exact h.same ⟨rfl, rfl, rfl, rfl⟩ hrest hrp
  | gzCreate f d =>
    simp only [act, about] at *
    have e : (match junk with | some j => s.fs.store (gzName f) j | none => s.fs).load (filename c)
        = s.fs.load (filename c) := by
      cases junk with
      | none => rfl
      | some j => simp only [AMap.load_store_ne _ _ h2]
    split
    · exact h.same ⟨e, rfl, rfl, rfl⟩
        (fun m' h' => by
          rcases List.mem_cons.1 h' with rfl | h'
          · exact hn _ (.head _)
          · exact hrest _ h') hp
    · exact h.same ⟨e, rfl, rfl, rfl⟩ hrest hrp
  | gzCopy f d =>
    simp only [act, about] at *
    split
    · exact h.same ⟨by simp only [AMap.load_store_ne _ _ h2], rfl, rfl, rfl⟩
        (fun m' h' => by
          rcases List.mem_cons.1 h' with rfl | h'
          · exact hn _ (.head _)
          · exact hrest _ h') hp
    · exact h.same ⟨by simp only [AMap.load_erase, if_neg h2], rfl, rfl, rfl⟩ hrest hrp
  | gzRemove f =>
    simp only [act, about] at *
    split
    · exact h.same ⟨by simp only [AMap.load_erase, if_neg h1], rfl, rfl, rfl⟩ hrest hrp
    · exact h.same ⟨by simp only [AMap.load_erase, if_neg h2], rfl, rfl, rfl⟩ hrest hrp

theorem actions_names {c : Cfg} {now : Nat} {names : List Bytes} {l files : List (Bytes × Nat)}
    (hl : oldFiles c names = some l) (hf : files.Perm l) :
    ∀ m ∈ actions c now files, Backupish c (about m) ∧ (compresses m → ¬ gzSuffix <:+ about m) := by
  have hmem : ∀ f ∈ files, Backupish c f.1 := fun f h' =>
    timeOf_backupish ((mem_oldFiles hl f.1 f.2).1 (hf.mem_iff.1 h')).2
  intro m hm
  rcases List.mem_append.1 hm with h1 | h1
  · obtain ⟨f, hf', rfl⟩ := List.mem_map.1 h1
    exact ⟨hmem f ((choose_mem f).2 (.inl hf')), nofun⟩
  · obtain ⟨f, hf', rfl⟩ := List.mem_map.1 h1
    unfold toCompress at hf'
    split at hf'
    · obtain ⟨h2, h3⟩ := List.mem_filter.1 hf'
      refine ⟨hmem f ((choose_mem f).2 (.inr h2)), fun _ h4 => ?_⟩
      simp only [about] at h4
      simp [List.isSuffixOf_iff_suffix.2 h4] at h3
    · cases hf'

theorem actions_pending {c : Cfg} {now : Nat} {files : List (Bytes × Nat)} :
    ∀ m ∈ actions c now files, Pending m := by
  intro m hm
  rcases List.mem_append.1 hm with h1 | h1 <;> obtain ⟨f, -, rfl⟩ := List.mem_map.1 h1 <;> trivial

theorem length_logFile {c : Cfg} {s : St} (h : WInv c s) : ((s.fs.load (filename c)).getD []).length ≤ max c :=
  h.bound

/-- Every step keeps the invariant. -/
theorem step_W {c : Cfg} (hpl : Spec.PlainNames c) {s s' : St} {op : Op} {ev : List Event} (h : WInv c s)
    (hs : step c s op = some (s', ev)) : WInv c s' := by
  have hpc := h.pc
  cases op with
  | callWrite p =>
    simp only [step] at hs
    split at hs
    · simp only [callWrite] at hs
      split at hs
      · cases hs; exact h
      · rename_i hlen
        split at hs
        · rename_i ho
          cases hs; exact h.goto h.opened ⟨ho, by omega⟩
        · rename_i ho
          cases hs; exact h.goto h.opened ⟨by simpa using ho, by omega⟩
    · cases hs
  | callRotate ok =>
    simp only [step] at hs
    split at hs
    · split at hs
      · cases hs; exact h.goto nofun ⟨rfl, Nat.zero_le _⟩
      · rename_i hi _; cases hs; exact h.goto nofun (hi ▸ trivial)
    · cases hs
  | callClose =>
    simp only [step] at hs
    split at hs
    · rename_i hi; cases hs; exact h.goto nofun (hi ▸ trivial)
    · cases hs
  | stat ok =>
    simp only [step] at hs
    split at hs
    · rename_i p hp
      rw [hp] at hpc
      simp only [statExisting] at hs
      split at hs
      · cases hs; exact h.goto h.opened trivial
      · cases hs; exact h.goto h.opened ⟨hpc.1, hpc.2⟩
      · rename_i d hd
        split at hs
        · cases hs; exact h.goto h.opened ⟨hpc.1, hpc.2⟩
        · cases hs; exact h.goto h.opened ⟨hpc.1, ⟨d, hd, rfl⟩, by omega⟩
    · cases hs
  | append ok =>
    simp only [step] at hs
    split at hs
    · rename_i p n hp
      rw [hp] at hpc
      obtain ⟨h1, h2, h3⟩ := hpc
      split at hs
      · cases hs; exact h.goto (fun _ => h2) ⟨rfl, by omega⟩
      · cases hs; exact h.goto h.opened ⟨h1, by simp only [payload]; omega⟩
    · cases hs
  | mkdirFails =>
    simp only [step] at hs
    split at hs
    · cases hs; exact h.goto h.opened trivial
    · cases hs
  | statNew ok =>
    simp only [step] at hs
    split at hs
    · rename_i m k hp
      rw [hp] at hpc
      split at hs <;> cases hs <;> exact h.goto h.opened hpc
    · cases hs
  | rename t ok =>
    simp only [step] at hs
    split at hs
    · rename_i m k hp
      rw [hp] at hpc
      simp only [moveAside] at hs
      split at hs
      · cases hs
        have e : ∀ d, (((s.fs.erase (filename c)).store (backupName c t) d).load (filename c)) = none := by
          intro d; rw [AMap.load_store_ne _ _ (backupish_ne hpl (backupish_backupName c t)), AMap.load_erase, if_pos rfl]
        exact h.gotoFs (by rw [e]; exact Nat.zero_le _) (by rw [hpc.1]; nofun) hpc
      · cases hs; exact h.goto h.opened trivial
    · cases hs
  | chown ok created =>
    simp only [step] at hs
    split at hs
    · rename_i m k hp
      rw [hp] at hpc
      have hb : (((if ok || created then s.fs.store (filename c) [] else s.fs).load (filename c)).getD []).length
          ≤ max c := by
        split
        · simp
        · exact length_logFile h
      simp only [chownNew] at hs
      split at hs
      · cases hs; exact h.gotoFs hb (by rw [hpc.1]; nofun) hpc
      · cases hs; exact h.gotoFs hb (by rw [hpc.1]; nofun) trivial
    · cases hs
  | create ok =>
    simp only [step] at hs
    split at hs
    · rename_i m k hp
      rw [hp] at hpc
      simp only [createNew] at hs
      split at hs
      · cases hs
        exact h.gotoFs (by simp) (fun _ => ⟨[], by simp, rfl⟩) (goOn_ok hpc.2 rfl rfl)
      · cases hs; exact h.goto h.opened trivial
    · cases hs
  | check ok =>
    simp only [step] at hs
    split at hs
    · rename_i p hp
      rw [hp] at hpc
      simp only [checkSize] at hs
      split at hs
      · split at hs
        · cases hs; exact h.goto nofun ⟨rfl, hpc.2⟩
        · cases hs; exact h.goto nofun trivial
      · cases hs; exact h.goto h.opened ⟨hpc.1, by simp only; omega⟩
    · cases hs
  | write n =>
    simp only [step] at hs
    split at hs
    · rename_i p hp
      rw [hp] at hpc
      obtain ⟨d, hd, hsz⟩ := h.opened hpc.1
      have hw := hpc.2
      split at hs
      · rename_i hn
        cases hs
        refine h.gotoFs ?_ (fun _ => ⟨d ++ p.take n, by rw [appended_load, hd]; rfl, ?_⟩) trivial
        · rw [appended_load, hd]; simp; omega
        · simp; omega
      · cases hs
    · cases hs
  | wake now files =>
    simp only [step] at hs
    split at hs
    · split at hs
      · cases hs; exact h.goto h.opened hpc
      · split at hs
        · cases hs; exact restart_W (length_logFile h)
        · rename_i l hl
          split at hs
          · rename_i hf
            cases hs
            simp only [Bool.and_eq_true, List.isPerm_iff] at hf
            exact h.same ⟨rfl, rfl, rfl, rfl⟩ (actions_names hl hf.1)
              (fun m hm => actions_pending m (List.mem_of_mem_tail hm))
          · cases hs
    · cases hs
  | act ok junk =>
    simp only [step] at hs
    split at hs
    · rename_i m rest hm
      have := congrArg Prod.fst (Option.some.inj hs)
      simp only at this
      rw [← this]; exact act_W hpl h hm ok junk
    · cases hs
  | crash n =>
    simp only [step] at hs
    split at hs
    · rename_i p hp
      rw [hp] at hpc
      obtain ⟨d, hd, hsz⟩ := h.opened hpc.1
      have hw := hpc.2
      split at hs
      · cases hs
        exact restart_W (by rw [appended_load, hd]; simp; omega)
      · cases hs
    · split at hs
      · cases hs; exact restart_W (length_logFile h)
      · cases hs

/-! ## The invariant of the data -/

/-- The contents are stored, or the clean-up removed them. -/
def Kept (c : Cfg) (fs : AMap Bytes Bytes) (evs : List Event) (b d : Bytes) : Prop :=
  fs.load b = some d ∨ (fs.load b = none ∧ fs.load (gzName b) = some (c.gz d)) ∨
    .removed b ∈ evs ∨ .removed (gzName b) ∈ evs

/-- What the compression under way has read and written. -/
def HeadOk (c : Cfg) (fs : AMap Bytes Bytes) : List MPc → Prop
  | .gzCreate f d :: _ => fs.load f = some d
  | .gzCopy f d :: _ => fs.load f = some d
  | .gzRemove f :: _ => ∃ d, fs.load f = some d ∧ fs.load (gzName f) = some (c.gz d)
  | _ => True

/-- Before the log file is truncated it is missing or empty. -/
def TruncOk (c : Cfg) (fs : AMap Bytes Bytes) : Pc → Prop
  | .chown _ _ => (fs.load (filename c)).getD [] = []
  | .create _ _ => (fs.load (filename c)).getD [] = []
  | _ => True

structure PInv (c : Cfg) (fs0 : AMap Bytes Bytes) (evs : List Event) (s : St) : Prop where
  trunc : TruncOk c s.fs s.pc
  head : HeadOk c s.fs s.mill
  names : ∀ b ∈ Spec.movedTo evs, ∃ t, b = backupName c t
  parts : ∃ parts : List Bytes, parts.length = (Spec.movedTo evs).length ∧
    parts.flatten ++ Spec.logFile c s.fs = Spec.logFile c fs0 ++ Spec.logged evs ∧
    (∀ p ∈ (Spec.movedTo evs).zip parts, Kept c s.fs evs p.1 p.2) ∧
    ∀ part ∈ parts, part.length ≤ max c

theorem headOk_congr {c : Cfg} {fs fs' : AMap Bytes Bytes} {mill : List MPc}
    (h : HeadOk c fs mill)
    (e : ∀ m, mill.head? = some m → fs'.load (about m) = fs.load (about m) ∧
      fs'.load (gzName (about m)) = fs.load (gzName (about m))) : HeadOk c fs' mill := by
  cases mill with
  | nil => trivial
  | cons m rest =>
    have := e m rfl
    cases m <;> simp only [HeadOk, about] at * <;> simp only [this.1, this.2, h]

theorem pending_headOk {c : Cfg} {fs : AMap Bytes Bytes} {mill : List MPc} (h : ∀ m ∈ mill, Pending m) :
    HeadOk c fs mill := by
  cases mill with
  | nil => trivial
  | cons m rest =>
    have := h m (.head _)
    cases m <;> first | trivial | exact this.elim

theorem Kept.mono {c : Cfg} {fs fs' : AMap Bytes Bytes} {evs ev : List Event} {b d : Bytes}
    (h : Kept c fs evs b d) (e1 : fs'.load b = fs.load b)
    (e2 : fs'.load (gzName b) = fs.load (gzName b)) : Kept c fs' (evs ++ ev) b d := by
  rcases h with h | ⟨h, h'⟩ | h | h
  · exact .inl (e1.trans h)
  · exact .inr (.inl ⟨e1.trans h, e2.trans h'⟩)
  · exact .inr (.inr (.inl (List.mem_append_left _ h)))
  · exact .inr (.inr (.inr (List.mem_append_left _ h)))

/-- A step that changes no file but the log file, and adds to it what is logged. -/
theorem PInv.writes {c : Cfg} (hpl : Spec.PlainNames c) {fs0 : AMap Bytes Bytes} {evs ev : List Event} {s s' : St}
    (h : PInv c fs0 evs s) (hw : WInv c s) (hm : s'.mill = s.mill ∨ ∀ m ∈ s'.mill, Pending m)
    (hev : Spec.movedTo ev = []) (hfs : ∀ f, f ≠ filename c → s'.fs.load f = s.fs.load f)
    (hlog : Spec.logFile c s'.fs = Spec.logFile c s.fs ++ Spec.logged ev)
    (ht : TruncOk c s'.fs s'.pc) : PInv c fs0 (evs ++ ev) s' where
  trunc := ht
  head := by
    rcases hm with hm | hm
    · rw [hm]
      refine headOk_congr h.head fun m hh => ?_
      have hb := (hw.names m (List.mem_of_mem_head? hh)).1
      exact ⟨hfs _ (backupish_ne hpl hb), hfs _ (backupish_gz_ne hpl hb)⟩
    · exact pending_headOk hm
  names := by rw [movedTo_append, hev, List.append_nil]; exact h.names
  parts := by
    obtain ⟨parts, h1, h2, h3, h4⟩ := h.parts
    refine ⟨parts, ?_, ?_, ?_, h4⟩
    · rw [movedTo_append, hev, List.append_nil]; exact h1
    · rw [hlog, logged_append, ← List.append_assoc, h2, List.append_assoc]
    · rw [movedTo_append, hev, List.append_nil]
      intro p hp
      obtain ⟨t, ht⟩ := h.names p.1 (List.of_mem_zip hp).1
      have hb : Backupish c p.1 := ht ▸ backupish_backupName c t
      exact (h3 p hp).mono (hfs _ (backupish_ne hpl hb)) (hfs _ (backupish_gz_ne hpl hb))

theorem logged_failed (k : Cont) : Spec.logged (failed k) = [] := by
  cases k <;> simp [failed, Spec.logged]

theorem movedTo_failed (k : Cont) : Spec.movedTo (failed k) = [] := by
  cases k <;> simp [failed, Spec.movedTo]

/-- The log file is moved aside. -/
theorem moveAside_P {c : Cfg} (hpl : Spec.PlainNames c) {fs0 : AMap Bytes Bytes} {evs : List Event} {s : St}
    {m : Bool} {k : Cont} {t : Nat} (h : PInv c fs0 evs s) (hw : WInv c s) {d : Bytes}
    (hd : s.fs.load (filename c) = some d)
    (hf : Spec.NamesFresh (evs ++ [.moved (backupName c t) (s.fs.load (backupName c t)).isSome])) :
    PInv c fs0 (evs ++ [.moved (backupName c t) (s.fs.load (backupName c t)).isSome])
      { s with fs := (s.fs.erase (filename c)).store (backupName c t) d, pc := .chown m k } := by
  have hmv : Spec.movedTo (evs ++ [.moved (backupName c t) (s.fs.load (backupName c t)).isSome])
      = Spec.movedTo evs ++ [backupName c t] := by rw [movedTo_append]; rfl
  have hnone : s.fs.load (backupName c t) = none := by
    have := hf.1 (backupName c t)
    cases hl : s.fs.load (backupName c t) with
    | none => rfl
    | some x => rw [hl] at this; exact absurd (by simp) this
  have hbn := backupish_backupName c t
  have hold : ∀ f, f ≠ filename c → f ≠ backupName c t →
      ((s.fs.erase (filename c)).store (backupName c t) d).load f = s.fs.load f := by
    intro f h1 h2
    rw [AMap.load_store_ne _ _ h2.symm, AMap.load_erase, if_neg (fun e => h1 e.symm)]
  have hcur : ((s.fs.erase (filename c)).store (backupName c t) d).load (filename c) = none := by
    rw [AMap.load_store_ne _ _ (backupish_ne hpl hbn), AMap.load_erase, if_pos rfl]
  have hnew : ((s.fs.erase (filename c)).store (backupName c t) d).load (backupName c t) = some d :=
    AMap.load_store_self _ _ _
  have hnd := hf.2
  rw [hmv, List.nodup_append] at hnd
  refine ⟨?_, ?_, ?_, ?_⟩
  · simp only [TruncOk]; rw [hcur]; rfl
  · have hh := h.head
    have hn := hw.names
    show HeadOk c ((s.fs.erase (filename c)).store (backupName c t) d) s.mill
    have hex : ∀ f x, f ≠ filename c → s.fs.load f = some x →
        ((s.fs.erase (filename c)).store (backupName c t) d).load f = some x := by
      intro f x h1 h2
      rw [hold f h1 (by rintro rfl; rw [hnone] at h2; cases h2), h2]
    cases hml : s.mill with
    | nil => trivial
    | cons m' rest =>
      rw [hml] at hh hn
      have hb := (hn m' (.head _)).1
      have b1 := backupish_ne hpl hb
      have b2 := backupish_gz_ne hpl hb
      cases m' <;> simp only [HeadOk, about] at *
      · exact hex _ _ b1 hh
      · exact hex _ _ b1 hh
      · obtain ⟨x, h1, h2⟩ := hh
        exact ⟨x, hex _ _ b1 h1, hex _ _ b2 h2⟩
  · rw [hmv]
    intro b hb
    rcases List.mem_append.1 hb with hb | hb
    · exact h.names b hb
    · exact ⟨t, List.mem_singleton.1 hb⟩
  · obtain ⟨parts, h1, h2, h3, h4⟩ := h.parts
    refine ⟨parts ++ [d], ?_, ?_, ?_, ?_⟩
    · rw [hmv]; simp [h1]
    · have e1 : Spec.logFile c ((s.fs.erase (filename c)).store (backupName c t) d) = [] := by
        show (((s.fs.erase (filename c)).store (backupName c t) d).load (filename c)).getD [] = []
        rw [hcur]; rfl
      have e2 : Spec.logFile c s.fs = d := by
        show (s.fs.load (filename c)).getD [] = d
        rw [hd]; rfl
      rw [e2] at h2
      simp only [e1, logged_append, Spec.logged]
      simp [h2]
    · rw [hmv, List.zip_append h1.symm]
      intro p hp
      rcases List.mem_append.1 hp with hp | hp
      · obtain ⟨t', ht'⟩ := h.names p.1 (List.of_mem_zip hp).1
        have hb : Backupish c p.1 := ht' ▸ backupish_backupName c t'
        have hne : p.1 ≠ backupName c t := hnd.2.2 p.1 (List.of_mem_zip hp).1 _ (by simp)
        exact (h3 p hp).mono (hold _ (backupish_ne hpl hb) hne)
          (hold _ (backupish_gz_ne hpl hb) (ht' ▸ gz_ne_backup hpl t' t))
      · simp only [List.zip_cons_cons, List.zip_nil_left, List.mem_singleton] at hp
        subst hp
        exact .inl hnew
    · intro part hp
      rcases List.mem_append.1 hp with hp | hp
      · exact h4 part hp
      · rw [List.mem_singleton.1 hp]
        have := length_logFile hw
        rw [hd] at this; exact this

/-- A step of the background goroutine that changes only the file `f`, which is no loss to any file moved
aside. -/
theorem PInv.background {c : Cfg} {fs0 : AMap Bytes Bytes} {evs ev : List Event} {s s' : St}
    (h : PInv c fs0 evs s) (hm : HeadOk c s'.fs s'.mill)
    (hev : Spec.movedTo ev = []) (hlog : Spec.logged ev = [])
    (hcur : s'.fs.load (filename c) = s.fs.load (filename c)) (hpc : s'.pc = s.pc)
    (hk : ∀ t d, Kept c s.fs evs (backupName c t) d → Kept c s'.fs (evs ++ ev) (backupName c t) d) :
    PInv c fs0 (evs ++ ev) s' where
  trunc := by
    have := h.trunc
    rw [hpc]
    cases hp : s.pc <;> rw [hp] at this <;> simp only [TruncOk] at this ⊢ <;> rw [hcur] <;> exact this
  head := hm
  names := by rw [movedTo_append, hev, List.append_nil]; exact h.names
  parts := by
    obtain ⟨parts, h1, h2, h3, h4⟩ := h.parts
    refine ⟨parts, ?_, ?_, ?_, h4⟩
    · rw [movedTo_append, hev, List.append_nil]; exact h1
    · rw [logged_append, hlog, List.append_nil, ← h2]
      show _ ++ (s'.fs.load (filename c)).getD [] = _
      rw [hcur]; rfl
    · rw [movedTo_append, hev, List.append_nil]
      intro p hp
      obtain ⟨t, ht⟩ := h.names p.1 (List.of_mem_zip hp).1
      have := h3 p hp
      rw [ht] at this ⊢
      exact hk t _ this

theorem act_P {c : Cfg} (hpl : Spec.PlainNames c) {fs0 : AMap Bytes Bytes} {evs : List Event} {s : St}
    (h : PInv c fs0 evs s) (hw : WInv c s) {m : MPc} {rest : List MPc} (hm : s.mill = m :: rest) (ok : Bool)
    (junk : Option Bytes) :
    PInv c fs0 (evs ++ (act c s m rest ok junk).2) (act c s m rest ok junk).1 := by
  have hn := hw.names
  have hp := hw.pending
  have hh := h.head
  rw [hm] at hn hp hh
  simp only [List.tail_cons] at hp
  have hb := (hn m (.head _)).1
  have hc := (hn m (.head _)).2
  have h1 := backupish_ne hpl hb
  have h2 := backupish_gz_ne hpl hb
  have hrest : ∀ fs, HeadOk c fs rest := fun fs => pending_headOk hp
  have same : ∀ mill', HeadOk c s.fs mill' →
      PInv c fs0 (evs ++ []) { s with mill := mill' } := fun mill' hm' =>
    h.background hm' rfl rfl rfl rfl fun t d hk => hk.mono rfl rfl
  -- a change of the compressed file of a file that is there
  have gzChange : ∀ f (x : Bytes) (fs' : AMap Bytes Bytes) mill', Backupish c f → ¬ gzSuffix <:+ f →
      s.fs.load f = some x → (∀ g, g ≠ gzName f → fs'.load g = s.fs.load g) → HeadOk c fs' mill' →
      PInv c fs0 (evs ++ []) { s with fs := fs', mill := mill' } := by
    intro f x fs' mill' hbf hcf hx hfs' hm'
    refine h.background hm' rfl rfl (hfs' _ (backupish_gz_ne hpl hbf).symm) rfl fun t d hk => ?_
    have e1 : fs'.load (backupName c t) = s.fs.load (backupName c t) :=
      hfs' _ (compressed_ne_backup hpl hbf hcf t).symm
    by_cases hft : f = backupName c t
    · subst hft
      rcases hk with hk | ⟨hk, -⟩ | hk | hk
      · exact .inl (e1.trans hk)
      · rw [hx] at hk; cases hk
      · exact .inr (.inr (.inl (List.mem_append_left _ hk)))
      · exact .inr (.inr (.inr (List.mem_append_left _ hk)))
    · exact hk.mono e1 (hfs' _ (fun e => hft (gzName_inj e).symm))
  cases m with
  | remove f =>
    simp only [act, about] at *
    split
    · refine h.background (hrest _) rfl rfl (by simp only [AMap.load_erase, if_neg h1]) rfl
        fun t d hk => ?_
      by_cases e1 : f = backupName c t
      · exact .inr (.inr (.inl (by simp [e1])))
      · by_cases e2 : f = gzName (backupName c t)
        · exact .inr (.inr (.inr (by simp [e2])))
        · exact hk.mono (by simp only [AMap.load_erase, if_neg e1])
            (by simp only [AMap.load_erase, if_neg e2])
    · exact same rest (hrest _)
  | gzOpen f =>
    simp only [act, about] at *
    split
    · rename_i d hd; exact same _ hd
    · exact same rest (hrest _)
  | gzCreate f d =>
    simp only [act, about] at *
    have hfs : ∀ g, g ≠ gzName f →
        (match junk with | some j => s.fs.store (gzName f) j | none => s.fs).load g = s.fs.load g := by
      intro g hg
      cases junk with
      | none => rfl
      | some j => exact AMap.load_store_ne _ _ hg.symm
    split
    · exact gzChange f d _ _ hb (hc trivial) hh hfs ((hfs f (by simp [gzName, gzSuffix])).trans hh)
    · exact gzChange f d _ _ hb (hc trivial) hh hfs (hrest _)
  | gzCopy f d =>
    simp only [act, about] at *
    split
    · refine gzChange f d _ _ hb (hc trivial) hh (fun g hg => AMap.load_store_ne _ _ hg.symm)
        ⟨d, ?_, AMap.load_store_self _ _ _⟩
      rw [AMap.load_store_ne _ _ (by simp [gzName, gzSuffix])]; exact hh
    · exact gzChange f d _ _ hb (hc trivial) hh
        (fun g hg => by rw [AMap.load_erase, if_neg hg.symm]) (hrest _)
  | gzRemove f =>
    simp only [act, about] at *
    obtain ⟨x, hx1, hx2⟩ := hh
    split
    · refine h.background (hrest _) rfl rfl (by simp only [AMap.load_erase, if_neg h1]) rfl
        fun t d hk => ?_
      by_cases e1 : f = backupName c t
      · subst e1
        rcases hk with hk | ⟨hk, -⟩ | hk | hk
        · rw [hx1] at hk; cases hk
          refine .inr (.inl ⟨by simp only [AMap.load_erase, if_pos], ?_⟩)
          simp only [AMap.load_erase]
          rw [if_neg (by simp [gzName, gzSuffix])]; exact hx2
        · rw [hx1] at hk; cases hk
        · exact .inr (.inr (.inl (List.mem_append_left _ hk)))
        · exact .inr (.inr (.inr (List.mem_append_left _ hk)))
      · have e2 : f ≠ gzName (backupName c t) := fun e => hc trivial ⟨_, e.symm⟩
        exact hk.mono (by simp only [AMap.load_erase, if_neg e1])
            (by simp only [AMap.load_erase, if_neg e2])
    · exact gzChange f x _ _ hb (hc trivial) hx1
        (fun g hg => by rw [AMap.load_erase, if_neg hg.symm]) (hrest _)

/-- Every step keeps the invariant, unless `stat` fails before the log file is truncated. -/
theorem step_P {c : Cfg} (hpl : Spec.PlainNames c) {fs0 : AMap Bytes Bytes} {evs ev : List Event} {s s' : St}
    {op : Op} (h : PInv c fs0 evs s) (hw : WInv c s) (hop : op ≠ .statNew false)
    (hs : step c s op = some (s', ev)) (hf : Spec.NamesFresh (evs ++ ev)) : PInv c fs0 (evs ++ ev) s' := by
  have ht := h.trunc
  have hpc := hw.pc
  have same : ∀ {s' : St} {ev : List Event}, s'.fs = s.fs → s'.mill = s.mill → Spec.movedTo ev = [] →
      Spec.logged ev = [] → TruncOk c s'.fs s'.pc → PInv c fs0 (evs ++ ev) s' := by
    intro s' ev e1 e2 e3 e4 e5
    exact h.writes hpl hw (.inl e2) e3 (fun f _ => by rw [e1]) (by rw [e1, e4, List.append_nil]) e5
  have hstore : ∀ (d : Bytes) f, f ≠ filename c → (s.fs.store (filename c) d).load f = s.fs.load f :=
    fun d f hne => AMap.load_store_ne _ _ hne.symm
  cases op with
  | callWrite p =>
    simp only [step] at hs
    split at hs
    · rename_i hi
      simp only [callWrite] at hs
      split at hs
      · cases hs; exact same rfl rfl rfl (by simp [Spec.logged]) ht
      · split at hs <;> cases hs <;> exact same rfl rfl rfl rfl trivial
    · cases hs
  | callRotate ok =>
    simp only [step] at hs
    split at hs
    · rename_i hi
      split at hs
      · cases hs; exact same rfl rfl rfl rfl trivial
      · cases hs; exact same rfl rfl rfl rfl ht
    · cases hs
  | callClose =>
    simp only [step] at hs
    split at hs
    · cases hs; exact same rfl rfl rfl rfl ht
    · cases hs
  | stat ok =>
    simp only [step] at hs
    split at hs
    · simp only [statExisting] at hs
      split at hs
      · cases hs; exact same rfl rfl rfl (by simp [Spec.logged]) trivial
      · cases hs; exact same rfl rfl rfl rfl trivial
      · split at hs <;> cases hs <;> exact same rfl rfl rfl rfl trivial
    · cases hs
  | append ok =>
    simp only [step] at hs
    split at hs
    · split at hs <;> cases hs <;> exact same rfl rfl rfl rfl trivial
    · cases hs
  | mkdirFails =>
    simp only [step] at hs
    split at hs
    · cases hs; exact same rfl rfl (movedTo_failed _) (logged_failed _) trivial
    · cases hs
  | statNew ok =>
    cases ok with
    | false => exact absurd rfl hop
    | true =>
      simp only [step, Bool.true_and] at hs
      split at hs
      · split at hs
        · cases hs; exact same rfl rfl rfl rfl trivial
        · rename_i hx
          cases hs
          refine same rfl rfl rfl rfl ?_
          simp only [TruncOk]
          cases hl : s.fs.load (filename c) with
          | none => rfl
          | some d => rw [hl] at hx; exact absurd rfl hx
      · cases hs
  | rename t ok =>
    simp only [step] at hs
    split at hs
    · simp only [moveAside] at hs
      split at hs
      · rename_i d hd
        cases hs
        exact moveAside_P hpl h hw hd hf
      · cases hs; exact same rfl rfl (movedTo_failed _) (logged_failed _) trivial
    · cases hs
  | chown ok created =>
    simp only [step] at hs
    split at hs
    · rename_i m k hp
      rw [hp] at ht
      simp only [TruncOk] at ht
      have hempty : ((if ok || created then s.fs.store (filename c) [] else s.fs).load (filename c)).getD [] = [] := by
        split
        · simp
        · exact ht
      have hfs : ∀ f, f ≠ filename c →
          (if ok || created then s.fs.store (filename c) [] else s.fs).load f = s.fs.load f := by
        intro f hne
        split
        · exact hstore _ f hne
        · rfl
      simp only [chownNew] at hs
      split at hs
      · cases hs
        refine h.writes hpl hw (.inl rfl) rfl hfs ?_ hempty
        simp only [Spec.logFile, Spec.logged, List.append_nil]
        exact hempty.trans ht.symm
      · cases hs
        refine h.writes hpl hw (.inl rfl) (movedTo_failed _) hfs ?_ trivial
        simp only [Spec.logFile, logged_failed, List.append_nil]
        exact hempty.trans ht.symm
    · cases hs
  | create ok =>
    simp only [step] at hs
    split at hs
    · rename_i m k hp
      rw [hp] at ht
      simp only [TruncOk] at ht
      simp only [createNew] at hs
      split at hs
      · cases hs
        refine h.writes hpl hw (.inl rfl) rfl (hstore _) ?_ (by cases k <;> trivial)
        simp only [Spec.logFile, Spec.logged, List.append_nil]
        show ((s.fs.store (filename c) []).load (filename c)).getD [] = _
        rw [AMap.load_store_self]; exact ht.symm
      · cases hs; exact same rfl rfl (movedTo_failed _) (logged_failed _) trivial
    · cases hs
  | check ok =>
    simp only [step] at hs
    split at hs
    · simp only [checkSize] at hs
      split at hs
      · split at hs <;> cases hs
        · exact same rfl rfl rfl rfl trivial
        · exact same rfl rfl rfl (by simp [Spec.logged]) trivial
      · cases hs; exact same rfl rfl rfl rfl trivial
    · cases hs
  | write n =>
    simp only [step] at hs
    split at hs
    · split at hs
      · cases hs
        refine h.writes hpl hw (.inl rfl) rfl (hstore _) ?_ trivial
        simp only [Spec.logged, List.append_nil]
        show ((appended c s.fs _ n).load (filename c)).getD [] = _
        rw [appended_load]; rfl
      · cases hs
    · cases hs
  | wake now files =>
    simp only [step] at hs
    split at hs
    · split at hs
      · cases hs; exact same rfl rfl rfl rfl ht
      · split at hs
        · cases hs
          exact h.writes hpl hw (.inr nofun) rfl (fun _ _ => rfl) (by simp [restart, Spec.logged]) trivial
        · split at hs
          · cases hs
            exact h.writes hpl hw (.inr actions_pending) rfl (fun _ _ => rfl)
              (by simp [Spec.logged]) ht
          · cases hs
    · cases hs
  | act ok junk =>
    simp only [step] at hs
    split at hs
    · rename_i m rest hm
      have e := Option.some.inj hs
      have e1 := congrArg Prod.fst e
      have e2 := congrArg Prod.snd e
      simp only at e1 e2
      rw [← e1, ← e2]; exact act_P hpl h hw hm ok junk
    · cases hs
  | crash n =>
    simp only [step] at hs
    split at hs
    · split at hs
      · cases hs
        refine h.writes hpl hw (.inr nofun) rfl (hstore _) ?_ trivial
        simp only [Spec.logged, List.append_nil]
        show ((appended c s.fs _ n).load (filename c)).getD [] = _
        rw [appended_load]; rfl
      · cases hs
    · split at hs
      · cases hs
        exact h.writes hpl hw (.inr nofun) rfl (fun _ _ => rfl) (by simp [restart, Spec.logged]) trivial
      · cases hs

/-! ## Nothing is lost -/

theorem NamesFresh.left {a b : List Event} (h : Spec.NamesFresh (a ++ b)) : Spec.NamesFresh a := by
  refine ⟨fun x hx => h.1 x (List.mem_append_left _ hx), ?_⟩
  have := h.2
  rw [movedTo_append, List.nodup_append] at this
  exact this.1

theorem run_logInv {c : Cfg} (hpl : Spec.PlainNames c) {fs0 : AMap Bytes Bytes} {ops : List Op} :
    ∀ {s s' : St} {evs ev : List Event}, WInv c s → run c s ops = some (s', ev) →
      WInv c s' ∧ (PInv c fs0 evs s → .statNew false ∉ ops → Spec.NamesFresh (evs ++ ev) →
        PInv c fs0 (evs ++ ev) s') := by
  induction ops with
  | nil =>
    intro s s' evs ev hw hr
    cases hr
    exact ⟨hw, fun h _ _ => by rw [List.append_nil]; exact h⟩
  | cons op ops ih =>
    intro s s' evs ev hw hr
    simp only [run] at hr
    split at hr
    · cases hr
    · rename_i s1 ev1 hs
      split at hr
      · cases hr
      · rename_i s2 ev2 hr2
        cases hr
        have hw1 := step_W hpl hw hs
        obtain ⟨h1, h2⟩ := ih (evs := evs ++ ev1) hw1 hr2
        refine ⟨h1, fun h hop hf => ?_⟩
        rw [← List.append_assoc] at hf ⊢
        exact h2 (step_P hpl h hw (fun e => hop (e ▸ .head _)) hs (NamesFresh.left hf))
          (fun h' => hop (.tail _ h')) hf

/-- **C66.** Start with any directory whose log file is no larger than the maximum, and let the program
write and rotate, the background goroutine remove and compress, any system calls fail (except a `stat`
before the log file is truncated) and the process die at any point, any number of times. If no file moved
aside was given a name used before, then what was written is, completely and in order, in the files moved
aside followed by the log file. Each file moved aside is there, plain or compressed, unless the clean-up
removed it, and none is larger than the maximum. -/
theorem log_complete {c : Cfg} (hpl : Spec.PlainNames c) {fs : AMap Bytes Bytes}
    (hmax : (Spec.logFile c fs).length ≤ Spec.limit c) {ops : List Op} {s : St} {evs : List Event}
    (hstat : .statNew false ∉ ops) (hrun : run c (restart fs) ops = some (s, evs))
    (hfresh : Spec.NamesFresh evs) :
    ∃ parts : List Bytes, parts.length = (Spec.movedTo evs).length ∧
      parts.flatten ++ Spec.logFile c s.fs = Spec.logFile c fs ++ Spec.logged evs ∧
      (∀ p ∈ (Spec.movedTo evs).zip parts, Spec.Stored c s.fs p.1 p.2 ∨
        .removed p.1 ∈ evs ∨ .removed (p.1 ++ b!".gz") ∈ evs) ∧
      ∀ part ∈ parts, part.length ≤ Spec.limit c := by
  rw [← max_eq] at hmax ⊢
  have h0 : PInv c fs [] (restart fs) :=
    ⟨trivial, trivial, nofun, [], rfl, by simp [restart, Spec.logged], by simp [Spec.movedTo], nofun⟩
  have h := (run_logInv hpl (fs0 := fs) (evs := []) (restart_W hmax) hrun).2 h0 hstat hfresh
  obtain ⟨parts, h1, h2, h3, h4⟩ := h.parts
  refine ⟨parts, h1, h2, fun p hp => ?_, h4⟩
  rcases h3 p hp with h | ⟨-, h⟩ | h | h
  · exact .inl (.inl h)
  · exact .inl (.inr h)
  · exact .inr (.inl h)
  · exact .inr (.inr h)

/-- **C66.** The log file never grows beyond the maximum. -/
theorem log_bounded {c : Cfg} (hpl : Spec.PlainNames c) {fs : AMap Bytes Bytes}
    (hmax : (Spec.logFile c fs).length ≤ Spec.limit c) {ops : List Op} {s : St} {evs : List Event}
    (hrun : run c (restart fs) ops = some (s, evs)) : (Spec.logFile c s.fs).length ≤ Spec.limit c := by
  rw [← max_eq] at hmax ⊢
  exact (run_logInv hpl (fs0 := fs) (evs := []) (restart_W hmax) hrun).1.bound

/-- **C66.** A write larger than the maximum is refused and changes nothing. -/
theorem oversize_refused {c : Cfg} {s s' : St} {p : Bytes} {ev : List Event} (hp : Spec.limit c < p.length)
    (hs : step c s (.callWrite p) = some (s', ev)) : s' = s ∧ ev = [.wrote p 0] := by
  rw [← max_eq] at hp
  simp only [step, callWrite, if_pos hp] at hs
  split at hs
  · cases hs; exact ⟨rfl, rfl⟩
  · cases hs

/-- **C66.** A write that fits into the log file is appended to it, without a rotation. -/
theorem write_fits {c : Cfg} {s : St} {p : Bytes} (hpc : s.pc = .idle) (ho : s.opened = true)
    (hfit : s.size + p.length ≤ Spec.limit c) (ok : Bool) :
    ∃ s', run c s [.callWrite p, .check ok, .write p.length] = some (s', [.wrote p p.length]) ∧
      s'.pc = .idle ∧ Spec.logFile c s'.fs = Spec.logFile c s.fs ++ p ∧
      ∀ f, f ≠ c.stem ++ c.ext → s'.fs.load f = s.fs.load f := by
  rw [← max_eq] at hfit
  refine ⟨{ s with fs := appended c s.fs p p.length, size := s.size + p.length, pc := .idle }, ?_, rfl, ?_, ?_⟩
  · simp only [run, step, callWrite, hpc, ho, checkSize, if_true]
    rw [if_neg (show ¬ max c < p.length by omega)]
    simp only [if_neg (show ¬ max c < s.size + p.length by omega), Nat.le_refl, if_true]
    simp
  · show ((appended c s.fs p p.length).load (filename c)).getD [] = _
    rw [appended_load]; simp; rfl
  · intro f hf; exact AMap.load_store_ne _ _ (fun e => hf e.symm)

/-- **C66.** A write that does not fit any more moves the log file aside first and begins a new one. -/
theorem write_rotates {c : Cfg} (hpl : Spec.PlainNames c) {s : St} {p d : Bytes} (hpc : s.pc = .idle)
    (ho : s.opened = true) (hd : s.fs.load (c.stem ++ c.ext) = some d)
    (hfull : Spec.limit c < s.size + p.length) (hp : p.length ≤ Spec.limit c) (t : Nat) :
    ∃ s' clobbered, run c s [.callWrite p, .check true, .statNew true, .rename t true, .chown true false,
        .create true, .write p.length] =
        some (s', [.moved (c.stem ++ b!"-" ++ c.stamp t ++ c.ext) clobbered, .wrote p p.length]) ∧
      s'.pc = .idle ∧ Spec.logFile c s'.fs = p ∧
      s'.fs.load (c.stem ++ b!"-" ++ c.stamp t ++ c.ext) = some d := by
  rw [← max_eq] at hfull hp
  have hd' : s.fs.load (filename c) = some d := hd
  let fs1 := ((((s.fs.erase (filename c)).store (backupName c t) d).store (filename c) []).store (filename c) [])
  refine ⟨⟨appended c fs1 p p.length, true, 0 + p.length, .idle, s.signal || true, s.mill⟩, (s.fs.load (backupName c t)).isSome, ?_, rfl, ?_, ?_⟩
  · simp only [run, step, callWrite, hpc, ho, checkSize, if_true, if_neg (show ¬ max c < p.length by omega),
      if_pos hfull, hd', Option.isSome_some, Bool.and_self, moveAside, chownNew, Bool.true_or, createNew,
      goOn, Nat.le_refl]
    rfl
  · show ((appended c fs1 p p.length).load (filename c)).getD [] = _
    rw [appended_load]; simp [fs1]
  · show (appended c fs1 p p.length).load (backupName c t) = some d
    have hne := backupish_ne hpl (backupish_backupName c t)
    simp only [appended, fs1, AMap.load_store_ne _ _ hne.symm, AMap.load_store_self]

/-! ## The clean-up -/

theorem base_eq (f : Bytes) : base f = Spec.original f := by
  unfold base Spec.original
  simp only [List.isSuffixOf_iff_suffix]; rfl

theorem slice_mid (a b d : Bytes) :
    ((a ++ b ++ d).take ((a ++ b ++ d).length - d.length)).drop a.length = b := by
  rw [show (a ++ b ++ d).length - d.length = (a ++ b).length by simp; omega]
  rw [List.take_left, List.drop_left]

theorem timeFromName_iff {c : Cfg} {f ext : Bytes} {t : Nat} (hnp : timeFromName c f ext ≠ .panic) :
    timeFromName c f ext = .time t ↔ ∃ ts, f = namePrefix c ++ ts ++ ext ∧ c.parse ts = some t := by
  constructor
  · intro h
    obtain ⟨⟨r, h1⟩, ⟨q, h2⟩⟩ := timeFromName_time h
    have hpre : (namePrefix c).isPrefixOf f = true := List.isPrefixOf_iff_prefix.2 ⟨r, h1⟩
    have hsuf : ext.isSuffixOf f = true := List.isSuffixOf_iff_suffix.2 ⟨q, h2⟩
    simp only [timeFromName, hpre, hsuf, not_true, if_false] at h
    split at h
    · cases h
    · rename_i hlen
      have hr : ext <:+ r := by
        have : ext <:+ namePrefix c ++ r := ⟨q, by rw [h2, h1]⟩
        refine List.suffix_of_suffix_length_le this (List.suffix_append _ _) ?_
        have := congrArg List.length h1
        simp at this; omega
      obtain ⟨ts, rfl⟩ := hr
      subst h1
      rw [← List.append_assoc, slice_mid] at h
      split at h
      · rename_i t' ht; cases h; exact ⟨ts, by simp, ht⟩
      · cases h
  · rintro ⟨ts, rfl, ht⟩
    have hpre : (namePrefix c).isPrefixOf (namePrefix c ++ ts ++ ext) = true :=
      List.isPrefixOf_iff_prefix.2 ⟨ts ++ ext, by simp⟩
    have hsuf : ext.isSuffixOf (namePrefix c ++ ts ++ ext) = true :=
      List.isSuffixOf_iff_suffix.2 ⟨_, rfl⟩
    simp only [timeFromName, hpre, hsuf, not_true, if_false, slice_mid]
    rw [if_neg (by simp), ht]

/-- The names with a time are those of files moved aside, if no text with a dot is a time. -/
theorem timeOf_iff {c : Cfg} (hpl : Spec.PlainNames c) (hdot : ∀ ts, (46 : UInt8) ∈ ts → c.parse ts = none)
    {f : Bytes} {t : Nat} (hnp : timeOf c f ≠ .panic) : timeOf c f = .time t ↔ Spec.IsBackup c f t := by
  have e : Spec.IsBackup c f t ↔ (∃ ts, f = namePrefix c ++ ts ++ c.ext ∧ c.parse ts = some t) ∨
      ∃ ts, f = namePrefix c ++ ts ++ (c.ext ++ gzSuffix) ∧ c.parse ts = some t := by
    simp only [Spec.IsBackup, namePrefix, gzSuffix, List.append_assoc]
    constructor
    · rintro ⟨ts, h | h, ht⟩
      · exact .inl ⟨ts, h, ht⟩
      · exact .inr ⟨ts, h, ht⟩
    · rintro (⟨ts, h, ht⟩ | ⟨ts, h, ht⟩)
      · exact ⟨ts, .inl h, ht⟩
      · exact ⟨ts, .inr h, ht⟩
  have hex : ∀ ts ts', namePrefix c ++ ts ++ (c.ext ++ gzSuffix) = namePrefix c ++ ts' ++ c.ext →
      (46 : UInt8) ∈ ts' := by
    intro ts ts' h
    simp only [List.append_assoc] at h
    have h := List.append_cancel_left h
    rcases hpl.1 with he | ⟨x, he, hd⟩
    · rw [he] at h; simp at h; rw [← h]; simp [gzSuffix]
    · rw [he, ← List.append_assoc] at h
      have := (last_dot (x := [103, 122]) (by decide) hd h).1
      rw [← this]; simp
  rw [e]
  unfold timeOf at hnp ⊢
  cases h1 : timeFromName c f c.ext with
  | panic => rw [h1] at hnp; exact absurd rfl hnp
  | error =>
    rw [h1] at hnp
    simp only at hnp ⊢
    rw [timeFromName_iff hnp]
    refine ⟨.inr, ?_⟩
    rintro (h | h)
    · rw [(timeFromName_iff (by rw [h1]; nofun)).2 h] at h1; cases h1
    · exact h
  | time t' =>
    have h1' := (timeFromName_iff (by rw [h1]; nofun)).1 h1
    simp only
    constructor
    · intro h; cases h; exact .inl h1'
    · rintro (h | ⟨ts, h, -⟩)
      · rw [← h1]; exact (timeFromName_iff (by rw [h1]; nofun)).2 h
      · obtain ⟨ts', h2, h3⟩ := h1'
        rw [hdot ts' (hex ts ts' (h.symm.trans h2))] at h3; cases h3

theorem oldFiles_no_panic {c : Cfg} {names : List Bytes} {l : List (Bytes × Nat)}
    (h : oldFiles c names = some l) : ∀ f ∈ names, timeOf c f ≠ .panic := by
  induction names generalizing l with
  | nil => nofun
  | cons g names ih =>
    intro f hf
    unfold oldFiles at h
    split at h
    · cases h
    · rename_i ht
      obtain ⟨l', hl, -⟩ := Option.map_eq_some_iff.1 h
      rcases List.mem_cons.1 hf with rfl | hf
      · rw [ht]; nofun
      · exact ih hl f hf
    · rename_i ht
      rcases List.mem_cons.1 hf with rfl | hf
      · rw [ht]; nofun
      · exact ih h f hf

/-- What is removed for its number leaves the wanted number of backups at least as new. -/
theorem byCount_removed {n : Nat} {files : List (Bytes × Nat)} :
    ∀ {pre kept : List Bytes}, newestFirst files = true → kept.Nodup →
      (pre.length ≤ n → kept = pre) → (n < pre.length → kept.length = n) →
      ∀ f ∈ (byCount n pre files).1, ∃ l : List Bytes, l.Nodup ∧ l.length = n ∧
        ∀ b ∈ l, b ∈ kept ∨ ∃ g ∈ (byCount n pre files).2, base g.1 = b ∧ f.2 ≤ g.2 := by
  induction files with
  | nil => intro _ _ _ _ _ _ f hf; cases hf
  | cons g files ih =>
    intro pre kept hs hk h1 h2 f hf
    simp only [newestFirst, Bool.and_eq_true, List.all_eq_true, decide_eq_true_eq] at hs
    obtain ⟨hle, hs⟩ := hs
    simp only [byCount] at hf ⊢
    generalize hpre : (if base g.1 ∈ pre then pre else base g.1 :: pre) = pre' at hf ⊢
    by_cases hbig : n < pre'.length
    · simp only [gt_iff_lt, if_pos hbig] at hf ⊢
      have hkl : kept.length = n := by
        by_cases hp : n < pre.length
        · exact h2 hp
        · rw [h1 (by omega)]
          rw [← hpre] at hbig
          split at hbig
          · omega
          · simp at hbig; omega
      rcases List.mem_cons.1 hf with rfl | hf
      · exact ⟨kept, hk, hkl, fun b hb => .inl hb⟩
      · exact ih hs hk (fun h => by omega) (fun _ => hkl) f hf
    · simp only [gt_iff_lt, if_neg hbig] at hf ⊢
      have hple : pre.length ≤ n := by
        rw [← hpre] at hbig
        split at hbig
        · omega
        · simp at hbig; omega
      have hkp := h1 hple
      have hnd : pre'.Nodup := by
        rw [← hpre]
        split
        · exact hkp ▸ hk
        · rename_i hni; exact List.nodup_cons.2 ⟨hni, hkp ▸ hk⟩
      obtain ⟨l, hl1, hl2, hl3⟩ := ih (pre := pre') (kept := pre') hs hnd (fun _ => rfl)
        (fun h => absurd h hbig) f hf
      refine ⟨l, hl1, hl2, fun b hb => ?_⟩
      rcases hl3 b hb with h | ⟨x, hx1, hx2⟩
      · have : b ∈ pre ∨ b = base g.1 := by
          rw [← hpre] at h
          split at h
          · exact .inl h
          · rcases List.mem_cons.1 h with h | h
            · exact .inr h
            · exact .inl h
        rcases this with h | h
        · exact .inl (hkp ▸ h)
        · exact .inr ⟨g, .head _, h.symm, hle f ((byCount_mem f).2 (.inl hf))⟩
      · exact .inr ⟨x, .tail _ hx1, hx2⟩

theorem byCount_kept {n : Nat} {files : List (Bytes × Nat)} :
    ∀ {pre : List Bytes}, (n < pre.length → (byCount n pre files).2 = []) ∧
      (pre.length ≤ n → ∃ m : List Bytes, m.length ≤ n ∧ (∀ b ∈ pre, b ∈ m) ∧
        ∀ g ∈ (byCount n pre files).2, base g.1 ∈ m) := by
  induction files with
  | nil => intro pre; exact ⟨fun _ => rfl, fun h => ⟨pre, h, fun _ h => h, nofun⟩⟩
  | cons g files ih =>
    intro pre
    simp only [byCount]
    have hsub : ∀ b ∈ pre, b ∈ (if base g.1 ∈ pre then pre else base g.1 :: pre) := by
      intro b hb; split
      · exact hb
      · exact .tail _ hb
    have hg : base g.1 ∈ (if base g.1 ∈ pre then pre else base g.1 :: pre) := by
      split
      · assumption
      · exact .head _
    have hlen : pre.length ≤ (if base g.1 ∈ pre then pre else base g.1 :: pre).length := by
      split <;> simp
    generalize hpre : (if base g.1 ∈ pre then pre else base g.1 :: pre) = pre' at hsub hg hlen ⊢
    by_cases hbig : n < pre'.length
    · simp only [gt_iff_lt, if_pos hbig]
      have e := (ih (pre := pre')).1 hbig
      exact ⟨fun _ => e, fun h => ⟨pre, h, fun _ h => h, by rw [e]; nofun⟩⟩
    · simp only [gt_iff_lt, if_neg hbig]
      refine ⟨fun h => by omega, fun _ => ?_⟩
      obtain ⟨m, h1, h2, h3⟩ := (ih (pre := pre')).2 (by omega)
      refine ⟨m, h1, fun b hb => h2 b (hsub b hb), fun x hx => ?_⟩
      rcases List.mem_cons.1 hx with rfl | hx
      · exact h2 _ hg
      · exact h3 x hx

theorem byCount_perm {n : Nat} {files : List (Bytes × Nat)} :
    ∀ {pre : List Bytes}, ((byCount n pre files).1 ++ (byCount n pre files).2).Perm files := by
  induction files with
  | nil => intro pre; exact .nil
  | cons g files ih =>
    intro pre
    simp only [byCount]
    generalize (if base g.1 ∈ pre then pre else base g.1 :: pre) = pre'
    split
    · exact (ih (pre := pre')).cons g
    · exact List.perm_middle.trans ((ih (pre := pre')).cons g)

theorem choose_perm {c : Cfg} {now : Nat} {files : List (Bytes × Nat)} :
    ((choose c now files).1 ++ (choose c now files).2).Perm files := by
  have hr : ((counted c files).1 ++ (counted c files).2).Perm files := by
    unfold counted
    split
    · exact byCount_perm
    · exact .refl _
  unfold choose
  split
  · simp only [List.append_assoc]
    refine (List.Perm.append_left _ ?_).trans hr
    have := List.filter_append_perm (tooOld c now) (counted c files).2
    simpa using this
  · exact hr

theorem oldFiles_nodup {c : Cfg} {names : List Bytes} {l : List (Bytes × Nat)} (hn : names.Nodup)
    (h : oldFiles c names = some l) : (l.map Prod.fst).Nodup := by
  induction names generalizing l with
  | nil => cases h; exact .nil
  | cons g names ih =>
    obtain ⟨hg, hn⟩ := List.nodup_cons.1 hn
    unfold oldFiles at h
    split at h
    · cases h
    · obtain ⟨l', hl, rfl⟩ := Option.map_eq_some_iff.1 h
      refine List.nodup_cons.2 ⟨fun hm => hg ?_, ih hn hl⟩
      obtain ⟨⟨f, t⟩, h1, h2⟩ := List.mem_map.1 hm
      simp only at h2
      subst h2
      exact ((mem_oldFiles hl f t).1 h1).1
    · exact ih hn h

theorem counted_removed {c : Cfg} {files : List (Bytes × Nat)} (hs : newestFirst files = true)
    {f : Bytes × Nat} (hf : f ∈ (counted c files).1) :
    0 < c.maxBackups ∧ ∃ l : List Bytes, l.Nodup ∧ l.length = c.maxBackups ∧
      ∀ b ∈ l, ∃ g ∈ (counted c files).2, base g.1 = b ∧ f.2 ≤ g.2 := by
  unfold counted at hf ⊢
  split at hf
  · rename_i hc
    rw [if_pos hc]
    obtain ⟨l, h1, h2, h3⟩ := byCount_removed (kept := []) hs .nil (fun _ => rfl)
      (fun h => absurd h (by simp)) f hf
    refine ⟨hc.1, l, h1, h2, fun b hb => ?_⟩
    rcases h3 b hb with h | h
    · cases h
    · exact h
  · cases hf

/-- What happens to a file chosen for removal. -/
theorem choose_removed {c : Cfg} {now : Nat} {files : List (Bytes × Nat)} (hs : newestFirst files = true)
    {f : Bytes × Nat} (hf : f ∈ (choose c now files).1) :
    (0 < c.maxAge ∧ f.2 + c.maxAge * day < now) ∨
    (0 < c.maxBackups ∧ ∃ l : List Bytes, l.Nodup ∧ l.length = c.maxBackups ∧
      ∀ b ∈ l, ∃ g ∈ (choose c now files).2, base g.1 = b ∧ f.2 ≤ g.2) := by
  by_cases hold : 0 < c.maxAge ∧ f.2 + c.maxAge * day < now
  · exact .inl hold
  · refine .inr ?_
    unfold choose at hf ⊢
    by_cases hage : 0 < c.maxAge
    · have hnot : ∀ g : Bytes × Nat, f.2 ≤ g.2 → ¬ tooOld c now g = true := by
        intro g hg h
        simp only [tooOld, decide_eq_true_eq] at h
        exact hold ⟨hage, by omega⟩
      simp only [if_pos hage] at hf ⊢
      rcases List.mem_append.1 hf with hf | hf
      · obtain ⟨h0, l, h1, h2, h3⟩ := counted_removed hs hf
        refine ⟨h0, l, h1, h2, fun b hb => ?_⟩
        obtain ⟨g, hg, hb, hle⟩ := h3 b hb
        exact ⟨g, List.mem_filter.2 ⟨hg, by simpa using hnot g hle⟩, hb, hle⟩
      · exact absurd (List.mem_filter.1 hf).2 (hnot f (Nat.le_refl _))
    · simp only [if_neg hage] at hf ⊢
      exact counted_removed hs hf

/-- What is kept. -/
theorem choose_kept {c : Cfg} {now : Nat} {files : List (Bytes × Nat)} :
    (0 < c.maxBackups → ∃ m : List Bytes, m.length ≤ c.maxBackups ∧
      ∀ g ∈ (choose c now files).2, base g.1 ∈ m) ∧
    (0 < c.maxAge → ∀ g ∈ (choose c now files).2, now ≤ g.2 + c.maxAge * day) := by
  unfold choose
  refine ⟨fun hb => ?_, fun ha g hg => ?_⟩
  · have key : ∃ m : List Bytes, m.length ≤ c.maxBackups ∧
        ∀ g ∈ (counted c files).2, base g.1 ∈ m := by
      unfold counted
      split
      · obtain ⟨m, h1, -, h3⟩ := (byCount_kept (n := c.maxBackups) (files := files) (pre := [])).2 (by simp)
        exact ⟨m, h1, h3⟩
      · refine ⟨files.map fun g => base g.1, by simp; omega, fun g hg => List.mem_map.2 ⟨g, hg, rfl⟩⟩
    obtain ⟨m, h1, h2⟩ := key
    refine ⟨m, h1, fun g hg => h2 g ?_⟩
    split at hg
    · exact (List.mem_filter.1 hg).1
    · exact hg
  · simp only [if_pos ha] at hg
    have := (List.mem_filter.1 hg).2
    simpa [tooOld] using this

/-- **C66.** When the background goroutine has read the directory, it is about to remove only files moved
aside, by their names, that are older than the maximal age, or such that the wanted number of backups at
least as new stays. Of what stays nothing is older than the maximal age, and there are at most the wanted
number of backups, a file and its compressed form counting as one. The log file itself is never removed. -/
theorem cleanup_choice {c : Cfg} (hpl : Spec.PlainNames c)
    (hdot : ∀ ts, (46 : UInt8) ∈ ts → c.parse ts = none) {s s' : St} (hn : s.fs.NodupKeys) {now : Nat}
    {files : List (Bytes × Nat)} (hs : step c s (.wake now files) = some (s', []))
    (hon : 0 < c.maxBackups ∨ 0 < c.maxAge ∨ c.compress = true) :
    (∀ f, .remove f ∈ s'.mill → f ∈ s.fs.keys ∧ f ≠ c.stem ++ c.ext ∧ ∃ t, Spec.IsBackup c f t ∧
      ((0 < c.maxAge ∧ t + c.maxAge * 86400 < now) ∨
       (0 < c.maxBackups ∧ ∃ l : List Bytes, l.Nodup ∧ l.length = c.maxBackups ∧
          ∀ b ∈ l, ∃ g t', g ∈ s.fs.keys ∧ Spec.IsBackup c g t' ∧ .remove g ∉ s'.mill ∧
            Spec.original g = b ∧ t ≤ t'))) ∧
    (0 < c.maxAge → ∀ f t, f ∈ s.fs.keys → Spec.IsBackup c f t → .remove f ∉ s'.mill →
      now ≤ t + c.maxAge * 86400) ∧
    (0 < c.maxBackups → ∀ l : List Bytes, l.Nodup → (∀ b ∈ l, ∃ g t, g ∈ s.fs.keys ∧
      Spec.IsBackup c g t ∧ .remove g ∉ s'.mill ∧ Spec.original g = b) → l.length ≤ c.maxBackups) := by
  simp only [step] at hs
  split at hs
  · rw [if_neg (by rintro ⟨h1, h2, h3⟩; rw [h3] at hon; rcases hon with h | h | h <;> first | omega | cases h)] at hs
    split at hs
    · cases hs
    · rename_i l hl
      split at hs
      · rename_i hf
        cases hs
        simp only [Bool.and_eq_true, List.isPerm_iff] at hf
        obtain ⟨hperm, hsort⟩ := hf
        have hnp := oldFiles_no_panic hl
        have hmem : ∀ f t, (f, t) ∈ files ↔ f ∈ s.fs.keys ∧ Spec.IsBackup c f t := by
          intro f t
          rw [hperm.mem_iff, mem_oldFiles hl]
          constructor
          · rintro ⟨h1, h2⟩; exact ⟨h1, (timeOf_iff hpl hdot (hnp f h1)).1 h2⟩
          · rintro ⟨h1, h2⟩; exact ⟨h1, (timeOf_iff hpl hdot (hnp f h1)).2 h2⟩
        have hrem : ∀ f, MPc.remove f ∈ actions c now files ↔ ∃ t, (f, t) ∈ (choose c now files).1 := by
          intro f
          simp only [actions, List.mem_append, List.mem_map, MPc.remove.injEq, reduceCtorEq, and_false,
            exists_false, or_false, Prod.exists, exists_eq_right]
          constructor
          · rintro ⟨a, b, h, rfl⟩; exact ⟨b, h⟩
          · rintro ⟨t, h⟩; exact ⟨f, t, h, rfl⟩
        have hdis : ∀ f t, (f, t) ∈ (choose c now files).2 → MPc.remove f ∉ actions c now files := by
          intro f t h1 h2
          obtain ⟨t', h3⟩ := (hrem f).1 h2
          have hnd : (((choose c now files).1 ++ (choose c now files).2).map Prod.fst).Nodup :=
            ((choose_perm.trans hperm).map Prod.fst).nodup_iff.2 (oldFiles_nodup hn hl)
          rw [List.map_append, List.nodup_append] at hnd
          exact hnd.2.2 f (List.mem_map.2 ⟨_, h3, rfl⟩) f (List.mem_map.2 ⟨_, h1, rfl⟩) rfl
        have hkept : ∀ f t, f ∈ s.fs.keys → Spec.IsBackup c f t → MPc.remove f ∉ actions c now files →
            (f, t) ∈ (choose c now files).2 := by
          intro f t h1 h2 h3
          rcases (choose_mem (c := c) (now := now) (f, t)).1 ((hmem f t).2 ⟨h1, h2⟩) with h | h
          · exact absurd ((hrem f).2 ⟨t, h⟩) h3
          · exact h
        refine ⟨fun f hf => ?_, fun ha f t h1 h2 h3 => ?_, fun hb l hnd hl' => ?_⟩
        · obtain ⟨t, ht⟩ := (hrem f).1 hf
          have hft := (hmem f t).1 ((choose_mem (f, t)).2 (.inl ht))
          refine ⟨hft.1, backupish_ne hpl (timeOf_backupish ((timeOf_iff hpl hdot (hnp f hft.1)).2 hft.2)),
            t, hft.2, ?_⟩
          rcases choose_removed hsort ht with h | ⟨h1, l, h2, h3, h4⟩
          · exact .inl h
          · refine .inr ⟨h1, l, h2, h3, fun b hb => ?_⟩
            obtain ⟨⟨g, t'⟩, hg, h5, h6⟩ := h4 b hb
            have hgt := (hmem g t').1 ((choose_mem (g, t')).2 (.inr hg))
            exact ⟨g, t', hgt.1, hgt.2, hdis g t' hg, by rw [← base_eq]; exact h5, h6⟩
        · exact choose_kept.2 ha (f, t) (hkept f t h1 h2 h3)
        · obtain ⟨m, h1, h2⟩ := (choose_kept (c := c) (now := now) (files := files)).1 hb
          refine Nat.le_trans (nodup_length_le hnd fun b hb' => ?_) h1
          obtain ⟨g, t, h3, h4, h5, h6⟩ := hl' b hb'
          rw [← h6, ← base_eq]
          exact h2 _ (hkept g t h3 h4 h5)
      · cases hs
  · cases hs

/-! ## Where the code falls short, and cases that meet the hypotheses -/

/-- `app.log`, with the hour in the names of the files moved aside. -/
def Spec.appLog (maxBackups maxAge : Nat) (compress : Bool) : Cfg where
  stem := b!"app"
  ext := b!".log"
  maxSize := 1
  maxBackups := maxBackups
  maxAge := maxAge
  compress := compress
  stamp := fun t => natDigits (t / 3600)
  parse := fun ts => if (46 : UInt8) ∈ ts then none else
    match parseUint64 ts with
    | .ok h => some (h * 3600)
    | .error _ => none
  gz := fun d => b!"gz:" ++ d

theorem appLog_plain (n m : Nat) (z : Bool) : Spec.PlainNames (Spec.appLog n m z) := by
  refine ⟨.inr ⟨b!"log", rfl, by decide⟩, fun t h => ?_⟩
  have := natDigits_digit _ _ h
  revert this; decide

theorem appLog_dot (n m : Nat) (z : Bool) (ts : Bytes) (h : (46 : UInt8) ∈ ts) :
    (Spec.appLog n m z).parse ts = none := by
  simp only [Spec.appLog, if_pos h]

/-- `Write(p)` with the file not open, as far as the system calls succeed. -/
def Spec.firstWrite (p : Bytes) (n : Nat) : List Op :=
  [.callWrite p, .stat true, .statNew true, .create true, .check true, .write n]

/-- `Write(p)` with the file open. -/
def Spec.nextWrite (p : Bytes) (n : Nat) : List Op := [.callWrite p, .check true, .write n]

/-- `Rotate()` at the time `t`. -/
def Spec.rotateAt (t : Nat) : List Op :=
  [.callRotate true, .statNew true, .rename t true, .chown true false, .create true]

/-- **Violated.** The time in the names of the files moved aside has the precision of an hour. If the log
is rotated twice within an hour (by `Rotate`, or because it is full), the second file moved aside replaces
the first: what `Write` said it had written is in no file any more. -/
theorem same_hour_violated :
    ∃ (ops : List Op) (s : St), .statNew false ∉ ops ∧
      run (Spec.appLog 0 0 false) (restart []) ops = some (s,
        [.wrote b!"one\n" 4, .moved b!"app-2.log" false, .wrote b!"two\n" 4, .moved b!"app-2.log" true]) ∧
      s.fs = [(b!"app-2.log", b!"two\n"), (b!"app.log", [])] := by
  refine ⟨Spec.firstWrite b!"one\n" 4 ++ Spec.rotateAt 7200 ++ Spec.nextWrite b!"two\n" 4 ++
    Spec.rotateAt 7260, ⟨[(b!"app-2.log", b!"two\n"), (b!"app.log", [])], true, 0, .idle, true, []⟩,
    ?_, ?_, rfl⟩
  · decide
  · decide +kernel

/-- **Violated.** The maximal size is documented to default to 100 megabytes; it is 2^50 bytes. -/
theorem default_size_violated (c : Cfg) (h : c.maxSize = 0) : max c = 2 ^ 50 ∧ max c ≠ 100 * 2 ^ 20 := by
  simp [LogFile.max, h, defaultMaxSize, megabyte]

/-- **Violated.** If `stat` fails for another reason than that the log file does not exist, the log file is
truncated: what it held is lost. -/
theorem stat_failure_violated :
    ∃ (ops : List Op) (s : St),
      run (Spec.appLog 0 0 false) (restart []) ops = some (s, [.wrote b!"one\n" 4]) ∧
      s.fs = [(b!"app.log", [])] := by
  refine ⟨Spec.firstWrite b!"one\n" 4 ++ [.callRotate true, .statNew false, .create true],
    ⟨[(b!"app.log", [])], true, 0, .idle, true, []⟩, ?_, rfl⟩
  decide +kernel

/-- **Violated.** A file whose name begins like a backup and ends like one, but is too short to be both,
makes the background goroutine panic, which ends the process: with the log file `a.b.b-c`, a file
`a.b-c` next to it is enough. -/
theorem odd_name_violated :
    ∃ c : Cfg, Spec.PlainNames c ∧ filename c = b!"a.b.b-c" ∧
      ∀ fs : AMap Bytes Bytes, b!"a.b-c" ∈ fs.keys → oldFiles c fs.keys = none := by
  let c : Cfg := { Spec.appLog 3 0 false with stem := b!"a.b", ext := b!".b-c" }
  refine ⟨c, ⟨.inr ⟨b!"b-c", rfl, by decide⟩, (appLog_plain 3 0 false).2⟩, rfl, fun fs h => ?_⟩
  have hp : timeOf c b!"a.b-c" = .panic := by decide +kernel
  cases ho : oldFiles c fs.keys with
  | none => rfl
  | some l => exact absurd hp (oldFiles_no_panic ho _ h)

/-- **Violated.** The names hold local times but are read as UTC: west of Greenwich the files seem older
than they are. Eight hours west, a file moved aside 20 hours ago is removed although files are to be kept
for a day. -/
theorem local_time_violated :
    ∃ (c : Cfg) (s' : St) (now : Nat), Spec.PlainNames c ∧ c.maxAge = 1 ∧
      (∀ t, c.stamp t = natDigits ((t - 8 * 3600) / 3600)) ∧
      step c { fs := [(backupName c (now - 20 * 3600), [])], signal := true }
        (.wake now [(backupName c (now - 20 * 3600), 72 * 3600)]) = some (s', []) ∧
      s'.mill = [.remove (backupName c (now - 20 * 3600))] := by
  let c : Cfg := { Spec.appLog 0 1 false with stamp := fun t => natDigits ((t - 8 * 3600) / 3600) }
  refine ⟨c, ⟨[(b!"app-72.log", [])], false, 0, .idle, false, [.remove b!"app-72.log"]⟩, 100 * 3600,
    ⟨(appLog_plain 0 1 false).1, fun t h => ?_⟩, rfl, fun _ => rfl, ?_, ?_⟩
  · have := natDigits_digit _ _ h
    revert this; decide
  · decide +kernel
  · decide +kernel

/-- A history with two rotations, a compression, a crash in the middle of a write and a new start meets
the hypotheses of `log_complete`. -/
def Spec.history : List Op :=
  Spec.firstWrite b!"one\n" 4 ++ Spec.rotateAt 7200 ++ Spec.nextWrite b!"two\n" 4 ++
  [.wake 7300 [(b!"app-2.log", 7200), (b!"app-1.log", 3600)], .act true none, .callWrite b!"three\n", .act true (some b!"gz"),
   .check true, .act true none, .crash 2,
   .callWrite b!"four\n", .stat true, .append true, .check true, .write 5] ++ Spec.rotateAt 10800

example : .statNew false ∉ Spec.history ∧
    (run (Spec.appLog 0 0 true) (restart [(b!"app-1.log", b!"zero\n")]) Spec.history).map (fun r =>
      (r.2, r.1.fs.load b!"app-2.log", r.1.fs.load b!"app-2.log.gz", r.1.fs.load b!"app-3.log")) =
    some ([.wrote b!"one\n" 4, .moved b!"app-2.log" false, .wrote b!"two\n" 4, .torn b!"three\n" 2,
        .wrote b!"four\n" 5, .moved b!"app-3.log" false],
      some b!"one\n", some b!"gz:one\n", some b!"two\nthfour\n") := by
  refine ⟨by decide, ?_⟩
  decide +kernel

example : Spec.NamesFresh [.wrote b!"one\n" 4, .moved b!"app-2.log" false, .wrote b!"two\n" 4,
    .torn b!"three\n" 2, .wrote b!"four\n" 5, .moved b!"app-3.log" false] :=
  ⟨fun b => by simp, by decide⟩

example : ∃ s', step (Spec.appLog 2 0 false)
    { fs := [(b!"app.log", []), (b!"app-1.log", []), (b!"app-2.log.gz", []), (b!"app-2.log", []),
             (b!"app-3.log", []), (b!"other", [])], signal := true }
    (.wake 9999 [(b!"app-3.log", 10800), (b!"app-2.log.gz", 7200), (b!"app-2.log", 7200), (b!"app-1.log", 3600)])
    = some (s', []) ∧ s'.mill = [.remove b!"app-1.log"] := by
  refine ⟨⟨[(b!"app.log", []), (b!"app-1.log", []), (b!"app-2.log.gz", []), (b!"app-2.log", []),
    (b!"app-3.log", []), (b!"other", [])], false, 0, .idle, false, [.remove b!"app-1.log"]⟩, ?_, rfl⟩
  decide +kernel

end Motan.Props
