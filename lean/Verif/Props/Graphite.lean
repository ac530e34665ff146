import Verif.Model.Graphite
import Verif.Props.Metrics

/-!
# C75: what is recorded is reported to graphite, each metric once, in packets of whole lines
-/

namespace Motan.Props

open Motan.Strings Motan.Metrics Motan.Graphite

/-! ## Specification -/

/-- A line of a report. -/
structure Spec.GLine where
  role : Bytes
  app : Bytes
  group : Bytes
  host : Bytes
  service : Bytes
  item : Bytes
  value : Bytes
  unit : Bytes
deriving DecidableEq

/-- How it is written. -/
def Spec.GLine.text (l : Spec.GLine) : Bytes :=
  l.role ++ b!"." ++ l.app ++ b!"." ++ l.group ++ b!".byhost." ++ l.host ++ b!"." ++ l.service ++ b!"." ++ l.item ++
    b!":" ++ l.value ++ b!"|" ++ l.unit ++ b!"\n"

/-- A metric name has a role, an application and an item. -/
def Spec.Parts (key a b c : Bytes) : Prop := key = a ++ b!":" ++ b ++ b!":" ++ c ∧ (58 : UInt8) ∉ a ∧ (58 : UInt8) ∉ b

/-- The lines that report a metric of a snapshot: a counter's sum, a gauge's last value, a histogram's six percentiles (in
any order) and its mean. -/
inductive Spec.Reports (L : Lib) (ip : Bytes) (sn : Graphite.Snapshot) (key : Bytes) (m : Metric) : List Spec.GLine → Prop
  | counter {a b c : Bytes} (hp : Spec.Parts key a b c) (hk : m.kind = .counter) :
    Spec.Reports L ip sn key m
      [⟨a, b, escape L.runes sn.group ++ sn.groupSuffix, ip, escape L.runes sn.service, c, formatInt m.updates.sum, b!"c"⟩]
  | gauge {a b c : Bytes} {before : List Int} {v : Int} (hp : Spec.Parts key a b c) (hk : m.kind = .gauge)
    (hv : m.updates = before ++ [v] ∨ m.updates = [] ∧ v = 0) :
    Spec.Reports L ip sn key m
      [⟨a, b, escape L.runes sn.group ++ sn.groupSuffix, ip, escape L.runes sn.service, c, formatInt v, b!"kv"⟩]
  | histogram {a b c : Bytes} {ls : List Spec.GLine} (hp : Spec.Parts key a b c) (hk : m.kind = .histogram)
    (hls : ls.Perm (
      ([b!"p50", b!"p75", b!"p95", b!"p99", b!"p999", b!"p9999"].map fun p =>
        ⟨a, b, escape L.runes sn.group ++ sn.groupSuffix, ip, escape L.runes sn.service, c ++ b!"." ++ p,
          L.percentile m.updates p, b!"kv"⟩) ++
      [⟨a, b, escape L.runes sn.group ++ sn.groupSuffix, ip, escape L.runes sn.service, c ++ b!".avg_time",
        L.mean m.updates, b!"ms"⟩])) :
    Spec.Reports L ip sn key m ls

/-- The metrics that are to be reported: those of reporting snapshots whose names have three parts. -/
def Spec.reportable (snaps : List Graphite.Snapshot) : List (Graphite.Snapshot × Bytes × Metric) :=
  (snaps.filter (·.report)).flatMap fun sn => (sn.metrics.filter fun e => 2 ≤ e.1.count 58).map fun e => (sn, e.1, e.2)

/-- A line that can be told from others: no field has a character that ends it, but for the suffix of the group that the
metrics of a cluster have. -/
structure Spec.GLine.Clean (l : Spec.GLine) : Prop where
  role : (46 : UInt8) ∉ l.role
  app : (46 : UInt8) ∉ l.app
  group : ∃ g : Bytes, (46 : UInt8) ∉ g ∧ (l.group = g ∨ l.group = g ++ b!".cluster")
  host : (46 : UInt8) ∉ l.host
  service : (46 : UInt8) ∉ l.service
  item : (58 : UInt8) ∉ l.item
  value : (124 : UInt8) ∉ l.value
  unit : (10 : UInt8) ∉ l.unit
  line : (10 : UInt8) ∉ l.text.dropLast

/-! ## Segments -/

theorem index_colon {a r : Bytes} (ha : (58 : UInt8) ∉ a) : index b!":" (a ++ b!":" ++ r) = some a.length := by
  rw [List.append_assoc, index_append_of_not_mem ha, index_self]
  simp

theorem splitN_cut {a r : Bytes} (ha : (58 : UInt8) ∉ a) (n : Nat) :
    splitN b!":" (n + 2) (a ++ b!":" ++ r) = a :: splitN b!":" (n + 1) r := by
  rw [splitN, index_colon ha]
  simp only
  have h1 : (a ++ b!":" ++ r).take a.length = a := by rw [List.append_assoc, List.take_left]
  have h2 : (a ++ b!":" ++ r).drop (a.length + b!":".length) = r := List.drop_left' (by simp)
  rw [h1, h2]

theorem splitN_parts {key a b c : Bytes} (h : Spec.Parts key a b c) : splitN b!":" 3 key = [a, b, c] := by
  obtain ⟨rfl, ha, hb⟩ := h
  have : a ++ b!":" ++ b ++ b!":" ++ c = a ++ b!":" ++ (b ++ b!":" ++ c) := by simp
  rw [this, splitN_cut ha 1, splitN_cut hb 0, splitN]

theorem parts_exist {key : Bytes} (h : 2 ≤ key.count 58) : ∃ a b c, Spec.Parts key a b c := by
  have cut : ∀ s : Bytes, (58 : UInt8) ∈ s → ∃ a r, s = a ++ 58 :: r ∧ (58 : UInt8) ∉ a := fun s hs =>
    List.eq_append_cons_of_mem hs
  obtain ⟨a, r, rfl, ha⟩ := cut key (List.count_pos_iff.mp (by omega))
  have : 0 < r.count 58 := by
    rw [List.count_append, List.count_cons_self, List.count_eq_zero.mpr ha] at h
    omega
  obtain ⟨b, c, rfl, hb⟩ := cut r (List.count_pos_iff.mp this)
  exact ⟨a, b, c, by simp, ha, hb⟩

theorem splitN_short {key : Bytes} (h : ¬ 2 ≤ key.count 58) : ∀ a b c, splitN b!":" 3 key ≠ [a, b, c] := by
  intro a b c hs
  apply h
  rw [splitN] at hs
  cases h1 : index b!":" key with
  | none => rw [h1] at hs; cases hs
  | some i =>
    rw [h1] at hs
    simp only [List.cons.injEq] at hs
    obtain ⟨-, hs⟩ := hs
    rw [splitN] at hs
    cases h2 : index b!":" (key.drop (i + 1)) with
    | none => rw [List.length_singleton, h2] at hs; cases hs
    | some j =>
      obtain ⟨x, y, e1, l1⟩ := index_spec h1
      obtain ⟨z, w, e2, -⟩ := index_spec h2
      have e3 : key.drop (i + 1) = y := by
        rw [e1, ← l1]; exact List.drop_left' (by simp)
      rw [e3] at e2
      rw [e1, e2]
      simp only [List.count_append]
      have : List.count (58 : UInt8) b!":" = 1 := by decide
      omega

/-- The text for one metric is that of its lines. -/
theorem segment_spec (L : Lib) (ip : Bytes) (sn : Graphite.Snapshot) {order : List Bytes} (ho : order.Perm slas) (key : Bytes)
    (m : Metric) (h : 2 ≤ key.count 58) :
    ∃ ls, Spec.Reports L ip sn key m ls ∧ segment L ip sn order key m = some (ls.flatMap Spec.GLine.text) := by
  obtain ⟨a, b, c, hp⟩ := parts_exist h
  rw [segment, splitN_parts hp]
  simp only
  cases hk : m.kind with
  | counter =>
    refine ⟨_, .counter hp hk, ?_⟩
    simp only [Metric.count, hk, List.flatMap_cons, List.flatMap_nil, List.append_nil]
    rfl
  | gauge =>
    cases hu : m.updates.getLast? with
    | none =>
      refine ⟨_, .gauge (before := []) (v := 0) hp hk (.inr ⟨List.getLast?_eq_none_iff.mp hu, rfl⟩), ?_⟩
      simp only [gaugeValue, hu, Option.getD_none, List.flatMap_cons, List.flatMap_nil, List.append_nil]
      rfl
    | some v =>
      obtain ⟨l, hl⟩ := List.getLast?_eq_some_iff.mp hu
      refine ⟨_, .gauge (before := l) (v := v) hp hk (.inl hl), ?_⟩
      simp only [gaugeValue, hu, Option.getD_some, List.flatMap_cons, List.flatMap_nil, List.append_nil]
      rfl
  | histogram =>
    refine ⟨_, .histogram hp hk (.append_right _ (ho.map _)), ?_⟩
    simp only [List.flatMap_append, List.flatMap_map, List.flatMap_cons, List.flatMap_nil, List.append_nil]
    rfl

theorem segment_short (L : Lib) (ip : Bytes) (sn : Graphite.Snapshot) (order : List Bytes) {key : Bytes} (m : Metric)
    (h : ¬ 2 ≤ key.count 58) : segment L ip sn order key m = none := by
  rw [segment]
  split
  · next e => exact absurd e (splitN_short h _ _ _)
  · rfl

theorem gline_ne_nil (l : Spec.GLine) : l.text ≠ [] := by simp [Spec.GLine.text]

theorem reports_ne_nil {L : Lib} {ip : Bytes} {sn : Graphite.Snapshot} {key : Bytes} {m : Metric} {ls : List Spec.GLine}
    (h : Spec.Reports L ip sn key m ls) : ls ≠ [] := by
  cases h with
  | counter => simp
  | gauge => simp
  | histogram hp hk hls => intro e; subst e; have := hls.length_eq; simp at this

theorem segments_spec (L : Lib) (ip : Bytes) {order : Bytes → List Bytes} (ho : ∀ k, (order k).Perm slas)
    (snaps : List Graphite.Snapshot) :
    ∃ f : Graphite.Snapshot × Bytes × Metric → List Spec.GLine,
      (∀ e, 2 ≤ e.2.1.count 58 → Spec.Reports L ip e.1 e.2.1 e.2.2 (f e)) ∧
      segments L ip order snaps = (Spec.reportable snaps).map fun e => (f e).flatMap Spec.GLine.text := by
  have hex : ∀ e : Graphite.Snapshot × Bytes × Metric, ∃ ls, 2 ≤ e.2.1.count 58 →
      Spec.Reports L ip e.1 e.2.1 e.2.2 ls ∧ segment L ip e.1 (order e.2.1) e.2.1 e.2.2 = some (ls.flatMap Spec.GLine.text) := by
    intro e
    by_cases h : 2 ≤ e.2.1.count 58
    · obtain ⟨ls, h1, h2⟩ := segment_spec L ip e.1 (ho e.2.1) e.2.1 e.2.2 h
      exact ⟨ls, fun _ => ⟨h1, h2⟩⟩
    · exact ⟨[], fun h' => absurd h' h⟩
  refine ⟨fun e => (hex e).choose, fun e he => ((hex e).choose_spec he).1, ?_⟩
  unfold segments Spec.reportable
  induction snaps with
  | nil => rfl
  | cons sn snaps ih =>
    rw [List.flatMap_cons, ih]
    by_cases hr : sn.report = true
    · rw [if_pos hr, List.filter_cons_of_pos hr, List.flatMap_cons, List.map_append, List.map_map]
      congr 1
      induction sn.metrics with
      | nil => rfl
      | cons x xs ihx =>
        by_cases h : 2 ≤ x.1.count 58
        · rw [List.filterMap_cons, ((hex (sn, x.1, x.2)).choose_spec h).2, List.filter_cons_of_pos (by simpa using h), List.map_cons, ihx]
          rfl
        · rw [List.filterMap_cons, segment_short L ip sn _ x.2 h, List.filter_cons_of_neg (by simpa using h), ihx]
    · rw [if_neg hr, List.filter_cons_of_neg hr, List.nil_append]

/-! ## Packets -/

theorem put_spec (segs : List Bytes) (hs : ∀ x ∈ segs, x ≠ []) (msgs : List Bytes) (buf : Bytes) :
    ∃ (g0 : List Bytes) (G : List (List Bytes)),
      (segs.foldl put (msgs, buf)).1 ++ [(segs.foldl put (msgs, buf)).2] =
        msgs ++ (buf ++ g0.flatten) :: G.map List.flatten ∧
      g0 ++ G.flatten = segs ∧
      (g0 = [] ∨ buf.length + g0.flatten.length ≤ 5120 ∨ buf = [] ∧ g0.length = 1) ∧
      ∀ g ∈ G, g.flatten.length ≤ 5120 ∨ g.length = 1 := by
  induction segs generalizing msgs buf with
  | nil => exact ⟨[], [], by simp, rfl, .inl rfl, by simp⟩
  | cons x segs ih =>
    have hx := hs x (by simp)
    have hl : 0 < x.length := List.length_pos_iff.mpr hx
    rw [List.foldl_cons]
    by_cases hf : 0 < buf.length ∧ buf.length + x.length > maxLen
    · rw [put, if_pos hf]
      obtain ⟨g0, G, h1, h2, h3, h4⟩ := ih (fun y hy => hs y (by simp [hy])) (msgs ++ [buf]) x
      refine ⟨[], (x :: g0) :: G, by rw [h1]; simp, by simp [← h2], .inl rfl, ?_⟩
      intro g hg
      rcases List.mem_cons.mp hg with rfl | hg
      · rcases h3 with rfl | h3 | ⟨h3, -⟩
        · exact .inr rfl
        · exact .inl (by simpa using h3)
        · exact absurd h3 hx
      · exact h4 g hg
    · rw [put, if_neg hf]
      obtain ⟨g0, G, h1, h2, h3, h4⟩ := ih (fun y hy => hs y (by simp [hy])) msgs (buf ++ x)
      refine ⟨x :: g0, G, by rw [h1]; simp, by simp [← h2], .inr ?_, h4⟩
      have hm : maxLen = 5120 := rfl
      rcases h3 with rfl | h3 | ⟨h3, -⟩
      · by_cases hb : buf = []
        · exact .inr ⟨hb, rfl⟩
        · have : 0 < buf.length := List.length_pos_iff.mpr hb
          left; simp; omega
      · left; simpa [Nat.add_assoc] using h3
      · simp at h3; exact absurd h3.2 hx

theorem map_flatten_split {α β : Type} (f : α → β) (xs : List α) (G : List (List β)) (h : G.flatten = xs.map f) :
    ∃ E : List (List α), E.flatten = xs ∧ E.map (List.map f) = G := by
  induction G generalizing xs with
  | nil => exact ⟨[], (by cases xs with | nil => rfl | cons => cases h), rfl⟩
  | cons g G ih =>
    rw [List.flatten_cons] at h
    obtain ⟨l, r, rfl, h1, h2⟩ := List.map_eq_append_iff.mp h.symm
    obtain ⟨E, e1, e2⟩ := ih r h2.symm
    exact ⟨l :: E, by simp [e1], by simp [h1, e2]⟩

/-- **C75 (the report).** The packets of a report are those of the reportable metrics, cut into runs: each metric is in
one packet, with all its lines, once. A packet has at most 5120 bytes, unless one metric alone has more. -/
theorem graphite_report (L : Lib) (ip : Bytes) {order : Bytes → List Bytes} (ho : ∀ k, (order k).Perm slas)
    (snaps : List Graphite.Snapshot) :
    ∃ (f : Graphite.Snapshot × Bytes × Metric → List Spec.GLine) (groups : List (List (Graphite.Snapshot × Bytes × Metric))),
      (∀ e ∈ Spec.reportable snaps, Spec.Reports L ip e.1 e.2.1 e.2.2 (f e)) ∧
      groups.flatten = Spec.reportable snaps ∧
      genMessages L ip order snaps = groups.map (fun g => (g.flatMap f).flatMap Spec.GLine.text) ∧
      ∀ g ∈ groups, ((g.flatMap f).flatMap Spec.GLine.text).length ≤ 5120 ∨ g.length = 1 := by
  obtain ⟨f, h1, h2⟩ := segments_spec L ip ho snaps
  have hr : ∀ e ∈ Spec.reportable snaps, 2 ≤ e.2.1.count 58 := by
    intro e he
    simp only [Spec.reportable, List.mem_flatMap, List.mem_map, List.mem_filter] at he
    obtain ⟨sn, -, x, ⟨-, hx⟩, rfl⟩ := he
    simpa using hx
  have hs : ∀ x ∈ segments L ip order snaps, x ≠ [] := by
    rw [h2]
    intro x hx
    obtain ⟨e, he, rfl⟩ := List.mem_map.mp hx
    intro e0
    have := reports_ne_nil (h1 e (hr e he))
    cases hfe : f e with
    | nil => exact this hfe
    | cons l ls =>
      rw [hfe, List.flatMap_cons] at e0
      exact gline_ne_nil l (List.append_eq_nil_iff.mp e0).1
  obtain ⟨g0, G, p1, p2, p3, p4⟩ := put_spec (segments L ip order snaps) hs [] []
  have hfl : (g0 :: G).flatten = (Spec.reportable snaps).map fun e => (f e).flatMap Spec.GLine.text := by
    rw [← h2, ← p2]; rfl
  obtain ⟨E, e1, e2⟩ := map_flatten_split _ _ _ hfl
  have ht : ∀ g : List (Graphite.Snapshot × Bytes × Metric), (g.flatMap f).flatMap Spec.GLine.text =
      (g.map fun e => (f e).flatMap Spec.GLine.text).flatten := by
    intro g
    rw [List.flatMap_assoc, List.flatMap_def]
  refine ⟨f, E, fun e he => h1 e (hr e he), e1, ?_, ?_⟩
  · unfold genMessages
    simp only
    rw [p1, List.nil_append, List.nil_append]
    have : E.map (fun g => (g.flatMap f).flatMap Spec.GLine.text) = (g0 :: G).map List.flatten := by
      rw [← e2, List.map_map]
      exact List.map_congr_left fun g _ => ht g
    rw [this]; rfl
  · intro g hg
    have hm : (g.map fun e => (f e).flatMap Spec.GLine.text) ∈ g0 :: G := by
      rw [← e2]; exact List.mem_map_of_mem hg
    rw [ht]
    have hlen : g.length = (g.map fun e => (f e).flatMap Spec.GLine.text).length := by simp
    rw [hlen]
    rcases List.mem_cons.mp hm with e | hm
    · rw [e]
      rcases p3 with rfl | p3 | ⟨-, p3⟩
      · left; simp
      · left; simpa using p3
      · exact .inr p3
    · exact p4 _ hm

/-! ## Reading a report -/

theorem text_read {l l' : Spec.GLine} (h : l.Clean) (h' : l'.Clean) {r r' : Bytes} (e : l.text ++ r = l'.text ++ r') :
    l = l' ∧ r = r' := by
  obtain ⟨a1, a2, a3, a4, a5, a6, a7, a8⟩ := l
  obtain ⟨b1, b2, b3, b4, b5, b6, b7, b8⟩ := l'
  simp only [Spec.GLine.text, List.append_assoc, List.cons_append, List.nil_append] at e
  obtain ⟨e1, f1⟩ := append_sep_inj e h.role h'.role
  obtain ⟨e2, f2⟩ := append_sep_inj f1 h.app h'.app
  have h3 : ∃ x x' : Bytes, a3 = b3 ∧ a4 ++ 46 :: x = b4 ++ 46 :: x' ∧ a5 ++ (46 :: (a6 ++ (58 :: (a7 ++ (124 :: (a8 ++ (10 :: r))))))) = x ∧
      b5 ++ (46 :: (b6 ++ (58 :: (b7 ++ (124 :: (b8 ++ (10 :: r'))))))) = x' := by
    obtain ⟨g, hg, h1⟩ := h.group
    obtain ⟨g', hg', h2⟩ := h'.group
    simp only at h1 h2
    rcases h1 with rfl | rfl <;> rcases h2 with rfl | rfl <;>
      (try simp only [List.append_assoc, List.cons_append, List.nil_append] at f2) <;>
      obtain ⟨e3, f3⟩ := append_sep_inj f2 hg hg' <;>
      simp only [List.cons.injEq, true_and] at f3
    · exact ⟨_, _, e3, f3, rfl, rfl⟩
    · exact absurd f3.1 (by decide)
    · exact absurd f3.1 (by decide)
    · exact ⟨_, _, by rw [e3], f3, rfl, rfl⟩
  obtain ⟨x, x', e3, f3, rfl, rfl⟩ := h3
  obtain ⟨e4, f4⟩ := append_sep_inj f3 h.host h'.host
  obtain ⟨e5, f5⟩ := append_sep_inj f4 h.service h'.service
  obtain ⟨e6, f6⟩ := append_sep_inj f5 h.item h'.item
  obtain ⟨e7, f7⟩ := append_sep_inj f6 h.value h'.value
  obtain ⟨e8, f8⟩ := append_sep_inj f7 h.unit h'.unit
  rw [e1, e2, e3, e4, e5, e6, e7, e8]
  exact ⟨rfl, f8⟩

/-- **C75 (the report can be read).** From the text of a packet its lines can be told, with all their fields; each line
ends where a newline is, and has no other. -/
theorem graphite_readable {ls ls' : List Spec.GLine} (h : ∀ l ∈ ls, l.Clean) (h' : ∀ l ∈ ls', l.Clean)
    (e : ls.flatMap Spec.GLine.text = ls'.flatMap Spec.GLine.text) : ls = ls' := by
  induction ls generalizing ls' with
  | nil =>
    cases ls' with
    | nil => rfl
    | cons l' ls' => rw [List.flatMap_cons] at e; exact absurd (List.append_eq_nil_iff.mp e.symm).1 (gline_ne_nil l')
  | cons l ls ih =>
    cases ls' with
    | nil => rw [List.flatMap_cons] at e; exact absurd (List.append_eq_nil_iff.mp e).1 (gline_ne_nil l)
    | cons l' ls' =>
      rw [List.flatMap_cons, List.flatMap_cons] at e
      obtain ⟨e1, e2⟩ := text_read (h l (by simp)) (h' l' (by simp)) e
      rw [e1, ih (fun x hx => h x (by simp [hx])) (fun x hx => h' x (by simp [hx])) e2]

theorem escape_plain (runes) (s : Bytes) : ∀ b ∈ Metrics.escape runes s, b ≠ 46 ∧ b ≠ 58 ∧ b ≠ 10 := by
  intro b hb
  refine ⟨(escape_chars runes s b hb).1, (escape_chars runes s b hb).2, ?_⟩
  obtain ⟨c, _, rfl⟩ := List.mem_map.mp hb
  split
  · rename_i h
    have hc : (97 ≤ c.toNat ∧ c.toNat ≤ 122) ∨ (65 ≤ c.toNat ∧ c.toNat ≤ 90) ∨ (48 ≤ c.toNat ∧ c.toNat ≤ 57) ∨ c.toNat = 45 := by
      simp only [Metrics.kept, Bool.or_eq_true, Bool.and_eq_true, decide_eq_true_eq, beq_iff_eq, UInt32.le_iff_toNat_le,
        ← UInt32.toNat_inj] at h
      simpa [or_assoc] using h
    intro e; have := congrArg UInt8.toNat e; rw [UInt32.toNat_toUInt8] at this
    simp only [UInt8.reduceToNat] at this; omega
  · decide

/-- The library prints numbers. -/
structure Spec.PlainLib (L : Lib) : Prop where
  percentile : ∀ l p, (124 : UInt8) ∉ L.percentile l p ∧ (10 : UInt8) ∉ L.percentile l p
  mean : ∀ l, (124 : UInt8) ∉ L.mean l ∧ (10 : UInt8) ∉ L.mean l

/-- An event with three names: role, application and item (as the filters and the samplers record them); the suffix
of the item has no separators of the report. -/
structure Spec.ThreeNames (e : Event) (r a i : Bytes) : Prop where
  keys : e.keys = [r, a, i]
  suffix : (58 : UInt8) ∉ e.keySuffix ∧ (10 : UInt8) ∉ e.keySuffix
  groupSuffix : e.groupSuffix = [] ∨ e.groupSuffix = b!".cluster"

theorem three_parts {runes} {e : Event} {r a i : Bytes} (h : Spec.ThreeNames e r a i) :
    Spec.Parts (metricKey runes e) (escape runes r) (escape runes a) (escape runes i ++ e.keySuffix) := by
  refine ⟨?_, fun hm => (escape_chars runes r 58 hm).2 rfl, fun hm => (escape_chars runes a 58 hm).2 rfl⟩
  rw [metricKey, h.keys]
  simp [join]

theorem parts_unique {key a b c a' b' c' : Bytes} (h : Spec.Parts key a b c) (h' : Spec.Parts key a' b' c') :
    a = a' ∧ b = b' ∧ c = c' := by
  have := (splitN_parts h).symm.trans (splitN_parts h')
  simpa using this

theorem formatInt_chars (n : Int) : (124 : UInt8) ∉ formatInt n ∧ (10 : UInt8) ∉ formatInt n ∧ (58 : UInt8) ∉ formatInt n :=
  ⟨not_mem_formatInt n (by decide) (by decide), not_mem_formatInt n (by decide) (by decide), not_mem_formatInt n (by decide) (by decide)⟩

/-- **C75 (the lines are well formed).** The lines of a metric that was recorded under three names are clean, whatever
the names, the group and the service. -/
theorem graphite_clean {L : Lib} (hL : Spec.PlainLib L) {ip : Bytes} (hip : (46 : UInt8) ∉ ip ∧ (10 : UInt8) ∉ ip) {e : Event}
    {r a i : Bytes} (he : Spec.ThreeNames e r a i) {sn : Graphite.Snapshot} (hs : sn.groupSuffix = e.groupSuffix) {m : Metric}
    {ls : List Spec.GLine} (h : Spec.Reports L ip sn (metricKey L.runes e) m ls) : ∀ l ∈ ls, l.Clean := by
  have hp := three_parts (runes := L.runes) he
  have esc : ∀ s, (46 : UInt8) ∉ escape L.runes s ∧ (58 : UInt8) ∉ escape L.runes s ∧ (10 : UInt8) ∉ escape L.runes s := fun s =>
    ⟨fun h => (escape_plain L.runes s _ h).1 rfl, fun h => (escape_plain L.runes s _ h).2.1 rfl,
      fun h => (escape_plain L.runes s _ h).2.2 rfl⟩
  have key : ∀ (extra value unit : Bytes), (58 : UInt8) ∉ extra → (10 : UInt8) ∉ extra → (124 : UInt8) ∉ value → (10 : UInt8) ∉ value →
      (10 : UInt8) ∉ unit →
      (⟨escape L.runes r, escape L.runes a, escape L.runes sn.group ++ sn.groupSuffix, ip, escape L.runes sn.service,
        escape L.runes i ++ e.keySuffix ++ extra, value, unit⟩ : Spec.GLine).Clean := by
    intro extra value unit h1 h2 h3 h4 h5
    refine ⟨(esc r).1, (esc a).1, ?_, hip.1, (esc _).1, ?_, h3, h5, ?_⟩
    · exact ⟨_, (esc sn.group).1, by rcases he.groupSuffix with h | h <;> simp [hs, h]⟩
    · simp [(esc i).2.1, he.suffix.1, h1]
    · rw [Spec.GLine.text, List.dropLast_concat]
      have hg : (10 : UInt8) ∉ e.groupSuffix := by rcases he.groupSuffix with h | h <;> rw [h] <;> decide
      simp [hs, (esc _).2.2, hg, hip.2, he.suffix.2, h2, h4, h5]
  have nokey := key []
  simp only [List.append_nil] at nokey
  intro l hl
  cases h with
  | counter hp' hk =>
    obtain ⟨rfl, rfl, rfl⟩ := parts_unique hp' hp
    rw [List.mem_singleton.mp hl]
    exact nokey _ _ (by simp) (by simp) (formatInt_chars _).1 (formatInt_chars _).2.1 (by decide)
  | gauge hp' hk hv =>
    obtain ⟨rfl, rfl, rfl⟩ := parts_unique hp' hp
    rw [List.mem_singleton.mp hl]
    exact nokey _ _ (by simp) (by simp) (formatInt_chars _).1 (formatInt_chars _).2.1 (by decide)
  | histogram hp' hk hls =>
    obtain ⟨rfl, rfl, rfl⟩ := parts_unique hp' hp
    have := hls.mem_iff.mp hl
    rw [List.mem_append, List.mem_map, List.mem_singleton] at this
    rcases this with ⟨p, hpm, rfl⟩ | rfl
    · have := key (b!"." ++ p) (L.percentile m.updates p) b!"kv"
      rw [← List.append_assoc] at this
      have hc : ∀ p ∈ [b!"p50", b!"p75", b!"p95", b!"p99", b!"p999", b!"p9999"], (58 : UInt8) ∉ b!"." ++ p ∧ (10 : UInt8) ∉ b!"." ++ p := by decide
      exact this (hc p hpm).1 (hc p hpm).2 (hL.percentile _ _).1 (hL.percentile _ _).2 (by decide)
    · exact key _ _ _ (by decide) (by decide) (hL.mean _).1 (hL.mean _).2 (by decide)

/-- **C75 (calls).** What the filters record of a call (`callEvents`, see C73) has three names, so that it is reported. -/
theorem graphite_calls (g gs sv role app method : Bytes) (cost : Int) (out : Metrics.Outcome) (hgs : gs = [] ∨ gs = b!".cluster") :
    ∀ e ∈ Metrics.callEvents g gs sv [role, app, method] cost out, Spec.ThreeNames e role app method := by
  intro e he
  have hel : (58 : UInt8) ∉ Metrics.elapseSuffix cost ∧ (10 : UInt8) ∉ Metrics.elapseSuffix cost := by
    unfold Metrics.elapseSuffix; repeat' split
    all_goals decide
  simp only [Metrics.callEvents, List.mem_append, List.mem_singleton] at he
  rcases he with (((rfl | he) | rfl) | he) | rfl
  · exact ⟨rfl, by simp, hgs⟩
  · cases out
    · cases he
    · rw [List.mem_singleton.mp he]; exact ⟨rfl, by simp, hgs⟩
    · rw [List.mem_singleton.mp he]; exact ⟨rfl, by simp, hgs⟩
  · exact ⟨rfl, hel, hgs⟩
  · split at he
    · rw [List.mem_singleton.mp he]; exact ⟨rfl, by simp, hgs⟩
    · cases he
  · exact ⟨rfl, by simp, hgs⟩

/-! ## What the numbers are -/

/-- A snapshot of the reporter, when its values are read at rest. -/
def Spec.snapshotOf (s : Metrics.St) (sn : Snap) : Graphite.Snapshot :=
  { group := sn.group, groupSuffix := sn.groupSuffix, service := sn.service, metrics := s.registry sn.holder }

theorem kinds_submitted (cap : Nat) (runes : Bytes → List UInt32) (processors : Nat) (acts : List Act) :
    KindInv runes (Metrics.run cap runes (Metrics.start processors) acts) := by
  have gen : ∀ (acts : List Act) (s : Metrics.St), MetricsInv runes s → KindInv runes s →
      KindInv runes (Metrics.run cap runes s acts) := by
    intro acts
    induction acts with
    | nil => intro s _ h; exact h
    | cons a acts ih => intro s hi hk; exact ih _ (step_inv hi cap a).1 (kind_step hi hk cap a)
  exact gen acts _ (start_inv runes processors) ⟨(fun k r key m h => by cases h), (fun e h => by cases h)⟩

/-- **C75 (counters).** Take a metric with a three-part name of an item that is only counted (`AddCounterWithKeys`). The
report of each snapshot of the item shows one number for it, or none, which stands for 0. These numbers add up to what
was submitted, but for what is still on its way, not yet in a snapshot, or was dropped because the bus was full. -/
theorem graphite_totals (cap : Nat) (L : Lib) (processors : Nat) (acts : List Act) (ip k key a b c : Bytes)
    (hp : Spec.Parts key a b c)
    (hk : ∀ e ∈ Spec.submissions acts, e.group ++ e.groupSuffix ++ e.service = k → metricKey L.runes e = key → e.kind = .counter) :
    let s := Metrics.run cap L.runes (Metrics.start processors) acts
    ∃ value : Snap → Int,
      (∀ sn ∈ s.snaps, sn.group ++ sn.groupSuffix ++ sn.service = k →
        (∃ m, (key, m) ∈ (Spec.snapshotOf s sn).metrics ∧ ∀ ls, Spec.Reports L ip (Spec.snapshotOf s sn) key m ls →
          ls.map (fun l => (l.role, l.app, l.item, l.value, l.unit)) = [(a, b, c, formatInt (value sn), b!"c")]) ∨
        (∀ m, (key, m) ∉ (Spec.snapshotOf s sn).metrics) ∧ value sn = 0) ∧
      Spec.total L.runes k key (Spec.submissions acts) =
        (s.snaps.map fun sn => if sn.group ++ sn.groupSuffix ++ sn.service = k then value sn else 0).sum +
        (s.itemList.map fun it => if it.group ++ it.groupSuffix ++ it.service = k then Spec.registryCount (s.registry it.holder) key else 0).sum +
        Spec.total L.runes k key s.queue + Spec.total L.runes k key (s.workers.filterMap Spec.workerEvent) +
        Spec.total L.runes k key s.dropped := by
  intro s
  have hsub : s.submitted = Spec.submissions acts := submitted_exact cap L.runes processors acts
  have hki : KindInv L.runes s := kinds_submitted cap L.runes processors acts
  have hi : MetricsInv L.runes s := run_metrics_inv (start_inv L.runes processors) cap acts
  have hnd : ∀ r, AMap.NodupKeys (s.registry r) := by
    intro r
    rw [Metrics.St.registry]
    cases hr : s.regs[r]? with
    | none => exact List.nodup_nil
    | some g => exact hi.keys r g hr
  refine ⟨fun sn => Spec.registryCount (s.registry sn.holder) key, fun sn hsn hname => ?_, ?_⟩
  · cases hl : AMap.load (s.registry sn.holder) key with
    | none =>
      right
      refine ⟨fun m hm => ?_, ?_⟩
      · have := AMap.load_of_mem (hnd sn.holder) hm
        rw [hl] at this; cases this
      · show Spec.registryCount _ _ = 0
        rw [Spec.registryCount, hl]; rfl
    | some m =>
      left
      refine ⟨m, AMap.mem_of_load hl, fun ls h => ?_⟩
      have hkm : m.kind = .counter := by
        obtain ⟨e, he, h1, h2, h3⟩ := hki.kinds k sn.holder key m
          (List.mem_append_right _ (List.mem_map.mpr ⟨sn, hsn, by rw [snapName, hname]⟩)) hl
        rw [← h3]
        exact hk e (hsub ▸ he) h1 h2
      have hv : Spec.registryCount (s.registry sn.holder) key = m.updates.sum := by
        rw [Spec.registryCount, hl]
        show m.count = _
        rw [Metric.count, hkm]
      cases h with
      | counter hp' _ =>
        obtain ⟨rfl, rfl, rfl⟩ := parts_unique hp' hp
        simp only [hv]; rfl
      | gauge _ h => rw [hkm] at h; cases h
      | histogram _ h => rw [hkm] at h; cases h
  · have h0 : Spec.total L.runes k key s.failed = 0 := by
      unfold Spec.total
      have : ∀ e ∈ s.failed, ¬ (e.group ++ e.groupSuffix ++ e.service = k ∧ metricKey L.runes e = key) := by
        rintro e he ⟨h1, h2⟩
        obtain ⟨e1, a1, e2, a2, hne, b1, b2, c1, c2⟩ := failure_needs_clash cap L.runes processors acts e he
        exact hne ((hk e1 a1 (c1.trans h1) (b1.trans h2)).trans (hk e2 a2 (c2.trans h1) (b2.trans h2)).symm)
      generalize s.failed = l at this
      induction l with
      | nil => rfl
      | cons x l ih =>
        rw [List.map_cons, List.sum_cons, if_neg (this x (by simp)), ih fun y hy => this y (by simp [hy])]; rfl
    have := counts_conserved cap L.runes processors acts k key
    simp only at this
    rw [submitted_exact] at this
    rw [this]
    show _ + Spec.total L.runes k key s.failed = _
    rw [h0, Int.add_zero]

/-! ## Writing -/

/-- **C75 (writing).** With no failure every packet is written, in order, and none is empty. -/
theorem graphite_write (ms : List Bytes) (rs : List Sent) (h : ∀ r ∈ rs, r = .ok) :
    sendAll ms rs = (ms.filter (· ≠ []), true) := by
  induction ms generalizing rs with
  | nil => rfl
  | cons m ms ih =>
    by_cases hm : m = []
    · rw [List.filter_cons_of_neg (by simpa using hm), ← ih rs h, sendAll.eq_def]
      simp only [if_pos hm]
    · rw [List.filter_cons_of_pos (by simpa using hm)]
      cases rs with
      | nil => rw [sendAll.eq_def]; simp only [if_neg hm, ih [] (by simp)]
      | cons r rs =>
        have := h r (by simp)
        subst this
        rw [sendAll.eq_def]
        simp only [if_neg hm, ih rs fun x hx => h x (by simp [hx])]

/-- **C75 (a failed write).** A write that fails costs its packet and no other, if a new connection can be made; if not,
the packets after it are not sent and the error is returned. -/
theorem graphite_write_fails (before after : List Bytes) (m : Bytes) (hb : ∀ x ∈ before, x ≠ []) (hm : m ≠ [])
    (rs : List Sent) (hr : ∀ r ∈ rs, r = .ok) :
    sendAll (before ++ m :: after) (List.replicate before.length .ok ++ .failed true :: rs) = (before ++ after.filter (· ≠ []), true) ∧
    sendAll (before ++ m :: after) (List.replicate before.length .ok ++ .failed false :: rs) = (before, false) := by
  induction before with
  | nil =>
    constructor
    · simp only [List.nil_append, List.length_nil, List.replicate_zero, sendAll, if_neg hm]
      exact graphite_write after rs hr
    · simp only [List.nil_append, List.length_nil, List.replicate_zero, sendAll, if_neg hm]
  | cons x before ih =>
    obtain ⟨i1, i2⟩ := ih fun y hy => hb y (by simp [hy])
    have hx := hb x (by simp)
    simp only [List.cons_append, List.length_cons, List.replicate_succ, sendAll, if_neg hx, i1, i2, and_self]

/-- **C75 (the host).** The host of a line is the address the first connection came from, with underscores. -/
theorem graphite_host (L : Lib) (order : Bytes → List Bytes) (snaps : List Graphite.Snapshot) (rs : List Sent) (parts : List Bytes)
    (port : Bytes) (hp : ∀ p ∈ parts, (58 : UInt8) ∉ p ∧ (46 : UInt8) ∉ p) (hne : join b!"_" parts ≠ []) :
    write L order {} snaps (some (join b!"." parts ++ b!":" ++ port)) rs =
      ({ localIP := join b!"_" parts }, sendAll (genMessages L (join b!"_" parts) order snaps) rs) ∧
    ∀ addr, write L order { localIP := join b!"_" parts } snaps (some addr) rs =
      ({ localIP := join b!"_" parts }, sendAll (genMessages L (join b!"_" parts) order snaps) rs) := by
  have hj : (58 : UInt8) ∉ join b!"." parts ∧ (join b!"." parts).map (fun c => if c = 46 then (95 : UInt8) else c) = join b!"_" parts := by
    clear hne
    induction parts with
    | nil => exact ⟨by simp [join], rfl⟩
    | cons p ps ih =>
      have h0 : p.map (fun c => if c = 46 then (95 : UInt8) else c) = p := by
        have := (hp p (by simp)).2
        conv => rhs; rw [← List.map_id p]
        refine List.map_congr_left fun c hc => ?_
        have hne : ¬ c = 46 := fun e => this (by rw [← e]; exact hc)
        rw [if_neg hne]; rfl
      cases ps with
      | nil => exact ⟨(hp p (by simp)).1, h0⟩
      | cons q ps =>
        obtain ⟨i1, i2⟩ := ih fun x hx => hp x (by simp [hx])
        refine ⟨?_, ?_⟩
        · rw [join]; simp only [List.mem_append, not_or]; exact ⟨⟨(hp p (by simp)).1, by decide⟩, i1⟩
        · rw [join, join, List.map_append, List.map_append, h0, i2]; rfl
  have hh : hostName (join b!"." parts ++ b!":" ++ port) = join b!"_" parts := by
    rw [hostName, List.append_assoc]
    rw [← List.append_assoc, split_cons (sep := []) hj.1]
    exact hj.2
  refine ⟨?_, fun addr => ?_⟩
  · unfold write; simp only [if_true, hh]
  · unfold write; simp only [if_neg hne]

/-- **C75 (the servers).** With distinct names that are not empty, every configured graphite server gets the reports. -/
theorem graphite_servers {α : Type} (cfg : List (Bytes × α)) (hn : (cfg.map Prod.fst).Nodup) (he : ∀ c ∈ cfg, c.1 ≠ []) :
    configure cfg = cfg := by
  have hst : ∀ (m : AMap Bytes α) (k : Bytes) (v : α), k ∉ m.map Prod.fst → AMap.store m k v = m ++ [(k, v)] := by
    intro m k v h
    induction m with
    | nil => rfl
    | cons x m ih =>
      simp only [List.map_cons, List.mem_cons, not_or] at h
      rw [AMap.store, if_neg (fun e => h.1 e.symm), ih h.2]; rfl
  have key : ∀ (ws : AMap Bytes α) (cfg : List (Bytes × α)), ((ws ++ cfg).map Prod.fst).Nodup → (∀ c ∈ cfg, c.1 ≠ []) →
      cfg.foldl (fun ws c => addWriter ws c.1 c.2) ws = ws ++ cfg := by
    intro ws cfg
    induction cfg generalizing ws with
    | nil => simp
    | cons c cfg ih =>
      intro hn he
      have hc : c.1 ∉ ws.map Prod.fst := by
        rw [List.map_append, List.nodup_append] at hn
        intro h
        exact hn.2.2 _ h _ (by simp) rfl
      rw [List.foldl_cons, addWriter, if_pos (he c (by simp)), hst _ _ _ hc, ih _ (by simpa using hn) (fun x hx => he x (by simp [hx]))]
      simp
  exact key [] cfg hn he

/-- **C75 fails** for what is recorded under a single name, as `AddCounter`, `AddHistograms` and `AddGauge` do: it is never
reported, because the colons a name would need are escaped. -/
theorem graphite_single_name_violated (L : Lib) (ip : Bytes) (order : Bytes → List Bytes) (snaps : List Graphite.Snapshot)
    (h : ∀ sn ∈ snaps, ∀ x ∈ sn.metrics, ∃ e : Event, ∃ name, e.keys = [name] ∧ e.keySuffix = [] ∧ x.1 = metricKey L.runes e) :
    genMessages L ip order snaps = [[]] := by
  have hs : segments L ip order snaps = [] := by
    unfold segments
    rw [List.flatMap_eq_nil_iff]
    intro sn hsn
    split
    · rw [List.filterMap_eq_nil_iff]
      intro x hx
      obtain ⟨e, name, h1, h2, h3⟩ := h sn hsn x hx
      refine segment_short L ip sn _ x.2 ?_
      have : (58 : UInt8) ∉ x.1 := by
        rw [h3, metricKey, h1, h2]
        simp only [List.map_cons, List.map_nil, join, List.append_nil]
        exact fun hm => (escape_chars L.runes name 58 hm).2 rfl
      rw [List.count_eq_zero.mpr this]; decide
    · rfl
  unfold genMessages
  rw [hs]; rfl

/-- **C75 fails** on hosts with IPv6 addresses: only the part up to the first colon is reported, so that the lines of
different hosts have one name. -/
theorem graphite_ipv6_violated : hostName b!"[2001:db8::1]:4040" = b!"[2001" ∧ hostName b!"[2001:db8::2]:4040" = b!"[2001" := by
  have h : ∀ r : Bytes, hostName (b!"[2001" ++ b!":" ++ r) = b!"[2001" := by
    intro r
    rw [hostName, split_cons (sep := []) (by decide)]
    rfl
  exact ⟨h b!"db8::1]:4040", h b!"db8::2]:4040"⟩

/-- **C75 fails** if two graphite servers have one name, or a server has none: one of them gets no reports. -/
theorem graphite_server_names_violated : configure [(b!"pool", 1), (b!"pool", 2), (b!"", 3)] = [(b!"pool", 2)] := by decide +kernel

/-! ## A concrete report -/

namespace Graphite

/-- A library that prints the length. -/
def lib : Lib := { runes := fun s => s.map (·.toUInt32), percentile := fun l _ => formatInt l.length, mean := fun l => formatInt l.length }

theorem lib_plain : Spec.PlainLib lib :=
  ⟨fun l _ => ⟨(formatInt_chars l.length).1, (formatInt_chars l.length).2.1⟩,
    fun l => ⟨(formatInt_chars l.length).1, (formatInt_chars l.length).2.1⟩⟩

def count_ : Event := { kind := .counter, keys := [b!"motan-server", b!"my.app", b!"get:x"], keySuffix := b!".total_count", group := b!"g:1", service := b!"a.B", value := 2 }

theorem count_names : Spec.ThreeNames count_ b!"motan-server" b!"my.app" b!"get:x" := ⟨rfl, by decide, .inl rfl⟩

def snap : Graphite.Snapshot :=
  { group := b!"g:1", service := b!"a.B",
    metrics := [(metricKey lib.runes count_, ⟨.counter, [2, 3]⟩), (b!"one", ⟨.counter, [1]⟩), (b!"r:a:t", ⟨.histogram, [5, 7]⟩),
      (b!"r:a:mem", ⟨.gauge, [5, 9]⟩)] }

example : (Spec.reportable [snap, { snap with report := false }]).map (·.2.1) = [b!"motan-server:my_app:get_x.total_count", b!"r:a:t", b!"r:a:mem"] := by
  decide +kernel

example : segment lib b!"10_0_0_1" snap slas (metricKey lib.runes count_) ⟨.counter, [2, 3]⟩ =
    some b!"motan-server.my_app.g_1.byhost.10_0_0_1.a_B.get_x.total_count:5|c\n" := by decide +kernel

example : ∃ ls, Spec.Reports lib b!"10_0_0_1" snap (metricKey lib.runes count_) ⟨.counter, [2, 3]⟩ ls ∧ ∀ l ∈ ls, l.Clean := by
  have h := Spec.Reports.counter (L := lib) (ip := b!"10_0_0_1") (sn := snap) (m := ⟨.counter, [2, 3]⟩) (three_parts (runes := lib.runes) count_names) rfl
  exact ⟨_, h, graphite_clean lib_plain (by decide) count_names rfl h⟩

/-- Two packets: 20 histograms are too long for one. -/
example : ((genMessages lib b!"10_0_0_1" (fun _ => slas)
    [{ snap with metrics := (List.range 20).map fun n : Nat => (b!"r:a:method" ++ formatInt n, ⟨.histogram, [1]⟩) }]).map List.length) = [4880, 1650] := by
  decide +kernel

def acts : List Act :=
  [.submit count_, .work 0, .work 0, .work 0, .work 0, .work 0, .work 0, .work 0, .work 0, .snapshot 0, .submit { count_ with value := 5 },
    .work 0, .work 0, .work 0, .work 0, .work 0, .work 0, .work 0, .snapshot 0, .submit count_]

example : ((Metrics.run 10 lib.runes (Metrics.start 1) acts).snaps.map fun sn =>
    Spec.registryCount ((Metrics.run 10 lib.runes (Metrics.start 1) acts).registry sn.holder) (metricKey lib.runes count_)) = [2, 5] := by
  decide +kernel

example : ∀ e ∈ Spec.submissions acts, e.group ++ e.groupSuffix ++ e.service = b!"g:1a.B" → metricKey lib.runes e = metricKey lib.runes count_ →
    e.kind = .counter := by decide +kernel

example : sendAll [b!"a", b!"b", b!"c"] [.ok, .failed true] = ([b!"a", b!"c"], true) :=
  (graphite_write_fails [b!"a"] [b!"c"] b!"b" (by decide) (by decide) [] (by simp)).1

example : hostName b!"10.0.0.1:4040" = b!"10_0_0_1" := by decide +kernel

example : configure [(b!"p", 1), (b!"q", 2)] = [(b!"p", 1), (b!"q", 2)] := graphite_servers _ (by decide) (by decide)

end Graphite

end Motan.Props
