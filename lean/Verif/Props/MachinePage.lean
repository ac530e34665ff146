import Verif.Model.MachinePage

/-!
# C112: the pages on the machine and the process show what the system says
-/

namespace Motan.Props

open MachinePage

namespace Spec

/-- The interfaces of a reading have names of their own, and none has the name of the sum. -/
def NamesApart (r : Reading) : Prop :=
  (r.each.map (·.name)).Nodup ∧ ∀ t, r.total = some t → ∀ c ∈ r.each, c.name ≠ t.name

/-- An entry shows what a counter grew by. -/
def Grew (x : Info) (c0 c : Counter) : Prop :=
  (c0.sent ≤ c.sent → x.sent.toNat + c0.sent.toNat = c.sent.toNat) ∧ (c0.recv ≤ c.recv → x.recv.toNat + c0.recv.toNat = c.recv.toNat)

end Spec

theorem machine_foldl_storeAll (m : AMap Bytes Counter) (l : List Counter) :
    l.foldl (fun m c => AMap.store m c.name c) m = AMap.storeAll m (l.map fun c => (c.name, c)) := by
  simp [AMap.storeAll, List.foldl_map]

theorem machine_before_total {r : Reading} {t : Counter} (h : r.total = some t) : AMap.load (before r) t.name = some t := by
  simp [before, h, AMap.load_store]

theorem machine_before {r : Reading} (h : Spec.NamesApart r) {c : Counter} (hc : c ∈ r.each) : AMap.load (before r) c.name = some c := by
  have hn : AMap.NodupKeys (r.each.map fun c => (c.name, c)) := by
    simpa [AMap.NodupKeys, AMap.keys, Function.comp_def] using h.1
  have hl : AMap.load (r.each.foldl (fun m c => AMap.store m c.name c) []) c.name = some c := by
    rw [machine_foldl_storeAll, AMap.load_storeAll _ _ hn, AMap.load_of_mem hn (List.mem_map.2 ⟨c, hc, rfl⟩)]
  unfold before
  split
  · exact hl
  · rename_i t ht
    rw [AMap.load_store_ne _ _ (h.2 t ht c hc).symm]
    exact hl

theorem machine_before_none {r : Reading} {k : Bytes} (h : ∀ c ∈ r.each, c.name ≠ k) (ht : ∀ t, r.total = some t → t.name ≠ k) :
    AMap.load (before r) k = none := by
  have hl : AMap.load (r.each.foldl (fun m c => AMap.store m c.name c) []) k = none := by
    rw [machine_foldl_storeAll, AMap.load_storeAll_of_not_mem]
    · rfl
    · intro hm
      obtain ⟨p, hp, e⟩ := List.mem_map.1 hm
      obtain ⟨c, hc, rfl⟩ := List.mem_map.1 hp
      exact h c hc e
  unfold before
  split
  · exact hl
  · rename_i t e
    rw [AMap.load_store_ne _ _ (ht t e)]
    exact hl

theorem machine_addresses {ifs : List (Bytes × List Bytes)} (h : (ifs.map Prod.fst).Nodup) (k : Bytes) :
    AMap.load (addresses ifs) k = AMap.load (κ := Bytes) ifs k := by
  have : addresses ifs = AMap.storeAll [] ifs := rfl
  rw [this, AMap.load_storeAll _ _ h]
  cases AMap.load (κ := Bytes) ifs k <;> rfl

theorem machine_grew {m : AMap Bytes Counter} {ip : List Bytes} {c0 c : Counter} (h : AMap.load m c.name = some c0) :
    Spec.Grew (rate m ip c) c0 c := by
  have key : ∀ a b : UInt64, a ≤ b → (b - a).toNat + a.toNat = b.toNat := by
    intro a b hab
    rw [UInt64.toNat_sub_of_le _ _ hab]
    have := UInt64.le_iff_toNat_le.1 hab
    omega
  simp only [rate, h, Option.getD_some]
  exact ⟨key _ _, key _ _⟩

/-- C112: the page has an entry for each interface that the system names at the end of the second, in its order, and then one for the sum. -/
theorem machine_net_names (first second : Reading) (ifs : List (Bytes × List Bytes)) :
    (netInfo first second ifs).map (·.name) = second.each.map (·.name) ++ second.total.toList.map (·.name) := by
  unfold netInfo
  rw [List.map_append, List.map_map]
  congr 1
  cases second.total <;> rfl

/-- C112: the entry of an interface has its addresses and what it has sent and received in the second, if it was there at the beginning. -/
theorem machine_net (first second : Reading) (ifs : List (Bytes × List Bytes)) (h : Spec.NamesApart first)
    (hi : (ifs.map Prod.fst).Nodup) (i : Nat) (c : Counter) (hc : second.each[i]? = some c) :
    ∃ x, (netInfo first second ifs)[i]? = some x ∧ x.name = c.name ∧
      (∀ ips, (c.name, ips) ∈ ifs → x.ip = ips) ∧ ((∀ ips, (c.name, ips) ∉ ifs) → x.ip = []) ∧
      ∀ c0 ∈ first.each, c0.name = c.name → Spec.Grew x c0 c := by
  obtain ⟨hlt, he⟩ := List.getElem?_eq_some_iff.1 hc
  refine ⟨rate (before first) ((AMap.load (addresses ifs) c.name).getD []) c, ?_, rfl, ?_, ?_, ?_⟩
  · unfold netInfo
    rw [List.getElem?_append_left (by simpa using hlt), List.getElem?_map, hc]
    rfl
  · intro ips hm
    show (AMap.load (addresses ifs) c.name).getD [] = ips
    rw [machine_addresses hi, AMap.load_of_mem hi hm]
    rfl
  · intro hm
    show (AMap.load (addresses ifs) c.name).getD [] = []
    rw [machine_addresses hi]
    cases hl : AMap.load (κ := Bytes) ifs c.name with
    | none => rfl
    | some ips => exact absurd (AMap.mem_of_load hl) (hm ips)
  · intro c0 h0 hn
    refine machine_grew ?_
    rw [← hn]
    exact machine_before h h0

/-- C112: the last entry is the sum of all interfaces, if the system gives it. -/
theorem machine_net_total (first second : Reading) (ifs : List (Bytes × List Bytes)) {t0 t : Counter} (h0 : first.total = some t0)
    (h : second.total = some t) (hn : t0.name = t.name) :
    ∃ x, (netInfo first second ifs).getLast? = some x ∧ x.name = t.name ∧ x.ip = [] ∧ Spec.Grew x t0 t := by
  refine ⟨rate (before first) [] t, ?_, rfl, rfl, machine_grew (hn ▸ machine_before_total h0)⟩
  simp [netInfo, h]

/-- C112: the memory is shown in megabytes, rounded down, and the cores of all processors are added. -/
theorem machine_shown {s : System} {first second : Reading} {ifs : List (Bytes × List Bytes)} {p : Page}
    (h : statSystem s first second ifs = some p) :
    (∀ total used, s.memory = some (total, used) →
      p.mem.total.toNat = total.toNat / 2 ^ 20 ∧ p.mem.used.toNat = used.toNat / 2 ^ 20) ∧
    (∀ total used, s.swap = some (total, used) →
      p.mem.swapTotal.toNat = total.toNat / 2 ^ 20 ∧ p.mem.swapUsed.toNat = used.toNat / 2 ^ 20) ∧
    ((∀ c ∈ s.cores, 0 ≤ c.toInt) → (s.cores.map Int32.toInt).sum < 2 ^ 31 → p.cores.toInt = (s.cores.map Int32.toInt).sum) ∧
    p.net = netInfo first second ifs := by
  have hs : ∀ a : UInt64, (a >>> 20).toNat = a.toNat / 2 ^ 20 := by
    intro a
    rw [UInt64.toNat_shiftRight, Nat.shiftRight_eq_div_pow]
    rfl
  have hsum : ∀ (l : List Int32) (a : Int32), 0 ≤ a.toInt → (∀ c ∈ l, 0 ≤ c.toInt) → a.toInt + (l.map Int32.toInt).sum < 2 ^ 31 →
      (l.foldl (· + ·) a).toInt = a.toInt + (l.map Int32.toInt).sum := by
    intro l
    induction l with
    | nil => intro a _ _ _; simp
    | cons c l ih =>
      intro a ha hl hb
      have hc := hl c (by simp)
      have hl' : ∀ x ∈ l, 0 ≤ x.toInt := fun x hx => hl x (by simp [hx])
      have hnn : 0 ≤ (l.map Int32.toInt).sum := by
        clear ih hb hl
        induction l with
        | nil => simp
        | cons x l ih =>
          have h1 := hl' x (by simp)
          have h2 := ih fun y hy => hl' y (by simp [hy])
          simp only [List.map_cons, List.sum_cons]
          omega
      simp only [List.map_cons, List.sum_cons] at hb ⊢
      have hac : (a + c).toInt = a.toInt + c.toInt := by
        rw [Int32.toInt_add, Int.bmod_eq_of_le] <;> omega
      rw [List.foldl_cons, ih (a + c) (by omega) hl' (by omega), hac]
      omega
  unfold statSystem at h
  split at h
  · rename_i m w hm hw
    split at h
    · cases h
      refine ⟨?_, ?_, ?_, rfl⟩
      · intro total used e
        rw [hm] at e; cases e
        exact ⟨hs _, hs _⟩
      · intro total used e
        rw [hw] at e; cases e
        exact ⟨hs _, hs _⟩
      · intro hc hb
        have := hsum s.cores 0 (by decide) hc (by simpa using hb)
        simpa using this
    · cases h
  · cases h

/-- C112: the connections of the process are counted by their states. -/
theorem process_connections (states : List Bytes) (h : states.length < 2 ^ 32) :
    (countConns states).listen.toNat = states.count b!"LISTEN" ∧
    (countConns states).established.toNat = states.count b!"ESTABLISHED" ∧
    (countConns states).timeWait.toNat = states.count b!"TIME_WAIT" := by
  have inc : ∀ a : UInt32, a.toNat + 1 < 2 ^ 32 → (a + 1).toNat = a.toNat + 1 := by
    intro a ha
    rw [UInt32.toNat_add, Nat.mod_eq_of_lt]
    · rfl
    · exact ha
  have key : ∀ (l : List Bytes) (c : Conns), c.listen.toNat + l.length < 2 ^ 32 → c.established.toNat + l.length < 2 ^ 32 →
      c.timeWait.toNat + l.length < 2 ^ 32 →
      let d := l.foldl (fun c s =>
        if s = b!"LISTEN" then { c with listen := c.listen + 1 }
        else if s = b!"ESTABLISHED" then { c with established := c.established + 1 }
        else if s = b!"TIME_WAIT" then { c with timeWait := c.timeWait + 1 }
        else c) c
      d.listen.toNat = c.listen.toNat + l.count b!"LISTEN" ∧ d.established.toNat = c.established.toNat + l.count b!"ESTABLISHED" ∧
      d.timeWait.toNat = c.timeWait.toNat + l.count b!"TIME_WAIT" := by
    intro l
    induction l with
    | nil => intro c _ _ _; simp
    | cons s l ih =>
      intro c h1 h2 h3
      simp only [List.length_cons] at h1 h2 h3
      have i1 := inc c.listen (by omega)
      have i2 := inc c.established (by omega)
      have i3 := inc c.timeWait (by omega)
      simp only [List.foldl_cons]
      by_cases e1 : s = b!"LISTEN"
      · subst e1
        have := ih { c with listen := c.listen + 1 } (by simp only [i1]; omega) (by simp only; omega) (by simp only; omega)
        simp only [i1] at this
        simp only [if_pos]
        refine ⟨by rw [this.1, List.count_cons_self]; omega, ?_, ?_⟩
        · rw [this.2.1, List.count_cons_of_ne (by decide)]
        · rw [this.2.2, List.count_cons_of_ne (by decide)]
      · by_cases e2 : s = b!"ESTABLISHED"
        · subst e2
          have := ih { c with established := c.established + 1 } (by simp only; omega) (by simp only [i2]; omega) (by simp only; omega)
          simp only [i2] at this
          simp only [if_neg e1, if_pos]
          refine ⟨?_, by rw [this.2.1, List.count_cons_self]; omega, ?_⟩
          · rw [this.1, List.count_cons_of_ne (by decide)]
          · rw [this.2.2, List.count_cons_of_ne (by decide)]
        · by_cases e3 : s = b!"TIME_WAIT"
          · subst e3
            have := ih { c with timeWait := c.timeWait + 1 } (by simp only; omega) (by simp only; omega) (by simp only [i3]; omega)
            simp only [i3] at this
            simp only [if_neg e1, if_neg e2, if_pos]
            refine ⟨?_, ?_, by rw [this.2.2, List.count_cons_self]; omega⟩
            · rw [this.1, List.count_cons_of_ne (by decide)]
            · rw [this.2.1, List.count_cons_of_ne (by decide)]
          · have := ih c (by omega) (by omega) (by omega)
            simp only [if_neg e1, if_neg e2, if_neg e3]
            refine ⟨?_, ?_, ?_⟩
            · rw [this.1, List.count_cons_of_ne e1]
            · rw [this.2.1, List.count_cons_of_ne e2]
            · rw [this.2.2, List.count_cons_of_ne e3]
  simpa [countConns] using key states {} (by simpa using h) (by simpa using h) (by simpa using h)

/-- C112: what the process has read and written, and how much of it in the second. Without a first reading nothing is shown. -/
theorem process_io (a b : UInt64 × UInt64) (hr : a.1 ≤ b.1) (hw : a.2 ≤ b.2) (second : Option (UInt64 × UInt64)) :
    (∃ x, statIO (some a) (some b) = some (some x) ∧ x.readTotal = b.1 ∧ x.writeTotal = b.2 ∧
      x.readRate.toNat + a.1.toNat = b.1.toNat ∧ x.writeRate.toNat + a.2.toNat = b.2.toNat) ∧
    statIO none second = some none := by
  have key : ∀ a b : UInt64, a ≤ b → (b - a).toNat + a.toNat = b.toNat := by
    intro a b hab
    rw [UInt64.toNat_sub_of_le _ _ hab]
    have := UInt64.le_iff_toNat_le.1 hab
    omega
  exact ⟨⟨_, rfl, rfl, rfl, key _ _ hr, key _ _ hw⟩, rfl⟩

theorem machine_address {a b m n : Bytes} (hm : (58 : UInt8) ∉ m) (hn : (58 : UInt8) ∉ n) (h : a ++ b!":" ++ m = b ++ b!":" ++ n) :
    a = b ∧ m = n := by
  rw [List.append_assoc, List.append_assoc] at h
  induction a generalizing b with
  | nil =>
    cases b with
    | nil => simpa using h
    | cons y b =>
      simp only [List.nil_append, List.cons_append] at h
      injection h with _ h
      exact absurd (h ▸ by simp : (58 : UInt8) ∈ m) hm
  | cons x a ih =>
    cases b with
    | nil =>
      simp only [List.nil_append, List.cons_append] at h
      injection h with _ h
      exact absurd (h ▸ by simp : (58 : UInt8) ∈ n) hn
    | cons y b =>
      simp only [List.cons_append] at h
      injection h with h1 h2
      obtain ⟨e1, e2⟩ := ih (b := b) (by simpa using h2)
      exact ⟨by rw [h1, e1], e2⟩

theorem machine_port {p q : UInt32} (h : natDigits p.toNat = natDigits q.toNat) : p = q := by
  have e := parseUint64_natDigits p.toNat (Nat.lt_trans p.toNat_lt (by decide))
  rw [h, parseUint64_natDigits q.toNat (Nat.lt_trans q.toNat_lt (by decide))] at e
  injection e with e
  exact UInt32.toNat_inj.1 e.symm

/-- C112: the list of connections tells the connections with their addresses and ports, in order, of whatever form the addresses are. -/
theorem process_connection_list {cs cs' : List Conn} (h : listConns cs = listConns cs') : cs = cs' := by
  have nc : ∀ n, (58 : UInt8) ∉ natDigits n := fun n hm => absurd (natDigits_digit n _ hm) (by decide)
  induction cs generalizing cs' with
  | nil =>
    cases cs' with
    | nil => rfl
    | cons c cs' => simp [listConns] at h
  | cons c cs ih =>
    cases cs' with
    | nil => simp [listConns] at h
    | cons d cs' =>
      simp only [listConns, List.map_cons, List.cons.injEq, ConnInfo.mk.injEq] at h
      obtain ⟨⟨h1, h2, h3, h4⟩, h5⟩ := h
      obtain ⟨a1, a2⟩ := machine_address (nc _) (nc _) h3
      obtain ⟨b1, b2⟩ := machine_address (nc _) (nc _) h4
      rw [ih h5]
      obtain ⟨fd, st, li, lp, ri, rp⟩ := c
      obtain ⟨fd', st', li', lp', ri', rp'⟩ := d
      simp only at h1 h2 a1 a2 b1 b2
      rw [h1, h2, a1, b1, machine_port a2, machine_port b2]

/-- C112: each connection is shown with its number, its state, and its own address before that of the other side. -/
theorem process_connection_shown (cs : List Conn) (i : Nat) (c : Conn) (hc : cs[i]? = some c) :
    ∃ x, (listConns cs)[i]? = some x ∧ x.fd = c.fd ∧ x.status = c.status ∧
      x.localAddr = c.localIP ++ b!":" ++ natDigits c.localPort.toNat ∧
      x.remoteAddr = c.remoteIP ++ b!":" ++ natDigits c.remotePort.toNat := by
  simp [listConns, hc]

/-! ## Where it fails -/

/-- C112, violated: an interface that comes up in the second is shown with all it has ever sent and received. -/
theorem machine_new_violated (first second : Reading) (ifs : List (Bytes × List Bytes)) (i : Nat) (c : Counter)
    (hc : second.each[i]? = some c) (hnew : ∀ c0 ∈ first.each, c0.name ≠ c.name) (ht : ∀ t, first.total = some t → t.name ≠ c.name) :
    ∃ x, (netInfo first second ifs)[i]? = some x ∧ x.sent = c.sent ∧ x.recv = c.recv := by
  obtain ⟨hlt, he⟩ := List.getElem?_eq_some_iff.1 hc
  refine ⟨rate (before first) ((AMap.load (addresses ifs) c.name).getD []) c, ?_, ?_, ?_⟩
  · unfold netInfo
    rw [List.getElem?_append_left (by simpa using hlt), List.getElem?_map, hc]
    rfl
  all_goals
    simp only [rate, machine_before_none hnew ht, Option.getD_none]
    exact UInt64.sub_zero _

/-- C112, violated: if counters start again, when an interface is made anew under its name, the page shows a number near 2^64. -/
theorem machine_restart_violated : ∃ (first second : Reading) (x : Info), Spec.NamesApart first ∧ netInfo first second [] = [x] ∧
    x.sent.toNat = 2 ^ 64 - 1000 :=
  ⟨⟨[⟨b!"eth0", 1000, 0⟩], none⟩, ⟨[⟨b!"eth0", 0, 0⟩], none⟩, _, ⟨by decide, by simp⟩, rfl, by decide⟩

/-- C112, violated: an interface that has the name of the sum is compared with the sum. -/
theorem machine_all_violated : ∃ (first second : Reading) (x y : Info), (first.each.map (·.name)).Nodup ∧
    netInfo first second [] = [x, y] ∧ first.each.map (·.sent) = [5] ∧ second.each.map (·.sent) = [8] ∧ x.sent ≠ 3 :=
  ⟨⟨[⟨b!"all", 5, 0⟩], some ⟨b!"all", 7, 0⟩⟩, ⟨[⟨b!"all", 8, 0⟩], some ⟨b!"all", 10, 0⟩⟩, _, _, by decide, rfl, rfl, rfl, by decide⟩

/-- C112, violated: the page of the machine panics exactly if the system does not say one of memory, swap space, load and host; the page of
the process if the second reading of what it has read and written fails. -/
theorem machine_panic_violated (s : System) (first second : Reading) (ifs : List (Bytes × List Bytes)) (a : UInt64 × UInt64) :
    (statSystem s first second ifs = none ↔ s.memory = none ∨ s.swap = none ∨ s.load = false ∨ s.host = false) ∧
    statIO (some a) none = none := by
  refine ⟨?_, rfl⟩
  obtain ⟨m, w, cs, l, o⟩ := s
  cases m <;> cases w <;> cases l <;> cases o <;> simp [statSystem]

/-! ## Cases -/

namespace MachineCase

def first : Reading := ⟨[⟨b!"lo", 10, 10⟩, ⟨b!"eth0", 100, 200⟩], some ⟨b!"all", 110, 210⟩⟩
def second : Reading := ⟨[⟨b!"lo", 11, 11⟩, ⟨b!"eth0", 150, 207⟩, ⟨b!"tun0", 4, 4⟩], some ⟨b!"all", 165, 222⟩⟩
def ifs : List (Bytes × List Bytes) := [(b!"lo", [b!"127.0.0.1/8"]), (b!"eth0", [b!"10.0.0.1/8", b!"fe80::1/64"])]

example : Spec.NamesApart first ∧ (ifs.map Prod.fst).Nodup := by
  refine ⟨⟨by decide, ?_⟩, by decide⟩
  intro t ht
  cases ht
  decide

example : netInfo first second ifs =
    [⟨b!"lo", [b!"127.0.0.1/8"], 1, 1⟩, ⟨b!"eth0", [b!"10.0.0.1/8", b!"fe80::1/64"], 50, 7⟩, ⟨b!"tun0", [], 4, 4⟩, ⟨b!"all", [], 55, 12⟩] := by
  decide +kernel

example : ((statSystem ⟨some (16777216000, 1048577), some (0, 0), [4, 4], true, true⟩ first second ifs).map fun p => (p.cores, p.mem)) =
    some (8, ⟨16000, 1, 0, 0⟩) := by decide +kernel

example : countConns [b!"LISTEN", b!"ESTABLISHED", b!"CLOSE_WAIT", b!"ESTABLISHED"] = ⟨1, 2, 0⟩ := by decide +kernel

example : listConns [⟨3, b!"LISTEN", b!"::", 8002, [], 0⟩] = [⟨3, b!"LISTEN", b!":::8002", b!":0"⟩] := by decide +kernel

end MachineCase

end Motan.Props
