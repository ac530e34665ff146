import Verif.Proof.Simple2

/-!
# The decoder of the simple serialization accepts only the grammar and never runs out of fuel
-/

namespace Motan.Simple

open Motan BytesBuffer

/-- Reading took exactly the bytes `p` from `b`, giving `b'`. -/
structure Took (b : BytesBuffer) (p : Bytes) (b' : BytesBuffer) : Prop where
  rest : b.rest = p ++ b'.rest
  eq : b' = b.skip p.length

theorem Took.trans {b b' b'' : BytesBuffer} {p q : Bytes} (h : Took b p b') (h' : Took b' q b'') :
    Took b (p ++ q) b'' :=
  ⟨by rw [h.rest, h'.rest, List.append_assoc], by rw [h'.eq, h.eq, skip_skip]; simp⟩

theorem took_refl (b : BytesBuffer) : Took b [] b := ⟨rfl, rfl⟩

theorem Took.full {b b' : BytesBuffer} {p : Bytes} (h : Took b p b') (hf : b.Full) : b'.Full := by
  rw [h.eq]; exact full_skip hf h.rest

theorem Took.order {b b' : BytesBuffer} {p : Bytes} (h : Took b p b') : b'.order = b.order := by
  rw [h.eq]; rfl

theorem Took.rpos {b b' : BytesBuffer} {p : Bytes} (h : Took b p b') : b'.rpos = b.rpos + p.length := by
  rw [h.eq]; rfl

theorem Took.length {b b' : BytesBuffer} {p : Bytes} (h : Took b p b') :
    b.rest.length = p.length + b'.rest.length := by rw [h.rest]; simp

theorem readByte_took {b b' : BytesBuffer} {c : UInt8} (h : b.readByte = .ok (c, b')) : Took b [c] b' := by
  cases hr : b.rest with
  | nil => rw [readByte_nil hr] at h; simp at h
  | cons d tl =>
    rw [readByte_rest hr] at h
    simp only [Except.ok.injEq, Prod.mk.injEq] at h
    obtain ⟨rfl, rfl⟩ := h
    exact ⟨by rw [skip_rest, hr]; rfl, rfl⟩

theorem take_beBytes {r : Bytes} {k : Nat} (h : k ≤ r.length) : r.take k = beBytes k (beVal (r.take k)) := by
  have := beBytes_beVal (r.take k)
  rw [List.length_take, Nat.min_eq_left h] at this
  exact this.symm

theorem readUint16_took {b b' : BytesBuffer} {v : UInt16} (hf : b.Full) (ho : b.order = .big)
    (h : b.readUint16 = .ok (v, b')) : Took b (beBytes 2 v.toNat) b' := by
  rw [readUint16_full hf] at h
  split at h
  · simp at h
  · rename_i hl
    simp only [Except.ok.injEq, Prod.mk.injEq] at h
    obtain ⟨rfl, rfl⟩ := h
    have hlt := beVal_lt (b.rest.take 2)
    rw [List.length_take, Nat.min_eq_left (by omega)] at hlt
    rw [ho, ByteOrder.get, UInt16.toNat_ofNat', Nat.mod_eq_of_lt (by omega), ← take_beBytes (by omega)]
    exact ⟨by rw [skip_rest, List.take_append_drop], by simp; rw [Nat.min_eq_left (by omega)]⟩

theorem readUint32_took {b b' : BytesBuffer} {v : UInt32} (hf : b.Full) (ho : b.order = .big)
    (h : b.readUint32 = .ok (v, b')) : Took b (beBytes 4 v.toNat) b' := by
  rw [readUint32_full hf] at h
  split at h
  · simp at h
  · rename_i hl
    simp only [Except.ok.injEq, Prod.mk.injEq] at h
    obtain ⟨rfl, rfl⟩ := h
    have hlt := beVal_lt (b.rest.take 4)
    rw [List.length_take, Nat.min_eq_left (by omega)] at hlt
    rw [ho, ByteOrder.get, UInt32.toNat_ofNat', Nat.mod_eq_of_lt (by omega), ← take_beBytes (by omega)]
    exact ⟨by rw [skip_rest, List.take_append_drop], by simp; rw [Nat.min_eq_left (by omega)]⟩

theorem readUint64_took {b b' : BytesBuffer} {v : UInt64} (hf : b.Full) (ho : b.order = .big)
    (h : b.readUint64 = .ok (v, b')) : Took b (beBytes 8 v.toNat) b' := by
  rw [readUint64_full hf] at h
  split at h
  · simp at h
  · rename_i hl
    simp only [Except.ok.injEq, Prod.mk.injEq] at h
    obtain ⟨rfl, rfl⟩ := h
    have hlt := beVal_lt (b.rest.take 8)
    rw [List.length_take, Nat.min_eq_left (by omega)] at hlt
    rw [ho, ByteOrder.get, UInt64.toNat_ofNat', Nat.mod_eq_of_lt (by omega), ← take_beBytes (by omega)]
    exact ⟨by rw [skip_rest, List.take_append_drop], by simp; rw [Nat.min_eq_left (by omega)]⟩

theorem readInt_took {b b' : BytesBuffer} {n : Nat} (hf : b.Full) (ho : b.order = .big)
    (h : b.readInt = .ok (n, b')) : Took b (beBytes 4 n) b' ∧ n < 2 ^ 32 := by
  rw [readInt] at h
  split at h
  · simp at h
  · rename_i u b1 h1
    simp only [Except.ok.injEq, Prod.mk.injEq] at h
    obtain ⟨rfl, rfl⟩ := h
    exact ⟨readUint32_took hf ho h1, u.toNat_lt⟩

theorem decodeString_took {b b' : BytesBuffer} {s : Bytes} (hf : b.Full) (ho : b.order = .big)
    (h : decodeString b = .ok (s, b')) : Took b (lp s) b' ∧ s.length < 2 ^ 32 := by
  rw [decodeString] at h
  split at h
  · simp at h
  · rename_i n b1 h1
    obtain ⟨t1, hn⟩ := readInt_took hf ho h1
    have hf1 := t1.full hf
    split at h
    · simp at h
    · rename_i s' b2 h2
      simp only [Except.ok.injEq, Prod.mk.injEq] at h
      obtain ⟨rfl, rfl⟩ := h
      rw [next_full hf1] at h2
      split at h2
      · simp at h2
      · rename_i hl
        simp only [Except.ok.injEq, Prod.mk.injEq] at h2
        obtain ⟨rfl, rfl⟩ := h2
        have hlen : (b1.rest.take n).length = n := by rw [List.length_take]; omega
        have t2 : Took b1 (b1.rest.take n) (b1.skip n) :=
          ⟨by rw [skip_rest, List.take_append_drop], by rw [hlen]⟩
        have := t1.trans t2
        rw [lp, hlen]
        exact ⟨this, hn⟩

theorem decStrs_took : ∀ (f : Nat) (b : BytesBuffer) (e : Nat) (a l : List Bytes) (b' : BytesBuffer),
    b.Full → b.order = .big → decStrs f b e a = .ok (l, b') →
    ∃ xs : List Bytes, l = a ++ xs ∧ Took b (xs.map lp).flatten b' ∧ b'.rpos = e ∧ ∀ x ∈ xs, x.length < 2 ^ 32 := by
  intro f
  induction f with
  | zero => intro b e a l b' _ _ h; simp [decStrs] at h
  | succ f ih =>
    intro b e a l b' hf ho h
    rw [decStrs] at h
    split at h
    · split at h
      · simp at h
      · rename_i s b1 h1
        obtain ⟨t1, hs⟩ := decodeString_took hf ho h1
        obtain ⟨xs, g1, g2, g3, g4⟩ := ih b1 e _ l b' (t1.full hf) (t1.order.trans ho) h
        refine ⟨s :: xs, by simp [g1], t1.trans g2, g3, ?_⟩
        intro x hx
        rcases List.mem_cons.mp hx with rfl | hx
        · exact hs
        · exact g4 x hx
    · split at h
      · simp at h
      · rename_i he
        simp only [Except.ok.injEq, Prod.mk.injEq] at h
        obtain ⟨rfl, rfl⟩ := h
        exact ⟨[], by simp, took_refl b, by simpa using he, by simp⟩

theorem decStrMap_took : ∀ (f : Nat) (b : BytesBuffer) (e : Nat) (m m' : AMap Bytes Bytes) (b' : BytesBuffer),
    b.Full → b.order = .big → decStrMap f b e m = .ok (m', b') →
    ∃ xs : List (Bytes × Bytes), m' = m.storeAll xs ∧ Took b (xs.map fun x => lp x.1 ++ lp x.2).flatten b' ∧
      b'.rpos = e ∧ ∀ x ∈ xs, x.1.length < 2 ^ 32 ∧ x.2.length < 2 ^ 32 := by
  intro f
  induction f with
  | zero => intro b e a l b' _ _ h; simp [decStrMap] at h
  | succ f ih =>
    intro b e m m' b' hf ho h
    rw [decStrMap] at h
    split at h
    · split at h
      · simp at h
      · rename_i s b1 h1
        obtain ⟨t1, hs⟩ := decodeString_took hf ho h1
        split at h
        · simp at h
        · rename_i s2 b2 h2
          obtain ⟨t2, hs2⟩ := decodeString_took (t1.full hf) (t1.order.trans ho) h2
          have t12 := t1.trans t2
          obtain ⟨xs, g1, g2, g3, g4⟩ := ih b2 e _ m' b' (t12.full hf) (t12.order.trans ho) h
          refine ⟨(s, s2) :: xs, g1, t12.trans g2, g3, ?_⟩
          intro x hx
          rcases List.mem_cons.mp hx with rfl | hx
          · exact ⟨hs, hs2⟩
          · exact g4 x hx
    · split at h
      · simp at h
      · rename_i he
        simp only [Except.ok.injEq, Prod.mk.injEq] at h
        obtain ⟨rfl, rfl⟩ := h
        exact ⟨[], rfl, took_refl b, by simpa using he, by simp⟩

theorem map_ok {α β : Type} {r : Except Err (α × BytesBuffer)} {g : α × BytesBuffer → β × BytesBuffer} {v : β}
    {b' : BytesBuffer} (h : r.map g = .ok (v, b')) : ∃ x, r = .ok x ∧ g x = (v, b') := by
  cases r with
  | error e => simp [Except.map] at h
  | ok x => simp only [Except.map, Except.ok.injEq] at h; exact ⟨x, rfl, h⟩

theorem rd_ok {α : Type} {r : Except BufErr (α × BytesBuffer)} {x : α × BytesBuffer} (h : rd r = .ok x) :
    r = .ok x := by
  cases r with
  | error e => simp [rd] at h
  | ok y => simp only [rd, Except.ok.injEq] at h; rw [h]

theorem decScalar_sound {b : BytesBuffer} {tp : UInt8} {v : Val} {b' : BytesBuffer} (hf : b.Full)
    (ho : b.order = .big) (h : decScalar b tp = some (.ok (v, b'))) :
    ∃ p, Took b p b' ∧ Wire (tp :: p) v := by
  simp only [decScalar] at h
  split at h
  · rename_i ht
    simp only [Option.some.injEq, Except.ok.injEq, Prod.mk.injEq] at h
    obtain ⟨rfl, rfl⟩ := h
    subst ht
    exact ⟨[], took_refl b, .null⟩
  split at h
  · rename_i ht
    simp only [Option.some.injEq] at h
    obtain ⟨⟨c, b1⟩, h1, h2⟩ := map_ok h
    simp only [Prod.mk.injEq] at h2
    obtain ⟨rfl, rfl⟩ := h2
    subst ht
    exact ⟨[c], readByte_took (rd_ok h1), .bool c⟩
  split at h
  · rename_i ht
    simp only [Option.some.injEq] at h
    obtain ⟨⟨c, b1⟩, h1, h2⟩ := map_ok h
    simp only [Prod.mk.injEq] at h2
    obtain ⟨rfl, rfl⟩ := h2
    subst ht
    exact ⟨[c], readByte_took (rd_ok h1), .byte c⟩
  split at h
  · rename_i ht
    simp only [Option.some.injEq] at h
    obtain ⟨⟨c, b1⟩, h1, h2⟩ := map_ok h
    simp only [Prod.mk.injEq] at h2
    obtain ⟨rfl, rfl⟩ := h2
    subst ht
    exact ⟨_, readUint16_took hf ho (rd_ok h1), .i16 c⟩
  split at h
  · rename_i ht
    simp only [Option.some.injEq] at h
    obtain ⟨⟨c, b1⟩, h1, h2⟩ := map_ok h
    simp only [Prod.mk.injEq] at h2
    obtain ⟨rfl, rfl⟩ := h2
    subst ht
    have h3 := rd_ok h1
    rw [readZigzag32, readVarint] at h3
    split at h3
    · simp at h3
    · rename_i x b2 h4
      simp only [Except.ok.injEq, Prod.mk.injEq] at h3
      obtain ⟨rfl, rfl⟩ := h3
      obtain ⟨c, g1, g2, g3⟩ := readVarintLoop_sound b 0 0 _ _ h4
      refine ⟨c, ⟨g1, g2⟩, ?_⟩
      have := Wire.i32 c x g3
      have e : (⟨zigzagDec32 (x.toBitVec.setWidth 32)⟩ : UInt32)
          = (UInt64.ofBitVec ((zigzagDec32 (x.toBitVec.setWidth 32)).setWidth 64)).toUInt32 := by
        apply UInt32.toNat_inj.mp
        simp
      rw [e] at this
      exact this
  split at h
  · rename_i ht
    simp only [Option.some.injEq] at h
    obtain ⟨⟨c, b1⟩, h1, h2⟩ := map_ok h
    simp only [Prod.mk.injEq] at h2
    obtain ⟨rfl, rfl⟩ := h2
    subst ht
    have h3 := rd_ok h1
    rw [readZigzag64, readVarint] at h3
    split at h3
    · simp at h3
    · rename_i x b2 h4
      simp only [Except.ok.injEq, Prod.mk.injEq] at h3
      obtain ⟨rfl, rfl⟩ := h3
      obtain ⟨c, g1, g2, g3⟩ := readVarintLoop_sound b 0 0 _ _ h4
      exact ⟨c, ⟨g1, g2⟩, Wire.i64 c x g3⟩
  split at h
  · rename_i ht
    simp only [Option.some.injEq] at h
    obtain ⟨⟨c, b1⟩, h1, h2⟩ := map_ok h
    simp only [Prod.mk.injEq] at h2
    obtain ⟨rfl, rfl⟩ := h2
    subst ht
    exact ⟨_, readUint32_took hf ho (rd_ok h1), .f32 c⟩
  split at h
  · rename_i ht
    simp only [Option.some.injEq] at h
    obtain ⟨⟨c, b1⟩, h1, h2⟩ := map_ok h
    simp only [Prod.mk.injEq] at h2
    obtain ⟨rfl, rfl⟩ := h2
    subst ht
    exact ⟨_, readUint64_took hf ho (rd_ok h1), .f64 c⟩
  · simp at h

theorem took_lp {b b1 b' : BytesBuffer} {n : Nat} {content : Bytes} (t1 : Took b (beBytes 4 n) b1)
    (t2 : Took b1 content b') (he : b'.rpos = b1.rpos + n) : Took b (lp content) b' ∧ content.length = n := by
  have := t2.rpos
  have hn : content.length = n := by omega
  exact ⟨by rw [lp, hn]; exact t1.trans t2, hn⟩

theorem decode_sound_all : ∀ f : Nat,
    (∀ (b : BytesBuffer) (v : Val) (b' : BytesBuffer), b.Full → b.order = .big → decVal f b = .ok (v, b') →
      ∃ p, Took b p b' ∧ Wire p v) ∧
    (∀ (b : BytesBuffer) (e : Nat) (a l : List Val) (b' : BytesBuffer), b.Full → b.order = .big →
      decElems f b e a = .ok (l, b') →
      ∃ xs : List (Bytes × Val), l = a ++ xs.map Prod.snd ∧ Took b (xs.map Prod.fst).flatten b' ∧ b'.rpos = e ∧
        ∀ x ∈ xs, Wire x.1 x.2) ∧
    (∀ (b : BytesBuffer) (e : Nat) (m m' : List (Val × Val)) (b' : BytesBuffer), b.Full → b.order = .big →
      decPairs f b e m = .ok (m', b') →
      ∃ xs : List ((Bytes × Val) × (Bytes × Val)), m' = xs.foldl (fun m x => mapStore m x.1.2 x.2.2) m ∧
        Took b (xs.map fun x => x.1.1 ++ x.2.1).flatten b' ∧ b'.rpos = e ∧
        (∀ x ∈ xs, Wire x.1.1 x.1.2) ∧ (∀ x ∈ xs, Wire x.2.1 x.2.2) ∧ ∀ x ∈ xs, hashable x.1.2 = true) := by
  intro f
  induction f with
  | zero => simp [decVal, decElems, decPairs]
  | succ f ih =>
    obtain ⟨ih1, ih2, ih3⟩ := ih
    refine ⟨?_, ?_, ?_⟩
    · intro b v b' hf ho h
      rw [decVal] at h
      split at h
      · simp at h
      · rename_i tp b1 h1
        have t1 := readByte_took h1
        have hf1 := t1.full hf
        have ho1 := t1.order.trans ho
        split at h
        · rename_i r hr
          rw [h] at hr
          obtain ⟨p, t2, w⟩ := decScalar_sound hf1 ho1 hr
          exact ⟨_, t1.trans t2, w⟩
        · split at h
          · rename_i htp
            obtain ⟨⟨s, b2⟩, h2, h3⟩ := map_ok h
            simp only [Prod.mk.injEq] at h3
            obtain ⟨rfl, rfl⟩ := h3
            obtain ⟨t2, hs⟩ := decodeString_took hf1 ho1 h2
            subst htp
            exact ⟨_, t1.trans t2, .str s hs⟩
          split at h
          · rename_i htp
            obtain ⟨⟨s, b2⟩, h2, h3⟩ := map_ok h
            simp only [Prod.mk.injEq] at h3
            obtain ⟨rfl, rfl⟩ := h3
            obtain ⟨t2, hs⟩ := decodeString_took hf1 ho1 h2
            subst htp
            exact ⟨_, t1.trans t2, .bytes s hs⟩
          split at h
          · rename_i htags
            split at h
            · simp at h
            · rename_i total b2 h2
              obtain ⟨t2, hn⟩ := readInt_took hf1 ho1 h2
              have hf2 := t2.full hf1
              have ho2 := t2.order.trans ho1
              simp only at h
              split at h
              · rename_i htp
                subst htp
                split at h
                · rename_i h0
                  subst h0
                  simp only [Except.ok.injEq, Prod.mk.injEq] at h
                  obtain ⟨rfl, rfl⟩ := h
                  have := Wire.strMap [] (by simp) _ rfl (by simp)
                  exact ⟨_, t1.trans t2, this⟩
                · obtain ⟨⟨m, b3⟩, h3, h4⟩ := map_ok h
                  simp only [Prod.mk.injEq] at h4
                  obtain ⟨rfl, rfl⟩ := h4
                  obtain ⟨xs, g1, g2, g3, g4⟩ := decStrMap_took _ _ _ _ _ _ hf2 ho2 h3
                  obtain ⟨t3, hl⟩ := took_lp t2 g2 g3
                  have := Wire.strMap xs g4 _ rfl (by omega)
                  rw [g1]
                  exact ⟨_, t1.trans t3, this⟩
              split at h
              · rename_i htp
                subst htp
                split at h
                · rename_i h0
                  subst h0
                  simp only [Except.ok.injEq, Prod.mk.injEq] at h
                  obtain ⟨rfl, rfl⟩ := h
                  have := Wire.strArr [] (by simp) _ rfl (by simp)
                  exact ⟨_, t1.trans t2, this⟩
                · obtain ⟨⟨m, b3⟩, h3, h4⟩ := map_ok h
                  simp only [Prod.mk.injEq] at h4
                  obtain ⟨rfl, rfl⟩ := h4
                  obtain ⟨xs, g1, g2, g3, g4⟩ := decStrs_took _ _ _ _ _ _ hf2 ho2 h3
                  obtain ⟨t3, hl⟩ := took_lp t2 g2 g3
                  have := Wire.strArr xs g4 _ rfl (by omega)
                  rw [g1]
                  exact ⟨_, t1.trans t3, this⟩
              split at h
              · rename_i htp
                subst htp
                split at h
                · rename_i h0
                  subst h0
                  simp only [Except.ok.injEq, Prod.mk.injEq] at h
                  obtain ⟨rfl, rfl⟩ := h
                  have := Wire.map [] (by simp) (by simp) (by simp) _ rfl (by simp)
                  exact ⟨_, t1.trans t2, this⟩
                · obtain ⟨⟨m, b3⟩, h3, h4⟩ := map_ok h
                  simp only [Prod.mk.injEq] at h4
                  obtain ⟨rfl, rfl⟩ := h4
                  obtain ⟨xs, g1, g2, g3, g4, g5, g6⟩ := ih3 _ _ _ _ _ hf2 ho2 h3
                  obtain ⟨t3, hl⟩ := took_lp t2 g2 g3
                  have := Wire.map xs g4 g5 g6 _ rfl (by omega)
                  rw [g1]
                  exact ⟨_, t1.trans t3, this⟩
              · rename_i n1 n2 n3
                have htp : tp = sArray := by
                  rcases htags with h | h | h | h
                  · exact absurd h n1
                  · exact absurd h n2
                  · exact absurd h n3
                  · exact h
                subst htp
                split at h
                · rename_i h0
                  subst h0
                  simp only [Except.ok.injEq, Prod.mk.injEq] at h
                  obtain ⟨rfl, rfl⟩ := h
                  have := Wire.arr [] (by simp) _ rfl (by simp)
                  exact ⟨_, t1.trans t2, this⟩
                · obtain ⟨⟨m, b3⟩, h3, h4⟩ := map_ok h
                  simp only [Prod.mk.injEq] at h4
                  obtain ⟨rfl, rfl⟩ := h4
                  obtain ⟨xs, g1, g2, g3, g4⟩ := ih2 _ _ _ _ _ hf2 ho2 h3
                  obtain ⟨t3, hl⟩ := took_lp t2 g2 g3
                  have := Wire.arr xs g4 _ rfl (by omega)
                  rw [g1]
                  exact ⟨_, t1.trans t3, this⟩
          · simp at h
    · intro b e a l b' hf ho h
      rw [decElems] at h
      split at h
      · split at h
        · simp at h
        · rename_i v b1 h1
          obtain ⟨p, t1, w⟩ := ih1 _ _ _ hf ho h1
          obtain ⟨xs, g1, g2, g3, g4⟩ := ih2 _ _ _ _ _ (t1.full hf) (t1.order.trans ho) h
          refine ⟨(p, v) :: xs, by simp [g1], t1.trans g2, g3, ?_⟩
          intro x hx
          rcases List.mem_cons.mp hx with rfl | hx
          · exact w
          · exact g4 x hx
      · split at h
        · simp at h
        · rename_i he
          simp only [Except.ok.injEq, Prod.mk.injEq] at h
          obtain ⟨rfl, rfl⟩ := h
          exact ⟨[], by simp, took_refl b, by simpa using he, by simp⟩
    · intro b e m m' b' hf ho h
      rw [decPairs] at h
      split at h
      · split at h
        · simp at h
        · rename_i k b1 h1
          obtain ⟨p, t1, w1⟩ := ih1 _ _ _ hf ho h1
          split at h
          · simp at h
          · rename_i v b2 h2
            obtain ⟨q, t2, w2⟩ := ih1 _ _ _ (t1.full hf) (t1.order.trans ho) h2
            have t12 := t1.trans t2
            split at h
            · rename_i hk
              obtain ⟨xs, g1, g2, g3, g4, g5, g6⟩ := ih3 _ _ _ _ _ (t12.full hf) (t12.order.trans ho) h
              refine ⟨((p, k), (q, v)) :: xs, g1, t12.trans g2, g3, ?_, ?_, ?_⟩ <;>
                (intro x hx; rcases List.mem_cons.mp hx with rfl | hx)
              · exact w1
              · exact g4 x hx
              · exact w2
              · exact g5 x hx
              · exact hk
              · exact g6 x hx
            · simp at h
      · split at h
        · simp at h
        · rename_i he
          simp only [Except.ok.injEq, Prod.mk.injEq] at h
          obtain ⟨rfl, rfl⟩ := h
          exact ⟨[], by simp, took_refl b, by simpa using he, by simp⟩

/-! ## Fuel -/

theorem map_fuel {α β : Type} {r : Except Err α} {g : α → β} (h : r ≠ .error .fuel) : r.map g ≠ .error .fuel := by
  cases r with
  | error e => simpa [Except.map] using h
  | ok x => simp [Except.map]

theorem rd_fuel {α : Type} (r : Except BufErr (α × BytesBuffer)) : rd r ≠ .error .fuel := by
  cases r <;> simp [rd]

theorem decodeString_fuel (b : BytesBuffer) : decodeString b ≠ .error .fuel := by
  rw [decodeString]
  split
  · simp
  · split <;> simp

theorem decScalar_fuel {b : BytesBuffer} {tp : UInt8} {r : Except Err (Val × BytesBuffer)}
    (h : decScalar b tp = some r) : r ≠ .error .fuel := by
  simp only [decScalar] at h
  repeat' split at h
  all_goals first
    | (simp only [Option.some.injEq] at h; subst h; first | exact map_fuel (rd_fuel _) | simp)
    | simp at h

theorem decStrs_fuel : ∀ (f : Nat) (b : BytesBuffer) (e : Nat) (a : List Bytes), b.Full → b.order = .big →
    2 * b.rest.length + 2 ≤ f → decStrs f b e a ≠ .error .fuel := by
  intro f
  induction f with
  | zero => intro b e a _ _ h; omega
  | succ f ih =>
    intro b e a hf ho hfu
    rw [decStrs]
    split
    · split
      · rename_i e' he; intro hc; simp only [Except.error.injEq] at hc; subst hc; exact decodeString_fuel b he
      · rename_i s b1 h1
        obtain ⟨t1, _⟩ := decodeString_took hf ho h1
        have := t1.length
        simp only [lp, List.length_append, length_beBytes] at this
        exact ih _ _ _ (t1.full hf) (t1.order.trans ho) (by omega)
    · split <;> simp

theorem decStrMap_fuel : ∀ (f : Nat) (b : BytesBuffer) (e : Nat) (a : AMap Bytes Bytes), b.Full → b.order = .big →
    2 * b.rest.length + 2 ≤ f → decStrMap f b e a ≠ .error .fuel := by
  intro f
  induction f with
  | zero => intro b e a _ _ h; omega
  | succ f ih =>
    intro b e a hf ho hfu
    rw [decStrMap]
    split
    · split
      · rename_i e' he; intro hc; simp only [Except.error.injEq] at hc; subst hc; exact decodeString_fuel b he
      · rename_i s b1 h1
        obtain ⟨t1, _⟩ := decodeString_took hf ho h1
        split
        · rename_i e' he; intro hc; simp only [Except.error.injEq] at hc; subst hc; exact decodeString_fuel b1 he
        · rename_i s2 b2 h2
          obtain ⟨t2, _⟩ := decodeString_took (t1.full hf) (t1.order.trans ho) h2
          have l1 := t1.length
          have l2 := t2.length
          simp only [lp, List.length_append, length_beBytes] at l1 l2
          exact ih _ _ _ ((t1.trans t2).full hf) ((t1.trans t2).order.trans ho) (by omega)
    · split <;> simp

theorem fuel_all : ∀ f : Nat,
    (∀ b : BytesBuffer, b.Full → b.order = .big → 2 * b.rest.length + 1 ≤ f → decVal f b ≠ .error .fuel) ∧
    (∀ (b : BytesBuffer) (e : Nat) (a : List Val), b.Full → b.order = .big → 2 * b.rest.length + 2 ≤ f →
      decElems f b e a ≠ .error .fuel) ∧
    (∀ (b : BytesBuffer) (e : Nat) (a : List (Val × Val)), b.Full → b.order = .big → 2 * b.rest.length + 2 ≤ f →
      decPairs f b e a ≠ .error .fuel) := by
  intro f
  induction f with
  | zero => exact ⟨fun b _ _ h => by omega, fun b e a _ _ h => by omega, fun b e a _ _ h => by omega⟩
  | succ f ih =>
    obtain ⟨ih1, ih2, ih3⟩ := ih
    refine ⟨?_, ?_, ?_⟩
    · intro b hf ho hfu
      rw [decVal]
      split
      · simp
      · rename_i tp b1 h1
        have t1 := readByte_took h1
        have l1 := t1.length
        split
        · rename_i r hr; exact decScalar_fuel hr
        · split
          · exact map_fuel (decodeString_fuel _)
          split
          · exact map_fuel (decodeString_fuel _)
          split
          · split
            · simp
            · rename_i total b2 h2
              obtain ⟨t2, _⟩ := readInt_took (t1.full hf) (t1.order.trans ho) h2
              have l2 := t2.length
              simp only [List.length_singleton, length_beBytes] at l1 l2
              have hf2 := (t1.trans t2).full hf
              have ho2 := (t1.trans t2).order.trans ho
              simp only
              split
              · split
                · simp
                · exact map_fuel (decStrMap_fuel _ _ _ _ hf2 ho2 (by omega))
              split
              · split
                · simp
                · exact map_fuel (decStrs_fuel _ _ _ _ hf2 ho2 (by omega))
              split
              · split
                · simp
                · exact map_fuel (ih3 _ _ _ hf2 ho2 (by omega))
              · split
                · simp
                · exact map_fuel (ih2 _ _ _ hf2 ho2 (by omega))
          · simp
    · intro b e a hf ho hfu
      rw [decElems]
      split
      · split
        · rename_i e' he; intro hc; simp only [Except.error.injEq] at hc; subst hc
          exact ih1 b hf ho (by omega) he
        · rename_i v b1 h1
          obtain ⟨p, t1, w⟩ := (decode_sound_all f).1 _ _ _ hf ho h1
          have := wire_ne_nil w
          have := t1.length
          exact ih2 _ _ _ (t1.full hf) (t1.order.trans ho) (by omega)
      · split <;> simp
    · intro b e a hf ho hfu
      rw [decPairs]
      split
      · split
        · rename_i e' he; intro hc; simp only [Except.error.injEq] at hc; subst hc
          exact ih1 b hf ho (by omega) he
        · rename_i v b1 h1
          obtain ⟨p, t1, w⟩ := (decode_sound_all f).1 _ _ _ hf ho h1
          have := wire_ne_nil w
          have l1 := t1.length
          split
          · rename_i e' he; intro hc; simp only [Except.error.injEq] at hc; subst hc
            exact ih1 b1 (t1.full hf) (t1.order.trans ho) (by omega) he
          · rename_i v2 b2 h2
            obtain ⟨p2, t2, w2⟩ := (decode_sound_all f).1 _ _ _ (t1.full hf) (t1.order.trans ho) h2
            have l2 := t2.length
            split
            · exact ih3 _ _ _ ((t1.trans t2).full hf) ((t1.trans t2).order.trans ho) (by omega)
            · simp
      · split <;> simp

end Motan.Simple
