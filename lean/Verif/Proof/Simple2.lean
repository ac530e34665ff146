import Verif.Proof.Simple

/-!
# The simple serialization: encoder output is in the grammar; the decoder accepts exactly the grammar
-/

namespace Motan.Simple

open Motan BytesBuffer

/-! ## Encoder -/

theorem hashable_norm (v : Val) : hashable (norm v) = hashable v := by
  cases v <;> simp [norm, hashable]

theorem f32_same (a b : UInt32) : (!isNaN32 a && (a == b || ((a ||| b) &&& 0x7fffffff) == 0)) = ((num32 a).isSome && num32 a == num32 b) := by
  have hm : ∀ x : UInt32, (x &&& 0x7fffffff).toNat = x.toNat % 2^31 := by
    intro x; rw [UInt32.toNat_and]; exact Nat.and_two_pow_sub_one_eq_mod x.toNat 31
  have hz : ((a ||| b) &&& 0x7fffffff = 0) ↔ (a.toNat % 2^31 = 0 ∧ b.toNat % 2^31 = 0) := by
    rw [← UInt32.toNat_inj, hm, UInt32.toNat_or, Nat.or_mod_two_pow, UInt32.toNat_zero]
    exact Nat.or_eq_zero_iff
  have hn : isNaN32 a = decide (a.toNat % 2 ^ 31 > 255 * 2 ^ 23) := by
    unfold isNaN32
    rw [decide_eq_decide, gt_iff_lt, UInt32.lt_iff_toNat_lt, hm]; rfl
  rw [hn, Bool.eq_iff_iff]
  have h0 : ∀ x : UInt32, x = 0 → x.toNat % 2 ^ 31 = 0 := by intro x e; rw [e]; rfl
  simp only [Bool.and_eq_true, Bool.not_eq_true', decide_eq_false_iff_not, Bool.or_eq_true, beq_iff_eq, hz]
  unfold num32
  by_cases ha : a.toNat % 2 ^ 31 > 255 * 2 ^ 23
  · simp [ha]
  · by_cases ha0 : a.toNat % 2 ^ 31 = 0 <;> by_cases hb : b.toNat % 2 ^ 31 > 255 * 2 ^ 23 <;>
      by_cases hb0 : b.toNat % 2 ^ 31 = 0 <;> simp [ha, ha0, hb, hb0] <;>
      first | omega | (intro e; subst e; omega) | (intro e; exact ha0 (h0 _ e)) | (intro e; exact hb0 (h0 _ e.symm)) |
        exact ⟨fun e => absurd (e ▸ ha0) hb0, fun e => absurd (h0 _ e.symm) hb0⟩ |
        exact ⟨fun e => absurd (e ▸ hb0) ha0, fun e => absurd (h0 _ e) ha0⟩

theorem f64_same (a b : UInt64) : (!isNaN64 a && (a == b || ((a ||| b) &&& 0x7fffffffffffffff) == 0)) = ((num64 a).isSome && num64 a == num64 b) := by
  have hm : ∀ x : UInt64, (x &&& 0x7fffffffffffffff).toNat = x.toNat % 2^63 := by
    intro x; rw [UInt64.toNat_and]; exact Nat.and_two_pow_sub_one_eq_mod x.toNat 63
  have hz : ((a ||| b) &&& 0x7fffffffffffffff = 0) ↔ (a.toNat % 2^63 = 0 ∧ b.toNat % 2^63 = 0) := by
    rw [← UInt64.toNat_inj, hm, UInt64.toNat_or, Nat.or_mod_two_pow, UInt64.toNat_zero]
    exact Nat.or_eq_zero_iff
  have hn : isNaN64 a = decide (a.toNat % 2 ^ 63 > 2047 * 2 ^ 52) := by
    unfold isNaN64
    rw [decide_eq_decide, gt_iff_lt, UInt64.lt_iff_toNat_lt, hm]; rfl
  rw [hn, Bool.eq_iff_iff]
  have h0 : ∀ x : UInt64, x = 0 → x.toNat % 2 ^ 63 = 0 := by intro x e; rw [e]; rfl
  simp only [Bool.and_eq_true, Bool.not_eq_true', decide_eq_false_iff_not, Bool.or_eq_true, beq_iff_eq, hz]
  unfold num64
  by_cases ha : a.toNat % 2 ^ 63 > 2047 * 2 ^ 52
  · simp [ha]
  · by_cases ha0 : a.toNat % 2 ^ 63 = 0 <;> by_cases hb : b.toNat % 2 ^ 63 > 2047 * 2 ^ 52 <;>
      by_cases hb0 : b.toNat % 2 ^ 63 = 0 <;> simp [ha, ha0, hb, hb0] <;>
      first | omega | (intro e; subst e; omega) | (intro e; exact ha0 (h0 _ e)) | (intro e; exact hb0 (h0 _ e.symm)) |
        exact ⟨fun e => absurd (e ▸ ha0) hb0, fun e => absurd (h0 _ e.symm) hb0⟩ |
        exact ⟨fun e => absurd (e ▸ hb0) ha0, fun e => absurd (h0 _ e) ha0⟩

theorem keyEq_same (a b : Val) : keyEq a b = sameKey a b := by
  cases a <;> cases b <;> simp only [keyEq, sameKey]
  · exact f32_same _ _
  · exact f64_same _ _

theorem mapStore_append {m : List (Val × Val)} {k v : Val} (h : ∀ x ∈ m, keyEq x.1 k = false) :
    mapStore m k v = m ++ [(k, v)] := by
  induction m with
  | nil => rfl
  | cons p m ih =>
    obtain ⟨k', v'⟩ := p
    have h1 := h (k', v') (List.mem_cons_self ..)
    simp only at h1
    simp only [mapStore, h1, Bool.false_eq_true, if_false, List.cons_append]
    rw [ih fun x hx => h x (List.mem_cons_of_mem _ hx)]

theorem foldl_mapStore {m l : List (Val × Val)}
    (h0 : ∀ x ∈ m, ∀ y ∈ l, keyEq x.1 y.1 = false)
    (h : distinctKeys (l.map Prod.fst) = true) :
    l.foldl (fun m x => mapStore m x.1 x.2) m = m ++ l := by
  induction l generalizing m with
  | nil => simp
  | cons p l ih =>
    simp only [List.map_cons, distinctKeys, Bool.and_eq_true, List.all_eq_true, ← keyEq_same] at h
    rw [List.foldl_cons, mapStore_append (fun x hx => h0 x hx p (List.mem_cons_self ..)), ih _ h.2]
    · simp
    · intro x hx y hy
      rcases List.mem_append.mp hx with hx | hx
      · exact h0 x hx y (List.mem_cons_of_mem _ hy)
      · simp only [List.mem_singleton] at hx
        subst hx
        have := h.1 y.1 (List.mem_map_of_mem hy)
        simpa using this

theorem normP_eq (m : List (Val × Val)) : normP m = m.map fun p => (norm p.1, norm p.2) := by
  induction m with
  | nil => rfl
  | cons p m ih => obtain ⟨k, v⟩ := p; simp [normP, ih]

theorem normL_eq (l : List Val) : normL l = l.map norm := by
  induction l with
  | nil => rfl
  | cons p m ih => simp [normL, ih]

mutual
theorem serElem_wire {b b' : BytesBuffer} (hw : b.WF) (ho : b.order = .big) :
    ∀ v, serElem b v = .ok b' →
      ∃ p, Ext b p b' ∧ (p.length < 2 ^ 32 → storable v = true → Wire p (norm v))
  | .arr l, h => by
    obtain ⟨s1, s2⟩ := start_ok hw ho sArray
    simp only [serElem] at h
    split at h
    · simp at h
    · rename_i b2 h2
      simp only [Except.ok.injEq] at h
      subst h
      obtain ⟨xs, hext, hx⟩ := serElems_wire s1 s2 l h2
      refine ⟨_, ext_container hw ho sArray hext, fun hl hs => ?_⟩
      have hle := lp_length_le (xs.map Prod.fst).flatten
      simp only [List.length_cons] at hl
      obtain ⟨h3, h4⟩ := hx (by omega) (by simpa [storable] using hs)
      have := Wire.arr xs h3 _ rfl (by omega)
      rw [h4] at this
      exact this
  | .map m, h => by
    obtain ⟨s1, s2⟩ := start_ok hw ho sMap
    simp only [serElem] at h
    split at h
    · simp at h
    · rename_i b2 h2
      simp only [Except.ok.injEq] at h
      subst h
      obtain ⟨xs, hext, hx⟩ := serPairs_wire s1 s2 m h2
      refine ⟨_, ext_container hw ho sMap hext, fun hl hs => ?_⟩
      have hle := lp_length_le (xs.map fun x => x.1.1 ++ x.2.1).flatten
      simp only [List.length_cons] at hl
      simp only [storable, Bool.and_eq_true, List.all_eq_true] at hs
      obtain ⟨⟨hs1, hs2⟩, hs3⟩ := hs
      obtain ⟨h3, h4, h5⟩ := hx (by omega) hs3
      have hk : ∀ x ∈ xs, hashable x.1.2 = true := by
        intro x hx
        have : (x.1.2, x.2.2) ∈ normP m := by rw [← h5]; exact List.mem_map_of_mem (f := fun x => (x.1.2, x.2.2)) hx
        rw [normP_eq] at this
        obtain ⟨q, hq, e⟩ := List.mem_map.mp this
        simp only [Prod.mk.injEq] at e
        rw [← e.1, hashable_norm]
        exact hs1 q hq
      have := Wire.map xs h3 h4 hk _ rfl (by omega)
      have e : xs.foldl (fun m x => mapStore m x.1.2 x.2.2) [] = normP m := by
        have e1 : xs.foldl (fun m x => mapStore m x.1.2 x.2.2) []
            = (xs.map fun x => (x.1.2, x.2.2)).foldl (fun m x => mapStore m x.1 x.2) [] := by
          rw [List.foldl_map]
        rw [e1, h5, foldl_mapStore (by simp)]
        · simp
        · rw [normP_eq, List.map_map]; exact hs2
      rw [e] at this
      exact this
  | .null, h => by simp [serElem, encodeFlat] at h
  | .other, h => by simp [serElem, encodeFlat] at h
  | .str _, h => flat_wire hw ho (by simpa [serElem, encodeFlat] using h)
  | .strMap _, h => flat_wire hw ho (by simpa [serElem, encodeFlat] using h)
  | .bytes _, h => flat_wire hw ho (by simpa [serElem, encodeFlat] using h)
  | .strArr _, h => flat_wire hw ho (by simpa [serElem, encodeFlat] using h)
  | .bool _, h => flat_wire hw ho (by simpa [serElem, encodeFlat] using h)
  | .byte _, h => flat_wire hw ho (by simpa [serElem, encodeFlat] using h)
  | .i16 _, h => flat_wire hw ho (by simpa [serElem, encodeFlat] using h)
  | .i32 _, h => flat_wire hw ho (by simpa [serElem, encodeFlat] using h)
  | .i64 _, h => flat_wire hw ho (by simpa [serElem, encodeFlat] using h)
  | .int _, h => flat_wire hw ho (by simpa [serElem, encodeFlat] using h)
  | .f32 _, h => flat_wire hw ho (by simpa [serElem, encodeFlat] using h)
  | .f64 _, h => flat_wire hw ho (by simpa [serElem, encodeFlat] using h)

theorem serElems_wire {b b' : BytesBuffer} (hw : b.WF) (ho : b.order = .big) :
    ∀ l, serElems b l = .ok b' →
      ∃ xs : List (Bytes × Val), Ext b (xs.map Prod.fst).flatten b' ∧
        ((xs.map Prod.fst).flatten.length < 2 ^ 32 → storableL l = true →
          (∀ x ∈ xs, Wire x.1 x.2) ∧ xs.map Prod.snd = normL l)
  | [], h => by
    simp only [serElems, Except.ok.injEq] at h
    subst h
    exact ⟨[], ext_refl hw, fun _ _ => ⟨by simp, rfl⟩⟩
  | v :: l, h => by
    simp only [serElems] at h
    split at h
    · simp at h
    · rename_i b1 h1
      obtain ⟨p, e1, w1⟩ := serElem_wire hw ho v h1
      obtain ⟨xs, e2, w2⟩ := serElems_wire e1.wf (e1.order.trans ho) l h
      refine ⟨(p, norm v) :: xs, e1.trans e2, fun hl hs => ?_⟩
      simp only [List.map_cons, List.flatten_cons, List.length_append] at hl
      simp only [storableL, Bool.and_eq_true] at hs
      obtain ⟨g1, g2⟩ := w2 (by omega) hs.2
      refine ⟨?_, by simp [normL, g2]⟩
      intro x hx
      rcases List.mem_cons.mp hx with rfl | hx
      · exact w1 (by omega) hs.1
      · exact g1 x hx

theorem serPairs_wire {b b' : BytesBuffer} (hw : b.WF) (ho : b.order = .big) :
    ∀ m, serPairs b m = .ok b' →
      ∃ xs : List ((Bytes × Val) × (Bytes × Val)), Ext b (xs.map fun x => x.1.1 ++ x.2.1).flatten b' ∧
        ((xs.map fun x => x.1.1 ++ x.2.1).flatten.length < 2 ^ 32 → storableP m = true →
          (∀ x ∈ xs, Wire x.1.1 x.1.2) ∧ (∀ x ∈ xs, Wire x.2.1 x.2.2) ∧
            xs.map (fun x => (x.1.2, x.2.2)) = normP m)
  | [], h => by
    simp only [serPairs, Except.ok.injEq] at h
    subst h
    exact ⟨[], ext_refl hw, fun _ _ => ⟨by simp, by simp, rfl⟩⟩
  | (k, v) :: m, h => by
    simp only [serPairs] at h
    split at h
    · simp at h
    · rename_i b1 h1
      split at h
      · simp at h
      · split at h
        · simp at h
        · rename_i b2 h2
          obtain ⟨p, e1, w1⟩ := serElem_wire hw ho k h1
          obtain ⟨q, e2, w2⟩ := serElem_wire e1.wf (e1.order.trans ho) v h2
          have e12 := e1.trans e2
          obtain ⟨xs, e3, w3⟩ := serPairs_wire e12.wf (e12.order.trans ho) m h
          refine ⟨((p, norm k), (q, norm v)) :: xs, e12.trans e3, fun hl hs => ?_⟩
          simp only [List.map_cons, List.flatten_cons, List.length_append] at hl
          simp only [storableP, Bool.and_eq_true] at hs
          obtain ⟨g1, g2, g3⟩ := w3 (by omega) hs.2
          refine ⟨?_, ?_, by simp [normP, g3]⟩
          · intro x hx
            rcases List.mem_cons.mp hx with rfl | hx
            · exact w1 (by omega) hs.1.1
            · exact g1 x hx
          · intro x hx
            rcases List.mem_cons.mp hx with rfl | hx
            · exact w2 (by omega) hs.1.2
            · exact g2 x hx
end

theorem serializeBuf_wire {b b' : BytesBuffer} (hw : b.WF) (ho : b.order = .big) {v : Val}
    (h : serializeBuf b v = .ok b') :
    ∃ p, Ext b p b' ∧ (p.length < 2 ^ 32 → storable v = true → Wire p (norm v)) := by
  simp only [serializeBuf] at h
  split at h
  · simp only [Except.ok.injEq] at h
    subst h
    exact ⟨_, ext_writeByte hw sNull, fun _ _ => .null⟩
  · exact serElem_wire hw ho v h

/-- The encoder fails only on unsupported values. -/
theorem encodeFlat_some (b : BytesBuffer) (v : Val) :
    (encodeFlat b v).isSome = (match v with | .null | .map _ | .arr _ | .other => false | _ => true) := by
  cases v <;> rfl

mutual
theorem serElem_ok (b : BytesBuffer) : ∀ v, (supportedIn v = true → ∃ b', serElem b v = .ok b') ∧
    (supportedIn v = false → serElem b v = .error .notSupport)
  | .arr l => by
    have h := serElems_ok ((b.writeByte sArray).setWPos ((b.writeByte sArray).wpos + 4)) l
    simp only [supportedIn, serElem]
    exact ⟨fun hs => by obtain ⟨b', hb⟩ := h.1 hs; rw [hb]; exact ⟨_, rfl⟩, fun hs => by rw [h.2 hs]⟩
  | .map m => by
    have h := serPairs_ok ((b.writeByte sMap).setWPos ((b.writeByte sMap).wpos + 4)) m
    simp only [supportedIn, serElem]
    exact ⟨fun hs => by obtain ⟨b', hb⟩ := h.1 hs; rw [hb]; exact ⟨_, rfl⟩, fun hs => by rw [h.2 hs]⟩
  | .null => by simp [supportedIn, serElem, encodeFlat]
  | .other => by simp [supportedIn, serElem, encodeFlat]
  | .str _ => by simp [supportedIn, serElem, encodeFlat]
  | .strMap _ => by simp [supportedIn, serElem, encodeFlat]
  | .bytes _ => by simp [supportedIn, serElem, encodeFlat]
  | .strArr _ => by simp [supportedIn, serElem, encodeFlat]
  | .bool _ => by simp [supportedIn, serElem, encodeFlat]
  | .byte _ => by simp [supportedIn, serElem, encodeFlat]
  | .i16 _ => by simp [supportedIn, serElem, encodeFlat]
  | .i32 _ => by simp [supportedIn, serElem, encodeFlat]
  | .i64 _ => by simp [supportedIn, serElem, encodeFlat]
  | .int _ => by simp [supportedIn, serElem, encodeFlat]
  | .f32 _ => by simp [supportedIn, serElem, encodeFlat]
  | .f64 _ => by simp [supportedIn, serElem, encodeFlat]

theorem serElems_ok (b : BytesBuffer) : ∀ l, (supportedL l = true → ∃ b', serElems b l = .ok b') ∧
    (supportedL l = false → serElems b l = .error .notSupport)
  | [] => by simp [supportedL, serElems]
  | v :: l => by
    have h1 := serElem_ok b v
    cases hv : supportedIn v
    · simp [supportedL, hv, serElems, h1.2 hv]
    · obtain ⟨b1, hb⟩ := h1.1 hv
      simpa [supportedL, hv, serElems, hb] using serElems_ok b1 l

theorem serPairs_ok (b : BytesBuffer) : ∀ m, (supportedP m = true → ∃ b', serPairs b m = .ok b') ∧
    (supportedP m = false → serPairs b m = .error .notSupport)
  | [] => by simp [supportedP, serPairs]
  | (k, v) :: m => by
    have h1 := serElem_ok b k
    cases hk : supportedIn k
    · simp [supportedP, hk, serPairs, h1.2 hk]
    · obtain ⟨b1, hb⟩ := h1.1 hk
      cases hn : isNaNKey k
      · have h2 := serElem_ok b1 v
        cases hv : supportedIn v
        · simp [supportedP, hk, hn, hv, serPairs, hb, h2.2 hv]
        · obtain ⟨b2, hb2⟩ := h2.1 hv
          simpa [supportedP, hk, hn, hv, serPairs, hb, hb2] using serPairs_ok b2 m
      · simp [supportedP, hk, hn, serPairs, hb]
end

/-! ## Decoder accepts the grammar -/

theorem wire_ne_nil {p : Bytes} {v : Val} (h : Wire p v) : 0 < p.length := by
  cases h <;> simp

theorem readInt_lp {b : BytesBuffer} {n : Nat} {tl : Bytes} (hf : b.Full) (ho : b.order = .big)
    (hn : n < 2 ^ 32) (hr : b.rest = beBytes 4 n ++ tl) : b.readInt = .ok (n, b.skip 4) := by
  have hl : b.rest.length = 4 + tl.length := by rw [hr]; simp
  rw [readInt, readUint32_full hf, if_neg (by omega)]
  have ht : b.rest.take 4 = beBytes 4 n := by rw [hr, List.take_left' (by simp)]
  rw [ht, ho]
  simp only [ByteOrder.get, beVal_beBytes (show n < 256 ^ 4 by omega), toNat_ofNat32 hn]

theorem decodeString_lp {b : BytesBuffer} {s tl : Bytes} (hf : b.Full) (ho : b.order = .big)
    (hs : s.length < 2 ^ 32) (hr : b.rest = lp s ++ tl) :
    decodeString b = .ok (s, b.skip (lp s).length) := by
  have hr' : b.rest = beBytes 4 s.length ++ (s ++ tl) := by rw [hr, lp, List.append_assoc]
  have hl : b.rest.length = 4 + (s.length + tl.length) := by rw [hr']; simp
  have hf2 : (b.skip 4).Full := skip_full hf (by omega)
  have hr2 : (b.skip 4).rest = s ++ tl := by rw [skip_rest, hr', List.drop_left' (by simp)]
  simp only [decodeString, readInt_lp hf ho hs hr', next_full hf2, hr2]
  rw [if_neg (by simp)]
  simp [skip_skip, lp]

theorem skip_eq (b : BytesBuffer) (n : Nat) : (b.skip n).rpos = b.rpos + n := rfl

theorem rest_skip {b : BytesBuffer} {p tl : Bytes} (hr : b.rest = p ++ tl) : (b.skip p.length).rest = tl := by
  rw [skip_rest, hr, List.drop_left' rfl]

theorem full_skip {b : BytesBuffer} {p tl : Bytes} (hf : b.Full) (hr : b.rest = p ++ tl) :
    (b.skip p.length).Full := skip_full hf (by rw [hr]; simp)

theorem decStrs_ok (l : List Bytes) (hl : ∀ x ∈ l, x.length < 2 ^ 32) :
    ∀ (b : BytesBuffer) (tl : Bytes) (f : Nat) (a : List Bytes), b.Full → b.order = .big →
      b.rest = (l.map lp).flatten ++ tl → 2 * (l.map lp).flatten.length + 2 ≤ f →
      decStrs f b (b.rpos + (l.map lp).flatten.length) a
        = .ok (a ++ l, b.skip (l.map lp).flatten.length) := by
  induction l with
  | nil =>
    intro b tl f a hf ho hr hfu
    obtain ⟨f, rfl⟩ : ∃ g, f = g + 1 := ⟨f - 1, by omega⟩
    simp [decStrs, skip]
  | cons s l ih =>
    intro b tl f a hf ho hr hfu
    simp only [List.map_cons, List.flatten_cons] at hr hfu ⊢
    have hr1 : b.rest = lp s ++ ((l.map lp).flatten ++ tl) := by rw [hr, List.append_assoc]
    have hpos : 4 ≤ (lp s).length := by simp [lp]
    simp only [List.length_append] at hfu
    obtain ⟨f, rfl⟩ : ∃ g, f = g + 1 := ⟨f - 1, by omega⟩
    simp only [List.length_append, decStrs]
    rw [if_pos (by omega), decodeString_lp hf ho (hl s (List.mem_cons_self ..)) hr1]
    have := ih (fun x hx => hl x (List.mem_cons_of_mem _ hx)) (b.skip (lp s).length) tl f (a ++ [s])
      (full_skip hf hr1) ho (rest_skip hr1) (by omega)
    simp only [skip_eq, Nat.add_assoc, skip_skip] at this
    simpa using this

theorem decStrMap_ok (l : List (Bytes × Bytes)) (hl : ∀ x ∈ l, x.1.length < 2 ^ 32 ∧ x.2.length < 2 ^ 32) :
    ∀ (b : BytesBuffer) (tl : Bytes) (f : Nat) (m : AMap Bytes Bytes), b.Full → b.order = .big →
      b.rest = (l.map fun x => lp x.1 ++ lp x.2).flatten ++ tl →
      2 * (l.map fun x => lp x.1 ++ lp x.2).flatten.length + 2 ≤ f →
      decStrMap f b (b.rpos + (l.map fun x => lp x.1 ++ lp x.2).flatten.length) m
        = .ok (m.storeAll l, b.skip (l.map fun x => lp x.1 ++ lp x.2).flatten.length) := by
  induction l with
  | nil =>
    intro b tl f a hf ho hr hfu
    obtain ⟨f, rfl⟩ : ∃ g, f = g + 1 := ⟨f - 1, by omega⟩
    simp [decStrMap, skip, AMap.storeAll]
  | cons s l ih =>
    intro b tl f m hf ho hr hfu
    simp only [List.map_cons, List.flatten_cons] at hr hfu ⊢
    have hr1 : b.rest = lp s.1 ++ (lp s.2 ++ ((l.map fun x => lp x.1 ++ lp x.2).flatten ++ tl)) := by
      rw [hr]; simp
    have hpos : 4 ≤ (lp s.1).length := by simp [lp]
    simp only [List.length_append] at hfu
    obtain ⟨f, rfl⟩ : ∃ g, f = g + 1 := ⟨f - 1, by omega⟩
    simp only [List.length_append, decStrMap]
    have hs := hl s (List.mem_cons_self ..)
    have hr2 := rest_skip hr1
    have hf2 := full_skip hf hr1
    rw [if_pos (by omega), decodeString_lp hf ho hs.1 hr1]
    simp only [decodeString_lp hf2 ho hs.2 hr2]
    have := ih (fun x hx => hl x (List.mem_cons_of_mem _ hx)) ((b.skip (lp s.1).length).skip (lp s.2).length)
      tl f (m.store s.1 s.2) (full_skip hf2 hr2) ho (rest_skip hr2) (by omega)
    simp only [skip_eq, Nat.add_assoc, skip_skip] at this ⊢
    exact this

theorem readVarintLoop_varintAt {off : Nat} {x : UInt64} {c : Bytes} {r : UInt64} (h : VarintAt off x c r) :
    ∀ (b : BytesBuffer) (tl : Bytes), b.rest = c ++ tl →
      readVarintLoop b off x = .ok (r, b.skip c.length) := by
  induction h with
  | last h hc =>
    intro b tl hr
    rw [readVarintLoop, if_pos h, readByte_rest (tl := tl) (by simpa using hr)]
    simp only []
    rw [if_pos hc]; rfl
  | @more off x c cs r h hc ht ih =>
    intro b tl hr
    have hr1 : b.rest = [c] ++ (cs ++ tl) := by simpa using hr
    rw [readVarintLoop, if_pos h, readByte_rest (tl := cs ++ tl) (by simpa using hr)]
    simp only []
    rw [if_neg (by simp [hc]), ih (b.skip 1) tl (rest_skip hr1), skip_skip]
    simp [Nat.add_comm]

theorem readVarintLoop_sound (b : BytesBuffer) (off : Nat) (x : UInt64) :
    ∀ r b', readVarintLoop b off x = .ok (r, b') →
      ∃ c, b.rest = c ++ b'.rest ∧ b' = b.skip c.length ∧ VarintAt off x c r := by
  fun_induction readVarintLoop b off x with
  | case1 b off x ho e he => intro r b' h; simp at h
  | case2 b off x ho temp b1 he hc =>
    intro r b' h
    simp only [Except.ok.injEq, Prod.mk.injEq] at h
    obtain ⟨rfl, rfl⟩ := h
    cases hr : b.rest with
    | nil => rw [readByte_nil hr] at he; simp at he
    | cons c tl =>
      rw [readByte_rest hr] at he
      simp only [Except.ok.injEq, Prod.mk.injEq] at he
      obtain ⟨rfl, rfl⟩ := he
      exact ⟨[c], by rw [skip_rest, hr]; rfl, rfl, .last ho hc⟩
  | case3 b off x ho temp b1 he hc ih =>
    intro r b' h
    obtain ⟨cs, h1, h2, h3⟩ := ih r b' h
    cases hr : b.rest with
    | nil => rw [readByte_nil hr] at he; simp at he
    | cons c tl =>
      rw [readByte_rest hr] at he
      simp only [Except.ok.injEq, Prod.mk.injEq] at he
      obtain ⟨rfl, rfl⟩ := he
      rw [skip_rest, hr, List.drop_one, List.tail_cons] at h1
      refine ⟨c :: cs, by rw [h1]; rfl, ?_, .more ho (by simpa using hc) h3⟩
      rw [h2, skip_skip]; simp [Nat.add_comm]
  | case4 b off x ho => intro r b' h; simp at h

theorem decElems_ok (l : List (Bytes × Val)) (hp : ∀ x ∈ l, 0 < x.1.length)
    (hl : ∀ x ∈ l, ∀ (b : BytesBuffer) (tl : Bytes) (f : Nat), b.Full → b.order = .big →
      b.rest = x.1 ++ tl → 2 * x.1.length + 1 ≤ f → decVal f b = .ok (x.2, b.skip x.1.length)) :
    ∀ (b : BytesBuffer) (tl : Bytes) (f : Nat) (a : List Val), b.Full → b.order = .big →
      b.rest = (l.map Prod.fst).flatten ++ tl → 2 * (l.map Prod.fst).flatten.length + 2 ≤ f →
      decElems f b (b.rpos + (l.map Prod.fst).flatten.length) a
        = .ok (a ++ l.map Prod.snd, b.skip (l.map Prod.fst).flatten.length) := by
  induction l with
  | nil =>
    intro b tl f a hf ho hr hfu
    obtain ⟨f, rfl⟩ : ∃ g, f = g + 1 := ⟨f - 1, by omega⟩
    simp [decElems, skip]
  | cons s l ih =>
    intro b tl f a hf ho hr hfu
    simp only [List.map_cons, List.flatten_cons] at hr hfu ⊢
    have hr1 : b.rest = s.1 ++ ((l.map Prod.fst).flatten ++ tl) := by rw [hr, List.append_assoc]
    have hpos := hp s (List.mem_cons_self ..)
    simp only [List.length_append] at hfu
    obtain ⟨f, rfl⟩ : ∃ g, f = g + 1 := ⟨f - 1, by omega⟩
    simp only [List.length_append, decElems]
    rw [if_pos (by omega), hl s (List.mem_cons_self ..) b _ f hf ho hr1 (by omega)]
    have := ih (fun x hx => hp x (List.mem_cons_of_mem _ hx)) (fun x hx => hl x (List.mem_cons_of_mem _ hx))
      (b.skip s.1.length) tl f (a ++ [s.2]) (full_skip hf hr1) ho (rest_skip hr1) (by omega)
    simp only [skip_eq, Nat.add_assoc, skip_skip] at this
    simpa using this

theorem decPairs_ok (l : List ((Bytes × Val) × (Bytes × Val))) (hp : ∀ x ∈ l, 0 < x.1.1.length)
    (hk : ∀ x ∈ l, hashable x.1.2 = true)
    (hl1 : ∀ x ∈ l, ∀ (b : BytesBuffer) (tl : Bytes) (f : Nat), b.Full → b.order = .big →
      b.rest = x.1.1 ++ tl → 2 * x.1.1.length + 1 ≤ f → decVal f b = .ok (x.1.2, b.skip x.1.1.length))
    (hl2 : ∀ x ∈ l, ∀ (b : BytesBuffer) (tl : Bytes) (f : Nat), b.Full → b.order = .big →
      b.rest = x.2.1 ++ tl → 2 * x.2.1.length + 1 ≤ f → decVal f b = .ok (x.2.2, b.skip x.2.1.length)) :
    ∀ (b : BytesBuffer) (tl : Bytes) (f : Nat) (m : List (Val × Val)), b.Full → b.order = .big →
      b.rest = (l.map fun x => x.1.1 ++ x.2.1).flatten ++ tl →
      2 * (l.map fun x => x.1.1 ++ x.2.1).flatten.length + 2 ≤ f →
      decPairs f b (b.rpos + (l.map fun x => x.1.1 ++ x.2.1).flatten.length) m
        = .ok (l.foldl (fun m x => mapStore m x.1.2 x.2.2) m,
            b.skip (l.map fun x => x.1.1 ++ x.2.1).flatten.length) := by
  induction l with
  | nil =>
    intro b tl f a hf ho hr hfu
    obtain ⟨f, rfl⟩ : ∃ g, f = g + 1 := ⟨f - 1, by omega⟩
    simp [decPairs, skip]
  | cons s l ih =>
    intro b tl f m hf ho hr hfu
    simp only [List.map_cons, List.flatten_cons] at hr hfu ⊢
    have hr1 : b.rest = s.1.1 ++ (s.2.1 ++ ((l.map fun x => x.1.1 ++ x.2.1).flatten ++ tl)) := by
      rw [hr]; simp
    have hpos := hp s (List.mem_cons_self ..)
    simp only [List.length_append] at hfu
    obtain ⟨f, rfl⟩ : ∃ g, f = g + 1 := ⟨f - 1, by omega⟩
    simp only [List.length_append, decPairs]
    have hr2 := rest_skip hr1
    have hf2 := full_skip hf hr1
    rw [if_pos (by omega), hl1 s (List.mem_cons_self ..) b _ f hf ho hr1 (by omega)]
    simp only [hl2 s (List.mem_cons_self ..) _ _ f hf2 ho hr2 (by omega), hk s (List.mem_cons_self ..), if_true]
    have := ih (fun x hx => hp x (List.mem_cons_of_mem _ hx)) (fun x hx => hk x (List.mem_cons_of_mem _ hx))
      (fun x hx => hl1 x (List.mem_cons_of_mem _ hx)) (fun x hx => hl2 x (List.mem_cons_of_mem _ hx))
      ((b.skip s.1.1.length).skip s.2.1.length) tl f (mapStore m s.1.2 s.2.2)
      (full_skip hf2 hr2) ho (rest_skip hr2) (by omega)
    simp only [skip_eq, Nat.add_assoc, skip_skip] at this ⊢
    exact this

theorem readUint16_be {b : BytesBuffer} {tl : Bytes} (hf : b.Full) (ho : b.order = .big) (v : UInt16)
    (hr : b.rest = beBytes 2 v.toNat ++ tl) : b.readUint16 = .ok (v, b.skip 2) := by
  have hl : b.rest.length = 2 + tl.length := by rw [hr]; simp
  have hv := v.toNat_lt
  rw [readUint16_full hf, if_neg (by omega), ho]
  have ht : b.rest.take 2 = beBytes 2 v.toNat := by rw [hr, List.take_left' (by simp)]
  simp only [ht, ByteOrder.get, beVal_beBytes (show v.toNat < 256 ^ 2 by omega), UInt16.ofNat_toNat]

theorem readUint32_be {b : BytesBuffer} {tl : Bytes} (hf : b.Full) (ho : b.order = .big) (v : UInt32)
    (hr : b.rest = beBytes 4 v.toNat ++ tl) : b.readUint32 = .ok (v, b.skip 4) := by
  have hl : b.rest.length = 4 + tl.length := by rw [hr]; simp
  have hv := v.toNat_lt
  rw [readUint32_full hf, if_neg (by omega), ho]
  have ht : b.rest.take 4 = beBytes 4 v.toNat := by rw [hr, List.take_left' (by simp)]
  simp only [ht, ByteOrder.get, beVal_beBytes (show v.toNat < 256 ^ 4 by omega), UInt32.ofNat_toNat]

theorem readUint64_be {b : BytesBuffer} {tl : Bytes} (hf : b.Full) (ho : b.order = .big) (v : UInt64)
    (hr : b.rest = beBytes 8 v.toNat ++ tl) : b.readUint64 = .ok (v, b.skip 8) := by
  have hl : b.rest.length = 8 + tl.length := by rw [hr]; simp
  have hv := v.toNat_lt
  rw [readUint64_full hf, if_neg (by omega), ho]
  have ht : b.rest.take 8 = beBytes 8 v.toNat := by rw [hr, List.take_left' (by simp)]
  simp only [ht, ByteOrder.get, beVal_beBytes (show v.toNat < 256 ^ 8 by omega), UInt64.ofNat_toNat]

theorem decVal_complete {p : Bytes} {v : Val} (h : Wire p v) :
    ∀ (b : BytesBuffer) (tl : Bytes) (f : Nat), b.Full → b.order = .big → b.rest = p ++ tl →
      2 * p.length + 1 ≤ f → decVal f b = .ok (v, b.skip p.length) := by
  induction h with
  | null =>
    intro b tl f hf ho hr hfu
    obtain ⟨f, rfl⟩ : ∃ g, f = g + 1 := ⟨f - 1, by omega⟩
    simp only [decVal, readByte_rest (c := 0) (tl := tl) (by simpa using hr)]
    simp [decScalar, sNull]
  | str s hs =>
    intro b tl f hf ho hr hfu
    obtain ⟨f, rfl⟩ : ∃ g, f = g + 1 := ⟨f - 1, by omega⟩
    have hr1 : b.rest = [1] ++ (lp s ++ tl) := by simpa using hr
    simp only [decVal, readByte_rest (c := 1) (tl := lp s ++ tl) (by simpa using hr)]
    have := decodeString_lp (full_skip hf hr1) ho hs (rest_skip hr1)
    simp only [List.length_singleton] at this
    simp [decScalar, sNull, sBool, sByte, sInt16, sInt32, sInt64, sFloat32, sFloat64, sString, this,
      Except.map, skip_skip, Nat.add_comm]
  | bytes s hs =>
    intro b tl f hf ho hr hfu
    obtain ⟨f, rfl⟩ : ∃ g, f = g + 1 := ⟨f - 1, by omega⟩
    have hr1 : b.rest = [3] ++ (lp s ++ tl) := by simpa using hr
    simp only [decVal, readByte_rest (c := 3) (tl := lp s ++ tl) (by simpa using hr)]
    have := decodeString_lp (full_skip hf hr1) ho hs (rest_skip hr1)
    simp only [List.length_singleton] at this
    simp [decScalar, sNull, sBool, sByte, sInt16, sInt32, sInt64, sFloat32, sFloat64, sString, sByteArray, this,
      Except.map, skip_skip, Nat.add_comm]
  | strMap l hl content hc ht =>
    intro b tl f hf ho hr hfu
    obtain ⟨f, rfl⟩ : ∃ g, f = g + 1 := ⟨f - 1, by omega⟩
    have hr1 : b.rest = [2] ++ (beBytes 4 content.length ++ (content ++ tl)) := by simpa [lp] using hr
    simp only [decVal, readByte_rest (c := 2) (tl := lp content ++ tl) (by simpa using hr)]
    have h1 := readInt_lp (full_skip hf hr1) ho ht (rest_skip hr1)
    simp only [List.length_singleton] at h1
    have hr3 : b.rest = ([2] ++ beBytes 4 content.length) ++ (content ++ tl) := by simpa using hr1
    have hf3 := full_skip hf hr3
    have hr4 := rest_skip hr3
    have e5 : ([2] ++ beBytes 4 content.length).length = 5 := by simp
    rw [e5] at hf3 hr4
    simp only [lp, List.length_cons, List.length_append, length_beBytes] at hfu
    subst hc
    have h2 := decStrMap_ok l hl (b.skip 5) tl f [] hf3 ho hr4 (by omega)
    simp only [skip_eq] at h2
    simp only [decScalar, sNull, sBool, sByte, sInt16, sInt32, sInt64, sFloat32, sFloat64, sString, sByteArray,
      sStringMap, sStringArray, sMap, sArray, h1, skip_skip, skip_eq]
    simp (decide := true) only [if_false, if_true]
    split
    · rename_i h0
      have hl0 : l = [] := by
        cases l with
        | nil => rfl
        | cons x l => exfalso; simp [lp] at h0
      subst hl0
      simp [lp, AMap.storeAll]
    · rw [h2]
      simp [Except.map, skip_skip, lp]
      congr 1; omega
  | strArr l hl content hc ht =>
    intro b tl f hf ho hr hfu
    obtain ⟨f, rfl⟩ : ∃ g, f = g + 1 := ⟨f - 1, by omega⟩
    have hr1 : b.rest = [4] ++ (beBytes 4 content.length ++ (content ++ tl)) := by simpa [lp] using hr
    simp only [decVal, readByte_rest (c := 4) (tl := lp content ++ tl) (by simpa using hr)]
    have h1 := readInt_lp (full_skip hf hr1) ho ht (rest_skip hr1)
    simp only [List.length_singleton] at h1
    have hr3 : b.rest = ([4] ++ beBytes 4 content.length) ++ (content ++ tl) := by simpa using hr1
    have hf3 := full_skip hf hr3
    have hr4 := rest_skip hr3
    have e5 : ([4] ++ beBytes 4 content.length).length = 5 := by simp
    rw [e5] at hf3 hr4
    simp only [lp, List.length_cons, List.length_append, length_beBytes] at hfu
    subst hc
    have h2 := decStrs_ok l hl (b.skip 5) tl f [] hf3 ho hr4 (by omega)
    simp only [skip_eq] at h2
    simp only [decScalar, sNull, sBool, sByte, sInt16, sInt32, sInt64, sFloat32, sFloat64, sString, sByteArray,
      sStringMap, sStringArray, sMap, sArray, h1, skip_skip, skip_eq]
    simp (decide := true) only [if_false, if_true]
    split
    · rename_i h0
      have hl0 : l = [] := by
        cases l with
        | nil => rfl
        | cons x l => exfalso; simp [lp] at h0
      subst hl0
      simp [lp]
    · rw [h2]
      simp [Except.map, skip_skip, lp]
      congr 1; omega
  | bool c =>
    intro b tl f hf ho hr hfu
    obtain ⟨f, rfl⟩ : ∃ g, f = g + 1 := ⟨f - 1, by omega⟩
    have hr1 : b.rest = [5] ++ ([c] ++ tl) := by simpa using hr
    have hr2 := rest_skip hr1
    simp only [decVal, readByte_rest (c := 5) (tl := c :: tl) (by simpa using hr)]
    simp only [List.length_singleton] at hr2
    simp [decScalar, sNull, sBool, rd, readByte_rest (c := c) (tl := tl) hr2, Except.map, skip_skip]
  | byte c =>
    intro b tl f hf ho hr hfu
    obtain ⟨f, rfl⟩ : ∃ g, f = g + 1 := ⟨f - 1, by omega⟩
    have hr1 : b.rest = [6] ++ ([c] ++ tl) := by simpa using hr
    have hr2 := rest_skip hr1
    simp only [decVal, readByte_rest (c := 6) (tl := c :: tl) (by simpa using hr)]
    simp only [List.length_singleton] at hr2
    simp [decScalar, sNull, sBool, sByte, rd, readByte_rest (c := c) (tl := tl) hr2, Except.map, skip_skip]
  | i16 v =>
    intro b tl f hf ho hr hfu
    obtain ⟨f, rfl⟩ : ∃ g, f = g + 1 := ⟨f - 1, by omega⟩
    have hr1 : b.rest = [7] ++ (beBytes 2 v.toNat ++ tl) := by simpa using hr
    have h1 := readUint16_be (full_skip hf hr1) ho v (rest_skip hr1)
    simp only [decVal, readByte_rest (c := 7) (tl := beBytes 2 v.toNat ++ tl) (by simpa using hr)]
    simp only [List.length_singleton] at h1
    simp [decScalar, sNull, sBool, sByte, sInt16, rd, h1, Except.map, skip_skip]
  | i32 c x hx =>
    intro b tl f hf ho hr hfu
    obtain ⟨f, rfl⟩ : ∃ g, f = g + 1 := ⟨f - 1, by omega⟩
    have hr1 : b.rest = [8] ++ (c ++ tl) := by simpa using hr
    have h1 := readVarintLoop_varintAt hx _ _ (rest_skip hr1)
    simp only [decVal, readByte_rest (c := 8) (tl := c ++ tl) (by simpa using hr)]
    simp only [List.length_singleton] at h1
    simp only [decScalar, sNull, sBool, sByte, sInt16, sInt32, rd, readZigzag32, readVarint, h1, Except.map]
    simp (decide := true) only [if_false, if_true, skip_skip]
    simp only [List.length_cons, Nat.add_comm 1]
    congr 3
    apply UInt32.toNat_inj.mp
    simp
  | i64 c x hx =>
    intro b tl f hf ho hr hfu
    obtain ⟨f, rfl⟩ : ∃ g, f = g + 1 := ⟨f - 1, by omega⟩
    have hr1 : b.rest = [9] ++ (c ++ tl) := by simpa using hr
    have h1 := readVarintLoop_varintAt hx _ _ (rest_skip hr1)
    simp only [decVal, readByte_rest (c := 9) (tl := c ++ tl) (by simpa using hr)]
    simp only [List.length_singleton] at h1
    simp only [decScalar, sNull, sBool, sByte, sInt16, sInt32, sInt64, rd, readZigzag64, readVarint, h1, Except.map]
    simp (decide := true) only [if_false, if_true, skip_skip]
    simp only [List.length_cons, Nat.add_comm 1]
  | f32 v =>
    intro b tl f hf ho hr hfu
    obtain ⟨f, rfl⟩ : ∃ g, f = g + 1 := ⟨f - 1, by omega⟩
    have hr1 : b.rest = [10] ++ (beBytes 4 v.toNat ++ tl) := by simpa using hr
    have h1 := readUint32_be (full_skip hf hr1) ho v (rest_skip hr1)
    simp only [decVal, readByte_rest (c := 10) (tl := beBytes 4 v.toNat ++ tl) (by simpa using hr)]
    simp only [List.length_singleton] at h1
    simp [decScalar, sNull, sBool, sByte, sInt16, sInt32, sInt64, sFloat32, rd, h1, Except.map, skip_skip]
  | f64 v =>
    intro b tl f hf ho hr hfu
    obtain ⟨f, rfl⟩ : ∃ g, f = g + 1 := ⟨f - 1, by omega⟩
    have hr1 : b.rest = [11] ++ (beBytes 8 v.toNat ++ tl) := by simpa using hr
    have h1 := readUint64_be (full_skip hf hr1) ho v (rest_skip hr1)
    simp only [decVal, readByte_rest (c := 11) (tl := beBytes 8 v.toNat ++ tl) (by simpa using hr)]
    simp only [List.length_singleton] at h1
    simp [decScalar, sNull, sBool, sByte, sInt16, sInt32, sInt64, sFloat32, sFloat64, rd, h1, Except.map, skip_skip]
  | map l h1 h2 hk content hc ht ih1 ih2 =>
    intro b tl f hf ho hr hfu
    obtain ⟨f, rfl⟩ : ∃ g, f = g + 1 := ⟨f - 1, by omega⟩
    have hr1 : b.rest = [20] ++ (beBytes 4 content.length ++ (content ++ tl)) := by simpa [lp] using hr
    simp only [decVal, readByte_rest (c := 20) (tl := lp content ++ tl) (by simpa using hr)]
    have g1 := readInt_lp (full_skip hf hr1) ho ht (rest_skip hr1)
    simp only [List.length_singleton] at g1
    have hr3 : b.rest = ([20] ++ beBytes 4 content.length) ++ (content ++ tl) := by simpa using hr1
    have hf3 := full_skip hf hr3
    have hr4 := rest_skip hr3
    have e5 : ([20] ++ beBytes 4 content.length).length = 5 := by simp
    rw [e5] at hf3 hr4
    simp only [lp, List.length_cons, List.length_append, length_beBytes] at hfu
    subst hc
    have g2 := decPairs_ok l (fun x hx => wire_ne_nil (h1 x hx)) hk ih1 ih2 (b.skip 5) tl f [] hf3 ho hr4 (by omega)
    simp only [skip_eq] at g2
    simp only [decScalar, sNull, sBool, sByte, sInt16, sInt32, sInt64, sFloat32, sFloat64, sString, sByteArray,
      sStringMap, sStringArray, sMap, sArray, g1, skip_skip, skip_eq]
    simp (decide := true) only [if_false, if_true]
    split
    · rename_i h0
      have hl0 : l = [] := by
        cases l with
        | nil => rfl
        | cons x l =>
          exfalso
          have := wire_ne_nil (h1 x (List.mem_cons_self ..))
          simp only [List.map_cons, List.flatten_cons, List.length_append] at h0
          omega
      subst hl0
      simp [lp]
    · rw [g2]
      simp [Except.map, skip_skip, lp]
      congr 1; omega
  | arr l h content hc ht ih =>
    intro b tl f hf ho hr hfu
    obtain ⟨f, rfl⟩ : ∃ g, f = g + 1 := ⟨f - 1, by omega⟩
    have hr1 : b.rest = [21] ++ (beBytes 4 content.length ++ (content ++ tl)) := by simpa [lp] using hr
    simp only [decVal, readByte_rest (c := 21) (tl := lp content ++ tl) (by simpa using hr)]
    have g1 := readInt_lp (full_skip hf hr1) ho ht (rest_skip hr1)
    simp only [List.length_singleton] at g1
    have hr3 : b.rest = ([21] ++ beBytes 4 content.length) ++ (content ++ tl) := by simpa using hr1
    have hf3 := full_skip hf hr3
    have hr4 := rest_skip hr3
    have e5 : ([21] ++ beBytes 4 content.length).length = 5 := by simp
    rw [e5] at hf3 hr4
    simp only [lp, List.length_cons, List.length_append, length_beBytes] at hfu
    subst hc
    have g2 := decElems_ok l (fun x hx => wire_ne_nil (h x hx)) ih (b.skip 5) tl f [] hf3 ho hr4 (by omega)
    simp only [skip_eq] at g2
    simp only [decScalar, sNull, sBool, sByte, sInt16, sInt32, sInt64, sFloat32, sFloat64, sString, sByteArray,
      sStringMap, sStringArray, sMap, sArray, g1, skip_skip, skip_eq]
    simp (decide := true) only [if_false, if_true]
    split
    · rename_i h0
      have hl0 : l = [] := by
        cases l with
        | nil => rfl
        | cons x l =>
          exfalso
          have := wire_ne_nil (h x (List.mem_cons_self ..))
          simp only [List.map_cons, List.flatten_cons, List.length_append] at h0
          omega
      subst hl0
      simp [lp]
    · rw [g2]
      simp [Except.map, skip_skip, lp]
      congr 1; omega

end Motan.Simple
