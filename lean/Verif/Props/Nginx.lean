import Verif.Model.Nginx
import Verif.Props.HttpProxy

/-!
# C93: nginx configurations are translated as written

Spec: how a configuration may be written. A word is a row of units, plain or in double quotes; words are followed by white
space and comments; a directive ends with a semicolon or has a block in braces.
-/

namespace Motan.Props

open Motan.Nginx
open HttpProxy (Lib Rule)

deriving instance DecidableEq for HttpProxy.Config

/-! ## Spec: how directives are written -/

/-- A byte of a word as it is, a byte after a backslash, or the brace after a dollar sign. -/
inductive Spec.NgxUnit
  | chr (c : UInt8)
  | esc (c : UInt8)
  | brace
deriving DecidableEq

/-- How it is written. -/
def Spec.NgxUnit.text : Spec.NgxUnit → Bytes
  | .chr c => [c]
  | .esc c => [92, c]
  | .brace => [123]

/-- What it stands for: a backslash before a quote or a backslash is dropped, t, r and n stand for control characters, any
other backslash stays. -/
def Spec.NgxUnit.means : Spec.NgxUnit → Bytes
  | .chr c => [c]
  | .esc c =>
    if c = 34 ∨ c = 39 ∨ c = 92 then [c] else if c = 116 then [9] else if c = 114 then [13] else if c = 110 then [10]
    else [92, c]
  | .brace => [123]

/-- A word, plain or in double quotes. -/
inductive Spec.NgxWord
  | plain (us : List Spec.NgxUnit)
  | quoted (us : List Spec.NgxUnit)
deriving DecidableEq

def Spec.NgxWord.text : Spec.NgxWord → Bytes
  | .plain us => us.flatMap (·.text)
  | .quoted us => 34 :: (us.flatMap (·.text) ++ [34])

def Spec.NgxWord.means : Spec.NgxWord → Bytes
  | .plain us => us.flatMap (·.means)
  | .quoted us => us.flatMap (·.means)

/-- White space. -/
def Spec.ngxSpace (c : UInt8) : Prop := c = 32 ∨ c = 9 ∨ c = 13 ∨ c = 10

/-- The units after the first of a plain word: no white space, semicolon or backslash, and a brace only after a dollar
sign. -/
def Spec.plainRest : Bool → List Spec.NgxUnit → Prop
  | _, [] => True
  | _, .chr c :: r => ¬ Spec.ngxSpace c ∧ c ≠ 59 ∧ c ≠ 123 ∧ c ≠ 92 ∧ Spec.plainRest (c = 36) r
  | v, .brace :: r => v = true ∧ Spec.plainRest true r
  | _, .esc _ :: r => Spec.plainRest false r

/-- A dollar sign, or the brace after it, is last. -/
def Spec.dollarLast : Bool → List Spec.NgxUnit → Bool
  | v, [] => v
  | _, .chr c :: r => Spec.dollarLast (c = 36) r
  | _, .brace :: r => Spec.dollarLast true r
  | _, .esc _ :: r => Spec.dollarLast false r

/-- A word is written properly. -/
def Spec.NgxWord.good : Spec.NgxWord → Prop
  | .plain (.chr c :: r) =>
    ¬ Spec.ngxSpace c ∧ c ≠ 59 ∧ c ≠ 123 ∧ c ≠ 125 ∧ c ≠ 35 ∧ c ≠ 92 ∧ c ≠ 34 ∧ Spec.plainRest false r
  | .plain (.esc _ :: r) => Spec.plainRest false r
  | .plain _ => False
  | .quoted us => ∀ u ∈ us, (∃ c, u = .chr c ∧ c ≠ 34 ∧ c ≠ 92) ∨ ∃ c, u = .esc c

/-- A block may begin right after the word. -/
def Spec.NgxWord.closed : Spec.NgxWord → Prop
  | .plain (_ :: r) => Spec.dollarLast false r = false
  | _ => True

/-- White space and comments. -/
inductive Spec.NgxGap
  | space (c : UInt8)
  | comment (text : Bytes)
deriving DecidableEq

def Spec.NgxGap.text : Spec.NgxGap → Bytes
  | .space c => [c]
  | .comment t => 35 :: (t ++ [10])

def Spec.NgxGap.good : Spec.NgxGap → Prop
  | .space c => Spec.ngxSpace c
  | .comment t => (10 : UInt8) ∉ t

/-- The words of a directive: each but the last followed by white space, what is before and what is behind. -/
structure Spec.NgxHead where
  before : List Spec.NgxGap
  words : List (Spec.NgxWord × UInt8 × List Spec.NgxGap)
  last : Spec.NgxWord
  after : Option (UInt8 × List Spec.NgxGap)

def Spec.NgxHead.text (h : Spec.NgxHead) : Bytes :=
  h.before.flatMap (·.text) ++ (h.words.flatMap (fun w => w.1.text ++ w.2.1 :: w.2.2.flatMap (·.text)) ++
    (h.last.text ++ match h.after with | none => [] | some (c, g) => c :: g.flatMap (·.text)))

def Spec.NgxHead.means (h : Spec.NgxHead) : List Bytes := h.words.map (·.1.means) ++ [h.last.means]

def Spec.NgxHead.good (h : Spec.NgxHead) : Prop :=
  (∀ g ∈ h.before, g.good) ∧ (∀ w ∈ h.words, w.1.good ∧ Spec.ngxSpace w.2.1 ∧ ∀ g ∈ w.2.2, g.good) ∧ h.last.good ∧
  ∀ c g, h.after = some (c, g) → Spec.ngxSpace c ∧ ∀ x ∈ g, x.good

/-- A directive as it is written: with a semicolon, or with a block. -/
inductive Spec.NgxText
  | line (h : Spec.NgxHead)
  | block (h : Spec.NgxHead) (body : List Spec.NgxText) (close : List Spec.NgxGap)

mutual
def Spec.NgxText.text : Spec.NgxText → Bytes
  | .line h => h.text ++ [59]
  | .block h body close => h.text ++ 123 :: (Spec.ngxText body ++ (close.flatMap (·.text) ++ [125]))

/-- Directives one after another. -/
def Spec.ngxText : List Spec.NgxText → Bytes
  | [] => []
  | t :: ts => t.text ++ Spec.ngxText ts
end

/-- The directive with these words. -/
def Spec.directive (ws : List Bytes) (body : List Directive) : Directive := .mk (ws.headD []) ws.tail body

mutual
/-- The directive that is written. -/
def Spec.NgxText.means : Spec.NgxText → Directive
  | .line h => Spec.directive h.means []
  | .block h body _ => Spec.directive h.means (Spec.ngxMeans body)

def Spec.ngxMeans : List Spec.NgxText → List Directive
  | [] => []
  | t :: ts => t.means :: Spec.ngxMeans ts
end

mutual
def Spec.NgxText.good : Spec.NgxText → Prop
  | .line h => h.good
  | .block h body close => h.good ∧ (h.after = none → h.last.closed) ∧ Spec.ngxGood body ∧ ∀ g ∈ close, g.good

def Spec.ngxGood : List Spec.NgxText → Prop
  | [] => True
  | t :: ts => t.good ∧ Spec.ngxGood ts
end

/-! ## Words -/

theorem unescape_append {b w : Bytes} (h : unescape b = some w) (t : Bytes) :
    unescape (b ++ t) = (unescape t).map (w ++ ·) := by
  fun_induction unescape b generalizing w with
  | case1 => cases h; simp
  | case2 => cases h
  | case3 d r hd ih =>
    obtain ⟨w', hw, rfl⟩ := Option.map_eq_some_iff.1 h
    rw [List.cons_append, List.cons_append, unescape]
    simp only [if_true, hd]
    rw [ih hw, Option.map_map]; rfl
  | case4 r hd ih =>
    obtain ⟨w', hw, rfl⟩ := Option.map_eq_some_iff.1 h
    rw [List.cons_append, List.cons_append, unescape]
    simp only [if_true, hd, if_false]
    rw [ih hw, Option.map_map]; rfl
  | case5 r hd h2 ih =>
    obtain ⟨w', hw, rfl⟩ := Option.map_eq_some_iff.1 h
    rw [List.cons_append, List.cons_append, unescape]
    simp only [if_true, hd, h2, if_false]
    rw [ih hw, Option.map_map]; rfl
  | case6 r hd h2 h3 ih =>
    obtain ⟨w', hw, rfl⟩ := Option.map_eq_some_iff.1 h
    rw [List.cons_append, List.cons_append, unescape]
    simp only [if_true, hd, h2, h3, if_false]
    rw [ih hw, Option.map_map]; rfl
  | case7 d r hd h2 h3 h4 ih =>
    obtain ⟨w', hw, rfl⟩ := Option.map_eq_some_iff.1 h
    rw [List.cons_append, List.cons_append, unescape]
    simp only [if_true, hd, h2, h3, h4, if_false]
    rw [← List.cons_append, ih hw, Option.map_map]; rfl
  | case8 c r hc ih =>
    obtain ⟨w', hw, rfl⟩ := Option.map_eq_some_iff.1 h
    rw [List.cons_append, unescape.eq_def]
    simp only [if_neg hc]
    rw [ih hw, Option.map_map]; rfl

theorem unescape_chr {c : UInt8} (h : c ≠ 92) : unescape [c] = some [c] := by simp [unescape, h]

theorem unescape_esc (c : UInt8) : unescape [92, c] = some (Spec.NgxUnit.esc c).means := by
  by_cases h : c = 92
  · subst h; rfl
  · simp only [unescape, if_true, h, or_false, Spec.NgxUnit.means]
    split
    · rfl
    · split
      · rfl
      · split
        · rfl
        · split
          · rfl
          · simp

theorem unescape_unit {u : Spec.NgxUnit} (h : ∀ c, u = .chr c → c ≠ 92) : unescape u.text = some u.means := by
  cases u with
  | chr c => exact unescape_chr (h c rfl)
  | esc c => exact unescape_esc c
  | brace => rfl

theorem unescape_units {us : List Spec.NgxUnit} (h : ∀ c, .chr c ∈ us → c ≠ 92) :
    unescape (us.flatMap (·.text)) = some (us.flatMap (·.means)) := by
  induction us with
  | nil => rfl
  | cons u us ih =>
    rw [List.flatMap_cons, unescape_append (unescape_unit fun c e => h c (by simp [e])),
      ih fun c hc => h c (by simp [hc])]
    rfl

theorem ngxSpace_iff (c : UInt8) : Nginx.isSpace c = true ↔ Spec.ngxSpace c := by simp [Nginx.isSpace, Spec.ngxSpace]

theorem not_isSpace {c : UInt8} (h : ¬ Spec.ngxSpace c) : Nginx.isSpace c = false := by
  rw [← Bool.not_eq_true, ngxSpace_iff]; exact h

theorem readToken_go {args args' : List Bytes} {x x' : Lx} {c : UInt8} {s : Bytes} (h : turn args x c = .go args' x') :
    readToken args x (c :: s) = readToken args' x' s := by rw [readToken, h]

theorem readToken_stop {args args' : List Bytes} {x : Lx} {t : Tok} {c : UInt8} {s : Bytes} (h : turn args x c = .stop t args') :
    readToken args x (c :: s) = (t, args', s) := by rw [readToken, h]

theorem turn_esc (args : List Bytes) (x : Lx) (c : UInt8) (hs : x.sharp = false) (hq : x.quoted = true) :
    turn args x c = .go args { x with quoted := false, buf := x.buf ++ [c] } := by
  unfold turn
  split <;> simp [hs, hq]

/-- The units after the first of a plain word. -/
theorem rest_read (us : List Spec.NgxUnit) : ∀ (args : List Bytes) (buf : Bytes) (v : Bool) (s : Bytes), Spec.plainRest v us →
    readToken args { buf, lastIsSpace := false, dollar := v } (us.flatMap (·.text) ++ s) =
    readToken args { buf := buf ++ us.flatMap (·.text), lastIsSpace := false, dollar := Spec.dollarLast v us } s := by
  induction us with
  | nil => intro args buf v s _; simp [Spec.dollarLast]
  | cons u us ih =>
    intro args buf v s h
    cases u with
    | chr c =>
      obtain ⟨h1, h2, h3, h4, h5⟩ := h
      have hsp := not_isSpace h1
      have hlf : c ≠ 10 := fun e => h1 (by simp [Spec.ngxSpace, e])
      have ht : turn args { buf, lastIsSpace := false, dollar := v } c =
          .go args { buf := buf ++ [c], lastIsSpace := false, dollar := decide (c = 36) } := by
        by_cases h36 : c = 36
        · subst h36; simp [turn, plain, inWord]
        · simp [turn, plain, inWord, hlf, h2, h3, h4, h36, hsp]
      rw [List.flatMap_cons, Spec.NgxUnit.text, List.append_assoc, List.cons_append, readToken_go ht, List.nil_append,
        ih _ _ _ _ h5]
      simp [Spec.dollarLast, List.append_assoc]
    | esc c =>
      have ht : turn args { buf, lastIsSpace := false, dollar := v } 92 =
          .go args { buf := buf ++ [92], lastIsSpace := false, dollar := false, quoted := true } := by
        simp [turn, plain, inWord]
      rw [List.flatMap_cons, Spec.NgxUnit.text, List.append_assoc, List.cons_append, readToken_go ht, List.cons_append,
        readToken_go (turn_esc _ _ c rfl rfl), List.nil_append]
      simp only
      rw [ih _ _ _ _ h]
      simp [Spec.dollarLast, List.append_assoc]
    | brace =>
      obtain ⟨rfl, h2⟩ := h
      have ht : turn args { buf, lastIsSpace := false, dollar := true } 123 =
          .go args { buf := buf ++ [123], lastIsSpace := false, dollar := true } := by
        simp [turn, plain, inWord]
      rw [List.flatMap_cons, Spec.NgxUnit.text, List.append_assoc, List.cons_append, readToken_go ht, List.nil_append,
        ih _ _ _ _ h2]
      simp [Spec.dollarLast, List.append_assoc]

theorem quoted_read (us : List Spec.NgxUnit) (h : ∀ u ∈ us, (∃ c, u = .chr c ∧ c ≠ 34 ∧ c ≠ 92) ∨ ∃ c, u = .esc c) :
    ∀ (args : List Bytes) (buf : Bytes) (v : Bool), ∃ v', ∀ s,
    readToken args { buf, double := true, lastIsSpace := false, dollar := v } (us.flatMap (·.text) ++ s) =
    readToken args { buf := buf ++ us.flatMap (·.text), double := true, lastIsSpace := false, dollar := v' } s := by
  induction us with
  | nil => intro args buf v; exact ⟨v, by simp⟩
  | cons u us ih =>
    intro args buf v
    rcases h u (by simp) with ⟨c, rfl, h1, h2⟩ | ⟨c, rfl⟩
    · obtain ⟨v1, ht⟩ : ∃ v1, turn args { buf, double := true, lastIsSpace := false, dollar := v } c =
          .go args { buf := buf ++ [c], double := true, lastIsSpace := false, dollar := v1 } := by
        by_cases hb : c = 123 ∧ v = true
        · refine ⟨v, ?_⟩
          obtain ⟨rfl, rfl⟩ := hb
          simp [turn, plain, inWord]
        · by_cases h36 : c = 36
          · subst h36; exact ⟨true, by simp [turn, plain, inWord]⟩
          · refine ⟨false, ?_⟩
            have hb' : ¬ (c = 123 ∧ v = true) := hb
            unfold turn
            split <;> simp [plain, inWord, h1, h2, h36, hb']
      obtain ⟨v2, h2⟩ := ih (fun u hu => h u (by simp [hu])) args (buf ++ [c]) v1
      refine ⟨v2, fun s => ?_⟩
      rw [List.flatMap_cons, Spec.NgxUnit.text, List.append_assoc, List.cons_append, readToken_go ht, List.nil_append, h2]
      simp
    · have ht : turn args { buf, double := true, lastIsSpace := false, dollar := v } 92 =
          .go args { buf := buf ++ [92], double := true, lastIsSpace := false, dollar := false, quoted := true } := by
        simp [turn, plain, inWord]
      obtain ⟨v2, h2⟩ := ih (fun u hu => h u (by simp [hu])) args (buf ++ [92] ++ [c]) false
      refine ⟨v2, fun s => ?_⟩
      rw [List.flatMap_cons, Spec.NgxUnit.text, List.append_assoc, List.cons_append, readToken_go ht, List.cons_append,
        readToken_go (turn_esc _ _ c rfl rfl), List.nil_append]
      simp only
      rw [h2]
      simp

/-- What the bytes behind a word do. -/
def EndsWith (args : List Bytes) (x : Lx) (out : List Bytes) (closed : Prop) : Prop :=
  (∀ c, Spec.ngxSpace c → turn args x c = .go out {}) ∧ turn args x 59 = .stop .ok out ∧
  (closed → turn args x 123 = .stop .blockStart out)

theorem ends_plain (args : List Bytes) (buf w : Bytes) (v : Bool) (h : unescape buf = some w) :
    EndsWith args { buf, lastIsSpace := false, dollar := v } (args ++ [w]) (v = false) := by
  refine ⟨fun c hc => ?_, ?_, fun hv => ?_⟩
  · have h1 := (ngxSpace_iff c).2 hc
    have h2 : c ≠ 123 ∧ c ≠ 92 ∧ c ≠ 36 ∧ c ≠ 59 := by
      rcases hc with rfl | rfl | rfl | rfl <;> decide
    unfold turn
    split <;> simp [plain, inWord, endWord, h, h1, h2]
  · simp [turn, plain, inWord, endWord, h]
  · subst hv
    simp [turn, plain, inWord, endWord, h]

theorem word_read {w : Spec.NgxWord} (hw : w.good) (args : List Bytes) : ∃ a x,
    (∀ s, readToken args {} (w.text ++ s) = readToken a x s) ∧ EndsWith a x (args ++ [w.means]) w.closed := by
  cases w with
  | plain us =>
    cases us with
    | nil => cases hw
    | cons u r =>
      have hr : Spec.plainRest false r ∧ (∀ c, u = .chr c → c ≠ 92) ∧ ∀ s,
          readToken args {} (u.text ++ s) = readToken args { buf := u.text, lastIsSpace := false } s := by
        cases u with
        | chr c =>
          obtain ⟨h1, h2, h3, h4, h5, h6, h7, h8⟩ := hw
          refine ⟨h8, fun c' e => by cases e; exact h6, fun s => ?_⟩
          have hsp := not_isSpace h1
          have hlf : c ≠ 10 := fun e => h1 (by simp [Spec.ngxSpace, e])
          exact readToken_go (by simp [turn, plain, atSpace, hlf, hsp, h2, h3, h4, h5, h6, h7, Spec.NgxUnit.text])
        | esc c =>
          refine ⟨hw, (fun c' e => nomatch e), fun s => ?_⟩
          have h1 : turn args {} 92 = .go args { quoted := true, lastIsSpace := false, buf := [92] } := by
            simp [turn, plain, atSpace, Nginx.isSpace]
          show readToken args {} (92 :: c :: s) = _
          rw [readToken_go h1, readToken_go (turn_esc _ _ c rfl rfl)]
          rfl
        | brace => cases hw
      obtain ⟨h1, h2, h3⟩ := hr
      have hne : ∀ v r, Spec.plainRest v r → ∀ c, Spec.NgxUnit.chr c ∈ r → c ≠ 92 := by
        intro v r
        induction r generalizing v with
        | nil => intro _ c hc; cases hc
        | cons y r ih =>
          intro hp c hc
          cases y with
          | chr d =>
            rcases List.mem_cons.1 hc with e | hc
            · cases e; exact hp.2.2.2.1
            · exact ih _ hp.2.2.2.2 c hc
          | esc d =>
            rcases List.mem_cons.1 hc with e | hc
            · cases e
            · exact ih _ hp c hc
          | brace =>
            rcases List.mem_cons.1 hc with e | hc
            · cases e
            · exact ih _ hp.2 c hc
      refine ⟨args, { buf := u.text ++ r.flatMap (·.text), lastIsSpace := false, dollar := Spec.dollarLast false r },
        fun s => ?_, ?_⟩
      · rw [Spec.NgxWord.text, List.flatMap_cons, List.append_assoc, h3, rest_read r args u.text false s h1]
      · have hu := unescape_units (us := u :: r) (fun c hc => by
          rcases List.mem_cons.1 hc with e | hc
          · exact h2 c e.symm
          · exact hne false r h1 c hc)
        rw [List.flatMap_cons] at hu
        exact ends_plain args _ _ _ hu
  | quoted us =>
    obtain ⟨v, hq⟩ := quoted_read us hw args [] false
    have hopen : turn args {} 34 = .go args { double := true, lastIsSpace := false } := by
      simp [turn, plain, atSpace, Nginx.isSpace]
    have hu := unescape_units (us := us) (fun c hc => by
      rcases hw _ hc with ⟨d, e, _, h⟩ | ⟨d, e⟩
      · cases e; exact h
      · cases e)
    have hclose : turn args { buf := us.flatMap (·.text), double := true, lastIsSpace := false, dollar := v } 34 =
        .go (args ++ [us.flatMap (·.means)]) { needSpace := true, lastIsSpace := false } := by
      simp [turn, plain, inWord, endWord, hu]
    refine ⟨args ++ [us.flatMap (·.means)], { needSpace := true, lastIsSpace := false }, fun s => ?_, ?_, ?_, ?_⟩
    · show readToken args {} (34 :: (us.flatMap (·.text) ++ [34]) ++ s) = _
      rw [List.cons_append, readToken_go hopen, List.append_assoc, hq, List.cons_append, List.nil_append, List.nil_append,
        readToken_go hclose]
    · intro c hc
      have h1 := (ngxSpace_iff c).2 hc
      unfold turn
      split <;> simp [h1, Spec.NgxWord.means]
    · simp [turn, Nginx.isSpace, Spec.NgxWord.means]
    · intro _
      simp [turn, Nginx.isSpace, Spec.NgxWord.means]

theorem gap_read {g : Spec.NgxGap} (hg : g.good) (args : List Bytes) (s : Bytes) :
    readToken args {} (g.text ++ s) = readToken args {} s := by
  cases g with
  | space c =>
    have h1 := (ngxSpace_iff c).2 hg
    refine readToken_go ?_
    unfold turn
    split <;> simp [plain, atSpace, h1]
  | comment t =>
    have h1 : turn args {} 35 = .go args { sharp := true } := by simp [turn, plain, atSpace, Nginx.isSpace]
    have h2 : ∀ t : Bytes, (10 : UInt8) ∉ t → readToken args { sharp := true } (t ++ 10 :: s) = readToken args {} s := by
      intro t
      induction t with
      | nil =>
        intro _
        exact readToken_go (by simp [turn, plain, atSpace, Nginx.isSpace])
      | cons c t ih =>
        intro hn
        simp only [List.mem_cons, not_or] at hn
        rw [List.cons_append, readToken_go (show turn args { sharp := true } c = .go args { sharp := true } by
          have hc : c ≠ 10 := fun e => hn.1 e.symm
          simp [turn, hc])]
        exact ih hn.2
    show readToken args {} (35 :: (t ++ [10]) ++ s) = _
    rw [List.cons_append, readToken_go h1, List.append_assoc]
    exact h2 t hg

theorem gaps_read {gs : List Spec.NgxGap} (hg : ∀ g ∈ gs, g.good) (args : List Bytes) (s : Bytes) :
    readToken args {} (gs.flatMap (·.text) ++ s) = readToken args {} s := by
  induction gs with
  | nil => rfl
  | cons g gs ih =>
    rw [List.flatMap_cons, List.append_assoc, gap_read (hg g (by simp)), ih fun x hx => hg x (by simp [hx])]

theorem words_read {ws : List (Spec.NgxWord × UInt8 × List Spec.NgxGap)}
    (hw : ∀ w ∈ ws, w.1.good ∧ Spec.ngxSpace w.2.1 ∧ ∀ g ∈ w.2.2, g.good) (s : Bytes) : ∀ args : List Bytes,
    readToken args {} (ws.flatMap (fun w => w.1.text ++ w.2.1 :: w.2.2.flatMap (·.text)) ++ s) =
    readToken (args ++ ws.map (·.1.means)) {} s := by
  induction ws with
  | nil => intro args; simp
  | cons w ws ih =>
    intro args
    obtain ⟨h1, h2, h3⟩ := hw w (by simp)
    obtain ⟨a, x, hr, he⟩ := word_read h1 args
    rw [List.flatMap_cons, List.append_assoc, List.append_assoc, hr, List.cons_append, readToken_go (he.1 _ h2),
      gaps_read h3, ih fun y hy => hw y (by simp [hy])]
    simp

theorem head_read {h : Spec.NgxHead} (hh : h.good) (s : Bytes) :
    readToken [] {} (h.text ++ 59 :: s) = (.ok, h.means, s) ∧
    ((h.after = none → h.last.closed) → readToken [] {} (h.text ++ 123 :: s) = (.blockStart, h.means, s)) := by
  obtain ⟨h1, h2, h3, h4⟩ := hh
  obtain ⟨a, x, hr, he⟩ := word_read h3 (h.words.map (·.1.means))
  have key : ∀ s, readToken [] {} (h.text ++ s) =
      readToken a x ((match h.after with | none => [] | some (c, g) => c :: g.flatMap (·.text)) ++ s) := by
    intro s
    unfold Spec.NgxHead.text
    rw [List.append_assoc, gaps_read h1, List.append_assoc, words_read h2, List.append_assoc]
    exact hr _
  rw [key, key]
  have hne : h.words.map (·.1.means) ++ [h.last.means] ≠ [] := by simp
  cases ha : h.after with
  | none =>
    simp only [List.nil_append]
    exact ⟨readToken_stop he.2.1, fun hc => readToken_stop (he.2.2 (hc trivial))⟩
  | some p =>
    obtain ⟨c, g⟩ := p
    obtain ⟨h5, h6⟩ := h4 c g ha
    simp only [List.cons_append]
    rw [readToken_go (he.1 c h5), readToken_go (he.1 c h5), gaps_read h6, gaps_read h6]
    refine ⟨readToken_stop ?_, fun _ => readToken_stop ?_⟩
    · simp [turn, plain, atSpace, Nginx.isSpace, Spec.NgxHead.means]
    · simp [turn, plain, atSpace, Nginx.isSpace, Spec.NgxHead.means]

/-! ## Directives -/

theorem parseLoop_eq (stack : List (Bytes × List Bytes × List Directive)) (acc : List Directive) (s : Bytes) :
    parseLoop stack acc s =
      match readToken [] {} s with
      | (.error, _, _) => .error
      | (.panic, _, _) => .panic
      | (.blockDone, _, r) =>
        match stack with
        | [] => .error
        | (n, a, out) :: st => parseLoop st (out ++ [.mk n a acc]) r
      | (.fileDone, _, _) => if stack = [] then .ok acc else .error
      | (.blockStart, [], _) => .panic
      | (.blockStart, n :: a, r) => parseLoop ((n, a, acc) :: stack) [] r
      | (.ok, [], _) => .panic
      | (.ok, n :: a, r) => parseLoop stack (acc ++ [.mk n a []]) r := by
  rw [parseLoop]
  split <;> rename_i h <;> rw [h]
  cases stack <;> rfl

theorem head_means (h : Spec.NgxHead) : h.means = h.means.headD [] :: h.means.tail := by
  have : h.means ≠ [] := by simp [Spec.NgxHead.means]
  cases hm : h.means with
  | nil => exact absurd hm this
  | cons a l => rfl

theorem parse_line {h : Spec.NgxHead} (hh : h.good) (stack : List (Bytes × List Bytes × List Directive))
    (acc : List Directive) (s : Bytes) :
    parseLoop stack acc (h.text ++ 59 :: s) = parseLoop stack (acc ++ [Spec.directive h.means []]) s := by
  rw [parseLoop_eq, (head_read hh s).1, head_means h]
  rfl

theorem parse_open {h : Spec.NgxHead} (hh : h.good) (hc : h.after = none → h.last.closed)
    (stack : List (Bytes × List Bytes × List Directive)) (acc : List Directive) (s : Bytes) :
    parseLoop stack acc (h.text ++ 123 :: s) = parseLoop ((h.means.headD [], h.means.tail, acc) :: stack) [] s := by
  rw [parseLoop_eq, (head_read hh s).2 hc, head_means h]
  rfl

theorem parse_close {g : List Spec.NgxGap} (hg : ∀ x ∈ g, x.good) (n : Bytes) (a : List Bytes) (out : List Directive)
    (stack : List (Bytes × List Bytes × List Directive)) (acc : List Directive) (s : Bytes) :
    parseLoop ((n, a, out) :: stack) acc (g.flatMap (·.text) ++ 125 :: s) = parseLoop stack (out ++ [.mk n a acc]) s := by
  rw [parseLoop_eq, gaps_read hg, readToken_stop (t := .blockDone) (args' := []) (by simp [turn, plain, atSpace, Nginx.isSpace])]

mutual
theorem parse_text : (t : Spec.NgxText) → t.good → ∀ (stack : List (Bytes × List Bytes × List Directive))
    (acc : List Directive) (s : Bytes), parseLoop stack acc (t.text ++ s) = parseLoop stack (acc ++ [t.means]) s
  | .line h, hg, stack, acc, s => by
    rw [Spec.NgxText.good] at hg
    rw [Spec.NgxText.text, Spec.NgxText.means, List.append_assoc, List.cons_append, parse_line hg, List.nil_append]
  | .block h body close, hg, stack, acc, s => by
    rw [Spec.NgxText.good] at hg
    obtain ⟨h1, h2, h3, h4⟩ := hg
    rw [Spec.NgxText.text, Spec.NgxText.means, List.append_assoc, List.cons_append, parse_open h1 h2, List.append_assoc,
      parse_texts body h3, List.append_assoc, List.cons_append, List.nil_append, parse_close h4]
    rfl

theorem parse_texts : (ts : List Spec.NgxText) → Spec.ngxGood ts → ∀ (stack : List (Bytes × List Bytes × List Directive))
    (acc : List Directive) (s : Bytes),
    parseLoop stack acc (Spec.ngxText ts ++ s) = parseLoop stack (acc ++ Spec.ngxMeans ts) s
  | [], _, stack, acc, s => by rw [Spec.ngxText, Spec.ngxMeans]; simp
  | t :: ts, hg, stack, acc, s => by
    rw [Spec.ngxGood] at hg
    rw [Spec.ngxText, Spec.ngxMeans, List.append_assoc, parse_text t hg.1, parse_texts ts hg.2, List.append_assoc]
    rfl
end

/-- C93: a configuration that is written properly, with any white space, comments, quotes and escapes, is read as the
directives that are written. -/
theorem nginx_parsed (ts : List Spec.NgxText) (hg : Spec.ngxGood ts) (close : List Spec.NgxGap) (hc : ∀ g ∈ close, g.good) :
    parse (Spec.ngxText ts ++ close.flatMap (·.text)) = .ok (Spec.ngxMeans ts) := by
  rw [parse, parse_texts ts hg, parseLoop_eq]
  have := gaps_read hc [] []
  rw [List.append_nil] at this
  rw [this]
  rfl

/-- The words may end the file: they are read and forgotten. -/
theorem head_eof {h : Spec.NgxHead} (hh : h.good) : (readToken [] {} h.text).1 = .fileDone := by
  obtain ⟨h1, h2, h3, h4⟩ := hh
  obtain ⟨a, x, hr, he⟩ := word_read h3 (h.words.map (·.1.means))
  have key : readToken [] {} h.text =
      readToken a x (match h.after with | none => [] | some (c, g) => c :: g.flatMap (·.text)) := by
    unfold Spec.NgxHead.text
    rw [gaps_read h1, words_read h2]
    exact hr _
  rw [key]
  cases ha : h.after with
  | none => rfl
  | some p =>
    obtain ⟨c, g⟩ := p
    obtain ⟨h5, h6⟩ := h4 c g ha
    simp only
    rw [readToken_go (he.1 c h5), ← List.append_nil (g.flatMap _), gaps_read h6]
    rfl

/-- C93: a block that is not closed is an error, and so is a brace that closes no block. -/
theorem nginx_unbalanced (ts : List Spec.NgxText) (hg : Spec.ngxGood ts) (close : List Spec.NgxGap) (hc : ∀ g ∈ close, g.good) :
    (∀ (us : List Spec.NgxText) (h : Spec.NgxHead), Spec.ngxGood us → h.good → (h.after = none → h.last.closed) →
      parse (Spec.ngxText us ++ (h.text ++ 123 :: (Spec.ngxText ts ++ close.flatMap (·.text)))) = .error) ∧
    ∀ s, parse (Spec.ngxText ts ++ (close.flatMap (·.text) ++ 125 :: s)) = .error := by
  constructor
  · intro us h hu hh hl
    rw [parse, parse_texts us hu, parse_open hh hl, parse_texts ts hg, parseLoop_eq]
    have := gaps_read hc [] []
    rw [List.append_nil] at this
    rw [this]
    rfl
  · intro s
    rw [parse, parse_texts ts hg, parseLoop_eq, gaps_read hc,
      readToken_stop (t := .blockDone) (args' := []) (by simp [turn, plain, atSpace, Nginx.isSpace])]

/-! ## No input makes it panic -/

/-- What holds between the bytes of a token. -/
def LxInv (args : List Bytes) (x : Lx) : Prop :=
  (x.quoted = false → ∃ w, unescape x.buf = some w) ∧
  (x.quoted = true → ∃ b w, x.buf = b ++ [92] ∧ unescape b = some w) ∧ (x.needSpace = true → args ≠ [])

/-- What a turn may do. -/
def NextInv : Next → Prop
  | .go args x => LxInv args x
  | .stop t args => t ≠ .panic ∧ (t = .ok ∨ t = .blockStart → args ≠ [])

theorem unescape_snoc {b w : Bytes} (h : unescape b = some w) {c : UInt8} (hc : c ≠ 92) : ∃ w, unescape (b ++ [c]) = some w :=
  ⟨w ++ [c], by rw [unescape_append h, unescape_chr hc]; rfl⟩

theorem endWord_inv {args : List Bytes} {x : Lx} {c : UInt8} (h : LxInv args x) (hq : x.quoted = false) :
    NextInv (endWord args x c) := by
  obtain ⟨w, hw⟩ := h.1 hq
  unfold endWord
  rw [hw]
  simp only
  split
  · exact ⟨by simp, by simp⟩
  · split
    · exact ⟨by simp, by simp⟩
    · exact ⟨fun _ => ⟨[], rfl⟩, fun h => by simp [hq] at h, fun _ => by simp⟩

theorem plain_inv {args : List Bytes} {x : Lx} {c : UInt8} (h : LxInv args x) (hq : x.quoted = false)
    (hn : x.needSpace = false) : NextInv (plain args x c) := by
  obtain ⟨w, hw⟩ := h.1 hq
  have same : ∀ y : Lx, y.quoted = x.quoted → y.buf = x.buf → y.needSpace = x.needSpace → LxInv args y := by
    intro y h1 h2 h3
    exact ⟨fun _ => ⟨w, by rw [h2]; exact hw⟩, fun e => (by rw [h1, hq] at e; cases e), fun e => (by rw [h3, hn] at e; cases e)⟩
  have add : ∀ y : Lx, y.quoted = x.quoted → y.buf = x.buf ++ [c] → y.needSpace = x.needSpace → c ≠ 92 → LxInv args y := by
    intro y h1 h2 h3 h4
    exact ⟨fun _ => by rw [h2]; exact unescape_snoc hw h4, fun e => (by rw [h1, hq] at e; cases e),
      fun e => (by rw [h3, hn] at e; cases e)⟩
  have esc : ∀ y : Lx, y.quoted = true → y.buf = x.buf ++ [c] → y.needSpace = x.needSpace → c = 92 → LxInv args y := by
    intro y h1 h2 h3 h4
    subst h4
    exact ⟨fun e => (by rw [h1] at e; cases e), fun _ => ⟨x.buf, w, h2, hw⟩, fun e => (by rw [h3, hn] at e; cases e)⟩
  unfold plain
  split
  · unfold atSpace
    split
    · exact h
    · split
      · split
        · exact ⟨by simp, by simp⟩
        · rename_i ha
          split
          · exact ⟨by simp, fun _ => ha⟩
          · exact ⟨by simp, fun _ => ha⟩
      · split
        · split
          · exact ⟨by simp, by simp⟩
          · exact ⟨by simp, by simp⟩
        · split
          · exact same _ rfl rfl rfl
          · split
            · exact esc _ rfl rfl rfl ‹_›
            · split
              · exact same _ rfl rfl rfl
              · exact add _ rfl rfl rfl ‹_›
  · unfold inWord
    split
    · rename_i hb
      exact add _ rfl rfl rfl (by rw [hb.1]; decide)
    · simp only
      split
      · exact esc _ rfl rfl rfl ‹_›
      · rename_i h92
        split
        · exact add _ rfl rfl rfl h92
        · split
          · split
            · unfold endWord
              rw [show unescape _ = some w from hw]
              simp only
              split
              · exact ⟨by simp, by simp⟩
              · split
                · exact ⟨by simp, by simp⟩
                · exact ⟨fun _ => ⟨[], rfl⟩, fun e => (by simp [hq] at e), fun _ => by simp⟩
            · exact add _ rfl rfl rfl h92
          · split
            · exact endWord_inv (same _ rfl rfl rfl) hq
            · exact add _ rfl rfl rfl h92

theorem turn_inv {args : List Bytes} {x : Lx} (h : LxInv args x) (c : UInt8) : NextInv (turn args x c) := by
  unfold turn
  have h' : LxInv args (if c = 10 then { x with sharp := false } else x) := by
    split
    · exact h
    · exact h
  generalize (if c = 10 then { x with sharp := false } else x) = y at h' ⊢
  simp only
  split
  · exact h'
  · split
    · rename_i hq
      obtain ⟨b, w, hb, hw⟩ := h'.2.1 hq
      refine ⟨fun _ => ⟨w ++ (Spec.NgxUnit.esc c).means, ?_⟩, fun e => (by cases e), h'.2.2⟩
      show unescape (y.buf ++ [c]) = _
      rw [hb, List.append_assoc, unescape_append hw]
      show (unescape [92, c]).map _ = _
      rw [unescape_esc]
      rfl
    · rename_i hq
      simp only [Bool.not_eq_true] at hq
      split
      · rename_i hn
        have ha := h'.2.2 hn
        split
        · exact ⟨h'.1, h'.2.1, fun e => (by cases e)⟩
        · split
          · exact ⟨by simp, fun _ => ha⟩
          · split
            · exact ⟨by simp, fun _ => ha⟩
            · split
              · exact plain_inv ⟨h'.1, h'.2.1, fun e => (by cases e)⟩ hq rfl
              · exact ⟨by simp, fun _ => ha⟩
      · rename_i hn
        exact plain_inv h' hq (by simpa using hn)

theorem readToken_inv (s : Bytes) : ∀ (args : List Bytes) (x : Lx), LxInv args x →
    (readToken args x s).1 ≠ .panic ∧
    ((readToken args x s).1 = .ok ∨ (readToken args x s).1 = .blockStart → (readToken args x s).2.1 ≠ []) := by
  induction s with
  | nil => intro args x _; simp [readToken]
  | cons c s ih =>
    intro args x h
    have ht := turn_inv h c
    rw [readToken]
    cases hn : turn args x c with
    | go a y => rw [hn] at ht; exact ih a y ht
    | stop t a => rw [hn] at ht; exact ht

theorem parseLoop_no_panic (n : Nat) : ∀ (stack : List (Bytes × List Bytes × List Directive)) (acc : List Directive)
    (s : Bytes), s.length ≤ n → parseLoop stack acc s ≠ .panic := by
  induction n with
  | zero =>
    intro stack acc s hs
    cases s with
    | cons => simp at hs
    | nil =>
      rw [parseLoop_eq]
      show (if stack = [] then _ else _) ≠ _
      split <;> simp
  | succ n ih =>
    intro stack acc s hs
    have hinv := readToken_inv s [] {} ⟨fun _ => ⟨[], rfl⟩, fun e => (by cases e), fun e => (by cases e)⟩
    have hlt := readToken_lt [] {} s
    rw [parseLoop_eq]
    generalize readToken [] {} s = r at hinv hlt ⊢
    obtain ⟨t, args, rest⟩ := r
    simp only at hinv hlt
    cases t with
    | error => simp
    | panic => exact absurd rfl hinv.1
    | fileDone =>
      show (if stack = [] then _ else _) ≠ _
      split <;> simp
    | blockDone =>
      have := hlt (by simp)
      cases stack with
      | nil => simp
      | cons p st => exact ih _ _ _ (by omega)
    | blockStart =>
      have := hlt (by simp)
      cases args with
      | nil => exact absurd rfl (hinv.2 (.inr rfl))
      | cons a l => exact ih _ _ _ (by omega)
    | ok =>
      have := hlt (by simp)
      cases args with
      | nil => exact absurd rfl (hinv.2 (.inl rfl))
      | cons a l => exact ih _ _ _ (by omega)

/-- C93: no file, however it is written, makes the parser panic. -/
theorem nginx_no_panic (s : Bytes) : parse s ≠ .panic := parseLoop_no_panic s.length [] [] s (Nat.le_refl _)

/-! ## Spec: what a location is translated to -/

/-- The kind and the argument of a location. -/
inductive Spec.NgxModifier : List Bytes → Bytes → Bytes → Prop
  | exact (m : Bytes) : Spec.NgxModifier [b!"=", m] b!"exact" m
  | regexp (m : Bytes) : Spec.NgxModifier [b!"~", m] b!"regexp" m
  | iregexp (m : Bytes) : Spec.NgxModifier [b!"~*", m] b!"iregexp" m
  | exactJoined (m : Bytes) : Spec.NgxModifier [b!"=" ++ m] b!"exact" m
  | regexpJoined (c : UInt8) (m : Bytes) (h : c ≠ 42) : Spec.NgxModifier [b!"~" ++ c :: m] b!"regexp" (c :: m)
  | iregexpJoined (m : Bytes) : Spec.NgxModifier [b!"~*" ++ m] b!"iregexp" m
  | start (c : UInt8) (m : Bytes) (h : c ≠ 61 ∧ c ≠ 94 ∧ c ≠ 126) : Spec.NgxModifier [c :: m] b!"start" (c :: m)

/-- How a condition on the address of the request is written: with or without spaces inside the parentheses. -/
inductive Spec.NgxCond : List Bytes → Bytes → Bytes → Prop
  | wide (op re : Bytes) : Spec.NgxCond [b!"(", b!"$request_uri", op, re, b!")"] op re
  | tight (op re : Bytes) (h : re ≠ []) : Spec.NgxCond [b!"($request_uri", op, re ++ b!")"] op re
  | left (op re : Bytes) (h : re ≠ []) : Spec.NgxCond [b!"(", b!"$request_uri", op, re ++ b!")"] op re
  | right (op re : Bytes) : Spec.NgxCond [b!"($request_uri", op, re, b!")"] op re

/-- Conditions on something else: one word such as `($var)`, two words such as `(-f $file)`, or a comparison of another variable. -/
inductive Spec.NgxOther : List Bytes → Prop
  | word (w : Bytes) : Spec.NgxOther [b!"(" ++ w]
  | pair (v w : Bytes) : Spec.NgxOther [b!"(" ++ v, w ++ b!")"]
  | wide (v op w : Bytes) (h : v ≠ b!"$request_uri") : Spec.NgxOther [b!"(", v, op, w, b!")"]
  | tight (v op w : Bytes) (h : v ≠ b!"$request_uri") (hv : v ≠ []) : Spec.NgxOther [b!"(" ++ v, op, w ++ b!")"]

/-- The kind of a rule for an operator. -/
inductive Spec.NgxOp : Bytes → Bytes → Prop
  | is : Spec.NgxOp b!"~" b!"regexp"
  | isI : Spec.NgxOp b!"~*" b!"iregexp"
  | isNot : Spec.NgxOp b!"!~" b!"!regexp"
  | isNotI : Spec.NgxOp b!"!~*" b!"!iregexp"

/-- A rewriting rule of an agent. -/
def Spec.rewriteLine (kind cond m p : Bytes) : Bytes := kind ++ b!" " ++ cond ++ b!" " ++ m ++ b!" " ++ p

/-- What a directive of a location gives: the upstream, or rules. -/
inductive Spec.NgxItem : Directive → Option Bytes → List Bytes → Prop
  | pass (up : Bytes) (a : List Bytes) (b : List Directive) :
    Spec.NgxItem (.mk b!"proxy_pass" ((b!"http://" ++ up) :: a) b) (some up) []
  | rewrite (m p : Bytes) (a : List Bytes) (b : List Directive) :
    Spec.NgxItem (.mk b!"rewrite" (m :: p :: a) b) none [Spec.rewriteLine b!"start" b!"/" m p]
  | cond (ws : List Bytes) (op kind re m p : Bytes) (a : List Bytes) (x pre post : List Directive)
    (h : Spec.NgxCond ws op re) (ho : Spec.NgxOp op kind) (hm : m ≠ [])
    (hpre : ∀ d ∈ pre, d.name ≠ b!"rewrite") (hpost : ∀ d ∈ post, d.name ≠ b!"rewrite") :
    Spec.NgxItem (.mk b!"if" ws (pre ++ .mk b!"rewrite" (m :: p :: a) x :: post)) none [Spec.rewriteLine kind re m p]
  | condOnly (ws : List Bytes) (op kind re : Bytes) (b : List Directive) (h : Spec.NgxCond ws op re) (ho : Spec.NgxOp op kind)
    (hb : ∀ d ∈ b, d.name ≠ b!"rewrite") : Spec.NgxItem (.mk b!"if" ws b) none []
  | condOther (ws : List Bytes) (b : List Directive) (h : Spec.NgxOther ws) : Spec.NgxItem (.mk b!"if" ws b) none []
  | other (n : Bytes) (a : List Bytes) (b : List Directive) (h : n ≠ b!"proxy_pass" ∧ n ≠ b!"rewrite" ∧ n ≠ b!"if") :
    Spec.NgxItem (.mk n a b) none []

/-- The directives of a location one after another: the last upstream, all rules. -/
inductive Spec.NgxBody : List Directive → Bytes → List Bytes → Prop
  | nil : Spec.NgxBody [] [] []
  | keep (ds : List Directive) (d : Directive) (up : Bytes) (rs rules : List Bytes) (h : Spec.NgxBody ds up rules)
    (hd : Spec.NgxItem d none rs) : Spec.NgxBody (ds ++ [d]) up (rules ++ rs)
  | change (ds : List Directive) (d : Directive) (up up' : Bytes) (rs rules : List Bytes) (h : Spec.NgxBody ds up rules)
    (hd : Spec.NgxItem d (some up') rs) : Spec.NgxBody (ds ++ [d]) up' (rules ++ rs)

/-- What a location becomes: nothing without an upstream. -/
inductive Spec.NgxLocation : Directive → List HttpProxy.Config → Prop
  | proxied (args : List Bytes) (body : List Directive) (kind m up : Bytes) (rules : List Bytes)
    (h : Spec.NgxModifier args kind m) (hb : Spec.NgxBody body up rules) (hu : up ≠ []) :
    Spec.NgxLocation (.mk b!"location" args body) [{ upstream := up, «match» := m, type := kind, rules }]
  | skipped (args : List Bytes) (body : List Directive) (kind m : Bytes) (rules : List Bytes)
    (h : Spec.NgxModifier args kind m) (hb : Spec.NgxBody body [] rules) :
    Spec.NgxLocation (.mk b!"location" args body) []

mutual
/-- The locations of a configuration in the order of the file. -/
inductive Spec.NgxOne : Directive → List HttpProxy.Config → Prop
  | location (d : Directive) (cs : List HttpProxy.Config) (h : Spec.NgxLocation d cs) : Spec.NgxOne d cs
  | inside (n : Bytes) (a : List Bytes) (b : List Directive) (cs : List HttpProxy.Config) (hn : n ≠ b!"location")
    (h : Spec.NgxAll b cs) : Spec.NgxOne (.mk n a b) cs

inductive Spec.NgxAll : List Directive → List HttpProxy.Config → Prop
  | nil : Spec.NgxAll [] []
  | cons (d : Directive) (ds : List Directive) (c cs : List HttpProxy.Config) (h : Spec.NgxOne d c) (hs : Spec.NgxAll ds cs) :
    Spec.NgxAll (d :: ds) (c ++ cs)
end

/-! ## Locations -/

theorem header_spec {args : List Bytes} {kind m : Bytes} (h : Spec.NgxModifier args kind m) : header args = some (kind, m) := by
  cases h with
  | exact => rfl
  | regexp => rfl
  | iregexp => rfl
  | exactJoined => rfl
  | regexpJoined c m h => simp [header, h]
  | iregexpJoined => rfl
  | start c m h => simp [header, h]

theorem unparen_spec {ws : List Bytes} {op re : Bytes} (h : Spec.NgxCond ws op re) :
    unparen ws = some [b!"$request_uri", op, re] := by
  cases h with
  | wide => simp [unparen]
  | tight => rename_i h; simp [unparen, h]
  | left => rename_i h; simp [unparen, h]
  | right => simp [unparen]

theorem condType_spec {op kind : Bytes} (h : Spec.NgxOp op kind) : condType op = some kind := by cases h <;> rfl

theorem lastRewrite_skip {ds : List Directive} (h : ∀ d ∈ ds, d.name ≠ b!"rewrite") (r : Bytes × Bytes)
    (rest : List Directive) : lastRewrite r (ds ++ rest) = lastRewrite r rest := by
  induction ds with
  | nil => rfl
  | cons d ds ih =>
    rw [List.cons_append, lastRewrite, if_neg (h d (by simp)), ih fun x hx => h x (by simp [hx])]

theorem ifRules_spec {ws : List Bytes} {op kind re : Bytes} (h : Spec.NgxCond ws op re) (ho : Spec.NgxOp op kind)
    (body : List Directive) {m p : Bytes} (hr : lastRewrite ([], []) body = some (m, p)) :
    ifRules (.mk b!"if" ws body) = some (if m ≠ [] then [Spec.rewriteLine kind re m p] else []) := by
  unfold ifRules
  rw [show (Directive.mk b!"if" ws body).args = ws from rfl, unparen_spec h]
  simp only
  rw [if_neg (by simp), condType_spec ho]
  simp only
  rw [show (Directive.mk b!"if" ws body).body = body from rfl, hr]
  simp only
  split <;> rfl

theorem ifRules_other {ws : List Bytes} (h : Spec.NgxOther ws) (body : List Directive) : ifRules (.mk b!"if" ws body) = some [] := by
  unfold ifRules
  rw [show (Directive.mk b!"if" ws body).args = ws from rfl]
  cases h with
  | word w => by_cases hw : w = [] <;> simp [unparen, hw]
  | pair v w => by_cases hv : v = [] <;> by_cases hw : w = [] <;> simp [unparen, hv, hw]
  | wide v op w h => simp only [unparen]; simp [h]
  | tight v op w h hv => by_cases hw : w = [] <;> simp [unparen, hv, hw, h]

theorem item_body {d : Directive} {u : Option Bytes} {rs : List Bytes} (h : Spec.NgxItem d u rs) (s : Bytes × List Bytes)
    (ds : List Directive) : locationBody s (d :: ds) = locationBody (u.getD s.1, s.2 ++ rs) ds := by
  cases h with
  | pass up a b =>
    rw [locationBody, if_pos (by rfl)]
    simp only [Directive.args]
    show (if (b!"http://" ++ up).length < 7 then _ else _) = _
    rw [if_neg (by simp)]
    simp
  | rewrite m p a b =>
    rw [locationBody, if_neg (by show ¬ b!"rewrite" = b!"proxy_pass"; decide +kernel), if_neg (by show ¬ b!"rewrite" = b!"if"; decide +kernel),
      if_pos (by rfl)]
    rfl
  | cond ws op kind re m p a x pre post h ho hm hpre hpost =>
    rw [locationBody, if_neg (by show ¬ b!"if" = b!"proxy_pass"; decide +kernel), if_pos (by rfl),
      ifRules_spec (m := m) (p := p) h ho _ (by
        rw [lastRewrite_skip hpre, lastRewrite, if_pos (by rfl)]
        have := lastRewrite_skip hpost (m, p) []
        rw [List.append_nil] at this
        exact this)]
    rw [if_pos hm]
    rfl
  | condOnly ws op kind re b h ho hb =>
    rw [locationBody, if_neg (by show ¬ b!"if" = b!"proxy_pass"; decide +kernel), if_pos (by rfl),
      ifRules_spec (m := []) (p := []) h ho _ (by
        have := lastRewrite_skip hb ([], []) []
        rw [List.append_nil] at this
        exact this)]
    rfl
  | condOther ws b h =>
    rw [locationBody, if_neg (by show ¬ b!"if" = b!"proxy_pass"; decide +kernel), if_pos (by rfl), ifRules_other h]
    rfl
  | other n a b h =>
    rw [locationBody, if_neg (by exact h.1), if_neg (by exact h.2.2), if_neg (by exact h.2.1)]
    simp

theorem body_spec {ds : List Directive} {up : Bytes} {rules : List Bytes} (h : Spec.NgxBody ds up rules)
    (rest : List Directive) : locationBody ([], []) (ds ++ rest) = locationBody (up, rules) rest := by
  induction h generalizing rest with
  | nil => rfl
  | keep ds d up rs rules h hd ih => rw [List.append_assoc, ih, List.cons_append, item_body hd]; rfl
  | change ds d up up' rs rules h hd ih => rw [List.append_assoc, ih, List.cons_append, item_body hd]; rfl

theorem location_spec {d : Directive} {cs : List HttpProxy.Config} (h : Spec.NgxLocation d cs) : visitLocation d = some cs := by
  have hb : ∀ {ds up rules}, Spec.NgxBody ds up rules → locationBody ([], []) ds = some (up, rules) := by
    intro ds up rules h
    have := body_spec h []
    rw [List.append_nil] at this
    exact this
  cases h with
  | proxied args body kind m up rules h h' hu =>
    unfold visitLocation
    rw [show (Directive.mk b!"location" args body).args = args from rfl, header_spec h]
    simp only
    rw [show (Directive.mk b!"location" args body).body = body from rfl, hb h']
    simp only
    rw [if_neg hu]
  | skipped args body kind m rules h h' =>
    unfold visitLocation
    rw [show (Directive.mk b!"location" args body).args = args from rfl, header_spec h]
    simp only
    rw [show (Directive.mk b!"location" args body).body = body from rfl, hb h']
    rfl

theorem location_name {d : Directive} {cs : List HttpProxy.Config} (h : Spec.NgxLocation d cs) : ∃ a b, d = .mk b!"location" a b := by
  cases h with
  | proxied args body => exact ⟨args, body, rfl⟩
  | skipped args body => exact ⟨args, body, rfl⟩

mutual
theorem one_spec : {d : Directive} → {cs : List HttpProxy.Config} → Spec.NgxOne d cs → visitOne d = some cs
  | _, _, .location d cs h => by
    obtain ⟨a, b, rfl⟩ := location_name h
    rw [visitOne, if_pos rfl, location_spec h]
  | _, _, .inside n a b cs hn h => by rw [visitOne, if_neg hn, all_spec h]

theorem all_spec : {ds : List Directive} → {cs : List HttpProxy.Config} → Spec.NgxAll ds cs → visitAll ds = some cs
  | _, _, .nil => by rw [visitAll]
  | _, _, .cons d ds c cs h hs => by rw [visitAll, one_spec h, all_spec hs]; rfl
end

/-- C93: every location outside other locations, in the order of the file and at any depth of blocks, becomes the location
with its kind, its argument, the server of its last `proxy_pass` and its rewriting rules in order; one without a server is
left out. -/
theorem nginx_translated (ts : List Spec.NgxText) (hg : Spec.ngxGood ts) (close : List Spec.NgxGap) (hc : ∀ g ∈ close, g.good)
    {cs : List HttpProxy.Config} (h : Spec.NgxAll (Spec.ngxMeans ts) cs) :
    translate (Spec.ngxText ts ++ close.flatMap (·.text)) = .ok cs := by
  rw [translate, nginx_parsed ts hg close hc]
  simp only
  rw [all_spec h]

/-! ## The agent reads what is printed -/

theorem mapM_str (l : List Bytes) : (l.map Config.V.str).mapM asString = some l := by
  induction l with
  | nil => rfl
  | cons a l ih => rw [List.map_cons, List.mapM_cons, ih]; rfl

theorem fromYaml_toYaml (c : HttpProxy.Config) : fromYaml (toYaml c) = some c := by
  unfold fromYaml toYaml
  simp [AMap.load, asString, rulesOf, mapM_str, -List.mapM_map]

theorem mapM_fromYaml (cs : List HttpProxy.Config) : (cs.map toYaml).mapM fromYaml = some cs := by
  induction cs with
  | nil => rfl
  | cons a l ih => rw [List.map_cons, List.mapM_cons, ih, fromYaml_toYaml]; rfl

/-- C93: what the tool prints for a domain is read by an agent as the same locations; other domains have none. -/
theorem nginx_read_again (domain : Bytes) (cs : List HttpProxy.Config) :
    fromContext (printed domain cs) domain = some cs ∧
    ∀ other, other ≠ domain → fromContext (printed domain cs) other = some [] := by
  constructor
  · simp [fromContext, printed, AMap.load, mapM_fromYaml, -List.mapM_map]
  · intro other h
    have h' : domain ≠ other := fun e => h e.symm
    simp [fromContext, printed, AMap.load, h']

/-- C93: a request is sent where the nginx configuration sends it: to the server of the location that is picked for its
path, the exact one, else the first expression that matches, else the longest prefix. -/
theorem nginx_served {R I : Type} (lib : Lib R I) (ts : List Spec.NgxText) (hg : Spec.ngxGood ts) {cs : List HttpProxy.Config}
    (h : Spec.NgxAll (Spec.ngxMeans ts) cs) {path : Bytes} {c : HttpProxy.Config} (hp : Spec.LocPicks lib cs path c)
    (domain query : Bytes) (rewrite : Bool) :
    ∃ out read, translate (Spec.ngxText ts) = .ok out ∧ fromContext (printed domain out) domain = some read ∧
      (HttpProxy.pick lib (HttpProxy.newMatcher lib read) path query rewrite).map (·.1) = some c.upstream := by
  have ht := nginx_translated ts hg [] (by simp) h
  rw [List.flatMap_nil, List.append_nil] at ht
  refine ⟨cs, cs, ht, (nginx_read_again domain cs).1, ?_⟩
  rw [location_picked lib hp]
  rfl

/-! ## Rewriting rules -/

/-- The white space of a rule. -/
def Spec.unbroken (s : Bytes) : Prop := s ≠ [] ∧ ∀ c ∈ s, c ≠ 9 ∧ c ≠ 10 ∧ c ≠ 12 ∧ c ≠ 13 ∧ c ≠ 32

theorem unbroken_ws {s : Bytes} (h : Spec.unbroken s) : ∀ c ∈ s, HttpProxy.isWs c = false := by
  intro c hc
  obtain ⟨h1, h2, h3, h4, h5⟩ := h.2 c hc
  simp [HttpProxy.isWs, h1, h2, h3, h4, h5]

theorem fields_word {a rest : Bytes} (ha : Spec.unbroken a) (hr : ∀ c, rest.head? = some c → HttpProxy.isWs c = false) :
    Spec.fields (a ++ b!" " ++ rest) = a :: Spec.fields rest := by
  have h := fields_ws (unbroken_ws ha) (c := 32) rfl rest
  rw [List.append_assoc]
  show Spec.fields (a ++ 32 :: rest) = _
  rw [h]
  cases rest with
  | nil => rfl
  | cons c rest => rw [List.dropWhile_cons_of_neg (by simp [hr c rfl])]

theorem unbroken_head {s t : Bytes} (h : Spec.unbroken s) : ∀ c, (s ++ t).head? = some c → HttpProxy.isWs c = false := by
  intro c hc
  cases s with
  | nil => exact absurd rfl h.1
  | cons d s =>
    cases hc
    exact unbroken_ws h _ (by simp)

theorem line_fields {kind cond m p : Bytes} (hk : Spec.unbroken kind) (hc : Spec.unbroken cond) (hm : Spec.unbroken m)
    (hp : Spec.unbroken p) : Spec.fields (Spec.rewriteLine kind cond m p) = [kind, cond, m, p] := by
  have e : Spec.rewriteLine kind cond m p = kind ++ b!" " ++ (cond ++ b!" " ++ (m ++ b!" " ++ p)) := by
    simp [Spec.rewriteLine, List.append_assoc]
  have hp' : ∀ c, p.head? = some c → HttpProxy.isWs c = false := by
    have := unbroken_head (t := []) hp
    rwa [List.append_nil] at this
  rw [e, fields_word hk, fields_word hc, fields_word hm hp', fields_text (unbroken_ws hp)]
  · rw [List.append_assoc]; exact unbroken_head hm
  · rw [List.append_assoc]; exact unbroken_head hc

theorem unbroken_start : Spec.unbroken b!"start" ∧ Spec.unbroken b!"/" := by
  constructor <;> exact ⟨by simp, by decide +kernel⟩

/-- C93: a `rewrite` of a location applies to every path its expression matches, and what it gives is the template filled
in. -/
theorem nginx_rewrite {R I : Type} (lib : Lib R I) {m p path : Bytes} (hm : Spec.unbroken m) (hp : Spec.unbroken p)
    (hpath : b!"/" <+: path) {r : R} {i : I} (hc : lib.compile m = some r) (hf : lib.find r path = some i) :
    Spec.Applies lib (Spec.rewriteLine b!"start" b!"/" m p) path b!"start" (lib.expand r p path i) := by
  refine ⟨false, b!"/", m, p, r, i, ?_, .inr (.inl rfl), ?_, hc, hf, rfl⟩
  · rw [line_fields unbroken_start.1 unbroken_start.2 hm hp]; rfl
  · exact ⟨fun _ => rfl, fun _ => .inr (.inl ⟨rfl, hpath⟩)⟩

/-- C93: a `rewrite` in an `if` applies to a path if the condition holds of it, or does not for an operator with `!`, and
the expression matches. -/
theorem nginx_if_rewrite {R I : Type} (lib : Lib R I) {op kind re m p path : Bytes} (ho : Spec.NgxOp op kind)
    (hre : Spec.unbroken re) (hm : Spec.unbroken m) (hp : Spec.unbroken p) {q r : R} {i : I}
    (hq : lib.compile ((if op = b!"~*" ∨ op = b!"!~*" then b!"(?i)" else []) ++ re) = some q)
    (hcond : lib.isMatch q path = decide (op = b!"~" ∨ op = b!"~*")) (hc : lib.compile m = some r)
    (hf : lib.find r path = some i) :
    ∃ k, Spec.Applies lib (Spec.rewriteLine kind re m p) path k (lib.expand r p path i) ∧ k ≠ b!"regexpVar" := by
  cases ho with
  | is =>
    refine ⟨b!"regexp", ⟨false, re, m, p, r, i, ?_, .inr (.inr (.inl ⟨.inl rfl, ?_⟩)), ?_, hc, hf, rfl⟩, by decide +kernel⟩
    · rw [line_fields ⟨by simp, by decide +kernel⟩ hre hm hp]; rfl
    · have hq' : lib.compile re = some q := hq
      rw [hq']; rfl
    · exact ⟨fun _ => rfl, fun _ => .inr (.inr (.inl ⟨.inl rfl, q, hq, hcond⟩))⟩
  | isI =>
    refine ⟨b!"iregexp", ⟨false, re, m, p, r, i, ?_, .inr (.inr (.inr ⟨rfl, ?_⟩)), ?_, hc, hf, rfl⟩, by decide +kernel⟩
    · rw [line_fields ⟨by simp, by decide +kernel⟩ hre hm hp]; rfl
    · have hq' : lib.compile (b!"(?i)" ++ re) = some q := hq
      rw [hq']; rfl
    · exact ⟨fun _ => rfl, fun _ => .inr (.inr (.inr ⟨rfl, q, hq, hcond⟩))⟩
  | isNot =>
    have hq' : lib.compile re = some q := hq
    have hn : lib.isMatch q path = false := hcond
    refine ⟨b!"regexp", ⟨true, re, m, p, r, i, ?_, .inr (.inr (.inl ⟨.inl rfl, ?_⟩)), ?_, hc, hf, rfl⟩, by decide +kernel⟩
    · rw [line_fields ⟨by simp, by decide +kernel⟩ hre hm hp]; rfl
    · rw [hq']; rfl
    · refine ⟨fun h => ?_, fun h => by cases h⟩
      rcases h with ⟨h, _⟩ | ⟨h, _⟩ | ⟨_, q', h1, h2⟩ | ⟨h, _⟩
      · exact absurd h (by decide +kernel)
      · exact absurd h (by decide +kernel)
      · rw [hq'] at h1; cases h1; rw [hn] at h2; cases h2
      · exact absurd h (by decide +kernel)
  | isNotI =>
    have hq' : lib.compile (b!"(?i)" ++ re) = some q := hq
    have hn : lib.isMatch q path = false := hcond
    refine ⟨b!"iregexp", ⟨true, re, m, p, r, i, ?_, .inr (.inr (.inr ⟨rfl, ?_⟩)), ?_, hc, hf, rfl⟩, by decide +kernel⟩
    · rw [line_fields ⟨by simp, by decide +kernel⟩ hre hm hp]; rfl
    · rw [hq']; rfl
    · refine ⟨fun h => ?_, fun h => by cases h⟩
      rcases h with ⟨h, _⟩ | ⟨h, _⟩ | ⟨h, _⟩ | ⟨_, q', h1, h2⟩
      · exact absurd h (by decide +kernel)
      · exact absurd h (by decide +kernel)
      · rcases h with h | h <;> exact absurd h (by decide +kernel)
      · rw [hq'] at h1; cases h1; rw [hn] at h2; cases h2

/-! ## What is not translated -/

/-- C93, violated: a last directive without a semicolon is dropped without an error. -/
theorem nginx_unfinished_violated (ts : List Spec.NgxText) (hg : Spec.ngxGood ts) (h : Spec.NgxHead) (hh : h.good) :
    parse (Spec.ngxText ts ++ h.text) = .ok (Spec.ngxMeans ts) := by
  rw [parse, parse_texts ts hg, parseLoop_eq]
  have := head_eof hh
  generalize readToken [] {} h.text = r at this
  obtain ⟨t, a, s⟩ := r
  simp only at this
  subst this
  rfl

theorem double_eof (s : Bytes) (hs : (34 : UInt8) ∉ s) : ∀ (args : List Bytes) (x : Lx), x.sharp = false →
    x.needSpace = false → x.double = true → x.lastIsSpace = false → (readToken args x s).1 = .fileDone := by
  induction s with
  | nil => intros; rfl
  | cons c s ih =>
    intro args x h1 h2 h3 h4
    simp only [List.mem_cons, not_or] at hs
    have hc : c ≠ 34 := fun e => hs.1 e.symm
    obtain ⟨y, hy, g⟩ : ∃ y, turn args x c = .go args y ∧ y.sharp = false ∧ y.needSpace = false ∧ y.double = true ∧
        y.lastIsSpace = false := by
      obtain ⟨buf, sharp, quoted, double, needSpace, lastIsSpace, dollar⟩ := x
      simp only at h1 h2 h3 h4
      subst h1 h2 h3 h4
      unfold turn
      simp only [ite_self]
      cases quoted with
      | true => exact ⟨_, rfl, rfl, rfl, rfl, rfl⟩
      | false =>
        simp only [Bool.false_eq_true, if_false, plain, inWord]
        split
        · exact ⟨_, rfl, rfl, rfl, rfl, rfl⟩
        · split
          · exact ⟨_, rfl, rfl, rfl, rfl, rfl⟩
          · split
            · exact ⟨_, rfl, rfl, rfl, rfl, rfl⟩
            · rw [if_pos (by simp)]
              exact ⟨_, rfl, rfl, rfl, rfl, rfl⟩
    rw [readToken_go hy]
    exact ih hs.2 args y g.1 g.2.1 g.2.2.1 g.2.2.2

/-- C93, violated: after a quote that is not closed the rest of the file is dropped without an error. -/
theorem nginx_unclosed_quote_violated (ts : List Spec.NgxText) (hg : Spec.ngxGood ts) (gap : List Spec.NgxGap)
    (hgap : ∀ g ∈ gap, g.good) (rest : Bytes) (hr : (34 : UInt8) ∉ rest) :
    parse (Spec.ngxText ts ++ (gap.flatMap (·.text) ++ 34 :: rest)) = .ok (Spec.ngxMeans ts) := by
  rw [parse, parse_texts ts hg, parseLoop_eq, gaps_read hgap,
    readToken_go (args' := []) (x' := { double := true, lastIsSpace := false }) (by simp [turn, plain, atSpace, Nginx.isSpace])]
  have := double_eof rest hr [] { double := true, lastIsSpace := false } rfl rfl rfl rfl
  generalize readToken [] { double := true, lastIsSpace := false } rest = r at this
  obtain ⟨t, a, s⟩ := r
  simp only at this
  subst this
  rfl

/-- C93, violated: single quotes do not quote. -/
theorem nginx_single_quotes_violated :
    parse b!"log_format main 'a b';" = .ok [.mk b!"log_format" [b!"main", b!"'a", b!"b'"] []] := by
  rw [parse, parseLoop_eq]
  show parseLoop [] ([] ++ [.mk b!"log_format" [b!"main", b!"'a", b!"b'"] []]) [] = _
  rw [parseLoop_eq]
  rfl

/-- C93, violated: a word may not begin with a variable in braces, which nginx allows: the brace is taken for a block. -/
theorem nginx_leading_variable_violated (s : Bytes) :
    parse (b!"set $x ${y};" ++ s) = parseLoop [(b!"set", [b!"$x", b!"$"], [])] [] (b!"y};" ++ s) := by
  rw [parse, parseLoop_eq]
  rfl

/-- C93, violated: a server behind `https` becomes a server whose name begins with a slash. -/
theorem nginx_https_violated (args : List Bytes) {kind m : Bytes} (h : Spec.NgxModifier args kind m) (up : Bytes) :
    visitLocation (.mk b!"location" args [.mk b!"proxy_pass" [b!"https://" ++ up] []]) =
      some [{ upstream := b!"/" ++ up, «match» := m, type := kind, rules := [] }] := by
  unfold visitLocation
  rw [show (Directive.mk b!"location" args [.mk b!"proxy_pass" [b!"https://" ++ up] []]).args = args from rfl, header_spec h]
  simp [Directive.body, locationBody, Directive.name, Directive.args, show ¬ up.length + 1 + 1 + 1 + 1 + 1 + 1 + 1 + 1 < 7 by omega]

/-- C93, violated: a location inside another is left out, whatever it is. -/
theorem nginx_nested_violated (args args' : List Bytes) {kind m : Bytes} (h : Spec.NgxModifier args kind m) (up : Bytes)
    (hu : up ≠ []) (inner : List Directive) :
    visitAll [.mk b!"location" args [.mk b!"proxy_pass" [b!"http://" ++ up] [], .mk b!"location" args' inner]] =
      some [{ upstream := up, «match» := m, type := kind, rules := [] }] := by
  have hb : Spec.NgxBody [.mk b!"proxy_pass" [b!"http://" ++ up] [], .mk b!"location" args' inner] up [] :=
    .keep [.mk b!"proxy_pass" [b!"http://" ++ up] []] _ up [] [] (.change [] _ [] up [] [] .nil (.pass up [] []))
      (.other _ _ _ ⟨by decide +kernel, by decide +kernel, by decide +kernel⟩)
  exact all_spec (.cons _ [] _ [] (.location _ _ (.proxied args _ kind m up [] h hb hu)) .nil)

/-- C93, violated: a condition on anything but the address of the request is left out, with the rewriting it guards: the location is
translated as if the `if` were not there. -/
theorem nginx_condition_violated (args ws : List Bytes) {kind m : Bytes} (h : Spec.NgxModifier args kind m) (hw : Spec.NgxOther ws)
    (up : Bytes) (hu : up ≠ []) (guarded : List Directive) :
    visitAll [.mk b!"location" args [.mk b!"proxy_pass" [b!"http://" ++ up] [], .mk b!"if" ws guarded]] =
      some [{ upstream := up, «match» := m, type := kind, rules := [] }] := by
  have hb : Spec.NgxBody [.mk b!"proxy_pass" [b!"http://" ++ up] [], .mk b!"if" ws guarded] up [] :=
    .keep [.mk b!"proxy_pass" [b!"http://" ++ up] []] _ up [] [] (.change [] _ [] up [] [] .nil (.pass up [] []))
      (.condOther ws guarded hw)
  exact all_spec (.cons _ [] _ [] (.location _ _ (.proxied args _ kind m up [] h hb hu)) .nil)

/-- Conditions of this kind: `if ($slow)`, `if (-f $file)`, `if ($http_user_agent ~ MSIE)`. -/
example : Spec.NgxOther [b!"($slow)"] ∧ Spec.NgxOther [b!"(-f", b!"$file)"] ∧ Spec.NgxOther [b!"($http_user_agent", b!"~", b!"MSIE)"] :=
  ⟨.word b!"$slow)", .pair b!"-f" b!"$file", .tight b!"$http_user_agent" b!"~" b!"MSIE" (by decide +kernel) (by decide +kernel)⟩

/-- C93, violated: the expression of a `rewrite` with a space in it, quoted as it has to be, gives a rule agents ignore. -/
theorem nginx_space_violated {R I : Type} (lib : Lib R I) {a b p : Bytes} (ha : Spec.unbroken a) (hb : Spec.unbroken b)
    (hp : Spec.unbroken p) :
    HttpProxy.compileRules lib [Spec.rewriteLine b!"start" b!"/" (a ++ b!" " ++ b) p] = [] := by
  have e : Spec.rewriteLine b!"start" b!"/" (a ++ b!" " ++ b) p =
      b!"start" ++ b!" " ++ (b!"/" ++ b!" " ++ (a ++ b!" " ++ (b ++ b!" " ++ p))) := by
    simp [Spec.rewriteLine, List.append_assoc]
  have hp' : ∀ c, p.head? = some c → HttpProxy.isWs c = false := by
    have := unbroken_head (t := []) hp
    rwa [List.append_nil] at this
  have hf : HttpProxy.patternSplit (Spec.rewriteLine b!"start" b!"/" (a ++ b!" " ++ b) p) = [b!"start", b!"/", a, b, p] := by
    rw [rule_fields _ (by simp [Spec.rewriteLine]), e, fields_word unbroken_start.1, fields_word unbroken_start.2,
      fields_word ha, fields_word hb hp', fields_text (unbroken_ws hp)]
    · rw [List.append_assoc]; exact unbroken_head hb
    · rw [List.append_assoc]; exact unbroken_head ha
    · rw [List.append_assoc]; exact unbroken_head unbroken_start.2
  have hr : HttpProxy.newRewriteRule lib (Spec.rewriteLine b!"start" b!"/" (a ++ b!" " ++ b) p) = none := by
    rw [HttpProxy.newRewriteRule, hf]
  rw [HttpProxy.compileRules, List.filterMap_cons, hr]
  simp

/-- C93, violated: a location with the modifier that keeps nginx from trying expressions makes the tool panic, with or
without a space. -/
theorem nginx_modifier_violated (m : Bytes) (body : List Directive) :
    visitLocation (.mk b!"location" [b!"^~", m] body) = none ∧ visitLocation (.mk b!"location" [b!"^~" ++ m] body) = none :=
  ⟨rfl, rfl⟩

/-! ## A configuration -/

namespace NginxCase

def word (s : Bytes) : Spec.NgxWord := .plain (s.map .chr)

def sp : UInt8 × List Spec.NgxGap := (32, [])

def head (pre : List Spec.NgxGap) (ws : List Bytes) (last : Spec.NgxWord) (after : Option (UInt8 × List Spec.NgxGap)) :
    Spec.NgxHead := { before := pre, words := ws.map fun w => (word w, 32, []), last, after }

/-- `server {# proxies` … -/
def conf : List Spec.NgxText :=
  [.block (head [] [] (word b!"server") (some sp))
    [.line (head [.comment b!" proxies", .space 10] [b!"listen"] (word b!"80") none),
     .block (head [.space 10] [b!"location", b!"~*"] (.quoted [.chr 94, .chr 47, .esc 46, .chr 32]) none)
      [.line (head [] [b!"proxy_pass"] (word b!"http://api") (some sp)),
       .line (head [] [b!"rewrite", b!"^/a/(.*)"] (.plain [.chr 47, .chr 36, .brace, .chr 49, .chr 125]) none)]
      [.space 9],
     .block (head [] [b!"location"] (word b!"/plain") (some sp)) [.line (head [] [b!"root"] (word b!"/var") none)] []]
    [.space 10]]

def text : Bytes := b!"server {# proxies\n\nlisten 80;\nlocation ~* \"^/\\. \"{proxy_pass http://api ;rewrite ^/a/(.*) /${1};\t}location /plain {root /var;}\n}"

example : Spec.ngxText conf = text := by decide +kernel

theorem good : Spec.ngxGood conf := by
  simp [conf, Spec.ngxGood, Spec.NgxText.good, Spec.NgxHead.good, head, word, sp, Spec.NgxGap.good, Spec.NgxWord.good,
    Spec.NgxWord.closed, Spec.plainRest, Spec.dollarLast, Spec.ngxSpace]

/-- The expression keeps its backslash and its space; the location without a server is left out. -/
def api : HttpProxy.Config :=
  { upstream := b!"api", «match» := b!"^/\\. ", type := b!"iregexp", rules := [b!"start / ^/a/(.*) /${1}"] }

theorem all : Spec.NgxAll (Spec.ngxMeans conf) [api] := by
  have h1 : Spec.NgxLocation (.mk b!"location" [b!"~*", b!"^/\\. "]
      [.mk b!"proxy_pass" [b!"http://api"] [], .mk b!"rewrite" [b!"^/a/(.*)", b!"/${1}"] []]) [api] :=
    .proxied _ _ _ _ b!"api" _ (.iregexp b!"^/\\. ")
      (.keep [.mk b!"proxy_pass" [b!"http://api"] []] _ b!"api" _ [] (.change [] _ [] b!"api" [] [] .nil (.pass b!"api" [] []))
        (.rewrite b!"^/a/(.*)" b!"/${1}" [] [])) (by simp)
  have h2 : Spec.NgxLocation (.mk b!"location" [b!"/plain"] [.mk b!"root" [b!"/var"] []]) [] :=
    .skipped _ _ _ _ _ (.start 47 b!"plain" (by decide))
      (.keep [] _ [] [] [] .nil (.other b!"root" _ _ ⟨by decide +kernel, by decide +kernel, by decide +kernel⟩))
  have h3 := Spec.NgxAll.cons _ _ _ _
    (.inside b!"server" [] _ _ (by decide +kernel)
      (.cons _ _ _ _ (.inside b!"listen" [b!"80"] [] [] (by decide +kernel) .nil)
        (.cons _ _ _ _ (.location _ _ h1) (.cons _ _ _ _ (.location _ _ h2) .nil)))) .nil
  exact h3

example : translate text = .ok [api] := by
  have := nginx_translated conf good [] (by simp) all
  rw [List.flatMap_nil, List.append_nil] at this
  exact this

/-- `served` by the expression, for a library whose expressions match everything. -/
def lib : Lib Bytes Unit where
  compile := some
  isMatch := fun _ _ => true
  find := fun _ _ => some ()
  expand := fun _ p _ _ => p
  query := fun _ _ => []

example : Spec.LocPicks lib [api] b!"/x" api :=
  ⟨[], [], rfl, .inr (.inl ⟨by
    intro d hd h
    rw [List.mem_singleton] at hd
    subst hd
    exact absurd h.1 (by decide +kernel), ⟨_, .inr ⟨by decide +kernel, rfl⟩, rfl⟩, by simp⟩)⟩

example : Spec.unbroken b!"^/a/(.*)" ∧ Spec.unbroken b!"/$1" := by
  constructor <;> exact ⟨by simp, by decide +kernel⟩

example : Spec.NgxCond [b!"($request_uri", b!"!~", b!"^/2/)"] b!"!~" b!"^/2/" ∧ Spec.NgxOp b!"!~" b!"!regexp" :=
  ⟨.tight b!"!~" b!"^/2/" (by simp), .isNot⟩

end NginxCase

end Motan.Props
