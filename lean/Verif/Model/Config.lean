import Verif.Basic.AMap
import Verif.Basic.Strings

/-!
# Configuration trees (config/config.go)

A YAML document as motan-go sees it. Keys are strings here (Go: any YAML value); scalars other than strings are an
opaque byte string; maps have distinct keys. Values are copied, not shared: Go's merge stores the overriding file's
sub-maps themselves, which only shows if that file is used again after merging; the program does not.
-/

namespace Motan.Config

/-- A configuration value. -/
inductive V
  | nil
  | str (s : Bytes)
  | other (s : Bytes)
  | list (l : List V)
  | map (m : List (Bytes × V))
deriving Repr

/-- A configuration: the content of one file. -/
abbrev Conf := AMap Bytes V

/-- `target[key] = value`, when there is a value to store. -/
def put (t : Conf) (k : Bytes) : Option V → Conf
  | some x => AMap.store t k x
  | none => t

mutual
/-- config/config.go:231-253 the body of the loop in `mergeMap`: the new value at a key, from the old one and the
overriding one. -/
def mergeVal : Option V → V → Option V
  | t, .nil => t
  | some (.map tm), .map om => some (.map (mergeMap tm om))
  | some (.list tl), .list ol => some (.list (tl ++ ol))
  | _, o => some o

/-- config/config.go:229-255 `mergeMap`. Go ranges over the overriding map in any order; `merge_order_independent`
says the order does not matter. -/
def mergeMap : Conf → List (Bytes × V) → Conf
  | t, [] => t
  | t, (k, v) :: r =>
    mergeMap (put t k (mergeVal (AMap.load t k) v)) r
end

/-- config/config.go:198-215: the key inside a value that is exactly one `${key}`. The regular expression is
`^\${([^}]+)}$`. -/
def placeholderKey (s : Bytes) : Option Bytes :=
  match s with
  | 36 :: 123 :: r =>
    match r.getLast? with
    | some 125 =>
      let k := r.dropLast
      if k ≠ [] ∧ (125 : UInt8) ∉ k then some k else none
    | _ => none
  | _ => none

/-- config/config.go:206-215 `getPlaceholderValue`: none for Go's nil. -/
def placeholderValue (ph : AMap Bytes V) (s : Bytes) : Option V :=
  match placeholderKey s with
  | some k =>
    match AMap.load ph k with
    | some .nil => none
    | r => r
  | none => none

/-- config/config.go:191-204 `replace`: string values of maps, at any depth of maps (not inside lists). -/
def replace (ph : AMap Bytes V) : List (Bytes × V) → List (Bytes × V)
  | [] => []
  | (k, .str s) :: r => (k, (placeholderValue ph s).getD (.str s)) :: replace ph r
  | (k, .map m) :: r => (k, .map (replace ph m)) :: replace ph r
  | (k, v) :: r => (k, v) :: replace ph r

/-- config/config.go:182-189 `ReplacePlaceHolder`. -/
def replacePlaceHolder (c : Conf) (ph : AMap Bytes V) : Conf :=
  match ph with
  | [] => c
  | _ :: _ => replace ph c

/-! ### Parameters that depend on the pool (core/globalContext.go) -/

/-- core/globalContext.go:381-396 `getDynamicParametersByRegexp`, over the entries in the order visited. `re pat s`: whether
the expression matches; none if it does not compile. The first that matches is taken even if it has no value. -/
def byRegexp (re : Bytes → Bytes → Option Bool) (pool : Bytes) : List (Bytes × V) → Option V
  | [] => none
  | (k, v) :: r =>
    if Strings.hasPrefix k b!"regexp:" ∧ re (k.drop 7) pool = some true then some v else byRegexp re pool r

/-- core/globalContext.go:366, 367, 370: an entry that is missing and one without a value are both nil. -/
def value : Option V → Option V
  | some .nil => none
  | v => v

/-- core/globalContext.go:363-376: the value of one parameter, from its entry in the section; none for nil. -/
def dynamicParam (re : Bytes → Bytes → Option Bool) (pool : Bytes) : V → Option V
  | .map m =>
    match value (AMap.load m pool) with
    | some v => some v
    | none =>
      match value (byRegexp re pool m) with
      | some v => some v
      | none => value (AMap.load m b!"default")
  | v => value (some v)

/-- core/globalContext.go:358-379 `getDynamicParameters`. -/
def dynamicParams (re : Bytes → Bytes → Option Bool) (pool : Bytes) (dp : AMap Bytes V) : AMap Bytes V :=
  dp.map fun p => (p.1, (dynamicParam re pool p.2).getD .nil)

/-- core/globalContext.go:283-286, 347-351. -/
def withDynamic (re : Bytes → Bytes → Option Bool) (pool : Bytes) (c : Conf) : Conf :=
  match AMap.load c b!"dynamic-param" with
  | some (.map []) => c
  | some (.map dp) => replacePlaceHolder c (dynamicParams re pool dp)
  | _ => c

/-! ### Pool configuration (core/globalContext.go) -/

/-- The directory of configuration files: contents by path below the configuration root, without the `.yaml`
suffix. A file that is missing or unreadable is absent. -/
abbrev FS := AMap Bytes Conf

/-- core/globalContext.go:168-174: the names listed in an import section. (A name that is not a string panics in Go;
here it is skipped.) -/
def importNames (c : Conf) (sect : Bytes) : List Bytes :=
  match AMap.load c sect with
  | some (.list l) => l.filterMap fun v => match v with | .str s => some s | _ => none
  | _ => []

/-- Pending work of `importCfgIgnoreError`: a location to import, or a file whose own imports are done. -/
inductive Work
  | visit (name : Bytes)
  | emit (c : Conf)

/-- How many files of HTTP locations have not been imported yet (only used for termination). -/
def unparsed (fs : FS) (parsed : List Bytes) : Nat :=
  fs.keys.countP fun k => decide (∀ n ∈ parsed, k ≠ b!"http/location/" ++ n)

theorem countP_lt {α : Type} {p q : α → Bool} {l : List α} {a : α} (ha : a ∈ l) (hp : p a = false) (hq : q a = true)
    (h : ∀ x, p x = true → q x = true) : l.countP p < l.countP q := by
  induction l with
  | nil => simp at ha
  | cons x l ih =>
    rw [List.countP_cons, List.countP_cons]
    rcases List.mem_cons.mp ha with rfl | hm
    · have : l.countP p ≤ l.countP q := List.countP_mono_left fun x _ => h x
      simp only [hp, hq]; simp; omega
    · have h1 := ih hm
      cases hpx : p x with
      | true => simp [h x hpx, h1]
      | false => cases q x <;> simp <;> omega

theorem unparsed_le (fs : FS) (parsed : List Bytes) (n : Bytes) : unparsed fs (n :: parsed) ≤ unparsed fs parsed := by
  apply List.countP_mono_left
  intro k _ hk
  simp only [decide_eq_true_eq] at hk ⊢
  exact fun n' hn' => hk n' (by simp [hn'])

theorem unparsed_lt (fs : FS) (parsed : List Bytes) (n : Bytes) (c : Conf) (hn : n ∉ parsed)
    (hl : AMap.load fs (b!"http/location/" ++ n) = some c) : unparsed fs (n :: parsed) < unparsed fs parsed := by
  refine countP_lt (AMap.load_isSome.mp (Option.isSome_iff_exists.mpr ⟨c, hl⟩)) ?_ ?_ fun k hk => ?_
  · simp
  · simp only [decide_eq_true_eq]
    intro n' hn' e
    rw [List.append_cancel_left e] at hn
    exact hn hn'
  · simp only [decide_eq_true_eq] at hk ⊢
    exact fun n' hn' => hk n' (by simp [hn'])

/-- core/globalContext.go:167-190 `importCfgIgnoreError` for HTTP locations: the files in the order they are merged.
The recursion is written with an explicit stack; a location is taken once (`parsed`). -/
def importLocations (fs : FS) (parsed : List Bytes) (out : List Conf) : List Work → List Conf × List Bytes
  | [] => (out, parsed)
  | .emit c :: r => importLocations fs parsed (out ++ [c]) r
  | .visit n :: r =>
    if hn : n ∈ parsed then importLocations fs parsed out r
    else match hl : AMap.load fs (b!"http/location/" ++ n) with
      | none => importLocations fs (n :: parsed) out r
      | some c =>
        importLocations fs (n :: parsed) out
          ((importNames c b!"import-http-location").map .visit ++ .emit c :: r)
termination_by w => (unparsed fs parsed, w.length)
decreasing_by
  · exact Prod.Lex.right _ (by simp)
  · exact Prod.Lex.right _ (by simp)
  · rcases Nat.lt_or_eq_of_le (unparsed_le fs parsed n) with h | h
    · exact Prod.Lex.left _ _ h
    · rw [h]; exact Prod.Lex.right _ (by simp)
  · exact Prod.Lex.left _ _ (unparsed_lt fs parsed n c hn hl)

/-- core/globalContext.go:167-190 with the section `import-refer`: service files, each after its own HTTP
locations. -/
def importRefers (fs : FS) (parsed : List Bytes) (out : List Conf) : List Bytes → List Conf × List Bytes
  | [] => (out, parsed)
  | n :: r =>
    match AMap.load fs (b!"services/" ++ n) with
    | none => importRefers fs parsed out r
    | some c =>
      let (o, p) := importLocations fs parsed out ((importNames c b!"import-http-location").map .visit)
      importRefers fs p (o ++ [c]) r

/-- core/globalContext.go:336-344: the pool files, from the shortest prefix of the pool name to the whole name. -/
def poolLayers (fs : FS) (base : Bytes) : List Bytes → List Conf
  | [] => []
  | v :: r =>
    (AMap.load fs (b!"pools/" ++ (base ++ v))).toList ++ poolLayers fs (base ++ v ++ b!"-") r

/-- One HTTP file and the locations it imports. -/
def httpLayers (fs : FS) (parsed : List Bytes) (path : Bytes) : List Conf × List Bytes :=
  match AMap.load fs path with
  | none => ([], parsed)
  | some c =>
    let (o, p) := importLocations fs parsed [] ((importNames c b!"import-http-location").map .visit)
    (o ++ [c], p)

/-- core/globalContext.go:303-307 the application name. -/
def appName (application pool : Bytes) : Bytes :=
  if application = [] then (Strings.split b!"-" pool).headD [] else application

/-- core/globalContext.go:291-345: every file in the order `parsePoolConfiguration` merges it. -/
def layers (fs : FS) (application pool : Bytes) : List Conf :=
  let app := appName application pool
  let basic := (AMap.load fs b!"basic").toList
  let (http1, p1) := httpLayers fs [] (b!"http/service/" ++ app)
  let (http2, p2) := httpLayers fs p1 (b!"http/pools/" ++ pool)
  let appl := match AMap.load fs (b!"applications/" ++ app) with
    | none => []
    | some c => (importRefers fs p2 [] (importNames c b!"import-refer")).1 ++ [c]
  basic ++ http1 ++ http2 ++ appl ++ poolLayers fs [] (Strings.split b!"-" pool)

/-- core/globalContext.go:291-345: the merged configuration, before placeholders are replaced. -/
def poolConfig (fs : FS) (application pool : Bytes) : Conf :=
  (layers fs application pool).foldl mergeMap []

/-- core/globalContext.go:291-356 `parsePoolConfiguration`: none for an error. -/
def parsePool (re : Bytes → Bytes → Option Bool) (fs : FS) (application pool : Bytes) : Option Conf :=
  match withDynamic re pool (poolConfig fs application pool) with
  | [] => none
  | c => some c

/-- core/globalContext.go:277-288 `parseSingleConfiguration`, given the file (none if it cannot be read). -/
def parseSingle (re : Bytes → Bytes → Option Bool) (pool : Bytes) (file : Option Conf) : Option Conf :=
  file.map (withDynamic re pool)

end Motan.Config
