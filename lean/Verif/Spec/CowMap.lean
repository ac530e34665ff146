import Verif.Basic.AMap

/-!
# What it means for a concurrent map to be linearizable

A history is the sequence of invocations and responses seen by the callers. It is linearizable if one instant can be
placed between the invocation and the response of every operation such that the operations, each taking effect at its
instant, behave like operations on one ordinary map.
-/

namespace Motan.Spec.CowMap

variable {K V : Type} [DecidableEq K]

/-- The operations. `update` is a read and a store of one key under the lock (`SafeDoFunc`). -/
inductive Op (K V : Type)
  | load (k : K)
  | range
  | len
  | store (k : K) (v : V)
  | delete (k : K)
  | swap (m : AMap K V)
  | update (k : K) (g : Option V → V)

/-- Their results. -/
inductive Res (K V : Type)
  | val (v : Option V)
  | pairs (l : AMap K V)
  | num (n : Nat)
  | unit

/-- An ordinary map. -/
abbrev Map (K V : Type) := K → Option V

/-- `l` lists the map `m`, every key once. -/
def Lists (l : AMap K V) (m : Map K V) : Prop := l.NodupKeys ∧ ∀ k, AMap.load l k = m k

/-- One operation on an ordinary map: which results are right, and the map afterwards. -/
def Legal (m : Map K V) : Op K V → Res K V → Map K V → Prop
  | .load k, r, m' => r = .val (m k) ∧ m' = m
  | .range, r, m' => (∃ l, r = .pairs l ∧ Lists l m) ∧ m' = m
  | .len, r, m' => (∃ l : AMap K V, r = .num l.length ∧ Lists l m) ∧ m' = m
  | .store k v, r, m' => r = .unit ∧ m' = fun k' => if k = k' then some v else m k'
  | .delete k, r, m' => r = .val (m k) ∧ m' = fun k' => if k = k' then none else m k'
  | .swap l, r, m' => (∃ l', r = .pairs l' ∧ Lists l' m) ∧ m' = AMap.load l
  | .update k g, r, m' => r = .unit ∧ m' = fun k' => if k = k' then some (g (m k)) else m k'

/-- What callers see. -/
inductive Event (T K V : Type)
  | inv (t : T) (op : Op K V)
  | ret (t : T) (r : Res K V)

/-- The same, with the instants at which operations take effect. -/
inductive AEvent (T K V : Type)
  | ext (e : Event T K V)
  | lin (t : T)

/-- Where a thread is: no operation, an operation that has not taken effect, or one that has. -/
inductive TS (K V : Type)
  | idle
  | pending (op : Op K V)
  | done (r : Res K V)

/-- `f` with a new value at `t`. -/
def upd {T α : Type} [DecidableEq T] (f : T → α) (t : T) (a : α) : T → α := fun x => if x = t then a else f x

/-- Running annotated events on one ordinary map. -/
inductive Run {T : Type} [DecidableEq T] : (T → TS K V) → Map K V → List (AEvent T K V) → (T → TS K V) → Map K V → Prop
  | nil {σ m} : Run σ m [] σ m
  | inv {σ m es σ' m' t op} : Run σ m es σ' m' → σ' t = .idle →
      Run σ m (es ++ [.ext (.inv t op)]) (upd σ' t (.pending op)) m'
  | lin {σ m es σ' m' t op r m''} : Run σ m es σ' m' → σ' t = .pending op → Legal m' op r m'' →
      Run σ m (es ++ [.lin t]) (upd σ' t (.done r)) m''
  | ret {σ m es σ' m' t r} : Run σ m es σ' m' → σ' t = .done r →
      Run σ m (es ++ [.ext (.ret t r)]) (upd σ' t .idle) m'

/-- The events callers see. -/
def visible {T : Type} : List (AEvent T K V) → List (Event T K V)
  | [] => []
  | .ext e :: es => e :: visible es
  | .lin _ :: es => visible es

/-- A history is linearizable, starting from the empty map. -/
def Linearizable {T : Type} [DecidableEq T] (h : List (Event T K V)) : Prop :=
  ∃ es σ m, Run (fun _ => .idle) (fun _ => none) es σ m ∧ visible es = h

end Motan.Spec.CowMap
