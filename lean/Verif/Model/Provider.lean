import Verif.Model.Pb
import Verif.Basic.AMap

/-!
# Calling a Go service (provider/provider.go)

`DefaultProvider` with arguments in the protobuf serialization. A method is its name, the types of its parameters and its
effect; `V` is what it returns. Go's `reflect.Value.Call` panics unless there are exactly as many arguments as parameters,
none of them is the zero `Value` (nil) and each can be assigned to its parameter.

Simplifications: a method that panics itself is not modelled; a message argument is of the message type of its parameter
(the decoder makes it from that type).
-/

namespace Motan.Provider

open Pb

variable {P V : Type}

/-- The type of a parameter: a kind, a pointer to a kind, a pointer to a message, a slice of message pointers, a slice of
something else, another type (an interface, a map, a struct). -/
inductive PType where
  | kind (k : Kind)
  | ptr (k : Kind)
  | msg
  | msgs
  | slice
  | other
deriving DecidableEq, Repr

/-- provider/provider.go:115-119: the types are the targets of the decoder; serialize/pb.go:204-206 drops one pointer. -/
def PType.target : PType → Target P
  | .kind k => .kind k
  | .ptr k => .kind k
  | .msg => .msgType
  | .msgs => .slice .type
  | .slice => .sliceOther
  | .other => .other

/-- `reflect.Type.AssignableTo` for what the decoder makes. -/
def assignable : Val P → PType → Bool
  | .prim p, .kind k => p.kind == k
  | .msg _, .msg => true
  | _, _ => false

/-- A method of the service; `none` is the result of one that panics. -/
structure Method (P V : Type) where
  name : Bytes
  params : List PType
  run : List (Val P) → Option V

/-- What becomes of a call: the method ran with these arguments (and panicked if there is no result); an exception is
answered; a panic before the method runs. Panics are answered with an exception (server/server.go:210-213). -/
inductive Outcome (P V : Type) where
  | ran (method : Bytes) (args : List (Val P)) (result : Option V)
  | noMethod
  | badArguments
  | panic

/-- core/util.go:121-129 `FirstUpper`; `none` is the panic on "". `upper` is `unicode.ToUpper` on a string whose first
character is not ASCII. -/
def firstUpper (upper : Bytes → Bytes) : Bytes → Option Bytes
  | [] => none
  | c :: s =>
    if c.toNat < 128 then
      if 97 ≤ c.toNat ∧ c.toNat ≤ 122 then some (UInt8.ofNat (c.toNat - 32) :: s) else some (c :: s)
    else some (upper (c :: s))

/-- All arguments fit: the checks of `reflect.Value.Call`. -/
def callable : List (Val P) → List PType → Bool
  | [], [] => true
  | v :: vs, t :: ts => assignable v t && callable vs ts
  | _, _ => false

/-- The arguments of a request with the body `body` after `ProcessDeserializable` (provider/provider.go:114-124,
core/motan.go:615-626, protocol/motanProtocol.go:624-635): an empty body means no arguments at all; a method without
parameters leaves the undecoded body as the one argument. -/
def arguments (L : Lib P) (params : List PType) (body : Bytes) : Except Err (List (Val P)) :=
  if body = [] then .ok []
  else if params = [] then .ok [.other]
  else (deMulti L (params.map PType.target) body).map (·.map Prod.fst)

/-- provider/provider.go:107-136 `DefaultProvider.Call`: the first return value is the answer. -/
def call (L : Lib P) (upper : Bytes → Bytes) (methods : List (Method P V)) (name body : Bytes) : Outcome P V :=
  match firstUpper upper name with
  | none => .panic
  | some n =>
    match methods.find? (fun m => m.name == n) with
    | none => .noMethod
    | some m =>
      match arguments L m.params body with
      | .error .panic => .panic
      | .error _ => .badArguments
      | .ok vs => if callable vs m.params then .ran m.name vs (m.run vs) else .panic

/-! ## The message handler of the server -/

/-- The path and the identity of an exported provider. -/
structure Exported where
  path : Bytes
  id : Nat
deriving DecidableEq, Repr

/-- `DefaultMessageHandler`: its providers by path. -/
abbrev Handler := AMap Bytes Exported

/-- What is done to a handler: server/server.go:193-196 `AddProvider`, 198-203 `RmProvider`. -/
inductive HAct where
  | add (p : Exported)
  | rm (p : Exported)
deriving DecidableEq, Repr

/-- server/server.go:193-203. -/
def hstep (h : Handler) : HAct → Handler
  | .add p => h.store p.path p
  | .rm p => if h.load p.path = some p then h.erase p.path else h

/-- The answer to a request. -/
inductive Answer (V : Type) where
  | value (v : V)
  | exception (code : Nat)
deriving DecidableEq, Repr

/-- server/server.go:209-229 `DefaultMessageHandler.Call` for a request that is not for a framework service. `methods` are
the methods of the service behind a provider. A panic is recovered (lines 210-213); provider/provider.go:111, 122. -/
def handle (L : Lib P) (upper : Bytes → Bytes) (methods : Exported → List (Method P V)) (h : Handler)
    (service name body : Bytes) : Answer V :=
  match h.load service with
  | none => .exception 404
  | some p =>
    match call L upper (methods p) name body with
    | .ran _ _ (some v) => .value v
    | .ran _ _ none => .exception 500
    | .noMethod => .exception 500
    | .badArguments => .exception 500
    | .panic => .exception 500

end Motan.Provider
