import Verif.RestCall
/-
A function called through the REST interface, overloaded or not, with values as arguments: RESTProcess_epilogue.h:187-211,
RESTProcess_base.h:1125-1228, 1232-1494, and the values as JSON, json_pack_base.h:247-329, 357-370, 489-516.

Simplified: numbers are written and read as they are (the text of a number is the JSON library's); floating point numbers are opaque.
-/
namespace Verif.RestFn
open Verif.Rest
open Verif.Json (J)

/-- Types of parameters, up to const and reference to const: bool; the integral types other than bool and char, of `w` bits; char;
float and double; std::string; sequences. -/
inductive CT
  | bool
  | int (w : Nat) (signed : Bool)
  | chr
  | flt
  | str
  | vec (t : CT)
  deriving DecidableEq

inductive V
  | bool (x : Bool)
  | int (i : Int)
  | chr (c : UInt8)
  | flt (r : Nat)
  | str (s : Str)
  | vec (l : List V)

/-- `valueof(a)` and packing sequences: json_pack_base.h:247-329, json_pack_epilogue.h, for a value by itself. -/
def enc : V → J
  | .bool x => .bool x
  | .int i => .int i
  | .chr c => .str [c]
  | .flt r => .real r
  | .str s => .str s
  | .vec l => .arr (l.map enc)

/-- Conversion of an integer to `w` bits. -/
def narrow (w : Nat) (sg : Bool) (i : Int) : Int :=
  let m := i % 2 ^ w
  if sg = true ∧ 2 ^ (w - 1) ≤ m then m - 2 ^ w else m

/-- Conversions to floating point: of integers, and of null to NaN. -/
structure FP where
  ofInt : Int → Nat
  nan : Nat

mutual
/-- `b >> a` into a new variable: json_pack_base.h:250-329, 357-370, 489-516; `none`: the JSON library throws.  A sequence given something
else is left empty, the exception is not passed on. -/
def dec (fp : FP) : CT → J → Option V
  | .bool, .bool x => some (.bool x)
  | .int w s, .int i => some (.int (narrow w s i))
  | .chr, .str [] => some (.chr 0)
  | .chr, .str (c :: _) => some (.chr c)
  | .flt, .real r => some (.flt r)
  | .flt, .int i => some (.flt (fp.ofInt i))
  | .flt, .null => some (.flt fp.nan)
  | .str, .str s => some (.str s)
  | .vec t, .arr l => (decs fp t l).map .vec
  | .vec _, _ => some (.vec [])
  | _, _ => none
def decs (fp : FP) (t : CT) : List J → Option (List V)
  | [] => some []
  | j :: l => match dec fp t j, decs fp t l with
    | some v, some vs => some (v :: vs)
    | _, _ => none
end

/-- `A a{}`. -/
def dflt : CT → V
  | .bool => .bool false
  | .int _ _ => .int 0
  | .chr => .chr 0
  | .flt => .flt 0
  | .str => .str []
  | .vec _ => .vec []

/-- Which `matches` is used: RESTProcess_base.h:1232-1310; char is integral. -/
def atOf : CT → AT
  | .bool => .bool
  | .int _ _ => .int
  | .chr => .int
  | .flt => .flt
  | .str => .str
  | .vec t => .cont (atOf t)

structure Fun (R : Type) where
  ts : List CT
  run : List V → R

inductive Got (R : Type)
  | res (r : R)
  | void
  | noMatch
  | ambiguous
  | refused

/-- `RESTProcessFunction::process`, for a function returning a value: RESTProcess_base.h:1486-1487. -/
def callOne {R : Type} (fp : FP) (f : Fun R) (args : J) : Got R :=
  match callFunction dflt (dec fp) false f.ts f.run [] args with
  | some (r, _) => .res r
  | none => .refused

/-- A request for the functions `fs` of one name.  One alone is registered as it is, several as overloaded function: RESTProcess_base.h:359-396;
RESTProcess_epilogue.h:187-211. -/
def request {R : Type} (fp : FP) : List (Fun R) → J → Got R
  | [f], args => callOne fp f args
  | fs, args =>
    match choose (fun f => matchScore (f.ts.map atOf) args) fs with
    | .void => .void
    | .noMatch => .noMatch
    | .ambiguous => .ambiguous
    | .call f => callOne fp f args

end Verif.RestFn
