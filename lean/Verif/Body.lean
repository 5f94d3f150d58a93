import Verif.Emit
import Verif.Xml
/-
The statements of a descriptor: the arguments recorded with each action (classdesc.cc:66-75, 281-286, 318-346, 444-452,
597-617, 716-770, 780-806, 914-928) and the functions printed from them (classdesc.cc:1556-1632).

Without the options -overload (see `Overload.lean`), -onbase and -objc.  The names declared before the statements
(classdesc.cc:1577-1584, 1608-1614) and the functions of `-workdir` are left out.
-/
namespace Verif.Body
open Verif.Tok (Str b)
open Verif.Decl (Act Kind)
open Verif.Top (Reg)
open Verif.Emit (lead target bareType)

/-- Options -use_mbr_pointers and -typeName. -/
structure Cfg where
  mbr : Bool
  typeName : Bool

/-- `act_pair`: classdesc.cc:66-73, without the flags, which are not printed here. -/
structure Pair where
  name : Str
  action : Str
  member : Str
  deriving DecidableEq, Repr

/-- The bounds of an array: `action2` of classdesc.cc:783-800. -/
def bounds (l : List (List Str)) : Str := b "," ++ l.flatMap fun ts => (ts.flatMap fun t => b " " ++ t) ++ b ","

/-- The action for an array: classdesc.cc:779-806. -/
def array (name : Str) (l : List (List Str)) : Str :=
  (b "classdesc::is_array(),arg." ++ name ++ (l.flatMap fun _ => b "[0]") ++ b "," ++ Xml.dec l.length ++ bounds l).dropLast

/-- What is passed to `register_class`: the member, and the action.  classdesc.cc:597-600, 605-617, 764-768, 806; for an action
without a name (a typedef of a union) 914-928. -/
def args (c : Cfg) (pre : Str) (a : Act) : Str × Str :=
  match a.kind with
  | .bytes => if a.name = [] then ([], b "classdesc::is_array(),(char&)arg,1,sizeof(arg)")
      else (a.name, b "classdesc::is_array(),(char&)(arg." ++ a.name ++ b "),1,sizeof(arg." ++ a.name ++ b ")")
  | .data ref => if a.name = [] then ([], b "arg")
      else if c.mbr = true ∧ ref = false then (b "arg", b "&" ++ pre ++ a.name) else ([], b "arg." ++ a.name)
  | .func => (if a.static = true ∨ a.cs = true then [] else b "arg", b "&" ++ pre ++ a.name)
  | .array l => (a.name, array a.name l)

/-- `register_class`: classdesc.cc:328-344. -/
def pair (c : Cfg) (pre : Str) (a : Act) : Pair :=
  let label := if a.name = [] then [] else b "." ++ a.name
  if a.cs = true then ⟨label, b "classdesc::is_const_static()," ++ (args c pre a).2, []⟩
  else ⟨label, (args c pre a).2, (args c pre a).1⟩

/-- The prefix `parse_class` is called with, from the type registered: classdesc.cc:909-911, 1016-1019.  Names given by a
typedef have no blank. -/
def scopeOf (t : Str) : Str :=
  (if lead t (b "class ") = true then t.drop 6 else if lead t (b "struct ") = true then t.drop 7
   else if lead t (b "typename ") = true then t.drop 9 else t) ++ b "::"

/-- The list of actions of a type. -/
def pairs (c : Cfg) : Reg → List Pair
  | .cls t _ _ bases acts => bases.map (fun a => ⟨[], a, []⟩) ++ acts.map (pair c (scopeOf t))
  | .enum _ _ _ => [⟨[], if c.typeName = true then b "classdesc::enum_handle(arg)" else b "(int&)arg", []⟩]

/-- The statement printed for an action in `operator()`: classdesc.cc:1585-1598. -/
def oper (action : Str) (p : Pair) : List Str :=
  if p.member ≠ [] ∧ lead p.action (b "classdesc::is_array") = false then
    [b "::" ++ action ++ b "(targ,desc+\"" ++ p.name ++ b "\"," ++ p.member ++ b "," ++ p.action ++ b ");"]
  else if Bases.find (b "classdesc::is_constructor") p.action = none then
    [b "::" ++ action ++ b "(targ,desc+\"" ++ p.name ++ b "\"," ++ p.action ++ b ");"]
  else []

/-- The statement printed for an action in `type()`: classdesc.cc:1615-1636.  (`find("::")` is not 0 behind `&`.) -/
def typ (c : Cfg) (action tgt : Str) (p : Pair) : List Str :=
  let head := b "::" ++ action ++ b "_type<_CD_TYPE," ++ tgt ++ b " >(targ,desc+\"" ++ p.name ++ b "\","
  if lead p.action (b "&") = true ∨ lead p.action (b "TmpMemPtr_") = true ∨ lead p.action (b "classdesc::is_constructor") = true then
    [head ++ p.action ++ b ");"]
  else if lead p.action (b "classdesc::is_array") = true ∧ p.member ≠ [] then
    [head ++ b "&" ++ bareType tgt ++ b "::" ++ p.member ++ b ");"]
  else if lead p.action (b "classdesc::is_const_static") = true ∧ c.mbr = true then [head ++ p.action ++ b ");"]
  else []

/-- The statements of `operator()` of a descriptor. -/
def operStmts (c : Cfg) (action : Str) (r : Reg) : List Str := (pairs c r).flatMap (oper action)

/-- The statements of `type()`. -/
def typeStmts (c : Cfg) (action : Str) (r : Reg) : List Str := (pairs c r).flatMap (typ c action (target (Emit.type r)))

end Verif.Body
