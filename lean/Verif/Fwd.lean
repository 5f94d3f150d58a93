import Verif.TopLevel
/-
Types declared but not defined: classdesc.cc:168-183, 875, 911, 1046-1048, 1362-1367.
The classes and typedefs met are taken in turn; reading up to them is in `Verif.Top`.
-/
namespace Verif.Fwd
open Verif.Tok (Str b)
open Verif.Decl (Rd)
open Verif.Bases (classHead has)

/-- `type_defined`: whether a name is in the table, and with which value. -/
abbrev Table := Str → Option Bool

def set (t : Table) (n : Str) (v : Bool) : Table := fun m => if m = n then some v else t m

/-- `defined`: classdesc.cc:171. -/
def defined (t : Table) (n : Str) : Table := set t n true

/-- `declared`: classdesc.cc:172-182. -/
def declared (t : Table) (name : Str) : Table :=
  let n := (Top.toColons name.reverse).reverse
  if has 60 n = true then t
  else if t n = some true then t else set t n false

/-- Where the table is used. -/
inductive Ev
  /-- `assign_class_action`, called with these arguments; `r` is at the name. -/
  | cls (pre targs classargs : Str) (priv : Bool) (r : Rd)
  /-- `parse_typedef` for `typedef struct n x;` (`def` false) or `typedef struct n {...} x;`; `n` may be empty. -/
  | typ (n : Str) (isDef : Bool)

/-- classdesc.cc:875, 911, 1015, 1046-1048.  (At the end of the input there is an exception, classdesc.cc:1352.) -/
def step (respect : Bool) (t : Table) : Ev → Table
  | .cls pre targs classargs priv r =>
    match classHead respect pre targs classargs priv r with
    | none => t
    | some (c, _) => if c.defined = true then defined t c.name else declared t c.name
  | .typ n true => defined t n
  | .typ n false => declared t n

def table (respect : Bool) (l : List Ev) : Table := l.foldl (step respect) fun _ => none

/-- Is `class n {};` printed?  classdesc.cc:1362-1367; `def` is false with -nodef. -/
def Printed (respect def_ : Bool) (l : List Ev) (n : Str) : Prop := def_ = true ∧ table respect l n = some false

end Verif.Fwd
