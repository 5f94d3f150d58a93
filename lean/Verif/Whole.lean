import Verif.Body
import Verif.Codec
/-
The statements written for a class (`Verif.Body`), as the compiler and the pack library take them: which part of the object a call gets, and
the calls one after the other (pack_base.h:600-771, use_mbr_pointers.h, classdesc.h: base_cast).

An object has a value for every place: for a member its name, for a base class the text of the conversion to it.
-/
namespace Verif.Whole
open Verif.Tok (Str b)
open Verif.Bases (idChar)

abbrev Obj := Str → Val

/-- The type of what is at a place; none for functions. -/
abbrev Types := Str → Option Ty

/-- What follows the text `p`. -/
def cut (p s : Str) : Option Str := if p.isPrefixOf s = true then some (s.drop p.length) else none

/-- The arguments of a call behind the label: classdesc.cc:1585-1598. -/
def argsOf (f s : Str) : Option Str :=
  (cut (b "::" ++ f ++ b "(targ,desc+\"") s).bind fun r => cut (b "\",") (r.dropWhile (· != 34))

/-- The place a call works on, found from the arguments: static constants are not streamed (pack_base.h:733-746), an array is its first element
and its bounds (pack_base.h:656-699), an unnamed union is passed as bytes, members by themselves or by object and pointer to member
(use_mbr_pointers.h:18-33), static functions by a pointer (use_mbr_pointers.h:36-52, nothing is done), base classes by a conversion. -/
def place (cls s : Str) : Option Str :=
  if (cut (b "classdesc::is_const_static(),") s).isSome = true then none
  else if let some r := cut (b "classdesc::is_array(),(char&)(arg.") s then some (r.takeWhile idChar)
  else if let some r := cut (b "classdesc::is_array(),arg.") s then some (r.takeWhile idChar)
  else if let some r := cut (b "arg.") s then some (r.takeWhile idChar)
  else if let some r := cut (b "arg,&" ++ cls ++ b "::") s then some (r.takeWhile idChar)
  else if (cut (b "&") s).isSome = true then none
  else some s.dropLast.dropLast

/-- The places a list of statements works on, in order. -/
def places (f cls : Str) (ss : List Str) : List Str := ss.filterMap fun s => (argsOf f s).bind (place cls)

/-- `operator()` of the descriptor for packing. -/
def packAt (al : Alloc) (T : Types) (o : Obj) : List Str → M Unit
  | [] => M.pure ()
  | x :: xs => match T x with
    | some t => M.bind (packM al t (o x)) fun _ => packAt al T o xs
    | none => packAt al T o xs

def set (o : Obj) (x : Str) (v : Val) : Obj := fun y => if y = x then v else o y

/-- And for unpacking. -/
def unpackAt (lim : Nat) (T : Types) : List Str → Obj → M Obj
  | [], d => M.pure d
  | x :: xs, d => match T x with
    | some t => M.bind (decM lim t (d x)) fun v => unpackAt lim T xs (set d x v)
    | none => unpackAt lim T xs d

/-- `pack` of an object of the class registered as `r`, of the name `cls`: the statements written for it, one after the other. -/
def packObj (al : Alloc) (c : Body.Cfg) (cls : Str) (r : Top.Reg) (T : Types) (o : Obj) : M Unit :=
  packAt al T o (places (b "pack") cls (Body.operStmts c (b "pack") r))

def unpackObj (lim : Nat) (c : Body.Cfg) (cls : Str) (r : Top.Reg) (T : Types) (d : Obj) : M Obj :=
  unpackAt lim T (places (b "unpack") cls (Body.operStmts c (b "unpack") r)) d

end Verif.Whole
