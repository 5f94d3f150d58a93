import Verif.PyScope
/-
The registry of classes behind the Python interface (python_base.h): the name `typeName` gives for a type is taken apart at its `::`,
a scope is opened for every part before the last, and the class or enumeration becomes an attribute of the innermost one.

Attributes are as in `PyScope`: object 0 is the module, `.sc i` an object that can have attributes of its own (a class, an
enumeration, a placeholder), `.obj v` a value.  The constructor of Boost.Python's `class_` and of `enum_` makes a new object an
attribute of the current scope; `scope(x)` makes `x` current and restores what was current before when it is destroyed.
-/
namespace Verif.PyClass

open Verif.PyScope (Str Ent)

/-- The module, Boost.Python's current scope, `namedScope` (python_base.h:511) and the objects in `classes()` (699-703). -/
structure Reg where
  attr : Nat → Str → Option Ent
  next : Nat
  cur : Nat
  named : Str → Option Nat
  classes : List Nat

def Reg.setAttr (r : Reg) (id : Nat) (n : Str) (e : Ent) : Reg :=
  { r with attr := fun i m => if i = id ∧ m = n then some e else r.attr i m }

def Reg.name (r : Reg) (m : Str) (id : Nat) : Reg := { r with named := fun k => if k = m then some id else r.named k }

/-- A new object, made an attribute of the current scope. -/
def Reg.make (r : Reg) (n : Str) : Reg × Nat := ({ r.setAttr r.cur n (.sc r.next) with next := r.next + 1 }, r.next)

/-- python_base.h:522: a leading `::` is dropped. -/
def strip : Str → Str
  | 58 :: s => strip s
  | s => s

/-- Text in front of the first part. -/
def front (a : Str) (p : List Str × Str) : List Str × Str :=
  match p.1 with
  | [] => ([], a ++ p.2)
  | h :: t => ((a ++ h) :: t, p.2)

/-- python_base.h:523-547: cut at every `::` outside angle brackets; the parts before the last, and the last. -/
def cut : Int → Str → List Str × Str
  | _, [] => ([], [])
  | 0, 58 :: 58 :: s => ([] :: (cut 0 s).1, (cut 0 s).2)
  | n, c :: s => front [c] (cut (if c = 60 then n + 1 else if c = 62 then n - 1 else n) s)

/-- python_base.h:529-530 and 716-718. -/
def dotted (m c : Str) : Str := (if m = [] then [] else m ++ [46]) ++ c

/-- python_base.h:529-535: for every part the scope of the joined name is looked up, or made in the current scope *under the joined
name*, and becomes current.  The result contains the joined name. -/
def openScopes : List Str → Str → Reg → Reg × Str
  | [], m, r => (r, m)
  | c :: cs, m, r =>
    match r.named (dotted m c) with
    | some id => openScopes cs (dotted m c) { r with cur := id }
    | none =>
      let p := r.make (dotted m c)
      openScopes cs (dotted m c) { p.1.name (dotted m c) p.2 with cur := p.2 }

/-- The first use of `getClass` for a type with the name `q` (python_base.h:707-727).  The destructors of the scopes leave the scope
that was current before.  Simplified: the default constructor and `__eq__` that every class gets (586-591) are not attributes here;
later uses of `getClass` find the class in `classes()` and do nothing. -/
def getClass (q : Str) (r : Reg) : Reg :=
  let k := cut 0 (strip q)
  let o := openScopes k.1 [] r
  let p := o.1.make k.2
  let n := dotted o.2 k.2
  { (if p.1.named n = none then p.1.name n p.2 else p.1) with cur := r.cur, classes := r.classes ++ [p.2] }

/-- Values of an enumeration: attributes of the enumeration. -/
def values (id : Nat) (ks : List (Str × Nat)) (r : Reg) : Reg := ks.foldl (fun r k => r.setAttr id k.1 (.obj k.2)) r

/-- `defineEnum` (python_epilogue.h:49-56); `export_values` makes the values attributes of the current scope as well. -/
def defineEnum (q : Str) (ks : List (Str × Nat)) (r : Reg) : Reg :=
  let k := cut 0 (strip q)
  let o := openScopes k.1 [] r
  let p := o.1.make k.2
  { values p.1.cur ks (values p.2 ks p.1) with cur := r.cur }

/-- What is given to Python. -/
inductive Item
  | cls (q : Str)
  | enum (q : Str) (ks : List (Str × Nat))
  deriving DecidableEq, Repr

def Item.reg : Item → Reg → Reg
  | .cls q, r => getClass q r
  | .enum q ks, r => defineEnum q ks r

def regAll (is : List Item) (r : Reg) : Reg := is.foldl (fun r i => i.reg r) r

/-- A module and a `python_t` for it. -/
def Reg.init : Reg := ⟨fun _ _ => none, 1, 0, fun _ => none, []⟩

end Verif.PyClass
