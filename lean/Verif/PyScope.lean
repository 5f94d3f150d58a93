import Verif.OMap
/-
python_base.h: where objects and functions given to Python under dotted names end up.

`boost::python::scope` keeps one current scope; constructing one from an object makes that object current, destroying one makes
the scope current that was so when it was constructed.  `class_<T>(name)` sets the attribute `name` of the current scope, `def`
likewise; a module's `__dict__` is a dictionary, a class's is not (it is a read only view).
-/
namespace Verif.PyScope

abbrev Str := List Nat

/-- An attribute: an object or function, or a class that stands for a scope. -/
inductive Ent
  | obj (v : Nat)
  | sc (id : Nat)
  deriving DecidableEq, Repr

/-- `Scope`: python_base.h:497-508; `prev` is what the member `scope` restores. -/
structure Scope where
  name : Str
  id : Nat
  prev : Nat
  deriving DecidableEq, Repr

/-- Attributes of modules and classes (0 is the module), Boost.Python's current scope, and `scopeStack`: python_base.h:509. -/
structure St where
  attr : Nat → Str → Option Ent
  next : Nat
  cur : Nat
  stack : List Scope

def St.setAttr (s : St) (id : Nat) (n : Str) (e : Ent) : St :=
  { s with attr := fun i m => if i = id ∧ m = n then some e else s.attr i m }

/-- `Scope(name)`: python_base.h:503-504, pushed as in 746. -/
def St.openScope (s : St) (n : Str) : St :=
  let s1 := s.setAttr s.cur n (.sc s.next)
  { s1 with next := s.next + 1, cur := s.next, stack := s.stack ++ [⟨n, s.next, s.cur⟩] }

/-- Destroying scopes in the order given. -/
def destroyed (cur : Nat) : List Scope → Nat
  | [] => cur
  | e :: es => destroyed e.prev es

/-- `scopeStack.erase(scopeStack.begin()+level,scopeStack.end())`; the standard does not say in which order the elements are
destroyed: `lifo` is from the last one (libc++), otherwise from the first one (libstdc++). -/
def St.close (lifo : Bool) (level : Nat) (s : St) : St :=
  let gone := s.stack.drop level
  { s with cur := destroyed s.cur (if lifo then gone.reverse else gone), stack := s.stack.take level }

/-- The parts of a dotted name in front of the last one, and the last one: `find('.')` and `substr` in python_base.h:740-748, and
`tail`: 730-736. -/
def cut : Str → List Str × Str
  | [] => ([], [])
  | c :: r =>
    let p := cut r
    if c = 46 then ([] :: p.1, p.2)
    else match p.1 with
      | [] => ([], c :: p.2)
      | h :: t => ((c :: h) :: t, p.2)

/-- `checkScope`: python_base.h:738-751. -/
def check (lifo : Bool) : List Str → Nat → St → St
  | [], level, s => s.close lifo level
  | h :: t, level, s =>
    let s1 := match s.stack[level]? with
      | some e => if h ≠ e.name then s.close lifo level else s
      | none => s
    let s2 := if level = s1.stack.length then s1.openScope h else s1
    check lifo t (level + 1) s2

/-- `addObject`: python_base.h:782-802; `none`: Python raises TypeError. -/
def addObject (lifo : Bool) (d : Str) (v : Nat) (s : St) : Option St :=
  let s1 := check lifo (cut d).1 0 s
  match s1.stack.getLast? with
  | some e => some (s1.setAttr e.id (cut d).2 (.obj v))
  | none => if s1.cur = 0 then some (s1.setAttr 0 (cut d).2 (.obj v)) else none

/-- `addFunctional`: python_base.h:804-812, without the classes of arguments; `staticmethod` raises KeyError if the class has no
such attribute.  Simplified: a further function with the same name replaces the first, where Boost.Python overloads it. -/
def addFunctional (lifo : Bool) (d : Str) (v : Nat) (s : St) : Option St :=
  let s1 := check lifo (cut d).1 0 s
  let s2 := s1.setAttr s1.cur (cut d).2 (.obj v)
  match s2.stack.getLast? with
  | some e => if (s2.attr e.id (cut d).2).isSome then some s2 else none
  | none => some s2

/-- What is added under a dotted name. -/
structure Item where
  fn : Bool
  d : Str
  v : Nat
  deriving DecidableEq, Repr

def add (lifo : Bool) (i : Item) (s : St) : Option St :=
  if i.fn then addFunctional lifo i.d i.v s else addObject lifo i.d i.v s

def addAll (lifo : Bool) : List Item → St → Option St
  | [], s => some s
  | i :: is, s => (add lifo i s).bind (addAll lifo is)

/-- A module and a `python_t` for it. -/
def St.init : St := ⟨fun _ _ => none, 1, 0, []⟩

/-- The destructor of `python_t`: `topScope` (python_base.h:510) goes first, then the elements of the vector in either order. -/
def St.finish (lifo : Bool) (s : St) : Nat := destroyed 0 (if lifo then s.stack.reverse else s.stack)

end Verif.PyScope
