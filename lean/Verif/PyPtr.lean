/-
Smart pointers given to Python by boost::python: python_base.h:1029-1079.

Simplified: the objects pointed to are of one class and have no pointers in them; the pointers in C++ and the variables of Python are numbered, and they
stay where they are.  How Boost.Python presents a pointer is taken from its documentation: a data member that is a shared_ptr is given as a copy (or `None` when
it is null), an element of a container or the result of a member function as a reference, `return_internal_reference` makes the result keep the wrapper it came
from (hence the copy) alive.  Using a reference to a destroyed object is undefined, also as an argument that is not looked at.
-/
namespace Verif.PyPtr

/-- What a Python variable holds: `return_internal_reference` gives a reference to the object in C++, with `keep` when it came through a copy of the pointer; for
a type of `PythonBasicType` Python gets a value. -/
inductive Held (α : Type)
  | obj (o : Nat) (keep : Bool)
  | val (x : α)

/-- What a program in Python does: `r=v.target` (with the pointer a data member or not), `v.target=x`, `v.target=r`, reading and changing the object `r`, `v=w` and `v=shared_ptr()`
for attributes that are pointers (def_readwrite). -/
inductive Op (α : Type)
  | get (member : Bool) (r v : Nat)
  | put (v : Nat) (x : α)
  | copy (v r : Nat)
  | read (r : Nat)
  | write (r : Nat) (x : α)
  | assign (v w : Nat)
  | clear (v : Nat)

inductive Out (α : Type)
  | done
  | value (x : α)
  | raised

/-- The pointers, the objects there are, and the variables of Python. -/
structure St (α : Type) where
  ptr : Nat → Option Nat
  heap : Nat → Option α
  py : Nat → Option (Held α)

/-- Settings: is the class a basic type of Python or an enumeration; can it be assigned; the numbers of pointers and of variables. -/
structure Cfg where
  basic : Bool
  assignable : Bool
  n : Nat
  m : Nat

variable {α : Type}

def upd {β : Type} (f : Nat → β) (k : Nat) (x : β) : Nat → β := fun i => if i = k then x else f i

/-- Does a variable hold the object through a copy of a pointer? -/
def keeps (o : Nat) : Option (Held α) → Bool
  | some (.obj i true) => i == o
  | _ => false

/-- Is there a pointer to the object? -/
def owned (g : Cfg) (s : St α) (o : Nat) : Bool :=
  ((List.range g.n).any fun i => s.ptr i == some o) || (List.range g.m).any fun r => keeps o (s.py r)

/-- Objects with no pointer to them are destroyed. -/
def settle (g : Cfg) (s : St α) : St α := { s with heap := fun o => if owned g s o then s.heap o else none }

/-- `*self=v`, or an exception: `sharedPtrTargetSetter`, python_base.h:1041-1057. -/
def setter (g : Cfg) (v : Nat) (x : α) (s : St α) : Out α × St α :=
  match s.ptr v with
  | none => (.raised, s)
  | some o => if g.assignable then (.done, { s with heap := upd s.heap o (some x) }) else (.raised, s)

/-- One statement; `none` is undefined behaviour.  The getters: python_base.h:1028-1039, 1060-1079. -/
def step (g : Cfg) (s : St α) : Op α → Option (Out α × St α)
  | .get k r v =>
    match s.ptr v with
    | none => some (.raised, s)
    | some o =>
      if g.basic then (s.heap o).map fun x => (.done, settle g { s with py := upd s.py r (some (.val x)) })
      else some (.done, settle g { s with py := upd s.py r (some (.obj o k)) })
  | .put v x => some (setter g v x s)
  | .copy v r =>
    match s.py r with
    | none => some (.raised, s)
    | some (.val x) => some (setter g v x s)
    | some (.obj o _) => (s.heap o).map fun x => setter g v x s
  | .read r =>
    match s.py r with
    | none => some (.raised, s)
    | some (.val x) => some (.value x, s)
    | some (.obj o _) => (s.heap o).map fun x => (.value x, s)
  | .write r x =>
    match s.py r with
    | some (.obj o _) => (s.heap o).map fun _ => (.done, { s with heap := upd s.heap o (some x) })
    | _ => some (.raised, s)
  | .assign v w => some (.done, settle g { s with ptr := upd s.ptr v (s.ptr w) })
  | .clear v => some (.done, settle g { s with ptr := upd s.ptr v none })

def run (g : Cfg) : St α → List (Op α) → Option (List (Out α))
  | _, [] => some []
  | s, op :: l => (step g s op).bind fun r => (run g r.2 l).map (r.1 :: ·)

end Verif.PyPtr
