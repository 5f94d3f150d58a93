/-
Lifetimes of what the wrappers of a Python module refer to.  pythonBuffer.h:417-446, 571-590, 660-682;
RESTProcess_base.h:448-451, 518-524, 616-618, 710-733, 1060-1071, 1157-1209, 1677-1683;
RESTProcess_epilogue.h:103-125.

A wrapper holds a `shared_ptr` to a RESTProcess object.  Such an object either has its own copy of the C++ object
(RESTProcessValueObject, RESTProcessHeapObject) or just a reference to one, in which case it keeps nothing alive.
What Python does to its reference counts in other ways (Verif.Python) is left out: a wrapper exists as long as a
variable refers to it.  The values of the objects do not matter here.
-/
namespace Verif.PyLife

/-- What must still be there for an object to be usable: the copy with a number; the storage of a container, as it
was at some time; the target of a smart pointer; a variable of a function that has returned. -/
inductive Need
  | copy (h : Nat)
  | storage (c : Nat) (gen : Nat)
  | target (t : Nat)
  | never
  deriving DecidableEq

/-- A wrapper: the copy its RESTProcess object owns, if any, and what its object needs. -/
structure W where
  keeps : Option Nat
  needs : List Need
  deriving DecidableEq

structure S where
  /-- Python's variables -/
  vars : List (Nat × W)
  /-- how often the elements of a container have been moved or destroyed -/
  gen : Nat → Nat
  /-- whether the target of a smart pointer exists -/
  live : Nat → Bool
  /-- the number of copies made so far -/
  next : Nat

def lookup (x : Nat) : List (Nat × W) → Option W
  | [] => none
  | e :: l => if e.1 = x then some e.2 else lookup x l

def unset (x : Nat) (l : List (Nat × W)) : List (Nat × W) := l.filter fun e => e.1 ≠ x

/-- `x=w`, what `x` was before being released. -/
def S.bind (s : S) (x : Nat) (w : W) : S := { s with vars := (x, w) :: unset x s.vars }

/-- Is it there: a copy exists as long as a wrapper owns it. -/
def S.has (s : S) : Need → Bool
  | .copy h => s.vars.any fun e => e.2.keeps == some h
  | .storage c g => s.gen c == g
  | .target t => s.live t
  | .never => false

def S.usable (s : S) (w : W) : Bool := w.needs.all s.has

/-- Statements of a Python program, or of C++ code between them.
* `global x`: `x=module.o.a.b`, by members of classes, or the result of a function that returns a reference to such
  an object (RESTProcess_base.h:1157-1188)
* `call x`: `x=f(...)` with a function that returns an object of a class (RESTProcess_base.h:1193-1208), or a factory
  (pythonBuffer.h:683-694)
* `request x`: the REST request `f.m`, a member of what `f` returns (RESTProcess_base.h:1206-1208)
* `member x y`: `x=y.m` (pythonBuffer.h:571-590, attributes from 663-682 or `list()`)
* `elem x y c`: `x=y[i]`, `y` being the container numbered c (RESTProcess_base.h:724-727)
* `target x y t`: `x=y.m`, `y` being a smart pointer whose target is t (RESTProcess_base.h:1066-1071)
* `copy x y`: `x=y`
* `drop x`: `del x`
* `change c`: the elements of the container are moved (insertion) or destroyed (erase)
* `reset t`: the target is destroyed
* `use x`: `x()` -/
inductive Op
  | global (x : Nat)
  | call (x : Nat)
  | request (x : Nat)
  | member (x y : Nat)
  | elem (x y c : Nat)
  | target (x y t : Nat)
  | copy (x y : Nat)
  | drop (x : Nat)
  | change (c : Nat)
  | reset (t : Nat)
  | use (x : Nat)

/-- The outcome of a statement: all well, a NameError, undefined behaviour. -/
inductive Out
  | ok
  | unknown
  | ub
  deriving DecidableEq

/-- Something is done with the object of the variable `y`: it has to be usable. -/
def S.with (s : S) (y : Nat) (f : W → S) : Out × S :=
  match lookup y s.vars with
  | none => (.unknown, s)
  | some w => if s.usable w then (.ok, f w) else (.ub, s)

def step (s : S) : Op → Out × S
  | .global x => (.ok, s.bind x ⟨none, []⟩)
  | .call x => (.ok, { s.bind x ⟨some s.next, [.copy s.next]⟩ with next := s.next + 1 })
  | .request x => (.ok, s.bind x ⟨none, [.never]⟩)
  | .member x y => s.with y fun w => s.bind x ⟨none, w.needs⟩
  | .elem x y c => s.with y fun w => s.bind x ⟨none, .storage c (s.gen c) :: w.needs⟩
  | .target x y t => s.with y fun _ => if s.live t then s.bind x ⟨none, [.target t]⟩ else s
  | .copy x y =>
    match lookup y s.vars with
    | none => (.unknown, s)
    | some w => (.ok, s.bind x w)
  | .drop x => (.ok, { s with vars := unset x s.vars })
  | .change c => (.ok, { s with gen := fun k => if k = c then s.gen k + 1 else s.gen k })
  | .reset t => (.ok, { s with live := fun k => if k = t then false else s.live k })
  | .use x => s.with x fun _ => s

def run (s : S) : List Op → List Out × S
  | [] => ([], s)
  | o :: os => let r := step s o; let q := run r.2 os; (r.1 :: q.1, q.2)

end Verif.PyLife
