/-
Values of polymorphic type: `poly` (poly.h:38-92) and cloning (object.h:90-93, polyBase.h:31-37, 76-81).

Memory is a partial map from addresses to objects; an object that has been deleted is not there any more.  The address
of a new object has not been used before (so that a dangling pointer stays visibly so).
-/
namespace Verif.PolyVal

/-- An object: its class and what its members contain. -/
structure Obj (V : Type) where
  cls : Nat
  val : V
  deriving DecidableEq

/-- The classes.  `own c` is the class whose `clone` the class c has: itself if it is derived by means of
`Object<c,...>` or `Poly<c,...>`, else that of its base.  `slice d v`: the members of class d in an object with
contents v.  `isa c d`: `dynamic_cast` from c to d. -/
structure Classes (V : Type) where
  own : Nat → Nat
  slice : Nat → V → V
  isa : Nat → Nat → Bool

/-- `clone`: object.h:90-91, polyBase.h:80. -/
def clone {V : Type} (h : Classes V) (o : Obj V) : Obj V := ⟨h.own o.cls, h.slice (h.own o.cls) o.val⟩

/-- Memory, the next free address, and the variables of type `poly<T>`: `none` does not exist (any more), else `item`. -/
structure St (V : Type) where
  mem : Nat → Option (Obj V)
  next : Nat
  vars : Nat → Option (Option Nat)

/-- Outcomes of a statement. -/
inductive R (V : Type)
  | ok (s : St V)
  | throw (s : St V)
  | ub

def upd {A : Type} (f : Nat → A) (i : Nat) (a : A) : Nat → A := fun j => if j = i then a else f j

/-- `delete item`; nothing for null. -/
def del {V : Type} (s : St V) : Option Nat → Option (St V)
  | none => some s
  | some a =>
    match s.mem a with
    | none => none
    | some _ => some { s with mem := upd s.mem a none }

/-- `new`. -/
def alloc {V : Type} (s : St V) (o : Obj V) : Nat × St V :=
  (s.next, { s with mem := upd s.mem s.next (some o), next := s.next + 1 })

/-- `dynamic_cast<T*>(x.clone())`, T being class t: poly.h:49, 55, 58.  If the cast fails the object is lost. -/
def cloned {V : Type} (h : Classes V) (t : Nat) (s : St V) (o : Obj V) : Option Nat × St V :=
  let c := clone h o
  let (a, s) := alloc s c
  (if h.isa c.cls t = true then some a else none, s)

/-- Statements of a program.  Allocation in those that make objects may fail. -/
inductive Op (V : Type)
  | decl (x : Nat)
  | copy (x y : Nat)
  | make (x : Nat) (o : Obj V)
  | assign (x y : Nat)
  | assignObj (x : Nat) (o : Obj V)
  | assignDeref (x y : Nat)
  | add (x : Nat) (o : Obj V)
  | swap (x y : Nat)
  | write (x : Nat) (f : V → V)
  | cast (x : Nat) (c : Nat)
  | drop (x : Nat)

/-- What a variable contains is used: the object must be there. -/
def deref {V : Type} (s : St V) (x : Nat) : Option (Nat × Obj V) :=
  match s.vars x with
  | some (some a) => (s.mem a).map (a, ·)
  | _ => none

/-- One statement; `room`: does the allocation succeed?  poly.h:53-90.  Use of a variable that does not exist, of null or
of a deleted object has no defined behaviour (the assertions in 78-81 are not compiled in). -/
def step {V : Type} (h : Classes V) (t : Nat) (room : Bool) (s : St V) : Op V → R V
  | .decl x => .ok { s with vars := upd s.vars x (some none) }
  | .copy x y =>
    match s.vars y with
    | none => .ub
    | some none => .ok { s with vars := upd s.vars x (some none) }
    | some (some a) =>
      match s.mem a with
      | none => .ub
      | some o =>
        if room = true then
          let (i, s) := cloned h t s o
          .ok { s with vars := upd s.vars x (some i) }
        else .throw s
  | .make x o =>
    if room = true then
      let (i, s) := cloned h t s o
      .ok { s with vars := upd s.vars x (some i) }
    else .throw s
  | .assign x y =>
    match s.vars x, s.vars y with
    | some i, some j =>
      match del s i with
      | none => .ub
      | some s =>
        match j with
        | none => .ok { s with vars := upd s.vars x (some none) }
        | some a =>
          match s.mem a with
          | none => .ub
          | some o =>
            if room = true then
              let (i, s) := cloned h t s o
              .ok { s with vars := upd s.vars x (some i) }
            else .throw s
    | _, _ => .ub
  | .assignObj x o =>
    match s.vars x with
    | none => .ub
    | some i =>
      match del s i with
      | none => .ub
      | some s =>
        if room = true then
          let (i, s) := cloned h t s o
          .ok { s with vars := upd s.vars x (some i) }
        else .throw s
  | .assignDeref x y =>
    match s.vars x, s.vars y with
    | some i, some (some a) =>
      match del s i with
      | none => .ub
      | some s =>
        match s.mem a with
        | none => .ub
        | some o =>
          if room = true then
            let (i, s) := cloned h t s o
            .ok { s with vars := upd s.vars x (some i) }
          else .throw s
    | _, _ => .ub
  | .add x o =>
    -- 69-77; the copy that is returned is destroyed again.  The prototype kept in the type table is not counted
    match s.vars x with
    | none => .ub
    | some i =>
      match del s i with
      | none => .ub
      | some s =>
        if room = true then
          let (a, s) := alloc s o
          let s := { s with vars := upd s.vars x (some (some a)) }
          let (j, s) := cloned h t s o
          match del s j with
          | none => .ub
          | some s => .ok s
        else .throw s
  | .swap x y =>
    match s.vars x, s.vars y with
    | some i, some j => .ok { s with vars := upd (upd s.vars x (some j)) y (some i) }
    | _, _ => .ub
  | .write x f =>
    match deref s x with
    | none => .ub
    | some (a, o) => .ok { s with mem := upd s.mem a (some { o with val := f o.val }) }
  | .cast x c =>
    match deref s x with
    | none => .ub
    | some (_, o) => if h.isa o.cls c = true then .ok s else .throw s
  | .drop x =>
    match s.vars x with
    | none => .ub
    | some i =>
      match del s i with
      | none => .ub
      | some s => .ok { s with vars := upd s.vars x none }

/-- A program: exceptions are caught where they occur.  The list says which statements threw. -/
def run {V : Type} (h : Classes V) (t : Nat) : St V → List (Op V × Bool) → Option (List Bool × St V)
  | s, [] => some ([], s)
  | s, (o, room) :: os =>
    match step h t room s o with
    | .ub => none
    | .ok s => (run h t s os).map fun r => (false :: r.1, r.2)
    | .throw s => (run h t s os).map fun r => (true :: r.1, r.2)

/-- Nothing yet. -/
def start (V : Type) : St V := ⟨fun _ => none, 0, fun _ => none⟩

/-- `PolyBase::cloneT<U>`: polyBase.h:31-37. -/
def cloneT {V : Type} (h : Classes V) (u : Nat) (s : St V) (o : Obj V) : Option (Option Nat × St V) :=
  let c := clone h o
  let (a, s) := alloc s c
  if h.isa c.cls u = true then some (some a, s) else (del s (some a)).map fun s => (none, s)

/-- `Object::cloneT`: object.h:93; the class u is the one derived by means of `Object<u,...>`. -/
def objCloneT {V : Type} (h : Classes V) (u : Nat) (s : St V) (o : Obj V) : Option Nat × St V := cloned h u s o

end Verif.PolyVal
