import Verif.PolyVal
/-
Reference counted variables of polymorphic type: `polyref<T>` (poly.h:96-137), a `ref` (ref.h:27-86) to a `poly` (poly.h:38-92).

Variables are numbered in the order they are declared.  Memory has objects, and payloads of `ref`; what is deleted is not there any
more, and addresses are not used again.  The copies `addObject` returns are destroyed by the caller at once and leave nothing, as does
the prototype in the type table (they are not modelled); memory does not run out, and the count does not overflow.
-/
namespace Verif.PolyRef
open Verif.PolyVal (Obj upd)

/-- `ref<poly<T>>::Payload`: ref.h:29-34; `item` is that of the poly, poly.h:41. -/
structure Pay where
  count : Int
  item : Option Nat

/-- `vars`: `none` has been destroyed, `some p` contains the pointer p. -/
structure St (V : Type) where
  mem : Nat → Option (Obj V)
  nextM : Nat
  pay : Nat → Option Pay
  nextP : Nat
  vars : List (Option (Option Nat))

/-- What a variable contains; `none`: there is no such variable. -/
def get (vars : List (Option (Option Nat))) (x : Nat) : Option (Option Nat) := (vars[x]?).join

/-- `~poly`: poly.h:60. -/
def del {V : Type} (s : St V) : Option Nat → Option (St V)
  | none => some s
  | some a =>
    match s.mem a with
    | none => none
    | some _ => some { s with mem := upd s.mem a none }

/-- `refdec`: ref.h:36. -/
def refdec {V : Type} (s : St V) : Option Nat → Option (St V)
  | none => some s
  | some c =>
    match s.pay c with
    | none => none
    | some k =>
      if k.count - 1 = 0 then (del s k.item).map fun s => { s with pay := upd s.pay c none }
      else some { s with pay := upd s.pay c (some { k with count := k.count - 1 }) }

/-- `asg`: ref.h:37-43. -/
def inc {V : Type} (s : St V) : Option Nat → Option (St V)
  | none => some s
  | some c =>
    match s.pay c with
    | none => none
    | some k => some { s with pay := upd s.pay c (some { k with count := k.count + 1 }) }

inductive Op (V : Type)
  | new                                        -- polyref x;
  | copy (y : Nat)                             -- polyref x(y);
  | assign (x y : Nat)                         -- x = y;
  | nullify (x : Nat)                          -- x.nullify();
  | swap (x y : Nat)                           -- x.swap(y);
  | add (x : Nat) (o : Obj V) (ok : Bool)      -- x.addObject<U>(...), whose constructor may throw
  | write (x : Nat) (f : V → V)                -- x->... = ...;
  | cast (x : Nat) (c : Nat)                   -- x.cast<U>();
  | drop (x : Nat)

inductive R (V : Type)
  | ok (s : St V)
  | throw (s : St V)
  | ub

def R.of {V : Type} : Option (St V) → R V
  | none => .ub
  | some s => .ok s

/-- `polyObj()`, the payload of a variable, made if there is none: poly.h:100, ref.h:44, 65. -/
def polyObj {V : Type} (s : St V) (x : Nat) : Option (Nat × St V) :=
  match get s.vars x with
  | none => none
  | some (some c) => some (c, s)
  | some none => some (s.nextP, { s with pay := upd s.pay s.nextP (some ⟨1, none⟩), nextP := s.nextP + 1,
                                         vars := s.vars.set x (some (some s.nextP)) })

/-- The object of a variable: poly.h:120-123, 78-81. -/
def deref {V : Type} (s : St V) (x : Nat) : Option (Nat × Obj V) :=
  match get s.vars x with
  | some (some c) => (s.pay c).bind fun k => k.item.bind fun a => (s.mem a).map (a, ·)
  | _ => none

/-- One statement: poly.h:96-137, ref.h:47-85. -/
def step {V : Type} (isa : Nat → Nat → Bool) (s : St V) : Op V → R V
  | .new => .ok { s with vars := s.vars ++ [some none] }
  | .copy y =>
    match get s.vars y with
    | none => .ub
    | some q => R.of ((inc s q).map fun s => { s with vars := s.vars ++ [some q] })
  | .assign x y =>
    match get s.vars x, get s.vars y with
    | some p, some q =>
      if q = p then .ok s
      else R.of ((refdec s p).bind fun s => (inc s q).map fun s => { s with vars := s.vars.set x (some q) })
    | _, _ => .ub
  | .nullify x =>
    match get s.vars x with
    | none => .ub
    | some p => R.of ((refdec s p).map fun s => { s with vars := s.vars.set x (some none) })
  | .swap x y =>
    match get s.vars x, get s.vars y with
    | some p, some q => .ok { s with vars := (s.vars.set x (some q)).set y (some p) }
    | _, _ => .ub
  | .add x o ok =>
    -- poly.h:69-77, 108-117
    match polyObj s x with
    | none => .ub
    | some (c, s) =>
      match s.pay c with
      | none => .ub
      | some k =>
        match del s k.item with
        | none => .ub
        | some s =>
          if ok = true then
            .ok { s with mem := upd s.mem s.nextM (some o), nextM := s.nextM + 1, pay := upd s.pay c (some { k with item := some s.nextM }) }
          else .throw s
  | .write x f =>
    match deref s x with
    | none => .ub
    | some (a, o) => .ok { s with mem := upd s.mem a (some { o with val := f o.val }) }
  | .cast x c =>
    match deref s x with
    | none => .ub
    | some (_, o) => if isa o.cls c = true then .ok s else .throw s
  | .drop x =>
    match get s.vars x with
    | none => .ub
    | some p => R.of ((refdec s p).map fun s => { s with vars := s.vars.set x none })

/-- A program: exceptions are caught where they occur.  The list says which statements threw; `none`: no defined behaviour. -/
def run {V : Type} (isa : Nat → Nat → Bool) : St V → List (Op V) → Option (List Bool × St V)
  | s, [] => some ([], s)
  | s, o :: os =>
    match step isa s o with
    | .ub => none
    | .ok s => (run isa s os).map fun r => (false :: r.1, r.2)
    | .throw s => (run isa s os).map fun r => (true :: r.1, r.2)

def start (V : Type) : St V := ⟨fun _ => none, 0, fun _ => none, 0, []⟩

/-- `operator bool`: poly.h:136; `none` if there is no such variable or payload. -/
def truth {V : Type} (s : St V) (x : Nat) : Option Bool :=
  match get s.vars x with
  | none => none
  | some none => some false
  | some (some c) => (s.pay c).map fun k => k.item.isSome

/-- `refCount`: ref.h:75. -/
def refCount {V : Type} (s : St V) (x : Nat) : Option Int :=
  match get s.vars x with
  | none => none
  | some none => some 0
  | some (some c) => (s.pay c).map (·.count)

end Verif.PolyRef
