import Verif.RestSeq
import Verif.MultiArray
/-
Arrays of C behind the REST interface and the wrappers of a Python module.  RESTProcess_base.h:267-299, 614-748,
750-829, 1655-1667; RESTProcess_epilogue.h:213-306, 507-520, 562-566; multiArray.h.

A member `T a[d1]...[dr]` is registered as a view `MultiArray<T,r>` of its storage (1655-1667), r being 1 or 2: for higher
ranks RESTProcess_base.h:774 does not compile, see Verif.MultiArray.
The storage is a list of elements; a view beyond it is undefined behaviour as soon as it is used.
-/
namespace Verif.Rest
open Verif.Json (J Lib)
open Verif.MultiArray (MA Std mkArgs)

/-- What a request gives: a reference to an element, a view, nothing (`RESTProcessVoid`), a number; it goes on with the
rest of the path at an element, or at the array taken as an object; an answer about the array (`@list`, ...). -/
inductive AO
  | ref (k : Nat)
  | view (a : MA)
  | void
  | size (n : Nat)
  | path (k : Nat) (rest : Str)
  | object (rest : Str)
  | about
  | throw
  | ub
  deriving DecidableEq

inductive AE
  | ok
  | throw
  | ub
  deriving DecidableEq

/-- Where a one dimensional view is (multiArray.h:130-153). -/
def inside {E : Type} (a : MA) (mem : List E) : Bool := decide (a.data + a.size ≤ mem.length)

def slice {E : Type} (a : MA) (mem : List E) : List E := (mem.drop a.data).take a.size

def splice {E : Type} (a : MA) (mem xs : List E) : List E := mem.take a.data ++ xs ++ mem.drop (a.data + a.size)

/-- The loop of RESTProcess_base.h:272-279: one JSON value for each sub-array, as long as there are both; an exception
ends it. -/
def eachSub {E : Type} (size : Nat) (f : Nat → J → List E → AE × List E) : Nat → List J → List E → AE × List E
  | _, [], m => (.ok, m)
  | k, j :: js, m =>
    if k = size then (.ok, m)
    else
      match f k j m with
      | (.ok, m') => eachSub size f (k + 1) js m'
      | r => r

/-- `convert(MultiArray<T,n>&,j)`: RESTProcess_base.h:267-299.  The iterator's position is `begin()` plus the number of
steps (multiArray.h:107-113). -/
def convN {E : Type} (el : El E) : Nat → MA → J → List E → AE × List E
  | 0, _, _, mem => (.ub, mem)
  | 1, a, .arr l, mem =>
    if inside a mem then let r := decAll el l (slice a mem); (if r.1 then .ok else .throw, splice a mem r.2)
    else (.ub, mem)
  | n + 2, a, .arr l, mem => eachSub a.size (fun k j m => convN el (n + 1) (a.begin.plus k).array j m) 0 l mem
  | _, _, _, mem => (.ok, mem)

/-- The argument of a request, if any, is converted to the array: RESTProcess_epilogue.h:216-229. -/
def assignN {E : Type} (el : El E) (n : Nat) (a : MA) (args : J) (mem : List E) : AE × List E :=
  match args with
  | .null => (.ok, mem)
  | .arr [] => (.ok, mem)
  | .arr (j :: _) => convN el n a j mem
  | j => convN el n a j mem

def given (o : AO) : AE → AO
  | .ok => o
  | .throw => .throw
  | .ub => .ub

/-- `asBuffer`: RESTProcess_base.h:763-766, the sub-arrays or elements in the order of the iterator; none for undefined
behaviour. -/
def showN {E : Type} (shw : E → J) : Nat → MA → List E → Option J
  | 0, _, _ => none
  | 1, a, mem => if inside a mem then some (.arr ((slice a mem).map shw)) else none
  | n + 2, a, mem => ((List.range a.size).mapM fun k => showN shw (n + 1) (a.begin.plus k).array mem).map .arr

/-- What `RESTProcessSequence::process` gives, as seen from the whole array. -/
def ofCO {E : Type} (a : MA) : CO E → AO
  | .ref i => .ref (a.data + i)
  | .self => .view a
  | .void => .void
  | .size n => .size n
  | .path i rest => .path (a.data + i) rest
  | .object rest => .object rest
  | .throw => .throw
  | .value _ | .copy _ _ | .ub => .ub

/-- Requests about what is registered, RESTProcess_epilogue.h:441-455. -/
def abouts : List Str := [b ".@signature", b ".@list", b ".@type"]

/-- `process` of an array, rank first: RESTProcess_epilogue.h:293-306 for the array itself (`top`), 272-291 for the
sub-arrays, which are registered under the empty name (RESTProcess_base.h:825-829, RESTProcess_epilogue.h:507-520).
Of rank 1 it is RESTProcessSequence in both cases (RESTProcess_base.h:795-801). -/
def procN {E : Type} (lib : Lib) (trunc : Nat → Option Nat) (el : El E) : Nat → Bool → MA → Str → J → List E → AO × List E
  | 0, _, _, _, _, mem => (.ub, mem)
  | 1, _, a, rest, args, mem =>
    if inside a mem then
      let r := seqProcess lib trunc el ⟨false, false, false⟩ rest args (slice a mem)
      (ofCO a r.1, splice a mem r.2)
    else (.ub, mem)
  | n + 2, top, a, rest, args, mem =>
    if b ".@elem" <+: rest then
      match elemImpl a.size rest with
      | none => (.throw, mem)
      | some none => (.void, mem)
      | some (some (i, t)) =>
        let s := (a.begin.plus i).array
        if t = [] then let r := assignN el (n + 1) s args mem; (given (.view s) r.1, r.2)
        else if t ∈ abouts then (.about, mem)
        else procN lib trunc el (n + 1) false s t args mem
    else if top = false ∧ (b ".@insert" <+: rest ∨ b ".@erase" <+: rest) then (.throw, mem)
    else if rest = [] then let r := assignN el (n + 2) a args mem; (given (.view a) r.1, r.2)
    else if b ".@size" <+: rest then (.size a.size, mem)
    else (.object rest, mem)

/-- `getElem`: RESTProcess_base.h:771-776, for rank 1 802-805. -/
def getN (lib : Lib) (n : Nat) (a : MA) (j : J) : AO :=
  match readIdx lib j with
  | .ok i =>
    if n = 1 then if i < a.size then .ref (a.elem i) else .throw
    else if i < a.size then .view (a.sub i) else .void
  | .throw _ => .throw
  | .ub => .ub

/-- `setElem`: RESTProcess_base.h:777-786, for rank 1 806-811. -/
def setN {E : Type} (lib : Lib) (el : El E) (n : Nat) (a : MA) (j v : J) (mem : List E) : AO × List E :=
  match readIdx lib j with
  | .ok i =>
    if n = 1 then
      if i < a.size then
        match mem[a.elem i]? with
        | some x => let r := el.dec v x; (if r.1 then .ref (a.elem i) else .throw, mem.set (a.elem i) r.2)
        | none => (.ub, mem)
      else (.throw, mem)
    else if i < a.size then let r := convN el (n - 1) (a.sub i) v mem; (given (.view (a.sub i)) r.1, r.2)
    else (.void, mem)
  | .throw _ => (.throw, mem)
  | .ub => (.ub, mem)

/-- What Python gets: None for nothing (pythonBuffer.h:428-445), an exception. -/
inductive PA
  | elem (k : Nat)
  | wrapper (n : Nat) (a : MA)
  | none
  | error
  | ub
  deriving DecidableEq

def pyRes (n : Nat) : AO → PA
  | .ref k => .elem k
  | .view a => .wrapper n a
  | .throw => .error
  | .ub => .ub
  | _ => .none

/-- `w[i1][i2]...` (pythonBuffer.h:618-626).  An index on None, or on the Python object made of an element, is an
exception. -/
def pyGet (lib : Lib) : PA → List J → PA
  | w, [] => w
  | .wrapper n a, j :: js => pyGet lib (pyRes (n - 1) (getN lib n a j)) js
  | .ub, _ :: _ => .ub
  | _, _ :: _ => .error

/-- `w[i1]...[ik]=v` (pythonBuffer.h:628-642); nothing is the result of success. -/
def pySet {E : Type} (lib : Lib) (el : El E) (w : PA) (js : List J) (j v : J) (mem : List E) : PA × List E :=
  match pyGet lib w js with
  | .wrapper n a =>
    match setN lib el n a j v mem with
    | (.throw, m) => (.error, m)
    | (.ub, m) => (.ub, m)
    | (_, m) => (.none, m)
  | .ub => (.ub, mem)
  | _ => (.error, mem)

end Verif.Rest
