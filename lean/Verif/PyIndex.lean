import Verif.PyCon
/-
Classes with `operator[]` behind the wrappers of a Python module: `len(w)`, `w[i]`, `w[i]=v`, `del w[i]`, and the
methods insert, erase, contains and keys.  RESTProcess_base.h:75-92, 485-512, 552-556; classdesc.h:493-495, 509-510;
pythonBuffer.h:479-506, 606-650.

The class holds a list of simple variables (Verif.RestObj), `size()` is its length and `operator[]` the element; what
`operator[]` does with an index that is too large is up to the class.  Statements are those of Verif.PyCon.
-/
namespace Verif.PyIndex
open Verif.Json (J R Oc Lib)
open Verif.Rest
open Verif.PyCon

/-- The type of an object: does it have `size()` (classdesc.h:493-495), has `has_index_operator` been specialised for it
(509-510; for a const type that is another specialisation), is it const, does its `operator[]` throw when the index is
too large (otherwise the behaviour is undefined). -/
structure Cls where
  size : Bool
  index : Bool
  const : Bool
  checks : Bool

/-- `obj[index]` with an index that is too large. -/
def beyond (c : Cls) : Res := if c.checks = true then .error else .ub

/-- `getElem`: RESTProcess_base.h:491-499; without `operator[]` it is that of the base, 552-553. -/
def getElem (lib : Lib) (c : Cls) (xs : List VV) (j : J) : Res :=
  if c.index = true then
    match readIdx lib j with
    | .ok i =>
      match xs[i]? with
      | some x => .value (showVar lib x)
      | none => beyond c
    | .throw _ => .error
    | .ub => .ub
  else .value .null

/-- None for a value. -/
def drop : Res → Res
  | .value _ => .value .null
  | .error => .error
  | .ub => .ub

/-- `setElem`: RESTProcess_base.h:502-512; the one of the base gets the element, 84-85.  Python sees whether there was
an exception, pythonBuffer.h:628-642. -/
def setElem (lib : Lib) (c : Cls) (k : VK) (xs : List VV) (j v : J) : Res × List VV :=
  if c.const = false ∧ c.index = true then
    match readIdx lib j with
    | .ok i =>
      match xs[i]? with
      | some x => let r := unpackVar lib k v x; (done r.1, xs.set i r.2)
      | none => (beyond c, xs)
    | .throw _ => (.error, xs)
    | .ub => (.ub, xs)
  else (drop (getElem lib c xs j), xs)

/-- One statement: RESTProcess_base.h:485-512, and 86-92 for insert, erase, contains and keys. -/
def step (lib : Lib) (c : Cls) (k : VK) (xs : List VV) : PyCon.Op → Res × List VV
  | .len => (.value (.int (if c.size = true then xs.length else 0)), xs)
  | .get j => (getElem lib c xs j, xs)
  | .set j v => setElem lib c k xs j v
  | .del j => setElem lib c k xs j .null
  | .insert _ => (.value .null, xs)
  | .erase _ => (.value .null, xs)
  | .contains _ => (.value (.bool false), xs)
  | .keys => (.value .null, xs)

end Verif.PyIndex
