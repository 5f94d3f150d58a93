import Verif.RestObj
import Verif.RestMap
/-
Containers behind the wrappers of a Python module: `len(w)`, `w[i]`, `w[i]=v`, `del w[i]`, and the methods insert,
erase, contains and keys.  pythonBuffer.h:471-506, 606-650; RESTProcess_base.h:75-92, 615-740, 831-1025.

Elements are simple variables (Verif.RestObj); sequences and maps are not const.  Arguments and results are the JSON
forms of the Python objects, see Verif.Python.  Sets are not here, and neither are `iter(w)` and `x in w`, for which
Python finds nothing (the type has no sequence or iterator methods, 652-664).
-/
namespace Verif.PyCon
open Verif.OMap
open Verif.Json (J R Oc Lib)
open Verif.Rest

/-- What Python does with a wrapper. -/
inductive Op
  | len
  | get (i : J)
  | set (i v : J)
  | del (i : J)
  | insert (v : J)
  | erase (i : J)
  | contains (k : J)
  | keys

/-- What it gets: an object, an exception, undefined behaviour. -/
inductive Res
  | value (j : J)
  | error
  | ub

/-- None, unless there was an exception. -/
def done : Oc → Res
  | .ok => .value .null
  | .throw _ => .error
  | .ub => .ub

/-- `value_type v{}` and `mapped_type()`. -/
def dflt (lib : Lib) : VK → VV
  | .int _ => .int 0
  | .bool => .bool false
  | .real => .real (lib.ofInt 0)
  | .str => .str []

/-- A type of sequences: can elements be appended (RESTProcess_base.h:620-640), can they be erased (688-706). -/
structure Ty where
  ins : Bool
  ers : Bool

/-- `setElem` of a sequence: RESTProcess_base.h:728-733. -/
def seqSet (lib : Lib) (k : VK) (xs : List VV) (j v : J) : Res × List VV :=
  match readIdx lib j with
  | .ok i =>
    match xs[i]? with
    | some x => let r := unpackVar lib k v x; (done r.1, xs.set i r.2)
    | none => (.error, xs)
  | .throw _ => (.error, xs)
  | .ub => (.ub, xs)

/-- A sequence: RESTProcess_base.h:724-739 for `get`, `set`, `len`, `insert` and `erase`; 88-92 for the rest.  For
`del` Python passes a null pointer instead of a value, which is read as None: pythonBuffer.h:173-179, 628-642. -/
def seqStep (lib : Lib) (trunc : EnumKeys.Under → Nat → Option Int) (ty : Ty) (k : VK) (xs : List VV) : Op → Res × List VV
  | .len => (.value (.int xs.length), xs)
  | .get j =>
    match readIdx lib j with
    | .ok i =>
      match xs[i]? with
      | some x => (.value (showVar lib x), xs)
      | none => (.error, xs)
    | .throw _ => (.error, xs)
    | .ub => (.ub, xs)
  | .set j v => seqSet lib k xs j v
  | .del j => seqSet lib k xs j .null
  | .insert v =>
    if ty.ins = true then
      match convVar lib trunc k v (dflt lib k) with
      | (.ok, x) => (.value .null, xs ++ [x])
      | (oc, _) => (done oc, xs)
    else (.error, xs)
  | .erase j =>
    match readIdx lib j with
    | .ok i => (.value .null, if i < xs.length ∧ ty.ers = true then xs.eraseIdx i else xs)
    | .throw _ => (.error, xs)
    | .ub => (.ub, xs)
  | .contains _ => (.value (.bool false), xs)
  | .keys => (.value .null, xs)

/-- `setElem` of a map: RESTProcess_base.h:1006-1011, 978-980. -/
def mapSetElem {K : Type} (ky : Key K) (lib : Lib) (k : VK) (m : List (K × VV)) (j v : J) : Res × List (K × VV) :=
  match ky.read j with
  | .ok q =>
    let m := minsert ky.lt q (dflt lib k) m
    let r := unpackVar lib k v ((mfind ky.lt q m).getD (dflt lib k))
    (done r.1, mput ky.lt q r.2 m)
  | .throw _ => (.error, m)
  | .ub => (.ub, m)

/-- A map: RESTProcess_base.h:1002-1024, 845-867, 978-980.  `pair` is what `convert` makes of the argument of
`insert`, `shk` the JSON form of a key. -/
def mapStep {K : Type} (ky : Key K) (shk : K → J) (pair : J → R (K × VV)) (lib : Lib) (k : VK) (m : List (K × VV)) :
    Op → Res × List (K × VV)
  | .len => (.value (.int m.length), m)
  | .get j =>
    match ky.read j with
    | .ok q =>
      let m := minsert ky.lt q (dflt lib k) m
      (.value (showVar lib ((mfind ky.lt q m).getD (dflt lib k))), m)
    | .throw _ => (.error, m)
    | .ub => (.ub, m)
  | .set j v => mapSetElem ky lib k m j v
  | .del j => mapSetElem ky lib k m j .null
  | .insert v =>
    match pair v with
    | .ok (q, x) =>
      match mfind ky.lt q m with
      | some _ => (.error, m)
      | none => (.value .null, minsert ky.lt q x m)
    | .throw _ => (.error, m)
    | .ub => (.ub, m)
  | .erase j =>
    match ky.conv j with
    | .ok q => (.value .null, merase ky.lt q m)
    | .throw _ => (.error, m)
    | .ub => (.ub, m)
  | .contains j =>
    match ky.conv j with
    | .ok q => (.value (.bool (mfind ky.lt q m).isSome), m)
    | .throw _ => (.error, m)
    | .ub => (.ub, m)
  | .keys => (.value (.arr (m.map fun e => shk e.1)), m)

/-- Keys of type `std::string`: `key_type idx; index>>idx;` and `key_type k; convert(k,index);`. -/
def strKey (lib : Lib) (trunc : EnumKeys.Under → Nat → Option Int) : Key Str where
  lt := strLt
  read := readStr lib
  conv j :=
    match convVar lib trunc .str j (.str []) with
    | (.ok, .str s) => .ok s
    | (.throw e, _) => .throw e
    | _ => .ub
  raw s := .ok s
  json _ := .throw .lib

/-- Keys of an integral type; the variable is not initialised. -/
def intKey (lib : Lib) (trunc : EnumKeys.Under → Nat → Option Int) (u : EnumKeys.Under) : Key Int where
  lt a b := decide (a < b)
  read j :=
    match Json.getInt lib u j with
    | .ok (.int i) => .ok i
    | .throw e => if e.isPack then .ub else .throw e
    | _ => .ub
  conv j :=
    match j with
    | .null | .arr [] => .ub
    | j =>
      match convVar lib trunc (.int u) j (.int 0) with
      | (.ok, .int i) => .ok i
      | (.throw e, _) => .throw e
      | _ => .ub
  raw _ := .throw .lib
  json _ := .throw .lib

/-- A program. -/
def run {S : Type} (step : S → Op → Res × S) : S → List Op → List Res × S
  | s, [] => ([], s)
  | s, o :: os => let r := step s o; let q := run step r.2 os; (r.1 :: q.1, q.2)

end Verif.PyCon
