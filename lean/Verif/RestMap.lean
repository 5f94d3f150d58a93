import Verif.RestSeq
/-
Associative containers behind the REST interface: RESTProcess_base.h:840-1030,
RESTProcess_epilogue.h:308-379.
-/
namespace Verif.Rest
open OMap
open Verif.Json (J R dot)

/-- Keys: their order, how a JSON value is read as one (`index>>idx`, and `convert(k,j)`), how text of a
path that is not JSON is (RESTProcess_base.h:876-894), and what the JSON parser makes of the start of the
text of a path: a key and the text after it (`read_range`, epilogue 341). -/
structure Key (K : Type) where
  lt : K → K → Bool
  read : J → R K
  conv : J → R K
  raw : Str → R K
  json : Str → R (K × Str)

/-- `strchr("\"'{[",*keyStart)`, true for the terminating zero as well: epilogue 338. -/
def jsonLead : Str → Bool
  | [] => true
  | c :: _ => c == 34 || c == 39 || c == 123 || c == 91 || c == 0

/-- The key in a path after `.@elem`, and the rest of the path; `none` if there is no dot.
RESTProcess_epilogue.h:328-350. -/
def pathKey {K : Type} (ky : Key K) (rest : Str) : Option (R (K × Str)) :=
  match findDotFrom rest 1 with
  | none => none
  | some st =>
    let s := rest.drop (st + 1)
    if jsonLead s = true then some (ky.json s)
    else
      let t := s.takeWhile (· != dot)
      some ((ky.raw t).map fun k => (k, s.drop t.length))

/-! ### Maps -/

/-- `assignElem` for maps: RESTProcess_base.h:896-907. -/
def assignMap {K V : Type} (ky : Key K) (el : El V) (m : List (K × V)) (k : K) (j : J) : Bool × List (K × V) :=
  let m := minsert ky.lt k el.dflt m
  let r := el.conv j ((mfind ky.lt k m).getD el.dflt)
  (r.1, mput ky.lt k r.2 m)

/-- `getElem`: RESTProcess_base.h:1002-1005; `elem` adds a default element if there is none (978-980). -/
def mapGet {K V : Type} (ky : Key K) (el : El V) (m : List (K × V)) (j : J) : R K × List (K × V) :=
  match ky.read j with
  | .ok k => (.ok k, minsert ky.lt k el.dflt m)
  | r => (r, m)

/-- `setElem`: RESTProcess_base.h:1006-1011. -/
def mapSet {K V : Type} (ky : Key K) (el : El V) (m : List (K × V)) (j v : J) : Bool × List (K × V) :=
  match ky.read j with
  | .ok k =>
    let m := minsert ky.lt k el.dflt m
    let r := el.dec v ((mfind ky.lt k m).getD el.dflt)
    (r.1, mput ky.lt k r.2 m)
  | _ => (false, m)

/-- `RPAC_insert`: RESTProcess_base.h:845-852, the pair converted from the argument being given. -/
def mapInsert {K V : Type} (ky : Key K) (m : List (K × V)) (k : K) (v : V) : Bool × List (K × V) :=
  match mfind ky.lt k m with
  | some _ => (false, m)
  | none => (true, minsert ky.lt k v m)

/-- The path requests of `RESTProcessAssociativeContainer::process` on a map that is not const:
RESTProcess_epilogue.h:325-362.  After `.@elem` and a key with more path to follow, the rest is processed
by a copy of the element (359, `auto eoi=`), which is gone when the result is looked at. -/
def mapElem {K V : Type} (ky : Key K) (el : El V) (m : List (K × V)) (rest : Str) (args : J) :
    CO V × List (K × V) :=
  match pathKey ky rest with
  | none => (.self, m)
  | some (.throw _) => (.throw, m)
  | some .ub => (.ub, m)
  | some (.ok (k, t)) =>
    let isNull := match args with | .null => true | _ => false
    let r := if t = [] ∧ isNull = false then assignMap ky el m k args else (true, m)
    if r.1 = false then (.throw, r.2)
    else
      match mfind ky.lt k r.2 with
      | none => if b ".@elemNoThrow" <+: rest then (.copy el.dflt t, r.2) else (.throw, r.2)
      | some v => if t = [] then (.value v, r.2) else (.copy v t, r.2)

/-- `.@erase` and `erase`: RESTProcess_base.h:861-867. -/
def mapErase {K V : Type} (ky : Key K) (m : List (K × V)) (j : J) : CO V × List (K × V) :=
  match ky.conv j with
  | .ok k => (.self, merase ky.lt k m)
  | .throw _ => (.throw, m)
  | .ub => (.ub, m)

end Verif.Rest
