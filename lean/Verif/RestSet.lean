import Verif.RestMap
/-
Sets behind the REST interface and the wrappers of a Python module, and whole maps and sets given as JSON:
RESTProcess_base.h:298-321, 831-1030; RESTProcess_epilogue.h:308-379; pythonBuffer.h:471-506, 606-650.

A set is an ordered container (`Verif.OMap`) of which only the keys count.  Sets and maps are not const.
-/
namespace Verif.Rest
open OMap
open Verif.Json (J R Lib)

abbrev S (K : Type) := List (K × Unit)

/-- What a request on a set gives: the set itself, an element, a number, the keys; it goes on with the rest of the path
at a copy of an element, or at the set taken as an object. -/
inductive SO (K : Type)
  | self
  | value (k : K)
  | size (n : Nat)
  | keys (l : List K)
  | copy (k : K) (rest : Str)
  | object (rest : Str)
  | throw
  | ub
  deriving DecidableEq

/-- `bool v; x>>v;`: RESTProcess_base.h:918.  Where reading fails without an exception the variable has no value. -/
def readBool (lib : Lib) (j : J) : R Bool :=
  match j with
  | .bool x => .ok x
  | _ => if lib.mm.isPack = true then .ub else .throw lib.mm

/-- `assignElem` for sets: RESTProcess_base.h:909-923. -/
def assignSet {K : Type} (lib : Lib) (ky : Key K) (m : S K) (k : K) (j : J) : R Unit × S K :=
  match readBool lib j with
  | .ok true => (.ok (), minsert ky.lt k () m)
  | .ok false => (.ok (), merase ky.lt k m)
  | .throw e => (.throw e, m)
  | .ub => (.ub, m)

/-- `RPAC_insert`: RESTProcess_base.h:844-852. -/
def setInsert {K : Type} (ky : Key K) (m : S K) (j : J) : SO K × S K :=
  match ky.conv j with
  | .ok k => if (mfind ky.lt k m).isSome then (.throw, m) else (.self, minsert ky.lt k () m)
  | .throw _ => (.throw, m)
  | .ub => (.ub, m)

/-- `RPAC_erase`: RESTProcess_base.h:861-867. -/
def setErase {K : Type} (ky : Key K) (m : S K) (j : J) : SO K × S K :=
  match ky.conv j with
  | .ok k => (.self, merase ky.lt k m)
  | .throw _ => (.throw, m)
  | .ub => (.ub, m)

/-- The loop of RESTProcess_base.h:308-313 over the elements of a JSON array; an exception ends it. -/
def fill {K : Type} (ky : Key K) : List J → S K → SO K × S K
  | [], m => (.self, m)
  | j :: js, m =>
    match ky.read j with
    | .ok k => fill ky js (minsert ky.lt k () m)
    | .throw _ => (.throw, m)
    | .ub => (.ub, m)

/-- `convert(set,j)`: RESTProcess_base.h:298-321.  For an object `j>>x` finds that it is no array
(json_pack_base.h:571-603), which is no error unless `throw_on_error` is set. -/
def convSet {K : Type} (ky : Key K) (m : S K) : J → SO K × S K
  | .arr l => fill ky l []
  | _ => (.self, m)

/-- `RESTProcessAssociativeContainer::process` on a set: RESTProcess_epilogue.h:308-379.  `dflt` is a
value-initialised element (RESTProcess_base.h:424-430). -/
def setReq {K : Type} (lib : Lib) (ky : Key K) (dflt : K) (m : S K) (rest : Str) (args : J) : SO K × S K :=
  if rest = [] then
    match args with
    | .null => (.self, m)
    | .arr [] => (.self, m)
    | .arr (j :: _) => convSet ky m j
    | j => convSet ky m j
  else if b ".@elem" <+: rest then
    match pathKey ky rest with
    | none => (.self, m)
    | some (.throw _) => (.throw, m)
    | some .ub => (.ub, m)
    | some (.ok (k, t)) =>
      let isNull := match args with | .null => true | _ => false
      match (if t = [] ∧ isNull = false then assignSet lib ky m k args else (.ok (), m)) with
      | (.ok _, m) =>
        match mfind ky.lt k m with
        | none => if b ".@elemNoThrow" <+: rest then (.copy dflt t, m) else (.throw, m)
        | some _ => if t = [] then (.value k, m) else (.copy k t, m)
      | (.throw _, m) => (.throw, m)
      | (.ub, m) => (.ub, m)
  else if b ".@insert" <+: rest then setInsert ky m args
  else if b ".@erase" <+: rest then setErase ky m args
  else if b ".@size" <+: rest then (.size m.length, m)
  else if b ".@keys" <+: rest then (.keys (m.map (·.1)), m)
  else (.object rest, m)

/-! ### Python -/

/-- What Python does with a wrapper of a set. -/
inductive SOp
  | len
  | get (k : J)
  | set (k v : J)
  | insert (k : J)
  | erase (k : J)
  | contains (k : J)
  | keys

/-- What it gets: None, an element, a number, a truth value, a list, an exception. -/
inductive SRes (K : Type)
  | none
  | elem (k : K)
  | num (n : Nat)
  | truth (x : Bool)
  | list (l : List K)
  | error
  | ub
  deriving DecidableEq

def SO.py {K : Type} : SO K → SRes K
  | .throw => .error
  | .ub => .ub
  | _ => .none

/-- RESTProcess_base.h:1002-1024.  `elem` adds the element (978-980); it is const, and reading JSON into it does
nothing (json_pack_base.h:620-621). -/
def setPy {K : Type} (ky : Key K) (m : S K) : SOp → SRes K × S K
  | .len => (.num m.length, m)
  | .get j =>
    match ky.read j with
    | .ok k => (.elem k, minsert ky.lt k () m)
    | .throw _ => (.error, m)
    | .ub => (.ub, m)
  | .set j _ =>
    match ky.read j with
    | .ok k => (.none, minsert ky.lt k () m)
    | .throw _ => (.error, m)
    | .ub => (.ub, m)
  | .insert j => let r := setInsert ky m j; (r.1.py, r.2)
  | .erase j => let r := setErase ky m j; (r.1.py, r.2)
  | .contains j =>
    match ky.conv j with
    | .ok k => (.truth (mfind ky.lt k m).isSome, m)
    | .throw _ => (.error, m)
    | .ub => (.ub, m)
  | .keys => (.list (m.map (·.1)), m)

/-! ### Whole maps -/

/-- What reading a JSON value into a `pair<const K,V>` gives (json_pack_base.h:527-532): `.first` is const and nothing
is read (620-621); `.second` is, if there is one. -/
def readPair {K V : Type} (dk : K) (el : El V) (j : J) : Bool × (K × V) :=
  match Json.find j (b ".second") with
  | .ok x => let r := el.dec x el.dflt; (r.1, dk, r.2)
  | _ => (true, dk, el.dflt)

/-- The same loop for maps. -/
def fillMap {K V : Type} (ky : Key K) (dk : K) (el : El V) : List J → List (K × V) → Bool × List (K × V)
  | [], m => (true, m)
  | j :: js, m =>
    let r := readPair dk el j
    if r.1 = true then fillMap ky dk el js (minsert ky.lt r.2.1 r.2.2 m) else (false, m)

/-- `convert(map,j)`: RESTProcess_base.h:298-321; `dk` is a value-initialised key.  False for an exception. -/
def convMap {K V : Type} (ky : Key K) (dk : K) (el : El V) (m : List (K × V)) : J → Bool × List (K × V)
  | .arr l => fillMap ky dk el l []
  | _ => (true, m)

/-- A request with an empty path on a map: RESTProcess_epilogue.h:311-324. -/
def mapWhole {K V : Type} (ky : Key K) (dk : K) (el : El V) (m : List (K × V)) : J → Bool × List (K × V)
  | .null => (true, m)
  | .arr [] => (true, m)
  | .arr (j :: _) => convMap ky dk el m j
  | j => convMap ky dk el m j

/-- `asBuffer` (RESTProcess_base.h:1000): json_pack_base.h:534-568, of a set and of a map (519-525). -/
def showSet {K : Type} (shk : K → J) (m : S K) : J := .arr (m.map fun e => shk e.1)

def showMap {K V : Type} (shk : K → J) (shw : V → J) (m : List (K × V)) : J :=
  .arr (m.map fun e => .obj [(b "first", shk e.1), (b "second", shw e.2)])

end Verif.Rest
