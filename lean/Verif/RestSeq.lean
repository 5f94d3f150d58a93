import Verif.Rest
import Verif.Xml
/-
Sequences and associative containers behind the REST interface: RESTProcess_base.h:615-740 and
831-1035, RESTProcess_epilogue.h:213-291 and 308-379.
-/
namespace Verif.Rest
open OMap EnumKeys
open Verif.Json (J R Lib getInt dot)
open Verif.Xml (isDigit valD signed)

/-! ### Elements and indices -/

/-- What is done with an element: reading a JSON value into it (`value>>v`) and `convert(v,value)`
(RESTProcess_base.h:190-240).  The first component says whether it went without exception, the second
is the element afterwards.  Elements are not containers or smart pointers themselves. -/
structure El (E : Type) where
  dflt : E
  dec : J → E → Bool × E
  conv : J → E → Bool × E

/-- What a request on a container gives: a reference to an element, the container itself, nothing
(`RESTProcessVoid`), a number; or it goes on, with the rest of the path, at an element; or at a
temporary copy; or at the container taken as an object. -/
inductive CO (E : Type)
  | ref (i : Nat)
  | self
  | void
  | value (e : E)
  | size (n : Nat)
  | path (i : Nat) (rest : Str)
  | copy (e : E) (rest : Str)
  | object (rest : Str)
  | throw
  | ub
  deriving DecidableEq

def size_t : Under := ⟨.w64, false⟩

/-- `size_t idx; index>>idx;` as in RESTProcess_base.h:725: on an exception that the buffer swallows
(`json_pack_error`) the index is read uninitialised. -/
def readIdx (lib : Lib) (j : J) : R Nat :=
  match getInt lib size_t j with
  | .ok (.int i) => .ok i.toNat
  | .ok _ => .ub
  | .throw e => if e.isPack then .ub else .throw e
  | .ub => .ub

/-- Decimal text to `int`: `std::stoi`; none for an exception. -/
def stoi (s : Str) : Option Int :=
  let p := signed s
  let ds := p.2.takeWhile isDigit
  if ds = [] then none
  else
    let v : Int := if p.1 then -(valD ds : Int) else valD ds
    if -(2 : Int) ^ 31 ≤ v ∧ v < 2 ^ 31 then some v else none

/-- `find('.',n)`. -/
def findDotFrom (s : Str) (n : Nat) : Option Nat :=
  match (s.drop n).findIdx? (· == dot) with
  | some i => some (n + i)
  | none => none

/-! ### Sequences -/

/-- A type of sequence: can elements be appended, can they be erased, is it const. -/
structure SeqTy where
  ins : Bool
  ers : Bool
  cst : Bool

/-- `getElem`: RESTProcess_base.h:724-727, `elem` 710-713. -/
def getElem {E : Type} (lib : Lib) (xs : List E) (j : J) : CO E :=
  match readIdx lib j with
  | .ok i => if i < xs.length then .ref i else .throw
  | .throw _ => .throw
  | .ub => .ub

/-- `setElem` of a sequence that is not const: RESTProcess_base.h:728-733. -/
def setElem {E : Type} (lib : Lib) (el : El E) (xs : List E) (j v : J) : CO E × List E :=
  match readIdx lib j with
  | .ok i =>
    match xs[i]? with
    | some x =>
      let r := el.dec v x
      (if r.1 then .ref i else .throw, xs.set i r.2)
    | none => (.throw, xs)
  | .throw _ => (.throw, xs)
  | .ub => (.ub, xs)

/-- `erase(index)`: RESTProcess_base.h:736-739, `eraseElem` 701-706; 688-698: nothing is done to a
const sequence or one that has no `erase`. -/
def eraseSeq {E : Type} (lib : Lib) (ty : SeqTy) (xs : List E) (j : J) : CO E × List E :=
  match readIdx lib j with
  | .ok i => (.self, if i < xs.length ∧ ty.ers = true ∧ ty.cst = false then xs.eraseIdx i else xs)
  | .throw _ => (.throw, xs)
  | .ub => (.ub, xs)

/-- `size_t idx{}; convert(idx,j);` RESTProcess_base.h:656, 190-243.  `trunc` converts a double to an
unsigned integer, none if it is out of range. -/
def convIdx (lib : Lib) (trunc : Nat → Option Nat) : J → R Nat
  | .null => .ok 0
  | .bool x => .ok (if x then 1 else 0)
  | .int i => .ok (cast size_t (cast ⟨.w64, true⟩ i)).toNat
  | .real r => match trunc r with | some n => .ok n | none => .ub
  | .str _ => .throw .lib
  | .arr [] => .ok 0
  | .arr (j :: _) => match readIdx lib j with | .ub => .ok 0 | r => r
  | .obj _ => match getInt lib size_t (.obj []) with | .throw e => if e.isPack then .ok 0 else .throw e | _ => .ub

/-- `elemImpl`: RESTProcess_epilogue.h:249-270: the element's index and the rest of the path; `none` for
an exception, `some none` for "no such element, but do not throw".  `stoi` is given the rest of the
path from the index on (262: the second argument of `substr` is a length, too large). -/
def elemImpl (n : Nat) (rest : Str) : Option (Option (Nat × Str)) :=
  match findDotFrom rest 1 with
  | none => none
  | some st =>
    let en := (findDotFrom rest (st + 1)).getD rest.length
    match stoi ((rest.drop (st + 1)).take en) with
    | none => none
    | some i =>
      let idx := (i % 2 ^ 64).toNat
      if n ≤ idx then
        if b ".@elemNoThrow" <+: rest then some none else none
      else some (some (idx, rest.drop en))

/-- `RESTProcessObject::process("",arguments)`: an element (or object) is assigned the argument if there
is one.  RESTProcess_base.h:452-470. -/
def assignArg {E : Type} (el : El E) (args : J) (x : E) : Bool × E :=
  match args with
  | .null => (true, x)
  | .arr [] => (true, x)
  | .arr (j :: _) => el.conv j x
  | j => el.conv j x

/-- Converting to a const object throws: RESTProcess_base.h:186-188. -/
def constEl {E : Type} (el : El E) : El E := { el with conv := fun _ x => (false, x) }

/-- Reading JSON values into successive elements; an exception ends it. -/
def decAll {E : Type} (el : El E) : List J → List E → Bool × List E
  | j :: js, x :: xs =>
    let r := el.dec j x
    if r.1 then let q := decAll el js xs; (q.1, r.2 :: q.2) else (false, r.2 :: xs)
  | _, xs => (true, xs)

/-- `convert(sequence,j)`: RESTProcess_base.h:245-265; `resize` does nothing for sequences of fixed
size. -/
def convSeq {E : Type} (el : El E) (ty : SeqTy) (xs : List E) : J → Bool × List E
  | .arr l =>
    decAll el l (if ty.ins = true then xs.take l.length ++ List.replicate (l.length - xs.length) el.dflt else xs)
  | _ => (true, xs)

/-- `sequenceProcess`: RESTProcess_epilogue.h:213-236. -/
def seqRest {E : Type} (el : El E) (ty : SeqTy) (rest : Str) (args : J) (xs : List E) : CO E × List E :=
  if rest = [] then
    let go (j : J) : CO E × List E :=
      if ty.cst = true then (.throw, xs)
      else let r := convSeq el ty xs j; (if r.1 then .self else .throw, r.2)
    match args with
    | .null => (.self, xs)
    | .arr [] => (.self, xs)
    | .arr (j :: _) => go j
    | j => go j
  else if b ".@size" <+: rest then (.size xs.length, xs)
  else (.object rest, xs)

/-- `RESTProcessSequence::process`: RESTProcess_epilogue.h:272-291, RESTProcess_base.h:620-671. -/
def seqProcess {E : Type} (lib : Lib) (trunc : Nat → Option Nat) (el : El E) (ty : SeqTy) (rest : Str) (args : J)
    (xs : List E) : CO E × List E :=
  if b ".@elem" <+: rest then
    match elemImpl xs.length rest with
    | none => (.throw, xs)
    | some none => (.void, xs)
    | some (some (i, t)) =>
      if t = [] then
        match xs[i]? with
        | none => (.throw, xs)
        | some x =>
          let r := assignArg (if ty.cst = true then constEl el else el) args x
          (if r.1 then .ref i else .throw, xs.set i r.2)
      else (.path i t, xs)
  else if b ".@insert" <+: rest then
    if ty.ins = true ∧ ty.cst = false then
      let r := el.conv args el.dflt
      if r.1 then (.self, xs ++ [r.2]) else (.throw, xs)
    else (.throw, xs)
  else if b ".@erase" <+: rest then
    if ty.ers = true ∧ ty.cst = false then
      match convIdx lib trunc args with
      | .ok i => (.self, if i < xs.length then xs.eraseIdx i else xs)
      | .throw _ => (.throw, xs)
      | .ub => (.ub, xs)
    else (.throw, xs)
  else seqRest el ty rest args xs

end Verif.Rest
