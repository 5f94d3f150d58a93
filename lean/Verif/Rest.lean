import Verif.Json
/-
The REST interface: registry and dispatch (RESTProcess_base.h:357-398,
RESTProcess_epilogue.h:409-504), overload resolution (RESTProcess_epilogue.h:187-211,
RESTProcess_base.h:1229-1464).
-/
namespace Verif.Rest
open OMap
open Verif.Json (J dot)

abbrev Str := List UInt8

/-- ASCII text as bytes. -/
def b (s : String) : Str := s.toList.map fun c => UInt8.ofNat c.toNat

/-! ### The registry -/

/-- A function as the registry sees it: the return type and argument types of its signature
(signature.h:15-22; `functionSignature`, RESTProcess_epilogue.h:168-172), and which it is. -/
structure Fn where
  ret : Str
  args : List Str
  id : Nat
  deriving DecidableEq, Repr

/-- `f->signature()==rp->signature()`: one signature for a function (RESTProcess_base.h:1489); they
are compared by their argument types only (signature.h:21). -/
def sameSig (f g : Fn) : Bool := f.args == g.args

/-- What a registry entry points to: a non-function (`RESTProcessBase`; `wrapper` when it is a
`RESTProcessWrapperBase`, RESTProcess_base.h:121), a function, or a set of overloads
(`RESTProcessOverloadedFunction`, 137-152). -/
inductive Ent
  | obj (id : Nat) (wrapper : Bool)
  | fn (f : Fn)
  | over (fs : List Fn)
  deriving DecidableEq, Repr

/-- `RESTProcess_t`: a `std::map<std::string,RPPtr>`, RESTProcess_base.h:350. -/
abbrev Reg := List (Str × Ent)

/-- `add(d, RESTProcessBase*)`: RESTProcess_base.h:360-365. -/
def addObj (r : Reg) (d : Str) (id : Nat) (wrapper : Bool) : Reg :=
  minsert strLt d (.obj id wrapper) (merase strLt d r)

/-- Registration of numbers, booleans and strings by `emplace`: RESTProcess_base.h:582-585. -/
def addPrim (r : Reg) (d : Str) (id : Nat) : Reg := minsert strLt d (.obj id false) r

/-- The loop over the overloads: the first of the same signature is replaced, and the search stops;
otherwise the function is appended.  RESTProcess_base.h:374-380. -/
def replace (f : Fn) : List Fn → List Fn
  | [] => [f]
  | g :: gs => if sameSig g f then f :: gs else g :: replace f gs

/-- `add(d, RESTProcessFunctionBase*)`: RESTProcess_base.h:367-397. -/
def addFn (r : Reg) (d : Str) (f : Fn) : Reg :=
  match mfind strLt d r with
  | none => minsert strLt d (.fn f) r
  | some (.over fs) => mput strLt d (.over (replace f fs)) r
  | some (.fn g) =>
    if sameSig g f then mput strLt d (.fn f) r
    else mput strLt d (.over [g, f]) r
  | some (.obj _ _) => mput strLt d (.fn f) r

/-- A registration: of a number or string, of any other object (`wrapper` for containers and smart
pointers), of a function. -/
inductive Op
  | prim (d : Str) (id : Nat)
  | obj (d : Str) (id : Nat) (wrapper : Bool)
  | fn (d : Str) (f : Fn)
  deriving DecidableEq

def Op.name : Op → Str | .prim d _ => d | .obj d _ _ => d | .fn d _ => d

def apply (r : Reg) : Op → Reg
  | .prim d i => addPrim r d i
  | .obj d i w => addObj r d i w
  | .fn d f => addFn r d f

/-- The registry after a sequence of registrations. -/
def build (ops : List Op) : Reg := ops.foldl apply []

/-! ### Dispatch -/

/-- `std::string::rfind('.')`. -/
def rfindDot : Str → Option Nat
  | [] => none
  | c :: s =>
    match rfindDot s with
    | some i => some (i + 1)
    | none => if c = dot then some 0 else none

/-- What `RESTProcess_t::process` does with the query: which method of which entry is called. -/
inductive Out
  | enums (l : List Str)
  | outOfRange
  | signature (e : Ent)
  | list (e : Ent)
  | type (e : Ent)
  | process (e : Ent) (tail : Str)
  | notFound
  | stuck
  deriving DecidableEq, Repr

def Ent.isWrapper : Ent → Bool
  | .obj _ w => w
  | _ => false

/-- The loop, RESTProcess_epilogue.h:422-504: `cmd` and `cmdEnd` (none for npos) as in the code;
`count(cmd)` is 0 or 1, so the `default` case (463-502) is never reached.  The first argument
bounds the number of rounds (`process_total` in the proofs: never reached). -/
def loop (r : Reg) (query : Str) : Nat → Str → Option Nat → Out
  | 0, _, _ => .stuck
  | n + 1, cmd, cmdEnd =>
    let cmd := if cmdEnd = none then [] else cmd
    let e := cmdEnd.getD 0
    let tail := query.drop e
    match mfind strLt cmd r with
    | none =>
      if e ≠ 0 then
        loop r query n (match rfindDot cmd with | none => cmd | some i => cmd.take i) (rfindDot cmd)
      else .notFound
    | some x =>
      if tail = b ".@signature" then .signature x
      else if tail = b ".@list" then .list x
      else if tail = b ".@type" then .type x
      else if e ≠ 0 ∨ x.isWrapper = true then .process x tail
      else .notFound

/-- The special case `@enum.@list`: RESTProcess_epilogue.h:413-420.  `substr(6)` throws when the
name has less than six characters. -/
def enums : Reg → Option (List Str)
  | [] => some []
  | (k, _) :: r =>
    if b "@enum" <+: k then
      if k.length < 6 then none else (enums r).map (k.drop 6 :: ·)
    else enums r

/-- `RESTProcess_t::process`: RESTProcess_epilogue.h:409-504. -/
def process (r : Reg) (query : Str) : Out :=
  if query = b "@enum.@list" then
    match enums r with
    | some l => .enums l
    | none => .outOfRange
  else loop r query (query.length + 2) query (some query.length)

/-! ### Overload resolution -/

/-- `RESTProcessFunctionBase::maxMatchScore`: RESTProcess_base.h:128. -/
def maxScore : Nat := 1000000

inductive Sel (F : Type)
  | void
  | noMatch
  | ambiguous
  | call (f : F)
  deriving DecidableEq

/-- One round of the loop, RESTProcess_epilogue.h:193-204; the state is `bestOverload`,
`bestScore`, `bestCount`. -/
def better {F : Type} (score : F → Nat) (st : F × Nat × Nat) (f : F) : F × Nat × Nat :=
  if score f < st.2.1 then (f, score f, 1)
  else if score f = st.2.1 then (st.1, st.2.1, st.2.2 + 1)
  else st

/-- `RESTProcessOverloadedFunction::process`: RESTProcess_epilogue.h:187-211. -/
def choose {F : Type} (score : F → Nat) : List F → Sel F
  | [] => .void
  | f :: fs =>
    let st := (f :: fs).foldl (better score) (f, maxScore, 0)
    if maxScore ≤ score st.1 then .noMatch
    else if 1 < st.2.2 then .ambiguous
    else .call st.1

/-! ### Scores -/

/-- Types of arguments, as far as matching is concerned: RESTProcess_base.h:1232-1330.
`str` is `std::string` and `const char*`; `cls p` a default constructible class, `p` telling which
JSON objects can be unpacked into it; `cont` a container; `none'` pointers, abstract and not
default constructible classes and references to non-const.  A reference to const matches as the
type referred to. -/
inductive AT
  | bool | str | int | flt | enum
  | cls (p : List (Str × J) → Bool)
  | cont (t : AT)
  | none'

def isBool : J → Bool | .bool _ => true | _ => false
def isStr : J → Bool | .str _ => true | _ => false
def isInt : J → Bool | .int _ => true | _ => false
def isReal : J → Bool | .real _ => true | _ => false
def isNull : J → Bool | .null => true | _ => false

/-- `matches<T>`: RESTProcess_base.h:1232-1330. -/
def matches' : AT → J → Bool
  | .bool, j => isBool j
  | .str, j | .enum, j => isStr j
  | .int, j => isInt j
  | .flt, j => isReal j
  | .cls p, .obj m => p m
  | .cls _, _ => false
  | .cont t, .arr l => l.all (matches' t)
  | .cont t, j => matches' t j
  | .none', _ => false

/-- `partiallyMatchable<T>`: RESTProcess_base.h:1335-1387. -/
def partly : AT → J → Bool
  | .flt, j => isReal j || isInt j || isNull j
  | .cont t, .arr l => l.all (partly t)
  | .cont t, j => partly t j
  | t, j => matches' t j

/-- `argMatchScore<T>`: RESTProcess_base.h:1389-1394. -/
def argScore (t : AT) (j : J) : Nat :=
  if matches' t j = true then 0 else if partly t j = true then 1 else maxScore

/-- `unsigned` arithmetic. -/
def u32 (n : Nat) : Nat := n % 2 ^ 32

/-- `MatchScore<F,N,NN>::score` for N ≥ 2 (RESTProcess_base.h:1397-1423): the argument types are
given backwards, from the N-th on.  `nn` is the arity. -/
def scoreN (nn : Nat) (arr : List J) : List AT → Nat
  | [] | [_] => 0
  | [t2, t1] =>
    if arr.length < 2 then maxScore
    else u32 (argScore t1 (arr.getD 0 .null) + argScore t2 (arr.getD 1 .null) + 10 * (arr.length - nn))
  | t :: ts =>
    if arr.length < ts.length + 1 then maxScore
    else u32 (argScore t (arr.getD ts.length .null) + scoreN nn arr ts)

/-- `matchScore<F>`: RESTProcess_base.h:1397-1464, by the arity. -/
def matchScore : List AT → J → Nat
  | [], .null => 0
  | [], .arr l => u32 (10 * l.length)
  | [], _ => 10
  | [_], .null => maxScore
  | [_], .arr [] => maxScore
  | [t], .arr (j :: l) => u32 (argScore t j + 10 * ((j :: l).length - 1))
  | [t], j => argScore t j
  | ts, .arr l => scoreN ts.length l ts.reverse
  | _, _ => maxScore

end Verif.Rest
