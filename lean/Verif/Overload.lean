import Verif.Decl
import Verif.Scan
import Verif.Xml
/-
The pointers the generator declares for member functions when overloading is on (`-overload`, the default):
classdesc.cc:188-232, 585-606, 640-826.

Modelled: a class whose members are functions, access labels and data members without braces or brackets.  On the
tokens of other members (nested types, templates, typedefs, operators, arrays, …) the model gives up.
-/
namespace Verif.Over
open Verif.Tok (Str b)
open Verif.Scan (Reader Scanned gobble findIn isSpace trimWS replaceShornTypes)
open Verif.Decl (starts identStart)
open Verif.Xml (dec)

/-- `insertTypename`: classdesc.cc:188-204. -/
def insertTypename (type : Str) : Str :=
  let type := type.map fun c => if isSpace c = true then 32 else c
  if findIn (b "::") type = none ∨ findIn (b "typename ") type ≠ none then type
  else
    let type := trimWS type
    if findIn (b "const ") type = some 0 then b "const typename " ++ type.drop 6
    else b "typename " ++ type

/-- `MemberSig::Type`: classdesc.cc:210. -/
inductive Kind
  | none
  | const
  | static
  | constructor
  deriving DecidableEq, Repr

/-- `MemberSig`: classdesc.cc:207-213. -/
structure Sig where
  decl : Str
  ret : Str
  args : Str
  pre : Str
  name : Str
  kind : Kind
  deriving DecidableEq, Repr

/-- `MemberSig::declare`: classdesc.cc:214-228. -/
def Sig.declare (s : Sig) : Str :=
  match s.kind with
  | .none => insertTypename s.ret ++ b "(" ++ s.pre ++ b "*" ++ s.decl ++ b ")(" ++ s.args ++ b ")=&" ++ s.pre ++ s.name ++ b ";"
  | .const =>
    insertTypename s.ret ++ b "(" ++ s.pre ++ b "*" ++ s.decl ++ b ")(" ++ s.args ++ b ") const=&" ++ s.pre ++ s.name ++ b ";"
  | .static => insertTypename s.ret ++ b "(*" ++ s.decl ++ b ")(" ++ s.args ++ b ")=&" ++ s.pre ++ s.name ++ b ";"
  | .constructor => b "void (*" ++ s.decl ++ b ")(" ++ s.args ++ b ")=0;"

/-- What follows the last `::`, if there is one. -/
def afterScope : Str → Option Str
  | [] => none
  | c :: r =>
    match afterScope r with
    | some x => some x
    | none => if c = 58 ∧ r.head? = some 58 then some (r.drop 1) else none

/-- `sprefix`, the name constructors have: classdesc.cc:703-706. -/
def className (pre : Str) : Str :=
  let s := (pre.take (pre.length - 2)).takeWhile (· != 60)
  (afterScope s).getD s

/-- One character of the loop that strips default arguments: classdesc.cc:739-749; text kept so far, `braceCnt` and
`include`. -/
def stripStep (s : Str × Int × Bool) (c : UInt8) : Str × Int × Bool :=
  if c = 61 then (s.1, s.2.1, false)
  else if c = 123 then (s.1, s.2.1 + 1, s.2.2)
  else if c = 125 then (s.1, s.2.1 - 1, s.2.2)
  else
    let inc := if c = 44 ∧ s.2.1 = 0 then true else s.2.2
    (if inc = true then s.1 ++ [c] else s.1, s.2.1, inc)

/-- `al`: classdesc.cc:736-749. -/
def strip (args : Str) : Str := (args.foldl stripStep ([], 0, true)).1

/-- `nexttok`. -/
def next (i : Reader) : Option Reader :=
  match i.rest with
  | [] => none
  | t :: r => some ⟨i.tok, t, r⟩

/-- `gobble_delimited`, `none` being the exception. -/
def gob (i : Reader) (l r : Str) : Option (Str × Reader) :=
  match gobble i l r with
  | .done t j => some (t, j)
  | .eof => none

/-- `argList`: classdesc.cc:656-680; `tok` begins with `(`.  Function pointers are not modelled. -/
def argText (i : Reader) : Option (Str × Reader) :=
  if i.tok = b "()" then some ([], i)
  else do
    let i ← next i
    let (a, i) ← if identStart i.tok = true then do
        let i ← next i
        if i.tok = b "::" then do
          let j ← next i
          some (i.last, j)
        else some ([], i)
      else some ([], i)
    if i.tok = b "*" ∧ (i.last = b "(" ∨ i.last = b "::") then none
    else if i.tok ≠ b ")" then do
      let (t, i) ← gob i (b "(") (b ")")
      some (a ++ t, i)
    else some (a ++ i.last, i)

/-- The tokens after the arguments: is `const` among them, is `delete`; classdesc.cc:685-692. -/
def look (isConst deleted : Bool) (last tok : Str) (rest : List Str) : Option (Bool × Bool × Reader) :=
  if starts ";{" tok = true then some (isConst, deleted, ⟨last, tok, rest⟩)
  else
    match rest with
    | [] => none
    | t :: r => look (isConst || t == b "const") (deleted || t == b "delete") tok t r

/-- `while (!strchr(";,",token[0])) nexttok()`: classdesc.cc:623. -/
def skip (last tok : Str) (rest : List Str) : Option Reader :=
  if starts ";," tok = true then some ⟨last, tok, rest⟩
  else
    match rest with
    | [] => none
    | t :: r => skip tok t r

structure Opts where
  /-- `prefix`, as `ns::A::` -/
  pre : Str
  respectPrivate : Bool

structure St where
  /-- `returnType` -/
  ret : Str
  /-- `reg.is_static` -/
  static : Bool
  /-- `reg.is_private` -/
  priv : Bool
  /-- the functions seen, which `num_instances` counts -/
  names : List Str
  /-- `overloadTempVarDecls[prefix]` -/
  out : List Sig

/-- The type of a function: classdesc.cc:707-713. -/
def kindOf (o : Opts) (name : Str) (dtor static isConst : Bool) : Kind :=
  if name = className o.pre ∧ dtor = false then .constructor
  else if static = true then .static
  else if isConst = true then .const
  else .none

/-- `replaceShornTypes` for the members of templates: classdesc.cc:751-758. -/
def reinstate (o : Opts) (t : Str) : Option Str :=
  if o.pre.contains 60 = true then replaceShornTypes t (className o.pre) (o.pre.take (o.pre.length - 2)) else some t

/-- A member function: classdesc.cc:651-774; `tok` begins with `(`. -/
def function (o : Opts) (s : St) (bef : Str) (i : Reader) : Option (St × Reader) := do
  let name := i.last
  let dtor := bef == b "~"
  let (args, i) ← argText i
  let (isConst, deleted, i) ← look false false i.last i.tok i.rest
  if identStart name = true then
    let s := { s with names := s.names ++ [name] }
    if dtor = false ∧ deleted = false ∧ name ≠ b "CLASSDESC_ACCESS" ∧ name ≠ b "CLASSDESC_ACCESS_TEMPLATE" then
      let ret ← reinstate o s.ret
      let al ← reinstate o (strip args)
      let sig : Sig := ⟨b "TmpMemPtr_" ++ name ++ dec (s.names.count name), ret, al, o.pre, name,
        kindOf o name dtor s.static isConst⟩
      some ({ s with ret := ret, static := false, out := if s.priv = true then s.out else s.out ++ [sig] }, i)
    else some ({ s with static := false }, i)
  else some ({ s with static := false }, i)

/-- The end of a turn, where the return type is collected: classdesc.cc:813-822. -/
def collect (ret : Str) (i : Reader) : Option (Str × Reader) :=
  if i.tok = b "<" then (gob i (b "<") (b ">")).map fun x => (ret ++ [32] ++ x.1, x.2)
  else if starts ":;{}()" i.last = true ∧ i.last ≠ b "::" then some ([], i)
  else if i.last ∉ [b "virtual", b "static", b "inline"] then some (ret ++ [32] ++ i.last, i)
  else some (ret, i)

/-- What begins a member, or part of one, that is not modelled. -/
def other : List Str :=
  [b "typedef", b "template", b "class", b "struct", b "using", b "enum", b "union", b "operator", b "alignas",
   b "friend", b "[", b "{"]

/-- A turn of the loop that reads the members, and `nexttok` at its end: classdesc.cc:468-823. -/
def step (o : Opts) (s : St) (bef : Str) (i : Reader) : Option (St × Str × Reader) :=
  if i.tok ∈ [b "private", b "protected", b "public"] then do
    let (_, j) ← gob i [] (b ":")
    let k ← next j
    some ({ s with priv := o.respectPrivate && (i.tok != b "public") }, j.last, k)
  else if i.tok ∈ other then none
  else do
    let (s, i) ← if starts "{;,:=" i.tok = true ∧ i.tok ≠ b "::" then
        (skip i.last i.tok i.rest).map fun j => (if identStart i.last = true then { s with static := false } else s, j)
      else some (s, i)
    let s := if i.tok = b "static" then { s with static := true } else s
    let (s, i) ← if i.tok.head? = some 40 then function o s bef i else some (s, i)
    let (_, i) ← if i.tok = b "{" then gob i (b "{") (b "}") else some ([], i)
    let (ret, i) ← collect s.ret i
    let k ← next i
    some ({ s with ret := ret }, i.last, k)

/-- The loop.  The first argument bounds the number of turns. -/
def loop (o : Opts) : Nat → St → Str → Reader → Option (List Sig)
  | 0, _, _, _ => none
  | n + 1, s, bef, i =>
    if i.tok = b "}" then some s.out
    else
      match step o s bef i with
      | none => none
      | some (s', bef', i') => loop o n s' bef' i'

/-- The declarations written for a class, given the tokens after its opening brace; `isClass` if it is declared with
`class`: classdesc.cc:455-468, 813-822, 1119-1132. -/
def declarations (o : Opts) (isClass : Bool) (toks : List Str) : Option (List Str) :=
  match toks with
  | [] => none
  | t :: r =>
    (loop o (r.length + 1) ⟨[], false, isClass && o.respectPrivate, [], []⟩ [] ⟨b "{", t, r⟩).map
      (List.map Sig.declare)

end Verif.Over
