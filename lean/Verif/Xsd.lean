import Verif.OMap
import Verif.Json

/-
The XML schema generator: xsd_generate_base.h.

Definitions are modelled as sequences of tags rather than as text; attributes other than the name and
the type (minOccurs, mixed, ...) are left out.  `optional` only affects minOccurs.
-/
namespace Verif.Xsd
open Verif.OMap

abbrev Name := List UInt8

/-- A deep recursion: the native stack is exhausted. -/
inductive R (α : Type)
  | ok (a : α)
  | throw
  | deep
  deriving DecidableEq, Repr

def R.bind {α β : Type} : R α → (α → R β) → R β
  | .ok a, f => f a
  | .throw, _ => .throw
  | .deep, _ => .deep

inductive Tag
  | complexType | simpleType | complexContent | extension | sequence | restriction
  deriving DecidableEq, Repr

/-- A qualified type name: in the namespace xs:, or tns: (the schema's own). -/
inductive Ref
  | xs (n : Name)
  | tns (n : Name)
  deriving DecidableEq, Repr

inductive Tok
  | opn (t : Tag) (a : Option Ref)
  | cls (t : Tag)
  | element (name : Name) (type : Ref)
  | any
  | enumeration
  deriving DecidableEq, Repr

/-- `TypeBeingAddedTo`: xsd_generate_base.h:26-34. -/
structure Top where
  complete : Bool
  seq : Bool
  name : Name
  desc : Name
  base : Option Ref
  deriving DecidableEq, Repr

/-- `xsd_generate_t`: xsd_generate_base.h:21-50; the top of the stack is the head of the list. -/
structure G where
  defs : List (Name × List Tok)
  deps : List (Name × List (Name × Unit))
  stack : List Top
  root : Name × Ref
  deriving DecidableEq, Repr

def G.empty : G := ⟨[], [], [], ([], .xs [])⟩

def G.defined (g : G) (n : Name) : Bool := (mfind strLt n g.defs).isSome

/-- `xsdDefs[n]+=...`. -/
def G.append (g : G) (n : Name) (t : List Tok) : G :=
  { g with defs := mput strLt n ((mfind strLt n g.defs).getD [] ++ t) g.defs }

/-- `addDependency`: xsd_generate_base.h:125-130. -/
def addDependency (g : G) (type : Name) : Ref → G
  | .xs _ => g
  | .tns n =>
    { g with deps := mput strLt type (minsert strLt n () ((mfind strLt type g.deps).getD [])) g.deps }

/-- `addMember`: xsd_generate_base.h:80-93. -/
def addMember (g : G) (name : Name) (type : Ref) : G :=
  match g.stack with
  | [] => g
  | top :: rest =>
    if name ≠ [] ∧ top.complete = false then
      let g := if top.seq then g else g.append top.name [.opn .sequence none]
      let g := { g with stack := { top with seq := true } :: rest }
      addDependency (g.append top.name [.element name type]) top.name type
    else g

/-- `addBase`: xsd_generate_base.h:96-122. (The branch for the base "xs::string" is not reachable
from the generator: no type has that name.) -/
def addBase (g : G) (base : Ref) : R G :=
  match g.stack with
  | [] => .ok g
  | top :: rest =>
    if top.complete then .ok g
    else
      match top.base with
      | none =>
        let g := g.append top.name [.opn .complexContent none, .opn .extension (some base)]
        .ok { g with stack := { top with base := some base } :: rest }
      | some b => if b = base then .ok g else .throw

/-- `openType`: xsd_generate_base.h:135-143. -/
def openType (g : G) (type desc : Name) : G :=
  if g.defined type then { g with stack := ⟨true, false, type, desc, none⟩ :: g.stack }
  else
    { g with
      stack := ⟨false, false, type, desc, none⟩ :: g.stack
      defs := mput strLt type [.opn .complexType (some (.tns type))] g.defs }

/-- `closeType`: xsd_generate_base.h:145-165. -/
def closeType (g : G) : G :=
  match g.stack with
  | [] => g
  | top :: rest =>
    let g := if top.complete then g else
      g.append top.name (
        (if top.base.isNone then [Tok.any] else []) ++
        (if top.seq then [Tok.cls .sequence] else []) ++
        (if top.base.isSome then [Tok.cls .extension, .cls .complexContent] else []) ++
        [.cls .complexType])
    { g with stack := rest }

/-- `currentDescription`: xsd_generate_base.h:167-173. -/
def G.desc (g : G) : Name :=
  match g.stack with
  | [] => []
  | top :: _ => top.desc

/-- `defineType`: xsd_generate_base.h:176-180. -/
def defineType (g : G) (type : Name) (d : List Tok) : G :=
  if g.defined type then g else { g with defs := mput strLt type d g.defs }

/-! ### Output -/

/-- The types depended on: `dependencies[type]`, in the set's order. -/
def G.depsOf (g : G) (n : Name) : List Name := ((mfind strLt n g.deps).getD []).map (·.1)

/-- What has been entered in `written`, and the types whose definitions have been written out, in
order. -/
structure W where
  written : List Name
  out : List Name
  deriving DecidableEq, Repr

/-- Calling `f` for one after the other. -/
def each {σ α : Type} (f : σ → α → R σ) : σ → List α → R σ
  | s, [] => .ok s
  | s, a :: l => (f s a).bind fun s => each f s l

/-- `outputType`: xsd_generate_base.h:39-47. -/
def outputType (deps : Name → List Name) : Nat → W → Name → R W
  | 0, _, _ => .deep
  | n + 1, w, type =>
    if type ∈ w.written then .ok w
    else
      (each (outputType deps n) { w with written := type :: w.written } (deps type)).bind fun w =>
        .ok { w with out := w.out ++ [type] }

/-- The types written out by `output`: xsd_generate_base.h:185-201. The loop runs over the map; what
is added to it on the way (names without a definition) has been written by then. -/
def output (g : G) (fuel : Nat) : R (List Name) :=
  (each (outputType g.depsOf fuel) ⟨[], []⟩ (g.defs.map (·.1))).bind fun w => .ok w.out

/-- The definitions after `output`: `xsdDefs[type]` has entered the names without a definition. -/
def afterOutput (g : G) (names : List Name) : G :=
  { g with defs := names.foldl (fun m n => minsert strLt n [] m) g.defs }

/-! ### The generator -/

/-- Types, with their (transformed) names. `str` is a string, `ptr` a shared_ptr to a default
constructible type, `arr` a C array (its name includes the sizes). std::tuple is not modelled. -/
inductive Ty
  | fund (xs : Name)
  | str
  | enum (n : Name) (keys : Nat)
  | cls (n : Name)
  | cont (n : Name) (e : Ty)
  | pair (n : Name) (a b : Ty)
  | ptr (n : Name) (e : Ty)
  | arr (n : Name) (e : Ty)
  deriving DecidableEq, Repr

/-- "string" -/
def xsString : Name := [115, 116, 114, 105, 110, 103]

/-- `transformTypeName(typeName<T>())`. -/
def Ty.name : Ty → Name
  | .fund n => n
  | .str => xsString
  | .enum n _ => n
  | .cls n => n
  | .cont n _ => n
  | .pair n _ _ => n
  | .ptr n _ => n
  | .arr n _ => n

/-- `xsd_typeName<T>()`: xsd_generate_base.h:237-238, 287-308. -/
def Ty.ref : Ty → Ref
  | .fund n => .xs n
  | .str => .xs xsString
  | t => .tns t.name

/-- What the generated descriptor of a class does: `xsd_generate(g,d,base)` or
`xsd_generate(g,d+".name",member)`. -/
structure Item where
  base : Bool
  name : Name
  type : Ty
  deriving DecidableEq, Repr

abbrev Env := Name → List Item

def sub (d n : Name) : Name := d ++ Json.dot :: n

def items (f : G → Name → Ty → R G) (g : G) (d : Name) (l : List Item) : R G :=
  each (fun g (i : Item) => f g (if i.base then d else sub d i.name) i.type) g l

/-- The definition of a container: xsd_generate_base.h:391-397, and of a C array: 338-345 (the
element is named after the last component of its type's name; here the whole name). -/
def contDef (n : Name) (e : Ty) : List Tok :=
  [.opn .complexType (some (.tns n)), .opn .sequence none, .element e.name e.ref,
    .cls .sequence, .cls .complexType]

/-- The definition of an enum: xsd_generate_base.h:365-373. -/
def enumDef (n : Name) (keys : Nat) : List Tok :=
  [.opn .simpleType (some (.tns n)), .opn .restriction none] ++ List.replicate keys .enumeration ++
    [.cls .restriction, .cls .simpleType]

/-- `processExtraClass`: xsd_generate_base.h:274-285, 498-505. A shared_ptr has no descriptor of its
own: UnknownSchema is thrown. -/
def extra (f : G → Name → Ty → R G) (env : Env) (g : G) (d : Name) : Ty → R G
  | .str => .ok g
  | .cls n => (items f (openType g n d) d (env n)).bind fun g => .ok (closeType g)
  | .ptr _ _ => .throw
  | e => f g [] e

/-- `xsd_generate`: xsd_generate_base.h:249-268 (classes), 310-317 (fundamental types, strings),
319-350 (C arrays), 353-376 (enums), 379-403 (containers), 454-462 (pairs), 482-488 (shared_ptr). -/
def gen (env : Env) : Nat → G → Name → Ty → R G
  | 0, _, _, _ => .deep
  | fuel + 1, g, d, ty =>
    match ty with
    | .fund n => .ok (addMember g (Json.tail d) (.xs n))
    | .str => .ok (addMember g (Json.tail d) (.xs xsString))
    | .enum n k => .ok (addMember (defineType g n (enumDef n k)) (Json.tail d) (.tns n))
    | .cls n =>
      let g := if d ≠ [] ∧ d.contains Json.dot = false then { g with root := (d, .tns n) } else g
      (if g.desc = d then addBase g (.tns n) else .ok (addMember g (Json.tail d) (.tns n))).bind fun g =>
      (items (gen env fuel) (openType g n d) d (env n)).bind fun g => .ok (closeType g)
    | .cont n e =>
      let g := addMember g (Json.tail d) (.tns n)
      let g := addDependency (defineType g n (contDef n e)) n e.ref
      extra (gen env fuel) env g (d ++ e.name) e
    | .pair n a b => -- the members "first" and "second"
      (gen env fuel (openType g n d) (sub d [102, 105, 114, 115, 116]) a).bind fun g =>
      (gen env fuel g (sub d [115, 101, 99, 111, 110, 100]) b).bind fun g =>
      .ok (addMember (closeType g) (Json.tail d) (.tns n))
    | .ptr _ e => gen env fuel g d e
    | .arr n e =>
      .ok (addDependency (addMember (defineType g n (contDef n e)) (Json.tail d) (.tns n)) n e.ref)

end Verif.Xsd
