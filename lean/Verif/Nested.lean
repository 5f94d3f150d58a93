/-
The types nested in classes and what the descriptors say of them: the table `nested` (classdesc.cc:160-161, 268, 504-516, 521-560,
773) and printNestedTypes (classdesc.cc:1119-1138), called for each class with the name of the class (1573, 1601).
The declarations of a class are taken as already split; where a class body begins and ends they are marked.
-/
namespace Verif.Nested

abbrev Str := List Char

/-- A declaration in a file, as far as it matters. -/
inductive Item
  /-- `public:`, `private:`, `protected:` -/
  | label (priv : Bool)
  /-- `typedef ... ;` declaring `name`; `last` is the token before the semicolon. -/
  | tdef (name last : Str)
  /-- `using name = ...;` -/
  | alias (name : Str)
  /-- `struct name;` or `class name;`, of a template if `templ`. -/
  | fwd (templ : Bool) (name : Str)
  /-- `struct name* m;` and the like: a member of a type that is named with `struct` or `class`. -/
  | strct (name : Str)
  /-- The start of the definition of a class or struct, of a template if `templ`; `targs` are the template arguments. -/
  | opn (templ isClass : Bool) (name targs : Str)
  /-- The end of it. -/
  | cls
  /-- `enum name {...};` -/
  | enm (name : Str)
  /-- A member function, a template if `templ`; or an operator if `op`. -/
  | fn (templ op : Bool)
  /-- Other members. -/
  | other
  deriving DecidableEq, Repr

/-- The variables of a call of `parse_class`: classdesc.cc:348-353.  `main` has neither flag, and does not add classes and typedefs to the
table: classdesc.cc:1314-1340. -/
structure Frame where
  pre : Str
  isMain : Bool
  templ : Bool
  priv : Bool
  deriving DecidableEq, Repr

def cc : Str := [':', ':']

def identStart (s : Str) : Bool := s.head?.any fun c => c.isAlpha || c == '_'

/-- What is added to `nested` by a declaration, in order: classdesc.cc:513-514, 521-522, 556, 268 with 581-585. -/
def adds (f : Frame) : Item → List (Str × Str)
  | .tdef _ last => if !f.isMain && identStart last && !f.priv then [(f.pre, last)] else []
  | .fwd t name => if !f.isMain && !f.priv && !(f.templ || t) then [(f.pre, name)] else []
  | .strct name => if !f.isMain && !f.priv && !f.templ then [(f.pre, name)] else []
  | .opn t _ name _ => if !f.isMain && !f.priv && !(f.templ || t) then [(f.pre, name)] else []
  | .enm name => if !f.priv then [(f.pre, name)] else []
  | _ => []

/-- The flags after it: classdesc.cc:492-500, 522, 773 (only functions with a name get there). -/
def Frame.after (f : Frame) : Item → Frame
  | .label p => { f with priv := p }
  | .fwd t _ => { f with templ := !f.isMain && (f.templ || t) }
  | .opn t _ _ _ => { f with templ := !f.isMain && (f.templ || t) }
  | .fn t op => { f with templ := if op then f.templ || t else false }
  | _ => f

/-- The file, from the frames of the calls there are, the innermost first: classdesc.cc:996-1014 for the prefix of a class. -/
def walk : List Frame → List Item → List (Str × Str)
  | _, [] => []
  | [], _ => []
  | f :: fs, i :: is =>
    adds f i ++
      match i with
      | .opn _ c name targs => walk (⟨f.pre ++ name ++ targs ++ cc, false, false, c⟩ :: f.after i :: fs) is
      | .cls => walk fs is
      | _ => walk (f.after i :: fs) is

/-- `nested`, after the file has been read. -/
def table (is : List Item) (key : Str) : List Str :=
  ((walk [⟨[], true, false, false⟩] is).filter (·.1 == key)).map (·.2)

/-! ### printNestedTypes -/

/-- A line printed: `typedef [typename] scope::name name;` -/
structure Td where
  typename : Bool
  scope : Str
  name : Str
  deriving DecidableEq, Repr

/-- `scope.substr(0,scope.rfind("::"))`, classdesc.cc:1132-1135; on the text reversed. -/
def outerRev : Str → Option Str
  | [] => none
  | [_] => none
  | c :: d :: r => if c = ':' ∧ d = ':' then some r.reverse else outerRev (d :: r)

def outer (s : Str) : Option Str := outerRev s.reverse

/-- The scopes gone through: the recursion, classdesc.cc:1131-1137. -/
def chain : Nat → Str → List Str
  | 0, _ => []
  | n + 1, s => s :: match outer s with
    | none => []
    | some t => if t = cc then [] else chain n t

def scopes (s : Str) : List Str := chain (s.length + 1) s

/-- One level, classdesc.cc:1121-1129: what is printed, and `avoid`. -/
def level (templ : Bool) (scope : Str) : List Str → List Str → List Td × List Str
  | [], avoid => ([], avoid)
  | n :: ns, avoid =>
    let r := level templ scope ns (n :: avoid)
    (if avoid.contains n then r.1 else ⟨templ, scope, n⟩ :: r.1, r.2)

def levels (nested : Str → List Str) : Bool → List Str → List Str → List Td
  | _, [], _ => []
  | templ, s :: ss, avoid =>
    let r := level templ s (nested (s ++ cc)) avoid
    r.1 ++ levels nested false ss r.2

/-- `printNestedTypes(scope,templ)`: classdesc.cc:1119-1138. -/
def printNestedTypes (nested : Str → List Str) (scope : Str) (templ : Bool) : List Td := levels nested templ (scopes scope) []

end Verif.Nested
