import Verif.Bases
/-
The code generator reading a whole file: the main loop (classdesc.cc:1249-1349), nested classes and typedefs inside
classes (classdesc.cc:502-577), `assign_class_action` (classdesc.cc:996-1049) and `parse_typedef` (classdesc.cc:848-945).

Input is the list of tokens `nexttok` delivers; a mark in the input (tokeninput.h:62-76) is the number of tokens that
follow it.  Without the options -qt, -objc, -onbase and -typeName.  The result is the list of registered types
(`actions`), in order.  Left out: the texts of member actions, the lists of nested types, the pragmas, and what becomes of
two enumerations with the same name.
-/
namespace Verif.Top
open Verif.Tok (Str b)
open Verif.Decl (Rd St Act starts identStart)

/-- Options -respect_private and -overload. -/
structure Cfg where
  respect : Bool
  overload : Bool

/-- An entry of `actions`: classdesc.cc:78-86, or of `enum_keys`.  `ns` is the namespace without trailing `::`. -/
inductive Reg
  | cls (type ns templ : Str) (bases : List Str) (acts : List Act)
  | enum (type ns : Str) (keys : List Str)
  deriving DecidableEq, Repr

/-- On the text reversed: what is in front of the first `::`. -/
def toColons : Str → Str
  | [] => []
  | c :: r => if c = 58 ∧ r.head? = some 58 then [] else c :: toColons r

/-- On the text reversed: what is behind the first `::`, if there is one. -/
def pastColons : Str → Option Str
  | [] => none
  | c :: r => if c = 58 ∧ r.head? = some 58 then some r.tail else pastColons r

/-- `s.erase(s.rfind("::"))`, or everything if there is none: classdesc.cc:85-86. -/
def strip (s : Str) : Str := ((pastColons s.reverse).getD []).reverse

/-- The name of the class, for telling constructors, from the prefix: classdesc.cc:703-706. -/
def bare (pre : Str) : Str := (toColons ((pre.take (pre.length - 2)).takeWhile (· != 60)).reverse).reverse

/-- Template arguments of a member class: classdesc.cc:546-554.  `substr(1,n)` has n characters. -/
def merge (targs targs1 : Str) : Str :=
  if targs ≠ [] ∧ targs1 ≠ [] then
    targs.takeWhile (· != 62) ++ [44] ++ (if targs1.contains 62 then targs1.tail.take (targs1.takeWhile (· != 62)).length else targs1.tail)
  else targs ++ targs1

/-- The text kept of `template <...>`: classdesc.cc:525-529 and 1321-1323. -/
def keepArgs (t tok : Str) : Str := if (tok ≠ b "class" ∧ tok ≠ b "struct") ∨ t = b "< > " then [] else t

/-- How reading ends.  `stop`: the input is at its end, or the generator reads beyond the end of a string
(`Bases.classHead`).  `other`: not modelled (a pointer to an unnamed struct in a typedef), or an error (an unnamed struct
in a class). -/
inductive Res (α : Type)
  | done (x : α) (out : List Reg) (r : Rd)
  | stop (out : List Reg)
  | other
  deriving DecidableEq, Repr

/-- The enumerations newly registered: classdesc.cc:250-288. -/
def newEnums (pre ns : Str) (l : List (Bool × Str × Option (List Str))) : List Reg :=
  l.filterMap fun x => x.2.2.map fun keys =>
    .enum (b "enum " ++ (if x.1 = true then b "class " else []) ++ pre ++ x.2.1) (strip ns) keys

/-- `get_typedef_name`: classdesc.cc:848-860; `none` in the first component is the exception `is_ptr`. -/
def typedefName : Nat → Bool → Rd → Option (Option Str × Rd)
  | 0, _, _ => none
  | n + 1, ptr, r =>
    if r.tok = b ";" then some (if ptr = true ∨ r.last = b "]" then none else some r.last, r)
    else
      match (if r.tok = b "{" then Decl.gobble r (b "{") (b "}") else some r) with
      | none => none
      | some r => r.next.bind (typedefName n (r.last == b "*"))

/-- To the semicolon that ends a typedef in a class: classdesc.cc:506-510. -/
def typedefEnd : Nat → Rd → Option Rd
  | 0, _ => none
  | n + 1, r =>
    if r.tok = b ";" then some r
    else
      match (if r.tok = b "{" then Decl.gobble r (b "{") (b "}") else some r) with
      | none => none
      | some r => r.next.bind (typedefEnd n)

/-- A function that reads a class from behind its name: `parse_class`. -/
abbrev Parser := (isClass : Bool) → (pre targs : Str) → List Reg → Rd → Res St

/-- `parse_typedef` for `struct` and `class`: classdesc.cc:865-913, from that token. -/
def typedefStruct (respect overload : Bool) (body : Parser) (ns pre : Str) (out : List Reg) (r0 : Rd) : Res Unit :=
  match r0.next with
  | none => .stop out
  | some r =>
    let structname := if identStart r.tok = true then r.tok else []
    match r.skipTo (starts ";:{") with
    | none => .stop out
    | some r =>
      if r.tok = b ";" then .done () out r
      else
        match typedefName (r.rest.length + 1) false r with
        | none => .stop out
        | some (none, _) => if structname = [] then .other else read (pre ++ structname) r
        | some (some n, _) => read (pre ++ (if structname = [] then n else structname)) r
where
  read (name : Str) (r : Rd) : Res Unit :=
    match Bases.bases respect (r0.tok == b "class") [] r with
    | none => .stop out
    | some (bs, r) =>
      match body (r0.tok == b "class") (name ++ b "::") [] out r with
      | .done s out r => .done () (out ++ [.cls name (strip ns) [] bs (Decl.keep ⟨respect, overload, bare (name ++ b "::")⟩ s)]) r
      | .stop out => .stop out
      | .other => .other

/-- `parse_typedef`: classdesc.cc:862-930.  For a union a descriptor is registered, whose members are the bytes (or, for a
pointer to a union, the object itself). -/
def typedefs (respect overload : Bool) (body : Parser) (ns pre : Str) (out : List Reg) (r : Rd) : Res Unit :=
  match r.next with
  | none => .stop out
  | some r =>
    if r.tok = b "struct" ∨ r.tok = b "class" then typedefStruct respect overload body ns pre out r
    else if r.tok = b "union" then
      match typedefName (r.rest.length + 1) false r with
      | none => .stop out
      | some (some n, r) => .done () (out ++ [.cls (pre ++ n) (strip ns) [] [] [⟨[], .bytes, false, false⟩]]) r
      | some (none, r) => .done () (out ++ [.cls (pre ++ r.last) (strip ns) [] [] [⟨[], .data false, false, false⟩]]) r
    else
      match r.skipTo (· == b ";") with
      | none => .stop out
      | some r => .done () out r

/-- `assign_class_action`: classdesc.cc:996-1049; `r` is at the class name and `r.last` is `class`, `struct` or `typename`. -/
def classDef (c : Cfg) (body : Parser) (ns pre targs classargs : Str) (priv : Bool) (out : List Reg) (r : Rd) : Res Unit :=
  match Bases.classHead c.respect pre targs classargs priv r with
  | none => .stop out
  | some (cl, r1) =>
    if cl.defined = true then
      match body (r.last == b "class") (cl.name ++ b "::") targs out r1 with
      | .done s out r2 =>
        .done () (if cl.described = true then
            out ++ [.cls (r.last ++ b " " ++ cl.name) (strip ns) targs cl.bases (Decl.keep ⟨c.respect, c.overload, bare (cl.name ++ b "::")⟩ s)]
          else out) r2
      | .stop out => .stop out
      | .other => .other
    else .done () out r1

/-- The loop over the members of a class with the parts left out of `Decl.loop`: classdesc.cc:468-822. -/
def bodyLoop (c : Cfg) (ns : Str) : Nat → Str → Str → St → List Reg → Rd → Res St
  | 0, _, _, _, out, _ => .stop out
  | n + 1, pre, targs, s, out, r =>
    let body : Parser := fun isClass pre targs out r =>
      bodyLoop c ns n pre targs { hidden := c.respect && isClass, priv := isClass } out r
    match r.next with
    | none => .stop out
    | some r =>
      if r.tok = b "}" then .done s out r
      else if r.tok = b "typedef" then
        match typedefEnd (r.rest.length + 1) r with
        | none => .stop out
        | some _ =>
          match typedefs c.respect c.overload body ns pre out r with
          | .stop out => .stop out
          | .other => .other
          | .done _ out r =>
            match r.skipTo (· == b ";") with
            | none => .stop out
            | some r => bodyLoop c ns n pre targs s out r
      else
        match (if r.tok = b "template" then (Decl.template r).map fun x => ({ s with tmpl := true }, keepArgs x.1 x.2.tok, x.2)
               else some (s, [], r)) with
        | none => .stop out
        | some (s1, targs1, r1) =>
          if r1.tok = b "class" ∨ r1.tok = b "struct" then
            match r1.next with
            | none => .stop out
            | some r2 =>
              let r2 : Rd := { r2 with last := if targs ≠ [] then b "typename" else r2.last }
              if identStart r2.tok = true then
                match classDef c body ns pre (merge targs targs1) targs1 s.priv out r2 with
                | .stop out => .stop out
                | .other => .other
                | .done _ out r => bodyLoop c ns n pre targs s1 out r
              else .other
          else
            match Decl.turn ⟨c.respect, c.overload, bare pre⟩ s r with
            | .go s' r' =>
              bodyLoop c ns n pre targs s' (out ++ newEnums pre ns (s'.enums.drop s.enums.length)) r'
            | .eof => .stop out
            | .other => .other

/-- `parse_class`, the base classes having been read. -/
def body (c : Cfg) (ns : Str) : Parser := fun isClass pre targs out r =>
  bodyLoop c ns (r.rest.length + 1) pre targs { hidden := c.respect && isClass, priv := isClass } out r

/-! ### The main loop -/

/-- `namespace_name`, `namespace_end` (innermost first) and `actions`. -/
structure State where
  ns : Str := b "::"
  ends : List Nat := []
  out : List Reg := []

/-- The end of a namespace: classdesc.cc:1271-1288. -/
def leave (t : State) : State :=
  let s := strip t.ns
  { t with ns := ((pastColons s.reverse).map fun p => (58 :: 58 :: p).reverse).getD [], ends := t.ends.tail }

/-- Has the innermost namespace been left?  classdesc.cc:1271. -/
def past (t : State) (r : Rd) : Bool :=
  match t.ends with
  | [] => false
  | m :: _ => decide (r.rest.length < m)

/-- `namespace`: classdesc.cc:1289-1311. -/
def enter (t : State) (r : Rd) : Option (State × Rd) :=
  if r.tok = b "namespace" then do
    let r ← r.next
    if r.tok ≠ b "{" then
      let name := r.tok
      let r ← r.next
      if r.tok = b "=" then (r.skipTo (· == b ";")).map fun r => (t, r)
      else if r.tok = b "{" then
        let e ← Decl.gobble r (b "{") (b "}")
        some ({ t with ns := t.ns ++ name ++ b "::", ends := e.rest.length :: t.ends }, r)
      else some (t, r)
    else some (t, r)
  else some (t, r)

/-- Class definitions and declarations: classdesc.cc:1328-1335. -/
def onClass (c : Cfg) (targs : Str) (t : State) (r : Rd) : Res Unit :=
  if r.tok = b "class" ∨ r.tok = b "struct" then
    match r.next with
    | none => .stop t.out
    | some r => if identStart r.tok = true then classDef c (body c t.ns) t.ns t.ns targs targs false t.out r else .done () t.out r
  else .done () t.out r

/-- Enumerations: classdesc.cc:1336-1343. -/
def onEnum (t : State) (r : Rd) : Res Unit :=
  if r.tok = b "enum" then
    match r.next with
    | none => .stop t.out
    | some r =>
      if identStart r.tok = true then
        match Decl.enumAction r with
        | none => .stop t.out
        | some x => .done () (t.out ++ newEnums t.ns t.ns [(r.tok == b "class", x.1, x.2.1)]) x.2.2
      else
        match Decl.gobble r (b "{") (b "}") with
        | none => .stop t.out
        | some r => .done () t.out r
  else .done () t.out r

/-- One turn of the main loop from the class definitions on, and what follows: classdesc.cc:1328-1347. -/
def rest (c : Cfg) (targs : Str) (t : State) (r : Rd) : Res Unit :=
  match onClass c targs t r with
  | .stop out => .stop out
  | .other => .other
  | .done _ out r =>
    match onEnum { t with out := out } r with
    | .stop out => .stop out
    | .other => .other
    | .done _ out r =>
      match (if r.tok = b "(" then Decl.gobble r (b "(") (b ")") else some r) with
      | none => .stop out
      | some r => .done () out r

/-- One turn of the main loop: classdesc.cc:1253-1347.  `r` is at the new token. -/
def turn (c : Cfg) (t : State) (r : Rd) : Res State :=
  if (b "#pragma").isPrefixOf r.tok then .done t t.out r
  else
    match (if r.tok = b "using" then r.skipTo (· == b ";") else some r) with
    | none => .stop t.out
    | some r =>
      let t := if past t r = true then leave t else t
      match enter t r with
      | none => .stop t.out
      | some (t, r) =>
        match (if r.tok = b "typedef" then typedefs c.respect c.overload (body c t.ns) t.ns [] t.out r else .done () t.out r) with
        | .stop out => .stop out
        | .other => .other
        | .done _ out r =>
          let t := { t with out := out }
          if r.tok = b "template" then
            match r.next with
            | none => .stop t.out
            | some r =>
              if r.tok ≠ b "<" then .done t t.out r
              else
                match Decl.templateArgs r with
                | none => .stop t.out
                | some (text, r) =>
                  match (if r.tok = b "using" then r.skipTo (· == b ";") else some r) with
                  | none => .stop t.out
                  | some r' => fin t (rest c (keepArgs text r.tok) t r')
          else fin t (rest c [] t r)
where
  fin (t : State) : Res Unit → Res State
    | .done _ out r => .done { t with out := out } out r
    | .stop out => .stop out
    | .other => .other

/-- The main loop.  `none`: not modelled, or an error. -/
def loop (c : Cfg) : Nat → State → Rd → Option (List Reg)
  | 0, t, _ => some t.out
  | n + 1, t, r =>
    match r.next with
    | none => some t.out
    | some r =>
      match turn c t r with
      | .done t _ r => loop c n t r
      | .stop out => some out
      | .other => none

/-- The types registered for a file with these tokens. -/
def file (c : Cfg) (toks : List Str) : Option (List Reg) := loop c (toks.length + 1) {} ⟨[], [], [], toks⟩

end Verif.Top
