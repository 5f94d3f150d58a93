import Verif.Tok
import Verif.Scan
/-
The code generator reading class and enum definitions: classdesc.cc:250-288 (enumerators) and
classdesc.cc:318-346 and 467-840 (members), on the tokens `nexttok` delivers.

Without the options -qt (`Qt.lean`) and -objc.  What is recorded is the list of actions, by name and kind; the text written for
them is in `Body.lean`.  Nested classes, class templates and
typedefs inside a class are not modelled here (`other`).
-/
namespace Verif.Decl
open Verif.Tok (Str b)

/-- The reader: `tokenBeforeLast`, `lasttoken`, `token`, and the tokens to come. -/
structure Rd where
  bef : Str
  last : Str
  tok : Str
  rest : List Str
  deriving DecidableEq, Repr

/-- `nexttok`; `none` is the exception `eof`. -/
def Rd.next (r : Rd) : Option Rd :=
  match r.rest with
  | [] => none
  | t :: rest => some ⟨r.last, r.tok, t, rest⟩

/-- `strchr(set,token[0])`, true also for an empty token. -/
def starts (set : String) (t : Str) : Bool :=
  match t with
  | [] => true
  | c :: _ => c == 0 || (b set).contains c

/-- `isIdentifierStart(token[0])`: classdesc.cc:40-41, tokeninput.h:263-265. -/
def identStart (t : Str) : Bool :=
  match t with
  | [] => false
  | c :: _ => c == 95 || (97 ≤ c && c ≤ 122) || (65 ≤ c && c ≤ 90)

/-- The loop of `gobble_delimited`: tokeninput.h:282-293. -/
def gobbleLoop (left right : Str) (cnt : Int) (bef last : Str) : List Str → Option Rd
  | [] => none
  | t :: rest =>
    if t = right ∧ ¬ cnt > 0 then some ⟨bef, last, t, rest⟩
    else
      let cnt := if t = left then cnt + 1 else cnt
      let cnt := if t = right then cnt - 1 else cnt
      if t = b ">>" ∧ left = b "<" then
        if cnt - 2 ≤ 0 then some ⟨bef, last, t, rest⟩
        else gobbleLoop left right (cnt - 2) last t rest
      else gobbleLoop left right cnt last t rest

/-- `gobble_delimited(input,left,right)`, the text collected left out: tokeninput.h:275-295. -/
def gobble (r : Rd) (left right : Str) : Option Rd :=
  if r.tok = left ++ right then some r
  else gobbleLoop left right 0 r.last r.tok r.rest

/-- `while (!p(token)) nexttok()`. -/
def skipTo (p : Str → Bool) : Str → Str → Str → List Str → Option Rd
  | bef, last, tok, rest =>
    if p tok = true then some ⟨bef, last, tok, rest⟩
    else
      match rest with
      | [] => none
      | t :: rest => skipTo p last tok t rest

def Rd.skipTo (r : Rd) (p : Str → Bool) : Option Rd := Decl.skipTo p r.bef r.last r.tok r.rest

/-! ### Enumerators -/

/-- The loop over the enumerators: classdesc.cc:270-280.  Bounded by the number of tokens. -/
def enumLoop : Nat → List Str → Rd → Option (List Str × Rd)
  | 0, _, _ => none
  | n + 1, keys, r =>
    if r.tok = b ";" then some (keys, r)
    else
      let keys := if (r.tok = b "=" ∨ r.tok = b "," ∨ r.tok = b "}") ∧ r.last ≠ b "," then keys ++ [r.last] else keys
      let r' := if r.tok = b "=" then r.next.bind fun r => r.skipTo fun t => t == b "," || t == b "}" else some r
      match r'.bind Rd.next with
      | none => none
      | some r => enumLoop n keys r

/-- `assign_enum_action`: classdesc.cc:250-288, from the token after `enum`: the name, and the enumerators
if it is a definition. -/
def enumAction (r : Rd) : Option (Str × Option (List Str) × Rd) := do
  let r ← if r.tok = b "class" then r.next else some r
  let name := r.tok
  let r ← r.next
  let r ← if r.tok = b ":" then r.skipTo (starts ";{") else some r
  if r.tok = b "{" then
    let x ← enumLoop (r.rest.length + 1) [] r
    return (name, some x.1, x.2)
  else return (name, none, r)

/-! ### Members -/

inductive Kind
  | data (ref : Bool)                  -- scalar member; is the token before its name `&`?
  | array (bounds : List (List Str))   -- with the tokens of each bound
  | func
  | bytes                -- unnamed union
  deriving DecidableEq, Repr

/-- An action: classdesc.cc:66-75.  `cs` says that it is for a static constant (classdesc.cc:332-338). -/
structure Act where
  name : Str
  kind : Kind
  static : Bool
  cs : Bool
  deriving DecidableEq, Repr

/-- Options -respect_private and -overload, and the name of the class, for telling constructors. -/
structure Opts where
  respect : Bool
  overload : Bool
  cls : Str

structure St where
  acts : List Act := []
  static : Bool := false       -- reg.is_static
  const : Bool := false        -- reg.is_const
  hidden : Bool := false       -- reg.is_private
  priv : Bool := false         -- is_private
  count : List Str := []       -- num_instances: one entry per instance
  usings : List Str := []
  tmpl : Bool := false         -- is_template
  enums : List (Bool × Str × Option (List Str)) := []   -- enumerations registered: `enum class`?, name, enumerators
  deriving DecidableEq, Repr

/-- `register_class`: classdesc.cc:328-345. -/
def St.register (s : St) (name : Str) (k : Kind) : St :=
  let s := if s.hidden = true then s
    else { s with acts := s.acts ++ [⟨name, k, s.static && !s.const, s.static && s.const⟩] }
  { s with static := false }

/-- How a turn of the loop ends. -/
inductive Turn
  | go (s : St) (r : Rd)
  | eof
  | other
  deriving DecidableEq, Repr

def Turn.of (s : St) : Option Rd → Turn
  | none => .eof
  | some r => .go s r

/-- The beginning of a member function or function pointer: its name, and the reader at the end of the
arguments (or at some closing parenthesis among them): classdesc.cc:653-680.  `tok` begins with `(`. -/
def fnHead (r : Rd) : Option (Str × Rd) :=
  if r.tok = b "()" then some (r.last, r)
  else do
    let name := r.last
    let r ← r.next
    let r ← if identStart r.tok = true then do
        let r ← r.next
        if r.tok = b "::" then r.next else some r
      else some r
    if r.tok = b "*" ∧ (r.last = b "(" ∨ r.last = b "::") then do
      let r ← r.next
      let name := r.tok
      let r ← gobble r (b "(") (b ")")
      let r ← r.skipTo fun t => t.head? == some 40
      let r ← gobble r (b "(") (b ")")
      some (name, r)
    else if r.tok ≠ b ")" then (gobble r (b "(") (b ")")).map fun r => (name, r)
    else some (name, r)

/-- Registration of a member function: classdesc.cc:694-770. -/
def St.function (s : St) (o : Opts) (name : Str) (dtor deleted : Bool) : St :=
  if identStart name = true then
    let s := { s with count := s.count ++ [name] }
    if (name ≠ o.cls ∨ dtor = true ∨ o.overload = true) ∧ dtor = false ∧ s.tmpl = false ∧ deleted = false ∧
        name ≠ b "CLASSDESC_ACCESS" ∧ name ≠ b "CLASSDESC_ACCESS_TEMPLATE" then s.register name .func
    else s
  else s

/-- Member functions and function pointers: classdesc.cc:651-774; `tok` begins with `(`.  The tokens looked
at for `delete` are those after the arguments up to the semicolon or brace. -/
def function (o : Opts) (s : St) (r : Rd) : Option (St × Rd) := do
  let dtor := r.bef == b "~"
  let x ← fnHead r
  let r' ← x.2.skipTo (starts ";{")
  let seen := x.2.rest.take (x.2.rest.length - r'.rest.length)
  let s := s.function o x.1 dtor (seen.contains (b "delete"))
  return ({ s with static := false, const := false, tmpl := false }, r')

/-- The bounds of an array: classdesc.cc:785-799; `tok` is `[`. -/
def dims : Nat → List (List Str) → Rd → Option (List (List Str) × Rd)
  | 0, _, _ => none
  | n + 1, k, r =>
    if r.tok = b "[" then do
      let r0 ← r.next
      let r1 ← r0.skipTo (· == b "]")
      let r ← r1.next
      dims n (k ++ [(r0.tok :: r0.rest).take (r0.rest.length - r1.rest.length)]) r
    else some (k, r)

/-- The parts of a turn from the array member on: classdesc.cc:777-820. -/
def tail2 (s : St) (r : Rd) : Turn :=
  match (if r.tok = b "[" then (dims (r.rest.length + 1) [] r).map fun x => (s.register r.last (.array x.1), x.2)
         else some (s, r)) with
  | none => .eof
  | some (s, r) =>
    match (if r.tok = b "{" then gobble r (b "{") (b "}") else some r) with
    | none => .eof
    | some r => Turn.of s (if r.tok = b "<" then gobble r (b "<") (b ">") else some r)

/-- From the scalar member on: classdesc.cc:604-774. -/
def tail1 (o : Opts) (s : St) (r : Rd) : Turn :=
  -- 605-623
  let x : Option (St × Rd) :=
    if starts "{;,:=" r.tok = true ∧ r.tok ≠ b "::" then
      let s := if identStart r.last = true then s.register r.last (.data (r.bef == b "&")) else s
      match (if r.tok.head? = some 123 then gobble r (b "{") (b "}") else some r) with
      | none => none
      | some r => (r.skipTo (starts ";,")).map fun r => (s, r)
    else some (s, r)
  match x with
  | none => .eof
  | some (s, r) =>
    -- 626-638
    let x : Option (St × Rd) :=
      if r.tok = b "operator" then do
        let r ← r.next
        let r ← if r.tok = b "()" then r.next else some r
        let r ← r.skipTo fun t => t.head? == some 40
        let r ← if r.tok = b "()" then r.next else gobble r (b "(") (b ")")
        let r ← r.skipTo (starts "{;")
        some ({ s with static := false }, r)
      else some (s, r)
    match x with
    | none => .eof
    | some (s, r) =>
      -- 641-642
      match (if r.tok = b "alignas" then r.next.bind fun r => gobble r (b "(") (b ")") else some r) with
      | none => .eof
      | some r =>
        -- 645-649
        let s := if r.tok = b "static" then { s with static := true } else s
        let s := if r.tok = b "const" then { s with const := true } else s
        match (if r.tok = b "friend" then r.skipTo (· == b ";") else some r) with
        | none => .eof
        | some r =>
          if r.tok.head? = some 40 then
            match function o s r with
            | none => .eof
            | some (s, r) => tail2 s r
          else tail2 s r

/-- The rest of a turn after the label, typedef and template parts: classdesc.cc:532-822. -/
def turn1 (o : Opts) (s : St) (r : Rd) : Turn :=
  if r.tok = b "using" then
    match r.skipTo (· == b ";") with
    | none => .eof
    | some r => .go { s with usings := s.usings ++ [r.last] } r
  else if r.tok = b "class" ∨ r.tok = b "struct" then .other
  else
    -- 578-588
    let x : Option (St × Rd) :=
      if r.tok = b "enum" then
        match r.next with
        | none => none
        | some r =>
          if s.priv = false ∧ identStart r.tok = true then
            (enumAction r).map fun x => ({ s with enums := s.enums ++ [(r.tok == b "class", x.1, x.2.1)] }, x.2.2)
          else (gobble r [] (b "}")).map fun r => (s, r)
      else some (s, r)
    match x with
    | none => .eof
    | some (s, r) =>
      -- 592-602
      if r.last = b "union" ∧ r.tok = b "{" then
        match (gobble r (b "{") (b "}")).bind fun r => r.skipTo (· == b ";") with
        | none => .eof
        | some r => .go (if identStart r.last = true then s.register r.last .bytes else s) r
      else tail1 o s r

/-- `get_template_args` at a token after `template`: the text and the reader behind it.  `Scan` keeps the last token
only, so the one before it is looked up in the input. -/
def templateArgs (r : Rd) : Option (Str × Rd) :=
  match Scan.getTemplateArgs ⟨r.last, r.tok, r.rest⟩ with
  | .eof => none
  | .done t i => some (t, ⟨(r.last :: r.tok :: r.rest).getD (r.rest.length - i.rest.length - 1) [], i.last, i.tok, i.rest⟩)

/-- `template` inside a class: classdesc.cc:520-531. -/
def template (r : Rd) : Option (Str × Rd) := r.next.bind templateArgs

/-- One turn of the loop over the members: classdesc.cc:489-822. -/
def turn (o : Opts) (s : St) (r : Rd) : Turn :=
  if r.tok = b "private" ∨ r.tok = b "protected" ∨ r.tok = b "public" then
    let p := decide (r.tok ≠ b "public")
    Turn.of { s with priv := p, hidden := o.respect && p } (gobble r [] (b ":"))
  else if r.tok = b "typedef" then .other
  else if r.tok = b "template" then
    match template r with
    | none => .eof
    | some (_, r) => turn1 o { s with tmpl := true } r
  else turn1 o s r

inductive Res
  | done (s : St) (r : Rd)
  | eof
  | other
  deriving DecidableEq, Repr

/-- The loop over the members, from the opening brace (or the end of the previous turn):
classdesc.cc:468-822. -/
def loop (o : Opts) : Nat → St → Rd → Res
  | 0, _, _ => .eof
  | n + 1, s, r =>
    match r.next with
    | none => .eof
    | some r =>
      if r.tok = b "}" then .done s r
      else
        match turn o s r with
        | .go s r => loop o n s r
        | .eof => .eof
        | .other => .other

/-- Overloaded member functions are dropped unless -overload: classdesc.cc:825-839. -/
def keep (o : Opts) (s : St) : List Act :=
  if o.overload = true then s.acts
  else s.acts.filter fun a => !s.usings.contains a.name && (s.count.count a.name == 0 || s.count.count a.name == 1)

/-- The actions for the members of a class whose body is these tokens, up to and with the closing brace. -/
def members (o : Opts) (isClass : Bool) (toks : List Str) : Option (List Act) :=
  match loop o (toks.length + 1) { hidden := o.respect && isClass, priv := isClass } ⟨[], [], b "{", toks⟩ with
  | .done s _ => some (keep o s)
  | _ => none

end Verif.Decl
