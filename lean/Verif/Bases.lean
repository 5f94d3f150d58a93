import Verif.Decl
import Verif.Scan
/-
The code generator reading the head of a class definition: the list of base classes (classdesc.cc:363-462), the
decision whether a `class` is a definition and gets a descriptor (classdesc.cc:996-1049), and the template
argument list made from a template parameter list (classdesc.cc:948-994).

Tokens are those `nexttok` delivers, texts are bytes.  The option -onbase and the table of virtual functions are left out.
-/
namespace Verif.Bases
open Verif.Tok (Str b)
open Verif.Decl (Rd starts)

/-! ### Base classes -/

/-- `isIdentifierStart`: classdesc.cc:39-40. -/
def idStart (c : UInt8) : Bool := c == 95 || (97 ≤ c && c ≤ 122) || (65 ≤ c && c ≤ 90)

/-- `isIdentifierChar`: classdesc.cc:43-44. -/
def idChar (c : UInt8) : Bool := idStart c || (48 ≤ c && c ≤ 57)

/-- `token_set`: classdesc.cc:235-248, as a list; each turn consumes a character. -/
def tokenSet : Nat → Str → List Str
  | 0, _ => []
  | n + 1, s =>
    match s.dropWhile (fun c => !idStart c) with
    | [] => []
    | c :: r => (c :: r.takeWhile idChar) :: tokenSet n (r.dropWhile idChar)

def tokens (s : Str) : List Str := tokenSet s.length s

/-- `string::find`, offset of the first occurrence. -/
def find (p : Str) : Str → Option Nat
  | [] => if p = [] then some 0 else none
  | c :: s => if p.isPrefixOf (c :: s) then some 0 else (find p s).map (· + 1)

/-- The search for the last `::` outside template arguments: classdesc.cc:414-432, on the text reversed, `prev` being
the character to the right.  Returns the number of characters before it. -/
def lastColons (angle : Int) (prev : UInt8) : Str → Option Nat
  | [] => none
  | c :: r =>
    if c = 62 then lastColons (angle + 1) c r
    else if c = 60 then lastColons (angle - 1) c r
    else if c = 58 ∧ angle = 0 ∧ prev = 58 then some r.length
    else lastColons angle c r

/-- classdesc.cc:401-443: is the keyword `typename` inserted? -/
def typenameNeeded (targs base : Str) : Bool :=
  match base.reverse with
  | [] => false
  | l :: r =>
    match lastColons (if l = 62 then 1 else 0) l r with
    | none => false
    | some k => ((tokens base).filter (tokens targs).contains).any fun t =>
        match find t base with
        | some i => i < k
        | none => true          -- npos cast to int is negative

/-- The action for a base class: classdesc.cc:445-452. -/
def action (targs base : Str) : Str :=
  b "classdesc::base_cast<" ++ (if typenameNeeded targs base = true then b "typename " else []) ++ base ++ b " >::cast(arg)"

/-- The loop over the template arguments of a base class: classdesc.cc:380-401. -/
def angleLoop (cnt : Int) (acc bef last tok : Str) : List Str → Option (Str × Rd)
  | [] =>
    if cnt = 0 ∧ (last = b ">" ∨ last = b ">>") then some (acc, ⟨bef, last, tok, []⟩) else none
  | t :: rest =>
    if cnt = 0 ∧ (last = b ">" ∨ last = b ">>") then some (acc, ⟨bef, last, tok, t :: rest⟩)
    else
      let acc := acc ++ tok ++ b " "
      let cnt1 := if tok = b "<" then cnt + 1 else if tok = b ">" then cnt - 1
        else if tok = b ">>" then (if cnt > 1 then cnt - 2 else cnt - 1) else cnt
      let acc := if (tok = b ">" ∨ tok = b ">>") ∧ cnt1 ≠ 0 then acc ++ b " " else acc
      angleLoop cnt1 acc last tok t rest

def isAccess (t : Str) : Bool := t == b ":" || t == b "private" || t == b "protected" || t == b "public"

/-- The loop over the base classes: classdesc.cc:364-462, until the token `{`; `none` is the end of the input.
Each turn consumes a token. -/
def baseLoop (respect isClass : Bool) (targs : Str) : Nat → Bool → Str → List Str → Rd → Option (List Str × Rd)
  | 0, _, _, _, _ => none
  | n + 1, priv, base, acts, r =>
    if r.tok = b "virtual" then r.next.bind (baseLoop respect isClass targs n priv base acts)
    else if isAccess r.tok = true then
      let p := (isClass && r.tok != b "public") || (!isClass && (r.tok == b "private" || r.tok == b "protected"))
      r.next.bind (baseLoop respect isClass targs n p base acts)
    else
      match (if r.tok = b "<" then angleLoop 0 base r.bef r.last r.tok r.rest else some (base, r)) with
      | none => none
      | some (base, r) =>
        let push := starts ",{" r.tok && base ≠ []
        let acts := if push && (!respect || !priv) then acts ++ [action targs base] else acts
        let priv := if push then isClass else priv
        let base := if push then [] else base ++ r.tok
        if r.tok = b "{" then some (acts, r)
        else r.next.bind (baseLoop respect isClass targs n priv base acts)

/-- The head of `parse_class`, called at the token after the class name. -/
def bases (respect isClass : Bool) (targs : Str) (r : Rd) : Option (List Str × Rd) :=
  baseLoop respect isClass targs (r.rest.length + 1) isClass [] [] r

/-! ### Template arguments from template parameters -/

/-- Skipping `<...>`: classdesc.cc:962-969, from behind the `<`; what is left begins behind the `>`.
`none`: the loop runs past the end of the string. -/
def skipAngle (cnt : Nat) : Str → Option Str
  | [] => none
  | c :: s =>
    let cnt := if c = 60 then cnt + 1 else if c = 62 then cnt - 1 else cnt
    if cnt = 0 then some s else skipAngle cnt s

/-- Skipping a default: classdesc.cc:973-976.  The character that ends it, and what follows.  `strchr` also finds the
terminating NUL, so at the end of the string the character is NUL, and the main loop then reads beyond it: `none`. -/
def skipDef (cnt : Int) : Str → Option (UInt8 × Str)
  | [] => none
  | c :: s =>
    if (c = 62 ∨ c = 44) ∧ cnt = 0 then some (c, s)
    else skipDef (if c = 60 then cnt + 1 else if c = 62 then cnt - 1 else cnt) s

/-- The loop of `extract_targs`: classdesc.cc:953-992.  `none`: it reads beyond the end of the string.  Each turn
consumes a character. -/
def targsLoop : Nat → Str → Str → Str → Str → Option Str
  | 0, _, _, _, r => some r
  | _ + 1, [], _, _, r => some r
  | n + 1, c :: s, tok, ell, r =>
    if idChar c = true then targsLoop n s (tok ++ [c]) ell r
    else
      match (c :: s).dropWhile Tok.isSpace with
      | [] => some r
      | d :: s' =>
        if d = 60 then (skipAngle 1 s').bind fun s' => targsLoop n s' [] ell r
        else if d = 61 then (skipDef 0 (d :: s')).bind fun x => targsLoop n x.2 [] [] (r ++ tok ++ ell ++ [x.1])
        else if d = 62 ∨ d = 44 then targsLoop n s' [] [] (r ++ tok ++ ell ++ [d])
        else if idChar d = true then targsLoop n (d :: s') [] ell r
        else if d = 46 then targsLoop n s' [] (ell ++ [d]) r
        else targsLoop n s' [] ell r

/-- `extract_targs`: classdesc.cc:948-994. -/
def extractTargs : Str → Option Str
  | [] => some []
  | _ :: s => targsLoop s.length s [] [] [60]

/-! ### Class definitions -/

/-- The test for a class nested in a template: classdesc.cc:1023-1043, the stack top first.  `none`: the stack is
empty when its top is asked for. -/
def nested : List Bool → Str → Option Bool
  | _, [] => some false
  | st, c :: s =>
    if c = 60 then
      match st with
      | [] => none
      | _ :: st => nested (false :: true :: st) s
    else if c = 62 then
      match st with
      | [] => none
      | _ :: st => nested st s
    else if c = 58 ∧ s.head? = some 58 then
      match st with
      | [] => none
      | true :: _ => some true
      | false :: st => nested (false :: st) s
    else nested st s

/-- What becomes of `class`/`struct` in the input. -/
structure Class where
  name : Str
  defined : Bool            -- type_defined.defined or .declared
  bases : List Str
  described : Bool          -- an action for the class is registered
  deriving DecidableEq, Repr

/-- Reading `::X::Y` after the class name: classdesc.cc:1008-1012. -/
def qualify : Nat → Str → Rd → Option (Str × Rd)
  | 0, _, _ => none
  | n + 1, name, r =>
    if r.tok = b "::" then do
      let r ← r.next
      let r' ← r.next
      qualify n (name ++ b "::" ++ r.tok) r'
    else some (name, r)

/-- Does `s` contain the character? -/
def has (c : UInt8) (s : Str) : Bool := s.contains c

/-- `assign_class_action`: classdesc.cc:996-1049, up to the members: `r` is at the class name and `r.last` is `class` or
`struct`.  `classargs` is the text of the enclosing `template<...>`, or empty.  The reader returned is at the `{`, or
behind the declaration. -/
def classHead (respect : Bool) (pre targs classargs : Str) (priv : Bool) (r : Rd) : Option (Class × Rd) := do
  let isClass := r.last = b "class"
  let name := pre ++ r.tok
  let r ← r.next
  let x ← (if r.tok = b "<" then
      match Scan.getTemplateArgs ⟨r.last, r.tok, r.rest⟩ with
      | .eof => none
      | .done t i => some (name ++ t, (⟨r.tok, i.last, i.tok, i.rest⟩ : Rd))
    else (extractTargs classargs).map fun t => (name ++ t, r))
  let x ← qualify (x.2.rest.length + 1) x.1 x.2
  if starts ":{" x.2.tok = true then
    let y ← bases respect isClass targs x.2
    if priv = false ∧ has 60 pre = false then
      let ne ← nested [false] x.1
      return (⟨x.1, true, y.1, !ne⟩, y.2)
    else return (⟨x.1, true, y.1, false⟩, y.2)
  else return (⟨x.1, false, [], false⟩, x.2)

end Verif.Bases
