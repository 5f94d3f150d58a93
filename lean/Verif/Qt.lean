import Verif.Decl
/-
The option -qt of the code generator: classdesc.cc:468-487, around the loop over the members of `Decl.lean`.
-/
namespace Verif.Qt
open Verif.Tok (Str b)
open Verif.Decl

/-- The words looked for. -/
def words : List Str := [b "Q_OBJECT", b "Q_PROPERTY", b "Q_ENUMS", b "Q_CLASSINFO", b "signals", b "slots"]

/-- One turn of the loop with -qt: classdesc.cc:471-487, and 489-822 for any other word. -/
def turn (o : Opts) (s : St) (r : Rd) : Turn :=
  if r.tok = b "Q_OBJECT" then .go s r
  else if r.tok = b "Q_PROPERTY" ∨ r.tok = b "Q_ENUMS" ∨ r.tok = b "Q_CLASSINFO" then
    Turn.of s (r.next.bind fun r => gobble r (b "(") (b ")"))
  else if r.tok = b "signals" ∨ r.tok = b "slots" then
    let p := decide (r.tok = b "signals")
    Turn.of { s with priv := p, hidden := p } (gobble r [] (b ":"))
  else Decl.turn o s r

/-- The loop over the members: classdesc.cc:468-822. -/
def loop (o : Opts) : Nat → St → Rd → Res
  | 0, _, _ => .eof
  | n + 1, s, r =>
    match r.next with
    | none => .eof
    | some r =>
      if r.tok = b "}" then .done s r
      else
        match turn o s r with
        | .go s r => loop o n s r
        | .eof => .eof
        | .other => .other

/-- What is known at the end of a class whose body is these tokens, up to and with the closing brace. -/
def body (o : Opts) (isClass : Bool) (toks : List Str) : Option St :=
  match loop o (toks.length + 1) { hidden := o.respect && isClass, priv := isClass } ⟨[], [], b "{", toks⟩ with
  | .done s _ => some s
  | _ => none

/-- The actions for its members: classdesc.cc:825-839. -/
def members (o : Opts) (isClass : Bool) (toks : List Str) : Option (List Act) := (body o isClass toks).map (keep o)

/-- The enumerations registered for it: classdesc.cc:578-588. -/
def enums (o : Opts) (isClass : Bool) (toks : List Str) : Option (List (Bool × Str × Option (List Str))) :=
  (body o isClass toks).map St.enums

end Verif.Qt
