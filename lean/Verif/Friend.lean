import Verif.Decl
/-
insert-friend.cc: the lines inserted into a header, and where.

The program reads tokens; whatever character the scanner reads is copied to the output at once, so a line is
printed behind the character after the current token.  `targ_map` is always empty (the option that filled it is commented
out).  A position is given by the number of tokens not yet read.
-/
namespace Verif.Friend
open Verif.Tok Verif.Decl

/-- Skipping `<...>`: insert-friend.cc:42-49.  `none`: the loop runs past the end of the string. -/
def skipAngle (cnt : Nat) : Str → Option Str
  | [] => none
  | c :: s =>
    let cnt := if c = 60 then cnt + 1 else if c = 62 then cnt - 1 else cnt
    if cnt = 0 then some s else skipAngle cnt s

/-- Skipping a default: insert-friend.cc:51-56.  `none`: at the end of the string the main loop reads on beyond it. -/
def skipDef (cnt : Int) : Str → Option (UInt8 × Str)
  | [] => none
  | c :: s =>
    if (c = 62 ∨ c = 44) ∧ cnt = 0 then some (c, s)
    else skipDef (if c = 60 then cnt + 1 else if c = 62 then cnt - 1 else cnt) s

/-- The loop of `extract_targs`: insert-friend.cc:35-65.  `none`: it reads beyond the end of the string; where only spaces are
left `strchr(">,",0)` is not null, and the loop steps over the terminating zero. -/
def targsLoop : Nat → Str → Str → Str → Option Str
  | 0, _, _, r => some r
  | _ + 1, [], _, r => some r
  | n + 1, c :: s, tok, r =>
    if isWord c = true then targsLoop n s (tok ++ [c]) r
    else
      match (c :: s).dropWhile isSpace with
      | [] => none
      | d :: s' =>
        if d = 60 then (skipAngle 1 s').bind fun s' => targsLoop n s' [] r
        else if d = 61 then (skipDef 0 (d :: s')).bind fun x => targsLoop n x.2 [] (r ++ tok ++ [x.1])
        else if d = 62 ∨ d = 44 then targsLoop n s' [] (r ++ tok ++ [d])
        else if isWord d = true then targsLoop n (d :: s') [] r
        else targsLoop n s' [] r

/-- `extract_targs`: insert-friend.cc:29-66. -/
def extractTargs : Str → Option Str
  | [] => some []
  | _ :: s => targsLoop s.length s [] [60]

/-- `deal_with_commas`: insert-friend.cc:68-78.  What it prints, the new name and the new value of `cnt`. -/
def dealCommas (cnt : Nat) (name : Str) : Str × Str × Nat :=
  if name.contains 44 then
    let n := b (toString cnt)
    let t := b "___ecotif" ++ n ++ List.replicate (10 - n.length) 32
    (b "typedef " ++ name ++ b " " ++ t ++ b ";\n", t, cnt + 1)
  else ([], name, cnt)

/-- What is printed, with the number of tokens left when it is. -/
abbrev Out := List (Nat × Str)

/-- How a part of the program ends: it goes on, `eof` is thrown, or the behaviour is undefined. -/
inductive Res
  | done (cnt : Nat) (out : Out) (r : Rd)
  | stop (out : Out)
  | ub

/-- The body of a struct: insert-friend.cc:95-110.  Was a label `private` or `protected` found? -/
def scan (braces : Int) (bef last : Str) : List Str → Option (Bool × Rd)
  | [] => none
  | t :: rest =>
    if t = b "}" ∧ ¬ braces > 0 then some (false, ⟨bef, last, t, rest⟩)
    else
      let braces := if t = b "{" then braces + 1 else braces
      let braces := if t = b "}" then braces - 1 else braces
      if t = b ":" ∧ (last = b "protected" ∨ last = b "private") then some (true, ⟨bef, last, t, rest⟩)
      else scan braces last t rest

/-- `insert_friend`: insert-friend.cc:80-131, at the name of the class. -/
def insertFriend (targs : Str) (isStruct : Bool) (cnt : Nat) (out : Out) (r : Rd) : Res :=
  let name := r.tok
  match r.next with
  | none => .stop out
  | some r =>
    match (if r.tok = b "<" then (templateArgs r).map fun x => (name ++ x.1, x.2) else some (name, r)) with
    | none => .stop out
    | some (name, r) =>
      if starts ":{" r.tok = true then
        match r.skipTo (· == b "{") with
        | none => .stop out
        | some r =>
          match (if isStruct = true then scan 0 r.last r.tok r.rest else some (true, r)) with
          | none => .stop out
          | some (false, r) => .done cnt out r
          | some (true, r) =>
            let (typedefs, name, cnt) := dealCommas cnt name
            let out := out ++ [(r.rest.length, b "\n" ++ typedefs ++
              (if targs = [] then b "CLASSDESC_ACCESS(" else b "CLASSDESC_ACCESS_TEMPLATE(") ++ name ++ b ");\n")]
            if targs = [] then .done cnt out r
            else
              match (if r.tok = b "}" then some r else gobble r (b "{") (b "}")) with
              | none => .stop out
              | some r =>
                let out := out ++ [(r.rest.length, b "\n#define CLASSDESC_TDEC template" ++ targs ++ b "\n")]
                match (if name.contains 60 then some name else (extractTargs targs).map (name ++ ·)) with
                | none => .ub
                | some name =>
                  let (typedefs, name, cnt) := dealCommas cnt name
                  .done cnt (out ++ [(r.rest.length, typedefs ++ b "CLASSDESC_FDEF(" ++ name ++ b ");\n")]) r
      else .done cnt out r

/-- To the end of an explicit instantiation: insert-friend.cc:164-170. -/
def skipInst (braces : Int) (bef last tok : Str) : List Str → Option Rd
  | [] => if tok = b ";" ∧ ¬ braces > 0 then some ⟨bef, last, tok, []⟩ else none
  | t :: rest =>
    if tok = b ";" ∧ ¬ braces > 0 then some ⟨bef, last, tok, t :: rest⟩
    else
      let braces := if tok = b "{" then braces + 1 else braces
      let braces := if tok = b "}" then braces - 1 else braces
      skipInst braces last tok t rest

/-- `isalpha(token[0])`: insert-friend.cc:188. -/
def alphaStart (t : Str) : Bool :=
  match t with
  | [] => false
  | c :: _ => (97 ≤ c && c ≤ 122) || (65 ≤ c && c ≤ 90)

/-- Class definitions in the main loop: insert-friend.cc:180-192. -/
def onClass (targs : Str) (cnt : Nat) (out : Out) (r : Rd) : Res :=
  if (r.tok = b "class" ∨ r.tok = b "struct") ∧ r.last ≠ b "friend" then
    match r.next with
    | none => .stop out
    | some r => if alphaStart r.tok = true then insertFriend targs (r.last == b "struct") cnt out r else .done cnt out r
  else .done cnt out r

/-- The main loop: insert-friend.cc:156-195.  Every turn consumes a token.  `none`: the behaviour is undefined. -/
def loop : Nat → Nat → Out → Rd → Option Out
  | 0, _, out, _ => some out
  | n + 1, cnt, out, r =>
    let turn (targs : Str) (r : Rd) : Option Out :=
      match onClass targs cnt out r with
      | .stop out => some out
      | .ub => none
      | .done cnt out r =>
        match r.next with
        | none => some out
        | some r => loop n cnt out r
    if r.tok = b "template" then
      match r.next with
      | none => some out
      | some r =>
        if r.tok ≠ b "<" then
          match skipInst 0 r.bef r.last r.tok r.rest with
          | none => some out
          | some r => loop n cnt out r
        else
          match templateArgs r with
          | none => some out
          | some (targs, r) =>
            if r.tok ≠ b "class" ∧ r.tok ≠ b "struct" then loop n cnt out r
            else turn targs r
    else turn [] r

/-- The lines printed for a file with these tokens. -/
def lines (toks : List Str) : Option Out := loop (toks.length + 2) 0 [] ⟨[], [], [], toks⟩

/-! ### The text of the output -/

/-- The number of characters left, the current one included, when each token has been read. -/
def marks (e : End) : Nat → Str → List Nat
  | 0, _ => []
  | n + 1, l =>
    match nexttok e (l.length + 1) l with
    | .tok _ r => r.length :: marks e n r
    | .eof => []
    | .loop => []

/-- The texts `es` one after another; each line comes when so many of them have been written. -/
def splice (lines : Out) : Nat → List Str → Str
  | i, [] => (lines.filter (·.1 == i)).flatMap (·.2)
  | i, e :: es => (lines.filter (·.1 == i)).flatMap (·.2) ++ e ++ splice lines (i + 1) es

/-- The output for a file: `none` if the behaviour is undefined or the program does not end. -/
def run (s : Str) : Option Str :=
  let es := (feed s.length s).1
  let cs := chars s
  let ms := marks cs.2 (cs.1.length + 1) cs.1
  if (tokens s).2 = true then
    (lines (tokens s).1).map fun out =>
      -- the character after the token has been read and written
      splice (out.map fun x => let m := ms.getD (ms.length - 1 - x.1) 0; (es.length - (m - 1), x.2)) 0 (es.map (·.2))
  else none

end Verif.Friend
