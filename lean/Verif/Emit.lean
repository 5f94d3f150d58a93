import Verif.TopLevel
/-
The descriptors written for the types registered: which are written, their guards, and the type each is for.
classdesc.cc:1053-1118, 1471-1570.
-/
namespace Verif.Emit
open Verif.Tok (Str b)
open Verif.Top (Reg)

/-- `leadeq`: classdesc.cc:1052-1053. -/
def lead (x y : Str) : Bool := y.isPrefixOf x

/-- `rm_space`: classdesc.cc:1055-1059. -/
def rmSpace (x : Str) : Str := x.filter (· != 32)

/-- `type_qualifier`: classdesc.cc:1096-1104. -/
def qualifier (t : Str) : Str :=
  if lead t (b "class") = true then b "class"
  else if lead t (b "struct") = true then b "struct"
  else if lead t (b "enum class") = true then b "enum class"
  else if lead t (b "enum") = true then b "enum"
  else if lead t (b "typename") = true then b "typename"
  else []

/-- `without_type_qualifier`: classdesc.cc:1106-1117. -/
def bareType (t : Str) : Str :=
  let r := t.drop (qualifier t).length
  if r.head? = some 32 then r.tail else r

/-- `isalnum`, for characters below 128. -/
def alnum (c : UInt8) : Bool := (97 ≤ c && c ≤ 122) || (65 ≤ c && c ≤ 90) || (48 ≤ c && c ≤ 57)

/-- `GuardMacro`: classdesc.cc:1081-1094, for the macro of 1505. -/
def guard (action n : Str) : Str := (b "CLASSDESC_" ++ action ++ [95] ++ n).map fun c => if alnum c = true then c else 95

/-- The name compared with those of pragmas: classdesc.cc:1508-1531; `j` is the position, `nangle` the depth (unsigned). -/
def plainName : Nat → Nat → Bool → Str → Str
  | _, _, _, [] => []
  | j, nangle, space, c :: r =>
    if j < 2 ∧ c = 58 then plainName (j + 1) nangle space r
    else
      let nangle := if c = 60 then nangle + 1 else nangle
      let nangle' := if c = 62 then (if nangle = 0 then 4294967295 else nangle - 1) else nangle
      if nangle = 0 then
        if c = 32 then plainName (j + 1) nangle' true r
        else (if space = true then [32, c] else [c]) ++ plainName (j + 1) nangle' false r
      else plainName (j + 1) nangle' space r

/-- The argument of the pragmas beginning with `pre`, without spaces: classdesc.cc:1254-1264.  The space behind `pre` is
counted without being looked for; `none`: an exception that ends the program. -/
def pragmas (pre : Str) : List Str → Option (List Str)
  | [] => some []
  | t :: r =>
    if lead t pre = true then
      if t.length < pre.length + 1 then none else (pragmas pre r).map (rmSpace (t.drop (pre.length + 1)) :: ·)
    else pragmas pre r

/-- White space of a `scanf` format. -/
def skipWhite : Str → Str
  | [] => []
  | c :: r => if c = 32 ∨ (9 ≤ c ∧ c ≤ 13) then skipWhite r else c :: r

/-- Literal characters of a `scanf` format: `none` at the end of the file, otherwise whether all matched, and what is left. -/
def literal : Str → Str → Option (Bool × Str)
  | [], s => some (true, s)
  | _ :: _, [] => none
  | p :: ps, c :: s => if c = p then literal ps s else some (false, c :: s)

/-- `fscanf(basef,"#pragma omit %1023[^\n]",tname)`: classdesc.cc:1487. -/
def scanf (s : Str) : Option (Option Str × Str) :=
  match literal (b "#pragma") s with
  | none => none
  | some (false, s) => some (none, s)
  | some (true, s) =>
    match literal (b "omit") (skipWhite s) with
    | none => none
    | some (false, s) => some (none, s)
    | some (true, s) =>
      match skipWhite s with
      | [] => none
      | s => some (some ((s.takeWhile (· != 10)).take 1023), s.drop ((s.takeWhile (· != 10)).take 1023).length)

/-- To the end of the line: classdesc.cc:1493-1494. -/
def nextLine : Str → Str
  | [] => []
  | c :: r => if c = 10 then r else nextLine r

/-- The pragmas of a file of the descriptor: classdesc.cc:1485-1498. -/
def baseFile : Nat → Str → List Str
  | 0, _ => []
  | n + 1, s =>
    match scanf s with
    | none => []
    | some (some t, s) => rmSpace t :: baseFile n s
    | some (none, s) => baseFile n (nextLine s)

/-- A descriptor: the action, the template parameters, the type it is for, and what is done to that. -/
structure Desc where
  action : Str
  templ : Str
  target : Str
  tree : Bool
  graph : Bool
  reg : Reg
  deriving DecidableEq, Repr

def type : Reg → Str
  | .cls t _ _ _ _ => t
  | .enum t _ _ => t

def templ : Reg → Str
  | .cls _ _ t _ _ => t
  | .enum _ _ _ => []

/-- The type argument of a descriptor: classdesc.cc:1557-1562. -/
def target (t : Str) : Str := (if qualifier t = b "enum class" then b "enum" else qualifier t) ++ [32] ++ bareType t

/-- What is written for a type, without `-workdir`: classdesc.cc:1500-1632.  The guard is written even if the descriptor
is not. -/
def item (om tree graph : List Str) (action : Str) (r : Reg) : Str × Option Desc :=
  let n := bareType (type r)
  let n1 := plainName 0 0 false n
  (guard action n,
    if om.contains (action ++ n1) = true then none
    else some ⟨action, templ r, target (type r), tree.contains n1, graph.contains n1, r⟩)

/-- The preprocessor: what is left of guarded descriptors. -/
def seen (defined : List Str) : List (Str × Option Desc) → List Desc
  | [] => []
  | (g, d) :: l => if g ∈ defined then seen defined l else d.toList ++ seen (g :: defined) l

/-- The output of a run: classdesc.cc:1474-1632.  An action comes with the contents of its file `_base.h`, empty if there is
none; pragmas found there stay in force for the actions after it. -/
def run (om tree graph : List Str) (regs : List Reg) : List (Str × Str) → List (Str × Option Desc)
  | [] => []
  | (a, f) :: l => regs.map (item (om ++ baseFile (f.length + 1) f) tree graph a) ++ run (om ++ baseFile (f.length + 1) f) tree graph regs l

end Verif.Emit
