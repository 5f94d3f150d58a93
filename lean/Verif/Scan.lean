/-
Text handling of the code generator: `replaceShornTypes` and `trimWS` (classdesc.cc:53-62,
296-315), bracket skipping `gobble_delimited` and `get_template_args` (tokeninput.h:275-320).

The bracket skippers are modelled on the sequence of tokens `nexttok` delivers
(tokeninput.h:80-235, not modelled here); `nexttok` throws `eof` when no token is left.
-/
namespace Verif.Scan

abbrev Str := List UInt8

/-! ### replaceShornTypes -/

/-- `std::string::find(s)`: offset of the first occurrence. -/
def findIn (s : Str) : Str → Option Nat
  | [] => if s = [] then some 0 else none
  | c :: r => if s.isPrefixOf (c :: r) then some 0 else (findIn s r).map (· + 1)

/-- `std::string::find(s,i)`. -/
def findFrom (s t : Str) (i : Nat) : Option Nat :=
  if i ≤ t.length then (findIn s (t.drop i)).map (· + i) else none

/-- `std::isspace` in the C locale. -/
def isSpace (c : UInt8) : Bool := c == 32 || (9 ≤ c && c ≤ 13)

/-- classdesc.cc:305-310: is the next non white space character of the text a `<`? -/
def templateFollows (t : Str) : Bool := (t.dropWhile isSpace).head? == some 60

/-- The loop of `replaceShornTypes`: classdesc.cc:299-313.  `j = none` is npos.
`input.substr(i,j)` takes up to `j` characters from `i` on (all of them for npos).
The fuel bounds the number of turns; `none` means it was exceeded. -/
def replaceLoop (input shorn full : Str) : Nat → Nat → Option Nat → Str → Option Str
  | 0, _, _, _ => none
  | fuel + 1, i, j, r =>
    match j with
    | none => some (r ++ input.drop i)
    | some j =>
      let r := r ++ (input.drop i).take j
      let j := j + shorn.length
      let r := r ++ (if templateFollows (input.drop j) then shorn else full)
      replaceLoop input shorn full fuel j (findFrom shorn input j) r

/-- `replaceShornTypes(input, shornType, fullType)`: classdesc.cc:296-315. -/
def replaceShornTypes (input shorn full : Str) : Option Str :=
  replaceLoop input shorn full (input.length + 2) 0 (findFrom shorn input 0) []

/-- `trimWS(s)`: classdesc.cc:53-62.  `start` and `end` are `int`s; the indices are kept as
integers. -/
def trimWS (s : Str) : Str :=
  let start := (s.takeWhile isSpace).length
  let stop : Int := (s.length : Int) - 1 - ((s.reverse.takeWhile isSpace).length : Int)
  if stop ≥ (start : Int) then (s.drop start).take (stop - start + 1).toNat else []

/-! ### bracket skipping -/

/-- The token reader: current and previous token, and those still to come. -/
structure Reader where
  last : Str
  tok : Str
  rest : List Str
  deriving DecidableEq, Repr

/-- Result of a scanning function: it returns text and the reader, or `nexttok` throws eof. -/
inductive Scanned
  | done (text : Str) (r : Reader)
  | eof
  deriving DecidableEq, Repr

def sp : Str := [32]
def shiftTok : Str := [62, 62]
def lessTok : Str := [60]
def dotTok : Str := [46]

/-- The loop of `gobble_delimited`: tokeninput.h:282-293, entered before the `nexttok` of the
for statement. -/
def gobbleLoop (left right : Str) (last : Str) (acc : Str) (cnt : Int) : List Str → Scanned
  | [] => .eof
  | t :: r =>
    if t = right ∧ ¬ cnt > 0 then .done acc ⟨last, t, r⟩
    else
      let acc := acc ++ t ++ sp
      let cnt := if t = left then cnt + 1 else cnt
      let cnt := if t = right then cnt - 1 else cnt
      if t = shiftTok ∧ left = lessTok then
        let cnt := cnt - 2
        if cnt ≤ 0 then .done acc ⟨last, t, r⟩
        else gobbleLoop left right t acc cnt r
      else gobbleLoop left right t acc cnt r

/-- `gobble_delimited(input,left,right)`: tokeninput.h:275-295. -/
def gobble (i : Reader) (left right : Str) : Scanned :=
  let acc := i.last ++ sp ++ i.tok ++ sp
  if i.tok = left ++ right then .done acc i
  else gobbleLoop left right i.tok acc 0 i.rest

/-- `strchr(">,",token[0])`: also non-null when the token is empty. -/
def endsDefault (t : Str) : Bool := t.head? == some 62 || t.head? == some 44 || t.head? == none

/-- Skipping a default argument: tokeninput.h:305-311.  Leaves the reader at the token
starting with `>` or `,`. -/
def skipDefault : Nat → Reader → Scanned
  | 0, _ => .eof
  | fuel + 1, i =>
    if endsDefault i.tok then .done [] i
    else
      let g := if i.tok.head? = some 60 then gobble i [60] [62] else .done [] i
      match g with
      | .eof => .eof
      | .done _ i =>
        match i.rest with
        | [] => .eof
        | t :: r => skipDefault fuel ⟨i.tok, t, r⟩

def W : Nat := 18446744073709551616

/-- The effect of one token on `angle_count`, a size_t: tokeninput.h:314-316. -/
def angle (cnt : Nat) (t : Str) : Nat :=
  if t.head? = some 60 then (cnt + t.length) % W
  else if t.head? = some 62 then (cnt + (W - t.length % W)) % W
  else cnt

/-- The do loop of `get_template_args`: tokeninput.h:302-319. -/
def templateLoop : Nat → Reader → Nat → Str → Scanned
  | 0, _, _, _ => .eof
  | fuel + 1, i, cnt, targs =>
    let s := if i.tok.head? = some 61 then skipDefault (i.rest.length + 1) i else .done [] i
    match s with
    | .eof => .eof
    | .done _ i =>
      let targs := targs ++ i.tok ++ (if i.tok = dotTok then [] else sp)
      let cnt := angle cnt i.tok
      match i.rest with
      | [] => .eof
      | t :: r =>
        if cnt > 0 then templateLoop fuel ⟨i.tok, t, r⟩ cnt targs
        else .done targs ⟨i.tok, t, r⟩

/-- `get_template_args(input)`: tokeninput.h:298-320.  Each turn consumes a token, so the
number of tokens bounds the number of turns. -/
def getTemplateArgs (i : Reader) : Scanned := templateLoop (i.rest.length + 1) i 0 []

end Verif.Scan
