/-
The character level of the code generator's scanner: tokeninput.h:24-235.

A text is a list of bytes.  `fgetc` delivers them; `isspace` and `isalnum` are those of the C locale.
-/
namespace Verif.Tok

abbrev Str := List UInt8

/-- ASCII text as bytes. -/
def b (s : String) : Str := s.toList.map fun c => UInt8.ofNat c.toNat

/-! ### Characters: `getnextc` -/

/-- What happens when the characters are used up: `getnextc` throws `eof`; or a last character is
delivered with the end of file flag of the stream already set; or `getnextc` never returns. -/
inductive End
  | throw
  | flag
  | loop
  deriving DecidableEq, Repr

/-- Skipping an attribute: tokeninput.h:51-52, after `[[`.  `none` when there is no `]]`: the loop does
not look for the end of the file. -/
def attrEnd (lc : UInt8) : Str → Option Str
  | [] => none
  | x :: r => if x = 93 ∧ lc = 93 then some r else attrEnd x r

/-- The characters successive calls of `getnextc` set `c` to (tokeninput.h:29-62), each with what the
call writes to the output stream.  A character that comes with the end of file flag set is left out, and
so is what follows: it can end a token, but not be part of one (`nexttok` tests the flag).  The first
argument bounds the number of calls. -/
def feed : Nat → Str → List (UInt8 × Str) × End
  | 0, _ => ([], .throw)
  | _ + 1, [] => ([], .throw)
  | n + 1, c :: r =>
    if c = 92 then
      match r with
      | [] => ([], .flag)
      | x :: r' =>
        if x = 10 then
          match r' with
          | [] => ([], .flag)
          | y :: r'' => let f := feed n r''; ((y, [92, 10, y]) :: f.1, f.2)
        else let f := feed n r; ((c, [c]) :: f.1, f.2)
    else if c = 91 then
      match r with
      | [] => ([], .flag)
      | x :: r' =>
        if x = 91 then
          match attrEnd 91 r' with
          | none => ([], .loop)
          | some s =>
            match feed n s with
            | ((y, o) :: f, e) => ((y, o ++ [y]) :: f, e)
            | ([], e) => ([], e)
        else let f := feed n r; ((c, [c]) :: f.1, f.2)
    else let f := feed n r; ((c, [c]) :: f.1, f.2)

/-- The characters of a text. -/
def chars (s : Str) : Str × End := ((feed s.length s).1.map (·.1), (feed s.length s).2)

/-- What has been copied to the output stream when the whole text has been read. -/
def echo (s : Str) : Str := ((feed s.length s).1.map (·.2)).flatten

/-! ### Tokens: `nexttok` -/

def isSpace (c : UInt8) : Bool := c == 32 || (9 ≤ c && c ≤ 13)
/-- `isalnum(c) || c=='_'`. -/
def isWord (c : UInt8) : Bool :=
  (48 ≤ c && c ≤ 57) || (65 ≤ c && c ≤ 90) || (97 ≤ c && c ≤ 122) || c == 95

/-- `strchr("#\\!@$~(){}[]:;,.?",lc)`, non-null for the terminating zero too: tokeninput.h:132. -/
def noAssign (c : UInt8) : Bool := c == 0 || (b "#\\!@$~(){}[]:;,.?").contains c
/-- `strchr("#\\!@$~(){}[]:;,.?%*|-+=<>^&/",c)`: tokeninput.h:124. -/
def isOp (c : UInt8) : Bool := c == 0 || (b "#\\!@$~(){}[]:;,.?%*|-+=<>^&/").contains c

/-- Outcome of `nexttok`, with the characters left, the first of which is `c`. -/
inductive Next
  | tok (t : Str) (r : Str)
  | eof
  | loop
  deriving DecidableEq, Repr

/-- Nothing more can be read. -/
def fin : End → Next
  | .loop => .loop
  | _ => .eof

/-- The token `t` is complete after one more `getnextc`, which arrives at `r`. -/
def give (e : End) (t r : Str) : Next :=
  match r with
  | [] => if e = .flag then .tok t [] else fin e
  | _ :: _ => .tok t r

/-- The loop over a comment, at `c` with the previous character `lc`; the result begins at the closing
slash.  tokeninput.h:203-208; the loop of 104 is the same. -/
def block (lc : UInt8) : Str → Option Str
  | [] => none
  | c :: r => if lc = 42 ∧ c = 47 then some (c :: r) else block c r

/-- From `*` on: `lc=getnextc()` and the loop (there `lc` and `c` are equal at first), then past the slash. -/
def comment : Str → Option Str
  | _ :: c :: r => (block c (c :: r)).map (List.drop 1)
  | _ => none

/-- A line beginning with `#`, from `c` on: tokeninput.h:99-107.  Result: its text and what is left,
starting with the new line; `none` if the characters run out before, which throws or loops, except at the
end of file flag. -/
def control (e : End) : Nat → Str → Str → Option (Str × Str)
  | 0, _, _ => none
  | n + 1, acc, l =>
    match l with
    | [] => if e = .flag then some (acc, []) else none
    | c :: r =>
      if c = 10 then some (acc, l)
      else
        let acc := if c ≠ 13 then acc ++ [c] else acc
        if c = 47 then
          match r with
          | [] => none
          | x :: r' =>
            if x = 42 then
              match comment r with
              | none => none
              | some r'' => control e n acc r''
            else control e n acc r'
        else control e n acc r

/-- Strings and character constants: tokeninput.h:117-125; `c` is to be added. -/
def quoted (e : End) (q : UInt8) : Bool → Str → Str → Next
  | _, _, [] => fin e
  | esc, acc, c :: r =>
    let esc := c == 92 && !esc
    match r with
    | [] => fin e
    | x :: r' => if x ≠ q ∨ esc = true then quoted e q esc (acc ++ [c]) (x :: r') else give e (acc ++ [c, x]) r'

/-- Operators other than comments: tokeninput.h:131-198; `r` is what follows the first character `lc`. -/
def oper (e : End) (lc : UInt8) (r : Str) : Next :=
  match r with
  | [] => give e [lc] []
  | c :: r1 =>
    if c = 61 ∧ noAssign lc = false then give e [lc, c] r1
    else if (b "<>|&+-:").contains lc then
      if c = lc then
        match r1 with
        | [] => give e [lc, c] []
        | d :: r2 => if (lc = 60 ∨ lc = 62) ∧ d = 61 then give e [lc, c, d] r2 else .tok [lc, c] r1
      else if lc = 45 ∧ c = 62 then
        match r1 with
        | [] => give e [lc, c] []
        | d :: r2 => if d = 42 then give e [lc, c, d] r2 else .tok [lc, c] r1
      else .tok [lc] r
    else if lc = 46 then
      if c = 46 then
        match r1 with
        | [] => give e [lc, c] []
        | d :: r2 => if d = 46 then give e [lc, c, d] r2 else .tok [lc, c] r1
      else .tok [lc] r
    else if lc = 91 then if c = 93 then give e [lc, c] r1 else .tok [lc] r
    else if lc = 40 then if c = 41 then give e [lc, c] r1 else .tok [lc] r
    else .tok [lc] r

/-- `nexttok`, the characters not read yet beginning with the current one: tokeninput.h:80-235.  The
first argument bounds the number of turns, which all consume a character. -/
def nexttok (e : End) : Nat → Str → Next
  | 0, _ => fin e
  | n + 1, l =>
    match l.dropWhile isSpace with
    | [] => fin e
    | c :: r =>
      if c = 35 then
        match control e (r.length + 2) [] (c :: r) with
        | none => fin e
        | some (t, l') => if b "#pragma" <+: t then .tok t l' else nexttok e n l'
      else if c = 34 ∨ c = 39 then quoted e c false [] (c :: r)
      else if isOp c = true then
        if c = 47 ∧ r.head? = some 42 then
          match comment r with
          | none => fin e
          | some l' => nexttok e n l'
        else if c = 47 ∧ r.head? = some 47 then nexttok e n (r.dropWhile (· != 10))
        else oper e c r
      else if isWord c = true then
        give e ((c :: r).takeWhile isWord) ((c :: r).dropWhile isWord)
      else nexttok e n r

/-- All tokens until `eof` is thrown; `false` if that does not happen. -/
def lexAll (e : End) : Nat → Str → List Str × Bool
  | 0, _ => ([], true)
  | n + 1, l =>
    match nexttok e (l.length + 1) l with
    | .tok t r => let x := lexAll e n r; (t :: x.1, x.2)
    | .eof => ([], true)
    | .loop => ([], false)

/-- The tokens of a text. -/
def tokens (s : Str) : List Str × Bool :=
  lexAll (chars s).2 ((chars s).1.length + 1) (chars s).1

end Verif.Tok
