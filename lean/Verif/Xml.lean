import Verif.Json
/-
XML serialisation: xml_pack_base.h:30-260, xml_pack_epilogue.h:130-290, xml_common.h:13-28,
polyAccessXMLPack.h:15-143, polyXMLBase.h:18-36, xml_unpack_base.h:40-620.

A document is a list of bytes.  The signedness of `char` is a parameter (`sgn`).  An exception is
`none`.  `std::isspace`, `isgraph` are those of the C locale; output goes to a stream in its
default state.  Not modelled: floating point members (their text is the stream's, six digits),
`std::tuple`, the `abort` flag, failing output streams.
-/
namespace Verif.Xml
open OMap EnumKeys
open Verif.Json (JV dot tail)

/-! ### Decimal numbers -/

/-- Digits of a number, most significant first; the first argument bounds the recursion. -/
def decF : Nat → Nat → Str
  | 0, n => [UInt8.ofNat (48 + n % 10)]
  | f + 1, n =>
    if n < 10 then [UInt8.ofNat (48 + n)] else decF f (n / 10) ++ [UInt8.ofNat (48 + n % 10)]

/-- `ostream << unsigned`. -/
def dec (n : Nat) : Str := decF n n

/-- `ostream << int`. -/
def decI : Int → Str
  | .ofNat n => dec n
  | .negSucc n => 45 :: dec (n + 1)

def isDigit (c : UInt8) : Bool := 48 ≤ c && c ≤ 57

/-- The number written by decimal digits. -/
def valD (s : Str) : Nat := s.foldl (fun a c => 10 * a + (c.toNat - 48)) 0

/-- Value of a hexadecimal digit. -/
def hexVal (c : UInt8) : Option Nat :=
  if 48 ≤ c && c ≤ 57 then some (c.toNat - 48)
  else if 97 ≤ c && c ≤ 102 then some (c.toNat - 87)
  else if 65 ≤ c && c ≤ 70 then some (c.toNat - 55)
  else none

/-- The number written by leading hexadecimal digits. -/
def valH (s : Str) : Nat :=
  (s.takeWhile fun c => (hexVal c).isSome).foldl (fun a c => 16 * a + (hexVal c).getD 0) 0

/-- Sign and the rest, after leading white space. -/
def signed (s : Str) : Bool × Str :=
  match s.dropWhile isSpace with
  | 45 :: r => (true, r)
  | 43 :: r => (false, r)
  | r => (false, r)

/-- `strtol(s,NULL,10)`, but unbounded: the callers reject what is out of the range of `char`. -/
def strtol10 (s : Str) : Int :=
  let p := signed s
  let v := valD (p.2.takeWhile isDigit)
  if p.1 then -(v : Int) else v

/-- Drop the `0x` that `strtol` accepts in base 16 when a hexadecimal digit follows. -/
def drop0x (s : Str) : Str :=
  match s with
  | 48 :: x :: c :: r => if (x == 120 || x == 88) && (hexVal c).isSome then c :: r else s
  | _ => s

/-- `strtol(s,NULL,16)`, unbounded. -/
def strtol16 (s : Str) : Int :=
  let p := signed s
  let v := valH (drop0x p.2)
  if p.1 then -(v : Int) else v

/-! ### Quoting -/

/-- `int(c)`. -/
def charInt (sgn : Bool) (c : UInt8) : Int := if sgn && 128 ≤ c then (c.toNat : Int) - 256 else c.toNat

/-- `isgraph` in the C locale. -/
def isGraph (c : UInt8) : Bool := 33 ≤ c && c ≤ 126

/-- `setfill('0')<<setw(4)`: padding goes on the left, also before a sign. -/
def pad4 (s : Str) : Str := List.replicate (4 - s.length) 48 ++ s

/-- `xml_quote(c)`: xml_pack_base.h:30-47. -/
def quote1 (sgn : Bool) (c : UInt8) : Str :=
  if c = 38 then [38, 97, 109, 112, 59]
  else if c = 60 then [38, 108, 116, 59]
  else if c = 62 then [38, 103, 116, 59]
  else if c = 39 then [38, 97, 112, 111, 115, 59]
  else if c = 34 then [38, 113, 117, 111, 116, 59]
  else if !isGraph c then [38, 35] ++ pad4 (decI (charInt sgn c)) ++ [59]
  else [c]

/-- The text written for a string: xml_pack_base.h:197-202. -/
def quote (sgn : Bool) (s : Str) : Str := (s.map (quote1 sgn)).flatten

/-- Is a number within the range of `char`? -/
def inChar (sgn : Bool) (r : Int) : Bool := if sgn then -128 ≤ r && r ≤ 127 else 0 ≤ r && r ≤ 255

/-- `parse_entity()` from the name up to the semicolon: xml_unpack_base.h:153-179. -/
def entity (sgn : Bool) (name : Str) : Option UInt8 :=
  if name = [97, 109, 112] then some 38
  else if name = [108, 116] then some 60
  else if name = [103, 116] then some 62
  else if name = [113, 117, 111, 116] then some 34
  else if name = [97, 112, 111, 115] then some 39
  else match name.takeWhile (· != 0) with
    | 35 :: 120 :: r =>
      if inChar sgn (strtol16 r) then some (UInt8.ofNat (strtol16 r % 256).toNat) else none
    | 35 :: r =>
      if inChar sgn (strtol10 r) then some (UInt8.ofNat (strtol10 r % 256).toNat) else none
    | _ => none

/-! ### The lexer -/

/-- Where the tokeniser is, and the characters `tok` collected so far. -/
inductive Mode
  | text (tok : Str)
  | slash (tok : Str)
  | lt (tok : Str)
  | ent (tok name : Str)
  | str (tok : Str) (term : UInt8)
  | strEnt (tok : Str) (term : UInt8) (name : Str)
  | bang (tok leadin : Str)
  | cdata (tok leadin : Str)
  | comment (tok : Str) (level : Nat) (inStr : Bool)
  | ws (tok : Str)
  deriving DecidableEq, Repr

/-- A pending token is returned before the one that ended it: `retval`, xml_unpack_base.h:184-201. -/
def flush (tok : Str) : List Str := if tok = [] then [] else [tok]

/-- One character in the loop of `token()`: xml_unpack_base.h:264-306. -/
def stepText (tok : Str) (c : UInt8) : List Str × Mode :=
  if isSpace c then (flush tok ++ [[c]], .text [])
  else if c = 38 then ([], .ent tok [])
  else if c = 39 ∨ c = 34 then ([], .str tok c)
  else if c = 60 then ([], .lt tok)
  else if c = 47 then ([], .slash tok)
  else if c = 62 ∨ c = 61 then (flush tok ++ [[c]], .text [])
  else ([], .text (tok ++ [c]))

def cdataLead : Str := [91, 67, 68, 65, 84, 65, 91]

/-- What `processBang` does once it has looked ahead: xml_unpack_base.h:213-234. -/
def afterLead (tok leadin : Str) : Mode :=
  if leadin = cdataLead then .cdata tok [] else .comment tok 1 false

/-- Inside a CDATA section: xml_unpack_base.h:215-230. -/
def stepCdata (tok leadin : Str) (c : UInt8) : List Str × Mode :=
  if c = 0 then ([], .text tok)
  else if c = 93 then ([], .cdata tok (if leadin = [93] then [93, 93] else [93]))
  else if c = 62 ∧ leadin = [93, 93] then (flush tok, .text [])
  else ([], .cdata (tok ++ leadin ++ [c]) [])

/-- Inside a comment: `gobble_comment`, xml_unpack_base.h:127-144. -/
def stepComment (tok : Str) (level : Nat) (inStr : Bool) (c : UInt8) : Mode :=
  if c = 34 then .comment tok level (!inStr)
  else if inStr then .comment tok level true
  else if c = 60 then .comment tok (level + 1) false
  else if c = 62 then (if level = 1 then .ws tok else .comment tok (level - 1) false)
  else .comment tok level false

/-- One character read.  `unget(c)` is processing the character again. -/
def step (sgn : Bool) : Mode → UInt8 → Option (List Str × Mode)
  | .text tok, c => some (stepText tok c)
  | .slash tok, c =>
    if c = 62 then some (flush tok ++ [[47, 62]], .text []) else some (stepText (tok ++ [47]) c)
  | .lt tok, c =>
    if c = 33 then some ([], .bang tok [])
    else if c = 63 then some ([], .comment tok 1 false)
    else if c = 47 then some (flush tok ++ [[60, 47]], .text [])
    else let r := stepText [] c; some (flush tok ++ [60] :: r.1, r.2)
  | .ent tok name, c =>
    if c = 59 then (entity sgn name).map fun x => ([], .text (tok ++ [x]))
    else some ([], .ent tok (name ++ [c]))
  | .str tok term, c =>
    if c = term then some ([tok], .text [])
    else if c = 38 then some ([], .strEnt tok term [])
    else some ([], .str (tok ++ [c]) term)
  | .strEnt tok term name, c =>
    if c = 59 then (entity sgn name).map fun x => ([], .str (tok ++ [x]) term)
    else some ([], .strEnt tok term (name ++ [c]))
  | .bang tok leadin, c =>
    if c = 62 then some ([], .text tok)
    else if leadin.length = 6 then some ([], afterLead tok (leadin ++ [c]))
    else some ([], .bang tok (leadin ++ [c]))
  | .cdata tok leadin, c => some (stepCdata tok leadin c)
  | .comment tok level inStr, c => some ([], stepComment tok level inStr c)
  | .ws tok, c => if isSpace c then some ([], .ws tok) else some (stepText tok c)

/-- All tokens up to the end of the text or the first exception; then the mode at the end. -/
def run (sgn : Bool) : Mode → Str → List Str × Option Mode
  | m, [] => ([], some m)
  | m, c :: w =>
    match step sgn m c with
    | none => ([], none)
    | some (t, m') => let r := run sgn m' w; (t ++ r.1, r.2)

/-- Is the end of the text a proper one (`token()` returns the empty string)?
xml_unpack_base.h:307-310; elsewhere `getNoEOF` throws. -/
def cleanEnd : Option Mode → Bool
  | some (.text []) | some (.ws []) => true
  | _ => false

/-! ### The parser -/

/-- The database: `contentMap` and `tokenCount` (xml_unpack_base.h:322-323). -/
structure DB where
  con : List (Str × Str)
  cnt : List (Str × Nat)

def DB.empty : DB := ⟨[], []⟩

def hash : UInt8 := 35

/-- `idx(prefix,i)`: xml_common.h:14-19. -/
def idx (p : Str) (i : Nat) : Str := p ++ hash :: dec i

def countOf (m : DB) (k : Str) : Nat := (mfind strLt k m.cnt).getD 0

/-- `tokenCount[scope]++`. -/
def bump (m : DB) (k : Str) : DB := { m with cnt := mput strLt k (countOf m k + 1) m.cnt }

/-- `contentMap[k]=v`. -/
def setCon (m : DB) (k v : Str) : DB := { m with con := mput strLt k v m.con }

/-- `isspace(std::string)`: xml_unpack_base.h:43-50. -/
def spaceTok (s : Str) : Bool := s != [] && s.all isSpace

/-- `process_attribute`: xml_unpack_base.h:453-461; the key is `k`.  An empty token is an
exception (`tokenNoEOF`). -/
def attrVal : List Str → Option (Str × List Str)
  | [] => none
  | t :: l => if t = [] then none else if spaceTok t then attrVal l else some (t, l)

def attrEq : List Str → Option (List Str)
  | [] => none
  | t :: l =>
    if t = [] then none else if spaceTok t then attrEq l else if t = [61] then some l else none

/-- `scope.rfind(tok)`, for a token that is not empty: the last position where it occurs. -/
def rfind (s tok : Str) : Option Nat :=
  (List.range (s.length + 1)).reverse.find? fun i => tok.isPrefixOf (s.drop i)

/-- The test of an end tag: xml_unpack_base.h:506.  `npos` is 2^64-1, so that when the token does
not occur the left hand side is `length()+1` (for scopes shorter than 2^64-1 characters). -/
def endMatches (scope tok : Str) : Bool :=
  match rfind scope tok with
  | some i => scope.length - i == tok.length
  | none => scope.length + 1 == tok.length

/-- Skip the rest of an end tag: xml_unpack_base.h:508 (from the token after the name). -/
def skipEnd : List Str → Option (List Str)
  | [] => none
  | t :: l => if t = [] then none else if t = [62] then some l else skipEnd l

/-- The end tag after `</`: xml_unpack_base.h:505-508. -/
def endTag (scope : Str) : List Str → Option (List Str)
  | [] => none
  | t :: l =>
    if t = [] then none
    else if endMatches scope t then (if t = [62] then some l else skipEnd l) else none

/-- Attributes: xml_unpack_base.h:488-491.  The flag tells whether the tag was empty (`/>`).
The first argument bounds the recursion. -/
def attrs (si : Str) : Nat → DB → List Str → Option (DB × Bool × List Str)
  | 0, _, _ => none
  | _, _, [] => none
  | f + 1, m, t :: l =>
    if t = [] then none
    else if t = [62] then some (m, false, l)
    else if t = [47, 62] then some (m, true, l)
    else if spaceTok t then attrs si f m l
    else match attrEq l with
      | none => none
      | some l1 => match attrVal l1 with
        | none => none
        | some (v, l2) => attrs si f (setCon m (si ++ dot :: t) v) l2

mutual
/-- `parse(stream,scope)`: xml_unpack_base.h:480-509.  The first argument bounds the recursion:
each call reads at least one token. -/
def elem : Nat → Str → DB → List Str → Option (DB × List Str)
  | 0, _, _, _ => none
  | f + 1, scope, m, l =>
    let si := idx scope (countOf m scope)
    match attrs si (l.length + 1) (bump m scope) l with
    | none => none
    | some (m1, true, l1) => some (m1, l1)
    | some (m1, false, l1) =>
      match content f si [] m1 l1 with
      | none => none
      | some (txt, m2, l2) =>
        match endTag scope l2 with
        | none => none
        | some l3 => some (if txt = [] then m2 else setCon m2 si txt, l3)

/-- The loop over content: xml_unpack_base.h:494-499. -/
def content : Nat → Str → Str → DB → List Str → Option (Str × DB × List Str)
  | 0, _, _, _, _ => none
  | _ + 1, _, _, _, [] => none
  | f + 1, si, acc, m, t :: l =>
    if t = [] then none
    else if t = [60, 47] then some (acc, m, l)
    else if t = [60] then
      match l with
      | [] => none
      | n :: l1 =>
        if n = [] then none
        else match elem f (si ++ dot :: n) m l1 with
          | none => none
          | some (m1, l2) => content f si acc m1 l2
    else content f si (acc ++ t) m l
end

/-- `parse(Stream&)` from the tokens: xml_unpack_base.h:467-478.  `fin` tells whether the tokens
end with the text rather than with an exception. -/
def parseToks (m : DB) (fin : Bool) : List Str → Option DB
  | [] => if fin then some m else none
  | t :: l =>
    if spaceTok t then parseToks m fin l
    else if t = [] then some m
    else if t = [60] then
      match l with
      | [] => none
      | n :: l1 => if n = [] then none else (elem (2 * l1.length + 2) n m l1).map (·.1)
    else none

/-- `parse(Stream&)`. -/
def parse (sgn : Bool) (m : DB) (w : Str) : Option DB :=
  let r := run sgn (.text []) w
  parseToks m (cleanEnd r.2) r.1

/-! ### Reading the database -/

/-- `addHashNoughts`: xml_unpack_base.h:332-354.  The flag is `hash_read`. -/
def addHash : Bool → Str → Str
  | h, [] => if h then [] else [hash, 48]
  | h, c :: k =>
    if c = hash then c :: addHash true k
    else if c = dot then (if h then c :: addHash false k else hash :: 48 :: c :: addHash false k)
    else c :: addHash h k

def noughts (k : Str) : Str := addHash false k

/-- Remove what follows the last `#`, and it: xml_unpack_base.h:444. -/
def stripHash (k : Str) : Str := ((k.reverse.dropWhile (· != hash)).drop 1).reverse

/-- `count(key)`: xml_unpack_base.h:442-446. -/
def count (m : DB) (k : Str) : Nat := countOf m (stripHash (noughts k))

/-- `exists(key)`: xml_unpack_base.h:440. -/
def existsK (m : DB) (k : Str) : Bool := decide (0 < count m k)

/-- The text for a key, `none` an exception, `some none` nothing there:
`checkKey` and `find`, xml_unpack_base.h:325-329, 410-435. -/
def getText (miss : Bool) (m : DB) (k : Str) : Option (Option Str) :=
  match mfind strLt (noughts k) m.con with
  | some s => some (some s)
  | none => if miss then none else some none

/-- Largest and smallest value of an integral type. -/
def maxOf (u : Under) : Int := if u.signed then u.width.modulus / 2 - 1 else u.width.modulus - 1
def minOf (u : Under) : Int := if u.signed then -(u.width.modulus / 2) else 0

/-- `istream >> integer`: no digits give 0, what is out of range the nearest bound (C++11).
Simplified for unsigned types: a minus sign gives 0 rather than a wrapped value. -/
def readInt (u : Under) (s : Str) : Int :=
  let v := strtol10 s
  if v < minOf u then minOf u else if maxOf u < v then maxOf u else v

/-- `istream >> char`: the first character that is not white space, if any. -/
def readChar (s : Str) (old : JV) : JV :=
  match s.dropWhile isSpace with
  | [] => old
  | c :: _ => .str [c]

def toLower (c : UInt8) : UInt8 := if 65 ≤ c && c ≤ 90 then c + 32 else c

def trueNames : List Str :=
  [[49], [116], [116, 114, 117, 101], [121], [121, 101, 115], [111, 110]]

/-- Reading a bool: xml_unpack_base.h:421-426. -/
def readBool (s : Str) : Bool := trueNames.contains ((s.filter fun c => !isSpace c).map toLower)

/-! ### Types -/

mutual
/-- The types of the model.  `pair` is a struct with members `first` and `second`
(xml_pack_epilogue.h:202-223).  Element names of containers, which the code computes from type
names, are part of the type. -/
inductive XT
  | bool
  | int (u : Under)
  | chr
  /-- `signed char`, `unsigned char` -/
  | byte
  | str
  | cdata
  | seq (e : Str) (t : XT)
  | assoc (lt : JV → JV → Bool) (e : Str) (t : XT)
  | struct (fs : Fs)
  /-- `shared_ptr`, `unique_ptr` -/
  | ptr (t : XT)
  /-- `classdesc::ref` -/
  | ref (t : XT)
  /-- `shared_ptr`, `unique_ptr` to a base class derived from PolyXMLBase: the type of `type()`, the
  class of the objects of each type, and whether the factory `create` knows it (if not, it throws).
  A pointer to an object is `.ptr (.pair type object)`. -/
  | poly (kt : XT) (cls : JV → Fs) (known : JV → Bool)
inductive Fs
  | nil
  | mem (n : Str) (t : XT) (fs : Fs)
  | base (t : XT) (fs : Fs)
end

mutual
/-- A default constructed object. -/
def dflt : XT → JV
  | .bool => .bool false
  | .int _ => .int 0
  | .chr | .byte => .str [0]
  | .str | .cdata => .str []
  | .seq _ _ | .assoc _ _ _ => .seq []
  | .struct fs => dfltF fs
  | .ptr _ | .ref _ | .poly _ _ _ => .null
def dfltF : Fs → JV
  | .nil => .unit
  | .mem _ t fs => .pair (dflt t) (dfltF fs)
  | .base t fs => .pair (dflt t) (dfltF fs)
end

/-! ### Packing -/

/-- Settings: signedness of `char`, `schema`, `prettyPrint`. -/
structure Cfg where
  sgn : Bool
  schema : Str
  pretty : Bool

/-- The packer: what it has written, and `taglevel`. -/
structure PK where
  out : Str
  lvl : Int

/-- `level(d)`: xml_pack_base.h:60-66. -/
def level (d : Str) : Int := if d = [] then 0 else 1 + (d.count dot : Int)

/-- `pretty(d)`: xml_pack_base.h:68. -/
def pre (g : Cfg) (d : Str) : Str := if g.pretty then List.replicate (level d).toNat 32 else []

/-- `endpretty()`: xml_pack_base.h:69. -/
def post (g : Cfg) : Str := if g.pretty then [10] else []

def xmlnsAttr (g : Cfg) (d : Str) : Str :=
  if level d = 1 ∧ g.schema ≠ [] then
    [32, 120, 109, 108, 110, 115, 61, 34] ++ g.schema ++ [34] else []

/-- A `Tag` in scope while `f` runs: xml_pack_base.h:75-96, 109-116. -/
def withTag (g : Cfg) (d : Str) (f : PK → PK) (p : PK) : PK :=
  if p.lvl < level d then
    let q := f ⟨p.out ++ pre g d ++ [60] ++ tail d ++ xmlnsAttr g d ++ [62] ++ post g, level d⟩
    ⟨q.out ++ pre g d ++ [60, 47] ++ tail d ++ [62] ++ post g, q.lvl - 1⟩
  else f p

/-- `pack(d,x)` of something simple: xml_pack_base.h:145-155. -/
def leaf (g : Cfg) (d txt : Str) (p : PK) : PK :=
  { p with out := p.out ++ pre g d ++ [60] ++ tail d ++ [62] ++ txt ++ [60, 47] ++ tail d ++ [62]
    ++ post g }

def isPtr : XT → Bool
  | .ptr _ | .poly _ _ _ => true
  | _ => false

/-- `type` -/
def sType : Str := [116, 121, 112, 101]

def cdataText (s : Str) : Str := [60, 33] ++ cdataLead ++ s ++ [93, 93, 62]

def bytesOf : JV → Str | .str s => s | _ => []
def intOf : JV → Int | .int i => i | _ => 0
def boolOf : JV → Bool | .bool b => b | _ => false
def elemsOf : JV → List JV | .seq l => l | _ => []
def fstOf : JV → JV | .pair a _ => a | _ => .unit
def sndOf : JV → JV | .pair _ b => b | _ => .unit

def packL (f : JV → PK → PK) : List JV → PK → PK
  | [], p => p
  | v :: l, p => packL f l (f v p)

mutual
/-- `xml_pack(x,d,a)`, a of type `t`: fundamental types xml_pack_base.h:169-178; strings 197-202;
containers 226-240, whose elements are const, so that a pointer goes through `xml_packp` and gets
a `Tag`; classes xml_pack_epilogue.h:133-139; CDATA 194-200; ref 272-278; smart pointers
polyAccessXMLPack.h:38-48; polymorphic ones 17-29 and polyXMLBase.h:28-34 (the descriptor of the
object's class without a second tag). -/
def packX (g : Cfg) : XT → Str → JV → PK → PK
  | .bool, d, v => leaf g d (if boolOf v then [116, 114, 117, 101] else [102, 97, 108, 115, 101])
  | .int _, d, v => leaf g d (decI (intOf v))
  | .chr, d, v => leaf g d (quote g.sgn (bytesOf v))
  | .byte, d, v => leaf g d (bytesOf v)
  | .str, d, v => leaf g d (quote g.sgn (bytesOf v))
  | .cdata, d, v => withTag g d fun p => { p with out := p.out ++ cdataText (bytesOf v) }
  | .seq e t, d, v => withTag g d
      (packL (fun x p => if isPtr t then withTag g (d ++ dot :: e) (packX g t (d ++ dot :: e) x) p
        else packX g t (d ++ dot :: e) x p) (elemsOf v))
  | .assoc _ e t, d, v => withTag g d
      (packL (fun x p => if isPtr t then withTag g (d ++ dot :: e) (packX g t (d ++ dot :: e) x) p
        else packX g t (d ++ dot :: e) x p) (elemsOf v))
  | .struct fs, d, v => withTag g d (packF g fs d v)
  | .ptr t, d, .ptr v => packX g t d v
  | .ptr _, _, _ => fun p => p
  | .ref t, d, .ptr v => withTag g d (packX g t d v)
  | .ref _, d, _ => withTag g d fun p => p
  | .poly kt cls _, d, .ptr (.pair k x) => withTag g d fun p =>
      packF g (cls k) d x (packX g kt (d ++ dot :: sType) k p)
  | .poly _ _ _, _, _ => fun p => p
/-- The generated descriptor of a class: members in order, bases under the same name. -/
def packF (g : Cfg) : Fs → Str → JV → PK → PK
  | .nil, _, _ => fun p => p
  | .mem n t fs, d, v => fun p => packF g fs d (sndOf v) (packX g t (d ++ dot :: n) (fstOf v) p)
  | .base t fs, d, v => fun p => packF g fs d (sndOf v) (packX g t d (fstOf v) p)
end

/-- `xml_pack(x,name,v)` with a new packer. -/
def packDoc (g : Cfg) (t : XT) (name : Str) (v : JV) : Str := (packX g t name v ⟨[], 0⟩).out

/-! ### Unpacking -/

def eachN (f : Nat → Option JV) : Nat → Nat → Option (List JV)
  | 0, _ => some []
  | n + 1, i => (f i).bind fun v => (eachN f n (i + 1)).map (v :: ·)

/-- `insert` in a container ordered by `lt` (a set or map: an element equivalent to one there is
dropped). -/
def insertBy (lt : JV → JV → Bool) (x : JV) : List JV → List JV
  | [] => [x]
  | y :: l => if lt x y then x :: y :: l else if lt y x then y :: insertBy lt x l else y :: l

mutual
/-- `xml_unpack(x,d,a)`, a of type `t` with value `old`: simple types xml_unpack_base.h:410-437;
sequences 561-577; associative containers 579-597; ref xml_pack_epilogue.h:282-289 (`*a` of a null
ref creates the object, ref.h); smart pointers polyAccessXMLPack.h:97-107; polymorphic ones
72-86.  Simplified: the local variable for the type, which is not initialised, holds a default
value when the element for the type is empty. -/
def unpackX (miss : Bool) (m : DB) : XT → Str → JV → Option JV
  | .bool, d, old => (getText miss m d).map fun r => match r with
      | some s => .bool (readBool s) | none => old
  | .int u, d, old => (getText miss m d).map fun r => match r with
      | some s => .int (readInt u s) | none => old
  | .chr, d, old => (getText miss m d).map fun r => match r with
      | some s => readChar s old | none => old
  | .byte, d, old => (getText miss m d).map fun r => match r with
      | some s => readChar s old | none => old
  | .str, d, old => (getText miss m d).map fun r => match r with
      | some s => .str s | none => old
  | .cdata, d, old => (getText miss m d).map fun r => match r with
      | some s => .str s | none => old
  | .seq e t, d, _ =>
      (eachN (fun i => unpackX miss m t (idx (d ++ dot :: e) i) (dflt t)) (count m (d ++ dot :: e))
        0).map .seq
  | .assoc lt e t, d, _ =>
      let k := if d = [] then e else d ++ dot :: e
      (eachN (fun i => unpackX miss m t (idx k i) (dflt t)) (count m k) 0).map fun l =>
        .seq (l.foldl (fun s x => insertBy lt x s) [])
  | .struct fs, d, old => unpackF miss m fs d old
  | .ptr t, d, _ =>
      if existsK m d then (unpackX miss m t d (dflt t)).map .ptr else some .null
  | .ref t, d, old =>
      if existsK m d then
        (unpackX miss m t d (match old with | .ptr v => v | _ => dflt t)).map .ptr
      else some old
  | .poly kt cls known, d, _ =>
      if existsK m (d ++ dot :: sType) then
        (unpackX miss m kt (d ++ dot :: sType) (dflt kt)).bind fun k =>
          if known k then
            (unpackF miss m (cls k) d (dfltF (cls k))).map fun x => .ptr (.pair k x)
          else none
      else some .null
def unpackF (miss : Bool) (m : DB) : Fs → Str → JV → Option JV
  | .nil, _, _ => some .unit
  | .mem n t fs, d, old => (unpackX miss m t (d ++ dot :: n) (fstOf old)).bind fun x =>
      (unpackF miss m fs d (sndOf old)).map fun y => .pair x y
  | .base t fs, d, old => (unpackX miss m t d (fstOf old)).bind fun x =>
      (unpackF miss m fs d (sndOf old)).map fun y => .pair x y
end

end Verif.Xml
