import Verif.Bases
import Verif.Xml
/-
The names of types: the strings `typeName<T>()` delivers.  classdesc.h:572-760, 907-923, 1099-1104, 1173-1178,
typeName_epilogue.h:15-60, and the names the generator writes for class templates, classdesc.cc:81-126, 1386-1422.
-/
namespace Verif.TName
open Verif.Tok (Str b)
open Verif.Bases (idChar)
open Verif.Xml (dec)

/-! ### What the generator writes -/

/-- What is in front of the first `class` or `typename`, and the rest: classdesc.cc:95-100. -/
def cut : Str → Str × Str
  | [] => ([], [])
  | c :: r => if (b "class").isPrefixOf (c :: r) || (b "typename").isPrefixOf (c :: r) then ([], c :: r) else (c :: (cut r).1, (cut r).2)

/-- The name of a parameter, and the rest: classdesc.cc:108-125. -/
def grab : Int → Str → Str × Str
  | _, [] => ([], [])
  | n, c :: r =>
    if c = 60 then (c :: (grab (n + 1) r).1, (grab (n + 1) r).2)
    else if c = 62 then
      if n - 1 = 0 then ([], c :: r) else (c :: (grab (n - 1) r).1, (grab (n - 1) r).2)
    else if idChar c = true ∨ n > 0 then (c :: (grab n r).1, (grab n r).2)
    else ([], c :: r)

def space (c : UInt8) : Bool := c == 32 || c == 9
def spaceDot (c : UInt8) : Bool := c == 32 || c == 9 || c == 46

/-- A call of `typeName`, or of `varTn` for a parameter pack: classdesc.cc:126-129. -/
def call (pack : Bool) (name : Str) : Str :=
  if pack = true then b "\"+varTn<" ++ name ++ b "...>()+\"" else b "\"+typeName<" ++ name ++ b ">()+\""

/-- Constructor of `action_t`: classdesc.cc:93-130.  `none`: an exception, from `substr`; each turn consumes a character. -/
def tnLoop : Nat → Str → Option Str
  | 0, _ => some []
  | _ + 1, [] => some []
  | n + 1, s =>
    let (pre, r) := cut s
    match r.dropWhile (fun c => !spaceDot c) with
    | [] => some pre
    | r1 =>
      match r1.dropWhile space with
      | [] => none
      | r2 =>
        match r2.dropWhile spaceDot with
        | [] => some pre
        | r3 =>
          let (name, r4) := grab 0 r3
          (tnLoop n r4).map fun t => pre ++ call ((b "...").isPrefixOf r2) name ++ t

/-- Is `p` somewhere in a text? -/
def within (p : Str) : Str → Bool
  | [] => p.isEmpty
  | c :: r => p.isPrefixOf (c :: r) || within p r

/-- `tnTempl`: classdesc.cc:87-131. -/
def tnTempl (templ : Str) : Option Str := if within (b "template") templ = true then some templ else tnLoop (templ.length + 1) templ

/-- The value of the expression written, behind its first quotation mark: a string literal with calls in it, the results of
which are given.  `none`: not an expression of this kind. -/
def value (env : Bool → Str → Option Str) : Nat → Str → Option Str
  | 0, _ => none
  | _ + 1, [] => some []
  | n + 1, c :: r =>
    if c = 34 then
      let (pack, r1) := if (b "+varTn<").isPrefixOf r = true then (true, r.drop 7) else (false, r.drop 10)
      if (b "+varTn<").isPrefixOf r = true ∨ (b "+typeName<").isPrefixOf r = true then
        let x := r1.takeWhile idChar
        let close := if pack = true then b "...>()+\"" else b ">()+\""
        if x ≠ [] ∧ close.isPrefixOf (r1.dropWhile idChar) = true then
          match env pack x, value env n ((r1.dropWhile idChar).drop close.length) with
          | some v, some t => some (v ++ t)
          | _, _ => none
        else none
      else none
    else if c = 92 ∨ c = 10 then none
    else (value env n r).map (c :: ·)

/-! ### The library -/

/-- Types with a name of their own: classdesc.h:590-622, and `wchar_t` and the like by typeName_epilogue.h:17-29. -/
inductive Fund
  | void | bool | char | short | int | long | schar | uchar | ushort | uint | ulong | llong | ullong | float | double | ldouble
  | string | wstring | char16 | char32 | wchar | char8 | int128 | uint128
  deriving DecidableEq, Repr

def Fund.text : Fund → Str
  | .void => b "void" | .bool => b "bool" | .char => b "char" | .short => b "short" | .int => b "int" | .long => b "long"
  | .schar => b "signed char" | .uchar => b "unsigned char" | .ushort => b "unsigned short" | .uint => b "unsigned int"
  | .ulong => b "unsigned long" | .llong => b "long long" | .ullong => b "unsigned long long"
  | .float => b "float" | .double => b "double" | .ldouble => b "long double"
  | .string => b "std::string" | .wstring => b "std::wstring" | .char16 => b "char16_t" | .char32 => b "char32_t"
  | .wchar => b "int" ++ dec 32 ++ b "_t" | .char8 => b "unsigned int" ++ dec 8 ++ b "_t"
  | .int128 => b "int" ++ dec 128 ++ b "_t" | .uint128 => b "unsigned int" ++ dec 128 ++ b "_t"

/-- Class templates named by the library: classdesc.h:630-760, 907-911, 1099-1104, poly*Base.h. -/
inductive Lib
  | sharedPtr | uniquePtr | weakPtr | vector | list | deque | set | map | multiset | multimap | pair
  | unorderedSet | unorderedMultiset | unorderedMap | unorderedMultimap | enumHandle | exclude
  | polyRESTProcess | polyJson | polyXML | polyPack | iterator | function
  deriving DecidableEq, Repr

def Lib.text : Lib → Str
  | .sharedPtr => b "classdesc::shared_ptr" | .uniquePtr => b "std::unique_ptr" | .weakPtr => b "std::weak_ptr"
  | .vector => b "std::vector" | .list => b "std::list" | .deque => b "std::deque" | .set => b "std::set" | .map => b "std::map"
  | .multiset => b "std::multiset" | .multimap => b "std::multimap" | .pair => b "std::pair"
  | .unorderedSet => b "std::unordered_set" | .unorderedMultiset => b "std::unordered_multiset"
  | .unorderedMap => b "std::unordered_map" | .unorderedMultimap => b "std::unordered_multimap"
  | .enumHandle => b "classdesc::Enum_handle" | .exclude => b "classdesc::Exclude"
  | .polyRESTProcess => b "classdesc::PolyRESTProcess" | .polyJson => b "classdesc::PolyJson" | .polyXML => b "classdesc::PolyXML"
  | .polyPack => b "classdesc::PolyPack" | .iterator => b "classdesc::pythonDetail::Iterator" | .function => b "std::function"

/-- Class templates of a type and a number: classdesc.h:676-680, python_base.h:322-326. -/
inductive Sized
  | array | arrayGet
  deriving DecidableEq, Repr

def Sized.text : Sized → Str
  | .array => b "std::array"
  | .arrayGet => b "pythonDetail::ArrayGet"

/-- Types.  Of a template of the library, the arguments named and those that are not (allocators, comparisons).  Of a class
template of the user, its qualified name, the names of its parameters with the argument for each; parameters that are not
types have their argument as text. -/
inductive Ty
  | fund (f : Fund)
  | cls (path : List Str)
  | lib (l : Lib) (args hidden : List Ty)
  | sized (l : Sized) (t : Ty) (n : Nat)
  | user (path : List Str) (args : List Ty) (values : List Str)
  | const (t : Ty)
  | ptr (t : Ty)
  | ref (t : Ty)
  | rref (t : Ty)
  | arr (t : Ty) (n : Nat)
  | fn (r : Ty) (args : List Ty)                 -- a function
  | memfn (c r : Ty) (args : List Ty)            -- a pointer to a member function
  | tuple (args : List Ty)
  | iter (owner : Ty)                            -- an iterator class

def comma : List Str → Str
  | [] => []
  | [a] => a
  | a :: l => a ++ 44 :: comma l

/-- What the generator knows of the class templates: the parameter list of each, and which arguments of an instance belong to
a parameter. -/
structure World where
  templ : List Str → Str
  env : List Str → List Str → Bool → Str → Option Str

/-- `::a::b`, as the generator qualifies names. -/
def qualified (path : List Str) : Str := path.flatMap fun n => b "::" ++ n

mutual
  /-- `typeName<T>()`. -/
  def name (w : World) : Ty → Str
    | .fund f => f.text
    | .cls p => qualified p
    | .lib l args _ => l.text ++ [60] ++ comma (names w args) ++ [62]
    | .sized l t n => l.text ++ [60] ++ name w t ++ [44] ++ dec n ++ [62]
    | .user p args _ =>
      qualified p ++ ((tnTempl (w.templ p)).bind fun e => value (w.env p (names w args)) (e.length + 1) e).getD []
    | .const t => b "const " ++ name w t
    | .ptr t => name w t ++ [42]
    | .ref t => name w t ++ [38]
    | .rref t => name w t
    | .arr t n => name w t ++ [91] ++ dec n ++ [93]
    | .fn _ _ => b "<function>"
    | .memfn _ _ _ => b "<function>"
    | .tuple _ => b "std::tuple<...>"
    | .iter _ => b "iterator"
  def names (w : World) : List Ty → List Str
    | [] => []
    | t :: r => name w t :: names w r
end

end Verif.TName
