/-
C++ objects used from Java: javaClass_base.h:299-411, java/JNIEx.h:51-89, java/JNIEx.cc:49-75, and calling a function with a vector
of arguments, function.h:398-482.

Simplified: values are integers, also those of floating point types (the only types with conversions from and to Java objects are
int, float and strings); arguments have the types of the descriptor.
-/
namespace Verif.JavaObj

abbrev Str := List Char

/-- Types of variables, arguments and results. -/
inductive Ty
  | int
  | float
  deriving DecidableEq

/-- Their descriptors: javaClassDescriptor.h:24-48. -/
def Ty.sig : Ty → Str
  | .int => ['I']
  | .float => ['F']

/-- The variables of an object, by place. -/
abbrev Store := Nat → Int

/-- A member function: arguments, result (`none` for void), what it does. -/
structure Fn where
  args : List Ty
  ret : Option Ty
  run : List Int → Store → Int × Store

/-- A member of a class as its descriptor gives it to `javaClass`: a variable, a static constant, a function, a variable of class
type. -/
inductive Mem
  | data (n : Str) (t : Ty) (p : Nat)
  | cst (n : Str) (t : Ty)
  | meth (n : Str) (f : Fn)
  | nest (n : Str) (ms : List Mem)

/-- What is called: a getter_setter with its variable (javaClass_base.h:338-348), one whose variable no longer exists, a bound
method (275-285). -/
inductive Func
  | gs (p : Nat)
  | dangling
  | fn (f : Fn)

/-- A class file's methods, with their descriptors, and `method_registry`. -/
structure Java where
  methods : List (Str × Str)
  reg : List (Str × Func)

/-- `addMethod`: javaClass.h:721-730 (see `Verif.Java`). -/
def addMethod (j : Java) (n d : Str) : Java := { j with methods := j.methods ++ [(n, d)] }

/-- `add_functor`: `insert` keeps what is there, java/JNIEx.h:64-67. -/
def addFunctor (j : Java) (k : Str) (f : Func) : Java :=
  if j.reg.any (fun e => e.1 == k) then j else { j with reg := j.reg ++ [(k, f)] }

/-- What follows the last dot, and what precedes it: javaClass_base.h:318-319, 376-385. -/
def lastPart (d : Str) : Str := (d.reverse.takeWhile (· != '.')).reverse
def firstPart (d : Str) : Str := ((d.reverse.dropWhile (· != '.')).drop 1).reverse

/-- `ivar_name[0]=toupper(ivar_name[0])`: javaClass_base.h:390. -/
def cap : Str → Str
  | [] => []
  | c :: s => c.toUpper :: s

def sGet : Str := ['g', 'e', 't']
def sSet : Str := ['s', 'e', 't']

/-- The descriptor of a function: javaClassDescriptor.h:85-92. -/
def Fn.sig (f : Fn) : Str :=
  '(' :: (f.args.map Ty.sig).flatten ++ ')' :: (match f.ret with | some t => t.sig | none => ['V'])

/-- `javaClass` of a variable: javaClass_base.h:371-395. -/
def regData (d : Str) (t : Ty) (f : Func) (j : Java) : Java :=
  let n := lastPart d
  let c := firstPart d
  let j := addFunctor (addMethod j n ('(' :: t.sig ++ ')' :: t.sig)) d f
  let j := addFunctor (addMethod j (sGet ++ cap n) ('(' :: ')' :: t.sig)) (c ++ '.' :: (sGet ++ cap n)) f
  addFunctor (addMethod j (sSet ++ cap n) ('(' :: t.sig ++ [')', 'V'])) (c ++ '.' :: (sSet ++ cap n)) f

mutual
/-- `javaClass(cl,d+"."+n,...)` for a member: functions javaClass_base.h:311-330; static constants 407-413, of which a copy is
registered that does not live longer than the call; class types by their own descriptor. -/
def regMem (d : Str) : Mem → Java → Java
  | .data n t p, j => regData (d ++ '.' :: n) t (.gs p) j
  | .cst n t, j => regData (d ++ '.' :: n) t .dangling j
  | .meth n f, j => addFunctor (addMethod j (lastPart (d ++ '.' :: n)) f.sig) (d ++ '.' :: n) (.fn f)
  | .nest n ms, j => regMems (d ++ '.' :: n) ms j
/-- The generated descriptor of a class. -/
def regMems (d : Str) : List Mem → Java → Java
  | [], j => j
  | m :: ms, j => regMems d ms (regMem d m j)
end

/-- Registering objects one after the other, each by its name: java/JNIEx.h:73-92. -/
def regObjs : List (Str × List Mem) → Java → Java
  | [], j => j
  | (o, ms) :: l, j => regObjs l (regMems o ms j)

/-- Outcomes; `ub`: undefined. -/
inductive R
  | ok (v : Int) (s : Store)
  | ub

/-- `CurryLast...::apply` for a function of `n` arguments and the vector `a`: function.h:398-480. -/
def applyN : Nat → (List Int → Store → Int × Store) → List Int → Store → R
  | 0, f, _, s => .ok (f [] s).1 (f [] s).2
  | n + 1, f, a, s =>
    match a[n]? with
    | none => .ub
    | some x => applyN n (fun xs => f (xs ++ [x])) a s

/-- `Java_JNIInterface_call`: java/JNIEx.cc:49-75.  A name that is not registered is an assertion, or a null pointer called. -/
def call (j : Java) (name : Str) (args : List Int) (s : Store) : R :=
  match j.reg.find? (fun e => e.1 == name) with
  | none => .ub
  | some (_, .gs p) =>
    match args with
    | [] => .ok (s p) s
    | v :: _ => .ok v (fun q => if q = p then v else s q)
  | some (_, .dangling) => .ub
  | some (_, .fn f) => applyN f.args.length f.run args s

end Verif.JavaObj
