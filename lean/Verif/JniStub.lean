import Verif.JavaObj
/-
The native functions compileClass writes for the methods of a C++ class, and calling them from Java: java/compileClass.cc:88-124,
java/JNIEx.h:70-108.

Simplified: one thread; C++ functions do not throw; types as in `Verif.JavaObj`, so that every type in a descriptor is one letter
(for descriptors in general see `Verif.Java.arglist`).
-/
namespace Verif.JniStub
open Verif.JavaObj

/-- A function written: its symbol, the name it looks for, the number of its arguments. -/
structure Stub where
  sym : Str
  nm : Str
  nargs : Nat
  deriving DecidableEq

def sJava : Str := ['J', 'a', 'v', 'a', '_']

/-- `write_JNI_t::add_functor`: java/compileClass.cc:96-124. -/
def genStub (cls name sig : Str) : Stub :=
  let nm := lastPart name
  ⟨sJava ++ cls ++ '_' :: nm, nm, ((sig.drop 1).takeWhile (· != ')')).length⟩

/-- For a variable: javaClass_base.h:386-395. -/
def genData (cls d : Str) (t : Ty) : List Stub :=
  let n := lastPart d
  let c := firstPart d
  [genStub cls d ('(' :: t.sig ++ ')' :: t.sig), genStub cls (c ++ '.' :: (sGet ++ cap n)) ('(' :: ')' :: t.sig),
    genStub cls (c ++ '.' :: (sSet ++ cap n)) ('(' :: t.sig ++ [')', 'V'])]

mutual
/-- For a member: as `regMem`. -/
def genMem (cls d : Str) : Mem → List Stub
  | .data n t _ => genData cls (d ++ '.' :: n) t
  | .cst n t => genData cls (d ++ '.' :: n) t
  | .meth n f => [genStub cls (d ++ '.' :: n) f.sig]
  | .nest n ms => genMems cls (d ++ '.' :: n) ms
def genMems (cls d : Str) : List Mem → List Stub
  | [] => []
  | m :: ms => genMem cls d m ++ genMems cls d ms
end

/-- The functions written for the classes of a program: java/compileClass.cc:199-204, 137. -/
def genAll (l : List (Str × List Mem)) : List Stub := l.flatMap fun e => genMems e.1 e.1 e.2

/-- How Java makes a name part of a symbol, from the specification of the Java native interface (not part of the repository); for
names of letters, digits and underscores. -/
def mangle : Str → Str
  | [] => []
  | c :: s => if c = '_' then '_' :: '1' :: mangle s else c :: mangle s

/-- The symbol Java looks for, from the same specification. -/
def jvmSym (cls n : Str) : Str := sJava ++ mangle cls ++ '_' :: mangle n

/-- A running program: the functions linked, `method_registry`, the static variables of the functions that have been called, the
variables of the objects. -/
structure VM where
  stubs : List Stub
  reg : List (Str × Func)
  cache : List (Str × Func)
  store : Store

inductive Out
  | ok (v : Int) (vm : VM)
  /-- UnsatisfiedLinkError -/
  | unlinked
  | ub

/-- Calling a functor: javaClass_base.h:275-285, 338-348 (as in `call`). -/
def runF (f : Func) (args : List Int) (s : Store) : R :=
  match f with
  | .gs p =>
    match args with
    | [] => .ok (s p) s
    | v :: _ => .ok v (fun q => if q = p then v else s q)
  | .dangling => .ub
  | .fn f => applyN f.args.length f.run args s

/-- `registerCppObject`: java/JNIEx.h:70-95, the object being named `o`. -/
def newObj (o : Str) (ms : List Mem) (vm : VM) : VM := { vm with reg := (regMems o ms ⟨[], vm.reg⟩).reg }

/-- The static variable `f`: its value if the function has been called before, or what is registered for the object:
java/compileClass.cc:108-110.  `none`: a null pointer. -/
def target (vm : VM) (st : Stub) (o : Str) : Option Func :=
  match vm.cache.find? (fun e => e.1 == st.sym) with
  | some e => some e.2
  | none => (vm.reg.find? (fun e => e.1 == o ++ '.' :: st.nm)).map (·.2)

/-- The static variable from then on. -/
def remember (vm : VM) (sym : Str) (f : Func) : List (Str × Func) :=
  match vm.cache.find? (fun e => e.1 == sym) with
  | some _ => vm.cache
  | none => vm.cache ++ [(sym, f)]

/-- Java calling the native method `n` of the class `cls` on the object named `o`: java/compileClass.cc:101-116. -/
def invoke (vm : VM) (cls o n : Str) (args : List Int) : Out :=
  match vm.stubs.find? (fun s => s.sym == jvmSym cls n) with
  | none => .unlinked
  | some st =>
    match target vm st o with
    | none => .ub
    | some f =>
      match runF f (args.take st.nargs) vm.store with
      | .ok v s => .ok v { vm with cache := remember vm st.sym f, store := s }
      | .ub => .ub

/-- What a Java program does. -/
inductive Op
  | new (o : Str) (ms : List Mem)
  | call (cls o n : Str) (args : List Int)

/-- A program run until a call is undefined or not linked. -/
def exec : List Op → VM → Option VM
  | [], vm => some vm
  | .new o ms :: l, vm => exec l (newObj o ms vm)
  | .call cls o n args :: l, vm =>
    match invoke vm cls o n args with
    | .ok _ vm => exec l vm
    | _ => none

end Verif.JniStub
