import Verif.Java
/-
The class description compileClass makes for a C++ class: java/compileClass.cc:126-184, javaClass_base.h:301-304.

Methods are given as `javaClass` adds them (see `Verif.JavaObj`): names with descriptors.
-/
namespace Verif.JniClass
open Verif.Java

/-- `javaClass_t()`: javaClass_base.h:303. -/
def fresh : ClassFile := { ClassFile.empty with magic := 0xCAFEBABE, minor := 0, major := 50 }

/-- `constant_pool.push_back`. -/
def push (e : Entry) (c : ClassFile) : ClassFile := { c with pool := c.pool ++ [e] }

/-- `object.exportClass(cf)`: each method by `addMethod`, java/compileClass.cc:137. -/
def exportClass : List (Bytes × Bytes) → ClassFile → ClassFile
  | [], c => c
  | m :: ms, c => exportClass ms (addMethod c m.1 m.2)

def sAuto : Bytes := [97, 117, 116, 111]
def sVoid : Bytes := [40, 41, 86]
def sCppObject : Bytes := [67, 112, 112, 79, 98, 106, 101, 99, 116]
def sInit : Bytes := [60, 105, 110, 105, 116, 62]
def sCode : Bytes := [67, 111, 100, 101]

/-- The constructor's code: java/compileClass.cc:177-178. -/
def ctorCode : Bytes :=
  [0, 1, 0, 1, 0, 0, 0, 5, 0x2a, 0xb7, 0, 1, 0xb1, 0, 0, 0, 1, 0, 7, 0, 0, 0, 6, 0, 1, 0, 0, 0, 1]

/-- The superclass: java/compileClass.cc:147-150. -/
def setSuper (c : ClassFile) : ClassFile :=
  let c := { c with super := toU2 c.pool.length }
  push ⟨1, .utf8 sCppObject⟩ (push ⟨7, .u2 (toU2 (c.pool.length + 1))⟩ c)

/-- The class itself: java/compileClass.cc:152-155. -/
def setThis (name : Bytes) (c : ClassFile) : ClassFile :=
  let c := { c with this := toU2 c.pool.length }
  push ⟨1, .utf8 name⟩ (push ⟨7, .u2 (toU2 (c.pool.length + 1))⟩ c)

/-- `methods.back()`. -/
def onLast (f : Member → Member) : List Member → List Member
  | [] => []
  | [m] => [f m]
  | m :: l => m :: onLast f l

/-- The default constructor: java/compileClass.cc:159-180. -/
def addCtor (c : ClassFile) : ClassFile :=
  let c := addMethod c sInit sVoid
  let c := { c with methods := onLast (fun m => { m with flags := 1 }) c.methods }
  let c := push ⟨12, .nameType (toU2 (c.pool.length - 2)) (toU2 (c.pool.length - 1))⟩ c
  let c := { c with pool := c.pool.set 1 ⟨10, .ref c.super (toU2 (c.pool.length - 1))⟩ }
  let name := toU2 c.pool.length
  let c := push ⟨1, .utf8 sCode⟩ c
  { c with methods := onLast (fun m => { m with attrs := m.attrs ++ [⟨name, ctorCode⟩] }) c.methods }

/-- `write_JNI`, what is written to the class file: java/compileClass.cc:126-184. -/
def write (name : Bytes) (ms : List (Bytes × Bytes)) : ClassFile :=
  let c := push .null fresh
  let c := exportClass ms c
  let c := addMethod c sAuto sVoid
  let c := setThis name (setSuper c)
  addCtor (makeNative c)

end Verif.JniClass
