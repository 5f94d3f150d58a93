/-
The stubs for Python's functions and variables on Windows: pythonCAPI.cc, pythonCAPI.h:274-276.

The library that the stubs look in is what it exports: functions, and the addresses of variables.  The arguments and results of functions are
words, what else functions do is a change of the state `S`.  If the library is not there `GetProcAddress` finds nothing.  The declarations of
the functions' types are not modelled.
-/
namespace Verif.WinStub

/-- The module called "python3": pythonCAPI.cc:15; `none` if it has not been loaded. -/
structure Lib (S : Type) where
  fn : String → Option (List Nat → S → Nat × S)
  var : String → Option Nat

/-- A stub: its name, whether it is one with VOID_APIFN, its parameters and the arguments it passes on. -/
structure Stub where
  name : String
  void : Bool
  params : List String
  args : List String
  deriving DecidableEq

/-- pythonCAPI.cc:58-104. -/
def stubs : List Stub :=
  [⟨"_Py_Dealloc", true, ["o"], ["o"]⟩,
   ⟨"PyErr_Occurred", false, [], []⟩,
   ⟨"PyErr_Print", true, [], []⟩,
   ⟨"PyErr_SetString", true, ["o", "s"], ["o", "s"]⟩,
   ⟨"PyType_GenericAlloc", false, ["t", "n"], ["t", "n"]⟩,
   ⟨"PyType_GenericNew", false, ["t", "a", "k"], ["t", "a", "k"]⟩,
   ⟨"Py_IsInitialized", false, [], []⟩,
   ⟨"PySys_GetObject", false, ["name"], ["name"]⟩,
   ⟨"Py_GetConstantBorrowed", false, ["x"], ["x"]⟩,
   ⟨"PyType_IsSubtype", false, ["o1", "o2"], ["o1", "o2"]⟩,
   ⟨"PyType_GetFlags", false, ["o"], ["o"]⟩,
   ⟨"PyLong_FromLong", false, ["x"], ["x"]⟩,
   ⟨"PyFloat_FromDouble", false, ["x"], ["x"]⟩,
   ⟨"PyLong_AsLongLong", false, ["x"], ["x"]⟩,
   ⟨"PyFloat_AsDouble", false, ["x"], ["x"]⟩,
   ⟨"PyType_Ready", false, ["t"], ["t"]⟩,
   ⟨"PyObject_Str", false, ["o"], ["o"]⟩,
   ⟨"PyObject_Dir", false, ["o"], ["o"]⟩,
   ⟨"PyObject_GetAttr", false, ["o", "a"], ["o", "a"]⟩,
   ⟨"PyObject_GenericGetAttr", false, ["o", "a"], ["o", "a"]⟩,
   ⟨"PyObject_SetAttrString", false, ["o", "a", "v"], ["o", "a", "v"]⟩,
   ⟨"PyObject_Call", false, ["c", "a", "k"], ["c", "a", "k"]⟩,
   ⟨"PyModule_AddObject", false, ["o", "n", "v"], ["o", "n", "v"]⟩,
   ⟨"PyModule_GetName", false, ["o"], ["o"]⟩,
   ⟨"PyModule_Create2", false, ["m", "i"], ["m", "i"]⟩,
   ⟨"PySequence_Check", false, ["o"], ["o"]⟩,
   ⟨"PySequence_Size", false, ["o"], ["o"]⟩,
   ⟨"PySequence_GetItem", false, ["o", "i"], ["o", "i"]⟩,
   ⟨"PyUnicode_FromString", false, ["s"], ["s"]⟩,
   ⟨"PyUnicode_AsUTF8AndSize", false, ["s", "sz"], ["s", "sz"]⟩,
   ⟨"PyTuple_New", false, ["s"], ["s"]⟩,
   ⟨"PyDict_New", false, [], []⟩,
   ⟨"PyDict_SetItemString", false, ["d", "k", "v"], ["d", "k", "v"]⟩,
   ⟨"PyList_New", false, ["size"], ["size"]⟩,
   ⟨"PyList_SetItem", false, ["o", "i", "v"], ["o", "i", "v"]⟩,
   ⟨"PyList_Append", false, ["o", "v"], ["o", "v"]⟩,
   ⟨"PyMapping_Check", false, ["o"], ["o"]⟩,
   ⟨"PyMapping_Items", false, ["o"], ["o"]⟩]

/-- pythonCAPI.cc:54-56. -/
def vars : List String := ["PyBool_Type", "PyFloat_Type", "PyExc_RuntimeError"]

/-- What is printed. -/
inductive Msg
  | notFound (name : String)
  | noExe
  | failed (name : String)
  deriving DecidableEq

/-- `GetProcAddress` for functions and for variables. -/
def proc {S : Type} (d : Option (Lib S)) (n : String) : Option (List Nat → S → Nat × S) := d.bind (·.fn n)
def addr {S : Type} (d : Option (Lib S)) (n : String) : Option Nat := d.bind (·.var n)

/-- CHECK_SYMBOL for everything, when the program starts: pythonCAPI.cc:20-26. -/
def start {S : Type} (d : Option (Lib S)) : List Msg :=
  (vars.filter fun n => (addr d n).isNone).map .notFound ++
    ((stubs.map Stub.name).filter fun n => (proc d n).isNone).map .notFound

/-- The value of an argument: parameters are looked up by name. -/
def value : List String → List Nat → String → Nat
  | p :: ps, v :: vs, a => if p = a then v else value ps vs a
  | _, _, _ => 0

/-- A call of a stub: pythonCAPI.cc:31-48.  (The result of one with VOID_APIFN is not used; it is 0 here.) -/
def call {S : Type} (d : Option (Lib S)) (t : Stub) (vs : List Nat) (s : S) : Nat × S × List Msg :=
  let m := if t.void = false ∧ d.isNone then [.noExe] else []
  match proc d t.name with
  | some f =>
    let r := f (t.args.map (value t.params vs)) s
    (if t.void then 0 else r.1, r.2, m)
  | none => (0, s, m ++ [.failed t.name])

/-- What the variable of a stub is set to, APIVARPTR: pythonCAPI.cc:50-52; a null pointer is 0. -/
def varptr {S : Type} (d : Option (Lib S)) (n : String) : Nat := (addr d n).getD 0

/-- A program that calls stubs, depending on what they return. -/
inductive Prog (α : Type)
  | done (a : α)
  | call (t : Stub) (vs : List Nat) (k : Nat → Prog α)

def Prog.run {S α : Type} (d : Option (Lib S)) : Prog α → S → α × S × List Msg
  | .done a, s => (a, s, [])
  | .call t vs k, s =>
    let r := WinStub.call d t vs s
    let q := (k r.1).run d r.2.1
    (q.1, q.2.1, r.2.2 ++ q.2.2)

end Verif.WinStub
