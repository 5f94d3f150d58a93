import Verif.WinStub
/-
C138: the stubs for Python's functions and variables on Windows.
-/
namespace Verif.WinStub

/-! ### What is expected -/

/-- A program is made of calls of stubs, with as many arguments as they have parameters. -/
def C138.Legal {α : Type} : Prog α → Prop
  | .done _ => True
  | .call t vs k => t ∈ stubs ∧ vs.length = t.params.length ∧ ∀ v, C138.Legal (k v)

/-- The functions that Python declares `void`. -/
def C138.voids : List String := ["_Py_Dealloc", "PyErr_Print", "PyErr_SetString"]

/-- The same program with Python's own functions; what a `void` function leaves as its result is not seen. -/
inductive C138.Runs {S α : Type} (fn : String → Option (List Nat → S → Nat × S)) : Prog α → S → α → S → Prop
  | done (a s) : C138.Runs fn (.done a) s a s
  | call {t vs k s f a s'} : fn t.name = some f →
      C138.Runs fn (k (if t.name ∈ C138.voids then 0 else (f vs s).1)) (f vs s).2 a s' → C138.Runs fn (.call t vs k) s a s'

open C138 (Legal Runs)

private theorem value_self : ∀ (ps : List String) (vs : List Nat), ps.Nodup → vs.length = ps.length → ps.map (value ps vs) = vs
  | [], [], _, _ => rfl
  | [], _ :: _, _, h => by simp at h
  | _ :: _, [], _, h => by simp at h
  | p :: ps, v :: vs, hn, h => by
    obtain ⟨h1, h2⟩ := List.nodup_cons.1 hn
    simp only [List.map_cons, value, if_true, List.cons.injEq, true_and]
    refine Eq.trans (List.map_congr_left fun a ha => ?_) (value_self ps vs h2 (by simpa using h))
    have : p ≠ a := fun e => h1 (e ▸ ha)
    simp [this]

private theorem table : ∀ t ∈ stubs, t.args = t.params ∧ t.params.Nodup ∧ (t.void = true ↔ t.name ∈ C138.voids) := by decide +kernel

private theorem forward {t : Stub} (ht : t ∈ stubs) {vs : List Nat} (h : vs.length = t.params.length) :
    t.args.map (value t.params vs) = vs := by
  obtain ⟨h1, h2, _⟩ := table t ht
  rw [h1, value_self _ _ h2 h]

private theorem start_fn {S : Type} {d : Option (Lib S)} (h : start d = []) {t : Stub} (ht : t ∈ stubs) :
    ∃ l f, d = some l ∧ l.fn t.name = some f := by
  have h2 := (List.append_eq_nil_iff.1 h).2
  rw [List.map_eq_nil_iff, List.filter_eq_nil_iff] at h2
  have := h2 t.name (List.mem_map.2 ⟨t, ht, rfl⟩)
  cases d with
  | none => simp [proc] at this
  | some l =>
    cases hf : l.fn t.name with
    | none => simp [proc, hf] at this
    | some f => exact ⟨l, f, rfl, hf⟩

/-- C138: if nothing is reported when the program starts, then every program does with the stubs what it does with Python's own functions,
and nothing is printed. -/
theorem C138_forwarded_partial {S α : Type} (l : Lib S) (h : start (some l) = []) : ∀ (p : Prog α), Legal p → ∀ s : S,
    Runs l.fn p s (p.run (some l) s).1 (p.run (some l) s).2.1 ∧ (p.run (some l) s).2.2 = []
  | .done a, _, s => ⟨.done a s, rfl⟩
  | .call t vs k, hp, s => by
    obtain ⟨ht, hv, hk⟩ := hp
    obtain ⟨l', f, he, hf⟩ := start_fn h ht
    cases he
    have e : call (some l) t vs s = (if t.name ∈ C138.voids then 0 else (f vs s).1, (f vs s).2, []) := by
      simp [call, proc, hf, forward ht hv, (table t ht).2.2]
    obtain ⟨i1, i2⟩ := C138_forwarded_partial l h (k (if t.name ∈ C138.voids then 0 else (f vs s).1)) (hk _) (f vs s).2
    simp only [Prog.run, e]
    exact ⟨.call hf i1, by simpa using i2⟩

/-- C138: what is reported at the start is exactly what the library lacks. -/
theorem C138_reported {S : Type} (l : Lib S) (n : String) :
    .notFound n ∈ start (some l) ↔ (n ∈ vars ∧ l.var n = none) ∨ (∃ t ∈ stubs, t.name = n ∧ l.fn n = none) := by
  simp only [start, List.mem_append, List.mem_map, List.mem_filter, proc, addr, Option.bind_some, Option.isNone_iff_eq_none,
    Msg.notFound.injEq]
  constructor
  · rintro (⟨_, h, rfl⟩ | ⟨_, ⟨⟨t, ht, rfl⟩, h⟩, rfl⟩)
    · exact .inl h
    · exact .inr ⟨t, ht, rfl, h⟩
  · rintro (h | ⟨t, ht, rfl, h⟩)
    · exact .inl ⟨n, h, rfl⟩
    · exact .inr ⟨_, ⟨⟨t, ht, rfl⟩, h⟩, rfl⟩

/-- C138: a function that is not there does nothing, its result is 0, and it is named each time it is called. -/
theorem C138_missing {S : Type} (d : Option (Lib S)) (t : Stub) (vs : List Nat) (s : S) (h : ∀ l, d = some l → l.fn t.name = none) :
    (call d t vs s).1 = 0 ∧ (call d t vs s).2.1 = s ∧ .failed t.name ∈ (call d t vs s).2.2 ∧
      (.noExe ∈ (call d t vs s).2.2 ↔ d = none ∧ t.void = false) := by
  have hp : proc d t.name = none := by
    cases d with
    | none => rfl
    | some l => exact h l rfl
  simp only [call, hp]
  cases d <;> cases t.void <;> simp

/-- Variables as Python declares them: objects, which pointers to them denote, and pointers to objects. -/
inductive C138.Kind
  | object
  | pointer

/-- The variables of Python's C API: `PyTypeObject PyBool_Type`, `PyTypeObject PyFloat_Type`, `PyObject *PyExc_RuntimeError`. -/
def C138.kind : String → C138.Kind
  | "PyExc_RuntimeError" => .pointer
  | _ => .object

/-- The object meant by the name of a variable that is at an address. -/
def C138.denotes (mem : Nat → Nat) : C138.Kind → Nat → Nat
  | .object, a => a
  | .pointer, a => mem a

open C138 (kind denotes)

/-- C138: types are those of Python. -/
theorem C138_types_partial {S : Type} (l : Lib S) (mem : Nat → Nat) (n : String) (hn : n = "PyBool_Type" ∨ n = "PyFloat_Type") (a : Nat)
    (h : l.var n = some a) : varptr (some l) n = denotes mem (kind n) a := by
  rcases hn with rfl | rfl <;> simp [varptr, addr, h, denotes, kind]

/-- The class of exceptions is not: what is passed to `PyErr_SetString` for every exception is the address of the variable that points to the
class, unless that pointed to itself. -/
theorem C138_fails_exception {S : Type} (l : Lib S) (mem : Nat → Nat) (a : Nat) (h : l.var "PyExc_RuntimeError" = some a) (hm : mem a ≠ a) :
    varptr (some l) "PyExc_RuntimeError" = a ∧ varptr (some l) "PyExc_RuntimeError" ≠ denotes mem (kind "PyExc_RuntimeError") a := by
  have : varptr (some l) "PyExc_RuntimeError" = a := by simp [varptr, addr, h]
  rw [this]
  exact ⟨rfl, fun e => hm e.symm⟩

/-- A library that lacks variables is reported, and they are null pointers. -/
theorem C138_fails_null {S : Type} (d : Option (Lib S)) (n : String) (hn : n ∈ vars) (h : ∀ l, d = some l → l.var n = none) :
    varptr d n = 0 ∧ .notFound n ∈ start d := by
  have hp : addr d n = none := by
    cases d with
    | none => rfl
    | some l => exact h l rfl
  refine ⟨by simp [varptr, hp], ?_⟩
  simp [start, hn, hp]

/-! ### Examples -/

/-- A library that has everything; functions add up their arguments and count calls. -/
private def ex : Lib Nat := ⟨fun _ => some fun vs s => (vs.sum, s + 1), fun _ => some 64⟩

example : start (some ex) = [] := by decide +kernel

private def exP : Prog Nat :=
  .call ⟨"PyList_New", false, ["size"], ["size"]⟩ [3] fun v => .call ⟨"PyList_Append", false, ["o", "v"], ["o", "v"]⟩ [v, 4] fun w => .done w

example : Legal exP ∧ exP.run (some ex) 0 = (7, 2, []) := by
  refine ⟨⟨by decide +kernel, rfl, fun _ => ⟨by decide +kernel, rfl, fun _ => trivial⟩⟩, rfl⟩

example : exP.run (none : Option (Lib Nat)) 0 = (0, 0, [.noExe, .failed "PyList_New", .noExe, .failed "PyList_Append"]) := rfl

end Verif.WinStub
