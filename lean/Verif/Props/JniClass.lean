import Verif.JniClass
/-
C124: the class made for a C++ class.
-/
namespace Verif.JniClass
open Verif.Java

/-! ### Specification: what the Java virtual machine looks for -/

/-- Text at an index of the constant pool. -/
def C124.Text (p : List Entry) (i : Nat) (s : Bytes) : Prop := 0 < i ∧ p[i]? = some ⟨1, .utf8 s⟩

/-- A class by its name. -/
def C124.Cls (p : List Entry) (i : Nat) (s : Bytes) : Prop := ∃ j, 0 < i ∧ p[i]? = some ⟨7, .u2 j⟩ ∧ C124.Text p j s

/-- A method of a class with its name and descriptor. -/
def C124.MethodRef (p : List Entry) (i : Nat) (cls name descr : Bytes) : Prop :=
  ∃ a b x y, 0 < i ∧ p[i]? = some ⟨10, .ref a b⟩ ∧ C124.Cls p a cls ∧ p[b]? = some ⟨12, .nameType x y⟩
    ∧ C124.Text p x name ∧ C124.Text p y descr

/-- Two bytes, most significant first. -/
def C124.be2 (n : Nat) : Bytes := [UInt8.ofNat (n / 256), UInt8.ofNat (n % 256)]
def C124.be4 (n : Nat) : Bytes := C124.be2 (n / 65536) ++ C124.be2 (n % 65536)

/-- The contents of a `Code` attribute: stack, locals, code, no handlers, attributes. -/
def C124.code (stack locals : Nat) (code : Bytes) (attrs : List (Nat × Bytes)) : Bytes :=
  C124.be2 stack ++ C124.be2 locals ++ C124.be4 code.length ++ code ++ C124.be2 0 ++ C124.be2 attrs.length
    ++ attrs.flatMap (fun a => C124.be2 a.1 ++ C124.be4 a.2.length ++ a.2)

/-- A method as declared: flags, name, descriptor. -/
def C124.Declares (p : List Entry) (m : Member) (flags : Nat) (d : Bytes × Bytes) : Prop :=
  m.flags = flags ∧ C124.Text p m.name d.1 ∧ C124.Text p m.descr d.2

/-- One to one. -/
inductive C124.All2 {α β : Type} (R : α → β → Prop) : List α → List β → Prop
  | nil : All2 R [] []
  | cons {a b l k} : R a b → All2 R l k → All2 R (a :: l) (b :: k)

/-- ASCII text. -/
def C124.str (s : String) : Bytes := s.toList.map fun c => UInt8.ofNat c.toNat

open C124

/-! ### Lemmas -/

private def texts : List (Bytes × Bytes) → List Entry
  | [] => []
  | m :: ms => ⟨1, .utf8 m.1⟩ :: ⟨1, .utf8 m.2⟩ :: texts ms

private def membs (k : Nat) : List (Bytes × Bytes) → List Member
  | [] => []
  | _ :: ms => ⟨0, toU2 k, toU2 (k + 1), []⟩ :: membs (k + 2) ms

private theorem texts_len : ∀ ms, (texts ms).length = 2 * ms.length
  | [] => rfl
  | _ :: ms => by simp only [texts, List.length_cons, texts_len ms]; omega

private theorem texts_append : ∀ a b, texts (a ++ b) = texts a ++ texts b
  | [], _ => rfl
  | _ :: a, b => by simp [texts, texts_append a b]

private theorem export_eq : ∀ (ms : List (Bytes × Bytes)) (c : ClassFile),
    exportClass ms c = { c with pool := c.pool ++ texts ms, methods := c.methods ++ membs c.pool.length ms }
  | [], c => by simp [exportClass, texts, membs]
  | m :: ms, c => by
    simp only [exportClass]
    rw [export_eq ms]
    simp [addMethod, texts, membs]

private theorem onLast_append (f : Member → Member) : ∀ (l : List Member) (m : Member), onLast f (l ++ [m]) = l ++ [f m]
  | [], m => rfl
  | [a], m => rfl
  | a :: b :: l, m => by
    have := onLast_append f (b :: l) m
    simp only [List.cons_append] at this ⊢
    simp only [onLast, this]

private theorem membs_append : ∀ (a b : List (Bytes × Bytes)) (k : Nat), membs k (a ++ b) = membs k a ++ membs (k + 2 * a.length) b
  | [], b, k => by simp [membs]
  | m :: a, b, k => by
    simp only [List.cons_append, membs, membs_append a b, List.length_cons]
    rw [show k + 2 + 2 * a.length = k + 2 * (a.length + 1) by omega]

/-- The pool, in full. -/
private def poolOf (name : Bytes) (ms : List (Bytes × Bytes)) : List Entry :=
  let k := 4 + 2 * ms.length
  .null :: ⟨10, .ref (toU2 k) (toU2 (k + 6))⟩ :: (texts (ms ++ [(sAuto, sVoid)]) ++
    [⟨7, .u2 (toU2 (k + 1))⟩, ⟨1, .utf8 sCppObject⟩, ⟨7, .u2 (toU2 (k + 3))⟩, ⟨1, .utf8 name⟩,
      ⟨1, .utf8 sInit⟩, ⟨1, .utf8 sVoid⟩, ⟨12, .nameType (toU2 (k + 4)) (toU2 (k + 5))⟩, ⟨1, .utf8 sCode⟩])

private theorem write_eq (name : Bytes) (ms : List (Bytes × Bytes)) :
    write name ms =
      { magic := 0xCAFEBABE, minor := 0, major := 50, pool := poolOf name ms, flags := 1
        this := toU2 (4 + 2 * ms.length + 2), super := toU2 (4 + 2 * ms.length), interfaces := [], fields := []
        methods := (membs 2 (ms ++ [(sAuto, sVoid)])).map (fun m => { m with flags := 0x101 }) ++
          [⟨1, toU2 (4 + 2 * ms.length + 4), toU2 (4 + 2 * ms.length + 5), [⟨toU2 (4 + 2 * ms.length + 7), ctorCode⟩]⟩]
        attrs := [] } := by
  unfold write
  simp only [export_eq, push, fresh, ClassFile.empty, addMethod, setThis, setSuper, makeNative, addCtor, onLast_append]
  simp [texts_len, poolOf, texts_append, texts, membs_append, membs]
  simp only [toU2]; omega


private theorem at_drop {p : List Entry} {k : Nat} {e : Entry} {l : List Entry} (h : p.drop k = e :: l) : p[k]? = some e := by
  have := congrArg (·[0]?) h
  simpa using this

private theorem drop_succ {p : List Entry} {k : Nat} {e : Entry} {l : List Entry} (h : p.drop k = e :: l) : p.drop (k + 1) = l := by
  rw [← List.drop_drop, h]; rfl

private theorem small {n : Nat} (h : n < 65536) : toU2 n = n := Nat.mod_eq_of_lt h

private theorem text_at {p : List Entry} {k : Nat} {s : Bytes} {l : List Entry} (hk : 0 < k) (hb : k < 65536)
    (h : p.drop k = ⟨1, .utf8 s⟩ :: l) : Text p (toU2 k) s := by
  rw [small hb]; exact ⟨hk, at_drop h⟩

private theorem membs_all (p : List Entry) : ∀ (ms : List (Bytes × Bytes)) (k : Nat) (rest : List Entry), 0 < k →
    k + 2 * ms.length ≤ 65536 → p.drop k = texts ms ++ rest →
    All2 (fun m d => Declares p m 0x101 d ∧ m.attrs = []) ((membs k ms).map (fun m => { m with flags := 0x101 })) ms
  | [], _, _, _, _, _ => .nil
  | m :: ms, k, rest, hk, hb, h => by
    simp only [texts, List.cons_append] at h
    simp only [membs, List.map_cons]
    simp only [List.length_cons] at hb
    have h1 := drop_succ h
    refine .cons ⟨⟨rfl, text_at hk (by omega) h, text_at (by omega) (by omega) h1⟩, rfl⟩ ?_
    exact membs_all p ms (k + 2) rest (by omega) (by omega) (drop_succ h1)

/-! ### C124 -/

/-- C124, partial: for every class name and all methods, the description names the class and its superclass; it declares each of the
methods and `auto` as public native, and a public constructor, the code of which calls that of the superclass, every index in it being
one of an entry of the kind it has to be.  Partial: the constant pool has to fit, and see `C52_fails` for how it is written. -/
theorem C124_class_partial (name : Bytes) (ms : List (Bytes × Bytes)) (hb : 2 * ms.length + 12 ≤ 65535) :
    let c := write name ms
    c.magic = 0xCAFEBABE ∧ c.major = 50 ∧ c.flags = 1 ∧ c.pool.length ≤ 65535
    ∧ Cls c.pool c.this name ∧ Cls c.pool c.super (str "CppObject")
    ∧ ∃ meths ctor i r t txt, c.methods = meths ++ [ctor]
      ∧ All2 (fun m d => Declares c.pool m 0x101 d ∧ m.attrs = []) meths (ms ++ [(str "auto", str "()V")])
      ∧ Declares c.pool ctor 1 (str "<init>", str "()V")
      ∧ ctor.attrs = [⟨i, code 1 1 ([0x2a, 0xb7] ++ be2 r ++ [0xb1]) [(t, be2 1 ++ be2 0 ++ be2 1)]⟩]
      ∧ Text c.pool i (str "Code") ∧ MethodRef c.pool r (str "CppObject") (str "<init>") (str "()V") ∧ Text c.pool t txt := by
  intro c
  have hc : c = _ := write_eq name ms
  have hp : c.pool = poolOf name ms := by rw [hc]
  have hd2 : c.pool.drop 2 = texts (ms ++ [(sAuto, sVoid)]) ++
    [⟨7, .u2 (toU2 (4 + 2 * ms.length + 1))⟩, ⟨1, .utf8 sCppObject⟩, ⟨7, .u2 (toU2 (4 + 2 * ms.length + 3))⟩, ⟨1, .utf8 name⟩,
      ⟨1, .utf8 sInit⟩, ⟨1, .utf8 sVoid⟩, ⟨12, .nameType (toU2 (4 + 2 * ms.length + 4)) (toU2 (4 + 2 * ms.length + 5))⟩,
      ⟨1, .utf8 sCode⟩] := by rw [hp]; rfl
  have hlen : (texts (ms ++ [(sAuto, sVoid)])).length = 2 + 2 * ms.length := by
    rw [texts_len]; simp; omega
  have d0 := congrArg (List.drop (2 + 2 * ms.length)) hd2
  rw [List.drop_drop, ← hlen, List.drop_left, hlen, show 2 + (2 + 2 * ms.length) = 4 + 2 * ms.length by omega] at d0
  have d1 := drop_succ d0
  have d2 := drop_succ d1
  have d3 := drop_succ d2
  have d4 := drop_succ d3
  have d5 := drop_succ d4
  have d6 := drop_succ d5
  have d7 := drop_succ d6
  have p1 : c.pool[1]? = some ⟨10, .ref (toU2 (4 + 2 * ms.length)) (toU2 (4 + 2 * ms.length + 6))⟩ := by rw [hp]; rfl
  have hsup : Cls c.pool (toU2 (4 + 2 * ms.length)) (str "CppObject") :=
    ⟨_, by rw [small (by omega)]; omega, by rw [small (by omega)]; exact at_drop d0, text_at (by omega) (by omega) d1⟩
  have t7 : ∃ txt, Text c.pool 7 txt := by
    match ms, hd2 with
    | [], h => exact ⟨name, by omega, by rw [hp]; rfl⟩
    | [a], h => exact ⟨sCppObject, by omega, by rw [hp]; rfl⟩
    | a :: b :: l, h =>
      cases l with
      | nil => exact ⟨sVoid, by omega, by rw [hp]; rfl⟩
      | cons d l => exact ⟨d.2, by omega, by rw [hp]; rfl⟩
  obtain ⟨txt, ht⟩ := t7
  refine ⟨by rw [hc], by rw [hc], by rw [hc], ?_, ?_, by rw [show c.super = toU2 (4 + 2 * ms.length) by rw [hc]]; exact hsup, ?_⟩
  · rw [hp]; simp [poolOf, texts_len]; omega
  · rw [show c.this = toU2 (4 + 2 * ms.length + 2) by rw [hc]]
    exact ⟨_, by rw [small (by omega)]; omega, by rw [small (by omega)]; exact at_drop d2, text_at (by omega) (by omega) d3⟩
  · refine ⟨_, _, _, 1, 7, txt, by rw [hc], ?_, ?_, rfl, ?_, ?_, ht⟩
    · exact membs_all c.pool _ 2 _ (by omega) (by simp; omega) hd2
    · exact ⟨rfl, text_at (by omega) (by omega) d4, text_at (by omega) (by omega) d5⟩
    · exact text_at (by omega) (by omega) d7
    · exact ⟨_, _, _, _, by omega, p1, hsup, by rw [small (by omega)]; exact at_drop d6, text_at (by omega) (by omega) d4,
        text_at (by omega) (by omega) d5⟩

/-- A class with a variable `x` of type int and a method. -/
example : let c := write (str "Foo") [(str "x", str "(I)I"), (str "getX", str "()I"), (str "setX", str "(I)V"), (str "f", str "(II)F")]
    Cls c.pool c.this (str "Foo") ∧ c.methods.length = 6 := by
  refine ⟨(C124_class_partial _ _ (by decide)).2.2.2.2.1, by decide⟩

/-- C124 fails for classes with more methods than the pool has room for, which are not refused: with 32765 of them, the index of the
class is that of no class. -/
theorem C124_fails_large (name : Bytes) (ms : List (Bytes × Bytes)) (h : ms.length = 32765) (n : Bytes) :
    ¬ Cls (write name ms).pool (write name ms).this n := by
  rw [write_eq]
  simp only [h]
  rintro ⟨j, h0, -⟩
  exact absurd h0 (by decide)

example : ¬ Cls (write (str "Foo") (List.replicate 32765 (str "f", str "()V"))).pool
    (write (str "Foo") (List.replicate 32765 (str "f", str "()V"))).this (str "Foo") :=
  C124_fails_large _ _ List.length_replicate _

/-- Nor are methods told apart: of two with the same name and descriptor, as come from members of a class and of its base, both are
declared, which Java does not allow. -/
theorem C124_fails_twice (name n d : Bytes) (ms : List (Bytes × Bytes)) (hb : 2 * (ms.length + 2) + 12 ≤ 65535) :
    ∃ m m' rest, (write name ((n, d) :: (n, d) :: ms)).methods = m :: m' :: rest
      ∧ Declares (write name ((n, d) :: (n, d) :: ms)).pool m 0x101 (n, d)
      ∧ Declares (write name ((n, d) :: (n, d) :: ms)).pool m' 0x101 (n, d) := by
  obtain ⟨-, -, -, -, -, -, meths, ctor, i, r, t, txt, h1, h2, -⟩ := C124_class_partial name ((n, d) :: (n, d) :: ms) (by simpa using hb)
  simp only [List.cons_append] at h2
  cases h2 with
  | cons a h2 =>
    cases h2 with
    | cons b h2 => exact ⟨_, _, _, h1, a.1, b.1⟩

end Verif.JniClass
