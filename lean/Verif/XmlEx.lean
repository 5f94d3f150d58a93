import Verif.XmlSound
/-
Examples for the XML properties.
-/
namespace Verif.Xml
open OMap EnumKeys
open Verif.Json (JV dot tail)

namespace XmlP
/-- ASCII text as bytes. -/
def b (s : String) : Str := s.toList.map fun c => UInt8.ofNat c.toNat
/-- `struct P { int x; string s; }` -/
def P : XT := .struct (.mem (b "x") (.int int32) (.mem (b "s") .str .nil))
def pv (i : Int) (s : Str) : JV := .pair (.int i) (.pair (.str s) .unit)
/-- `struct Q : P { vector<P> v; shared_ptr<Q0> p, q; bool f; }` -/
def Q : XT := .struct (.base P (.mem (b "v") (.seq (b "P") P) (.mem (b "p") (.ptr P)
  (.mem (b "q") (.ptr P) (.mem (b "f") .bool .nil)))))
def qv : JV := .pair (pv 1 (b "a b")) (.pair (.seq [pv (-2) (b "<&>"), pv 3 (b "z")])
  (.pair .null (.pair (.ptr (pv 4 (b "w"))) (.pair (.bool true) .unit))))
def cfg : Cfg := ⟨true, b "http://x.y", true⟩
/-- Write under the name `r`, parse, unpack. -/
def trip (g : Cfg) (miss : Bool) (t : XT) (v old : JV) : Option JV :=
  (parse g.sgn DB.empty (packDoc g t (b "r") v)).bind fun m => unpackX miss m t (b "r") old
theorem xmlName (n : Str) (h1 : n.all nameCh = true) (h2 : n.head? ≠ some 33)
    (h3 : n.head? ≠ some 63) (h4 : n ≠ []) : XmlName n := by
  refine ⟨by simpa using h1, ?_⟩
  cases n with
  | nil => exact absurd rfl h4
  | cons c r => exact ⟨c, r, rfl, by simpa using h2, by simpa using h3⟩

theorem namesQ : NamesOK Q := by
  simp only [Q, P, NamesOK, NamesOKF]
  refine ⟨⟨?_, trivial, ?_, trivial, trivial⟩, ?_, ⟨?_, ?_, trivial, ?_, trivial, trivial⟩, ?_,
    ⟨?_, trivial, ?_, trivial, trivial⟩, ?_, ⟨?_, trivial, ?_, trivial, trivial⟩, ?_, trivial,
    trivial⟩ <;> exact xmlName _ (by decide) (by decide) (by decide) (by decide)

theorem wrQ (OK : Str → Prop) (h : OK (b "a b") ∧ OK (b "<&>") ∧ OK (b "z") ∧ OK (b "w")) :
    Wr cfg OK Q qv := by
  simp [Q, P, qv, pv, Wr, WrF, fstOf, sndOf, elemsOf, bytesOf, Runs, dcd, dc, goodCh, cfg, b] at h ⊢
  exact ⟨h.1, ⟨h.2.1, h.2.2.1⟩, h.2.2.2⟩

theorem rootedQ : Rooted Q qv := by simp [Q, Rooted]


mutual
/-- Comparison of values, to let the kernel evaluate the concrete cases. -/
def eqV : JV → JV → Bool
  | .bool a, .bool b => a == b
  | .int a, .int b => decide (a = b)
  | .str a, .str b => decide (a = b)
  | .seq l, .seq k => eqL l k
  | .pair a c, .pair a' c' => eqV a a' && eqV c c'
  | .unit, .unit => true
  | .null, .null => true
  | .ptr a, .ptr c => eqV a c
  | _, _ => false
def eqL : List JV → List JV → Bool
  | [], [] => true
  | a :: l, c :: k => eqV a c && eqL l k
  | _, _ => false
end

mutual
theorem eqV_eq : ∀ {a c : JV}, eqV a c = true → a = c := by
  intro a c h
  cases a <;> cases c <;> simp [eqV] at h <;> try exact h ▸ rfl
  · exact eqL_eq h ▸ rfl
  · rw [eqV_eq h.1, eqV_eq h.2]
  · rfl
  · rfl
  · rw [eqV_eq h]
theorem eqL_eq : ∀ {a c : List JV}, eqL a c = true → a = c := by
  intro a c h
  cases a <;> cases c <;> simp [eqL] at h
  · rfl
  · rw [eqV_eq h.1, eqL_eq h.2]
end

def eqO : Option JV → Option JV → Bool
  | some a, some c => eqV a c
  | none, none => true
  | _, _ => false

theorem eqO_eq {a c : Option JV} (h : eqO a c = true) : a = c := by
  cases a <;> cases c <;> simp [eqO] at h
  · rfl
  · rw [eqV_eq h]
end XmlP

end Verif.Xml
