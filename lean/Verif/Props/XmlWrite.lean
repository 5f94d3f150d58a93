import Verif.XmlEx
/-
XML: C26 well formed output, C27 round trip.
-/
namespace Verif.Xml
open OMap EnumKeys
open Verif.Json (JV dot tail)
open XmlP

/-! ### C26 Well formed output -/

/-- A fresh packer writes, for a value of any type of the universe under a name, one element of
that name, with properly nested tags inside (`DocB` is the grammar in XmlDoc.lean), and nothing
else but white space.  The strings are arbitrary.  Missing: `signed`/`unsigned char` members with
markup characters, CDATA with an embedded end (`Wr`), null roots (`Rooted`), packers used before
under a dotted name: see below. -/
theorem C26_well_formed_partial {g : Cfg} {t : XT} {n : Str} {v : JV} (hs : SchemaOK g.schema)
    (hn : XmlName n) (hN : NamesOK t) (hw : Wr g (fun _ => True) t v) (hr : Rooted t v) :
    ∃ U d sp, packDoc g t n v = d ++ sp ∧ DocB g.sgn (fun _ => True) U d ∧ Spaces sp ∧ U.name = n := by
  obtain ⟨U, d, sp, h1, h2, h3, h4, -⟩ := packDoc_doc (OK := fun _ => True) (fun _ _ => trivial)
    hs hn hN hw hr
  exact ⟨U, d, sp, h1, h2, h3, h4⟩

example : ∃ U d sp, packDoc cfg Q (b "q") qv = d ++ sp ∧ DocB true (fun _ => True) U d ∧ Spaces sp ∧
    U.name = b "q" :=
  C26_well_formed_partial (.inr (by decide)) (xmlName _ (by decide) (by decide) (by decide) (by decide))
    namesQ (wrQ _ (by simp)) rootedQ

/-- A packer that has been used under the name `a.b` then writes the next value without a root. -/
theorem C26_fails_reuse :
    (packX ⟨true, [], false⟩ P (b "c") (pv 2 (b "z"))
      (packX ⟨true, [], false⟩ P (b "a.b") (pv 1 (b "y")) ⟨[], 0⟩)).out =
    b "<b><x>1</x><s>y</s></b><x>2</x><s>z</s>" := by decide

/-- A null pointer is written as nothing at all: no root. -/
theorem C26_fails_null : packDoc ⟨true, [], false⟩ (.ptr P) (b "r") .null = [] := by decide

/-- An `unsigned char` is written without quoting. -/
theorem C26_fails_byte : packDoc ⟨true, [], false⟩ .byte (b "r") (.str (b "<")) = b "<r><</r>" := by
  decide

/-! ### C27 Round trip -/

/-- Every value of the universe is restored when written by a fresh packer, parsed and unpacked.
`Val`, `TypeOK`, `Fit` and `Wr` (XmlPack.lean, XmlUnpack.lean) give the conditions; each of the
`C27_fails` below shows one of them to be needed. -/
theorem C27_roundtrip_partial {g : Cfg} {t : XT} {n : Str} {v old : JV} {miss : Bool}
    (hs : SchemaOK g.schema) (hn : XmlName n) (hN : NamesOK t) (ht : TypeOK t) (hv : Val g t v)
    (hnn : NotNull t v) (hw : Wr g okRun t v) (hf : Fit miss t v old) :
    ∃ m, parse g.sgn DB.empty (packDoc g t n v) = some m ∧ unpackX miss m t n old = some v :=
  roundtrip hs hn hN ht hv hnn hw hf

private theorem goodB : ∀ c ∈ b "a b" ++ b "<&>" ++ b "z" ++ b "w", goodCh true c = true := by decide

private theorem valP (i : Int) (hi : InRange int32 i) (s : Str) (h : ∀ c ∈ s, goodCh true c = true) :
    Val cfg P (pv i s) := by
  simp only [P, pv, Val, ValF]
  exact ⟨_, _, rfl, ⟨i, rfl, hi⟩, _, _, rfl, ⟨s, rfl, h⟩, rfl⟩

private theorem valQ : Val cfg Q qv := by
  simp only [Q, qv, Val, ValF]
  refine ⟨_, _, rfl, valP _ ⟨by decide, by decide⟩ _ (by decide), _, _, rfl, ⟨_, rfl, ?_⟩, _, _, rfl, .inl rfl, _, _,
    rfl, .inr ⟨_, rfl, valP _ ⟨by decide, by decide⟩ _ (by decide)⟩, _, _, rfl, ⟨_, rfl⟩, rfl⟩
  intro x hx
  simp only [List.mem_cons, List.not_mem_nil, or_false] at hx
  rcases hx with rfl | rfl
  · exact ⟨valP _ ⟨by decide, by decide⟩ _ (by decide), trivial⟩
  · exact ⟨valP _ ⟨by decide, by decide⟩ _ (by decide), trivial⟩

private theorem typeQ : TypeOK Q := by
  simp only [Q, P, TypeOK, TypeOKF, ElemType, isPtr, isStruct, namesF, names]
  decide

example : ∃ m, parse cfg.sgn DB.empty (packDoc cfg Q (b "q") qv) = some m ∧
    unpackX true m Q (b "q") (dflt Q) = some qv := by
  refine C27_roundtrip_partial (.inr (by decide)) (xmlName _ (by decide) (by decide) (by decide)
    (by decide)) namesQ typeQ valQ trivial (wrQ okRun ?_) ?_
  · refine ⟨⟨?_, ?_⟩, ⟨?_, ?_⟩, ⟨?_, ?_⟩, ⟨?_, ?_⟩⟩ <;> decide
  · simp [Q, P, qv, pv, Fit, FitF, fstOf, sndOf, elemsOf, bytesOf, b]

private abbrev g0 : Cfg := ⟨true, [], false⟩

/-- An empty string does not replace what was there. -/
theorem C27_fails_empty_string : trip g0 false .str (.str []) (.str (b "old")) = some (.str (b "old")) := by
  rfl
/-- With `missingException` it is an error. -/
theorem C27_fails_empty_missing : trip g0 true .str (.str []) (.str []) = none := eqO_eq (by decide +kernel)
/-- A string that is `<` or has such a part between equal signs is an error. -/
theorem C27_fails_lt : trip g0 false .str (.str (b "a=<=b")) (.str []) = none := eqO_eq (by decide +kernel)
/-- A blank character is lost. -/
theorem C27_fails_blank_char : trip g0 false .chr (.str [32]) (.str (b "z")) = some (.str (b "z")) := eqO_eq (by decide +kernel)
/-- A `ref<int>` is written in two elements and read from the outer. -/
theorem C27_fails_ref : packDoc g0 (.ref (.int int32)) (b "r") (.ptr (.int 5)) = b "<r><r>5</r></r>" ∧
    trip g0 false (.ref (.int int32)) (.ptr (.int 5)) (.ptr (.int 0)) = some (.ptr (.int 0)) :=
  ⟨by decide, eqO_eq (by decide +kernel)⟩
/-- A null `ref` becomes one to an object. -/
theorem C27_fails_null_ref : trip g0 false (.ref P) .null .null = some (.ptr (dflt P)) := eqO_eq (by decide +kernel)
/-- So do null pointers in containers. -/
theorem C27_fails_null_elem : trip g0 false (.seq (b "P") (.ptr P)) (.seq [.null]) (.seq []) =
    some (.seq [.ptr (dflt P)]) := eqO_eq (by decide +kernel)
/-- Pointers to numbers in containers are written in two elements and read from the outer. -/
theorem C27_fails_elem_ptr : packDoc g0 (.seq (b "int") (.ptr (.int int32))) (b "r")
      (.seq [.ptr (.int 5)]) = b "<r><int><int>5</int></int></r>" ∧
    trip g0 false (.seq (b "int") (.ptr (.int int32))) (.seq [.ptr (.int 5)]) (.seq []) =
      some (.seq [.ptr (.int 0)]) := ⟨by decide, eqO_eq (by decide +kernel)⟩
/-- Members of the class and its base of the same name are mixed up. -/
theorem C27_fails_same_name : trip g0 false
    (.struct (.base (.struct (.mem (b "x") (.int int32) .nil)) (.mem (b "x") (.int int32) .nil)))
    (.pair (.pair (.int 1) .unit) (.pair (.int 2) .unit)) (.pair (.pair (.int 0) .unit) (.pair (.int 0) .unit)) =
    some (.pair (.pair (.int 1) .unit) (.pair (.int 1) .unit)) := eqO_eq (by decide +kernel)

end Verif.Xml
