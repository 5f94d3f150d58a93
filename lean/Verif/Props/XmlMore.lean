import Verif.Props.XmlRead
/-
XML: C58 CDATA, C59 comments, C60 attributes.
-/
namespace Verif.Xml
open OMap EnumKeys
open Verif.Json (JV dot tail)
open XmlP

/-! ### C58 CDATA -/

/-- A CDATA string, written without pretty printing, is restored if it contains no end of section
(`]]>`), no `]]]`, no code 0 and does not end in `]`, and is not markup by itself. -/
theorem C58_cdata_partial {g : Cfg} {n s : Str} (hg : g.pretty = false) (hs : SchemaOK g.schema)
    (hn : XmlName n) (h0 : s ≠ []) (h1 : 0 ∉ s) (h2 : ¬ b "]]>" <:+: s) (h3 : ¬ b "]]]" <:+: s)
    (h4 : s.getLast? ≠ some 93) (h5 : s ≠ b "<") (h6 : s ≠ b "</") (old : JV) :
    ∃ m, parse g.sgn DB.empty (packDoc g .cdata n (.str s)) = some m ∧
      unpackX false m .cdata n old = some (.str s) := by
  refine roundtrip hs hn trivial trivial ?_ trivial ?_ ?_
  · simp only [Val]; exact ⟨hg, s, rfl⟩
  · simp only [Wr, bytesOf]; exact ⟨⟨h5, h6⟩, h1, h2, h3, h4⟩
  · simp only [Fit, bytesOf]; exact .inl h0

private def g0 : Cfg := ⟨true, [], false⟩

example : ∃ m, parse g0.sgn DB.empty (packDoc g0 .cdata (b "r") (.str (b "<a> & ]] b"))) = some m ∧
    unpackX false m .cdata (b "r") (.str []) = some (.str (b "<a> & ]] b")) := by
  have hn : XmlName (b "r") := xmlName _ (by decide) (by decide) (by decide) (by decide)
  have h1 : (0 : UInt8) ∉ b "<a> & ]] b" := by decide
  have h2 : ¬ b "]]>" <:+: b "<a> & ]] b" := by decide +kernel
  have h3 : ¬ b "]]]" <:+: b "<a> & ]] b" := by decide +kernel
  exact C58_cdata_partial (g := g0) rfl (.inl rfl) hn (by decide) h1 h2 h3 (by decide) (by decide) (by decide) _

theorem C58_fails_end : trip ⟨true, [], false⟩ false .cdata (.str (b "a]]>b")) (.str []) =
    some (.str (b "ab]]>")) := eqO_eq (by decide +kernel)
theorem C58_fails_bracket : trip ⟨true, [], false⟩ false .cdata (.str (b "a]")) (.str []) = none := eqO_eq (by decide +kernel)
theorem C58_fails_brackets : trip ⟨true, [], false⟩ false .cdata (.str (b "]]]a")) (.str []) =
    some (.str (b "]a")) := eqO_eq (by decide +kernel)
theorem C58_fails_nul : trip ⟨true, [], false⟩ false .cdata (.str [97, 0, 98]) (.str []) =
    some (.str (b "ab]]>")) := eqO_eq (by decide +kernel)
/-- Pretty printing adds line breaks and blanks to the string. -/
theorem C58_fails_pretty : trip ⟨true, [], true⟩ false .cdata (.str (b "a")) (.str []) =
    some (.str (b "\na ")) := eqO_eq (by decide +kernel)

/-! ### C59 Comments -/

/-- A comment without quotes or brackets, anywhere but inside a tag or before white space, makes no
difference. -/
theorem C59_comment_partial (sgn : Bool) (m : DB) (u s w p : Str)
    (hu : (run sgn (.text []) u).2 = some (.text p)) (hs : 34 ∉ s ∧ 60 ∉ s ∧ 62 ∉ s)
    (hw : ∀ c r, w = c :: r → isSpace c = false) (hne : w ≠ []) :
    parse sgn m (u ++ (b "<!--" ++ s ++ b "-->") ++ w) = parse sgn m (u ++ w) := by
  have key : run sgn (.text p) (b "<!--" ++ s ++ b "-->" ++ w) = run sgn (.text p) w := by
    cases w with
    | nil => exact absurd rfl hne
    | cons c r =>
      have hws : run sgn (.ws p) (c :: r) = run sgn (.text p) (c :: r) := run_ws_text _ (hw c r rfl) _
      rcases run_commentB (sgn := sgn) hs p (c :: r) with e | e
      · exact e
      · exact e.trans hws
  unfold parse
  rw [List.append_assoc, run_append, run_append, hu]
  simp only [key]

example (m : DB) : parse true m (b "<a>x<!-- it's a comment -->y</a>") = parse true m (b "<a>xy</a>") :=
  C59_comment_partial true m (b "<a>x") (b " it's a comment ") (b "y</a>") (b "x") (by decide)
    (by decide) (by intro c r h; cases h; decide) (by decide)

/-- A bracket in a comment ends it; the rest of it is taken for text. -/
theorem C59_fails_bracket : (parse true DB.empty (b "<a>x<!-- a > b -->y</a>")).bind
    (fun m => getText false m (b "a")) = some (some (b "x b -->y")) := by decide +kernel
/-- A single double quote in a comment swallows the rest of the document. -/
theorem C59_fails_quote : (parse true DB.empty (b "<a>x<!-- about 5\" long -->y</a>")).isNone = true := by
  decide +kernel
/-- White space after a comment is lost. -/
theorem C59_fails_space : (parse true DB.empty (b "<a>x<!-- some --> y</a>")).bind
    (fun m => getText false m (b "a")) = some (some (b "xy")) := by decide +kernel

/-! ### C60 Attributes -/

mutual
/-- The same elements without attributes. -/
def C60.bare : Tree → Tree
  | .mk n _ s ks => .mk n [] s (C60.bareL ks)
def C60.bareL : List Tree → List Tree
  | [] => []
  | k :: ks => C60.bare k :: C60.bareL ks
end
open C60

private theorem bareL_map (l : List Tree) : bareL l = l.map bare := by
  induction l with
  | nil => simp [bareL]
  | cons k l ih => simp [bareL, ih]

private theorem bare_name (t : Tree) : (bare t).name = t.name := by cases t; simp [bare, Tree.name]
private theorem bare_txt (t : Tree) : (bare t).txt = t.txt := by cases t; simp [bare, Tree.txt]
private theorem bare_kids (t : Tree) : (bare t).kids = t.kids.map bare := by
  cases t; simp [bare, Tree.kids, bareL_map]

private theorem bare_filter (l : List Tree) (n : Str) :
    ((l.map bare).filter fun k => k.name == n) = (l.filter fun k => k.name == n).map bare := by
  rw [List.filter_map]; congr 1; apply List.filter_congr; intro k _; simp [bare_name]

private theorem bare_find (t : Tree) (u : UPath) : C29.find (bare t) u = (C29.find t u).map bare := by
  induction u generalizing t with
  | nil => simp [C29.find]
  | cons x u ih =>
    obtain ⟨n, o⟩ := x
    simp only [C29.find, bare_kids, bare_filter, List.getElem?_map]
    cases (t.kids.filter fun k => k.name == n)[o.getD 0]? with
    | none => rfl
    | some k => simpa using ih k

/-- Attributes are ignored: of two documents with the same elements, one without attributes, the
same is read under every key, and the same number of elements found. -/
theorem C60_attributes_ignored_partial {sgn : Bool} {t : Tree} {w w' : Str} (h : DocB sgn okRun t w)
    (h' : DocB sgn okRun (bare t) w') : ∃ m m', parse sgn DB.empty w = some m ∧
      parse sgn DB.empty w' = some m' ∧ ∀ (o : Option Nat) (u : UPath), o.getD 0 = 0 →
        (∀ x ∈ u, KeyName x.1) →
        getText false m (ukey ((t.name, o) :: u)) = getText false m' (ukey ((t.name, o) :: u)) ∧
        ∀ n k, KeyName n → count m (ukey ((t.name, o) :: u ++ [(n, k)])) =
          count m' (ukey ((t.name, o) :: u ++ [(n, k)])) := by
  obtain ⟨m, h1, -, h2⟩ := C29_numbering_partial h []
  obtain ⟨m', h1', -, h2'⟩ := C29_numbering_partial h' []
  rw [List.append_nil] at h1 h1'
  refine ⟨m, m', h1, h1', fun o u ho hu => ?_⟩
  have a := h2 o u ho hu
  have a' := h2' o u ho hu
  rw [bare_name, bare_find] at a'
  refine ⟨?_, fun n k hn => ?_⟩
  · rw [a.1, a'.1]; cases C29.find t u <;> simp [bare_txt]
  · rw [a.2 n k hn, a'.2 n k hn]
    cases C29.find t u with
    | none => rfl
    | some e => simp [bare_kids, bare_filter]

private theorem nameA : XmlName (b "a") := xmlName _ (by decide) (by decide) (by decide) (by decide)
private theorem nameK : XmlName (b "k") := xmlName _ (by decide) (by decide) (by decide) (by decide)
private theorem conX : Con true okRun [] (b "x") [] (b "x") := by
  have := con_plain (sgn := true) (OK := okRun) (s := b "x") (by decide) [] ⟨by decide, by decide⟩
  simpa using this

example : ∃ m m', parse true DB.empty (b "<a k='v'>x</a>") = some m ∧
    parse true DB.empty (b "<a>x</a>") = some m' ∧ getText false m (b "a") = getText false m' (b "a") ∧
    getText false m (b "a.k") = getText false m' (b "a.k") := by
  have e1 : ElemB true okRun (.mk (b "a") [(b "k", b "v")] (b "x") []) (b "<a k='v'>x</a>") :=
    ElemB.full (sp := []) nameA (AtsB.attr (c := 32) (k := b "k") (s1 := []) (s2 := []) (q := 39)
      (v := b "v") (vw := b "v") (by decide) nameK (by intro c hc; cases hc) (by intro c hc; cases hc)
      (.inl rfl) (.raw (by decide) (by decide) .nil) (by decide) (by decide) .nil) conX
      (by intro c hc; cases hc)
  have e2 : ElemB true okRun (.mk (b "a") [] (b "x") []) (b "<a>x</a>") :=
    ElemB.full (sp := []) nameA .nil conX (by intro c hc; cases hc)
  obtain ⟨m, m', h1, h2, h3⟩ := C60_attributes_ignored_partial ⟨[], _, .nil, e1, rfl⟩
    (by simp only [bare, bareL]; exact ⟨[], _, .nil, e2, rfl⟩)
  exact ⟨m, m', h1, h2, (h3 none [] rfl (by simp)).1,
    (h3 none [(b "k", none)] rfl (by simpa using nameK.key)).1⟩

/-- An empty attribute value makes a correct document be rejected. -/
theorem C60_fails_empty_value : (parse true DB.empty (b "<a k=\"\">x</a>")).isNone = true := by
  decide +kernel
/-- A blank one is skipped, and the end of the tag taken for the value. -/
theorem C60_fails_blank_value : (parse true DB.empty (b "<a k=\" \">x</a>")).isNone = true := by
  decide +kernel

end Verif.Xml
