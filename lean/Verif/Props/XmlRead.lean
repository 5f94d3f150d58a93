import Verif.XmlEx
/-
XML: C28 malformed documents, C29 numbering.
-/
namespace Verif.Xml
open OMap EnumKeys
open Verif.Json (JV dot tail)
open XmlP

/-! ### C28 Malformed documents -/

/-- A document cut off anywhere inside its root element is rejected: `p` is what comes before the
element, `u` the beginning of the element, `v` the rest. -/
theorem C28_truncated {sgn : Bool} {t : Tree} {p u v : Str} (hp : Prolog p)
    (h : ElemB sgn okRun t (u ++ v)) (hu : u ≠ []) (hv : v ≠ []) (m : DB) :
    parse sgn m (p ++ u) = none := truncated hp h hu hv m

private theorem conText (n : Str) (h : n.all plain = true) : Con true okRun [] n [] n := by
  have := con_plain (sgn := true) (OK := okRun) (s := n) (by simpa using h) []
    (okRun_plain _ (by simpa using h))
  simpa using this

private theorem okNil : okRun [] := ⟨by decide, by decide⟩

private theorem elemAB : ElemB true okRun (.mk (b "a") [] [] [.mk (b "b") [] (b "xy") []])
    (b "<a><b>xy</b></a>") := by
  have ha : XmlName (b "a") := xmlName _ (by decide) (by decide) (by decide) (by decide)
  have hb : XmlName (b "b") := xmlName _ (by decide) (by decide) (by decide) (by decide)
  have h1 : Con true okRun [] [] [.mk (b "b") [] (b "xy") []] (b "<b>xy</b>") :=
    Con.kid (p := []) (sp := []) (s' := []) okNil hb .nil (conText (b "xy") (by decide))
      (by intro c hc; cases hc) (.nil okNil)
  exact ElemB.full (sp := []) ha .nil h1 (by intro c hc; cases hc)

example (m : DB) : parse true m (b " <a><b>xy</b></") = none :=
  C28_truncated (p := b " ") (u := b "<a><b>xy</b></") (v := b "a>") (.sp (by decide) .nil) elemAB
    (by decide) (by decide) m

/-- Whatever the text, when it is accepted, the part read is complete: what follows does not
matter.  So a text accepted is never one that only the continuation makes a document. -/
theorem C28_complete {sgn : Bool} {m m' : DB} {u : Str}
    (hs : ∃ t ∈ (run sgn (.text []) u).1, spaceTok t = false)
    (h : parse sgn m u = some m') (v : Str) : parse sgn m (u ++ v) = some m' := by
  unfold parse at h ⊢
  simp only at h ⊢
  rw [run_append]
  cases hm : (run sgn (.text []) u).2 with
  | none => simpa [hm] using parseToks_app hs h (cleanEnd none) []
  | some md =>
    simp only [outp]
    exact parseToks_app hs h _ _

example (m : DB) (v : Str) : ∃ m', parse true m (b "<a><b>xy</b></a>" ++ v) = some m' := by
  have h := parse_doc (sgn := true) ⟨[], _, .nil, elemAB, rfl⟩ m []
  exact ⟨_, C28_complete ⟨[60], by decide, by decide⟩ (by simpa using h) v⟩

/-- Whatever the text, when it is accepted its tokens are blank, or begin (after blanks) with an
empty token, or with a complete element: tags properly nested, each end tag with a name that ends
the path of the element or (a defect) is one character longer than the path. -/
theorem C28_accepted_partial {sgn : Bool} {m m' : DB} {w : Str} (h : parse sgn m w = some m') :
    ∃ sp, SpaceToks sp ∧
      ((run sgn (.text []) w).1 = sp ∨
       (∃ r, (run sgn (.text []) w).1 = sp ++ [] :: r) ∨
       ∃ n c r, n ≠ [] ∧ ElS n c ∧ (run sgn (.text []) w).1 = sp ++ [60] :: n :: (c ++ r)) := by
  unfold parse at h
  simp only at h
  generalize (run sgn (.text []) w).1 = l at h
  generalize cleanEnd (run sgn (.text []) w).2 = fin at h
  induction l with
  | nil => exact ⟨[], by intro t ht; simp at ht, .inl rfl⟩
  | cons t l ih =>
    simp only [parseToks] at h
    split at h
    · rename_i ht
      obtain ⟨sp, h1, h2⟩ := ih h
      refine ⟨t :: sp, ?_, ?_⟩
      · intro x hx; rcases List.mem_cons.1 hx with rfl | hx
        · exact ht
        · exact h1 x hx
      · rcases h2 with rfl | ⟨r, rfl⟩ | ⟨n, c, r, h3, h4, rfl⟩
        · exact .inl rfl
        · exact .inr (.inl ⟨r, rfl⟩)
        · exact .inr (.inr ⟨n, c, r, h3, h4, rfl⟩)
    split at h
    · rename_i ht
      subst ht
      exact ⟨[], by intro t ht; simp at ht, .inr (.inl ⟨l, rfl⟩)⟩
    split at h
    · rename_i ht
      subst ht
      cases l with
      | nil => simp at h
      | cons n l =>
        simp only at h
        split at h
        · simp at h
        rename_i hn
        cases he : elem (2 * l.length + 2) n m l with
        | none => rw [he] at h; simp at h
        | some r =>
          obtain ⟨m1, r⟩ := r
          obtain ⟨c, rfl, hc⟩ := (parse_sound _).1 _ _ _ _ _ he
          exact ⟨[], by intro t ht; simp at ht, .inr (.inr ⟨n, c, r, hn, hc, rfl⟩)⟩
    · simp at h

/-- An end tag that does not match is rejected at any depth: `ns` are the names of the elements
open, `n'` the name in the end tag.  Missing: names that end the name of the element, and names
longer than all the open names together (see below). -/
theorem C28_mismatch_partial {sgn : Bool} {ns : List Str} {p u : Str} (hp : Prolog p)
    (h : Opened sgn ns u) {n' : Str} (hn' : XmlName n') {sp : Str} (hsp : Spaces sp)
    (hbad : ∀ n, ns.getLast? = some n → ¬ n' <:+ n) (hlen : n'.length ≤ ns.flatten.length) (m : DB)
    (rest : Str) : parse sgn m (p ++ u ++ 60 :: 47 :: (n' ++ (sp ++ 62 :: rest))) = none :=
  mismatched hp h hn' hsp hbad hlen m rest

example (m : DB) (rest : Str) : parse true m (b "<a><b>xy</a>" ++ rest) = none := by
  have ha : XmlName (b "a") := xmlName _ (by decide) (by decide) (by decide) (by decide)
  have hb : XmlName (b "b") := xmlName _ (by decide) (by decide) (by decide) (by decide)
  have := C28_mismatch_partial (p := []) (sp := []) .nil
    (.more ha .nil (.nil okNil) (.one hb .nil (conText (b "xy") (by decide)))) ha
    (by intro c hc; cases hc) (by intro n hn; simp at hn; subst hn; decide) (by decide) m rest
  exact this

/-- An end tag with the end of the name is accepted. -/
theorem C28_fails_suffix : (parse true DB.empty (b "<ab>x</b>")).isSome = true := by decide +kernel
/-- So is any name one character longer than the path of the element. -/
theorem C28_fails_longer : (parse true DB.empty (b "<a>x</bc>")).isSome = true := by decide +kernel
/-- A text without any element is accepted, and one that begins with an empty string. -/
theorem C28_fails_nothing : (parse true DB.empty []).isSome = true ∧
    (parse true DB.empty (b "\"\"<a")).isSome = true := by decide +kernel
/-- A space in front of a `<` that is written as an entity makes correct XML be rejected. -/
theorem C28_fails_entity : (parse true DB.empty (b "<a>x &lt; y</a>")).isNone = true := by decide +kernel

/-! ### C29 Numbering -/

/-- The element at a path of names and numbers below (and including) the root. -/
def C29.find (t : Tree) : UPath → Option Tree
  | [] => some t
  | (n, o) :: u => ((t.kids.filter fun k => k.name == n)[o.getD 0]?).bind fun k => C29.find k u

private theorem find_at (t : Tree) (u : UPath) : C29.find t u = at' t (resolve u) := by
  induction u generalizing t with
  | nil => simp [C29.find, resolve, at']
  | cons x u ih =>
    obtain ⟨n, o⟩ := x
    simp only [C29.find, resolve, List.map_cons, at', sel]
    congr 1
    funext k
    exact ih k

/-- In the key space of any document of the grammar: under a key made of names, each with or
without a number (none meaning 0), is the text of the element found by following the names and
numbers; and the count for a name under a key is the number of children of that name. -/
theorem C29_numbering_partial {sgn : Bool} {t : Tree} {w : Str} (h : DocB sgn okRun t w) (rest : Str) :
    ∃ m, parse sgn DB.empty (w ++ rest) = some m ∧ count m t.name = 1 ∧
      ∀ (o : Option Nat) (u : UPath), o.getD 0 = 0 → (∀ x ∈ u, KeyName x.1) →
        getText false m (ukey ((t.name, o) :: u)) =
          some ((C29.find t u).bind fun e => if e.txt = [] then none else some e.txt) ∧
        ∀ n k, KeyName n → count m (ukey ((t.name, o) :: u ++ [(n, k)])) =
          ((C29.find t u).map fun e => (e.kids.filter fun c => c.name == n).length).getD 0 := by
  have hvt : VT t := by obtain ⟨p, e, _, he, _⟩ := h; exact he.vt
  have hk : KeyName t.name := by cases t; simp only [VT] at hvt; exact hvt.1
  refine ⟨_, parse_doc h DB.empty rest, ?_, fun o u ho hu => ?_⟩
  · have := (Keys.name hk).strip (q := [])
    unfold count; rw [this]; exact count_root hvt
  · have hvp : VP (resolve u) := by
      intro x hx
      simp only [resolve, List.mem_map] at hx
      obtain ⟨y, hy, rfl⟩ := hx
      exact hu y hy
    have hloc := walk_empty hvt (resolve u) hvp
    rw [Option.bind_some, ← find_at] at hloc
    have hres : resolve ((t.name, o) :: u) = [(t.name, 0)] ++ resolve u := by
      simp [resolve, ho]
    have hvp' : VP (resolve ((t.name, o) :: u)) := by
      rw [hres]; exact (VP.single hk 0).append hvp
    refine ⟨?_, fun n k hn => ?_⟩
    · have hK : Keys (ukey ((t.name, o) :: u)) ([(t.name, 0)] ++ resolve u) :=
        ⟨_, by simp, hvp', rfl, hres.symm⟩
      unfold getText
      rw [hK.noughts, hloc.2.1]
      cases hf : C29.find t u with
      | none => rfl
      | some e => 
        simp only [Option.bind_some, text?]
        by_cases h0 : e.txt = [] <;> simp [h0]
    · have hK : Keys (ukey ((t.name, o) :: u ++ [(n, k)])) ([(t.name, 0)] ++ resolve u ++ [(n, k.getD 0)]) := by
        refine ⟨_, by simp, ?_, rfl, by simp [resolve, ho]⟩
        have : resolve ((t.name, o) :: u ++ [(n, k)]) =
            resolve ((t.name, o) :: u) ++ [(n, k.getD 0)] := by simp [resolve]
        rw [this]
        exact hvp'.append (VP.single hn _)
      unfold count
      rw [hK.strip, hloc.1 n hn]
      rfl

/-- A name alone means number 0, in any key space. -/
theorem C29_nought (m : DB) (miss : Bool) (u u' : UPath) (hu : u ≠ []) (hk : ∀ x ∈ u, KeyName x.1)
    (h : u'.map (fun x => (x.1, x.2.getD 0)) = u.map fun x => (x.1, x.2.getD 0)) :
    getText miss m (ukey u') = getText miss m (ukey u) ∧ count m (ukey u') = count m (ukey u) := by
  have hvp : VP (resolve u) := by
    intro x hx
    simp only [resolve, List.mem_map] at hx
    obtain ⟨y, hy, rfl⟩ := hx
    exact hk y hy
  have hr : resolve u' = resolve u := h
  have hu' : u' ≠ [] := by
    intro e; subst e; simp at h; exact hu h
  have : noughts (ukey u') = noughts (ukey u) := by
    rw [noughts_ukey hu' (by rw [hr]; exact hvp), noughts_ukey hu hvp, hr]
  simp [getText, count, this]

example : ∃ m, parse true DB.empty (b "<a><b>xy</b></a>") = some m ∧
    getText false m (b "a.b") = some (some (b "xy")) ∧ getText false m (b "a#0.b#0") = some (some (b "xy")) ∧
    count m (b "a.b") = 1 ∧ count m (b "a.c") = 0 := by
  obtain ⟨m, h1, -, h2⟩ := C29_numbering_partial (sgn := true) ⟨[], _, .nil, elemAB, rfl⟩ []
  have kb : KeyName (b "b") := (xmlName _ (by decide) (by decide) (by decide) (by decide)).key
  have kc : KeyName (b "c") := (xmlName _ (by decide) (by decide) (by decide) (by decide)).key
  refine ⟨m, by simpa using h1, ?_, ?_, ?_, ?_⟩
  · exact (h2 none [(b "b", none)] rfl (by simpa using kb)).1
  · exact (h2 (some 0) [(b "b", some 0)] rfl (by simpa using kb)).1
  · exact (h2 none [] rfl (by simp)).2 (b "b") none kb
  · exact (h2 none [] rfl (by simp)).2 (b "c") none kc

/-- Names may contain dots in XML; then an element cannot be told from a child of another. -/
theorem C29_fails_dot : (parse true DB.empty (b "<a.b>x</a.b>")).bind
    (fun m => getText false m (b "a.b")) = some none := by decide +kernel
/-- A file that is not there is read as an empty text (xml_unpack_base.h:363): that is accepted, nothing is found in it, and that is an
exception only if data that are missing were asked to be. -/
theorem C28_fails_no_file (sgn : Bool) : parse sgn DB.empty [] = some DB.empty ∧
    ∀ k, count DB.empty k = 0 ∧ getText false DB.empty k = some none ∧ getText true DB.empty k = none := by
  refine ⟨rfl, fun k => ?_⟩
  have h : ∀ k : Str, mfind strLt k ([] : List (Str × Str)) = none := fun _ => rfl
  have h' : ∀ k : Str, mfind strLt k ([] : List (Str × Nat)) = none := fun _ => rfl
  simp [count, countOf, getText, DB.empty, h, h']


end Verif.Xml
