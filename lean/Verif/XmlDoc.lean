import Verif.XmlTree
/-
A grammar of XML documents as bytes, and what the tokeniser makes of them.
-/
namespace Verif.Xml
open OMap EnumKeys
open Verif.Json (JV dot tail)

/-! ### Grammar -/

/-- A character that may stand for itself in character data and is neither white space nor `=`. -/
def plain (c : UInt8) : Bool :=
  !isSpace c && c != 38 && c != 39 && c != 34 && c != 60 && c != 62 && c != 61

/-- A character of a name. -/
def nameCh (c : UInt8) : Bool := plain c && c != 47 && c != dot && c != hash

/-- A name of an element or attribute. -/
def XmlName (n : Str) : Prop :=
  (∀ c ∈ n, nameCh c = true) ∧ ∃ c r, n = c :: r ∧ c ≠ 33 ∧ c ≠ 63

/-- A character and a way to write it. -/
inductive Enc (sgn : Bool) : UInt8 → Str → Prop
  | raw {c} : plain c = true → Enc sgn c [c]
  | ent {c name} : entity sgn name = some c → 59 ∉ name → Enc sgn c (38 :: (name ++ [59]))

/-- An attribute value and a way to write it between quotes `q`. -/
inductive ValB (sgn : Bool) (q : UInt8) : Str → Str → Prop
  | nil : ValB sgn q [] []
  | raw {c v w} : c ≠ q → c ≠ 38 → ValB sgn q v w → ValB sgn q (c :: v) (c :: w)
  | ent {c name v w} : entity sgn name = some c → 59 ∉ name → ValB sgn q v w →
      ValB sgn q (c :: v) (38 :: (name ++ 59 :: w))

def Spaces (s : Str) : Prop := ∀ c ∈ s, isSpace c = true

/-- Attributes, each preceded by white space.  The reader cannot take empty or blank values. -/
inductive AtsB (sgn : Bool) : List (Str × Str) → Str → Prop
  | nil : AtsB sgn [] []
  | sp {c a w} : isSpace c = true → AtsB sgn a w → AtsB sgn a (c :: w)
  | attr {c k s1 s2 q v vw a w} : isSpace c = true → XmlName k → Spaces s1 → Spaces s2 →
      (q = 39 ∨ q = 34) → ValB sgn q v vw → v ≠ [] → spaceTok v = false → AtsB sgn a w →
      AtsB sgn ((k, v) :: a) (c :: (k ++ (s1 ++ 61 :: (s2 ++ q :: (vw ++ q :: w)))))

/-- What a CDATA section may contain. -/
def CdataOK (s : Str) : Prop :=
  0 ∉ s ∧ ¬ [93, 93, 62] <:+: s ∧ ¬ [93, 93, 93] <:+: s ∧ s.getLast? ≠ some 93

def CommentOK (s : Str) : Prop := 34 ∉ s ∧ 60 ∉ s ∧ 62 ∉ s

def NoSpaceHead : Str → Prop
  | [] => True
  | c :: _ => isSpace c = false

/-- The inside of an element: `Con sgn OK p t ks w` when `w` is content with character data `t` and
children `ks`, where `p` is the beginning of `t` already read.  A run of characters not interrupted
by white space, `=`, CDATA or markup must satisfy `OK` (nothing, for well formed XML; the reader
needs `okRun` below). -/
inductive Con (sgn : Bool) (OK : Str → Prop) : Str → Str → List Tree → Str → Prop
  | nil {p} : OK p → Con sgn OK p p [] []
  | chr {p c w t ks w'} : Enc sgn c w → Con sgn OK (p ++ [c]) t ks w' → Con sgn OK p t ks (w ++ w')
  | sep {p c t ks w'} : isSpace c = true ∨ c = 61 → OK p → Con sgn OK [] t ks w' →
      Con sgn OK p (p ++ c :: t) ks (c :: w')
  | cdata {p s t ks w'} : OK (p ++ s) → CdataOK s → Con sgn OK [] t ks w' →
      Con sgn OK p (p ++ s ++ t) ks (cdataText s ++ w')
  | comment {p s t ks w'} : CommentOK s → NoSpaceHead w' → Con sgn OK p t ks w' →
      Con sgn OK p t ks ([60, 33, 45, 45] ++ s ++ [45, 45, 62] ++ w')
  | kid {p n a aw s ks w sp s' ks' w'} : OK p → XmlName n → AtsB sgn a aw → Con sgn OK [] s ks w →
      Spaces sp → Con sgn OK [] s' ks' w' →
      Con sgn OK p (p ++ s') (.mk n a s ks :: ks')
        (60 :: (n ++ (aw ++ 62 :: (w ++ 60 :: 47 :: (n ++ (sp ++ 62 :: w'))))))
  | kidE {p n a aw s' ks' w'} : OK p → XmlName n → AtsB sgn a aw → Con sgn OK [] s' ks' w' →
      Con sgn OK p (p ++ s') (.mk n a [] [] :: ks') (60 :: (n ++ (aw ++ 47 :: 62 :: w')))

/-- An element. -/
inductive ElemB (sgn : Bool) (OK : Str → Prop) : Tree → Str → Prop
  | full {n a aw s ks w sp} : XmlName n → AtsB sgn a aw → Con sgn OK [] s ks w → Spaces sp →
      ElemB sgn OK (.mk n a s ks) (60 :: (n ++ (aw ++ 62 :: (w ++ 60 :: 47 :: (n ++ (sp ++ [62]))))))
  | empty {n a aw} : XmlName n → AtsB sgn a aw →
      ElemB sgn OK (.mk n a [] []) (60 :: (n ++ (aw ++ [47, 62])))

/-- The text of a declaration: brackets only within double quotes, and these in pairs. -/
def declOK : Bool → Str → Prop
  | b, [] => b = false
  | b, c :: s => if c = 34 then declOK (!b) s else (b = true ∨ (c ≠ 60 ∧ c ≠ 62)) ∧ declOK b s

/-- White space, comments and declarations before the root. -/
inductive Prolog : Str → Prop
  | nil : Prolog []
  | sp {c w} : isSpace c = true → Prolog w → Prolog (c :: w)
  | decl {s w} : declOK false s → Prolog w → Prolog (60 :: 63 :: (s ++ 62 :: w))
  | comment {s w} : CommentOK s → Prolog w → Prolog ([60, 33, 45, 45] ++ s ++ [45, 45, 62] ++ w)

/-- A document. -/
def DocB (sgn : Bool) (OK : Str → Prop) (t : Tree) (w : Str) : Prop :=
  ∃ p e, Prolog p ∧ ElemB sgn OK t e ∧ w = p ++ e

/-- What the reader needs of a run of characters: it must not look like markup after decoding. -/
def okRun (p : Str) : Prop := p ≠ [60] ∧ p ≠ [60, 47]

/-! ### Running the tokeniser -/

def outp (l : List Str) (r : List Str × Option Mode) : List Str × Option Mode := (l ++ r.1, r.2)

theorem outp_nil (r : List Str × Option Mode) : outp [] r = r := rfl
theorem outp_outp (a b : List Str) (r : List Str × Option Mode) :
    outp a (outp b r) = outp (a ++ b) r := by simp [outp]

theorem run_cons {sgn : Bool} {m m' : Mode} {c : UInt8} {t : List Str}
    (h : step sgn m c = some (t, m')) (w : Str) : run sgn m (c :: w) = outp t (run sgn m' w) := by
  simp only [run, h]; rfl

theorem stepText_plain {tok : Str} {c : UInt8} (h : plain c = true) (hs : c ≠ 47) :
    stepText tok c = ([], .text (tok ++ [c])) := by
  simp only [plain, Bool.and_eq_true, Bool.not_eq_true', bne_iff_ne, ne_eq] at h
  obtain ⟨⟨⟨⟨⟨⟨h1, h2⟩, h3⟩, h4⟩, h5⟩, h6⟩, h7⟩ := h
  simp [stepText, h1, h2, h3, h4, h5, h6, h7, hs]

theorem plain_space {c : UInt8} (h : plain c = true) : isSpace c = false := by
  simp only [plain, Bool.and_eq_true, Bool.not_eq_true'] at h
  exact h.1.1.1.1.1.1
theorem plain_gt {c : UInt8} (h : plain c = true) : c ≠ 62 := by
  intro e; subst e; revert h; decide

theorem nameCh_plain {c : UInt8} (h : nameCh c = true) : plain c = true ∧ c ≠ 47 ∧ c ≠ dot ∧ c ≠ hash := by
  simp only [nameCh, Bool.and_eq_true, bne_iff_ne, ne_eq] at h
  exact ⟨h.1.1.1, h.1.1.2, h.1.2, h.2⟩

theorem XmlName.key {n : Str} (h : XmlName n) : KeyName n := by
  refine ⟨?_, fun hh => (nameCh_plain (h.1 _ hh)).2.2.2 rfl, fun hh => (nameCh_plain (h.1 _ hh)).2.2.1 rfl⟩
  obtain ⟨c, r, rfl, _⟩ := h.2; simp

theorem XmlName.ne_gt {n : Str} (h : XmlName n) : n ≠ [62] := by
  intro e; subst e; exact absurd (h.1 62 (by simp)) (by decide)
theorem XmlName.ne_slash {n : Str} (h : XmlName n) : n ≠ [47, 62] := by
  intro e; subst e; exact absurd (h.1 62 (by simp)) (by decide)
theorem XmlName.not_space {n : Str} (h : XmlName n) : spaceTok n = false := by
  obtain ⟨c, r, rfl, _⟩ := h.2
  have := plain_space (nameCh_plain (h.1 c (by simp))).1
  simp [spaceTok, this]

theorem run_name {sgn : Bool} {n : Str} (h : ∀ c ∈ n, nameCh c = true) (p w : Str) :
    run sgn (.text p) (n ++ w) = run sgn (.text (p ++ n)) w := by
  induction n generalizing p with
  | nil => simp
  | cons c n ih =>
    have hc := nameCh_plain (h c (by simp))
    rw [List.cons_append, run_cons (t := []) (m' := .text (p ++ [c]))
      (by simp [step, stepText_plain hc.1 hc.2.1]), outp_nil,
      ih (fun x hx => h x (by simp [hx]))]
    simp

/-- After `<`, a name. -/
theorem run_lt_name {sgn : Bool} {n : Str} (h : XmlName n) (p w : Str) :
    run sgn (.lt p) (n ++ w) = outp (flush p ++ [[60]]) (run sgn (.text n) w) := by
  obtain ⟨hn, c, r, rfl, h1, h2⟩ := h
  have hc := nameCh_plain (hn c (by simp))
  rw [List.cons_append, run_cons (t := flush p ++ [[60]]) (m' := .text [c])
    (by simp [step, h1, h2, hc.2.1, stepText_plain hc.1 hc.2.1])]
  rw [run_name (fun x hx => hn x (by simp [hx]))]
  simp

theorem run_lt {sgn : Bool} (p w : Str) : run sgn (.text p) (60 :: w) = run sgn (.lt p) w := by
  rw [run_cons (t := []) (m' := .lt p) (by simp [step, stepText, isSpace]), outp_nil]

theorem run_ltslash {sgn : Bool} (p w : Str) :
    run sgn (.text p) (60 :: 47 :: w) = outp (flush p ++ [[60, 47]]) (run sgn (.text []) w) := by
  rw [run_lt, run_cons (t := flush p ++ [[60, 47]]) (m' := .text []) (by simp [step])]

theorem run_gt {sgn : Bool} (p w : Str) :
    run sgn (.text p) (62 :: w) = outp (flush p ++ [[62]]) (run sgn (.text []) w) := by
  rw [run_cons (t := flush p ++ [[62]]) (m' := .text []) (by simp [step, stepText, isSpace])]

theorem run_slashgt {sgn : Bool} (p w : Str) :
    run sgn (.text p) (47 :: 62 :: w) = outp (flush p ++ [[47, 62]]) (run sgn (.text []) w) := by
  rw [run_cons (t := []) (m' := .slash p) (by simp [step, stepText, isSpace]), outp_nil,
    run_cons (t := flush p ++ [[47, 62]]) (m' := .text []) (by simp [step])]

theorem run_space {sgn : Bool} {c : UInt8} (hc : isSpace c = true) (p w : Str) :
    run sgn (.text p) (c :: w) = outp (flush p ++ [[c]]) (run sgn (.text []) w) := by
  rw [run_cons (t := flush p ++ [[c]]) (m' := .text []) (by simp [step, stepText, hc])]

theorem run_eq {sgn : Bool} (p w : Str) :
    run sgn (.text p) (61 :: w) = outp (flush p ++ [[61]]) (run sgn (.text []) w) := by
  rw [run_cons (t := flush p ++ [[61]]) (m' := .text []) (by simp [step, stepText, isSpace])]

theorem spaceTok_single {c : UInt8} (h : isSpace c = true) : spaceTok [c] = true := by
  simp [spaceTok, h]

theorem run_spaces {sgn : Bool} {s : Str} (hs : Spaces s) (w : Str) :
    run sgn (.text []) (s ++ w) = outp (s.map fun c => [c]) (run sgn (.text []) w) := by
  induction s with
  | nil => rfl
  | cons c s ih =>
    rw [List.cons_append, run_space (hs c (by simp)), ih (fun x hx => hs x (by simp [hx])), outp_outp]
    simp [flush]

theorem spaces_toks {s : Str} (hs : Spaces s) : SpaceToks (s.map fun c => [c]) := by
  intro t ht
  obtain ⟨c, hc, rfl⟩ := List.mem_map.1 ht
  exact spaceTok_single (hs c hc)

/-- Pending characters, then white space and one of the characters that end a token. -/
theorem run_spaces_eq {sgn : Bool} {s : Str} (hs : Spaces s) (p w : Str) (hp : p ≠ []) :
    run sgn (.text p) (s ++ 61 :: w) =
      outp (p :: ((s.map fun c => [c]) ++ [[61]])) (run sgn (.text []) w) := by
  cases s with
  | nil => rw [List.nil_append, run_eq]; simp [flush, hp]
  | cons c s =>
    rw [List.cons_append, run_space (hs c (by simp)), run_spaces (fun x hx => hs x (by simp [hx])),
      run_eq, outp_outp, outp_outp]
    simp [flush, hp]

theorem run_spaces_gt {sgn : Bool} {s : Str} (hs : Spaces s) (p w : Str) (hp : p ≠ []) :
    run sgn (.text p) (s ++ 62 :: w) =
      outp (p :: ((s.map fun c => [c]) ++ [[62]])) (run sgn (.text []) w) := by
  cases s with
  | nil => rw [List.nil_append, run_gt]; simp [flush, hp]
  | cons c s =>
    rw [List.cons_append, run_space (hs c (by simp)), run_spaces (fun x hx => hs x (by simp [hx])),
      run_gt, outp_outp, outp_outp]
    simp [flush, hp]

theorem run_ent {sgn : Bool} {c : UInt8} {name : Str} (he : entity sgn name = some c)
    (hn : 59 ∉ name) (p w : Str) :
    run sgn (.text p) (38 :: (name ++ 59 :: w)) = run sgn (.text (p ++ [c])) w := by
  have key : ∀ (b a : Str), a ++ b = name → 59 ∉ b →
      run sgn (.ent p a) (b ++ 59 :: w) = run sgn (.text (p ++ [c])) w := by
    intro b
    induction b with
    | nil =>
      intro a ha _
      rw [List.append_nil] at ha
      rw [List.nil_append, run_cons (t := []) (m' := .text (p ++ [c]))
        (by simp [step, ha, he]), outp_nil]
    | cons x b ih =>
      intro a ha hb
      simp only [List.mem_cons, not_or] at hb
      rw [List.cons_append, run_cons (t := []) (m' := .ent p (a ++ [x]))
        (by simp [step, Ne.symm hb.1]), outp_nil]
      exact ih (a ++ [x]) (by simpa using ha) hb.2
  rw [run_cons (t := []) (m' := .ent p []) (by simp [step, stepText, isSpace]), outp_nil]
  exact key name [] (by simp) hn

theorem run_strEnt {sgn : Bool} {c q : UInt8} {name : Str} (he : entity sgn name = some c)
    (hn : 59 ∉ name) (hq : q ≠ 38) (p w : Str) :
    run sgn (.str p q) (38 :: (name ++ 59 :: w)) = run sgn (.str (p ++ [c]) q) w := by
  have key : ∀ (b a : Str), a ++ b = name → 59 ∉ b →
      run sgn (.strEnt p q a) (b ++ 59 :: w) = run sgn (.str (p ++ [c]) q) w := by
    intro b
    induction b with
    | nil =>
      intro a ha _
      rw [List.append_nil] at ha
      rw [List.nil_append, run_cons (t := []) (m' := .str (p ++ [c]) q)
        (by simp [step, ha, he]), outp_nil]
    | cons x b ih =>
      intro a ha hb
      simp only [List.mem_cons, not_or] at hb
      rw [List.cons_append, run_cons (t := []) (m' := .strEnt p q (a ++ [x]))
        (by simp [step, Ne.symm hb.1]), outp_nil]
      exact ih (a ++ [x]) (by simpa using ha) hb.2
  rw [run_cons (t := []) (m' := .strEnt p q []) (by simp [step, Ne.symm hq]), outp_nil]
  exact key name [] (by simp) hn

theorem run_val {sgn : Bool} {q : UInt8} {v vw : Str} (h : ValB sgn q v vw) (hq : q ≠ 38) (p w : Str) :
    run sgn (.str p q) (vw ++ q :: w) = outp [p ++ v] (run sgn (.text []) w) := by
  induction h generalizing p with
  | nil =>
    rw [List.nil_append, run_cons (t := [p]) (m' := .text []) (by simp [step])]
    simp
  | raw h1 h2 _ ih =>
    rename_i c v vw _
    rw [List.cons_append, run_cons (t := []) (m' := .str (p ++ [c]) q) (by simp [step, h1, h2]),
      outp_nil, ih]
    simp
  | ent h1 h2 _ ih =>
    rename_i c name v vw _
    rw [show 38 :: (name ++ 59 :: vw) ++ q :: w = 38 :: (name ++ 59 :: (vw ++ q :: w)) from by simp,
      run_strEnt h1 h2 hq, ih]
    simp

/-- Attributes and the end of a tag. -/
theorem lexAts {sgn : Bool} {a : List (Str × Str)} {aw : Str} (h : AtsB sgn a aw) :
    ∃ al, AtsT a al ∧ ∀ p z tk rest, (∀ p', run sgn (.text p') (z ++ rest) =
        outp (flush p' ++ [tk]) (run sgn (.text []) rest)) →
      run sgn (.text p) (aw ++ (z ++ rest)) =
        outp (flush p ++ al ++ [tk]) (run sgn (.text []) rest) := by
  induction h with
  | nil => exact ⟨[], .nil, fun p z tk rest hz => by rw [List.nil_append, hz]; simp⟩
  | @sp c a w hc _ ih =>
    obtain ⟨al, h1, h2⟩ := ih
    refine ⟨[c] :: al, .sp (spaceTok_single hc) h1, fun p z tk rest hz => ?_⟩
    rw [List.cons_append, run_space hc, h2 [] z tk rest hz, outp_outp]
    simp [flush]
  | @attr c k s1 s2 q v vw a w hc hk hs1 hs2 hq hv hv1 hv2 _ ih =>
    obtain ⟨al, h1, h2⟩ := ih
    refine ⟨[c] :: (k :: ((s1.map fun c => [c]) ++ [61] :: ((s2.map fun c => [c]) ++ v :: al))),
      .sp (spaceTok_single hc) (.attr hk.key.1 hk.ne_gt hk.ne_slash hk.not_space hv1 hv2
        (spaces_toks hs1) (spaces_toks hs2) h1), fun p z tk rest hz => ?_⟩
    have hq38 : q ≠ 38 := by rcases hq with rfl | rfl <;> decide
    rw [show c :: (k ++ (s1 ++ 61 :: (s2 ++ q :: (vw ++ q :: w)))) ++ (z ++ rest) =
      c :: (k ++ (s1 ++ 61 :: (s2 ++ q :: (vw ++ q :: (w ++ (z ++ rest)))))) from by simp,
      run_space hc, run_name hk.1, List.nil_append, run_spaces_eq hs1 _ _ hk.key.1, run_spaces hs2,
      run_cons (t := []) (m' := .str [] q) (by
        rcases hq with rfl | rfl <;> simp [step, stepText, isSpace]), outp_nil,
      run_val hv hq38, h2 [] z tk rest hz]
    simp [outp_outp, flush]

theorem run_comment {sgn : Bool} {b : Str} (hb : 34 ∉ b ∧ 60 ∉ b ∧ 62 ∉ b) (p w : Str) :
    run sgn (.comment p 1 false) (b ++ 62 :: w) = run sgn (.ws p) w := by
  induction b with
  | nil =>
    rw [List.nil_append, run_cons (t := []) (m' := .ws p) (by simp [step, stepComment]), outp_nil]
  | cons c b ih =>
    simp only [List.mem_cons, not_or] at hb
    rw [List.cons_append, run_cons (t := []) (m' := .comment p 1 false) (by
      simp [step, stepComment, Ne.symm hb.1.1, Ne.symm hb.2.1.1, Ne.symm hb.2.2.1]), outp_nil]
    exact ih ⟨hb.1.2, hb.2.1.2, hb.2.2.2⟩

theorem run_bang {sgn : Bool} {b : Str} (hb : 34 ∉ b ∧ 60 ∉ b ∧ 62 ∉ b) (p l w : Str)
    (hl : l.length ≤ 6) (hd : (l ++ b).head? = some 45) :
    run sgn (.bang p l) (b ++ 62 :: w) = run sgn (.text p) w ∨
    run sgn (.bang p l) (b ++ 62 :: w) = run sgn (.ws p) w := by
  induction b generalizing l with
  | nil =>
    left
    rw [List.nil_append, run_cons (t := []) (m' := .text p) (by simp [step]), outp_nil]
  | cons c b ih =>
    simp only [List.mem_cons, not_or] at hb
    by_cases h6 : l.length = 6
    · right
      have hne : l ++ [c] ≠ cdataLead := by
        intro e
        cases l with
        | nil => simp at h6
        | cons x l =>
          simp [cdataLead] at e hd
          rw [hd] at e; exact absurd e.1 (by decide)
      rw [List.cons_append, run_cons (t := []) (m' := .comment p 1 false) (by
        simp [step, Ne.symm hb.2.2.1, h6, afterLead, hne]), outp_nil]
      exact run_comment ⟨hb.1.2, hb.2.1.2, hb.2.2.2⟩ _ _
    · rw [List.cons_append, run_cons (t := []) (m' := .bang p (l ++ [c])) (by
        simp [step, Ne.symm hb.2.2.1, h6]), outp_nil]
      exact ih ⟨hb.1.2, hb.2.1.2, hb.2.2.2⟩ (l ++ [c]) (by simp; omega) (by simpa using hd)

theorem run_ws_text {sgn : Bool} (p : Str) {c : UInt8} (hc : isSpace c = false) (w : Str) :
    run sgn (.ws p) (c :: w) = run sgn (.text p) (c :: w) := by
  simp [run, step, hc]

/-- A comment is skipped (with white space after it, if it is longer than a few characters). -/
theorem run_commentB {sgn : Bool} {s : Str} (hs : CommentOK s) (p w : Str) :
    run sgn (.text p) ([60, 33, 45, 45] ++ s ++ [45, 45, 62] ++ w) = run sgn (.text p) w ∨
    run sgn (.text p) ([60, 33, 45, 45] ++ s ++ [45, 45, 62] ++ w) = run sgn (.ws p) w := by
  have e : [60, 33, 45, 45] ++ s ++ [45, 45, 62] ++ w =
      60 :: 33 :: ((45 :: 45 :: (s ++ [45, 45])) ++ 62 :: w) := by simp
  rw [e, run_lt, run_cons (t := []) (m' := .bang p []) (by simp [step]), outp_nil]
  exact run_bang (by
    obtain ⟨h1, h2, h3⟩ := hs
    simp [h1, h2, h3]) p [] w (by simp) (by simp)

theorem infix_cons_right {l s : Str} {c : UInt8} (h : l <:+: s) : l <:+: c :: s := by
  obtain ⟨a, b, rfl⟩ := h; exact ⟨c :: a, b, by simp⟩

theorem infix_append_right {l s : Str} (r : Str) (h : l <:+: s) : l <:+: r ++ s := by
  obtain ⟨a, b, rfl⟩ := h; exact ⟨r ++ a, b, by simp⟩

theorem getLast?_append_ne {r s : Str} (h : (r ++ s).getLast? ≠ some 93) : s.getLast? ≠ some 93 := by
  intro e
  cases s with
  | nil => simp at e
  | cons c s =>
    apply h
    rw [List.getLast?_append, e]; rfl

theorem CdataOK.suffix {r s : Str} (h : CdataOK (r ++ s)) : CdataOK s :=
  ⟨fun h0 => h.1 (by simp [h0]), fun h0 => h.2.1 (infix_append_right _ h0),
    fun h0 => h.2.2.1 (infix_append_right _ h0), getLast?_append_ne h.2.2.2⟩

theorem run_cdata {sgn : Bool} {s : Str} (l : Str) (hl : l = [] ∨ l = [93] ∨ l = [93, 93])
    (h : CdataOK (l ++ s)) (tok w : Str) :
    run sgn (.cdata tok l) (s ++ 93 :: 93 :: 62 :: w) =
      outp (flush (tok ++ l ++ s)) (run sgn (.text []) w) := by
  induction s generalizing l tok with
  | nil =>
    have hl0 : l = [] := by
      rcases hl with rfl | rfl | rfl
      · rfl
      · exact absurd (by rfl) h.2.2.2
      · exact absurd (by rfl) h.2.2.2
    subst hl0
    rw [List.nil_append, run_cons (t := []) (m' := .cdata tok [93]) (by simp [step, stepCdata]),
      outp_nil, run_cons (t := []) (m' := .cdata tok [93, 93]) (by simp [step, stepCdata]),
      outp_nil, run_cons (t := flush tok) (m' := .text []) (by simp [step, stepCdata])]
    simp
  | cons c s ih =>
    have hc0 : c ≠ 0 := by
      intro e; subst e; exact h.1 (by simp)
    by_cases hc : c = 93
    · subst hc
      rcases hl with rfl | rfl | rfl
      · rw [List.cons_append, run_cons (t := []) (m' := .cdata tok [93]) (by simp [step, stepCdata]),
          outp_nil, ih [93] (by simp) (by simpa using h)]
        simp
      · rw [List.cons_append, run_cons (t := []) (m' := .cdata tok [93, 93])
          (by simp [step, stepCdata]), outp_nil, ih [93, 93] (by simp) (by simpa using h)]
        simp
      · exact absurd ⟨[], s, by simp⟩ h.2.2.1
    · have hgt : ¬ (c = 62 ∧ l = [93, 93]) := by
        rintro ⟨rfl, rfl⟩
        exact h.2.1 ⟨[], s, by simp⟩
      rw [List.cons_append, run_cons (t := []) (m' := .cdata (tok ++ l ++ [c]) [])
        (by simp [step, stepCdata, hc0, hc, hgt]), outp_nil, ih [] (by simp) (by
          have := CdataOK.suffix (r := l ++ [c]) (s := s) (by simpa using h)
          simpa using this)]
      simp

theorem run_cdataText {sgn : Bool} {s : Str} (h : CdataOK s) (p w : Str) :
    run sgn (.text p) (cdataText s ++ w) = outp (flush (p ++ s)) (run sgn (.text []) w) := by
  have e : cdataText s ++ w =
      60 :: 33 :: 91 :: 67 :: 68 :: 65 :: 84 :: 65 :: 91 :: (s ++ 93 :: 93 :: 62 :: w) := by
    simp [cdataText, cdataLead]
  rw [e, run_lt, run_cons (t := []) (m' := .bang p []) (by simp [step]), outp_nil,
    run_cons (t := []) (m' := .bang p [91]) (by simp [step]), outp_nil,
    run_cons (t := []) (m' := .bang p [91, 67]) (by simp [step]), outp_nil,
    run_cons (t := []) (m' := .bang p [91, 67, 68]) (by simp [step]), outp_nil,
    run_cons (t := []) (m' := .bang p [91, 67, 68, 65]) (by simp [step]), outp_nil,
    run_cons (t := []) (m' := .bang p [91, 67, 68, 65, 84]) (by simp [step]), outp_nil,
    run_cons (t := []) (m' := .bang p [91, 67, 68, 65, 84, 65]) (by simp [step]), outp_nil,
    run_cons (t := []) (m' := .cdata p []) (by simp [step, afterLead, cdataLead]), outp_nil,
    run_cdata [] (by simp) (by simpa using h)]
  simp

/-- Content never starts with `>`. -/
theorem Con.head {sgn : Bool} {OK : Str → Prop} {p t : Str} {ks : List Tree} {w : Str}
    (h : Con sgn OK p t ks w) (x : Str) : ∃ c r, w ++ 60 :: x = c :: r ∧ c ≠ 62 := by
  cases h with
  | nil => exact ⟨60, x, rfl, by decide⟩
  | chr he _ =>
    cases he with
    | raw hc => exact ⟨_, _, rfl, plain_gt hc⟩
    | ent _ _ => exact ⟨38, _, rfl, by decide⟩
  | sep hc _ _ =>
    refine ⟨_, _, rfl, ?_⟩
    rintro rfl
    rcases hc with hc | hc <;> revert hc <;> decide
  | cdata => exact ⟨60, _, rfl, by decide⟩
  | comment => exact ⟨60, _, rfl, by decide⟩
  | kid => exact ⟨60, _, rfl, by decide⟩
  | kidE => exact ⟨60, _, rfl, by decide⟩

theorem run_slash_text {sgn : Bool} (p : Str) {c : UInt8} (hc : c ≠ 62) (w : Str) :
    run sgn (.slash p) (c :: w) = run sgn (.text (p ++ [47])) (c :: w) := by
  simp [run, step, hc]

theorem run_encoded {sgn : Bool} {c : UInt8} {w : Str} (h : Enc sgn c w) (p x : Str)
    (hx : ∃ d r, x = d :: r ∧ d ≠ 62) :
    run sgn (.text p) (w ++ x) = run sgn (.text (p ++ [c])) x := by
  cases h with
  | raw hc =>
    by_cases h47 : c = 47
    · subst h47
      obtain ⟨d, r, rfl, hd⟩ := hx
      rw [List.cons_append, List.nil_append, run_cons (t := []) (m' := .slash p)
        (by simp [step, stepText, isSpace]), outp_nil, run_slash_text _ hd]
    · rw [List.cons_append, List.nil_append, run_cons (t := []) (m' := .text (p ++ [c]))
        (by simp [step, stepText_plain hc h47]), outp_nil]
  | ent he hn =>
    rename_i name
    rw [show 38 :: (name ++ [59]) ++ x = 38 :: (name ++ 59 :: x) from by simp, run_ent he hn]

theorem flush_body {p s : Str} {ks : List Tree} {l : List Str} (hp : okRun p) (h : BodyT s ks l) :
    BodyT (p ++ s) ks (flush p ++ l) := by
  unfold flush
  split
  · rename_i e; subst e; simpa using h
  · rename_i e; exact .text e hp.1 hp.2 h

/-- The tokens of content. -/
theorem lexConX {sgn : Bool} {p t : Str} {ks : List Tree} {w : Str} (h : Con sgn okRun p t ks w) :
    ∃ b, BodyT t ks b ∧ ∀ x tk R, (∀ p, run sgn (.text p) (60 :: x) = outp (flush p ++ tk) R) →
      run sgn (.text p) (w ++ 60 :: x) = outp (b ++ tk) R := by
  induction h with
  | @nil p hp =>
    refine ⟨flush p, ?_, fun x tk R hx => ?_⟩
    · have := flush_body hp .nil; simpa using this
    · rw [List.nil_append, hx]
  | @chr p c w t ks w' he hc ih =>
    obtain ⟨b, h1, h2⟩ := ih
    refine ⟨b, h1, fun x tk R hx => ?_⟩
    rw [List.append_assoc, run_encoded he _ _ (hc.head _), h2 _ _ _ hx]
  | @sep p c t ks w' hc hp _ ih =>
    obtain ⟨b, h1, h2⟩ := ih
    refine ⟨flush p ++ ([c] :: b), flush_body hp ?_, fun x tk R hx => ?_⟩
    · have := BodyT.text (t := [c]) (by simp) (by
        intro e; simp at e; subst e; rcases hc with hc | hc <;> revert hc <;> decide) (by simp) h1
      simpa using this
    · have hr : run sgn (.text p) (c :: (w' ++ 60 :: x)) =
          outp (flush p ++ [[c]]) (run sgn (.text []) (w' ++ 60 :: x)) := by
        rcases hc with hc | rfl
        · exact run_space hc _ _
        · exact run_eq _ _
      rw [List.cons_append, hr, h2 _ _ _ hx, outp_outp]
      simp
  | @cdata p s t ks w' hp hs _ ih =>
    obtain ⟨b, h1, h2⟩ := ih
    refine ⟨flush (p ++ s) ++ b, flush_body hp h1, fun x tk R hx => ?_⟩
    rw [List.append_assoc, run_cdataText hs, h2 _ _ _ hx, outp_outp]
    simp
  | @comment p s t ks w' hs hw _ ih =>
    obtain ⟨b, h1, h2⟩ := ih
    refine ⟨b, h1, fun x tk R hx => ?_⟩
    rw [List.append_assoc]
    have key : run sgn (.ws p) (w' ++ 60 :: x) = run sgn (.text p) (w' ++ 60 :: x) := by
      cases w' with
      | nil => exact run_ws_text _ (by decide) _
      | cons c w' => exact run_ws_text _ hw _
    rcases run_commentB (sgn := sgn) hs p (w' ++ 60 :: x) with e | e
    · rw [e, h2 _ _ _ hx]
    · rw [e, key, h2 _ _ _ hx]
  | @kid p n a aw s ks w sp s' ks' w' hp hn ha _ hsp _ ihb ih =>
    obtain ⟨al, ha1, ha2⟩ := lexAts ha
    obtain ⟨bl, hb1, hb2⟩ := ihb
    obtain ⟨l, h1, h2⟩ := ih
    refine ⟨flush p ++ ([60] :: n :: (al ++ [62] :: (bl ++ [60, 47] :: n ::
        ((sp.map fun c => [c]) ++ [62] :: l)))),
      flush_body hp (.kid hn.key.1 hn.ne_gt ha1 hb1 (spaces_toks hsp) h1), fun x tk R hx => ?_⟩
    rw [show 60 :: (n ++ (aw ++ 62 :: (w ++ 60 :: 47 :: (n ++ (sp ++ 62 :: w'))))) ++ 60 :: x =
      60 :: (n ++ (aw ++ ([62] ++ (w ++ 60 :: 47 :: (n ++ (sp ++ 62 :: (w' ++ 60 :: x)))))))
      from by simp,
      run_lt, run_lt_name hn, ha2 n [62] [62] _ (fun p' => run_gt p' _), hb2 _ _ _ (fun p => run_ltslash p _), run_name hn.1,
      List.nil_append, run_spaces_gt hsp _ _ hn.key.1, h2 _ _ _ hx]
    simp [outp_outp, flush, hn.key.1]
  | @kidE p n a aw s' ks' w' hp hn ha _ ih =>
    obtain ⟨al, ha1, ha2⟩ := lexAts ha
    obtain ⟨l, h1, h2⟩ := ih
    refine ⟨flush p ++ ([60] :: n :: (al ++ [47, 62] :: l)),
      flush_body hp (.kidE hn.key.1 ha1 h1), fun x tk R hx => ?_⟩
    rw [show 60 :: (n ++ (aw ++ 47 :: 62 :: w')) ++ 60 :: x =
      60 :: (n ++ (aw ++ ([47, 62] ++ (w' ++ 60 :: x)))) from by simp,
      run_lt, run_lt_name hn, ha2 n [47, 62] [47, 62] _ (fun p' => run_slashgt p' _), h2 _ _ _ hx]
    simp [outp_outp, flush, hn.key.1]

/-- The tokens of content, up to an end tag. -/
theorem lexCon {sgn : Bool} {p t : Str} {ks : List Tree} {w : Str} (h : Con sgn okRun p t ks w) :
    ∃ b, BodyT t ks b ∧ ∀ rest, run sgn (.text p) (w ++ 60 :: 47 :: rest) =
      outp (b ++ [[60, 47]]) (run sgn (.text []) rest) := by
  obtain ⟨b, h1, h2⟩ := lexConX h
  exact ⟨b, h1, fun rest => h2 _ _ _ fun p => run_ltslash p rest⟩

theorem lexElem {sgn : Bool} {t : Tree} {w : Str} (h : ElemB sgn okRun t w) :
    ∃ l, ElemT t l ∧ ∀ rest, run sgn (.text []) (w ++ rest) =
      outp ([60] :: l) (run sgn (.text []) rest) := by
  cases h with
  | @full n a aw s ks w sp hn ha hc hsp =>
    obtain ⟨al, ha1, ha2⟩ := lexAts ha
    obtain ⟨bl, hb1, hb2⟩ := lexCon hc
    refine ⟨n :: (al ++ [62] :: (bl ++ [60, 47] :: n :: ((sp.map fun c => [c]) ++ [[62]]))),
      .full hn.key.1 hn.ne_gt ha1 hb1 (spaces_toks hsp), fun rest => ?_⟩
    rw [show 60 :: (n ++ (aw ++ 62 :: (w ++ 60 :: 47 :: (n ++ (sp ++ [62]))))) ++ rest =
      60 :: (n ++ (aw ++ ([62] ++ (w ++ 60 :: 47 :: (n ++ (sp ++ 62 :: rest)))))) from by simp,
      run_lt, run_lt_name hn, ha2 n [62] [62] _ (fun p' => run_gt p' _), hb2, run_name hn.1,
      List.nil_append, run_spaces_gt hsp _ _ hn.key.1]
    simp [outp_outp, flush, hn.key.1]
  | @empty n a aw hn ha =>
    obtain ⟨al, ha1, ha2⟩ := lexAts ha
    refine ⟨n :: (al ++ [[47, 62]]), .empty hn.key.1 ha1, fun rest => ?_⟩
    rw [show 60 :: (n ++ (aw ++ [47, 62])) ++ rest = 60 :: (n ++ (aw ++ ([47, 62] ++ rest))) from by
        simp, run_lt, run_lt_name hn, ha2 n [47, 62] [47, 62] _ (fun p' => run_slashgt p' _)]
    simp [outp_outp, flush, hn.key.1]

theorem run_decl {sgn : Bool} {s : Str} (b : Bool) (h : declOK b s) (p w : Str) :
    run sgn (.comment p 1 b) (s ++ 62 :: w) = run sgn (.ws p) w := by
  induction s generalizing b with
  | nil =>
    simp only [declOK] at h
    subst h
    rw [List.nil_append, run_cons (t := []) (m' := .ws p) (by simp [step, stepComment]), outp_nil]
  | cons c s ih =>
    simp only [declOK] at h
    by_cases hc : c = 34
    · rw [if_pos hc] at h
      subst hc
      rw [List.cons_append, run_cons (t := []) (m' := .comment p 1 (!b)) (by
        simp [step, stepComment]), outp_nil, ih _ h]
    · rw [if_neg hc] at h
      obtain ⟨h1, h2⟩ := h
      rw [List.cons_append, run_cons (t := []) (m' := .comment p 1 b) (by
        cases b with
        | true => simp [step, stepComment, hc]
        | false =>
          have := h1.resolve_left (by simp)
          simp [step, stepComment, hc, this.1, this.2]), outp_nil, ih _ h2]

theorem lexProlog {sgn : Bool} {w : Str} (h : Prolog w) :
    (∃ sp, SpaceToks sp ∧ ∀ rest, run sgn (.text []) (w ++ 60 :: rest) =
      outp sp (run sgn (.text []) (60 :: rest))) ∧
    (∃ sp, SpaceToks sp ∧ ∀ rest, run sgn (.ws []) (w ++ 60 :: rest) =
      outp sp (run sgn (.text []) (60 :: rest))) := by
  induction h with
  | nil =>
    refine ⟨⟨[], by intro t ht; simp at ht, fun rest => rfl⟩,
      ⟨[], by intro t ht; simp at ht, fun rest => ?_⟩⟩
    rw [List.nil_append, run_ws_text _ (by decide)]; rfl
  | @sp c w hc _ ih =>
    obtain ⟨⟨s1, h1, h2⟩, ⟨s2, h3, h4⟩⟩ := ih
    refine ⟨⟨[c] :: s1, ?_, fun rest => ?_⟩, ⟨s2, h3, fun rest => ?_⟩⟩
    · intro t ht
      rcases List.mem_cons.1 ht with rfl | ht
      · exact spaceTok_single hc
      · exact h1 t ht
    · rw [List.cons_append, run_space hc, h2, outp_outp]; rfl
    · rw [List.cons_append, run_cons (t := []) (m' := .ws []) (by simp [step, hc]), outp_nil, h4]
  | @decl s w hs _ ih =>
    obtain ⟨-, s2, h3, h4⟩ := ih
    have key : ∀ rest, run sgn (.text []) (60 :: 63 :: (s ++ 62 :: w) ++ 60 :: rest) =
        outp s2 (run sgn (.text []) (60 :: rest)) := by
      intro rest
      rw [show 60 :: 63 :: (s ++ 62 :: w) ++ 60 :: rest = 60 :: 63 :: (s ++ 62 :: (w ++ 60 :: rest))
        from by simp, run_lt, run_cons (t := []) (m' := .comment [] 1 false) (by simp [step]),
        outp_nil, run_decl _ hs, h4]
    refine ⟨⟨s2, h3, key⟩, ⟨s2, h3, fun rest => ?_⟩⟩
    rw [← key rest]
    exact run_ws_text _ (by decide) _
  | @comment s w hs _ ih =>
    obtain ⟨⟨s1, h1, h2⟩, ⟨s2, h3, h4⟩⟩ := ih
    have hws : ∀ x, run sgn (.ws []) ([60, 33, 45, 45] ++ s ++ [45, 45, 62] ++ w ++ x) =
        run sgn (.text []) ([60, 33, 45, 45] ++ s ++ [45, 45, 62] ++ w ++ x) := fun x =>
      run_ws_text _ (by decide) _
    have alt : (∀ x, run sgn (.text []) ([60, 33, 45, 45] ++ s ++ [45, 45, 62] ++ w ++ 60 :: x) =
          run sgn (.text []) (w ++ 60 :: x)) ∨
        (∀ x, run sgn (.text []) ([60, 33, 45, 45] ++ s ++ [45, 45, 62] ++ w ++ 60 :: x) =
          run sgn (.ws []) (w ++ 60 :: x)) := by
      have e : ∀ x, [60, 33, 45, 45] ++ s ++ [45, 45, 62] ++ w ++ 60 :: x =
        60 :: 33 :: 45 :: 45 :: ((s ++ [45, 45]) ++ 62 :: (w ++ 60 :: x)) := by simp
      have hb : 34 ∉ s ++ [45, 45] ∧ 60 ∉ s ++ [45, 45] ∧ 62 ∉ s ++ [45, 45] := by
        obtain ⟨a1, a2, a3⟩ := hs; simp [a1, a2, a3]
      have main : ∀ (b l : Str), (34 ∉ b ∧ 60 ∉ b ∧ 62 ∉ b) → l.length ≤ 6 →
          (l ++ b).head? = some 45 →
          (∀ y, run sgn (.bang [] l) (b ++ 62 :: y) = run sgn (.text []) y) ∨
          (∀ y, run sgn (.bang [] l) (b ++ 62 :: y) = run sgn (.ws []) y) := by
        intro b
        induction b with
        | nil =>
          intro l _ _ _
          left; intro y
          rw [List.nil_append, run_cons (t := []) (m' := .text []) (by simp [step]), outp_nil]
        | cons c b ih =>
          intro l hb hl hd
          simp only [List.mem_cons, not_or] at hb
          by_cases h6 : l.length = 6
          · right; intro y
            have hne : l ++ [c] ≠ cdataLead := by
              intro e
              cases l with
              | nil => simp at h6
              | cons x l =>
                simp [cdataLead] at e hd
                rw [hd] at e; exact absurd e.1 (by decide)
            rw [List.cons_append, run_cons (t := []) (m' := .comment [] 1 false) (by
              simp [step, Ne.symm hb.2.2.1, h6, afterLead, hne]), outp_nil]
            exact run_comment ⟨hb.1.2, hb.2.1.2, hb.2.2.2⟩ _ _
          · have step1 : ∀ y, run sgn (.bang [] l) (c :: b ++ 62 :: y) =
                run sgn (.bang [] (l ++ [c])) (b ++ 62 :: y) := by
              intro y
              rw [List.cons_append, run_cons (t := []) (m' := .bang [] (l ++ [c])) (by
                simp [step, Ne.symm hb.2.2.1, h6]), outp_nil]
            simp only [step1]
            exact ih (l ++ [c]) ⟨hb.1.2, hb.2.1.2, hb.2.2.2⟩ (by simp; omega) (by simpa using hd)
      have start : ∀ x, run sgn (.text []) ([60, 33, 45, 45] ++ s ++ [45, 45, 62] ++ w ++ 60 :: x) =
          run sgn (.bang [] [45, 45]) ((s ++ [45, 45]) ++ 62 :: (w ++ 60 :: x)) := by
        intro x
        rw [e, run_lt, run_cons (t := []) (m' := .bang [] []) (by simp [step]), outp_nil,
          run_cons (t := []) (m' := .bang [] [45]) (by simp [step]), outp_nil,
          run_cons (t := []) (m' := .bang [] [45, 45]) (by simp [step]), outp_nil]
      rcases main _ [45, 45] hb (by simp) (by simp) with h | h
      · left; intro x; rw [start, h]
      · right; intro x; rw [start, h]
    rcases alt with h | h
    · refine ⟨⟨s1, h1, fun rest => by rw [h, h2]⟩, ⟨s1, h1, fun rest => by rw [hws, h, h2]⟩⟩
    · refine ⟨⟨s2, h3, fun rest => by rw [h, h4]⟩, ⟨s2, h3, fun rest => by rw [hws, h, h4]⟩⟩

theorem ElemB.head {sgn : Bool} {OK : Str → Prop} {t : Tree} {w : Str} (h : ElemB sgn OK t w) :
    ∃ r, w = 60 :: r := by
  cases h <;> exact ⟨_, rfl⟩

/-- Parsing a document, whatever follows the root element. -/
theorem parse_doc {sgn : Bool} {t : Tree} {w : Str} (h : DocB sgn okRun t w) (m : DB) (rest : Str) :
    parse sgn m (w ++ rest) = some (walk t.name t m) := by
  obtain ⟨p, e, hp, he, rfl⟩ := h
  obtain ⟨l, h1, h2⟩ := lexElem he
  obtain ⟨⟨sp, h3, h4⟩, -⟩ := lexProlog (sgn := sgn) hp
  obtain ⟨r, hr⟩ := he.head
  have hrun : run sgn (.text []) (p ++ e ++ rest) =
      outp (sp ++ [60] :: l) (run sgn (.text []) rest) := by
    rw [List.append_assoc, hr, List.cons_append, h4, ← List.cons_append, ← hr, h2, outp_outp]
  unfold parse
  have := parseToks_doc h1 h3 m (cleanEnd (run sgn (.text []) rest).2) (run sgn (.text []) rest).1
  simp only [hrun, outp]
  simpa using this

end Verif.Xml
