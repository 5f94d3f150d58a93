import Verif.Body
import Verif.Props.TopLevel
import Verif.XmlKeys
/-
C82: the functions of a descriptor visit each member once, under its name.
-/
namespace Verif.Body
open Verif.Tok (Str b)
open Verif.Decl (Act Kind)
open Verif.Top (Reg Want Match Matches Src Key words)
open Verif.Emit (lead target bareType qualifier)
open Verif.Bases (Ident idChar idStart)

/-! ### Specification -/

/-- A call with the label and these further arguments. -/
def call (f label : Str) (args : List Str) : Str :=
  b "::" ++ f ++ b "(targ,desc+\"" ++ label ++ b "\"" ++ (args.flatMap fun a => b "," ++ a) ++ b ");"

/-- A call of the function for the type `tgt`. -/
def typeCall (f tgt label : Str) (args : List Str) : Str :=
  b "::" ++ f ++ b "_type<_CD_TYPE," ++ tgt ++ b " >(targ,desc+\"" ++ label ++ b "\"" ++ (args.flatMap fun a => b "," ++ a) ++ b ");"

/-- What stands between the first two quotes. -/
def labelOf (s : Str) : Str := (s.dropWhile (· != 34)).tail.takeWhile (· != 34)

/-- Spec: what is passed for a member.  Data: the member of the object, or with `-use_mbr_pointers` the object and a pointer to
the member.  Functions: the object, unless static, and a pointer.  Arrays: the first element, the number of dimensions and
the bounds.  Static constants are marked. -/
def passed (c : Cfg) (cls : Str) (a : Act) : List Str :=
  (if a.cs = true then [b "classdesc::is_const_static()"] else []) ++
  match a.kind with
  | .data ref => if c.mbr = true ∧ ref = false then (if a.cs = true then [] else [b "arg"]) ++ [b "&" ++ cls ++ b "::" ++ a.name]
      else [b "arg." ++ a.name]
  | .func => (if a.static = true ∨ a.cs = true then [] else [b "arg"]) ++ [b "&" ++ cls ++ b "::" ++ a.name]
  | .array l => [b "classdesc::is_array()", b "arg." ++ a.name ++ (l.map fun _ => b "[0]").flatten, Xml.dec l.length] ++
      l.map fun ts => (ts.map fun t => b " " ++ t).flatten
  | .bytes => [b "classdesc::is_array()", b "(char&)(arg." ++ a.name ++ b ")", b "1", b "sizeof(arg." ++ a.name ++ b ")"]

/-- Spec: what is passed for a member if there is no object: a pointer to it. -/
def pointer (c : Cfg) (cls : Str) (a : Act) : Option (List Str) :=
  if a.cs = true then (if c.mbr = true then some (passed c cls a) else none)
  else
    match a.kind with
    | .data ref => if c.mbr = true ∧ ref = false then some [b "&" ++ cls ++ b "::" ++ a.name] else none
    | _ => some [b "&" ++ cls ++ b "::" ++ a.name]

/-- The mark of constructors, which must not come up otherwise. -/
abbrev mark : Str := b "classdesc::is_constructor"

/-- A member of the class `cls` that has a name; arrays have bounds. -/
structure Good (cls : Str) (a : Act) : Prop where
  name : Ident a.name
  whole : ¬ mark <:+: cls ++ b "::" ++ a.name
  bounds : ∀ l, a.kind = .array l → l ≠ [] ∧ ∀ ts ∈ l, ∀ t ∈ ts, ¬ mark <:+: t

/-! ### Texts -/

private theorem infix_sep {p u v : Str} {c : UInt8} (hc : c ∉ p) (h : p <:+: u ++ c :: v) : p <:+: u ∨ p <:+: v := by
  obtain ⟨s, t, h⟩ := h
  rw [List.append_assoc] at h
  rcases List.append_eq_append_iff.1 h with ⟨a, h1, h2⟩ | ⟨a, h1, h2⟩
  · rcases List.append_eq_append_iff.1 h2 with ⟨w, h3, h4⟩ | ⟨w, h3, h4⟩
    · exact .inl ⟨s, w, by rw [h1, h3, List.append_assoc]⟩
    · cases w with
      | nil =>
        simp at h3
        exact .inl ⟨s, [], by rw [h1, h3, List.append_nil]⟩
      | cons x w =>
        simp only [List.cons_append, List.cons.injEq] at h4
        exact absurd (by rw [h3, h4.1]; simp) hc
  · cases a with
    | nil =>
      cases p with
      | nil => exact .inl ⟨[], u, by simp⟩
      | cons x p =>
        simp only [List.nil_append, List.cons_append, List.cons.injEq] at h2
        exact absurd (by rw [h2.1]; simp) hc
    | cons x a =>
      simp only [List.cons_append, List.cons.injEq] at h2
      exact .inr ⟨a, t, by rw [h2.2, List.append_assoc]⟩

private theorem find_none {p : Str} : ∀ {s : Str}, ¬ p <:+: s → Bases.find p s = none
  | [], h => by
    rw [Bases.find, if_neg]
    rintro rfl
    exact h ⟨[], [], rfl⟩
  | c :: s, h => by
    rw [Bases.find, if_neg, find_none, Option.map_none]
    · rintro ⟨u, v, e⟩
      exact h ⟨c :: u, v, by rw [← e]; simp⟩
    · intro hp
      rw [List.isPrefixOf_iff_prefix] at hp
      exact h hp.isInfix

private theorem find_mark {s : Str} (h : ¬ mark <:+: s) : Bases.find (b "classdesc::is_constructor") s = none := find_none h

private theorem no_char {p s : Str} {c : UInt8} (hp : c ∈ p) (hs : c ∉ s) : ¬ p <:+: s := by
  rintro ⟨u, v, e⟩
  exact hs (by rw [← e]; simp [hp])

private theorem mark_colon : (58 : UInt8) ∈ mark := by decide +kernel
private theorem mark_comma : (44 : UInt8) ∉ mark := by decide +kernel
private theorem mark_blank : (32 : UInt8) ∉ mark := by decide +kernel
private theorem mark_amp : (38 : UInt8) ∉ mark := by decide +kernel

private theorem ident_char {n : Str} (h : Ident n) : ∀ d ∈ n, idChar d = true := by
  obtain ⟨c, r, rfl, h1, h2⟩ := h
  intro d hd
  rcases List.mem_cons.1 hd with rfl | hd
  · simp [idChar, h1]
  · exact h2 d hd

private theorem ident_ne {n : Str} (h : Ident n) : n ≠ [] := by
  obtain ⟨c, r, rfl, _⟩ := h
  simp

private theorem ident_no {n : Str} (h : Ident n) {c : UInt8} (hc : idChar c = false) : c ∉ n := by
  intro hm
  rw [ident_char h c hm] at hc
  simp at hc

private theorem comma_split {u v : Str} (h1 : ¬ mark <:+: u) (h2 : ¬ mark <:+: v) : ¬ mark <:+: u ++ b "," ++ v := by
  intro h
  rw [List.append_assoc] at h
  have e : b "," = [44] := by decide
  rw [e] at h
  rcases infix_sep mark_comma h with h | h
  · exact h1 h
  · exact h2 h

private theorem flat_no {l : List Str} (h : ∀ t ∈ l, ¬ mark <:+: t) : ¬ mark <:+: (l.map fun t => b " " ++ t).flatten := by
  have e : b " " = [32] := by decide
  have key : ∀ (u : Str) (l : List Str), ¬ mark <:+: u → (∀ t ∈ l, ¬ mark <:+: t) → ¬ mark <:+: u ++ (l.map fun t => b " " ++ t).flatten := by
    intro u l
    induction l generalizing u with
    | nil => intro hu _; simpa using hu
    | cons t l ih =>
      intro hu hl hm
      rw [List.map_cons, List.flatten_cons, e, List.singleton_append, List.cons_append] at hm
      rcases infix_sep mark_blank hm with hm | hm
      · exact hu hm
      · rw [← e] at hm
        exact ih t (hl t (.head _)) (fun x hx => hl x (.tail _ hx)) hm
  have := key [] l (by rw [List.infix_nil]; decide +kernel) h
  simpa using this

private theorem args_no : ∀ {l : List Str}, (∀ t ∈ l, ¬ mark <:+: t) → ∀ u : Str, ¬ mark <:+: u → ¬ mark <:+: u ++ l.flatMap fun a => b "," ++ a
  | [], _, u, hu => by simpa using hu
  | t :: l, h, u, hu => by
    have := comma_split hu (args_no (fun x hx => h x (.tail _ hx)) t (h t (.head _)))
    simpa using this

/-! ### What is recorded -/

private theorem flat_comma (l : List (List Str)) (h : l ≠ []) :
    (bounds l).dropLast = l.flatMap fun ts => b "," ++ (ts.map fun t => b " " ++ t).flatten := by
  have e : b "," = [44] := by decide
  have key : ∀ (u : Str) (l : List (List Str)), l ≠ [] →
      (u ++ ([44] : Str) ++ l.flatMap fun ts : List Str => (ts.flatMap fun t => b " " ++ t) ++ [44]).dropLast =
        u ++ l.flatMap fun ts : List Str => ([44] : Str) ++ (ts.flatMap fun t => b " " ++ t) := by
    intro u l
    induction l generalizing u with
    | nil => intro h; exact absurd rfl h
    | cons ts l ih =>
      intro _
      cases l with
      | nil =>
        have : u ++ ([44] : Str) ++ ([ts].flatMap fun ts : List Str => (ts.flatMap fun t => b " " ++ t) ++ [44]) =
            (u ++ ([44] : Str) ++ ts.flatMap fun t => b " " ++ t) ++ [44] := by simp
        rw [this, List.dropLast_concat]
        simp
      | cons ts' l =>
        have := ih (u ++ ([44] : Str) ++ ts.flatMap fun t => b " " ++ t) (by simp)
        rw [List.flatMap_cons, List.flatMap_cons (xs := ts' :: l)]
        rw [show u ++ ([44] : Str) ++ ((List.flatMap (fun t => b " " ++ t) ts ++ [44]) ++
            List.flatMap (fun ts => List.flatMap (fun t => b " " ++ t) ts ++ [44]) (ts' :: l)) =
          (u ++ ([44] : Str) ++ List.flatMap (fun t => b " " ++ t) ts) ++ [44] ++
            List.flatMap (fun ts => List.flatMap (fun t => b " " ++ t) ts ++ [44]) (ts' :: l) by simp]
        rw [this]
        simp
  have := key [] l h
  simp only [bounds, e]
  simp only [List.nil_append] at this
  rw [this]
  simp [List.flatMap]

private theorem array_text (name : Str) (l : List (List Str)) (h : l ≠ []) : array name l =
    b "classdesc::is_array()" ++ ([b "arg." ++ name ++ (l.map fun _ => b "[0]").flatten, Xml.dec l.length] ++
      l.map fun ts => (ts.map fun t => b " " ++ t).flatten).flatMap fun a => b "," ++ a := by
  have e1 : b "classdesc::is_array(),arg." = b "classdesc::is_array()" ++ b "," ++ b "arg." := by decide +kernel
  have hb : bounds l ≠ [] := by
    rw [bounds, show b "," = [44] by decide]; simp
  rw [array, List.dropLast_append_of_ne_nil hb, flat_comma l h, e1]
  simp [List.flatMap, Function.comp_def]

private theorem lead_append (u v : Str) : lead (u ++ v) u = true := by
  rw [lead, List.isPrefixOf_iff_prefix]
  exact List.prefix_append u v

private theorem oper_second (f name t member : Str) (l : List Str) (h : ∀ x ∈ t :: l, ¬ mark <:+: x)
    (hm : member = [] ∨ lead (t ++ l.flatMap fun a => b "," ++ a) (b "classdesc::is_array") = true) :
    oper f ⟨name, t ++ l.flatMap fun a => b "," ++ a, member⟩ = [call f name (t :: l)] := by
  have hf := find_mark (args_no (fun x hx => h x (.tail _ hx)) t (h t (.head _)))
  rw [oper, if_neg, if_pos hf]
  · have e : b "\"," = b "\"" ++ b "," := by decide
    simp [call, e]
  · simp only
    rintro ⟨h1, h2⟩
    rcases hm with hm | hm
    · exact h1 hm
    · rw [hm] at h2; simp at h2

private theorem amp_head (s t : Str) (h : t.head? ≠ some 38) (ht : t ≠ []) : lead (b "&" ++ s) t = false := by
  have e : b "&" = [38] := by decide
  cases t with
  | nil => exact absurd rfl ht
  | cons c t =>
    have hc : c ≠ 38 := by
      rintro rfl; exact h rfl
    rw [lead, e]
    simp [List.isPrefixOf, hc]

private theorem oper_first (f name s member : Str) (hm : member ≠ []) :
    oper f ⟨name, b "&" ++ s, member⟩ = [call f name [member, b "&" ++ s]] := by
  rw [oper, if_pos ⟨hm, amp_head _ _ (by decide +kernel) (by decide +kernel)⟩]
  have e : b "\"," = b "\"" ++ b "," := by decide
  simp [call, e]

private theorem const_text (x : Str) : b "classdesc::is_const_static()," ++ x = b "classdesc::is_const_static()" ++ b "," ++ x := by
  have : b "classdesc::is_const_static()," = b "classdesc::is_const_static()" ++ b "," := by decide +kernel
  rw [this]

private theorem amp_no {s : Str} (h : ¬ mark <:+: s) : ¬ mark <:+: b "&" ++ s := by
  have e : b "&" = [] ++ [(38 : UInt8)] := by decide
  rw [e, List.append_assoc]
  intro hm
  rcases infix_sep mark_amp hm with hm | hm
  · rw [List.infix_nil] at hm
    exact absurd hm (by decide +kernel)
  · exact h hm

private theorem no_colon {s : Str} (h : (58 : UInt8) ∉ s) : ¬ mark <:+: s := no_char mark_colon h

private theorem const_no : ¬ mark <:+: b "classdesc::is_const_static()" := by decide +kernel
private theorem array_no : ¬ mark <:+: b "classdesc::is_array()" := by decide +kernel

/-- What an action is, as a list of arguments. -/
private theorem args_text (c : Cfg) (cls : Str) (a : Act) (h : Good cls a) :
    ∃ t l, (args c (cls ++ b "::") a).2 = t ++ (l.flatMap fun x => b "," ++ x) ∧ (∀ x ∈ t :: l, ¬ mark <:+: x) ∧
      (∀ st, passed c cls ⟨a.name, a.kind, st, true⟩ = b "classdesc::is_const_static()" :: t :: l) ∧
      ((∃ s, t = b "&" ++ s ∧ l = [] ∧ ((args c (cls ++ b "::") a).1 = b "arg" ∨ (args c (cls ++ b "::") a).1 = []) ∧
          (a.cs = false → passed c cls a = if (args c (cls ++ b "::") a).1 = b "arg" then [b "arg", t] else [t])) ∨
        ((a.cs = false → passed c cls a = t :: l) ∧
          ((args c (cls ++ b "::") a).1 = [] ∨ t = b "classdesc::is_array()"))) := by
  have hn := ident_ne h.name
  have hcol : ∀ s : Str, (58 : UInt8) ∉ b "arg." ++ s ↔ (58 : UInt8) ∉ s := by
    intro s
    have : (58 : UInt8) ∉ b "arg." := by decide
    simp [this]
  have hname : (58 : UInt8) ∉ a.name := ident_no h.name (by decide)
  obtain ⟨name, kind, static, cs⟩ := a
  simp only at hn hname
  cases kind with
  | data ref =>
    by_cases hm : c.mbr = true ∧ ref = false
    · refine ⟨b "&" ++ cls ++ b "::" ++ name, [], ?_, ?_, ?_, .inl ⟨cls ++ b "::" ++ name, ?_⟩⟩
      · simp [args, hn, hm]
      · intro x hx
        simp only [List.mem_singleton] at hx
        rw [hx, List.append_assoc, List.append_assoc, ← List.append_assoc cls]
        exact amp_no h.whole
      · intro st; simp [passed, hm]
      · refine ⟨by simp, rfl, ?_, ?_⟩
        · simp [args, hn, hm]
        · intro hc
          simp only at hc
          simp [passed, args, hn, hm, hc]
    · refine ⟨b "arg." ++ name, [], ?_, ?_, ?_, .inr ⟨?_, .inl ?_⟩⟩
      · simp only [args, if_neg hn, if_neg hm]; simp
      · intro x hx
        simp only [List.mem_singleton] at hx
        rw [hx]
        exact no_colon ((hcol _).2 hname)
      · intro st; simp only [passed, if_neg hm]; simp
      · intro hc; simp only at hc; simp only [passed, if_neg hm, hc]; simp
      · simp only [args, if_neg hn, if_neg hm]
  | func =>
    refine ⟨b "&" ++ cls ++ b "::" ++ name, [], ?_, ?_, ?_, .inl ⟨cls ++ b "::" ++ name, ?_⟩⟩
    · simp [args]
    · intro x hx
      simp only [List.mem_singleton] at hx
      rw [hx, List.append_assoc, List.append_assoc, ← List.append_assoc cls]
      exact amp_no h.whole
    · intro st; simp [passed]
    · refine ⟨by simp, rfl, ?_, ?_⟩
      · cases static <;> cases cs <;> simp [args]
      · intro hc
        simp only at hc
        have : b "arg" ≠ [] := by decide
        cases static <;> simp [passed, args, hc, this, this.symm]
  | array l =>
    obtain ⟨h1, h2⟩ := h.bounds l rfl
    refine ⟨b "classdesc::is_array()", [b "arg." ++ name ++ (l.map fun _ => b "[0]").flatten, Xml.dec l.length] ++
      l.map fun ts => (ts.map fun t => b " " ++ t).flatten, ?_, ?_, ?_, .inr ⟨?_, .inr rfl⟩⟩
    · simp only [args]
      exact array_text name l h1
    · intro x hx
      simp only [List.mem_cons, List.cons_append, List.nil_append, List.mem_map] at hx
      rcases hx with rfl | rfl | rfl | ⟨ts, hts, rfl⟩
      · exact array_no
      · apply no_colon
        rw [List.append_assoc, hcol, List.mem_append]
        rintro (hm | hm)
        · exact hname hm
        · simp only [List.mem_flatten, List.mem_map] at hm
          obtain ⟨_, ⟨_, _, rfl⟩, hm⟩ := hm
          revert hm; decide
      · apply no_colon
        intro hm
        exact absurd (Xml.dec_digits hm) (by decide)
      · exact flat_no fun t ht => h2 ts hts t ht
    · intro st; simp [passed]
    · intro hc; simp only at hc; simp [passed, hc]
  | bytes =>
    refine ⟨b "classdesc::is_array()", [b "(char&)(arg." ++ name ++ b ")", b "1", b "sizeof(arg." ++ name ++ b ")"], ?_, ?_, ?_, .inr ⟨?_, .inr rfl⟩⟩
    · have e1 : b "classdesc::is_array(),(char&)(arg." = b "classdesc::is_array()" ++ b "," ++ b "(char&)(arg." := by decide +kernel
      have e2 : b "),1,sizeof(arg." = b ")" ++ b "," ++ b "1" ++ b "," ++ b "sizeof(arg." := by decide +kernel
      simp [args, hn, e1, e2]
    · intro x hx
      simp only [List.mem_cons, List.not_mem_nil, or_false] at hx
      rcases hx with rfl | rfl | rfl | rfl
      · exact array_no
      · apply no_colon
        simp only [List.mem_append, not_or]
        exact ⟨⟨by decide, hname⟩, by decide⟩
      · exact no_colon (by decide)
      · apply no_colon
        simp only [List.mem_append, not_or]
        exact ⟨⟨by decide, hname⟩, by decide⟩
    · intro st; simp [passed]
    · intro hc; simp only at hc; simp [passed, hc]

private theorem array_lead (l : Str) : lead (b "classdesc::is_array()" ++ l) (b "classdesc::is_array") = true := by
  have : b "classdesc::is_array()" = b "classdesc::is_array" ++ b "()" := by decide +kernel
  rw [this, List.append_assoc]
  exact lead_append _ _

private theorem oper_pair (c : Cfg) (f cls : Str) (a : Act) (h : Good cls a) :
    oper f (pair c (cls ++ b "::") a) = [call f (b "." ++ a.name) (passed c cls a)] := by
  obtain ⟨t, l, h1, h2, h3, h4⟩ := args_text c cls a h
  have hn := ident_ne h.name
  rw [pair]
  simp only [if_neg hn]
  by_cases hc : a.cs = true
  · rw [if_pos hc, const_text, h1]
    have := oper_second f (b "." ++ a.name) (b "classdesc::is_const_static()") [] (t :: l)
      (by intro x hx
          rcases List.mem_cons.1 hx with rfl | hx
          · exact const_no
          · exact h2 x hx) (.inl rfl)
    have e : passed c cls a = b "classdesc::is_const_static()" :: t :: l := by
      rw [← h3 a.static, ← hc]
    rw [e, ← this]
    simp
  · rw [if_neg hc]
    have hc : a.cs = false := by simpa using hc
    rcases h4 with ⟨s, h5, h6, h7, h8⟩ | ⟨h5, h6⟩
    · rw [h8 hc, h1, h6]
      rcases h7 with h7 | h7
      · rw [h7, if_pos rfl, h5]
        have := oper_first f (b "." ++ a.name) s (b "arg") (by decide)
        simpa using this
      · rw [h7, if_neg (by decide)]
        have := oper_second f (b "." ++ a.name) t [] [] (by intro x hx; exact h2 x (by rw [h6]; exact hx)) (.inl rfl)
        simpa using this
    · rw [h5 hc, h1]
      refine oper_second f _ t _ l h2 ?_
      rcases h6 with h6 | h6
      · exact .inl h6
      · right; rw [h6]; exact array_lead _

private theorem lead_diff {u t : Str} (v : Str) (h1 : ¬ t <+: u) (h2 : ¬ u <+: t) : lead (u ++ v) t = false := by
  rw [Bool.eq_false_iff]
  intro hl
  rw [lead, List.isPrefixOf_iff_prefix] at hl
  rcases List.prefix_or_prefix_of_prefix hl (List.prefix_append u v) with h | h
  · exact h1 h
  · exact h2 h

private theorem typ_none (c : Cfg) (f tgt name t l member : Str) (h1 : ¬ b "&" <+: t ∧ ¬ t <+: b "&")
    (h2 : ¬ b "TmpMemPtr_" <+: t ∧ ¬ t <+: b "TmpMemPtr_")
    (h3 : ¬ b "classdesc::is_constructor" <+: t ∧ ¬ t <+: b "classdesc::is_constructor")
    (h4 : ¬ b "classdesc::is_array" <+: t ∧ ¬ t <+: b "classdesc::is_array")
    (h5 : ¬ b "classdesc::is_const_static" <+: t ∧ ¬ t <+: b "classdesc::is_const_static") :
    typ c f tgt ⟨name, t ++ l, member⟩ = [] := by
  have g1 := lead_diff l h1.1 h1.2
  have g2 := lead_diff l h2.1 h2.2
  have g3 := lead_diff l h3.1 h3.2
  have g4 := lead_diff l h4.1 h4.2
  have g5 := lead_diff l h5.1 h5.2
  simp only [typ, g1, g2, g3, g4, g5]
  simp

private theorem typ_amp (c : Cfg) (f tgt name s member : Str) :
    typ c f tgt ⟨name, b "&" ++ s, member⟩ = [typeCall f tgt name [b "&" ++ s]] := by
  have e : b "\"," = b "\"" ++ b "," := by decide
  simp [typ, lead_append, typeCall, e]

private theorem typ_array (c : Cfg) (f tgt name l member : Str) (hm : member ≠ []) :
    typ c f tgt ⟨name, b "classdesc::is_array()" ++ l, member⟩ = [typeCall f tgt name [b "&" ++ bareType tgt ++ b "::" ++ member]] := by
  have e : b "\"," = b "\"" ++ b "," := by decide
  have g1 : lead (b "classdesc::is_array()" ++ l) (b "&") = false := lead_diff l (by decide +kernel) (by decide +kernel)
  have g2 : lead (b "classdesc::is_array()" ++ l) (b "TmpMemPtr_") = false := lead_diff l (by decide +kernel) (by decide +kernel)
  have g3 : lead (b "classdesc::is_array()" ++ l) (b "classdesc::is_constructor") = false := lead_diff l (by decide +kernel) (by decide +kernel)
  simp [typ, g1, g2, g3, array_lead, hm, typeCall, e]

private theorem typ_const (c : Cfg) (f tgt name l : Str) : typ c f tgt ⟨name, b "classdesc::is_const_static()" ++ l, []⟩ =
    if c.mbr = true then [typeCall f tgt name [b "classdesc::is_const_static()" ++ l]] else [] := by
  have e : b "\"," = b "\"" ++ b "," := by decide
  have g1 : lead (b "classdesc::is_const_static()" ++ l) (b "&") = false := lead_diff l (by decide +kernel) (by decide +kernel)
  have g2 : lead (b "classdesc::is_const_static()" ++ l) (b "TmpMemPtr_") = false := lead_diff l (by decide +kernel) (by decide +kernel)
  have g3 : lead (b "classdesc::is_const_static()" ++ l) (b "classdesc::is_constructor") = false := lead_diff l (by decide +kernel) (by decide +kernel)
  have g4 : lead (b "classdesc::is_const_static()" ++ l) (b "classdesc::is_const_static") = true := by
    have : b "classdesc::is_const_static()" = b "classdesc::is_const_static" ++ b "()" := by decide +kernel
    rw [this, List.append_assoc]
    exact lead_append _ _
  cases hm : c.mbr <;> simp [typ, g1, g2, g3, g4, hm, typeCall, e]

private theorem typ_pair (c : Cfg) (f tgt cls : Str) (hb : bareType tgt = cls) (a : Act) (h : Good cls a) :
    typ c f tgt (pair c (cls ++ b "::") a) = (pointer c cls a).toList.map (typeCall f tgt (b "." ++ a.name)) := by
  have hn := ident_ne h.name
  rw [pair]
  simp only [if_neg hn]
  by_cases hc : a.cs = true
  · obtain ⟨t, l, h1, _, h3, _⟩ := args_text c cls a h
    have e : passed c cls a = b "classdesc::is_const_static()" :: t :: l := by
      rw [← h3 a.static, ← hc]
    rw [if_pos hc, const_text, List.append_assoc, typ_const, pointer, if_pos hc, h1, e]
    cases c.mbr <;> simp [typeCall]
  · have hc' : a.cs = false := by simpa using hc
    rw [if_neg hc, pointer, if_neg hc]
    obtain ⟨name, kind, static, cs⟩ := a
    simp only at hn
    cases kind with
    | data ref =>
      simp only [args, if_neg hn]
      by_cases hm : c.mbr = true ∧ ref = false
      · rw [if_pos hm, if_pos hm, List.append_assoc, typ_amp]
        simp
      · rw [if_neg hm, if_neg hm]
        have := typ_none c f tgt (b "." ++ name) (b "arg.") name [] (by decide +kernel) (by decide +kernel) (by decide +kernel) (by decide +kernel)
          (by decide +kernel)
        simpa using this
    | func =>
      simp only [args]
      rw [List.append_assoc, typ_amp]
      simp
    | array l =>
      simp only [args]
      rw [array_text name l (h.bounds l rfl).1, typ_array _ _ _ _ _ _ hn, hb]
      simp
    | bytes =>
      have e1 : b "classdesc::is_array(),(char&)(arg." = b "classdesc::is_array()" ++ b ",(char&)(arg." := by decide +kernel
      simp only [args, if_neg hn, e1, List.append_assoc]
      rw [typ_array _ _ _ _ _ _ hn, hb]
      simp

private theorem key_scope {key : Str} (hk : Key key) (n : Str) : scopeOf (key ++ b " " ++ n) = n ++ b "::" ∧
    target (key ++ b " " ++ n) = key ++ b " " ++ n ∧ bareType (key ++ b " " ++ n) = n := by
  have e32 : b " " = [32] := by decide
  rcases hk with rfl | rfl
  · have l1 : lead (b "class" ++ b " " ++ n) (b "class ") = true := by
      have : b "class" ++ b " " = b "class " := by decide
      rw [this]; exact lead_append _ _
    have l2 : lead (b "class" ++ b " " ++ n) (b "class") = true := by rw [List.append_assoc]; exact lead_append _ _
    have q : qualifier (b "class" ++ b " " ++ n) = b "class" := by rw [qualifier, if_pos l2]
    have d : bareType (b "class" ++ b " " ++ n) = n := by
      rw [bareType, q, List.append_assoc, List.drop_left, e32]
      simp
    refine ⟨?_, ?_, d⟩
    · rw [scopeOf, if_pos l1]
      have : (b "class" ++ b " ").length = 6 := by decide
      rw [← this, List.drop_left]
    · rw [target, q, d, if_neg (by decide), e32]
  · have l0 : lead (b "struct" ++ b " " ++ n) (b "class ") = false := by
      rw [List.append_assoc]; exact lead_diff _ (by decide +kernel) (by decide +kernel)
    have l0' : lead (b "struct" ++ b " " ++ n) (b "class") = false := by
      rw [List.append_assoc]; exact lead_diff _ (by decide +kernel) (by decide +kernel)
    have l1 : lead (b "struct" ++ b " " ++ n) (b "struct ") = true := by
      have : b "struct" ++ b " " = b "struct " := by decide
      rw [this]; exact lead_append _ _
    have l2 : lead (b "struct" ++ b " " ++ n) (b "struct") = true := by rw [List.append_assoc]; exact lead_append _ _
    have q : qualifier (b "struct" ++ b " " ++ n) = b "struct" := by rw [qualifier, l0', if_neg (by simp), if_pos l2]
    have d : bareType (b "struct" ++ b " " ++ n) = n := by
      rw [bareType, q, List.append_assoc, List.drop_left, e32]
      simp
    refine ⟨?_, ?_, d⟩
    · rw [scopeOf, l0, if_neg (by simp), if_pos l1]
      have : (b "struct" ++ b " ").length = 7 := by decide
      rw [← this, List.drop_left]
    · rw [target, q, d, if_neg (by decide), e32]

private theorem acts_text {templ : Str} {bs : List Bases.Base} {as : List Str} (h : Bases.Acts templ bs as) :
    ∀ x ∈ as, ∃ r, x = b "classdesc::base_cast<" ++ r := by
  induction h with
  | nil => simp
  | cons _ _ ih =>
    intro x hx
    rcases List.mem_cons.1 hx with rfl | hx
    · exact ⟨_, by rw [List.append_assoc, List.append_assoc]⟩
    · exact ih x hx

private theorem flatMap_one {α β : Type} {g : α → List β} {h : α → β} : ∀ {l : List α}, (∀ x ∈ l, g x = [h x]) → l.flatMap g = l.map h
  | [], _ => rfl
  | x :: l, e => by
    rw [List.flatMap_cons, e x (.head _), flatMap_one fun y hy => e y (.tail _ hy)]
    rfl

/-- **C82** for a class registered as wanted (`C78_file_partial`): the function visiting an object makes one call for each base
class, passing the object as such, and one for each member, in order, passing the member under its name. -/
theorem C82_operator_partial (c : Cfg) (f key n ns templ : Str) (hk : Key key) {bs : List Bases.Base} {mem : List (Str × Kind)} {tidy : Prop}
    {want : List Act} {as : List Str} {acts : List Act}
    (hm : Match (.cls (key ++ b " " ++ n) ns templ bs mem tidy want) (.cls (key ++ b " " ++ n) ns templ as acts)) (ht : tidy)
    (hg : ∀ a ∈ want, Good n a) (hb : ∀ a ∈ as, ¬ mark <:+: a) :
    operStmts c f (.cls (key ++ b " " ++ n) ns templ as acts) =
      (as.map fun a => call f [] [a]) ++ want.map fun a => call f (b "." ++ a.name) (passed c n a) := by
  cases hm with
  | cls h1 h2 h3 =>
    rw [h3 ht, operStmts, pairs, (key_scope hk n).1, List.flatMap_append]
    congr 1
    · rw [List.flatMap_map]
      apply flatMap_one
      intro a ha
      have := oper_second f [] a [] [] (by intro x hx; simp at hx; rw [hx]; exact hb a ha) (.inl rfl)
      simpa using this
    · rw [List.flatMap_map]
      exact flatMap_one fun a ha => oper_pair c f n a (hg a ha)

/-- **C82** for the function that describes the type: one call for each member that can be pointed to, with a pointer to it. -/
theorem C82_type_partial (c : Cfg) (f key n ns templ : Str) (hk : Key key) {bs : List Bases.Base} {mem : List (Str × Kind)} {tidy : Prop}
    {want : List Act} {as : List Str} {acts : List Act}
    (hm : Match (.cls (key ++ b " " ++ n) ns templ bs mem tidy want) (.cls (key ++ b " " ++ n) ns templ as acts)) (ht : tidy)
    (hg : ∀ a ∈ want, Good n a) :
    typeStmts c f (.cls (key ++ b " " ++ n) ns templ as acts) =
      want.flatMap fun a => (pointer c n a).toList.map (typeCall f (key ++ b " " ++ n) (b "." ++ a.name)) := by
  cases hm with
  | cls h1 h2 h3 =>
    obtain ⟨k1, k2, k3⟩ := key_scope hk n
    rw [h3 ht, typeStmts, pairs, k1, List.flatMap_append, Emit.type, k2]
    have e : (as.map fun a => (⟨[], a, []⟩ : Pair)).flatMap (typ c f (key ++ b " " ++ n)) = [] := by
      rw [List.flatMap_map, List.flatMap_eq_nil_iff]
      intro a ha
      obtain ⟨r, rfl⟩ := acts_text h1 a ha
      exact typ_none c f _ [] (b "classdesc::base_cast<") r [] (by decide +kernel) (by decide +kernel) (by decide +kernel) (by decide +kernel)
          (by decide +kernel)
    rw [e, List.nil_append, List.flatMap_map]
    rw [List.flatMap, List.flatMap]
    congr 1
    exact List.map_congr_left fun a ha => typ_pair c f _ n k3 a (hg a ha)

private theorem labelOf_call (f label : Str) (args : List Str) (hf : (34 : UInt8) ∉ f) (hl : (34 : UInt8) ∉ label) :
    labelOf (call f label args) = label := by
  have e1 : b "(targ,desc+\"" = b "(targ,desc+" ++ [34] := by decide
  have e2 : b "\"" = [34] := by decide
  have key : ∀ u v : Str, (34 : UInt8) ∉ u → (u ++ 34 :: v).dropWhile (· != 34) = 34 :: v := by
    intro u v hu
    induction u with
    | nil => simp
    | cons c u ih =>
      simp only [List.mem_cons, not_or] at hu
      have : (c != 34) = true := by simp; exact fun e => hu.1 e.symm
      simp [this, ih hu.2]
  have key2 : ∀ u v : Str, (34 : UInt8) ∉ u → (u ++ 34 :: v).takeWhile (· != 34) = u := by
    intro u v hu
    induction u with
    | nil => simp
    | cons c u ih =>
      simp only [List.mem_cons, not_or] at hu
      have : (c != 34) = true := by simp; exact fun e => hu.1 e.symm
      simp [this, ih hu.2]
  have e : call f label args = (b "::" ++ f ++ b "(targ,desc+") ++ 34 :: (label ++ 34 :: ((args.flatMap fun a => b "," ++ a) ++ b ");")) := by
    simp [call, e1, e2]
  rw [labelOf, e, key _ _ (by
    simp only [List.mem_append, not_or]
    exact ⟨⟨by decide, hf⟩, by decide⟩), List.tail_cons, key2 _ _ hl]

/-- **C82**: the labels: none for base classes, and for each member its name; so a member whose name is not that of another is
visited exactly once. -/
theorem C82_once_partial (c : Cfg) (f key n ns templ : Str) (hk : Key key) (hf : Ident f) {bs : List Bases.Base} {mem : List (Str × Kind)}
    {tidy : Prop} {want : List Act} {as : List Str} {acts : List Act}
    (hm : Match (.cls (key ++ b " " ++ n) ns templ bs mem tidy want) (.cls (key ++ b " " ++ n) ns templ as acts)) (ht : tidy)
    (hg : ∀ a ∈ want, Good n a) (hb : ∀ a ∈ as, ¬ mark <:+: a) :
    (operStmts c f (.cls (key ++ b " " ++ n) ns templ as acts)).map labelOf = List.replicate as.length [] ++ want.map (fun a => b "." ++ a.name) ∧
    (∀ a ∈ want, want.countP (fun d => d.name == a.name) = 1 →
      ((operStmts c f (.cls (key ++ b " " ++ n) ns templ as acts)).filter fun s => labelOf s == b "." ++ a.name) =
        [call f (b "." ++ a.name) (passed c n a)]) := by
  have hq : (34 : UInt8) ∉ f := ident_no hf (by decide)
  have hw : ∀ a ∈ want, labelOf (call f (b "." ++ a.name) (passed c n a)) = b "." ++ a.name := by
    intro a ha
    refine labelOf_call _ _ _ hq ?_
    rw [List.mem_append, not_or]
    exact ⟨by decide, ident_no (hg a ha).name (by decide)⟩
  rw [C82_operator_partial c f key n ns templ hk hm ht hg hb]
  constructor
  · rw [List.map_append, List.map_map, List.map_map]
    congr 1
    · rw [← List.map_const']
      apply List.map_congr_left
      intro a _
      exact labelOf_call _ _ _ hq (by simp)
    · exact List.map_congr_left hw
  · intro a ha h1
    have e1 : ((as.map fun a => call f [] [a]).filter fun s => labelOf s == b "." ++ a.name) = [] := by
      rw [List.filter_eq_nil_iff]
      intro s hs
      obtain ⟨x, _, rfl⟩ := List.mem_map.1 hs
      rw [labelOf_call _ _ _ hq (by simp)]
      simp [show b "." = [46] by decide]
    rw [List.filter_append, e1, List.nil_append, List.filter_map]
    have e2 : want.filter ((fun s => labelOf s == b "." ++ a.name) ∘ fun a => call f (b "." ++ a.name) (passed c n a)) = [a] := by
      have : want.filter ((fun s => labelOf s == b "." ++ a.name) ∘ fun a => call f (b "." ++ a.name) (passed c n a)) =
          want.filter fun d => d.name == a.name := by
        apply List.filter_congr
        intro d hd
        simp only [Function.comp_apply, hw d hd]
        rw [Bool.eq_iff_iff]
        simp
      rw [this]
      rw [List.countP_eq_length_filter, List.length_eq_one_iff] at h1
      obtain ⟨x, hx⟩ := h1
      have hmem : a ∈ want.filter fun d => d.name == a.name := by simp [ha]
      rw [hx] at hmem ⊢
      simp at hmem
      rw [hmem]
    rw [e2]
    rfl

/-- Enumerations are passed as integers, or with `-typeName` under their symbols. -/
theorem C82_enum (c : Cfg) (f type ns : Str) (keys : List Str) : operStmts c f (.enum type ns keys) =
    [call f [] [if c.typeName = true then b "classdesc::enum_handle(arg)" else b "(int&)arg"]] := by
  have h1 : ¬ mark <:+: b "classdesc::enum_handle(arg)" := by decide +kernel
  have h2 : ¬ mark <:+: b "(int&)arg" := by decide +kernel
  have key : ∀ t : Str, ¬ mark <:+: t → oper f ⟨[], t, []⟩ = [call f [] [t]] := by
    intro t ht
    have := oper_second f [] t [] [] (by intro x hx; simp at hx; rw [hx]; exact ht) (.inl rfl)
    simpa using this
  rw [operStmts, pairs, List.flatMap_singleton]
  apply key
  split
  · exact h1
  · exact h2

private theorem matches_length {ws : List Want} {gs : List Reg} (h : Matches ws gs) : ws.length = gs.length := by
  induction h with
  | nil => rfl
  | cons _ _ ih => simpa using ih

private theorem matches_zip {ws : List Want} {gs : List Reg} (h : Matches ws gs) : ∀ {w g}, (w, g) ∈ ws.zip gs → Match w g := by
  induction h with
  | nil => simp
  | cons h _ ih =>
    intro w g hm
    rw [List.zip_cons_cons, List.mem_cons, Prod.mk.injEq] at hm
    rcases hm with ⟨rfl, rfl⟩ | hm
    · exact h
    · exact ih hm

/-- **C82** for a file: for each class in it the statements are those for its base classes and members.

Missing: with `-overload`; classes in which `static` or `const` are used as in `C66_fails_const`, `C66_fails_static`,
`C66_fails_result`; the declarations in front of the statements.  That the statements can be compiled does not hold: see the
theorems below. -/
theorem C82_file_partial (o : Top.Cfg) (S : Src) (h : S.Ok) (c : Cfg) (f : Str) : ∃ regs, Top.file o S.toks = some regs ∧
    (S.wants o []).length = regs.length ∧
    ∀ key n ns templ bs mem tidy want r, (.cls (key ++ b " " ++ n) ns templ bs mem tidy want, r) ∈ (S.wants o []).zip regs → Key key → tidy →
      (∀ a ∈ want, Good n a) → ∃ as acts, r = .cls (key ++ b " " ++ n) ns templ as acts ∧ Bases.Acts templ bs as ∧
        ((∀ a ∈ as, ¬ mark <:+: a) → operStmts c f r =
          (as.map fun a => call f [] [a]) ++ want.map fun a => call f (b "." ++ a.name) (passed c n a)) ∧
        typeStmts c f r = want.flatMap fun a => (pointer c n a).toList.map (typeCall f (key ++ b " " ++ n) (b "." ++ a.name)) := by
  obtain ⟨regs, h1, h2⟩ := Top.C78_file_partial o S h
  refine ⟨regs, h1, matches_length h2, ?_⟩
  · intro key n ns templ bs mem tidy want r hr hk ht hg
    have hm := matches_zip h2 hr
    cases hm with
    | cls g1 g2 g3 =>
      refine ⟨_, _, rfl, g1, ?_, ?_⟩
      · intro hb
        exact C82_operator_partial c f key n ns templ hk (.cls g1 g2 g3) ht hg hb
      · exact C82_type_partial c f key n ns templ hk (.cls g1 g2 g3) ht hg

/-! ### Cases -/

/-- The statements of the descriptors of a file. -/
def written (c : Cfg) (f s : String) : Option (List Str) := (Top.file ⟨true, false⟩ (words s)).map (·.flatMap (operStmts c (b f)))

def writtenType (c : Cfg) (f s : String) : Option (List Str) := (Top.file ⟨true, false⟩ (words s)).map (·.flatMap (typeStmts c (b f)))

example : operStmts ⟨true, false⟩ (b "pack") (.cls (b "class" ++ b " " ++ b "::A") [] [] []
      [⟨b "x", .data false, false, false⟩, ⟨b "m", .array [[b "2"], [b "N", b "+", b "1"]], false, false⟩, ⟨b "f", .func, true, false⟩]) =
    [b "::pack(targ,desc+\".x\",arg,&::A::x);", b "::pack(targ,desc+\".m\",classdesc::is_array(),arg.m[0][0],2, 2, N + 1);",
     b "::pack(targ,desc+\".f\",&::A::f);"] := by
  rw [C82_operator_partial ⟨true, false⟩ (b "pack") (b "class") (b "::A") [] [] (.inl rfl) (tidy := True) (.cls .nil rfl fun _ => rfl) trivial ?_ (by simp)]
  · decide +kernel
  · have id : ∀ c : UInt8, idStart c = true → Ident [c] := fun c h => ⟨c, [], rfl, h, by simp⟩
    intro a ha
    simp only [List.mem_cons, List.not_mem_nil, or_false] at ha
    rcases ha with rfl | rfl | rfl
    · exact ⟨id 120 (by decide), by decide +kernel, by simp⟩
    · refine ⟨id 109 (by decide), by decide +kernel, ?_⟩
      intro l hl
      cases hl
      exact ⟨by simp, by decide +kernel⟩
    · exact ⟨id 102 (by decide), by decide +kernel, by simp⟩

example : written ⟨false, false⟩ "pack" "struct A : B { int x ; double m [ 2 ] [ N ] ; static const int k = 3 ; int f ( ) ; static int s ; int & r ; private : int p ; } ;" =
    some [b "::pack(targ,desc+\"\",classdesc::base_cast<B >::cast(arg));",
      b "::pack(targ,desc+\".x\",arg.x);", b "::pack(targ,desc+\".m\",classdesc::is_array(),arg.m[0][0],2, 2, N);",
      b "::pack(targ,desc+\".k\",classdesc::is_const_static(),arg.k);", b "::pack(targ,desc+\".f\",arg,&::A::f);",
      b "::pack(targ,desc+\".s\",arg.s);", b "::pack(targ,desc+\".r\",arg.r);"] := by decide +kernel

/-- With `-use_mbr_pointers` a pointer is made to a bit field, which C++ does not have, -/
theorem C82_bits_fails : written ⟨true, false⟩ "pack" "struct A { unsigned n : 3 ; } ;" = some [b "::pack(targ,desc+\".n\",arg,&::A::n);"] := by
  decide +kernel

/-- and to an rvalue reference, which it does not have either, while other references are passed as such. -/
theorem C82_reference_fails : written ⟨true, false⟩ "pack" "struct A { int & r ; int && s ; } ;" =
    some [b "::pack(targ,desc+\".r\",arg.r);", b "::pack(targ,desc+\".s\",arg,&::A::s);"] := by
  decide +kernel

/-- The bounds of an array are not qualified: a constant of the class is not found, or another of that name. -/
theorem C82_bound_fails : written ⟨false, false⟩ "pack" "struct A { static const int N = 3 ; int x [ N ] ; } ;" =
    some [b "::pack(targ,desc+\".N\",classdesc::is_const_static(),arg.N);",
      b "::pack(targ,desc+\".x\",classdesc::is_array(),arg.x[0],1, N);"] := by
  decide +kernel

/-- A static function with a constant result is passed as a static constant. -/
theorem C82_result_fails : written ⟨false, false⟩ "pack" "struct A { static const B * f ( ) ; } ;" =
    some [b "::pack(targ,desc+\".f\",classdesc::is_const_static(),&::A::f);"] := by
  decide +kernel

/-- The type function leaves out data members unless `-use_mbr_pointers` is given, -/
theorem C82_type_data_fails : writtenType ⟨false, false⟩ "pack" "struct A { int x ; int a [ 3 ] ; } ;" =
    some [b "::pack_type<_CD_TYPE,struct ::A >(targ,desc+\".a\",&::A::a);"] := by
  decide +kernel

/-- references always, -/
theorem C82_type_reference_fails : writtenType ⟨true, false⟩ "pack" "struct A { int x ; int & r ; } ;" =
    some [b "::pack_type<_CD_TYPE,struct ::A >(targ,desc+\".x\",&::A::x);"] := by
  decide +kernel

/-- base classes always, -/
theorem C82_type_base_fails : writtenType ⟨true, false⟩ "pack" "struct A : B { int x ; } ;" =
    some [b "::pack_type<_CD_TYPE,struct ::A >(targ,desc+\".x\",&::A::x);"] := by
  decide +kernel

/-- and mentions an object it does not have for a static constant array. -/
theorem C82_type_array_fails : writtenType ⟨true, false⟩ "pack" "struct A { static const int a [ 3 ] ; } ;" =
    some [b "::pack_type<_CD_TYPE,struct ::A >(targ,desc+\".a\",classdesc::is_const_static(),classdesc::is_array(),arg.a[0],1, 3);"] := by
  decide +kernel

end Verif.Body
