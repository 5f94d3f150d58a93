import Verif.Fwd
import Verif.Props.TopLevel
/- C106 -/
namespace Verif.Fwd
open Verif.Tok (Str b)
open Verif.Decl (Rd starts)
open Verif.Bases (classHead has Ident Base)
open Verif.Top (scope Key)

/-! ### Specification -/

/-- What a file says of classes.  `path` is the scope (namespaces and classes), `next` the token behind the name in a declaration, `xs`
the base classes in a definition, `rest` what follows. -/
inductive C106.Item
  | declare (path : List Str) (key name next : Str) (rest : List Str)
  | define (path : List Str) (key name : Str) (xs : List Base) (rest : List Str)
  /-- `typedef struct name x;` -/
  | tdeclare (name : Str)
  /-- `typedef struct name {...} x;` -/
  | tdefine (name : Str)

open C106 (Item)

/-- Names are identifiers; the token behind the name in a declaration is none that begins a definition or goes on with the name. -/
def C106.Item.Ok : C106.Item → Prop
  | .declare path key name next _ => (∀ p ∈ path, Ident p) ∧ Key key ∧ Ident name ∧ starts ":{" next = false ∧ next ≠ b "<" ∧ next ≠ b "::"
  | .define path key name xs _ => (∀ p ∈ path, Ident p) ∧ Key key ∧ Ident name ∧ ∀ x ∈ xs, x.Ok
  | .tdeclare name => Ident name
  | .tdefine name => Ident name

/-- What the generator meets. -/
def C106.Item.ev : C106.Item → Ev
  | .declare path key name next rest => .cls (scope path ++ b "::") [] [] false ⟨[], key, name, next :: rest⟩
  | .define path key name xs rest => .cls (scope path ++ b "::") [] [] false ⟨[], key, name, Bases.heads xs ++ b "{" :: rest⟩
  | .tdeclare name => .typ name false
  | .tdefine name => .typ name true

/-- The class `name` in the scope `path` is declared.  Typedefs are taken to be outside of namespaces. -/
def C106.Declares (path : List Str) (name : Str) : C106.Item → Prop
  | .declare p _ n _ _ => p = path ∧ n = name
  | .tdeclare n => path = [] ∧ n = name
  | _ => False

/-- It is defined. -/
def C106.Defines (path : List Str) (name : Str) : C106.Item → Prop
  | .define p _ n _ _ => p = path ∧ n = name
  | .tdefine n => path = [] ∧ n = name
  | _ => False

open C106

private theorem ident_no {n : Str} (h : Ident n) {c : UInt8} (hc : Bases.idChar c = false) : c ∉ n := by
  obtain ⟨d, r, rfl, h1, h2⟩ := h
  intro hm
  rcases List.mem_cons.1 hm with rfl | hm
  · simp [Bases.idChar, h1] at hc
  · rw [h2 c hm] at hc; cases hc

private theorem to_app (a s : Str) (h : ∀ c ∈ a, c ≠ 58) : Top.toColons (a ++ 58 :: 58 :: s) = a := by
  induction a with
  | nil => simp [Top.toColons]
  | cons c a ih =>
    have hc : c ≠ 58 := h c (.head _)
    simp only [List.cons_append, Top.toColons, hc, false_and, if_false]
    rw [ih fun d hd => h d (.tail _ hd)]

private theorem to_plain : ∀ s : Str, (∀ c ∈ s, c ≠ 58) → Top.toColons s = s
  | [], _ => rfl
  | c :: s, h => by rw [Top.toColons, if_neg (fun e => h c (.head _) e.1), to_plain s (fun d hd => h d (.tail _ hd))]

private theorem last_scoped (u : Str) {n : Str} (h : Ident n) : (Top.toColons (u ++ b "::" ++ n).reverse).reverse = n := by
  rw [show b "::" = [58, 58] by decide]
  simp only [List.reverse_append, List.reverse_cons, List.reverse_nil, List.nil_append, List.cons_append]
  rw [to_app _ _ (fun c hc e => by subst e; exact ident_no h (by decide) (List.mem_reverse.1 hc)), List.reverse_reverse]

private theorem last_plain {n : Str} (h : Ident n) : (Top.toColons n.reverse).reverse = n := by
  rw [to_plain _ (fun c hc e => by subst e; exact ident_no h (by decide) (List.mem_reverse.1 hc)), List.reverse_reverse]

private theorem no_angle {n : Str} (h : Ident n) : has 60 n = false := by
  have := ident_no h (c := 60) (by decide)
  simp [has, this]

private theorem step_ev (respect : Bool) (t : Table) (i : Item) (h : i.Ok) : step respect t i.ev =
    match i with
    | .declare _ _ n _ _ => if t n = some true then t else set t n false
    | .tdeclare n => if t n = some true then t else set t n false
    | .define path _ n _ _ => set t (scope path ++ b "::" ++ n) true
    | .tdefine n => set t n true := by
  cases i with
  | declare path key n next rest =>
    obtain ⟨_, _, h3, h4, h5, h6⟩ := h
    simp only [Item.ev, step, Bases.C75_final_fails _ _ _ _ _ _ _ _ _ h4 h5 h6, Bool.false_eq_true, if_false, declared, last_scoped _ h3, no_angle h3]
  | tdeclare n => simp only [Item.ev, step, declared, last_plain h, no_angle h, Bool.false_eq_true, if_false]
  | tdefine n => rfl
  | define path key n xs rest =>
    obtain ⟨h1, _, h3, h4⟩ := h
    have hp : ∀ c ∈ scope path ++ b "::", c ≠ 60 ∧ c ≠ 62 := by
      intro c hc
      have hb : ∀ c ∈ b "::", c ≠ 60 ∧ c ≠ 62 := by decide
      rcases List.mem_append.1 hc with hc | hc
      · obtain ⟨p, hp, hc⟩ := List.mem_flatMap.1 hc
        rcases List.mem_append.1 hc with hc | hc
        · exact hb c hc
        · exact ⟨fun e => by subst e; exact ident_no (h1 p hp) (by decide) hc, fun e => by subst e; exact ident_no (h1 p hp) (by decide) hc⟩
      · exact hb c hc
    obtain ⟨as, r, e, _⟩ := Bases.C75_class_partial respect (scope path ++ b "::") [] key n [] false xs h4 rest hp
      (fun c hc => ⟨fun e => by subst e; exact ident_no h3 (by decide) hc, fun e => by subst e; exact ident_no h3 (by decide) hc⟩)
    simp only [Item.ev, step, e, if_true, defined]

open Classical in
/-- What the table has under a name that is no path. -/
private theorem table_iff (respect : Bool) (n : Str) (hn : Ident n) : ∀ (l : List Item) (t : Table), (∀ i ∈ l, i.Ok) →
    (l.map Item.ev).foldl (step respect) t n =
      if t n = some true ∨ Item.tdefine n ∈ l then some true
      else if t n = some false ∨ ∃ i ∈ l, ∃ p, Declares p n i then some false else none
  | [], t, _ => by
    simp
    cases e : t n with
    | none => simp
    | some v => cases v <;> simp
  | i :: l, t, h => by
    rw [List.map_cons, List.foldl_cons, table_iff respect n hn l _ (fun j hj => h j (.tail _ hj)), step_ev respect t i (h i (.head _))]
    have key : ∀ m : Str, ((if t m = some true then t else set t m false) n = some true ↔ t n = some true) ∧
        ((if t m = some true then t else set t m false) n = some false ↔ t n = some false ∨ n = m ∧ t n ≠ some true) := by
      intro m
      by_cases hm : t m = some true
      · rw [if_pos hm]
        refine ⟨Iff.rfl, ⟨.inl, ?_⟩⟩
        rintro (h | ⟨rfl, h⟩)
        · exact h
        · exact absurd hm h
      · rw [if_neg hm]
        by_cases e : n = m
        · subst e; simp [set, hm]
        · simp [set, e]
    cases i with
    | declare p k m x r =>
      simp only [key m, List.mem_cons, reduceCtorEq, false_or, exists_eq_or_imp, Declares]
      by_cases h1 : t n = some true ∨ Item.tdefine n ∈ l
      · rw [if_pos h1, if_pos h1]
      · rw [if_neg h1, if_neg h1]
        rw [not_or] at h1
        have : (∃ q, p = q ∧ m = n) ↔ n = m := ⟨fun ⟨_, _, e⟩ => e.symm, fun e => ⟨p, rfl, e.symm⟩⟩
        simp only [this, h1.1, ne_eq, not_false_eq_true, and_true, or_assoc]
    | tdeclare m =>
      simp only [key m, List.mem_cons, reduceCtorEq, false_or, exists_eq_or_imp, Declares]
      by_cases h1 : t n = some true ∨ Item.tdefine n ∈ l
      · rw [if_pos h1, if_pos h1]
      · rw [if_neg h1, if_neg h1]
        rw [not_or] at h1
        have : (∃ q : List Str, q = [] ∧ m = n) ↔ n = m := ⟨fun ⟨_, _, e⟩ => e.symm, fun e => ⟨[], rfl, e.symm⟩⟩
        simp only [this, h1.1, ne_eq, not_false_eq_true, and_true, or_assoc]
    | define p k m xs r =>
      have e : n ≠ scope p ++ b "::" ++ m := by
        intro e
        refine ident_no hn (c := 58) (by decide) ?_
        rw [e, show b "::" = [58, 58] by decide]; simp
      simp only [set, e, if_false, List.mem_cons, reduceCtorEq, false_or, exists_eq_or_imp, Declares, exists_false]
    | tdefine m =>
      by_cases e : n = m
      · subst e; simp [set]
      · have : (Item.tdefine n = Item.tdefine m) = False := by simp [e]
        simp only [set, e, if_false, List.mem_cons, this, false_or, exists_eq_or_imp, Declares, exists_false]

/-- C106, what happens: an empty class is printed under every name that was declared in any scope, unless a class of that name was defined
in a typedef. -/
theorem C106_printed (respect : Bool) (l : List Item) (h : ∀ i ∈ l, i.Ok) (n : Str) (hn : Ident n) :
    Printed respect true (l.map Item.ev) n ↔ (∃ i ∈ l, ∃ p, Declares p n i) ∧ Item.tdefine n ∉ l := by
  unfold Printed table
  rw [table_iff respect n hn l _ h]
  simp only [reduceCtorEq, false_or, true_and]
  by_cases h1 : Item.tdefine n ∈ l
  · simp [h1]
  · by_cases h2 : ∃ i ∈ l, ∃ p, Declares p n i
    · simp [h1, h2]
    · simp [h1, h2]

/-- C106: if declarations are outside of namespaces and classes, and nothing declared is defined other than in a typedef, empty classes are
printed for exactly what is declared and not defined.  Missing: the others, for which it is false. -/
theorem C106_exact_partial (respect : Bool) (l : List Item) (h : ∀ i ∈ l, i.Ok) (hp : ∀ i ∈ l, ∀ p n, Declares p n i → p = [])
    (hd : ∀ i ∈ l, ∀ j ∈ l, ∀ n, Declares [] n i → Defines [] n j → j = .tdefine n) (n : Str) (hn : Ident n) :
    Printed respect true (l.map Item.ev) n ↔ (∃ i ∈ l, Declares [] n i) ∧ ¬ ∃ i ∈ l, Defines [] n i := by
  rw [C106_printed respect l h n hn]
  constructor
  · rintro ⟨⟨i, hi, p, hq⟩, h2⟩
    have := hp i hi p n hq
    subst this
    refine ⟨⟨i, hi, hq⟩, ?_⟩
    rintro ⟨j, hj, e⟩
    have := hd i hi j hj n hq e
    subst this
    exact h2 hj
  · rintro ⟨⟨i, hi, hq⟩, h2⟩
    exact ⟨⟨i, hi, [], hq⟩, fun hm => h2 ⟨_, hm, rfl, rfl⟩⟩

/-- C106: with -nodef nothing is printed. -/
theorem C106_nodef (respect : Bool) (l : List Ev) (n : Str) : ¬ Printed respect false l n := fun h => by cases h.1

/-- C106 fails for a class that is declared and also defined, anywhere in the file: an empty class of the same name is printed, a second
definition. -/
theorem C106_fails_defined (respect : Bool) (l : List Item) (h : ∀ i ∈ l, i.Ok) (n key key' next : Str) (rest rest' : List Str) (xs : List Base)
    (h1 : .declare [] key n next rest ∈ l) (h2 : .define [] key' n xs rest' ∈ l) (ht : Item.tdefine n ∉ l) :
    Printed respect true (l.map Item.ev) n ∧ ∃ i ∈ l, Defines [] n i := by
  have hn : Ident n := (h _ h1).2.2.1
  exact ⟨(C106_printed respect l h n hn).2 ⟨⟨_, h1, [], rfl, rfl⟩, ht⟩, _, h2, rfl, rfl⟩

/-- So it does for a class with an alias: `struct n {...}; typedef struct n x;`. -/
theorem C106_fails_alias (respect : Bool) (l : List Item) (h : ∀ i ∈ l, i.Ok) (n key : Str) (rest : List Str) (xs : List Base)
    (h1 : .tdeclare n ∈ l) (h2 : .define [] key n xs rest ∈ l) (ht : Item.tdefine n ∉ l) :
    Printed respect true (l.map Item.ev) n ∧ ∃ i ∈ l, Defines [] n i := by
  have hn : Ident n := h _ h1
  exact ⟨(C106_printed respect l h n hn).2 ⟨⟨_, h1, [], rfl, rfl⟩, ht⟩, _, h2, rfl, rfl⟩

/-- C106 fails for a class declared in a namespace or class: what is printed is another class, outside. -/
theorem C106_fails_scope (respect : Bool) (l : List Item) (h : ∀ i ∈ l, i.Ok) (path : List Str) (n key next : Str) (rest : List Str)
    (h1 : .declare path key n next rest ∈ l) (ht : Item.tdefine n ∉ l) (hn : ∀ i ∈ l, ¬ Declares [] n i) :
    Printed respect true (l.map Item.ev) n ∧ ¬ ∃ i ∈ l, Declares [] n i :=
  ⟨(C106_printed respect l h n (h _ h1).2.2.1).2 ⟨⟨_, h1, path, rfl, rfl⟩, ht⟩, fun ⟨i, hi, e⟩ => hn i hi e⟩

/-- C106 fails for a declaration of a specialisation whose argument is qualified: what is printed is the end of its name, -/
theorem C106_fails_special : Printed false true [.cls (b "::") [] [] false ⟨[], b "class", b "V", [b "<", b "std", b "::", b "string", b ">", b ";"]⟩]
    (b " string > ") := by
  refine ⟨rfl, ?_⟩
  decide +kernel

/-! ### Cases -/

example : Printed false true ([Item.declare [] (b "class") (b "A") (b ";") [], .tdeclare (b "B"), .tdefine (b "B")].map Item.ev) (b "A") ∧
    ¬ Printed false true ([Item.declare [] (b "class") (b "A") (b ";") [], .tdeclare (b "B"), .tdefine (b "B")].map Item.ev) (b "B") := by
  unfold Printed
  decide +kernel

/-- `struct tm t;` among the members of a class. -/
example : Printed false true [.cls (b "::A::") [] [] false ⟨[], b "struct", b "tm", [b "t", b ";"]⟩] (b "tm") := by
  refine ⟨rfl, ?_⟩
  decide +kernel

/-- `class A; class A final {};` has two declarations and no definition. -/
example : Printed false true [.cls (b "::") [] [] false ⟨[], b "class", b "A", [b "final", b "{", b "}", b ";"]⟩] (b "A") := by
  refine ⟨rfl, ?_⟩
  decide +kernel

/-- Templates are left out. -/
example : ¬ Printed false true [.cls (b "::") (b "< class T > ") (b "< class T > ") false ⟨[], b "class", b "V", [b ";"]⟩] (b "V") := by
  unfold Printed
  decide +kernel

private theorem identA : Ident (b "A") := ⟨65, [], by decide +kernel, by decide, by simp⟩

example : Printed false true ([Item.declare [] (b "class") (b "A") (b ";") [], .define [] (b "class") (b "A") [] [b "}", b ";"]].map Item.ev) (b "A") := by
  refine (C106_fails_defined false _ ?_ _ _ _ _ _ _ _ (.head _) (.tail _ (.head _)) (by simp)).1
  intro i hi
  simp only [List.mem_cons, List.not_mem_nil, or_false] at hi
  rcases hi with rfl | rfl
  · exact ⟨by simp, .inl rfl, identA, by decide +kernel, by decide +kernel, by decide +kernel⟩
  · exact ⟨by simp, .inl rfl, identA, by simp⟩

end Verif.Fwd
