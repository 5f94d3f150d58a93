import Verif.Whole
import Verif.Props.Body
import Verif.Props.Codec
/- C111 -/
namespace Verif.Whole
open Verif.Tok (Str b)
open Verif.Decl (Act Kind)
open Verif.Top (Src Key words)
open Verif.Body (call passed mark operStmts)
open Verif.Bases (Ident idChar idStart)

/-! ### Specification -/

/-- Members that have a value in the object or, if static, in the class: not functions, not static constants. -/
def C111.stored (a : Act) : Bool := !a.cs && match a.kind with
  | .func => false
  | _ => true

/-- The object after unpacking: at each of the places the value packed (but for parts that are excluded or constant, which are as
before, C42), the rest as before. -/
def C111.restored (T : Types) (xs : List Str) (o d : Obj) : Obj := fun x =>
  if x ∈ xs then
    match T x with
    | some t => restore t (d x) (o x)
    | none => d x
  else d x

/-- The bytes at the places. -/
def C111.bytes (T : Types) (o : Obj) (xs : List Str) : Bytes := xs.flatMap fun x => match T x with
  | some t => encode t (o x)
  | none => []

/-- The places have values of their types, in the object packed and, as far as its shape goes, in that unpacked to. -/
def C111.Typed (lim : Nat) (T : Types) (o d : Obj) (xs : List Str) : Prop :=
  ∀ x ∈ xs, ∀ t, T x = some t → WF lim t ∧ HasType lim t (o x) ∧ Shape t (d x)

open C111

/-! ### Streams -/

private theorem appendsAt (al : Alloc) (hok : al.ok = true) (lim : Nat) (T : Types) (o d : Obj) : ∀ xs, Typed lim T o d xs →
    Appends (packAt al T o xs) (bytes T o xs)
  | [], _ => Appends.pure
  | x :: xs, h => by
    have ih := appendsAt al hok lim T o d xs fun y hy => h y (by simp [hy])
    have hx := h x (by simp)
    rw [packAt, C111.bytes, List.flatMap_cons]
    cases ht : T x with
    | none => simpa [C111.bytes] using ih
    | some t =>
      obtain ⟨h1, h2, _⟩ := hx t ht
      exact Appends.bind (packs al hok lim t (o x) h1 h2) ih

private theorem readsAt (lim : Nat) (hlim : lim < 2 ^ 63) (T : Types) (o : Obj) : ∀ xs d, xs.Nodup → Typed lim T o d xs →
    Verif.Reads (unpackAt lim T xs d) (bytes T o xs) (restored T xs o d)
  | [], d, _, _ => by
    have : restored T [] o d = d := by funext x; simp [restored]
    rw [this]
    exact Reads.pure _
  | x :: xs, d, hn, h => by
    obtain ⟨hx1, hn⟩ := List.nodup_cons.1 hn
    have hx := h x (by simp)
    rw [unpackAt, C111.bytes, List.flatMap_cons]
    cases ht : T x with
    | none =>
      have ih := readsAt lim hlim T o xs d hn fun y hy => h y (by simp [hy])
      have e : restored T (x :: xs) o d = restored T xs o d := by
        funext y
        by_cases hy : y = x
        · subst hy; simp [restored, hx1, ht]
        · simp [restored, hy]
      rw [e]
      simpa [C111.bytes] using ih
    | some t =>
      obtain ⟨h1, h2, h3⟩ := hx t ht
      have ih := readsAt lim hlim T o xs (set d x (restore t (d x) (o x))) hn fun y hy t' ht' => by
        obtain ⟨g1, g2, g3⟩ := h y (by simp [hy]) t' ht'
        have : y ≠ x := by rintro rfl; exact hx1 hy
        exact ⟨g1, g2, by simpa [set, this] using g3⟩
      have e : restored T (x :: xs) o d = restored T xs o (set d x (restore t (d x) (o x))) := by
        funext y
        by_cases hy : y = x
        · subst hy; simp [restored, hx1, ht, set]
        · simp [restored, hy, set]
      rw [e]
      exact Reads.bind ((reads_both lim hlim t h1).1 _ _ h3 h2) ih

/-! ### Texts -/

private theorem cut_append (p s : Str) : cut p (p ++ s) = some s := by
  have : p.isPrefixOf (p ++ s) = true := by simp
  simp [cut]

private theorem cut_ne {p s : Str} (h : ¬ p <+: s) : cut p s = none := by
  rw [cut, if_neg (by rwa [List.isPrefixOf_iff_prefix])]

private theorem argsOf_call (f label : Str) (args : List Str) (hl : (34 : UInt8) ∉ label) (a : Str) :
    argsOf f (call f label (a :: args)) = some (a ++ (args.flatMap fun a => b "," ++ a) ++ b ");") := by
  have e : call f label (a :: args) = (b "::" ++ f ++ b "(targ,desc+\"") ++ (label ++ 34 :: (b "," ++ (a ++ (args.flatMap fun a => b "," ++ a) ++ b ");"))) := by
    have e2 : b "\"" = [34] := by decide
    simp [call, e2]
  have key : ∀ u v : Str, (34 : UInt8) ∉ u → (u ++ 34 :: v).dropWhile (· != 34) = 34 :: v := by
    intro u v hu
    induction u with
    | nil => simp
    | cons c u ih =>
      simp only [List.mem_cons, not_or] at hu
      have : (c != 34) = true := by simp; exact fun e => hu.1 e.symm
      simp [this, ih hu.2]
  rw [argsOf, e, cut_append, Option.bind_some, key _ _ hl]
  have e3 : ∀ v : Str, (34 : UInt8) :: (b "," ++ v) = b "\"," ++ v := by
    intro v
    have : b "\"," = 34 :: b "," := by decide
    rw [this, List.cons_append]
  rw [e3, cut_append]

private theorem word_of {x : Str} (hx : Ident x) (c : UInt8) (hc : idChar c = false) (r : Str) : (x ++ c :: r).takeWhile idChar = x := by
  obtain ⟨d, u, rfl, h1, h2⟩ := hx
  have h3 : ∀ e ∈ d :: u, idChar e = true := by
    intro e he
    rcases List.mem_cons.1 he with rfl | he
    · simp [idChar, h1]
    · exact h2 e he
  rw [List.takeWhile_append_of_pos h3]
  simp [hc]

private theorem not_pre {p s : Str} (n : Nat) (h : p.take n ≠ s.take n) (hn : n ≤ p.length) : ¬ p <+: s := by
  rintro ⟨t, rfl⟩
  exact h (by rw [List.take_append_of_le_length hn])

private theorem cut_none (p u s : Str) (n : Nat) (h : p.take n ≠ u.take n) (h1 : n ≤ p.length) (h2 : n ≤ u.length) : cut p (u ++ s) = none := by
  apply cut_ne
  apply not_pre n _ h1
  rw [List.take_append_of_le_length h2]
  exact h

/-- The arguments begin with `u`. -/
private theorem place_cs (n s : Str) : place n (b "classdesc::is_const_static()," ++ s) = none := by
  rw [place, cut_append]; simp

private theorem place_bytes (n s : Str) : place n (b "classdesc::is_array(),(char&)(arg." ++ s) = some (s.takeWhile idChar) := by
  rw [place, cut_none _ _ _ 16 (by decide) (by decide) (by decide), cut_append]; simp

private theorem place_array (n s : Str) : place n (b "classdesc::is_array(),arg." ++ s) = some (s.takeWhile idChar) := by
  rw [place, cut_none _ _ _ 16 (by decide) (by decide) (by decide), cut_none _ _ _ 25 (by decide) (by decide) (by decide), cut_append]; simp

private theorem place_arg (n s : Str) : place n (b "arg." ++ s) = some (s.takeWhile idChar) := by
  rw [place, cut_none _ _ _ 1 (by decide) (by decide) (by decide), cut_none _ _ _ 1 (by decide) (by decide) (by decide),
    cut_none _ _ _ 1 (by decide) (by decide) (by decide), cut_append]; simp

private theorem place_ptr (n s : Str) : place n (b "arg,&" ++ n ++ b "::" ++ s) = some (s.takeWhile idChar) := by
  have e : b "arg,&" ++ n ++ b "::" ++ s = b "arg,&" ++ (n ++ (b "::" ++ s)) := by simp
  rw [place, cut_append, e, cut_none _ _ _ 1 (by decide) (by decide) (by decide), cut_none _ _ _ 1 (by decide) (by decide) (by decide),
    cut_none _ _ _ 1 (by decide) (by decide) (by decide), cut_none _ _ _ 4 (by decide) (by decide) (by decide)]; simp

private theorem place_fn (n s : Str) : place n (b "&" ++ s) = none := by
  have h : cut (b "arg,&" ++ n ++ b "::") (b "&" ++ s) = none := by
    apply cut_none _ _ _ 1 _ _ (by decide)
    · rw [List.append_assoc, List.take_append_of_le_length (by decide)]; decide
    · have : (b "arg,&").length = 5 := by decide
      simp [this]; omega
  rw [place, h, cut_append, cut_none _ _ _ 1 (by decide) (by decide) (by decide), cut_none _ _ _ 1 (by decide) (by decide) (by decide),
    cut_none _ _ _ 1 (by decide) (by decide) (by decide), cut_none _ _ _ 1 (by decide) (by decide) (by decide)]; simp

private theorem idChar_not : idChar 41 = false ∧ idChar 91 = false ∧ idChar 44 = false := by decide

/-- What `place` finds in the arguments for a member. -/
private theorem place_passed (c : Body.Cfg) (n : Str) (a : Act) (hg : Body.Good n a) (f label : Str) (hl : (34 : UInt8) ∉ label) :
    (argsOf f (call f label (passed c n a))).bind (place n) =
      if a.cs = true then none
      else match a.kind with
        | .func => if a.static = true then none else some a.name
        | _ => some a.name := by
  have hn := hg.name
  have ec : b "," = [44] := by decide
  have ee : b ");" = 41 :: b ";" := by decide
  by_cases hcs : a.cs = true
  · rw [if_pos hcs]
    have : ∃ x l, passed c n a = b "classdesc::is_const_static()" :: x :: l := by
      rw [passed, if_pos hcs]
      cases hk : a.kind with
      | data ref => by_cases h : c.mbr = true ∧ ref = false <;> simp [h, hcs]
      | func => simp [hcs]
      | array l => simp
      | bytes => simp
    obtain ⟨x, l, e⟩ := this
    rw [e, argsOf_call _ _ _ hl, Option.bind_some, List.flatMap_cons]
    have e1 : b "classdesc::is_const_static()" ++ (b "," ++ x ++ (l.flatMap fun a => b "," ++ a)) ++ b ");" =
        b "classdesc::is_const_static()," ++ (x ++ (l.flatMap fun a => b "," ++ a) ++ b ");") := by
      have : b "classdesc::is_const_static()," = b "classdesc::is_const_static()" ++ b "," := by decide
      rw [this]; simp
    rw [e1, place_cs]
  · rw [if_neg hcs]
    rw [passed, if_neg hcs, List.nil_append]
    cases hk : a.kind with
    | data ref =>
      simp only [if_neg hcs]
      by_cases h : c.mbr = true ∧ ref = false
      · rw [if_pos h]
        simp only [List.cons_append, List.nil_append]
        rw [argsOf_call _ _ _ hl, Option.bind_some]
        have e1 : b "arg" ++ ([b "&" ++ n ++ b "::" ++ a.name].flatMap fun a => b "," ++ a) ++ b ");" = b "arg,&" ++ n ++ b "::" ++ (a.name ++ 41 :: b ";") := by
          have : b "arg,&" = b "arg" ++ (b "," ++ b "&") := by decide
          rw [this, ee]; simp
        rw [e1, place_ptr, word_of hn _ idChar_not.1]
      · rw [if_neg h, argsOf_call _ _ _ hl, Option.bind_some]
        have e1 : b "arg." ++ a.name ++ (([] : List Str).flatMap fun a => b "," ++ a) ++ b ");" = b "arg." ++ (a.name ++ 41 :: b ";") := by
          rw [ee]; simp
        rw [e1, place_arg, word_of hn _ idChar_not.1]
    | func =>
      simp only
      by_cases h : a.static = true
      · rw [if_pos (.inl h), if_pos h, List.nil_append, argsOf_call _ _ _ hl, Option.bind_some]
        simp only [List.append_assoc]
        rw [place_fn]
      · rw [if_neg (by simp [h, hcs]), if_neg h]
        simp only [List.cons_append, List.nil_append]
        rw [argsOf_call _ _ _ hl, Option.bind_some]
        have e1 : b "arg" ++ ([b "&" ++ n ++ b "::" ++ a.name].flatMap fun a => b "," ++ a) ++ b ");" = b "arg,&" ++ n ++ b "::" ++ (a.name ++ 41 :: b ";") := by
          have : b "arg,&" = b "arg" ++ (b "," ++ b "&") := by decide
          rw [this, ee]; simp
        rw [e1, place_ptr, word_of hn _ idChar_not.1]
    | array l =>
      simp only [List.cons_append, List.nil_append]
      rw [argsOf_call _ _ _ hl, Option.bind_some, List.flatMap_cons]
      obtain ⟨hl0, _⟩ := hg.bounds l hk
      obtain ⟨ts, l, rfl⟩ : ∃ ts l', l = ts :: l' := by cases l with
        | nil => exact absurd rfl hl0
        | cons ts l => exact ⟨ts, l, rfl⟩
      have e0 : b "[0]" = 91 :: b "0]" := by decide
      generalize (List.flatMap (fun a => b "," ++ a) (Xml.dec (ts :: l).length :: (ts :: l).map fun ts => (ts.map fun t => b " " ++ t).flatten)) = rest
      have e1 : b "classdesc::is_array()" ++ (b "," ++ (b "arg." ++ a.name ++ ((ts :: l).map fun _ => b "[0]").flatten) ++ rest) ++ b ");" =
          b "classdesc::is_array(),arg." ++ (a.name ++ 91 :: (b "0]" ++ (l.map fun _ => b "[0]").flatten ++ rest ++ b ");")) := by
        have : b "classdesc::is_array(),arg." = b "classdesc::is_array()" ++ (b "," ++ b "arg.") := by decide
        rw [this, List.map_cons, List.flatten_cons]
        simp [e0]
      rw [e1, place_array, word_of hn _ idChar_not.2.1]
    | bytes =>
      simp only
      rw [argsOf_call _ _ _ hl, Option.bind_some, List.flatMap_cons]
      generalize (List.flatMap (fun a => b "," ++ a) [b "1", b "sizeof(arg." ++ a.name ++ b ")"]) = rest
      have e1 : b "classdesc::is_array()" ++ (b "," ++ (b "(char&)(arg." ++ a.name ++ b ")") ++ rest) ++ b ");" =
          b "classdesc::is_array(),(char&)(arg." ++ (a.name ++ 41 :: (rest ++ b ");")) := by
        have : b "classdesc::is_array(),(char&)(arg." = b "classdesc::is_array()" ++ (b "," ++ b "(char&)(arg.") := by decide
        have e2 : b ")" = [41] := by decide
        rw [this, e2]
        simp
      rw [e1, place_bytes, word_of hn _ idChar_not.1]

/-- And for a base class. -/
private theorem place_base (n f t : Str) : (argsOf f (call f [] [b "classdesc::base_cast<" ++ t])).bind (place n) = some (b "classdesc::base_cast<" ++ t) := by
  rw [argsOf_call _ _ _ (by simp)]
  simp only [List.flatMap_nil, List.append_nil, Option.bind_some]
  have e : b "classdesc::base_cast<" = b "classdesc::" ++ (98 :: b "ase_cast<") := by decide
  have h1 : ∀ p : Str, p.take 12 ≠ b "classdesc::b" → 12 ≤ p.length → cut p (b "classdesc::base_cast<" ++ t ++ b ");") = none := by
    intro p h1 h2
    apply cut_ne
    apply not_pre 12 _ h2
    have : (b "classdesc::base_cast<" ++ t ++ b ");").take 12 = b "classdesc::b" := by
      rw [List.append_assoc, List.take_append_of_le_length (by decide)]; decide
    rw [this]; exact h1
  have h2 : ∀ (p : Str) (u : UInt8), p.head? = some u → u ≠ 99 → cut p (b "classdesc::base_cast<" ++ t ++ b ");") = none := by
    intro p u h1 h2
    apply cut_ne
    rintro ⟨r, hr⟩
    have := congrArg List.head? hr
    cases p with
    | nil => simp at h1
    | cons x p =>
      have e : b "classdesc::base_cast<" = 99 :: b "lassdesc::base_cast<" := by decide
      simp only [List.head?_cons, Option.some.injEq] at h1
      rw [e] at this
      simp at this
      exact h2 (h1.symm.trans this)
  rw [place, h1 _ (by decide) (by decide), h1 _ (by decide) (by decide), h1 _ (by decide) (by decide), h2 _ 97 (by decide) (by decide),
    h2 (b "arg,&" ++ n ++ b "::") 97 rfl (by decide), h2 _ 38 (by decide) (by decide)]
  have e3 : b ");" = [41, 59] := by decide
  simp only [Option.isSome_none, Bool.false_eq_true, if_false, e3]
  rw [show b "classdesc::base_cast<" ++ t ++ [41, 59] = ((b "classdesc::base_cast<" ++ t) ++ [41]) ++ [59] by simp, List.dropLast_concat, List.dropLast_concat]

/-! ### The places of a class -/

/-- Members that are functions but not static are looked at too; they have no value. -/
private theorem at_filter (al : Alloc) (T : Types) (o : Obj) : ∀ xs ys : List Str, xs.filter (fun x => (T x).isSome) = ys.filter (fun x => (T x).isSome) →
    packAt al T o xs = packAt al T o ys := by
  have key : ∀ xs : List Str, packAt al T o xs = packAt al T o (xs.filter fun x => (T x).isSome) := by
    intro xs
    induction xs with
    | nil => rfl
    | cons x xs ih =>
      cases h : T x with
      | none => simp [packAt, h, ih]
      | some t => simp [packAt, h, ih]
  intro xs ys h
  rw [key xs, key ys, h]

private theorem unat_filter (lim : Nat) (T : Types) : ∀ xs ys : List Str, xs.filter (fun x => (T x).isSome) = ys.filter (fun x => (T x).isSome) →
    ∀ d, unpackAt lim T xs d = unpackAt lim T ys d := by
  have key : ∀ (xs : List Str) d, unpackAt lim T xs d = unpackAt lim T (xs.filter fun x => (T x).isSome) d := by
    intro xs
    induction xs with
    | nil => intro d; rfl
    | cons x xs ih =>
      intro d
      cases h : T x with
      | none => simp [unpackAt, h, ih]
      | some t =>
        simp only [unpackAt, h, Option.isSome_some, List.filter_cons_of_pos]
        congr 1
        funext v
        exact ih _
  intro xs ys h d
  rw [key xs, key ys, h]

private theorem places_eq (c : Body.Cfg) (f n : Str) (as : List Str) (want : List Act) (hg : ∀ a ∈ want, Body.Good n a)
    (ha : ∀ a ∈ as, ∃ t, a = b "classdesc::base_cast<" ++ t) (T : Types) (hT : ∀ a ∈ want, a.kind = .func → T a.name = none) :
    (places f n ((as.map fun a => call f [] [a]) ++ want.map fun a => call f (b "." ++ a.name) (passed c n a))).filter (fun x => (T x).isSome) =
      (as ++ (want.filter stored).map (·.name)).filter fun x => (T x).isSome := by
  rw [places, List.filterMap_append, List.filter_append, List.filter_append]
  congr 1
  · rw [List.filterMap_map]
    congr 1
    induction as with
    | nil => rfl
    | cons a as ih =>
      obtain ⟨t, rfl⟩ := ha a (by simp)
      rw [List.filterMap_cons]
      have : ((fun s => (argsOf f s).bind (place n)) ∘ fun a => call f [] [a]) (b "classdesc::base_cast<" ++ t) = some (b "classdesc::base_cast<" ++ t) :=
        place_base n f t
      rw [this]
      simp only
      rw [ih fun a h => ha a (by simp [h])]
  · rw [List.filterMap_map]
    induction want with
    | nil => rfl
    | cons a want ih =>
      have ih := ih (fun x h => hg x (by simp [h])) (fun x h => hT x (by simp [h]))
      have hq : (34 : UInt8) ∉ b "." ++ a.name := by
        obtain ⟨d, u, e, h1, h2⟩ := (hg a (by simp)).name
        rw [e]
        have hd : (34 : UInt8) ≠ d := by rintro rfl; exact absurd h1 (by decide)
        have hu : (34 : UInt8) ∉ u := fun h => absurd (h2 _ h) (by decide)
        have hb : (34 : UInt8) ∉ b "." := by decide
        simp [hd, hu, hb]
      have hp := place_passed c n a (hg a (by simp)) f (b "." ++ a.name) hq
      have ht := hT a (by simp)
      rw [List.filterMap_cons]
      have e : ((fun s => (argsOf f s).bind (place n)) ∘ fun a => call f (b "." ++ a.name) (passed c n a)) a =
          (argsOf f (call f (b "." ++ a.name) (passed c n a))).bind (place n) := rfl
      rw [e, hp]
      by_cases hcs : a.cs = true
      · simp [hcs, stored, ih]
      · simp only [if_neg hcs]
        cases hk : a.kind with
        | func =>
          have hs : stored a = false := by simp [stored, hk]
          simp only [List.filter_cons, hs]
          by_cases h : a.static = true
          · simp [h, ih]
          · simp [h, ih, ht hk]
        | data r =>
          have hs : stored a = true := by simp [stored, hk, hcs]
          simp only [List.filter_cons, hs, if_true, List.map_cons]
          rw [ih]
        | array r =>
          have hs : stored a = true := by simp [stored, hk, hcs]
          simp only [List.filter_cons, hs, if_true, List.map_cons]
          rw [ih]
        | bytes =>
          have hs : stored a = true := by simp [stored, hk, hcs]
          simp only [List.filter_cons, hs, if_true, List.map_cons]
          rw [ih]

private theorem acts_cast {templ : Str} {bs : List Bases.Base} {as : List Str} (h : Bases.Acts templ bs as) : ∀ a ∈ as, ∃ t, a = b "classdesc::base_cast<" ++ t := by
  induction h with
  | nil => simp
  | cons _ _ ih =>
    intro a ha
    rcases List.mem_cons.1 ha with rfl | ha
    · simp only [List.append_assoc]; exact ⟨_, rfl⟩
    · exact ih a ha

/-! ### Theorems -/

/-- **C111**, for every file of the form of C78: what the program writes for a class in it packs an object and restores it. -/
theorem C111_file_partial (o : Top.Cfg) (S : Src) (h : S.Ok) (c c' : Body.Cfg) : ∃ regs, Top.file o S.toks = some regs ∧
    (S.wants o []).length = regs.length ∧
    ∀ key n ns templ bs mem tidy want r, (.cls (key ++ b " " ++ n) ns templ bs mem tidy want, r) ∈ (S.wants o []).zip regs → Key key → tidy →
      (∀ a ∈ want, Body.Good n a) → ∃ as, Bases.Acts templ bs as ∧ ((∀ a ∈ as, ¬ mark <:+: a) →
        (as ++ (want.filter stored).map (·.name)).Nodup →
        ∀ (T : Types), (∀ a ∈ want, a.kind = .func → T a.name = none) →
        ∀ (al : Alloc) (_ : al.ok = true) (lim : Nat) (_ : lim < 2 ^ 63) (x d : Obj), Typed lim T x d (as ++ (want.filter stored).map (·.name)) →
        ∀ (buf : Buf), AtEnd buf → buf.size + (bytes T x (as ++ (want.filter stored).map (·.name))).length < 2 ^ 63 →
        ∃ b1 b2, packObj al c n r T x buf = (.ok (), b1) ∧
          unpackObj lim c' n r T d b1 = (.ok (restored T (as ++ (want.filter stored).map (·.name)) x d), b2) ∧
          b1.content = buf.content ++ bytes T x (as ++ (want.filter stored).map (·.name)) ∧ b2.toBool = false) := by
  obtain ⟨regs, h1, h2, h3⟩ := Body.C82_file_partial o S h c (b "pack")
  obtain ⟨regs', h1', _, h3'⟩ := Body.C82_file_partial o S h c' (b "unpack")
  rw [h1] at h1'
  cases h1'
  refine ⟨regs, h1, h2, ?_⟩
  intro key n ns templ bs mem tidy want r hr hk ht hg
  obtain ⟨as, acts, er, ha, hs, _⟩ := h3 key n ns templ bs mem tidy want r hr hk ht hg
  obtain ⟨as', acts', er', ha', hs', _⟩ := h3' key n ns templ bs mem tidy want r hr hk ht hg
  rw [er] at er'
  cases er'
  refine ⟨as, ha, ?_⟩
  intro hm hnd T hT al hok lim hlim x d hty buf hb hsz
  have hp := hs hm
  have hu := hs' hm
  have e1 : packObj al c n r T x = packAt al T x (as ++ (want.filter stored).map (·.name)) := by
    rw [packObj, hp]
    exact at_filter al T x _ _ (places_eq c (b "pack") n as want hg (acts_cast ha) T hT)
  have e2 : unpackObj lim c' n r T d = unpackAt lim T (as ++ (want.filter stored).map (·.name)) d := by
    rw [unpackObj, hu]
    exact unat_filter lim T _ _ (places_eq c' (b "unpack") n as want hg (acts_cast ha) T hT) d
  rw [e1, e2]
  obtain ⟨b1, p1, p2, p3, p4, p5⟩ := appendsAt al hok lim T x d _ hty buf hb.inv (by omega)
  have hr := rest_of_append hb p2 p3
  have hpos := hb.pos
  refine ⟨b1, _, p1, readsAt lim hlim T x _ d hnd hty b1 ⟨p5, by omega, by omega⟩ [] (by simpa using hr), p2, ?_⟩
  have h0 : b1.pos = buf.size := by omega
  simp [Buf.toBool, Buf.adv, h0, p4]

/-- The types at the places as one type, and the values as one value: the form classes have in `Verif.Codec`. -/
def C111.chain (T : Types) : List Str → Ty
  | [] => .unit
  | x :: xs => match T x with
    | some t => .pair t (chain T xs)
    | none => chain T xs

def C111.value (T : Types) (o : Obj) : List Str → Val
  | [] => .unit
  | x :: xs => match T x with
    | some _ => .pair (o x) (value T o xs)
    | none => value T o xs

/-- Packing an object as the program describes it is packing the pair of its parts. -/
theorem C111_chain (al : Alloc) (T : Types) (o : Obj) : ∀ xs, packAt al T o xs = packM al (chain T xs) (value T o xs)
  | [] => by simp [packAt, C111.chain, C111.value, packM]
  | x :: xs => by
    have ih := C111_chain al T o xs
    cases h : T x with
    | none => simp [packAt, C111.chain, C111.value, h, ih]
    | some t => simp [packAt, C111.chain, C111.value, h, ih, packM]

/-- And unpacking it, whatever there is in the buffer, gives the parts of that pair, or fails as that does. -/
theorem C111_unchain (lim : Nat) (T : Types) : ∀ xs d, xs.Nodup →
    M.bind (unpackAt lim T xs d) (fun d' => M.pure (value T d' xs)) = decM lim (chain T xs) (value T d xs)
  | [], d, _ => by simp only [unpackAt, C111.chain, C111.value, decM]; rfl
  | x :: xs, d, hn => by
    obtain ⟨hx, hn⟩ := List.nodup_cons.1 hn
    have ih := C111_unchain lim T xs
    have same : ∀ (d' : Obj) v ys, x ∉ ys → value T (set d' x v) ys = value T d' ys := by
      intro d' v ys
      induction ys with
      | nil => intro _; rfl
      | cons y ys ihy =>
        intro hy
        have h1 : y ≠ x := by rintro rfl; simp at hy
        have h2 : x ∉ ys := fun h => hy (by simp [h])
        simp [C111.value, ihy h2, set, h1]
    have keeps : ∀ ys (d' : Obj) bf d'' b', x ∉ ys → unpackAt lim T ys d' bf = (.ok d'', b') → d'' x = d' x := by
      intro ys
      induction ys with
      | nil => intro d' bf d'' b' _ h; simp [unpackAt, M.pure] at h; rw [h.1]
      | cons y ys ihy =>
        intro d' bf d'' b' hy h
        have h1 : x ≠ y := by rintro rfl; simp at hy
        have h2 : x ∉ ys := fun h => hy (by simp [h])
        cases ht : T y with
        | none => simp only [unpackAt, ht] at h; exact ihy _ _ _ _ h2 h
        | some t =>
          simp only [unpackAt, ht, M.bind] at h
          split at h
          · rw [ihy _ _ _ _ h2 h]; simp [set, h1]
          · cases h
          · cases h
    cases h : T x with
    | none => simp only [unpackAt, C111.chain, C111.value, h]; exact ih d hn
    | some t =>
      simp only [unpackAt, C111.chain, C111.value, h, decM, Val.fst, Val.snd]
      funext bf
      simp only [M.bind]
      cases he : decM lim t (d x) bf with
      | mk r b1 =>
        cases r with
        | ok v =>
          simp only
          have := congrFun (ih (set d x v) hn) b1
          rw [same d v xs hx] at this
          rw [← this]
          simp only [M.bind]
          cases hu : unpackAt lim T xs (set d x v) b1 with
          | mk r2 b2 =>
            cases r2 with
            | ok d' =>
              have hk := keeps xs _ _ _ _ hx hu
              simp [M.pure, hk, set]
            | throw e => rfl
            | ub u => rfl
        | throw e => rfl
        | ub u => rfl

/-- The object after packing and unpacking what the program writes for a class that is all there is in a file. -/
def C111.roundtrip (s : String) (al : Alloc) (lim : Nat) (cls : String) (T : Types) (x d : Obj) (buf : Buf) : Option (Res Obj) :=
  (Top.file ⟨true, false⟩ (words s)).bind fun regs => regs.head?.map fun r =>
    (M.bind (packObj al ⟨false, false⟩ (b cls) r T x) (fun _ => unpackObj lim ⟨false, false⟩ (b cls) r T d) buf).1

/-- Behind a constructor that initialises members with braces, a member of the class is lost: after packing and unpacking it is what it was in
the object unpacked to, for all objects. -/
theorem C111_fails_lost (al : Alloc) (hok : al.ok = true) (lim : Nat) (hlim : lim < 2 ^ 63) (T : Types) (x d : Obj)
    (hT : Typed lim T x d [b "z", b "w"]) (buf : Buf) (hb : AtEnd buf) (hsz : buf.size + (bytes T x [b "w"]).length < 2 ^ 63) :
    ∃ d', roundtrip "struct A { A () : y { 2 } { } int z ; int w ; } ;" al lim "::A" T x d buf = some (.ok d') ∧ d' (b "z") = d (b "z") := by
  have h1 : (Top.file ⟨true, false⟩ (words "struct A { A () : y { 2 } { } int z ; int w ; } ;")) =
      some [.cls (b "struct ::A") [] [] [] [⟨b "w", .data false, false, false⟩]] := by decide +kernel
  have h2 : ∀ f, f = b "pack" ∨ f = b "unpack" → places f (b "::A") (operStmts ⟨false, false⟩ f
      (.cls (b "struct ::A") [] [] [] [⟨b "w", .data false, false, false⟩])) = [b "w"] := by
    rintro f (rfl | rfl) <;> decide +kernel
  have hT' : Typed lim T x d [b "w"] := fun y hy => hT y (by simp at hy; simp [hy])
  obtain ⟨b1, p1, p2, p3, p4, p5⟩ := appendsAt al hok lim T x d _ hT' buf hb.inv (by omega)
  have hr := rest_of_append hb p2 p3
  have hpos := hb.pos
  have hu := readsAt lim hlim T x [b "w"] d (by simp) hT' b1 ⟨p5, by omega, by omega⟩ [] (by simpa using hr)
  refine ⟨restored T [b "w"] x d, ?_, ?_⟩
  · simp only [C111.roundtrip, h1, Option.bind_some, List.head?_cons, Option.map_some]
    rw [packObj, unpackObj, h2 _ (.inl rfl), h2 _ (.inr rfl)]
    simp only [M.bind, p1, hu]
  · have : b "z" ∉ [b "w"] := by decide
    simp [C111.restored, this]

/-! ### Cases -/

/-- `struct A { int x; int y; };` -/
def C111.sample : Src := .cls (b "struct") (b "A") [] (.item (.data [⟨[b "int"], b "x", .plain⟩]) (.item (.data [⟨[b "int"], b "y", .plain⟩]) .nil)) (.word (b ";") .nil)

example : sample.toks = words "struct A { int x ; int y ; } ;" := by decide +kernel

private theorem sample_ok : sample.Ok := by
  have q : ∀ t : Str, t ∈ [b "int", b "x", b "y"] → Decl.C66.Quiet t := by
    intro t ht
    simp only [List.mem_cons, List.not_mem_nil, or_false] at ht
    rcases ht with rfl | rfl | rfl
    · exact ⟨by decide +kernel, .inr ⟨105, b "nt", by decide, by decide +kernel⟩⟩
    · exact ⟨by decide +kernel, .inr ⟨120, [], by decide, by decide +kernel⟩⟩
    · exact ⟨by decide +kernel, .inr ⟨121, [], by decide, by decide +kernel⟩⟩
  have it : ∀ n ∈ [b "x", b "y"], (Decl.C66.Item.data [⟨[b "int"], n, .plain⟩]).Ok := by
    intro n hn
    refine ⟨by simp, ?_⟩
    intro d hd
    simp at hd
    subst hd
    refine ⟨.quiet (q _ (by simp)) .nil, ⟨q n (by simp at hn ⊢; exact .inr hn), ?_⟩, trivial⟩
    simp only [List.mem_cons, List.not_mem_nil, or_false] at hn
    rcases hn with rfl | rfl <;> decide +kernel
  simp only [sample, Src.Ok, Top.Body.Ok, Key, Top.Plain]
  refine ⟨by simp, ⟨65, [], rfl, by decide, by simp⟩, by simp, ⟨it _ (by simp), it _ (by simp), trivial⟩, ⟨by decide +kernel, by decide +kernel⟩, trivial⟩

/-- Two of its objects with 4-byte members: all hypotheses of `C111_file_partial` are met. -/
example (al : Alloc) (hok : al.ok = true) (x d : Obj) (hx : ∀ y, HasType 1000 (.prim 4) (x y)) (hd : ∀ y, Shape (.prim 4) (d y)) (buf : Buf)
    (hb : AtEnd buf) (hsz : buf.size + (bytes (fun _ => some (.prim 4)) x [b "x", b "y"]).length < 2 ^ 63) :
    ∃ r b1 b2 d', Top.file ⟨true, false⟩ (words "struct A { int x ; int y ; } ;") = some [r] ∧
      packObj al ⟨false, false⟩ (b "::A") r (fun _ => some (.prim 4)) x buf = (.ok (), b1) ∧
      unpackObj 1000 ⟨false, false⟩ (b "::A") r (fun _ => some (.prim 4)) d b1 = (.ok d', b2) ∧
      d' (b "x") = x (b "x") ∧ d' (b "y") = x (b "y") ∧ b2.toBool = false := by
  obtain ⟨regs, h1, h2, h3⟩ := C111_file_partial ⟨true, false⟩ sample sample_ok ⟨false, false⟩ ⟨false, false⟩
  have e : sample.toks = words "struct A { int x ; int y ; } ;" := by decide +kernel
  have hl : (sample.wants ⟨true, false⟩ []).length = 1 := rfl
  rw [hl] at h2
  obtain ⟨r, rfl⟩ := List.length_eq_one_iff.1 h2.symm
  have id : ∀ c : UInt8, idStart c = true → Ident [c] := fun c h => ⟨c, [], rfl, h, by simp⟩
  obtain ⟨as, ha, h4⟩ := h3 (b "struct") (b "::A") _ _ _ _ _ _ r (List.mem_singleton.2 rfl) (.inr rfl) (by simp [Decl.C66.Tidy, Top.Body.own]) (by
    intro a ha
    have : a.name = b "x" ∧ a.kind = .data false ∨ a.name = b "y" ∧ a.kind = .data false := by
      revert a; decide +kernel
    rcases this with ⟨e1, e2⟩ | ⟨e1, e2⟩
    · exact ⟨e1 ▸ id 120 (by decide), by rw [e1]; decide +kernel, by simp [e2]⟩
    · exact ⟨e1 ▸ id 121 (by decide), by rw [e1]; decide +kernel, by simp [e2]⟩)
  have e0 : Bases.wanted true (decide (b "struct" = b "class")) [] = [] := rfl
  have ea : as = [] := by
    generalize hq : Bases.wanted true _ [] = q at ha
    have : q = [] := by rw [← hq]; rfl
    subst this
    cases ha
    rfl
  subst ea
  generalize hw : Decl.C66.keptActs _ _ _ = w at h4
  have hw' : w = [⟨b "x", .data false, false, false⟩, ⟨b "y", .data false, false, false⟩] := by rw [← hw]; decide +kernel
  subst hw'
  have es : [] ++ ([⟨b "x", .data false, false, false⟩, ⟨b "y", .data false, false, false⟩].filter stored).map (·.name) = [b "x", b "y"] := by decide +kernel
  rw [es] at h4
  obtain ⟨b1, b2, g1, g2, _, g4⟩ := h4 (by simp) (by decide +kernel) (fun _ => some (.prim 4)) (by simp) al hok 1000 (by omega) x d
    (fun y _ t ht => by cases ht; exact ⟨by simp [WF], hx y, hd y⟩) buf hb hsz
  exact ⟨r, b1, b2, _, e ▸ h1, g1, g2, by simp [C111.restored, restore], by simp [C111.restored, restore], g4⟩

end Verif.Whole
