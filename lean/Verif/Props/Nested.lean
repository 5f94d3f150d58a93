import Verif.Nested
/- C103 -/
namespace Verif.Nested

/-! ### Specification -/

/-- Names of classes: no colons. -/
def C103.Plain (s : Str) : Prop := ':' ∉ s

/-- The name of the class with path `p`, outermost first. -/
def C103.name : List Str → Str
  | [] => []
  | [a] => a
  | a :: p => a ++ [':', ':'] ++ C103.name p

/-- The types declared in the classes of a file, each with the path of its class: `path` is where the text is. -/
def C103.declared : List Str → List Item → List (List Str × Str)
  | _, [] => []
  | p, .tdef n _ :: is => (p, n) :: C103.declared p is
  | p, .alias n :: is => (p, n) :: C103.declared p is
  | p, .fwd _ n :: is => (p, n) :: C103.declared p is
  | p, .enm n :: is => (p, n) :: C103.declared p is
  | p, .opn _ _ n ta :: is => (p, n) :: C103.declared (p ++ [n ++ ta]) is
  | p, .cls :: is => C103.declared p.dropLast is
  | p, _ :: is => C103.declared p is

/-- The innermost class around (or at) `p` that has a type `n`: where C++ finds `n`. -/
def C103.Finds (D : List (List Str × Str)) (p q : List Str) (n : Str) : Prop :=
  q ≠ [] ∧ q <+: p ∧ (q, n) ∈ D ∧ ∀ r, q <+: r → r ≠ q → r <+: p → (r, n) ∉ D

/-- The first character is that of an identifier. -/
def C103.Id : Str → Prop
  | [] => False
  | c :: _ => 'a' ≤ c ∧ c ≤ 'z' ∨ 'A' ≤ c ∧ c ≤ 'Z' ∨ c = '_'

instance : DecidablePred C103.Id
  | [] => inferInstanceAs (Decidable False)
  | c :: _ => inferInstanceAs (Decidable ('a' ≤ c ∧ c ≤ 'z' ∨ 'A' ≤ c ∧ c ≤ 'Z' ∨ c = '_'))

/-- What the list of nested types takes in: no types in private parts, no `using`, no member declared with `struct`, no templates, typedefs
that end in the name; and no class is ended that has not begun.  The stack says what is private, for the classes the text is in (and
the file). -/
def C103.Simple : List Bool → List Item → Prop
  | _, [] => True
  | b :: st, .tdef n l :: is => b = false ∧ n = l ∧ C103.Id n ∧ C103.Simple (b :: st) is
  | b :: st, .fwd t _ :: is => b = false ∧ t = false ∧ C103.Simple (b :: st) is
  | b :: st, .enm _ :: is => b = false ∧ C103.Simple (b :: st) is
  | b :: st, .opn t c n ta :: is => b = false ∧ t = false ∧ ':' ∉ n ∧ ':' ∉ ta ∧ C103.Simple (c :: b :: st) is
  | _ :: c :: st, .cls :: is => C103.Simple (c :: st) is
  | _ :: st, .label p :: is => C103.Simple (p :: st) is
  | b :: st, .fn t op :: is => (op = true → t = false) ∧ C103.Simple (b :: st) is
  | b :: st, .other :: is => C103.Simple (b :: st) is
  | _, _ :: _ => False

open C103

/-! ### Scopes -/

private theorem identStart_iff (s : Str) : identStart s = true ↔ Id s := by
  cases s with
  | nil => simp [identStart, C103.Id]
  | cons c r =>
    simp only [identStart, C103.Id, List.head?_cons, Option.any_some, Char.isAlpha, Char.isLower, Char.isUpper, Bool.or_eq_true, Bool.and_eq_true,
      decide_eq_true_eq, beq_iff_eq, ge_iff_le, Char.le_def]
    constructor
    · rintro ((h | h) | h)
      · exact .inr (.inl h)
      · exact .inl h
      · exact .inr (.inr h)
    · rintro (h | h | h)
      · exact .inl (.inr h)
      · exact .inl (.inl h)
      · exact .inr h

private def pre (p : List Str) : Str := p.flatMap (· ++ cc)

private theorem name_cc : ∀ p, p ≠ [] → name p ++ cc = pre p
  | [], h => absurd rfl h
  | [a], _ => by simp [name, pre]
  | a :: b :: p, _ => by
    have := name_cc (b :: p) (by simp)
    simp only [name, pre, List.flatMap_cons, List.append_assoc] at this ⊢
    rw [this]
    simp [cc]

private theorem outerRev_skip : ∀ (a r : Str), ':' ∉ a → outerRev (a ++ ':' :: ':' :: r) = some r.reverse
  | [], r, _ => by simp [outerRev]
  | [c], r, h => by
    have hc : c ≠ ':' := by simpa [eq_comm] using h
    simp [outerRev, hc]
  | c :: d :: a, r, h => by
    simp only [List.mem_cons, not_or] at h
    have := outerRev_skip (d :: a) r (by simp only [List.mem_cons, not_or]; exact ⟨h.2.1, h.2.2⟩)
    simp only [List.cons_append] at this ⊢
    rw [outerRev, if_neg (by simp [Ne.symm h.1])]
    exact this

private theorem outerRev_none : ∀ (a : Str), ':' ∉ a → outerRev a = none
  | [], _ => rfl
  | [c], _ => rfl
  | c :: d :: a, h => by
    simp only [List.mem_cons, not_or] at h
    rw [outerRev, if_neg (by simp [Ne.symm h.1])]
    exact outerRev_none (d :: a) (by simp only [List.mem_cons, not_or]; exact ⟨h.2.1, h.2.2⟩)

private theorem name_snoc (p : List Str) (a : Str) (h : p ≠ []) : name (p ++ [a]) = name p ++ cc ++ a := by
  rw [name_cc p h]
  induction p with
  | nil => exact absurd rfl h
  | cons b p ih =>
    cases p with
    | nil => simp [name, pre, cc]
    | cons c p =>
      have := ih (by simp)
      simp only [List.cons_append, name, pre, List.flatMap_cons] at this ⊢
      rw [this]
      simp [cc]

private theorem outer_snoc (p : List Str) (a : Str) (h : p ≠ []) (ha : ':' ∉ a) : outer (name (p ++ [a])) = some (name p) := by
  unfold outer
  rw [name_snoc p a h]
  simp only [cc, List.reverse_append, List.append_assoc, List.reverse_cons, List.reverse_nil, List.nil_append, List.cons_append]
  rw [outerRev_skip _ _ (by simpa using ha)]
  simp

private theorem name_ne_cc (p : List Str) (hp : ∀ a ∈ p, a ≠ [] ∧ ':' ∉ a) (h : p ≠ []) : name p ≠ cc := by
  cases p with
  | nil => exact absurd rfl h
  | cons a p =>
    obtain ⟨h1, h2⟩ := hp a (by simp)
    cases a with
    | nil => exact absurd rfl h1
    | cons c a =>
      simp only [List.mem_cons, not_or] at h2
      cases p <;> simp [name, cc, Ne.symm h2.1]

/-- The nonempty beginnings of a path, the longest first. -/
private def ups : Nat → List Str → List (List Str)
  | 0, _ => []
  | n + 1, p => p.take (n + 1) :: ups n p

private theorem ups_snoc (p : List Str) (a : Str) : ∀ n, n ≤ p.length → ups n (p ++ [a]) = ups n p
  | 0, _ => rfl
  | n + 1, h => by
    simp only [ups]
    rw [List.take_append_of_le_length h, ups_snoc p a n (by omega)]

private theorem scopes_eq (n : Nat) : ∀ p, p.length = n → p ≠ [] → (∀ a ∈ p, a ≠ [] ∧ ':' ∉ a) → ∀ k, n ≤ k →
    chain k (name p) = (ups n p).map name := by
  induction n with
  | zero => intro p hl h; exact absurd (List.length_eq_zero_iff.1 hl) h
  | succ n ih =>
    intro p hl h hp k hk
    obtain ⟨k, rfl⟩ : ∃ k', k = k' + 1 := ⟨k - 1, by omega⟩
    obtain ⟨l, a, rfl⟩ : ∃ l a, p = l ++ [a] := ⟨p.dropLast, p.getLast h, (List.dropLast_concat_getLast h).symm⟩
    have hl' : l.length = n := by simpa using hl
    have ha := hp a (by simp)
    unfold chain
    simp only [ups, List.map_cons]
    rw [List.take_of_length_le (by simp [hl']), ups_snoc l a n (by omega)]
    congr 1
    cases l with
    | nil =>
      have : n = 0 := by simpa using hl'.symm
      subst this
      have hn : outer (name ([] ++ [a])) = none := by
        unfold outer
        exact outerRev_none _ (by simpa [name] using ha.2)
      rw [hn]
      rfl
    | cons b l =>
      rw [outer_snoc _ a (by simp) ha.2]
      simp only
      rw [if_neg (name_ne_cc _ (fun x hx => hp x (List.mem_append_left _ hx)) (by simp))]
      exact ih (b :: l) hl' (by simp) (fun x hx => hp x (List.mem_append_left _ hx)) k (by omega)

private theorem length_le_name : ∀ p, (∀ a ∈ p, a ≠ []) → p.length ≤ (name p).length
  | [], _ => by simp
  | [a], h => by
    have := List.length_pos_iff.2 (h a (by simp))
    simp only [name, List.length_singleton]; omega
  | a :: b :: p, h => by
    have := length_le_name (b :: p) (fun x hx => h x (by simp at hx ⊢; exact .inr hx))
    simp only [name, List.length_append, List.length_cons] at this ⊢
    omega

private theorem mem_ups {q p : List Str} : ∀ {n}, n ≤ p.length → (q ∈ ups n p ↔ q ≠ [] ∧ q <+: p ∧ q.length ≤ n)
  | 0, _ => by
    simp only [ups, List.not_mem_nil, false_iff, not_and]
    intro h1 _ h2
    exact h1 (List.length_eq_zero_iff.1 (by omega))
  | n + 1, hn => by
    simp only [ups, List.mem_cons]
    rw [mem_ups (by omega)]
    constructor
    · rintro (rfl | ⟨h1, h2, h3⟩)
      · refine ⟨?_, List.take_prefix _ _, by simp; omega⟩
        intro e
        have := congrArg List.length e
        simp only [List.length_take, List.length_nil] at this
        omega
      · exact ⟨h1, h2, by omega⟩
    · rintro ⟨h1, h2, h3⟩
      by_cases h : q.length = n + 1
      · left
        rw [← h]
        exact (List.prefix_iff_eq_take.1 h2)
      · exact .inr ⟨h1, h2, by omega⟩

/-! ### What is printed -/

private theorem level_avoid (templ : Bool) (s : Str) : ∀ ns av x, x ∈ (level templ s ns av).2 ↔ x ∈ ns ∨ x ∈ av
  | [], av, x => by simp [level]
  | n :: ns, av, x => by
    simp only [level]
    rw [level_avoid templ s ns (n :: av) x]
    simp only [List.mem_cons]
    grind

private theorem level_mem (templ : Bool) (s : Str) : ∀ ns av (t : Td), t ∈ (level templ s ns av).1 ↔
    t.typename = templ ∧ t.scope = s ∧ t.name ∈ ns ∧ t.name ∉ av
  | [], av, t => by simp [level]
  | n :: ns, av, t => by
    obtain ⟨b, sc, x⟩ := t
    simp only [level]
    have ih := level_mem templ s ns (n :: av) ⟨b, sc, x⟩
    simp only at ih
    by_cases h : n ∈ av
    · rw [if_pos (by simpa using h), ih]
      simp only [List.mem_cons, not_or]
      grind
    · rw [if_neg (by simpa using h), List.mem_cons, ih]
      simp only [Td.mk.injEq, List.mem_cons, not_or]
      grind

private theorem level_nodup (templ : Bool) (s : Str) : ∀ ns av, ((level templ s ns av).1.map (·.name)).Nodup
  | [], av => by simp [level]
  | n :: ns, av => by
    simp only [level]
    have ih := level_nodup templ s ns (n :: av)
    split
    · exact ih
    · simp only [List.map_cons, List.nodup_cons]
      refine ⟨?_, ih⟩
      intro h
      obtain ⟨t, h1, h2⟩ := List.mem_map.1 h
      have := ((level_mem templ s ns (n :: av) t).1 h1).2.2.2
      exact this (by simp [h2])

private theorem levels_mem (nested : Str → List Str) : ∀ templ ss av (t : Td), t ∈ levels nested templ ss av →
    t.name ∉ av
  | _, [], av, t => by simp [levels]
  | templ, s :: ss, av, t => by
    simp only [levels, List.mem_append]
    rintro (h | h)
    · exact ((level_mem _ _ _ _ _).1 h).2.2.2
    · have := levels_mem nested false ss _ t h
      rw [level_avoid] at this
      exact fun hh => this (.inr hh)

private theorem levels_nodup (nested : Str → List Str) : ∀ templ ss av, ((levels nested templ ss av).map (·.name)).Nodup
  | _, [], av => by simp [levels]
  | templ, s :: ss, av => by
    simp only [levels, List.map_append]
    rw [List.nodup_append]
    refine ⟨level_nodup _ _ _ _, levels_nodup nested false ss _, ?_⟩
    intro a ha b hb e
    subst e
    obtain ⟨t, h1, rfl⟩ := List.mem_map.1 ha
    obtain ⟨u, h2, h3⟩ := List.mem_map.1 hb
    have k1 := (level_mem _ _ _ _ _).1 h1
    have k2 := levels_mem nested false ss _ u h2
    rw [level_avoid] at k2
    exact k2 (.inl (h3 ▸ k1.2.2.1))

private theorem levels_iff (nested : Str → List Str) : ∀ templ (ss : List Str) av s n,
    (∃ b, (⟨b, s, n⟩ : Td) ∈ levels nested templ ss av) ↔
      n ∉ av ∧ ∃ l r, ss = l ++ s :: r ∧ n ∈ nested (s ++ cc) ∧ ∀ s' ∈ l, n ∉ nested (s' ++ cc)
  | _, [], av, s, n => by simp [levels]
  | templ, s0 :: ss, av, s, n => by
    have ih := levels_iff nested false ss (level templ s0 (nested (s0 ++ cc)) av).2 s n
    simp only [levels, List.mem_append, exists_or]
    rw [ih]
    simp only [level_mem, level_avoid, not_or]
    constructor
    · rintro (⟨b, h1, h2, h3, h4⟩ | ⟨⟨h1, h2⟩, l, r, h3, h4, h5⟩)
      · subst h2
        exact ⟨h4, [], ss, rfl, h3, by simp⟩
      · exact ⟨h2, s0 :: l, r, by simp [h3], h4, by simp only [List.mem_cons, forall_eq_or_imp]; exact ⟨h1, h5⟩⟩
    · rintro ⟨h1, l, r, h2, h3, h4⟩
      cases l with
      | nil =>
        simp only [List.nil_append, List.cons.injEq] at h2
        exact .inl ⟨templ, rfl, h2.1.symm, by rw [h2.1]; exact h3, h1⟩
      | cons x l =>
        simp only [List.cons_append, List.cons.injEq] at h2
        obtain ⟨rfl, h2⟩ := h2
        refine .inr ⟨⟨h4 s0 (by simp), h1⟩, l, r, h2, h3, fun s' hs => h4 s' (by simp [hs])⟩

/-- C103: each name is introduced once, whatever the classes are. -/
theorem C103_once (nested : Str → List Str) (scope : Str) (templ : Bool) :
    ((printNestedTypes nested scope templ).map (·.name)).Nodup := levels_nodup nested templ _ _

private theorem pre_inj : ∀ {p q : List Str}, (∀ a ∈ p, ':' ∉ a) → (∀ a ∈ q, ':' ∉ a) → pre p = pre q → p = q
  | [], [], _, _, _ => rfl
  | [], b :: q, _, _, h => by simp [pre, cc] at h
  | a :: p, [], _, _, h => by simp [pre, cc] at h
  | a :: p, b :: q, hp, hq, h => by
    have key : ∀ (a b x y : Str), ':' ∉ a → ':' ∉ b → a ++ ':' :: x = b ++ ':' :: y → a = b ∧ x = y := by
      intro a
      induction a with
      | nil =>
        intro b x y _ hb e
        cases b with
        | nil => simpa using e
        | cons c b => simp only [List.nil_append, List.cons_append, List.cons.injEq] at e; simp [← e.1] at hb
      | cons c a ih =>
        intro b x y ha hb e
        cases b with
        | nil => simp only [List.nil_append, List.cons_append, List.cons.injEq] at e; simp [e.1] at ha
        | cons d b =>
          simp only [List.cons_append, List.cons.injEq] at e
          simp only [List.mem_cons, not_or] at ha hb
          obtain ⟨h1, h2⟩ := ih b x y ha.2 hb.2 e.2
          exact ⟨by rw [e.1, h1], h2⟩
    simp only [pre, List.flatMap_cons, cc, List.append_assoc, List.cons_append, List.nil_append] at h
    obtain ⟨rfl, h2⟩ := key a b _ _ (hp a (by simp)) (hq b (by simp)) h
    simp only [List.cons.injEq, true_and] at h2
    have : p = q := pre_inj (fun x hx => hp x (by simp [hx])) (fun x hx => hq x (by simp [hx])) (by simpa [pre, cc] using h2)
    rw [this]

private theorem name_inj {p q : List Str} (h1 : p ≠ []) (h2 : q ≠ []) (hp : ∀ a ∈ p, ':' ∉ a) (hq : ∀ a ∈ q, ':' ∉ a) (h : name p = name q) :
    p = q := pre_inj hp hq (by rw [← name_cc p h1, ← name_cc q h2, h])

/-- What is printed for a class, in terms of the table. -/
private theorem print_iff (nested : Str → List Str) (p : List Str) (h : p ≠ []) (hp : ∀ a ∈ p, a ≠ [] ∧ ':' ∉ a) (templ : Bool) (s n : Str) :
    (∃ b, (⟨b, s, n⟩ : Td) ∈ printNestedTypes nested (name p) templ) ↔
      ∃ q, s = name q ∧ q ≠ [] ∧ q <+: p ∧ n ∈ nested (pre q) ∧ ∀ r, q <+: r → r ≠ q → r <+: p → n ∉ nested (pre r) := by
  have e1 : scopes (name p) = (ups p.length p).map name :=
    scopes_eq p.length p rfl h hp _ (Nat.le_succ_of_le (length_le_name p fun a ha => (hp a ha).1))
  have split : ∀ k, k ≤ p.length → ∀ l s' r, ups k p = l ++ s' :: r → ∀ x, x ∈ l ↔ (x <+: p ∧ s' <+: x ∧ x ≠ s' ∧ x.length ≤ k) := by
    intro k
    induction k with
    | zero => intro _ l s' r e; simp [ups] at e
    | succ k ih =>
      intro hk l s' r e x
      simp only [ups] at e
      have hs' : s' ∈ ups (k + 1) p := by simp only [ups, e]; simp
      have hs := (mem_ups hk).1 hs'
      cases l with
      | nil =>
        simp only [List.nil_append, List.cons.injEq] at e
        simp only [List.not_mem_nil, false_iff]
        rintro ⟨x1, x2, x3, x4⟩
        apply x3
        have : s'.length = k + 1 := by rw [← e.1]; simp; omega
        exact (x2.eq_of_length (by have := x2.length_le; omega)).symm
      | cons y l =>
        simp only [List.cons_append, List.cons.injEq] at e
        have hs2 : s' ∈ ups k p := by rw [e.2]; simp
        have hs3 := (mem_ups (by omega)).1 hs2
        rw [List.mem_cons, ih (by omega) l s' r e.2 x]
        constructor
        · rintro (rfl | ⟨x1, x2, x3, x4⟩)
          · rw [← e.1]
            refine ⟨List.take_prefix _ _, ?_, ?_, by simp; omega⟩
            · exact List.prefix_of_prefix_length_le hs3.2.1 (List.take_prefix _ _) (by simp; omega)
            · intro e2
              have := congrArg List.length e2
              simp at this
              omega
          · exact ⟨x1, x2, x3, by omega⟩
        · rintro ⟨x1, x2, x3, x4⟩
          by_cases hx : x.length = k + 1
          · left
            rw [← e.1, ← hx]
            exact List.prefix_iff_eq_take.1 x1
          · exact .inr ⟨x1, x2, x3, by omega⟩
  unfold printNestedTypes
  rw [levels_iff, e1]
  simp only [List.not_mem_nil, not_false_eq_true, true_and]
  constructor
  · rintro ⟨l, r, h1, h2, h3⟩
    obtain ⟨l', r', e2, rfl, e3⟩ := List.map_eq_append_iff.1 h1
    obtain ⟨q, r'', e4, rfl, rfl⟩ := List.map_eq_cons_iff.1 e3
    subst e4
    have hq : q ∈ ups p.length p := by rw [e2]; simp
    obtain ⟨q1, q2, -⟩ := (mem_ups (Nat.le_refl _)).1 hq
    refine ⟨q, rfl, q1, q2, by rw [← name_cc q q1]; exact h2, fun x x1 x2 x3 => ?_⟩
    have hx : x ≠ [] := by rintro rfl; exact q1 (List.prefix_nil.1 x1)
    have := (split p.length (Nat.le_refl _) l' q r'' e2 x).2 ⟨x3, x1, x2, x3.length_le⟩
    rw [← name_cc x hx]
    exact h3 _ (List.mem_map_of_mem this)
  · rintro ⟨q, rfl, q1, q2, h2, h3⟩
    have hq : q ∈ ups p.length p := (mem_ups (Nat.le_refl _)).2 ⟨q1, q2, q2.length_le⟩
    obtain ⟨l, r, e2⟩ := List.append_of_mem hq
    refine ⟨l.map name, r.map name, by rw [e2]; simp, by rw [name_cc q q1]; exact h2, ?_⟩
    intro s' hs'
    obtain ⟨x, hx, rfl⟩ := List.mem_map.1 hs'
    obtain ⟨x1, x2, x3, -⟩ := (split p.length (Nat.le_refl _) l q r e2 x).1 hx
    have hx0 : x ≠ [] := by rintro rfl; exact q1 (List.prefix_nil.1 x2)
    rw [name_cc x hx0]
    exact h3 x x2 x3 x1

/-! ### The table -/

/-- The frames of the calls, for the path (innermost first) and what is private. -/
private def R : List Frame → List Str → List Bool → Prop
  | [f], [], [b] => f.pre = [] ∧ f.isMain = true ∧ f.templ = false ∧ f.priv = b
  | f :: fs, a :: rp, b :: st => f.pre = pre (rp.reverse ++ [a]) ∧ f.isMain = false ∧ f.templ = false ∧ f.priv = b ∧ ':' ∉ a ∧ R fs rp st
  | _, _, _ => False

private theorem R.head {f fs rp b st} (h : R (f :: fs) rp (b :: st)) : f.pre = pre rp.reverse ∧ (rp ≠ [] → f.isMain = false) ∧ f.templ = false ∧
    f.priv = b ∧ ∀ a ∈ rp, ':' ∉ a := by
  induction rp generalizing f fs b st with
  | nil =>
    cases fs with
    | nil =>
      cases st with
      | nil => exact ⟨h.1, by simp, h.2.2.1, h.2.2.2, by simp⟩
      | cons _ _ => exact h.elim
    | cons _ _ => cases st <;> exact h.elim
  | cons a rp ih =>
    have h : f.pre = pre (rp.reverse ++ [a]) ∧ f.isMain = false ∧ f.templ = false ∧ f.priv = b ∧ ':' ∉ a ∧ R fs rp st := by
      cases fs <;> cases st <;> exact h
    obtain ⟨h1, h2, h3, h4, h5, h6⟩ := h
    refine ⟨by simpa using h1, fun _ => h2, h3, h4, ?_⟩
    simp only [List.mem_cons, forall_eq_or_imp]
    refine ⟨h5, ?_⟩
    cases fs with
    | nil => exact h6.elim
    | cons g fs =>
      cases st with
      | nil => cases fs <;> cases rp <;> exact h6.elim
      | cons c st => exact (ih h6).2.2.2.2

private theorem R.step {f fs rp b st} (h : R (f :: fs) rp (b :: st)) (g : Frame) (c : Bool) (h1 : g.pre = f.pre) (h2 : g.isMain = f.isMain)
    (h3 : g.templ = false) (h4 : g.priv = c) : R (g :: fs) rp (c :: st) := by
  cases rp with
  | nil =>
    cases fs with
    | nil =>
      cases st with
      | nil => exact ⟨by rw [h1]; exact h.1, by rw [h2]; exact h.2.1, h3, h4⟩
      | cons _ _ => exact h.elim
    | cons _ _ => cases st <;> exact h.elim
  | cons a rp =>
    have h : f.pre = pre (rp.reverse ++ [a]) ∧ f.isMain = false ∧ f.templ = false ∧ f.priv = b ∧ ':' ∉ a ∧ R fs rp st := by
      cases fs <;> cases st <;> exact h
    have : g.pre = pre (rp.reverse ++ [a]) ∧ g.isMain = false ∧ g.templ = false ∧ g.priv = c ∧ ':' ∉ a ∧ R fs rp st :=
      ⟨by rw [h1]; exact h.1, by rw [h2]; exact h.2.1, h3, h4, h.2.2.2.2⟩
    cases fs <;> cases st <;> exact this

private theorem R.same {f fs rp b st} (h : R (f :: fs) rp (b :: st)) (g : Frame) (h1 : g.pre = f.pre) (h2 : g.isMain = f.isMain)
    (h3 : g.templ = false) (h4 : g.priv = f.priv) : R (g :: fs) rp (b :: st) :=
  h.step g b h1 h2 h3 (h4.trans h.head.2.2.2.1)

private theorem walk_mem : ∀ (is : List Item) (fs : List Frame) (rp : List Str) (st : List Bool), R fs rp st → Simple st is →
    ∀ q n, q ≠ [] → (∀ a ∈ q, ':' ∉ a) → ((pre q, n) ∈ walk fs is ↔ (q, n) ∈ declared rp.reverse is)
  | [], fs, rp, st, hR, hs, q, n, hq, hc => by
    cases fs <;> simp [walk, declared]
  | i :: is, [], rp, st, hR, hs, q, n, hq, hc => by cases rp <;> cases st <;> exact hR.elim
  | i :: is, f :: fs, rp, [], hR, hs, q, n, hq, hc => by cases fs <;> cases rp <;> exact hR.elim
  | i :: is, f :: fs, rp, b :: st, hR, hs, q, n, hq, hc => by
    obtain ⟨r1, r2, r3, r4, r5⟩ := hR.head
    have hpre : ∀ x : Str, (pre q, n) = (f.pre, x) ↔ (q, n) = (rp.reverse, x) := by
      intro x
      simp only [Prod.mk.injEq, r1]
      constructor
      · rintro ⟨h1, h2⟩
        exact ⟨pre_inj hc (fun a ha => r5 a (by simpa using ha)) h1, h2⟩
      · rintro ⟨h1, h2⟩
        exact ⟨by rw [h1], h2⟩
    have hmain : f.isMain = true → q ≠ rp.reverse := by
      intro hm e
      have : rp = [] := by
        cases rp with
        | nil => rfl
        | cons a rp => rw [r2 (by simp)] at hm; simp at hm
      subst this
      exact hq (by simpa using e)
    have hadd : ∀ x : Str, (pre q, n) ∈ (if (!f.isMain) = true then [(f.pre, x)] else []) ↔ (q, n) = (rp.reverse, x) := by
      intro x
      by_cases hm : f.isMain = true
      · simp only [hm, Bool.not_true, Bool.false_eq_true, if_false, List.not_mem_nil, false_iff, Prod.mk.injEq, not_and]
        exact fun e => absurd e (hmain hm)
      · simp only [hm, Bool.not_false, if_true, List.mem_singleton]
        exact hpre x
    cases i with
    | tdef x l =>
      obtain ⟨h1, rfl, h3, h4⟩ := hs
      replace h3 := (identStart_iff _).2 h3
      have ih := walk_mem is (f :: fs) rp (b :: st) hR h4 q n hq hc
      simp only [walk, declared, List.mem_append, List.mem_cons, Frame.after, ih, adds, h3, r4, h1, Bool.not_false, Bool.and_true]
      rw [hadd]
    | fwd t x =>
      obtain ⟨h1, rfl, h4⟩ := hs
      have ih := walk_mem is _ rp (b :: st) (hR.same (f.after (.fwd false x)) rfl rfl (by simp [Frame.after, r3]) rfl) h4 q n hq hc
      simp only [walk, declared, List.mem_append, List.mem_cons, ih, adds, r3, r4, h1, Bool.or_false, Bool.not_false, Bool.and_true]
      rw [hadd]
    | enm x =>
      obtain ⟨h1, h4⟩ := hs
      have ih := walk_mem is (f :: fs) rp (b :: st) hR h4 q n hq hc
      simp only [walk, declared, List.mem_append, List.mem_cons, Frame.after, ih, adds, r4, h1, Bool.not_false, if_true, List.not_mem_nil, or_false]
      rw [hpre]
    | opn t c x ta =>
      obtain ⟨h1, rfl, h2, h3, h4⟩ := hs
      have hR' : R (⟨f.pre ++ x ++ ta ++ cc, false, false, c⟩ :: f.after (.opn false c x ta) :: fs) ((x ++ ta) :: rp) (c :: b :: st) := by
        refine ⟨?_, rfl, rfl, rfl, by simp [h2, h3], hR.same _ rfl rfl (by simp [Frame.after, r3]) rfl⟩
        simp [r1, pre]
      have ih := walk_mem is _ _ _ hR' h4 q n hq hc
      simp only [walk, declared, List.mem_append, List.mem_cons, ih, adds, r3, r4, h1, Bool.or_false, Bool.not_false, Bool.and_true,
        List.reverse_cons]
      rw [hadd]
    | cls =>
      cases st with
      | nil => exact hs.elim
      | cons c st =>
        have hs : Simple (c :: st) is := hs
        have hR2 : ∃ a rp', rp = a :: rp' ∧ R fs rp' (c :: st) := by
          cases rp with
          | nil => cases fs <;> exact hR.elim
          | cons a rp =>
            refine ⟨a, rp, rfl, ?_⟩
            cases fs <;> exact hR.2.2.2.2.2
        obtain ⟨a, rp', rfl, hR2⟩ := hR2
        have ih := walk_mem is fs rp' (c :: st) hR2 hs q n hq hc
        simp only [walk, declared, adds, List.nil_append, List.reverse_cons, List.dropLast_concat]
        exact ih
    | label p =>
      have hs : Simple (p :: st) is := by cases st <;> exact hs
      have ih := walk_mem is _ rp (p :: st) (hR.step (f.after (.label p)) p rfl rfl r3 rfl) hs q n hq hc
      simp only [walk, declared, adds, List.nil_append]
      exact ih
    | fn t op =>
      obtain ⟨h1, h4⟩ : (op = true → t = false) ∧ Simple (b :: st) is := by cases st <;> exact hs
      have ih := walk_mem is _ rp (b :: st) (hR.same (f.after (.fn t op)) rfl rfl (by
        cases op
        · rfl
        · simp [Frame.after, r3, h1]) rfl) h4 q n hq hc
      simp only [walk, declared, adds, List.nil_append]
      exact ih
    | other =>
      have hs : Simple (b :: st) is := by cases st <;> exact hs
      have ih := walk_mem is (f :: fs) rp (b :: st) hR hs q n hq hc
      simp only [walk, declared, adds, List.nil_append, Frame.after]
      exact ih
    | alias x => cases st <;> exact hs.elim
    | strct x => cases st <;> exact hs.elim

private theorem table_mem (is : List Item) (hs : Simple [false] is) (q : List Str) (n : Str) (hq : q ≠ []) (hc : ∀ a ∈ q, ':' ∉ a) :
    n ∈ table is (pre q) ↔ (q, n) ∈ declared [] is := by
  have := walk_mem is [⟨[], true, false, false⟩] [] [false] ⟨rfl, rfl, rfl, rfl⟩ hs q n hq hc
  rw [List.reverse_nil] at this
  rw [← this]
  simp [table]

/-- C103: in the code for a class the names of types mean what they mean in the class: a name is introduced for the type that C++ finds
there, and only if there is one.  Missing: what `Simple` leaves out, for which it is false (below). -/
theorem C103_types_partial (is : List Item) (hs : Simple [false] is) (p : List Str) (h : p ≠ []) (hp : ∀ a ∈ p, a ≠ [] ∧ ':' ∉ a)
    (templ : Bool) (s n : Str) :
    (∃ b, (⟨b, s, n⟩ : Td) ∈ printNestedTypes (table is) (name p) templ) ↔ ∃ q, s = name q ∧ Finds (declared [] is) p q n := by
  rw [print_iff (table is) p h hp]
  have hsub : ∀ {r : List Str}, r <+: p → ∀ a ∈ r, ':' ∉ a := fun hr a ha => (hp a (hr.subset ha)).2
  constructor
  · rintro ⟨q, rfl, q1, q2, h1, h2⟩
    refine ⟨q, rfl, q1, q2, (table_mem is hs q n q1 (hsub q2)).1 h1, fun r r1 r2 r3 => ?_⟩
    have r0 : r ≠ [] := by rintro rfl; exact q1 (List.prefix_nil.1 r1)
    rw [← table_mem is hs r n r0 (hsub r3)]
    exact h2 r r1 r2 r3
  · rintro ⟨q, rfl, q1, q2, h1, h2⟩
    refine ⟨q, rfl, q1, q2, (table_mem is hs q n q1 (hsub q2)).2 h1, fun r r1 r2 r3 => ?_⟩
    have r0 : r ≠ [] := by rintro rfl; exact q1 (List.prefix_nil.1 r1)
    rw [table_mem is hs r n r0 (hsub r3)]
    exact h2 r r1 r2 r3

/-! ### What is false -/

private theorem walk_alias (n : Str) : ∀ (l r : List Item) (fs : List Frame), walk fs (l ++ .alias n :: r) = walk fs (l ++ r)
  | _, _, [] => by
    have : ∀ is, walk [] is = [] := by intro is; cases is <;> rfl
    rw [this, this]
  | [], r, f :: fs => by simp [walk, adds, Frame.after]
  | i :: l, r, f :: fs => by
    cases i <;> simp only [List.cons_append, walk, walk_alias n l r]

/-- C103 fails: `using` does not count, wherever it is: what is printed is the same as without it. -/
theorem C103_fails_using (n : Str) (l r : List Item) (scope : Str) (templ : Bool) :
    printNestedTypes (table (l ++ .alias n :: r)) scope templ = printNestedTypes (table (l ++ r)) scope templ := by
  have : table (l ++ .alias n :: r) = table (l ++ r) := by funext k; unfold table; rw [walk_alias]
  rw [this]

/-- C103 fails: a member declared with `struct` makes the code name a type the class does not have. -/
theorem C103_fails_struct (a n : Str) (ha : a ≠ []) (hc : ':' ∉ a) (templ : Bool) :
    printNestedTypes (table [.opn false false a [], .strct n, .cls]) a templ = [⟨templ, a, n⟩] ∧
      ∀ q, (q, n) ∉ declared [a] [.strct n] := by
  have h1 : scopes a = [a] := by
    have := scopes_eq 1 [a] rfl (by simp) (by simpa using ⟨ha, hc⟩) (a.length + 1) (by omega)
    simpa [scopes, name, ups] using this
  refine ⟨?_, by simp [declared]⟩
  unfold printNestedTypes
  rw [h1]
  simp [levels, level, table, walk, adds, Frame.after]

/-- C103 fails: after a class template in a class, up to the next function, no class is taken in. -/
theorem C103_fails_template (a r ta b : Str) (ha : a ≠ []) (hc : ':' ∉ a) (templ : Bool) :
    printNestedTypes (table [.opn false false a [], .opn true false r ta, .cls, .opn false false b [], .cls, .cls]) a templ = [] ∧
      ([a], b) ∈ declared [] [.opn false false a [], .opn true false r ta, .cls, .opn false false b [], .cls, .cls] := by
  have h1 : scopes a = [a] := by
    have := scopes_eq 1 [a] rfl (by simp) (by simpa using ⟨ha, hc⟩) (a.length + 1) (by omega)
    simpa [scopes, name, ups] using this
  refine ⟨?_, by simp [declared]⟩
  unfold printNestedTypes
  rw [h1]
  simp [levels, level, table, walk, adds, Frame.after]

/-- Templates as members of a class. -/
def C103.templates (r ta : Str) : List (List Item) := [[.opn true false r ta, .cls], [.fwd true r], [.fn true true]]

/-- Members without a name that is a function's. -/
def C103.between (m ta : Str) : List (List Item) := [[], [.opn false false m ta, .cls], [.fwd false m], [.strct m], [.fn false true]]

/-- C103 fails: the same after a template that is declared only, or that is an operator; other classes, declared ones and operators in between
make no difference and are missing as well.  After a function with a name classes are taken in again. -/
theorem C103_fails_template_more (a r ta m b : Str) (ha : a ≠ []) (hc : ':' ∉ a) (templ : Bool) (t k : List Item)
    (ht : t ∈ C103.templates r ta) (hk : k ∈ C103.between m ta) :
    printNestedTypes (table (.opn false false a [] :: (t ++ (k ++ [.opn false false b [], .cls, .cls])))) a templ = [] ∧
    ([a], b) ∈ declared [] (.opn false false a [] :: (t ++ (k ++ [.opn false false b [], .cls, .cls]))) ∧
    printNestedTypes (table (.opn false false a [] :: (t ++ (k ++ [.fn false false, .opn false false b [], .cls, .cls])))) a templ =
      [⟨templ, a, b⟩] := by
  have h1 : scopes a = [a] := by
    have := scopes_eq 1 [a] rfl (by simp) (by simpa using ⟨ha, hc⟩) (a.length + 1) (by omega)
    simpa [scopes, name, ups] using this
  unfold printNestedTypes
  rw [h1]
  simp only [C103.templates, C103.between, List.mem_cons, List.not_mem_nil, or_false] at ht hk
  rcases ht with rfl | rfl | rfl <;> rcases hk with rfl | rfl | rfl | rfl | rfl <;>
    simp [levels, level, table, walk, adds, Frame.after, declared]

/-- Typedefs of functions, arrays and pointers to functions, that end in a bracket, are not known. -/
theorem C103_fails_bracket (a n l : Str) (hl : ¬ Id l) (ha : a ≠ []) (hc : ':' ∉ a) (templ : Bool) :
    printNestedTypes (table [.opn false false a [], .tdef n l, .cls]) a templ = [] ∧
      ([a], n) ∈ declared [] [.opn false false a [], .tdef n l, .cls] := by
  have hi : identStart l = false := by rw [Bool.eq_false_iff]; exact fun h => hl ((identStart_iff l).1 h)
  have h1 : scopes a = [a] := by
    have := scopes_eq 1 [a] rfl (by simp) (by simpa using ⟨ha, hc⟩) (a.length + 1) (by omega)
    simpa [scopes, name, ups] using this
  refine ⟨?_, by simp [declared]⟩
  unfold printNestedTypes
  rw [h1]
  simp [levels, level, table, walk, adds, Frame.after, hi]

example : ¬ Id [')'] ∧ ¬ Id [']'] := by simp only [C103.Id]; decide

/-- C103 fails: types of the private part are not taken in. -/
theorem C103_fails_private (a n : Str) (ha : a ≠ []) (hc : ':' ∉ a) (templ : Bool) :
    printNestedTypes (table [.opn false true a [], .tdef n n, .label false, .fn false false, .cls]) a templ = [] ∧
      ([a], n) ∈ declared [] [.opn false true a [], .tdef n n, .label false, .fn false false, .cls] := by
  have h1 : scopes a = [a] := by
    have := scopes_eq 1 [a] rfl (by simp) (by simpa using ⟨ha, hc⟩) (a.length + 1) (by omega)
    simpa [scopes, name, ups] using this
  refine ⟨?_, by simp [declared]⟩
  unfold printNestedTypes
  rw [h1]
  simp [levels, level, table, walk, adds, Frame.after]

/-! ### A case -/

/-- `struct A { typedef int T; typedef char U; class B { public: typedef long T; void f(T); struct C {}; }; enum E {..}; };` -/
def C103.file : List Item :=
  [.opn false false "A".toList [], .tdef "T".toList "T".toList, .tdef "U".toList "U".toList, .opn false true "B".toList [], .label false,
   .tdef "T".toList "T".toList, .fn false false, .opn false false "C".toList [], .cls, .cls, .enm "E".toList, .cls]

example : Simple [false] C103.file := by simp only [C103.file, Simple]; decide

/-- In `A::B`, `T` is `A::B::T`, `U` is `A::U`. -/
example : printNestedTypes (table C103.file) "A::B".toList false =
    [⟨false, "A::B".toList, "T".toList⟩, ⟨false, "A::B".toList, "C".toList⟩, ⟨false, "A".toList, "U".toList⟩,
     ⟨false, "A".toList, "B".toList⟩, ⟨false, "A".toList, "E".toList⟩] := by decide +kernel

end Verif.Nested
