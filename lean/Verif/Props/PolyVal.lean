import Verif.PolyVal
/-
C97: variables of type `poly` are values.
-/
namespace Verif.PolyVal

/-! ### What is meant -/

/-- The variables there are, with the object each contains, if any. -/
abbrev C97.Env (V : Type) := Nat → Option (Option (Obj V))

/-- What a statement should do: each variable has an object of its own, and a statement that throws changes nothing.
The second component: does it throw? -/
def C97.does {V : Type} (isa : Nat → Nat → Bool) (room : Bool) (e : C97.Env V) : Op V → C97.Env V × Bool
  | .decl x => (upd e x (some none), false)
  | .copy x y | .assign x y | .assignDeref x y =>
    if room = false ∧ ((e y).bind id).isSome then (e, true) else (upd e x (e y), false)
  | .make x o | .assignObj x o | .add x o => if room = false then (e, true) else (upd e x (some (some o)), false)
  | .swap x y => (upd (upd e x (e y)) y (e x), false)
  | .write x f => (upd e x ((e x).map fun i => i.map fun o => { o with val := f o.val }), false)
  | .cast x c => (e, ((e x).bind id).any fun o => ! isa o.cls c)
  | .drop x => (upd e x none, false)

/-- Classes whose objects are copied completely, and are of class t or derived from it. -/
structure C97.Clonable {V : Type} (h : Classes V) (t c : Nat) : Prop where
  own : h.own c = c
  whole : ∀ v, h.slice c v = v
  isa : h.isa c t = true

/-- Statements that use variables that are there, of which those used as objects contain one, introduce new variables
only, do not assign to a variable its own object, and do not run out of memory when assigning to one. -/
def C97.Fine {V : Type} (h : Classes V) (t : Nat) (room : Bool) (e : C97.Env V) : Op V → Prop
  | .decl x => e x = none
  | .copy x y => e x = none ∧ e y ≠ none
  | .make x o => e x = none ∧ C97.Clonable h t o.cls
  | .assign x y => e x ≠ none ∧ e y ≠ none ∧ (x ≠ y ∨ e x = some none) ∧ (room = true ∨ e y = some none)
  | .assignObj x o | .add x o => e x ≠ none ∧ C97.Clonable h t o.cls ∧ room = true
  | .assignDeref x y => e x ≠ none ∧ (∃ o, e y = some (some o)) ∧ x ≠ y ∧ room = true
  | .swap x y => e x ≠ none ∧ e y ≠ none
  | .write x _ | .cast x _ => ∃ o, e x = some (some o)
  | .drop x => e x ≠ none

/-- A program whose statements are all fine, what is left at its end, and which of them throw. -/
inductive C97.Prog {V : Type} (h : Classes V) (t : Nat) : C97.Env V → List (Op V × Bool) → List Bool → C97.Env V → Prop
  | nil {e} : C97.Prog h t e [] [] e
  | cons {e o room os ts e'} : C97.Fine h t room e o → C97.Prog h t (C97.does h.isa room e o).1 os ts e' →
      C97.Prog h t e ((o, room) :: os) ((C97.does h.isa room e o).2 :: ts) e'

/-- Memory has the object of each variable, each at its own address, and no others. -/
structure C97.Shows {V : Type} (s : St V) (e : C97.Env V) : Prop where
  gone : ∀ x, s.vars x = none ↔ e x = none
  null : ∀ x, s.vars x = some none ↔ e x = some none
  obj : ∀ x o, e x = some (some o) ↔ ∃ a, s.vars x = some (some a) ∧ s.mem a = some o
  apart : ∀ x y a, s.vars x = some (some a) → s.vars y = some (some a) → x = y
  owned : ∀ a o, s.mem a = some o → ∃ x, s.vars x = some (some a)

open C97

private structure Inv {V : Type} (h : Classes V) (t : Nat) (s : St V) (e : Env V) : Prop extends Shows s e where
  fresh : ∀ a o, s.mem a = some o → a < s.next
  ok : ∀ x o, e x = some (some o) → Clonable h t o.cls

private theorem cloned_eq {V : Type} {h : Classes V} {t : Nat} {o : Obj V} (hc : Clonable h t o.cls) (s : St V) :
    cloned h t s o = (some s.next, { s with mem := upd s.mem s.next (some o), next := s.next + 1 }) := by
  simp [cloned, clone, alloc, hc.own, hc.whole, hc.isa]

private theorem fresh_none {V : Type} {h : Classes V} {t : Nat} {s : St V} {e : Env V} (hi : Inv h t s e) :
    s.mem s.next = none := by
  cases hm : s.mem s.next with
  | none => rfl
  | some o => exact absurd (hi.fresh _ _ hm) (by omega)

/-- A variable given a new object, what it had having been deleted. -/
private theorem fill {V : Type} {h : Classes V} {t : Nat} {s : St V} {e : Env V} (hi : Inv h t s e) (x : Nat) (i : Option Nat)
    (hx : s.vars x = some i ∨ (s.vars x = none ∧ i = none)) (o : Obj V) (hc : Clonable h t o.cls) :
    ∃ s1, del s i = some s1 ∧ s1.next = s.next ∧ s1.vars = s.vars ∧
      (∀ a, s1.mem a = if i = some a then none else s.mem a) ∧
      Inv h t { mem := upd s1.mem s.next (some o), next := s.next + 1, vars := upd s.vars x (some (some s.next)) }
        (upd e x (some (some o))) := by
  have hf := fresh_none hi
  have hd : ∃ s1, del s i = some s1 ∧ s1.next = s.next ∧ s1.vars = s.vars ∧
      (∀ a, s1.mem a = if i = some a then none else s.mem a) := by
    cases i with
    | none => exact ⟨s, rfl, rfl, rfl, by simp⟩
    | some a =>
      have hx' : s.vars x = some (some a) := by rcases hx with hx | hx <;> simp_all
      have : ∃ o, s.mem a = some o := by
        cases hex : e x with
        | none => have := (hi.gone x).2 hex; simp_all
        | some j =>
          cases j with
          | none => have := (hi.null x).2 hex; simp_all
          | some o =>
            obtain ⟨a', h1, h2⟩ := (hi.obj x o).1 hex
            rw [hx'] at h1; cases h1; exact ⟨o, h2⟩
      obtain ⟨o', ho'⟩ := this
      refine ⟨{ s with mem := upd s.mem a none }, by simp [del, ho'], rfl, rfl, ?_⟩
      intro b
      simp only [upd, Option.some.injEq]
      grind
  obtain ⟨s1, h1, h2, h3, h4⟩ := hd
  refine ⟨s1, h1, h2, h3, h4, ?_⟩
  have h5 := hi.gone
  have h6 := hi.null
  have h7 := hi.obj
  have h8 := hi.apart
  have h9 := hi.owned
  have h10 := hi.fresh
  have h11 := hi.ok
  refine ⟨⟨?_, ?_, ?_, ?_, ?_⟩, ?_, ?_⟩
  · intro y; simp only [upd]; grind
  · intro y; simp only [upd]; grind
  · intro y o'
    simp only [upd]
    by_cases hy : y = x
    · subst hy
      simp only [if_true]
      constructor
      · intro hh; cases hh; exact ⟨s.next, rfl, by simp⟩
      · rintro ⟨a, ha, hb⟩; cases ha; simp at hb; simp [hb]
    · simp only [if_neg hy]
      rw [h7]
      constructor
      · rintro ⟨a, ha, hb⟩
        have hlt := h10 _ _ hb
        refine ⟨a, ha, ?_⟩
        rw [if_neg (by omega), h4, if_neg ?_]
        · exact hb
        · rintro rfl
          exact hy (h8 y x a ha (by rcases hx with hx | hx <;> simp_all))
      · rintro ⟨a, ha, hb⟩
        refine ⟨a, ha, ?_⟩
        by_cases haa : a = s.next
        · subst haa
          exfalso
          cases hey : e y with
          | none => have := (h5 y).2 hey; simp_all
          | some j =>
            cases j with
            | none => have := (h6 y).2 hey; simp_all
            | some o2 =>
              obtain ⟨a2, hc2, hd2⟩ := (h7 y o2).1 hey
              rw [ha] at hc2; cases hc2
              rw [hf] at hd2; cases hd2
        · rw [if_neg haa, h4] at hb
          split at hb
          · cases hb
          · exact hb
  · intro y z a hy hz
    have hnew : ∀ y, s.vars y ≠ some (some s.next) := by
      intro y hy
      cases hey : e y with
      | none => have := (h5 y).2 hey; simp_all
      | some j =>
        cases j with
        | none => have := (h6 y).2 hey; simp_all
        | some o2 =>
          obtain ⟨a2, hc2, hd2⟩ := (h7 y o2).1 hey
          rw [hy] at hc2; cases hc2
          rw [hf] at hd2; cases hd2
    simp only [upd] at hy hz
    grind
  · intro a o' ha
    simp only [upd] at ha ⊢
    by_cases haa : a = s.next
    · exact ⟨x, by simp [haa]⟩
    · rw [if_neg haa, h4] at ha
      split at ha
      · cases ha
      · rename_i hne
        obtain ⟨y, hy⟩ := h9 a o' ha
        refine ⟨y, ?_⟩
        rw [if_neg ?_]
        · exact hy
        · rintro rfl
          rcases hx with hx | hx
          · rw [hx] at hy; exact hne (by simpa using hy)
          · rw [hx.1] at hy; cases hy
  · intro a o' ha
    simp only [upd] at ha
    by_cases haa : a = s.next
    · simp only [haa]; omega
    · rw [if_neg haa, h4] at ha
      split at ha
      · cases ha
      · have := h10 a o' ha; simp only; omega
  · intro y o' hy
    simp only [upd] at hy
    split at hy
    · cases hy; exact hc
    · exact h11 y o' hy

/-- A variable emptied or destroyed, what it had having been deleted. -/
private theorem empty {V : Type} {h : Classes V} {t : Nat} {s : St V} {e : Env V} (hi : Inv h t s e) (x : Nat) (i : Option Nat)
    (hx : s.vars x = some i ∨ (s.vars x = none ∧ i = none)) (w : Option (Option Nat)) (w' : Option (Option (Obj V)))
    (hw : (w = none ∧ w' = none) ∨ (w = some none ∧ w' = some none)) :
    ∃ s1, del s i = some s1 ∧ s1.vars = s.vars ∧ (∀ a, s1.mem a = if i = some a then none else s.mem a) ∧
      Inv h t { s1 with vars := upd s.vars x w } (upd e x w') := by
  have h5 := hi.gone
  have h6 := hi.null
  have h7 := hi.obj
  have h8 := hi.apart
  have h9 := hi.owned
  have h10 := hi.fresh
  have h11 := hi.ok
  have hd : ∃ s1, del s i = some s1 ∧ s1.next = s.next ∧ s1.vars = s.vars ∧
      (∀ a, s1.mem a = if i = some a then none else s.mem a) := by
    cases i with
    | none => exact ⟨s, rfl, rfl, rfl, by simp⟩
    | some a =>
      have hx' : s.vars x = some (some a) := by rcases hx with hx | hx <;> simp_all
      have : ∃ o, s.mem a = some o := by
        cases hex : e x with
        | none => have := (hi.gone x).2 hex; simp_all
        | some j =>
          cases j with
          | none => have := (hi.null x).2 hex; simp_all
          | some o =>
            obtain ⟨a', h1, h2⟩ := (hi.obj x o).1 hex
            rw [hx'] at h1; cases h1; exact ⟨o, h2⟩
      obtain ⟨o', ho'⟩ := this
      refine ⟨{ s with mem := upd s.mem a none }, by simp [del, ho'], rfl, rfl, ?_⟩
      intro b
      simp only [upd, Option.some.injEq]
      grind
  obtain ⟨s1, h1, h2, h3, h4⟩ := hd
  refine ⟨s1, h1, h3, h4, ⟨⟨?_, ?_, ?_, ?_, ?_⟩, ?_, ?_⟩⟩
  · intro y; simp only [upd]; grind
  · intro y; simp only [upd]; grind
  · intro y o'
    simp only [upd]
    by_cases hy : y = x
    · subst hy
      simp only [if_true]
      rcases hw with ⟨rfl, rfl⟩ | ⟨rfl, rfl⟩ <;> simp
    · simp only [if_neg hy]
      rw [h7]
      constructor
      · rintro ⟨a, ha, hb⟩
        refine ⟨a, ha, ?_⟩
        rw [h4, if_neg ?_]
        · exact hb
        · rintro rfl
          exact hy (h8 y x a ha (by rcases hx with hx | hx <;> simp_all))
      · rintro ⟨a, ha, hb⟩
        refine ⟨a, ha, ?_⟩
        rw [h4] at hb
        split at hb
        · cases hb
        · exact hb
  · intro y z a hy hz
    simp only [upd] at hy hz
    grind
  · intro a o' ha
    simp only [upd] at ha ⊢
    rw [h4] at ha
    split at ha
    · cases ha
    · rename_i hne
      obtain ⟨y, hy⟩ := h9 a o' ha
      refine ⟨y, ?_⟩
      rw [if_neg ?_]
      · exact hy
      · rintro rfl
        rcases hx with hx | hx
        · rw [hx] at hy; exact hne (by simpa using hy)
        · rw [hx.1] at hy; cases hy
  · intro a o' ha
    simp only at ha
    rw [h4] at ha
    split at ha
    · cases ha
    · have := h10 a o' ha; simp only [h2]; exact this
  · intro y o' hy
    simp only [upd] at hy
    split at hy
    · rcases hw with ⟨rfl, rfl⟩ | ⟨rfl, rfl⟩ <;> cases hy
    · exact h11 y o' hy

private theorem ex_ex (x y z : Nat) :
    (if (if z = y then x else if z = x then y else z) = y then x else if (if z = y then x else if z = x then y else z) = x then y
      else (if z = y then x else if z = x then y else z)) = z := by
  grind

private theorem ex_inj {x y z w : Nat}
    (h : (if z = y then x else if z = x then y else z) = (if w = y then x else if w = x then y else w)) : z = w := by
  rw [← ex_ex x y z, h, ex_ex x y w]

/-- Outcome of a statement that is fine. -/
private theorem step_ok {V : Type} {h : Classes V} {t : Nat} {room : Bool} {s : St V} {e : Env V} {op : Op V}
    (hi : Inv h t s e) (hf : Fine h t room e op) :
    ∃ s', step h t room s op = (if (does h.isa room e op).2 = true then .throw s' else .ok s') ∧
      Inv h t s' (does h.isa room e op).1 := by
  have hv : ∀ x, e x ≠ none → ∃ i, s.vars x = some i := by
    intro x hx
    cases hs : s.vars x with
    | none => exact absurd ((hi.gone x).1 hs) hx
    | some i => exact ⟨i, rfl⟩
  have hcases : ∀ y, e y ≠ none → (s.vars y = some none ∧ e y = some none) ∨
      ∃ a o, s.vars y = some (some a) ∧ e y = some (some o) ∧ s.mem a = some o ∧ Clonable h t o.cls := by
    intro y hy
    cases hey : e y with
    | none => exact absurd hey hy
    | some j =>
      cases j with
      | none => exact .inl ⟨(hi.null y).2 hey, rfl⟩
      | some o =>
        obtain ⟨a, h1, h2⟩ := (hi.obj y o).1 hey
        exact .inr ⟨a, o, h1, rfl, h2, hi.ok y o hey⟩
  cases op with
  | decl x =>
    simp only [Fine] at hf
    obtain ⟨s1, h1, h2, h3, h4⟩ := empty hi x none (.inr ⟨(hi.gone x).2 hf, rfl⟩) (some none) (some none) (.inr ⟨rfl, rfl⟩)
    simp only [del, Option.some.injEq] at h1
    subst h1
    exact ⟨_, rfl, h4⟩
  | copy x y =>
    simp only [Fine] at hf
    rcases hcases y hf.2 with ⟨h1, h2⟩ | ⟨a, o, h1, h2, h3, h4⟩
    · obtain ⟨s1, g1, g2, g3, g4⟩ := empty hi x none (.inr ⟨(hi.gone x).2 hf.1, rfl⟩) (some none) (some none) (.inr ⟨rfl, rfl⟩)
      simp only [del, Option.some.injEq] at g1
      subst g1
      refine ⟨{ s with vars := upd s.vars x (some none) }, ?_, ?_⟩
      · simp [step, h1, does, h2]
      · simpa [does, h2] using g4
    · cases room with
      | false => exact ⟨s, by simp [step, h1, h3, does, h2], by simpa [does, h2] using hi⟩
      | true =>
        obtain ⟨s1, g1, g2, g3, g4, g5⟩ := fill hi x none (.inr ⟨(hi.gone x).2 hf.1, rfl⟩) o h4
        simp only [del, Option.some.injEq] at g1
        subst g1
        refine ⟨{ mem := upd s.mem s.next (some o), next := s.next + 1, vars := upd s.vars x (some (some s.next)) }, ?_, ?_⟩
        · simp [step, h1, h3, cloned_eq h4, does]
        · simpa [does, h2] using g5
  | make x o =>
    simp only [Fine] at hf
    cases room with
    | false => exact ⟨s, by simp [step, does], by simpa [does] using hi⟩
    | true =>
      obtain ⟨s1, g1, g2, g3, g4, g5⟩ := fill hi x none (.inr ⟨(hi.gone x).2 hf.1, rfl⟩) o hf.2
      simp only [del, Option.some.injEq] at g1
      subst g1
      refine ⟨{ mem := upd s.mem s.next (some o), next := s.next + 1, vars := upd s.vars x (some (some s.next)) }, ?_,
        by simpa [does] using g5⟩
      simp [step, cloned_eq hf.2, does]
  | assign x y =>
    simp only [Fine] at hf
    obtain ⟨hx, hy, hxy, hr⟩ := hf
    obtain ⟨i, hxi⟩ := hv x hx
    rcases hcases y hy with ⟨h1, h2⟩ | ⟨a, o, h1, h2, h3, h4⟩
    · obtain ⟨s1, g1, g2, g3, g4⟩ := empty hi x i (.inl hxi) (some none) (some none) (.inr ⟨rfl, rfl⟩)
      refine ⟨{ s1 with vars := upd s.vars x (some none) }, ?_, ?_⟩
      · simp [step, hxi, h1, g1, does, h2, g2]
      · simpa [does, h2] using g4
    · have hrt : room = true := by
        rcases hr with hr | hr
        · exact hr
        · rw [h2] at hr; cases hr
      subst hrt
      obtain ⟨s1, g1, g2, g3, g4, g5⟩ := fill hi x i (.inl hxi) o h4
      have hxy' : x ≠ y := by
        rintro rfl
        rcases hxy with hxy | hxy
        · exact hxy rfl
        · rw [h2] at hxy; cases hxy
      have hma : s1.mem a = some o := by
        rw [g4, if_neg ?_]
        · exact h3
        · rintro rfl
          exact hxy' (hi.apart x y a hxi h1)
      refine ⟨{ mem := upd s1.mem s.next (some o), next := s.next + 1, vars := upd s.vars x (some (some s.next)) }, ?_,
        by simpa [does, h2] using g5⟩
      · simp [step, hxi, h1, g1, hma, cloned_eq h4, does, g2, g3]
  | assignObj x o =>
    simp only [Fine] at hf
    obtain ⟨hx, hc, rfl⟩ := hf
    obtain ⟨i, hxi⟩ := hv x hx
    obtain ⟨s1, g1, g2, g3, g4, g5⟩ := fill hi x i (.inl hxi) o hc
    refine ⟨{ mem := upd s1.mem s.next (some o), next := s.next + 1, vars := upd s.vars x (some (some s.next)) }, ?_,
      by simpa [does] using g5⟩
    · simp [step, hxi, g1, cloned_eq hc, does, g2, g3]
  | assignDeref x y =>
    simp only [Fine] at hf
    obtain ⟨hx, ⟨o', ho'⟩, hxy, rfl⟩ := hf
    obtain ⟨i, hxi⟩ := hv x hx
    rcases hcases y (by simp [ho']) with ⟨h1, h2⟩ | ⟨a, o, h1, h2, h3, h4⟩
    · rw [ho'] at h2; cases h2
    · obtain ⟨s1, g1, g2, g3, g4, g5⟩ := fill hi x i (.inl hxi) o h4
      have hma : s1.mem a = some o := by
        rw [g4, if_neg ?_]
        · exact h3
        · rintro rfl
          exact hxy (hi.apart x y a hxi h1)
      refine ⟨{ mem := upd s1.mem s.next (some o), next := s.next + 1, vars := upd s.vars x (some (some s.next)) }, ?_,
        by simpa [does, h2] using g5⟩
      · simp [step, hxi, h1, g1, hma, cloned_eq h4, does, g2, g3]
  | add x o =>
    simp only [Fine] at hf
    obtain ⟨hx, hc, rfl⟩ := hf
    obtain ⟨i, hxi⟩ := hv x hx
    obtain ⟨s1, g1, g2, g3, g4, g5⟩ := fill hi x i (.inl hxi) o hc
    refine ⟨{ mem := upd (upd (upd s1.mem s.next (some o)) (s.next + 1) (some o)) (s.next + 1) none, next := s.next + 2,
              vars := upd s.vars x (some (some s.next)) }, ?_, ?_⟩
    · simp only [step, hxi, g1, alloc, cloned_eq hc, does, g2, g3, if_true]
      simp [del, upd]
    · have hm : upd (upd (upd s1.mem s.next (some o)) (s.next + 1) (some o)) (s.next + 1) none =
          upd s1.mem s.next (some o) := by
        funext b
        simp only [upd]
        by_cases hb : b = s.next + 1
        · rw [if_pos hb, if_neg (by omega), g4]
          split
          · rfl
          · cases hm : s.mem b with
            | none => rfl
            | some o2 => exact absurd (hi.fresh _ _ hm) (by omega)
        · simp only [if_neg hb]
      rw [hm]
      refine ⟨?_, ?_, ?_⟩
      · have := g5.toShows
        simp only [does]
        exact ⟨this.gone, this.null, this.obj, this.apart, this.owned⟩
      · intro b o2 hb
        have := g5.fresh b o2 hb
        simp only at this ⊢; omega
      · simpa [does] using g5.ok
  | swap x y =>
    simp only [Fine] at hf
    obtain ⟨i, hxi⟩ := hv x hf.1
    obtain ⟨j, hyj⟩ := hv y hf.2
    refine ⟨{ s with vars := upd (upd s.vars x (some j)) y (some i) }, by simp [step, hxi, hyj, does], ?_⟩
    have h5 := hi.gone
    have h6 := hi.null
    have h7 := hi.obj
    have h8 := hi.apart
    have h9 := hi.owned
    have hval : ∀ z, (upd (upd s.vars x (some j)) y (some i)) z = s.vars (if z = y then x else if z = x then y else z) := by
      intro z; simp only [upd]; grind
    have heval : ∀ z, (upd (upd e x (e y)) y (e x)) z = e (if z = y then x else if z = x then y else z) := by
      intro z; simp only [upd]; grind
    refine ⟨⟨?_, ?_, ?_, ?_, ?_⟩, hi.fresh, ?_⟩
    · intro z; simp only [does, hval, heval]; exact h5 _
    · intro z; simp only [does, hval, heval]; exact h6 _
    · intro z o; simp only [does, hval, heval]; exact h7 _ o
    · intro z w a hz hw
      simp only [hval] at hz hw
      have := h8 _ _ a hz hw
      exact ex_inj this
    · intro a o ha
      obtain ⟨z, hz⟩ := h9 a o ha
      refine ⟨if z = y then x else if z = x then y else z, ?_⟩
      simp only [hval]
      rw [← hz]
      exact congrArg _ (ex_ex x y z)
    · intro z o hz
      simp only [does, heval] at hz
      exact hi.ok _ o hz
  | write x f =>
    simp only [Fine] at hf
    obtain ⟨o, ho⟩ := hf
    obtain ⟨a, h1, h2⟩ := (hi.obj x o).1 ho
    refine ⟨{ s with mem := upd s.mem a (some { o with val := f o.val }) }, by simp [step, deref, h1, h2, does], ?_⟩
    have h5 := hi.gone
    have h6 := hi.null
    have h7 := hi.obj
    have h8 := hi.apart
    have h9 := hi.owned
    simp only [does, ho, Option.map_some]
    refine ⟨⟨?_, ?_, ?_, hi.apart, ?_⟩, ?_, ?_⟩
    · intro z; simp only [upd]; grind
    · intro z; simp only [upd]; grind
    · intro z o2
      simp only [upd]
      by_cases hz : z = x
      · subst hz
        simp only [if_true]
        constructor
        · intro hh; cases hh; exact ⟨a, h1, by simp⟩
        · rintro ⟨a2, ha, hb⟩
          rw [h1] at ha; cases ha
          simpa using hb
      · simp only [if_neg hz]
        rw [h7]
        constructor
        · rintro ⟨a2, ha, hb⟩
          refine ⟨a2, ha, ?_⟩
          rw [if_neg ?_]
          · exact hb
          · rintro rfl; exact hz (h8 z x a2 ha h1)
        · rintro ⟨a2, ha, hb⟩
          refine ⟨a2, ha, ?_⟩
          rw [if_neg ?_] at hb
          · exact hb
          · rintro rfl; exact hz (h8 z x a2 ha h1)
    · intro a2 o2 hb
      simp only [upd] at hb
      split at hb
      · rename_i haa; exact ⟨x, by rw [haa]; exact h1⟩
      · exact h9 a2 o2 hb
    · intro a2 o2 hb
      simp only [upd] at hb
      split at hb
      · rename_i haa; rw [haa]; exact hi.fresh a o h2
      · exact hi.fresh a2 o2 hb
    · intro z o2 hz
      simp only [upd] at hz
      split at hz
      · cases hz; exact hi.ok x o ho
      · exact hi.ok z o2 hz
  | cast x c =>
    simp only [Fine] at hf
    obtain ⟨o, ho⟩ := hf
    obtain ⟨a, h1, h2⟩ := (hi.obj x o).1 ho
    refine ⟨s, ?_, by simpa [does] using hi⟩
    simp only [step, deref, h1, h2, does, ho]
    cases hc : h.isa o.cls c <;> simp [hc]
  | drop x =>
    simp only [Fine] at hf
    obtain ⟨i, hxi⟩ := hv x hf
    obtain ⟨s1, g1, g2, g3, g4⟩ := empty hi x i (.inl hxi) none none (.inl ⟨rfl, rfl⟩)
    exact ⟨{ s1 with vars := upd s.vars x none }, by simp [step, hxi, g1, does, g2], by simpa [does] using g4⟩

/-- Programs: each variable has an object of its own, which is what was last given to it, and there are no others. -/
theorem C97_program_partial {V : Type} (h : Classes V) (t : Nat) (ops : List (Op V × Bool)) (ts : List Bool) (e : Env V)
    (hp : Prog h t (fun _ => none) ops ts e) : ∃ s, run h t (start V) ops = some (ts, s) ∧ Shows s e := by
  have key : ∀ (ops : List (Op V × Bool)) (ts : List Bool) (e0 e : Env V) (s0 : St V), Inv h t s0 e0 → Prog h t e0 ops ts e →
      ∃ s, run h t s0 ops = some (ts, s) ∧ Inv h t s e := by
    intro ops
    induction ops with
    | nil => intro ts e0 e s0 hi hp; cases hp; exact ⟨s0, rfl, hi⟩
    | cons op ops ih =>
      intro ts e0 e s0 hi hp
      cases hp with
      | cons hf hp =>
        obtain ⟨s1, h1, h2⟩ := step_ok hi hf
        obtain ⟨s2, h3, h4⟩ := ih _ _ _ s1 h2 hp
        refine ⟨s2, ?_, h4⟩
        rw [run, h1]
        split
        · rename_i hq; split at hq <;> cases hq
        · rename_i hq
          split at hq <;> cases hq
          rename_i hq
          simp [h3, hq]
        · rename_i hq
          split at hq <;> cases hq
          rename_i hq
          simp [h3, hq]
  obtain ⟨s, h1, h2⟩ := key ops ts _ e (start V) (by
    refine ⟨⟨?_, ?_, ?_, ?_, ?_⟩, ?_, ?_⟩ <;> simp [start]) hp
  exact ⟨s, h1, h2.toShows⟩

/-- When no variable is left, neither is an object. -/
theorem C97_no_leak {V : Type} (s : St V) (e : Env V) (hs : Shows s e) (he : ∀ x, e x = none) (a : Nat) : s.mem a = none := by
  cases hm : s.mem a with
  | none => rfl
  | some o =>
    obtain ⟨x, hx⟩ := hs.owned a o hm
    rw [(hs.gone x).2 (he x)] at hx; cases hx

/-- `cloneT<U>` gives a new object, a copy, if that is a U; otherwise null, and no object is left behind.  Nothing else
changes. -/
theorem C97_cloneT {V : Type} (h : Classes V) (t u : Nat) (s : St V) (hs : ∀ a, s.next ≤ a → s.mem a = none) (o : Obj V)
    (ho : Clonable h t o.cls) : ∃ r s', cloneT h u s o = some (r, s') ∧
      (h.isa o.cls u = true → ∃ a, r = some a ∧ s.mem a = none ∧ s'.mem = upd s.mem a (some o)) ∧
      (h.isa o.cls u = false → r = none ∧ s'.mem = s.mem) ∧ s'.vars = s.vars := by
  cases hu : h.isa o.cls u with
  | true =>
    refine ⟨some s.next, { s with mem := upd s.mem s.next (some o), next := s.next + 1 },
      by simp [cloneT, clone, alloc, ho.own, ho.whole, hu], fun _ => ?_, by simp, rfl⟩
    exact ⟨s.next, rfl, hs _ (Nat.le_refl _), rfl⟩
  | false =>
    refine ⟨none, { s with mem := upd (upd s.mem s.next (some o)) s.next none, next := s.next + 1 }, by
      simp [cloneT, clone, alloc, ho.own, ho.whole, hu, del, upd], by simp, fun _ => ⟨rfl, ?_⟩, rfl⟩
    funext a
    simp only [upd]
    by_cases ha : a = s.next
    · rw [if_pos ha, ha, hs _ (Nat.le_refl _)]
    · rw [if_neg ha, if_neg ha]

/-- A variable assigned to itself, or the object it has: the object is deleted before it is copied. -/
theorem C97_fails_self {V : Type} (h : Classes V) (t : Nat) (room : Bool) (s : St V) (x a : Nat)
    (hx : s.vars x = some (some a)) : step h t room s (.assign x x) = .ub ∧ step h t room s (.assignDeref x x) = .ub := by
  constructor
  all_goals
    simp only [step, hx, del]
    cases s.mem a with
    | none => rfl
    | some o => simp [upd]

/-- If there is no memory for the copy, the variable assigned to keeps the address of a deleted object: destroying it is
not defined. -/
theorem C97_fails_throw {V : Type} (h : Classes V) (t : Nat) (s : St V) (x y a c : Nat) (o o' : Obj V)
    (hx : s.vars x = some (some a)) (hy : s.vars y = some (some c)) (ha : s.mem a = some o) (hc : s.mem c = some o')
    (hac : a ≠ c) : ∃ s', step h t false s (.assign x y) = .throw s' ∧ ∀ room, step h t room s' (.drop x) = .ub := by
  refine ⟨{ s with mem := upd s.mem a none }, ?_, ?_⟩
  · simp [step, hx, hy, del, ha, upd, hc, Ne.symm hac]
  · intro room
    simp [step, hx, del, upd]

/-- Objects of a class that is not derived by means of the template are copied as objects of a base, of which the copy
has the members only; and if that is a base of `T` the copy is null, and an object is lost. -/
theorem C97_fails_slice {V : Type} (h : Classes V) (t : Nat) (s : St V) (o : Obj V) (x : Nat) :
    (h.isa (h.own o.cls) t = true → ∃ s', step h t true s (.make x o) = .ok s' ∧ s'.vars x = some (some s.next) ∧
      s'.mem s.next = some ⟨h.own o.cls, h.slice (h.own o.cls) o.val⟩) ∧
    (h.isa (h.own o.cls) t = false → (∀ y, s.vars y ≠ some (some s.next)) → ∃ s', step h t true s (.make x o) = .ok s' ∧
      s'.vars x = some none ∧ s'.mem s.next ≠ none ∧ ∀ y, s'.vars y ≠ some (some s.next)) := by
  constructor
  · intro hi
    refine ⟨_, by simp only [step, cloned, clone, alloc, hi, if_true]; rfl, ?_, ?_⟩ <;> simp [upd]
  · intro hi hn
    refine ⟨_, by simp only [step, cloned, clone, alloc, hi]; rfl, ?_, ?_, ?_⟩
    · simp [upd]
    · simp [upd]
    · intro y
      simp only [upd]
      split
      · simp
      · exact hn y

/-! ### A case -/

private def exH : Classes Int := ⟨id, fun _ => id, fun c d => c == d || d == 0⟩
private theorem exC (c : Nat) : Clonable exH 0 c := ⟨rfl, fun _ => rfl, by simp [exH]⟩

example : ∃ ts e, Prog exH 0 (fun _ => none) [(.make 0 ⟨3, 7⟩, true), (.copy 1 0, true), (.write 1 (· + 1), true),
    (.cast 0 2, true), (.assign 0 1, true), (.copy 2 1, false), (.swap 0 1, true), (.drop 1, true)] ts e ∧
    e 0 = some (some ⟨3, 8⟩) ∧ e 1 = none ∧ ts = [false, false, false, true, false, true, false, false] := by
  refine ⟨_, _, .cons ⟨rfl, exC _⟩ (.cons ⟨rfl, by decide⟩ (.cons ⟨_, rfl⟩ (.cons ⟨_, rfl⟩ (.cons ⟨by decide, by decide, .inl (by decide),
    .inl rfl⟩ (.cons ⟨rfl, by decide⟩ (.cons ⟨by decide, by decide⟩ (.cons (by decide : _ ≠ _) .nil))))))), by decide, by decide, by decide⟩

end Verif.PolyVal
