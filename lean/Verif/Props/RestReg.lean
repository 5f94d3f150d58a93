import Verif.Rest
/-
C35: what the registry holds under a name after any history of registrations.
-/
namespace Verif.Rest
open OMap

/-- The functions an entry stands for. -/
def C35.funs : Option Ent → List Fn
  | some (.fn f) => [f]
  | some (.over fs) => fs
  | _ => []

/-- A later registration under the same name that ousts a function of these argument types: of a
function with the same argument types, or of an object other than a number or string. -/
def C35.Ousts (d : Str) (args : List Str) : Op → Prop
  | .fn d' g => d' = d ∧ g.args = args
  | .obj d' _ _ => d' = d
  | .prim _ _ => False

open C35

/-- The effect of a registration on the entry of its name. -/
private def stepEnt (old : Option Ent) : Op → Ent
  | .prim _ i => old.getD (.obj i false)
  | .obj _ i w => .obj i w
  | .fn _ f =>
    match old with
    | none => .fn f
    | some (.over fs) => .over (replace f fs)
    | some (.fn g) => if sameSig g f = true then .fn f else .over [g, f]
    | some (.obj _ _) => .fn f

theorem C35.sorted_apply (r : Reg) (op : Op) (h : Sorted strLt r) : Sorted strLt (apply r op) := by
  cases op with
  | prim d i => exact sorted_minsert strOrd _ _ _ h
  | obj d i w => exact sorted_minsert strOrd _ _ _ (sorted_merase _ _ h)
  | fn d f =>
    simp only [apply, addFn]
    split
    · exact sorted_minsert strOrd _ _ _ h
    · exact sorted_mput strOrd _ _ _ h
    · split <;> exact sorted_mput strOrd _ _ _ h
    · exact sorted_mput strOrd _ _ _ h

private theorem apply_find (r : Reg) (op : Op) (h : Sorted strLt r) (d : Str) :
    mfind strLt d (apply r op) =
      if d = op.name then some (stepEnt (mfind strLt d r) op) else mfind strLt d r := by
  cases op with
  | prim d' i =>
    simp only [apply, addPrim, mfind_minsert strOrd, Op.name, stepEnt]
    by_cases hd : d = d' <;> simp [hd]
  | obj d' i w =>
    simp only [apply, addObj, mfind_minsert strOrd, Op.name, stepEnt, mfind_merase strOrd _ _ h]
    by_cases hd : d = d' <;> simp [hd]
  | fn d' f =>
    simp only [apply, addFn, Op.name, stepEnt]
    by_cases hd : d = d'
    · subst hd
      cases hf : mfind strLt d r with
      | none => simp [mfind_minsert strOrd, hf]
      | some e =>
        cases e with
        | obj i w => simp [mfind_mput strOrd]
        | over fs => simp [mfind_mput strOrd]
        | fn g =>
          simp only [if_true]
          split <;> simp [mfind_mput strOrd]
    · simp only [hd, if_false]
      cases hf : mfind strLt d' r with
      | none => simp [mfind_minsert strOrd, hd]
      | some e =>
        cases e with
        | obj i w => simp [mfind_mput strOrd, hd]
        | over fs => simp [mfind_mput strOrd, hd]
        | fn g =>
          simp only
          split <;> simp [mfind_mput strOrd, hd]

private theorem build_snoc (ops : List Op) (op : Op) : build (ops ++ [op]) = apply (build ops) op := by
  simp [build]

private theorem snoc_ind {P : List Op → Prop} (h0 : P []) (h1 : ∀ l x, P l → P (l ++ [x])) (l : List Op) :
    P l := by
  have : ∀ l : List Op, P l.reverse := by
    intro l
    induction l with
    | nil => exact h0
    | cons x l ih => rw [List.reverse_cons]; exact h1 _ _ ih
  have h := this l.reverse
  rwa [List.reverse_reverse] at h

theorem C35.build_sorted (ops : List Op) : Sorted strLt (build ops) := by
  induction ops using snoc_ind with
  | h0 => trivial
  | h1 l x ih => rw [build_snoc]; exact sorted_apply _ _ ih

private theorem mem_replace (f g : Fn) (fs : List Fn) (hp : fs.Pairwise fun a c => a.args ≠ c.args) :
    g ∈ replace f fs ↔ g = f ∨ (g ∈ fs ∧ g.args ≠ f.args) := by
  induction fs with
  | nil => simp [replace]
  | cons a fs ih =>
    rw [List.pairwise_cons] at hp
    simp only [replace, sameSig, beq_iff_eq]
    split
    · rename_i h
      simp only [List.mem_cons]
      constructor
      · rintro (h1 | h1)
        · exact .inl h1
        · exact .inr ⟨.inr h1, fun e => hp.1 g h1 (h.trans e.symm)⟩
      · rintro (h1 | ⟨h1 | h1, h2⟩)
        · exact .inl h1
        · subst h1; exact absurd h h2
        · exact .inr h1
    · rename_i h
      simp only [List.mem_cons, ih hp.2]
      constructor
      · rintro (h1 | h1 | h1)
        · subst h1; exact .inr ⟨.inl rfl, h⟩
        · exact .inl h1
        · exact .inr ⟨.inr h1.1, h1.2⟩
      · rintro (h1 | ⟨h1 | h1, h2⟩)
        · exact .inr (.inl h1)
        · exact .inl h1
        · exact .inr (.inr ⟨h1, h2⟩)

private theorem replace_pairwise (f : Fn) (fs : List Fn) (hp : fs.Pairwise fun a c => a.args ≠ c.args) :
    (replace f fs).Pairwise fun a c => a.args ≠ c.args := by
  induction fs with
  | nil => simp [replace]
  | cons a fs ih =>
    rw [List.pairwise_cons] at hp
    simp only [replace, sameSig, beq_iff_eq]
    split
    · rename_i h
      exact List.pairwise_cons.2 ⟨fun c hc e => hp.1 c hc (h.trans e), hp.2⟩
    · rename_i h
      refine List.pairwise_cons.2 ⟨fun c hc e => ?_, ih hp.2⟩
      rcases (mem_replace f c fs hp.2).1 hc with h1 | h1
      · subst h1; exact h e
      · exact hp.1 c h1.1 e

/-- At most one function per signature under a name. -/
theorem C35_one_per_signature (ops : List Op) (d : Str) :
    (funs (mfind strLt d (build ops))).Pairwise fun f g => f.args ≠ g.args := by
  induction ops using snoc_ind with
  | h0 => simp [build, mfind, funs]
  | h1 l op ih =>
    rw [build_snoc, apply_find _ _ (build_sorted l)]
    split
    · rename_i hd
      cases op with
      | prim d' i =>
        simp only [stepEnt]
        cases hf : mfind strLt d (build l) with
        | none => simp [funs]
        | some e => rw [hf] at ih; exact ih
      | obj d' i w => simp [stepEnt, funs]
      | fn d' f =>
        simp only [stepEnt]
        cases hf : mfind strLt d (build l) with
        | none => simp [funs]
        | some e =>
          rw [hf] at ih
          cases e with
          | obj i w => simp [funs]
          | over fs => simp only [funs] at ih ⊢; exact replace_pairwise f fs ih
          | fn g =>
            simp only [sameSig, beq_iff_eq]
            split
            · simp [funs]
            · rename_i h; simpa [funs] using h
    · exact ih

private theorem funs_step (old : Option Ent) (d : Str) (f g : Fn)
    (hp : (funs old).Pairwise fun a c => a.args ≠ c.args) :
    g ∈ funs (some (stepEnt old (.fn d f))) ↔ g = f ∨ (g ∈ funs old ∧ g.args ≠ f.args) := by
  cases old with
  | none => simp [stepEnt, funs]
  | some e =>
    cases e with
    | obj i w => simp [stepEnt, funs]
    | over fs => simp only [stepEnt, funs] at hp ⊢; exact mem_replace f g fs hp
    | fn h =>
      simp only [stepEnt, sameSig, beq_iff_eq]
      split
      · rename_i e
        simp only [funs, List.mem_singleton]
        constructor
        · exact .inl
        · rintro (h1 | ⟨rfl, h1⟩)
          · exact h1
          · exact absurd e h1
      · rename_i e
        simp only [funs, List.mem_cons, List.not_mem_nil, or_false]
        constructor
        · rintro (h1 | h1)
          · subst h1; exact .inr ⟨rfl, e⟩
          · exact .inl h1
        · rintro (h1 | h1)
          · exact .inr h1
          · exact .inl h1.1

/-- The functions under a name are exactly those registered there and not ousted since. -/
theorem C35_functions_partial (ops : List Op) (d : Str) (f : Fn) :
    f ∈ funs (mfind strLt d (build ops)) ↔
      ∃ a c, ops = a ++ Op.fn d f :: c ∧ ∀ op ∈ c, ¬ Ousts d f.args op := by
  induction ops using snoc_ind with
  | h0 => simp [build, mfind, funs]
  | h1 l op ih =>
    -- the right hand side, by the last registration
    have rhs : (∃ a c, l ++ [op] = a ++ Op.fn d f :: c ∧ ∀ op ∈ c, ¬ Ousts d f.args op) ↔
        op = .fn d f ∨ (f ∈ funs (mfind strLt d (build l)) ∧ ¬ Ousts d f.args op) := by
      rw [ih]
      constructor
      · rintro ⟨a, c, h1, h2⟩
        rcases List.eq_nil_or_concat c with rfl | ⟨c', x, rfl⟩
        · left
          exact (List.append_inj' h1 rfl).2 |> List.singleton_inj.1
        · right
          rw [List.concat_eq_append] at h1 h2
          have : l ++ [op] = (a ++ Op.fn d f :: c') ++ [x] := by simp [h1]
          obtain ⟨e1, e2⟩ := List.append_inj' this rfl
          cases e2
          exact ⟨⟨a, c', e1, fun o ho => h2 o (by simp [ho])⟩, h2 op (by simp)⟩
      · rintro (rfl | ⟨⟨a, c, rfl, h2⟩, h3⟩)
        · exact ⟨l, [], rfl, by simp⟩
        · exact ⟨a, c ++ [op], by simp, by
            intro o ho
            rcases List.mem_append.1 ho with h | h
            · exact h2 o h
            · rw [List.mem_singleton] at h; subst h; exact h3⟩
    rw [rhs, build_snoc, apply_find _ _ (build_sorted l)]
    split
    · rename_i hd
      cases op with
      | prim d' i =>
        simp only [stepEnt, Ousts, reduceCtorEq, false_or, not_false_eq_true, and_true]
        cases hf : mfind strLt d (build l) with
        | none => simp [funs]
        | some e => simp
      | obj d' i w =>
        simp only [Op.name] at hd
        simp [stepEnt, funs, Ousts, hd]
      | fn d' g =>
        simp only [Op.name] at hd
        subst hd
        rw [funs_step _ _ _ _ (C35_one_per_signature l d)]
        simp only [Ousts, true_and, Op.fn.injEq]
        constructor
        · rintro (h | h)
          · exact .inl h.symm
          · exact .inr ⟨h.1, fun e => h.2 e.symm⟩
        · rintro (h | h)
          · exact .inl h.symm
          · exact .inr ⟨h.1, fun e => h.2 e.symm⟩
    · rename_i hd
      have h1 : op ≠ .fn d f := by rintro rfl; exact hd rfl
      have h2 : ¬ Ousts d f.args op := by
        cases op <;> simp only [Ousts, Op.name, not_and, not_false_eq_true] at hd ⊢
        · exact fun e => hd e.symm
        · exact fun e => absurd e.symm hd
      simp [h1, h2]

/-- A name is registered when something was registered under it, and only then. -/
theorem C35_registered (ops : List Op) (d : Str) :
    (mfind strLt d (build ops)).isSome = true ↔ ∃ op ∈ ops, op.name = d := by
  induction ops using snoc_ind with
  | h0 => simp [build, mfind]
  | h1 l op ih =>
    rw [build_snoc, apply_find _ _ (build_sorted l)]
    split
    · rename_i hd
      simp only [Option.isSome_some, true_iff]
      exact ⟨op, by simp, hd.symm⟩
    · rename_i hd
      rw [ih]
      constructor
      · rintro ⟨o, ho, h⟩; exact ⟨o, by simp [ho], h⟩
      · rintro ⟨o, ho, h⟩
        rcases List.mem_append.1 ho with h1 | h1
        · exact ⟨o, h1, h⟩
        · rw [List.mem_singleton] at h1; subst h1; exact absurd h.symm hd

/-- Other objects take over a name whatever was there, and keep it until a function or another such
object is registered under it. -/
theorem C35_object (a c : List Op) (d : Str) (i : Nat) (w : Bool)
    (h : ∀ op ∈ c, op.name = d → ∃ j, op = .prim d j) :
    mfind strLt d (build (a ++ .obj d i w :: c)) = some (.obj i w) := by
  induction c using snoc_ind with
  | h0 => rw [build_snoc, apply_find _ _ (build_sorted a)]; simp [Op.name, stepEnt]
  | h1 c op ih =>
    have ih := ih fun o ho => h o (by simp [ho])
    rw [show a ++ Op.obj d i w :: (c ++ [op]) = (a ++ Op.obj d i w :: c) ++ [op] by simp, build_snoc,
      apply_find _ _ (build_sorted _)]
    split
    · rename_i hd
      obtain ⟨j, rfl⟩ := h op (by simp) hd.symm
      simp [stepEnt, ih]
    · exact ih

/-- A number or string gets the name if nothing was registered under it before. -/
theorem C35_number_partial (a c : List Op) (d : Str) (i : Nat) (h0 : ∀ op ∈ a, op.name ≠ d)
    (h : ∀ op ∈ c, op.name = d → ∃ j, op = .prim d j) :
    mfind strLt d (build (a ++ .prim d i :: c)) = some (.obj i false) := by
  induction c using snoc_ind with
  | h0 =>
    rw [build_snoc, apply_find _ _ (build_sorted a)]
    have : mfind strLt d (build a) = none := by
      cases hf : mfind strLt d (build a) with
      | none => rfl
      | some e =>
        obtain ⟨o, ho, h⟩ := (C35_registered a d).1 (by rw [hf]; rfl)
        exact absurd h (h0 o ho)
    simp [Op.name, stepEnt, this]
  | h1 c op ih =>
    have ih := ih fun o ho => h o (by simp [ho])
    rw [show a ++ Op.prim d i :: (c ++ [op]) = (a ++ Op.prim d i :: c) ++ [op] by simp, build_snoc,
      apply_find _ _ (build_sorted _)]
    split
    · rename_i hd
      obtain ⟨j, rfl⟩ := h op (by simp) hd.symm
      simp [stepEnt, ih]
    · exact ih

private abbrev f1 : Fn := ⟨b "int", [b "int"], 1⟩
private abbrev f2 : Fn := ⟨b "void", [b "int"], 2⟩
private abbrev f3 : Fn := ⟨b "int", [b "double"], 3⟩
private abbrev hist : List Op := [.fn (b "f") f1, .fn (b "g") f1, .fn (b "f") f3, .fn (b "f") f2]

example : f2 ∈ funs (mfind strLt (b "f") (build hist)) ∧ f1 ∉ funs (mfind strLt (b "f") (build hist)) ∧
    f3 ∈ funs (mfind strLt (b "f") (build hist)) := by decide
example : f2 ∈ funs (mfind strLt (b "f") (build hist)) :=
  (C35_functions_partial hist (b "f") f2).2 ⟨[.fn (b "f") f1, .fn (b "g") f1, .fn (b "f") f3], [], rfl, by simp⟩
example : mfind strLt (b "f") (build ([.fn (b "f") f1] ++ .obj (b "f") 7 true :: [.prim (b "f") 8])) =
    some (.obj 7 true) :=
  C35_object [.fn (b "f") f1] [.prim (b "f") 8] (b "f") 7 true (by simp [Op.name])
example : mfind strLt (b "x") (build ([.fn (b "f") f1] ++ .prim (b "x") 7 :: [.prim (b "x") 8])) =
    some (.obj 7 false) :=
  C35_number_partial [.fn (b "f") f1] [.prim (b "x") 8] (b "x") 7 (by decide) (by simp [Op.name])

/-- A number or string registered under a name already in use is ignored: the earlier one answers. -/
theorem C35_fails_number : mfind strLt (b "x") (build [.prim (b "x") 1, .prim (b "x") 2]) =
    some (.obj 1 false) ∧
    mfind strLt (b "f") (build [.fn (b "f") f1, .prim (b "f") 2]) = some (.fn f1) := by decide

end Verif.Rest
