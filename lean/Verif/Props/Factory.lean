import Verif.Factory
/-
C18.  After any sequence of registrations, create(name) builds an object of the type
first registered under that name, throws InvalidType for names never registered, and
types() lists each registered name exactly once.
-/
namespace Verif.Factory
open OMap

/-- Spec: the type of the first registration under a name, if any. -/
def firstReg {Key Ty : Type} [DecidableEq Key] (name : Key) : List (Key × Ty) → Option Ty
  | [] => none
  | (k, t) :: r => if k = name then some t else firstReg name r

section
variable {Key Ty : Type} [DecidableEq Key] {lt : Key → Key → Bool}

private theorem fold_find (h : StrictOrd lt) (regs : List (Key × Ty)) (m : Fmap Key Ty) (q : Key) :
    mfind lt q (regs.foldl (fun m r => registerType lt m r.1 r.2) m)
      = (mfind lt q m).or (firstReg q regs) := by
  induction regs generalizing m with
  | nil => simp [firstReg]
  | cons x r ih =>
    obtain ⟨k, t⟩ := x
    rw [List.foldl_cons, ih]
    simp only [registerType, mfind_minsert h, firstReg]
    by_cases hq : q = k
    · subst hq
      cases mfind lt q m <;> simp
    · simp [hq, Ne.symm hq]

private theorem fold_sorted (h : StrictOrd lt) (regs : List (Key × Ty)) (m : Fmap Key Ty)
    (hm : Sorted lt m) :
    Sorted lt (regs.foldl (fun m r => registerType lt m r.1 r.2) m) := by
  induction regs generalizing m with
  | nil => exact hm
  | cons x r ih => exact ih _ (sorted_minsert h _ _ _ hm)

private theorem firstReg_none (name : Key) (regs : List (Key × Ty)) :
    firstReg name regs = none ↔ name ∉ regs.map (·.1) := by
  induction regs with
  | nil => simp [firstReg]
  | cons x r ih =>
    obtain ⟨k, t⟩ := x
    simp only [firstReg]
    by_cases hk : k = name
    · simp [hk]
    · simp only [if_neg hk, ih, List.map_cons, List.mem_cons]
      simp [Ne.symm hk]

/-- create() gives the first registration, or throws InvalidType naming the type. -/
theorem C18_create (h : StrictOrd lt) (regs : List (Key × Ty)) (name : Key) :
    create lt (registerAll lt regs) name
      = match firstReg name regs with
        | some t => .object t
        | none => .invalidType name := by
  simp only [create, registerAll, fold_find h, mfind, Option.none_or]
  cases firstReg name regs <;> rfl

/-- It throws exactly for names never registered. -/
theorem C18_throws_iff (h : StrictOrd lt) (regs : List (Key × Ty)) (name : Key) :
    create lt (registerAll lt regs) name = .invalidType name ↔ name ∉ regs.map (·.1) := by
  rw [C18_create h, ← firstReg_none]
  cases firstReg name regs <;> simp

/-- types() lists exactly the registered names, each once, in increasing order. -/
theorem C18_types (h : StrictOrd lt) (regs : List (Key × Ty)) :
    (types (registerAll lt regs)).Nodup
    ∧ (∀ name, name ∈ types (registerAll lt regs) ↔ name ∈ regs.map (·.1))
    ∧ (types (registerAll lt regs)).Pairwise (fun a b => lt a b = true) := by
  have hs : Sorted lt (registerAll lt regs) := fold_sorted h regs [] trivial
  refine ⟨hs.nodup h, ?_, hs.pairwise⟩
  intro name
  have h1 := mfind_none_iff h hs name
  have h2 := firstReg_none name regs
  simp only [registerAll, fold_find h, mfind, Option.none_or] at h1
  have := h1.symm.trans h2
  unfold types registerAll
  constructor
  · intro a; exact Decidable.byContradiction fun b => this.2 b a
  · intro a; exact Decidable.byContradiction fun b => this.1 b a

/-- A later registration never changes what an earlier name creates. -/
theorem C18_stable (h : StrictOrd lt) (regs more : List (Key × Ty)) (name : Key) (t : Ty)
    (hc : create lt (registerAll lt regs) name = .object t) :
    create lt (registerAll lt (regs ++ more)) name = .object t := by
  rw [C18_create h] at hc ⊢
  have : ∀ l : List (Key × Ty), firstReg name l = some t → firstReg name (l ++ more) = some t := by
    intro l
    induction l with
    | nil => intro a; cases a
    | cons x r ih =>
      obtain ⟨k, t'⟩ := x
      simp only [firstReg, List.cons_append]
      split
      · exact id
      · exact ih
  cases hf : firstReg name regs with
  | none => simp [hf] at hc
  | some t' =>
    simp [hf] at hc
    subst hc
    rw [this regs hf]

end

/-- Two names, one registered twice with different types. -/
example : create strLt (registerAll strLt
      [([102, 111, 111], 1), ([98, 97, 114], 2), ([102, 111, 111], 3)]) [102, 111, 111]
      = .object 1
    ∧ create strLt (registerAll strLt [([102, 111, 111], 1)]) [98] = .invalidType [98]
    ∧ types (registerAll strLt [([102, 111, 111], 1), ([98, 97, 114], 2), ([102, 111, 111], 3)])
      = [[98, 97, 114], [102, 111, 111]] := by decide

/-- The order assumed of the key type holds for `std::string`. -/
example : StrictOrd strLt := strOrd

end Verif.Factory
