import Verif.Isa
/-
C87: `isa` tells whether one class is derived from another.
-/
namespace Verif.Isa

namespace C87

/-- The second class is the first or one of its bases, direct or not. -/
inductive Derives : Cls → Cls → Prop
  | refl (c) : Derives c c
  | step {c b d} : b ∈ c.bases → Derives b d → Derives c d

/-- One name, one class, among a class and its bases. -/
def OneName (c : Cls) : Prop := ∀ a b, Derives c a → Derives c b → a.name = b.name → a = b

end C87
open C87

mutual
private theorem types_iff (dyn n : Nat) : ∀ c : Cls, n ∈ types dyn c ↔ ∃ b, Derives c b ∧ typeid dyn b = n
  | .mk m p bs => by
    rw [types, List.mem_cons, typesOf_iff dyn n bs]
    constructor
    · rintro (h | ⟨b, hb, d, hd, e⟩)
      · exact ⟨_, .refl _, h.symm⟩
      · exact ⟨d, .step (c := .mk m p bs) hb hd, e⟩
    · rintro ⟨d, hd, e⟩
      cases hd with
      | refl => exact .inl e.symm
      | step hb hd => exact .inr ⟨_, hb, d, hd, e⟩
private theorem typesOf_iff (dyn n : Nat) : ∀ bs : List Cls, n ∈ typesOf dyn bs ↔ ∃ b ∈ bs, ∃ d, Derives b d ∧ typeid dyn d = n
  | [] => by simp [typesOf]
  | b :: bs => by
    rw [typesOf, List.mem_append, types_iff dyn n b, typesOf_iff dyn n bs]
    simp
end

/-- Without virtual functions: exactly the class itself and its bases. -/
theorem C87_isa_partial (x y : Ref) (h : ∀ b, Derives x.static b → b.poly = false) (hy : y.static.poly = false) :
    isa x y = true ↔ ∃ b, Derives x.static b ∧ b.name = y.static.name := by
  rw [isa, List.contains_iff_mem, types_iff]
  simp only [typeid, hy]
  constructor
  · rintro ⟨b, hb, e⟩
    rw [h b hb] at e
    exact ⟨b, hb, e⟩
  · rintro ⟨b, hb, e⟩
    refine ⟨b, hb, ?_⟩
    rw [h b hb]
    exact e

example : isa ⟨.mk 3 false [.mk 2 false [.mk 1 false []]], 3⟩ ⟨.mk 1 false [], 1⟩ = true ∧
    isa ⟨.mk 1 false [], 1⟩ ⟨.mk 2 false [.mk 1 false []], 2⟩ = false := by decide

/-- An object is never found to be of a base class with virtual functions: whatever the class derives from. -/
theorem C87_fails_virtual (c b : Cls) (hb : Derives c b) (hp : b.poly = true) (hne : b ≠ c) (ho : OneName c) :
    isa ⟨c, c.name⟩ ⟨b, b.name⟩ = false := by
  rw [Bool.eq_false_iff]
  intro h
  rw [isa, List.contains_iff_mem, types_iff] at h
  obtain ⟨d, hd, e⟩ := h
  simp only [typeid, hp, if_true] at e
  split at e
  · exact hne (ho b c hb (.refl c) e.symm)
  · rename_i hdp
    have := ho d b hd hb e
    rw [this] at hdp
    exact hdp hp

example : isa ⟨.mk 2 true [.mk 1 true []], 2⟩ ⟨.mk 1 true [], 1⟩ = false := by decide

/-- Nor is the answer about the declared class: through a reference to a base, an object of a derived class is not of that base. -/
theorem C87_fails_reference (b : Cls) (dyn : Nat) (hp : b.poly = true) (hn : ∀ a, Derives b a → a.poly = true) (hd : dyn ≠ b.name) :
    isa ⟨b, dyn⟩ ⟨b, b.name⟩ = false := by
  rw [Bool.eq_false_iff]
  intro h
  rw [isa, List.contains_iff_mem, types_iff] at h
  obtain ⟨d, hd2, e⟩ := h
  simp only [typeid, hp, hn d hd2, if_true] at e
  exact hd e

example : isa ⟨.mk 1 true [], 2⟩ ⟨.mk 1 true [], 1⟩ = false := by decide

end Verif.Isa
