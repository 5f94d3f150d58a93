import Verif.Tree
/-
C12: the treenode protocol.
-/
namespace Verif.Tree
open Verif.Graph

/-! ### Specification: the tree a pointer denotes -/

mutual
/-- Pointer `p` denotes the finite tree `t` (what is shared appears once for each path). -/
inductive Den (G : Nat → List Fld) : Option Nat → T → Prop
  | nil : Den G none .nil
  | node {a ts} : DenF G (G a) ts → Den G (some a) (.node ts)
inductive DenF (G : Nat → List Fld) : List Fld → List T → Prop
  | nil : DenF G [] []
  | data {n fs ts} : DenF G fs ts → DenF G (.data n :: fs) (.data n :: ts)
  | ptr {p t fs ts} : Den G p t → DenF G fs ts → DenF G (.ptr p :: fs) (t :: ts)
  | vec {ps l fs ts} : DenL G ps l → DenF G fs ts → DenF G (.vec ps :: fs) (.vec l :: ts)
inductive DenL (G : Nat → List Fld) : List (Option Nat) → List T → Prop
  | nil : DenL G [] []
  | cons {p t ps ts} : Den G p t → DenL G ps ts → DenL G (p :: ps) (t :: ts)
end

/-- Objects that can be reached. -/
inductive Reach (G : Nat → List Fld) (rp : Option Nat) : Nat → Prop
  | root {a} : rp = some a → Reach G rp a
  | ptr {a b} : Reach G rp a → Fld.ptr (some b) ∈ G a → Reach G rp b
  | vec {a b ps} : Reach G rp a → Fld.vec ps ∈ G a → some b ∈ ps → Reach G rp b

/-! ### Lemmas -/

/-- `f` writes what `g` reads as `t`, from fuel `K` on. -/
def RT (G : Nat → List Fld) (sh : List Kind) (ctor : T) (p : Option Nat) (t : T) (olds : T → Prop) : Prop :=
  ∃ K toks, ∀ fuel, K ≤ fuel → packT G fuel p = some toks ∧ ∀ old rest, olds old → unpackT sh ctor fuel old (toks ++ rest) = .ok (t, rest)

/-- C12 for node classes whose constructor nulls its pointer members and that keep no null pointers in containers, unpacked to
a null pointer: every pointer that denotes a finite tree is packed (all nested calls end), and reading gives back this tree, for any
trailing data. Missing: the other cases, for which the property is false (below). -/
theorem C12_tree_roundtrip_partial {G : Nat → List Fld} {rp : Option Nat} {t : T} (hd : Den G rp t) (sh : List Kind)
    (hsh : ∀ a, Reach G rp a → (G a).map Fld.kind = sh) (hvec : ∀ a, Reach G rp a → ∀ ps, Fld.vec ps ∈ G a → none ∉ ps) :
    ∃ K toks, ∀ fuel, K ≤ fuel → packT G fuel rp = some toks ∧ ∀ rest, unpackT sh .nil fuel .nil (toks ++ rest) = .ok (t, rest) := by
  suffices H : RT G sh .nil rp t (fun o => o = .nil) by
    obtain ⟨K, toks, k⟩ := H
    exact ⟨K, toks, fun fuel hf => ⟨(k fuel hf).1, fun rest => (k fuel hf).2 _ rest rfl⟩⟩
  -- induction on the derivation, generalised over the pointer
  have main : ∀ (p : Option Nat) (t : T), Den G p t → (∀ a, p = some a → Reach G rp a) →
      RT G sh .nil p t (fun o => o = .nil) ∧ (p ≠ none → RT G sh .nil p t (fun _ => True)) := by
    intro p t hd
    refine Den.rec (G := G)
      (motive_1 := fun p t _ => (∀ a, p = some a → Reach G rp a) →
        RT G sh .nil p t (fun o => o = .nil) ∧ (p ≠ none → RT G sh .nil p t (fun _ => True)))
      (motive_2 := fun fs ts _ => (∀ b, .ptr (some b) ∈ fs → Reach G rp b) → (∀ ps b, .vec ps ∈ fs → some b ∈ ps → Reach G rp b) →
        (∀ ps, .vec ps ∈ fs → none ∉ ps) → ∃ K toks, ∀ fuel, K ≤ fuel → packMem (packT G fuel) fs = some toks ∧
        ∀ rest, unpackMem .nil (unpackT sh .nil fuel) (fs.map Fld.kind) (toks ++ rest) = .ok (ts, rest))
      (motive_3 := fun ps ts _ => (∀ b, some b ∈ ps → Reach G rp b) → none ∉ ps →
        ∃ K toks, ∀ fuel, K ≤ fuel → packAll (packT G fuel) ps = some toks ∧
        ∀ rest, unpackAll (unpackT sh .nil fuel) ps.length (toks ++ rest) = .ok (ts, rest))
      ?_ ?_ ?_ ?_ ?_ ?_ ?_ ?_ hd
    · intro _
      refine ⟨⟨1, [0], fun fuel hf => ?_⟩, fun h => absurd rfl h⟩
      obtain ⟨f, rfl⟩ : ∃ f, fuel = f + 1 := ⟨fuel - 1, by omega⟩
      exact ⟨rfl, fun old rest ho => by simp [unpackT, ho]⟩
    · intro a ts _ ih hR
      have ha := hR a rfl
      obtain ⟨K, toks, k⟩ := ih (fun b hb => .ptr ha hb) (fun ps b h1 h2 => .vec ha h1 h2) (hvec a ha)
      have : ∀ fuel, K + 1 ≤ fuel → packT G fuel (some a) = some (1 :: toks) ∧
          ∀ old rest, unpackT sh .nil fuel old (1 :: toks ++ rest) = .ok (.node ts, rest) := by
        intro fuel hf
        obtain ⟨f, rfl⟩ : ∃ f, fuel = f + 1 := ⟨fuel - 1, by omega⟩
        obtain ⟨b1, b2⟩ := k f (by omega)
        rw [hsh a ha] at b2
        exact ⟨by simp [packT, b1], fun old rest => by simp [unpackT, b2, Out.bind]⟩
      exact ⟨⟨K + 1, _, fun fuel hf => ⟨(this fuel hf).1, fun old rest _ => (this fuel hf).2 old rest⟩⟩,
        fun _ => ⟨K + 1, _, fun fuel hf => ⟨(this fuel hf).1, fun old rest _ => (this fuel hf).2 old rest⟩⟩⟩
    · intro _ _ _; exact ⟨0, [], fun _ _ => ⟨rfl, fun _ => rfl⟩⟩
    · intro n fs ts _ ih h1 h2 h3
      obtain ⟨K2, t2, k2⟩ := ih (fun b hb => h1 b (by simp [hb])) (fun ps b hb => h2 ps b (by simp [hb])) (fun ps hb => h3 ps (by simp [hb]))
      refine ⟨K2, n :: t2, fun fuel hf => ?_⟩
      obtain ⟨b1, b2⟩ := k2 fuel (by omega)
      exact ⟨by simp [packMem, b1], fun rest => by simp [unpackMem, Fld.kind, b2, Out.bind]⟩
    · intro p t fs ts _ _ ih1 ih2 h1 h2 h3
      obtain ⟨⟨K1, t1, k1⟩, -⟩ := ih1 (fun a ha => h1 a (by simp [ha]))
      obtain ⟨K2, t2, k2⟩ := ih2 (fun b hb => h1 b (by simp [hb])) (fun ps b hb => h2 ps b (by simp [hb])) (fun ps hb => h3 ps (by simp [hb]))
      refine ⟨max K1 K2, t1 ++ t2, fun fuel hf => ?_⟩
      obtain ⟨a1, a2⟩ := k1 fuel (by omega)
      obtain ⟨b1, b2⟩ := k2 fuel (by omega)
      exact ⟨by simp [packMem, a1, b1], fun rest => by
        simp [unpackMem, Fld.kind, List.append_assoc, a2 _ (t2 ++ rest) rfl, b2, Out.bind]⟩
    · intro ps l fs ts _ _ ih1 ih2 h1 h2 h3
      obtain ⟨K1, t1, k1⟩ := ih1 (fun b hb => h2 ps b (by simp) hb) (h3 ps (by simp))
      obtain ⟨K2, t2, k2⟩ := ih2 (fun b hb => h1 b (by simp [hb])) (fun ps b hb => h2 ps b (by simp [hb])) (fun ps hb => h3 ps (by simp [hb]))
      refine ⟨max K1 K2, ps.length :: (t1 ++ t2), fun fuel hf => ?_⟩
      obtain ⟨a1, a2⟩ := k1 fuel (by omega)
      obtain ⟨b1, b2⟩ := k2 fuel (by omega)
      exact ⟨by simp [packMem, a1, b1], fun rest => by
        simp [unpackMem, Fld.kind, List.append_assoc, a2 (t2 ++ rest), b2, Out.bind]⟩
    · intro _ _; exact ⟨0, [], fun _ _ => ⟨rfl, fun _ => rfl⟩⟩
    · intro p t ps ts _ _ ih1 ih2 h1 h2
      simp only [List.mem_cons, not_or] at h2
      obtain ⟨K1, t1, k1⟩ := (ih1 (fun a ha => h1 a (by simp [ha]))).2 (fun e => h2.1 e.symm)
      obtain ⟨K2, t2, k2⟩ := ih2 (fun b hb => h1 b (by simp [hb])) h2.2
      refine ⟨max K1 K2, t1 ++ t2, fun fuel hf => ?_⟩
      obtain ⟨a1, a2⟩ := k1 fuel (by omega)
      obtain ⟨b1, b2⟩ := k2 fuel (by omega)
      exact ⟨by simp [packAll, a1, b1], fun rest => by
        simp [unpackAll, List.append_assoc, a2 _ (t2 ++ rest) trivial, b2, Out.bind]⟩
  exact (main rp t hd (fun a ha => .root ha)).1

/-- Two levels with a vector: 0 → {1, [1, 1]}, 1 → {null, []}; 1 is shared, so it is copied three times. -/
def exG (a : Nat) : List Fld := if a = 0 then [.data 5, .ptr (some 1), .vec [some 1, some 1]] else [.data 6, .ptr none, .vec []]

def exLeaf : T := .node [.data 6, .nil, .vec []]
theorem exDen : Den exG (some 0) (.node [.data 5, exLeaf, .vec [exLeaf, exLeaf]]) := by
  have h1 : Den exG (some 1) exLeaf := .node (.data (.ptr .nil (.vec .nil .nil)))
  exact .node (.data (.ptr h1 (.vec (.cons h1 (.cons h1 .nil)) .nil)))

example : ∃ K toks, ∀ fuel, K ≤ fuel → packT exG fuel (some 0) = some toks ∧
    ∀ rest, unpackT [.data, .ptr, .vec] .nil fuel .nil (toks ++ rest) = .ok (.node [.data 5, exLeaf, .vec [exLeaf, exLeaf]], rest) :=
  C12_tree_roundtrip_partial exDen [.data, .ptr, .vec] (fun a _ => by unfold exG; split <;> rfl) (fun a _ ps h => by
    unfold exG at h; split at h <;> simp at h <;> simp [h])

/-- C12 fails for a destination that is not null: the null pointer is read as whatever was there. -/
theorem C12_stale_fails (G : Nat → List Fld) (sh : List Kind) (ctor old : T) (fuel : Nat) (rest : List Nat) :
    packT G (fuel + 1) none = some [0] ∧ unpackT sh ctor (fuel + 1) old ([0] ++ rest) = .ok (old, rest) :=
  ⟨rfl, by simp [unpackT]⟩

/-- C12 fails for a null pointer held in a container: the element read is an uninitialised pointer. -/
theorem C12_container_null_fails : ∃ (G : Nat → List Fld) (sh : List Kind) (toks : List Nat), Den G (some 0) (.node [.vec [.nil]]) ∧
    (∀ a, (G a).map Fld.kind = sh) ∧ packT G 3 (some 0) = some toks ∧
    unpackT sh .nil 3 .nil toks = .ok (.node [.vec [.wild]], []) :=
  ⟨fun _ => [.vec [none]], [.vec], [1, 1, 0], .node (.vec (.cons .nil .nil) .nil), fun _ => rfl, rfl, rfl⟩

/-- C12 fails for a node class whose constructor does not null its pointers: a null member is read as an uninitialised pointer. -/
theorem C12_constructor_fails : ∃ (G : Nat → List Fld) (sh : List Kind) (toks : List Nat), Den G (some 0) (.node [.nil]) ∧
    (∀ a, (G a).map Fld.kind = sh) ∧ packT G 3 (some 0) = some toks ∧
    unpackT sh .wild 3 .nil toks = .ok (.node [.wild], []) :=
  ⟨fun _ => [.ptr none], [.ptr], [1, 0], .node (.ptr .nil .nil), fun _ => rfl, rfl, rfl⟩

/-- The treenode protocol does not end on a cycle. -/
theorem C12_cycle_diverges (G : Nat → List Fld) (a : Nat) (fs : List Fld) (hG : G a = .ptr (some a) :: fs) :
    ∀ fuel, packT G fuel (some a) = none
  | 0 => rfl
  | fuel + 1 => by simp [packT, hG, packMem, C12_cycle_diverges G a fs hG fuel]

example : (fun _ => [Fld.ptr (some 0)] : Nat → List Fld) 0 = .ptr (some 0) :: [] := rfl

end Verif.Tree
