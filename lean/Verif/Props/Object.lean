import Verif.Object
/-
C72: type identifiers of the object hierarchy, and pointers into it.
-/
namespace Verif.Object

/-! ### Specification -/

/-- What a program does: ask an object of a class for its identifier, or register the class. -/
inductive Op
  | type (c : Cls)
  | register (c : Cls)

def Op.cls : Op → Cls
  | .type c => c
  | .register c => c

/-- Executing them. -/
def exec (st : St) : List Op → St
  | [] => st
  | .type c :: ops => exec (typeOf st c).2 ops
  | .register c :: ops => exec (register st c) ops

/-! ### Lemmas -/

private structure Inv (st : St) : Prop where
  ok : ∀ c t, st.ids c = some t → st.slots[t]? = some (some c)
  used : ∀ t, t < st.slots.length → ∃ c, st.ids c = some t

private theorem inv_start : Inv start := ⟨fun c t h => by simp [start] at h, fun t h => by simp [start] at h⟩

private theorem place_end (l : List (Option Cls)) (c : Cls) : place l l.length c = l ++ [some c] := by
  unfold place
  rw [show l.length + 1 - l.length = 1 by omega]
  simp

private theorem place_same {l : List (Option Cls)} {t : Nat} {c : Cls} (h : l[t]? = some (some c)) : place l t c = l := by
  have ht : t < l.length := by
    rcases Nat.lt_or_ge t l.length with h' | h'
    · exact h'
    · rw [List.getElem?_eq_none h'] at h; simp at h
  unfold place
  rw [show t + 1 - l.length = 0 by omega]
  simp only [List.replicate_zero, List.append_nil]
  apply List.ext_getElem?
  intro i
  rw [List.getElem?_set]
  by_cases e : t = i
  · subst e
    rw [if_pos rfl, if_pos ht, h]
  · simp [e]

private theorem inv_typeOf {st : St} (h : Inv st) (c : Cls) : Inv (typeOf st c).2 ∧
    (typeOf st c).2.ids c = some (typeOf st c).1 ∧
    (∀ x t, st.ids x = some t → (typeOf st c).2.ids x = some t) := by
  unfold typeOf
  cases hc : st.ids c with
  | some t => exact ⟨h, hc, fun x t' hx => hx⟩
  | none =>
    simp only
    refine ⟨⟨?_, ?_⟩, by simp, ?_⟩
    · intro x t hx
      simp only at hx ⊢
      rw [place_end]
      split at hx
      · rename_i e; subst e
        cases hx
        simp
      · have := h.ok x t hx
        have hlt : t < st.slots.length := by
          rcases Nat.lt_or_ge t st.slots.length with h' | h'
          · exact h'
          · rw [List.getElem?_eq_none h'] at this; simp at this
        rw [List.getElem?_append_left hlt, this]
    · intro t ht
      simp only [place_end, List.length_append, List.length_singleton] at ht
      by_cases e : t = st.slots.length
      · exact ⟨c, by simp [e]⟩
      · obtain ⟨x, hx⟩ := h.used t (by omega)
        refine ⟨x, ?_⟩
        have : x ≠ c := by intro e'; subst e'; rw [hc] at hx; simp at hx
        simp [this, hx]
    · intro x t hx
      have : x ≠ c := by intro e'; subst e'; rw [hc] at hx; simp at hx
      simp [this, hx]

private theorem register_eq {st : St} (h : Inv st) (c : Cls) : register st c = (typeOf st c).2 := by
  obtain ⟨h1, h2, _⟩ := inv_typeOf h c
  unfold register
  have := place_same (h1.ok c _ h2)
  simp only
  rw [this]

private theorem inv_exec : ∀ (ops : List Op) (st : St), Inv st → Inv (exec st ops) ∧
    ∀ x t, st.ids x = some t → (exec st ops).ids x = some t
  | [], st, h => ⟨h, fun _ _ hx => hx⟩
  | .type c :: ops, st, h => by
    obtain ⟨h1, _, h3⟩ := inv_typeOf h c
    obtain ⟨h4, h5⟩ := inv_exec ops _ h1
    exact ⟨h4, fun x t hx => h5 x t (h3 x t hx)⟩
  | .register c :: ops, st, h => by
    obtain ⟨h1, _, h3⟩ := inv_typeOf h c
    rw [show exec st (.register c :: ops) = exec (register st c) ops from rfl, register_eq h c]
    obtain ⟨h4, h5⟩ := inv_exec ops _ h1
    exact ⟨h4, fun x t hx => h5 x t (h3 x t hx)⟩

private theorem create_typeOf {st : St} (h : Inv st) (c : Cls) : create (typeOf st c).2 (typeOf st c).1 = .ok c := by
  obtain ⟨h1, h2, _⟩ := inv_typeOf h c
  unfold create
  rw [if_neg (by omega)]
  simp only [Int.toNat_natCast]
  rw [h1.ok c _ h2]

/-! ### Theorems -/

/-- Whatever has been done before, an object created for the identifier of a class is of that class; and the identifier
of the class remains the same whatever is done later. -/
theorem C72_create (ops ops' : List Op) (c : Cls) :
    create (typeOf (exec start ops) c).2 (typeOf (exec start ops) c).1 = .ok c ∧
    (typeOf (exec (typeOf (exec start ops) c).2 ops') c).1 = (typeOf (exec start ops) c).1 := by
  have h := (inv_exec ops start inv_start).1
  refine ⟨create_typeOf h c, ?_⟩
  obtain ⟨h1, h2, _⟩ := inv_typeOf h c
  have := (inv_exec ops' _ h1).2 c _ h2
  rw [typeOf.eq_def (exec (typeOf (exec start ops) c).2 ops') c, this]

/-- Different classes have different identifiers. -/
theorem C72_distinct (ops ops' : List Op) (c c' : Cls) (hc : c ≠ c') :
    (typeOf (exec start ops) c).1 ≠ (typeOf (exec (typeOf (exec start ops) c).2 ops') c').1 := by
  have h := (inv_exec ops start inv_start).1
  obtain ⟨h1, h2, _⟩ := inv_typeOf h c
  obtain ⟨h4, h5⟩ := inv_exec ops' _ h1
  obtain ⟨h6, h7, h8⟩ := inv_typeOf h4 c'
  have a := h6.ok c _ (h8 c _ (h5 c _ h2))
  have b := h6.ok c' _ h7
  intro e
  rw [e, b] at a
  simp at a
  exact hc a.symm

/-- A pointer packed in a program is restored in the same program, whatever else has been done in between, with the
class and the contents of its object, provided the object's class is one the pointer can point to and the contents
themselves can be read back. -/
theorem C72_roundtrip_partial {V : Type} (b : Body V) (isa : Cls → Bool) (ops ops' : List Op) (c : Cls) (v : V)
    (a : Ptr V) (hi : isa c = true) (hb : b.dec c (b.enc c v) = some (v, [])) :
    unpack b isa (exec (pack b (exec start ops) (some (c, v))).2 ops') (pack b (exec start ops) (some (c, v))).1 a =
      .ok (some (c, v)) := by
  have h := (inv_exec ops start inv_start).1
  obtain ⟨h1, h2, _⟩ := inv_typeOf h c
  obtain ⟨h4, h5⟩ := inv_exec ops' _ h1
  have h6 := h4.ok c _ (h5 c _ h2)
  unfold pack unpack
  simp only
  rw [if_neg (by omega)]
  have hcr : create (exec (typeOf (exec start ops) c).2 ops') ((typeOf (exec start ops) c).1 + 1 - 1 : Int) = .ok c := by
    unfold create
    rw [if_neg (by omega), show ((typeOf (exec start ops) c).1 + 1 - 1 : Int).toNat = (typeOf (exec start ops) c).1 by omega,
      h6]
  rw [hcr]
  simp only [hi, if_true, hb]

/-- An object whose contents cannot be read, because the stream ends, is reported by an exception. -/
theorem C72_contents {V : Type} (b : Body V) (isa : Cls → Bool) (ops : List Op) (c : Cls) (bs : List UInt8)
    (a : Ptr V) (hi : isa c = true) (hb : b.dec c bs = none) :
    unpack b isa (typeOf (exec start ops) c).2 ⟨(typeOf (exec start ops) c).1 + 1, bs⟩ a = .throw := by
  have h := (inv_exec ops start inv_start).1
  have hcr := create_typeOf h c
  unfold unpack
  simp only
  rw [if_neg (by omega), show ((typeOf (exec start ops) c).1 + 1 - 1 : Int) = (typeOf (exec start ops) c).1 by omega, hcr]
  simp only [hi, if_true, hb]

/-- A null pointer is restored as null only into a pointer that is null: any other keeps its object. -/
theorem C72_null_fails {V : Type} (b : Body V) (isa : Cls → Bool) (st : St) (a : Ptr V) :
    unpack b isa (pack b st none).2 (pack b st (none : Ptr V)).1 a = .ok a := by
  simp [pack, unpack]

/-- In two runs of a program that use two classes in different order each has the identifier of the other: a pointer
packed in the one comes out in the other as an object of the wrong class. -/
theorem C72_order_fails (c c' : Cls) (hc : c ≠ c') {V : Type} (b : Body V) (v v' : V) (isa : Cls → Bool)
    (hi : isa c' = true) (hd : b.dec c' (b.enc c v) = some (v', [])) :
    unpack b isa (exec start [.register c', .register c]) (pack b (exec start [.register c, .register c']) (some (c, v))).1
      none = .ok (some (c', v')) := by
  have hc' : c' ≠ c := fun e => hc e.symm
  have e1 : exec start [.register c, .register c'] =
      ⟨fun x => if x = c' then some 1 else if x = c then some 0 else none, [some c, some c']⟩ := by
    simp [exec, register, typeOf, start, place, hc']
  have e2 : exec start [.register c', .register c] =
      ⟨fun x => if x = c then some 1 else if x = c' then some 0 else none, [some c', some c]⟩ := by
    simp [exec, register, typeOf, start, place, hc]
  rw [e1, e2]
  simp [pack, typeOf, hc, unpack, create, hi, hd]

/-- A class with an identifier of its own choice takes over the slot of the class that was given it. -/
theorem C72_fixed_fails (c d : Cls) :
    (typeOf (registerFixed (exec start [.register c]) d 0) c).1 = 0 ∧
    create (registerFixed (exec start [.register c]) d 0) 0 = .ok d := by
  have e1 : exec start [.register c] = ⟨fun x => if x = c then some 0 else none, [some c]⟩ := by
    simp [exec, register, typeOf, start, place]
  rw [e1]
  simp [registerFixed, typeOf, create, place]

/-- An identifier read from a stream that no class has, or that of a class the pointer cannot point to, is not
reported. -/
theorem C72_hostile_fails {V : Type} (b : Body V) (isa : Cls → Bool) (st : St) (p : Packed) (a : Ptr V) (hp : p.id ≠ 0)
    (h : p.id < 0 ∨ (st.slots.length : Int) < p.id ∨ ∃ c, create st (p.id - 1) = .ok c ∧ isa c = false) :
    unpack b isa st p a = .ub := by
  unfold unpack
  rw [if_neg hp]
  rcases h with h | h | ⟨c, h1, h2⟩
  · have : create st (p.id - 1) = .ub := by unfold create; rw [if_pos (by omega)]
    rw [this]
  · have : create st (p.id - 1) = .ub := by
      unfold create
      rw [if_neg (by omega), List.getElem?_eq_none (by omega)]
    rw [this]
  · rw [h1]; simp [h2]

/-- Two classes, one used before it is registered, and contents of one byte. -/
example : (typeOf (exec start [.type 7, .register 3, .register 7]) 3).1 = 1 ∧
    create (exec start [.type 7, .register 3, .register 7]) 1 = .ok 3 := by decide
example : (⟨fun _ v => [v], fun _ l => l.head?.map fun v => (v, l.tail)⟩ : Body UInt8).dec 3
    ((⟨fun _ v => [v], fun _ l => l.head?.map fun v => (v, l.tail)⟩ : Body UInt8).enc 3 9) = some (9, []) := rfl
example : unpack (⟨fun _ v => [v], fun _ l => l.head?.map fun v => (v, l.tail)⟩ : Body UInt8) (fun _ => true)
    (typeOf (exec start [.register 7]) 3).2 ⟨2, []⟩ none = .throw :=
  C72_contents _ (fun _ => true) [.register 7] 3 [] none rfl rfl

end Verif.Object
