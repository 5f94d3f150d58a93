import Verif.PolyRef
/-
C133: variables of type polyref.
-/
namespace Verif.PolyRef
open Verif.PolyVal (Obj upd)

namespace C133

/-- What a program is to mean: variables are null or name something that may have an object; nothing is ever deleted. -/
structure Abs (V : Type) where
  vars : List (Option (Option Nat))
  obj : Nat → Option (Obj V)
  next : Nat

/-- The object of a variable. -/
def Abs.shown {V : Type} (a : Abs V) (x : Nat) : Option (Obj V) := (get a.vars x).bind fun p => p.bind a.obj

/-- One statement; `true`: an exception.  Constructors do not throw. -/
def Abs.step {V : Type} (isa : Nat → Nat → Bool) (a : Abs V) : Op V → Option (Bool × Abs V)
  | .new => some (false, { a with vars := a.vars ++ [some none] })
  | .copy y => (get a.vars y).map fun q => (false, { a with vars := a.vars ++ [some q] })
  | .assign x y => (get a.vars x).bind fun _ => (get a.vars y).map fun q => (false, { a with vars := a.vars.set x (some q) })
  | .nullify x => (get a.vars x).map fun _ => (false, { a with vars := a.vars.set x (some none) })
  | .swap x y => (get a.vars x).bind fun p => (get a.vars y).map fun q =>
      (false, { a with vars := (a.vars.set x (some q)).set y (some p) })
  | .add x o true =>
    match get a.vars x with
    | none => none
    | some none => some (false, ⟨a.vars.set x (some (some a.next)), upd a.obj a.next (some o), a.next + 1⟩)
    | some (some g) => some (false, { a with obj := upd a.obj g (some o) })
  | .add _ _ false => none
  | .write x f =>
    match get a.vars x with
    | some (some g) => (a.obj g).map fun o => (false, { a with obj := upd a.obj g (some { o with val := f o.val }) })
    | _ => none
  | .cast x c => (a.shown x).map fun o => (!isa o.cls c, a)
  | .drop x => (get a.vars x).map fun _ => (false, { a with vars := a.vars.set x none })

def Abs.run {V : Type} (isa : Nat → Nat → Bool) : Abs V → List (Op V) → Option (List Bool × Abs V)
  | a, [] => some ([], a)
  | a, o :: os => (a.step isa o).bind fun r => (Abs.run isa r.2 os).map fun q => (r.1 :: q.1, q.2)

def Abs.start (V : Type) : Abs V := ⟨[], fun _ => none, 0⟩

end C133
open C133

/-- `n c` references to the payload c, which is to have the object `obj c`. -/
private structure Core {V : Type} (s : St V) (obj : Nat → Option (Obj V)) (n : Nat → Nat) : Prop where
  fresh : ∀ c, s.nextP ≤ c → s.pay c = none ∧ obj c = none
  freshM : ∀ i, s.nextM ≤ i → s.mem i = none
  pay : ∀ c k, s.pay c = some k → k.count = (n c : Int) ∧ 0 < n c
  item : ∀ c k, s.pay c = some k → k.item.bind s.mem = obj c ∧ (k.item = none ↔ obj c = none)
  gone : ∀ c, s.pay c = none → n c = 0
  inj : ∀ c d k l i, s.pay c = some k → s.pay d = some l → k.item = some i → l.item = some i → c = d
  own : ∀ i o, s.mem i = some o → ∃ c k, s.pay c = some k ∧ k.item = some i

private structure Inv {V : Type} (s : St V) (a : Abs V) : Prop where
  vars : s.vars = a.vars
  next : s.nextP = a.next
  core : Core s a.obj fun c => a.vars.count (some (some c))

private theorem upd_same {A : Type} (f : Nat → A) (i : Nat) (a : A) : upd f i a i = a := by simp [upd]
private theorem upd_ne {A : Type} (f : Nat → A) {i j : Nat} (a : A) (h : j ≠ i) : upd f i a j = f j := by simp [upd, h]

private theorem get_lt {l : List (Option (Option Nat))} {x : Nat} {p : Option Nat} (h : get l x = some p) :
    ∃ hx : x < l.length, l[x] = some p := by
  rw [get] at h
  cases e : l[x]? with
  | none => rw [e] at h; simp at h
  | some q =>
    rw [e] at h
    obtain ⟨hx, e⟩ := List.getElem?_eq_some_iff.1 e
    exact ⟨hx, by rw [e]; simpa using h⟩

private theorem get_count {l : List (Option (Option Nat))} {x : Nat} {p : Option Nat} (h : get l x = some p) : 0 < l.count (some p) := by
  obtain ⟨hx, e⟩ := get_lt h
  exact List.count_pos_iff.2 (e ▸ List.getElem_mem hx)

private theorem count_set {l : List (Option (Option Nat))} {x : Nat} {p : Option Nat} (h : get l x = some p)
    (q : Option (Option Nat)) (c : Option (Option Nat)) :
    (l.set x q).count c = l.count c - (if some p = c then 1 else 0) + (if q = c then 1 else 0) := by
  obtain ⟨hx, e⟩ := get_lt h
  rw [List.count_set hx, e]
  simp

private theorem Core.congr {V : Type} {s : St V} {obj : Nat → Option (Obj V)} {n m : Nat → Nat} (h : Core s obj n) (e : ∀ c, n c = m c) :
    Core s obj m := by
  have : n = m := funext e
  exact this ▸ h

private theorem Core.vars {V : Type} {s : St V} {obj : Nat → Option (Obj V)} {n : Nat → Nat} (h : Core s obj n) (v : List (Option (Option Nat))) :
    Core { s with vars := v } obj n := ⟨h.fresh, h.freshM, h.pay, h.item, h.gone, h.inj, h.own⟩

private theorem Core.has {V : Type} {s : St V} {obj : Nat → Option (Obj V)} {n : Nat → Nat} (h : Core s obj n) {c : Nat} (hc : 0 < n c) :
    ∃ k, s.pay c = some k := by
  cases e : s.pay c with
  | none => have := h.gone c e; omega
  | some k => exact ⟨k, rfl⟩

private theorem Core.inc {V : Type} {s : St V} {obj : Nat → Option (Obj V)} {n : Nat → Nat} (h : Core s obj n) (p : Option Nat)
    (hp : ∀ c, p = some c → 0 < n c) :
    ∃ s', PolyRef.inc s p = some s' ∧ s'.vars = s.vars ∧ s'.nextP = s.nextP ∧ Core s' obj fun c => n c + if p = some c then 1 else 0 := by
  cases p with
  | none => exact ⟨s, rfl, rfl, rfl, h.congr (by simp)⟩
  | some c =>
    obtain ⟨k, hk⟩ := h.has (hp c rfl)
    obtain ⟨k1, k2⟩ := h.pay c k hk
    refine ⟨{ s with pay := upd s.pay c (some { k with count := k.count + 1 }) }, by simp only [PolyRef.inc, hk], rfl, rfl, ?_, h.freshM, ?_, ?_, ?_, ?_, ?_⟩
    · intro d hd
      have hne : d ≠ c := by rintro rfl; rw [(h.fresh d hd).1] at hk; cases hk
      exact ⟨by dsimp only; rw [upd_ne _ _ hne]; exact (h.fresh d hd).1, (h.fresh d hd).2⟩
    · intro d l hl
      by_cases e : d = c
      · subst e
        dsimp only at hl; rw [upd_same] at hl
        cases hl
        simp [k1]
      · dsimp only at hl; rw [upd_ne _ _ e] at hl
        simpa [Ne.symm e] using h.pay d l hl
    · intro d l hl
      by_cases e : d = c
      · subst e
        dsimp only at hl; rw [upd_same] at hl
        cases hl
        exact h.item d k hk
      · dsimp only at hl; rw [upd_ne _ _ e] at hl
        exact h.item d l hl
    · intro d hd
      by_cases e : d = c
      · subst e; dsimp only at hd; rw [upd_same] at hd; cases hd
      · dsimp only at hd; rw [upd_ne _ _ e] at hd
        simpa [Ne.symm e] using h.gone d hd
    · have key : ∀ d l, upd s.pay c (some { k with count := k.count + 1 }) d = some l → ∃ l', s.pay d = some l' ∧ l'.item = l.item := by
        intro d l hl
        by_cases e : d = c
        · subst e; rw [upd_same] at hl; cases hl; exact ⟨k, hk, rfl⟩
        · rw [upd_ne _ _ e] at hl; exact ⟨l, hl, rfl⟩
      intro d e l m i h1 h2 h3 h4
      obtain ⟨l', a1, a2⟩ := key d l h1
      obtain ⟨m', b1, b2⟩ := key e m h2
      exact h.inj d e l' m' i a1 b1 (a2.trans h3) (b2.trans h4)
    · intro i o ho
      obtain ⟨d, l, h1, h2⟩ := h.own i o ho
      by_cases e : d = c
      · subst e
        rw [hk] at h1; cases h1
        exact ⟨d, _, upd_same _ _ _, h2⟩
      · exact ⟨d, l, by dsimp only; rw [upd_ne _ _ e]; exact h1, h2⟩

private theorem del_ok {V : Type} {s : St V} {obj : Nat → Option (Obj V)} {n : Nat → Nat} (h : Core s obj n) {c : Nat} {k : Pay}
    (hk : s.pay c = some k) : ∃ s', del s k.item = some s' ∧ s'.vars = s.vars ∧ s'.nextP = s.nextP ∧ s'.nextM = s.nextM ∧ s'.pay = s.pay ∧
      (∀ i, s'.mem i = if k.item = some i then none else s.mem i) := by
  cases e : k.item with
  | none => exact ⟨s, rfl, rfl, rfl, rfl, rfl, fun i => by simp⟩
  | some i =>
    obtain ⟨h1, h2⟩ := h.item c k hk
    rw [e] at h1 h2
    cases e2 : s.mem i with
    | none =>
      rw [Option.bind_some, e2] at h1
      exact absurd (h2.2 h1.symm) (by simp)
    | some o =>
      refine ⟨{ s with mem := upd s.mem i none }, by simp only [del, e2], rfl, rfl, rfl, rfl, fun j => ?_⟩
      simp only [upd, Option.some.injEq]
      by_cases e3 : j = i
      · subst e3; simp
      · simp [e3, Ne.symm e3]

private theorem Core.dec {V : Type} {s : St V} {obj : Nat → Option (Obj V)} {n : Nat → Nat} (h : Core s obj n) (p : Option Nat)
    (hp : ∀ c, p = some c → 0 < n c) :
    ∃ s', refdec s p = some s' ∧ s'.vars = s.vars ∧ s'.nextP = s.nextP ∧ Core s' obj fun c => n c - if p = some c then 1 else 0 := by
  cases p with
  | none => exact ⟨s, rfl, rfl, rfl, h.congr (by simp)⟩
  | some c =>
    obtain ⟨k, hk⟩ := h.has (hp c rfl)
    obtain ⟨k1, k2⟩ := h.pay c k hk
    by_cases h1 : k.count - 1 = 0
    · obtain ⟨s', e1, e2, e3, e4, e5, e6⟩ := del_ok h hk
      have hn : n c = 1 := by omega
      refine ⟨{ s' with pay := upd s'.pay c none }, by simp only [refdec, hk, if_pos h1, e1, Option.map_some], e2, e3, ?_, ?_, ?_, ?_, ?_, ?_, ?_⟩
      · intro d hd
        obtain ⟨f1, f2⟩ := h.fresh d (by rw [← e3]; exact hd)
        refine ⟨?_, f2⟩
        by_cases e : d = c
        · subst e; exact upd_same _ _ _
        · show upd s'.pay c none d = none
          rw [upd_ne _ _ e, e5]; exact f1
      · intro i hi
        show s'.mem i = none
        rw [e6]; split
        · rfl
        · exact h.freshM i (by rw [← e4]; exact hi)
      · intro d l hl
        by_cases e : d = c
        · subst e; exact absurd hl (by show upd s'.pay d none d ≠ _; rw [upd_same]; simp)
        · have hl : upd s'.pay c none d = some l := hl
          rw [upd_ne _ _ e, e5] at hl
          simpa [Ne.symm e] using h.pay d l hl
      · intro d l hl
        by_cases e : d = c
        · subst e; exact absurd hl (by show upd s'.pay d none d ≠ _; rw [upd_same]; simp)
        · have hl : upd s'.pay c none d = some l := hl
          rw [upd_ne _ _ e, e5] at hl
          obtain ⟨g1, g2⟩ := h.item d l hl
          refine ⟨?_, g2⟩
          rw [← g1]
          cases e7 : l.item with
          | none => rfl
          | some i =>
            show s'.mem i = s.mem i
            rw [e6, if_neg]
            intro e8
            exact e (h.inj d c l k i hl hk e7 e8)
      · intro d hd
        by_cases e : d = c
        · subst e; simp [hn]
        · have hd : upd s'.pay c none d = none := hd
          rw [upd_ne _ _ e, e5] at hd
          simpa [Ne.symm e] using h.gone d hd
      · intro d e l m i a1 a2 a3 a4
        have a1 : upd s'.pay c none d = some l := a1
        have a2 : upd s'.pay c none e = some m := a2
        have b1 : d ≠ c := by rintro rfl; rw [upd_same] at a1; cases a1
        have b2 : e ≠ c := by rintro rfl; rw [upd_same] at a2; cases a2
        rw [upd_ne _ _ b1, e5] at a1
        rw [upd_ne _ _ b2, e5] at a2
        exact h.inj d e l m i a1 a2 a3 a4
      · intro i o ho
        have ho : s'.mem i = some o := ho
        rw [e6] at ho
        split at ho
        · cases ho
        · rename_i hne
          obtain ⟨d, l, g1, g2⟩ := h.own i o ho
          have b1 : d ≠ c := by rintro rfl; rw [hk] at g1; cases g1; exact hne g2
          exact ⟨d, l, by show upd s'.pay c none d = _; rw [upd_ne _ _ b1, e5]; exact g1, g2⟩
    · have hn : 1 < n c := by omega
      refine ⟨{ s with pay := upd s.pay c (some { k with count := k.count - 1 }) }, by simp only [refdec, hk, if_neg h1], rfl, rfl, ?_, h.freshM, ?_, ?_, ?_, ?_, ?_⟩
      · intro d hd
        have hne : d ≠ c := by rintro rfl; rw [(h.fresh d hd).1] at hk; cases hk
        exact ⟨by dsimp only; rw [upd_ne _ _ hne]; exact (h.fresh d hd).1, (h.fresh d hd).2⟩
      · intro d l hl
        by_cases e : d = c
        · subst e
          dsimp only at hl; rw [upd_same] at hl
          cases hl
          simp only [if_true, k1]
          exact ⟨by omega, by omega⟩
        · dsimp only at hl; rw [upd_ne _ _ e] at hl
          simpa [Ne.symm e] using h.pay d l hl
      · intro d l hl
        by_cases e : d = c
        · subst e
          dsimp only at hl; rw [upd_same] at hl
          cases hl
          exact h.item d k hk
        · dsimp only at hl; rw [upd_ne _ _ e] at hl
          exact h.item d l hl
      · intro d hd
        by_cases e : d = c
        · subst e; dsimp only at hd; rw [upd_same] at hd; cases hd
        · dsimp only at hd; rw [upd_ne _ _ e] at hd
          simpa [Ne.symm e] using h.gone d hd
      · have key : ∀ d l, upd s.pay c (some { k with count := k.count - 1 }) d = some l → ∃ l', s.pay d = some l' ∧ l'.item = l.item := by
          intro d l hl
          by_cases e : d = c
          · subst e; rw [upd_same] at hl; cases hl; exact ⟨k, hk, rfl⟩
          · rw [upd_ne _ _ e] at hl; exact ⟨l, hl, rfl⟩
        intro d e l m i h1 h2 h3 h4
        obtain ⟨l', a1, a2⟩ := key d l h1
        obtain ⟨m', b1, b2⟩ := key e m h2
        exact h.inj d e l' m' i a1 b1 (a2.trans h3) (b2.trans h4)
      · intro i o ho
        obtain ⟨d, l, h1, h2⟩ := h.own i o ho
        by_cases e : d = c
        · subst e
          rw [hk] at h1; cases h1
          exact ⟨d, _, upd_same _ _ _, h2⟩
        · exact ⟨d, l, by dsimp only; rw [upd_ne _ _ e]; exact h1, h2⟩

/-- The payload of a variable gets a new object. -/
private theorem Core.put {V : Type} {s : St V} {obj : Nat → Option (Obj V)} {n : Nat → Nat} (h : Core s obj n) {c : Nat} {k : Pay}
    (hk : s.pay c = some k) (o : Obj V) :
    ∃ s', del s k.item = some s' ∧ s'.vars = s.vars ∧ s'.nextP = s.nextP ∧
      Core { s' with mem := upd s'.mem s'.nextM (some o), nextM := s'.nextM + 1, pay := upd s'.pay c (some { k with item := some s'.nextM }) }
        (upd obj c (some o)) n := by
  obtain ⟨s', e1, e2, e3, e4, e5, e6⟩ := del_ok h hk
  have hm : s'.mem s'.nextM = none := by
    rw [e6]; split
    · rfl
    · exact h.freshM _ (by rw [e4]; exact Nat.le_refl _)
  have lt : ∀ d l i, s.pay d = some l → l.item = some i → i < s.nextM := by
    intro d l i hl hi
    obtain ⟨g1, g2⟩ := h.item d l hl
    rcases Nat.lt_or_ge i s.nextM with g | g
    · exact g
    · rw [hi, Option.bind_some, h.freshM i g] at g1
      rw [g2.2 g1.symm] at hi; cases hi
  have key : ∀ d l, upd s'.pay c (some { k with item := some s'.nextM }) d = some l →
      (d = c ∧ l = { k with item := some s'.nextM }) ∨ (d ≠ c ∧ s.pay d = some l) := by
    intro d l hl
    by_cases e : d = c
    · subst e; rw [upd_same] at hl; cases hl; exact .inl ⟨rfl, rfl⟩
    · rw [upd_ne _ _ e, e5] at hl; exact .inr ⟨e, hl⟩
  refine ⟨s', e1, e2, e3, ?_, ?_, ?_, ?_, ?_, ?_, ?_⟩
  · intro d hd
    dsimp only at hd
    rw [e3] at hd
    have hne : d ≠ c := by rintro rfl; rw [(h.fresh d hd).1] at hk; cases hk
    dsimp only
    rw [upd_ne _ _ hne, upd_ne _ _ hne, e5]
    exact h.fresh d hd
  · intro i hi
    dsimp only at hi ⊢
    rw [upd_ne _ _ (by omega), e6]
    split
    · rfl
    · exact h.freshM i (by omega)
  · intro d l hl
    rcases key d l hl with ⟨rfl, rfl⟩ | ⟨_, hl⟩
    · exact h.pay d k hk
    · exact h.pay d l hl
  · intro d l hl
    rcases key d l hl with ⟨rfl, rfl⟩ | ⟨hne, hl⟩
    · dsimp only
      rw [Option.bind_some, upd_same, upd_same]; simp
    · dsimp only
      rw [upd_ne _ _ hne]
      obtain ⟨g1, g2⟩ := h.item d l hl
      refine ⟨?_, g2⟩
      rw [← g1]
      cases e : l.item with
      | none => rfl
      | some i =>
        have := lt d l i hl e
        rw [Option.bind_some, Option.bind_some, upd_ne _ _ (by omega), e6, if_neg]
        intro e8
        exact hne (h.inj d c l k i hl hk e e8)
  · intro d hd
    dsimp only at hd
    by_cases e : d = c
    · subst e; rw [upd_same] at hd; cases hd
    · rw [upd_ne _ _ e, e5] at hd; exact h.gone d hd
  · intro d e l m i a1 a2 a3 a4
    rcases key d l a1 with ⟨rfl, rfl⟩ | ⟨n1, b1⟩ <;> rcases key e m a2 with ⟨rfl, rfl⟩ | ⟨n2, b2⟩
    · rfl
    · have := lt e m i b2 a4
      dsimp only at a3
      cases a3; omega
    · have := lt d l i b1 a3
      dsimp only at a4
      cases a4; omega
    · exact h.inj d e l m i b1 b2 a3 a4
  · intro i p hp
    dsimp only at hp
    by_cases e : i = s'.nextM
    · subst e
      exact ⟨c, _, upd_same _ _ _, rfl⟩
    · rw [upd_ne _ _ e, e6] at hp
      split at hp
      · cases hp
      · rename_i hne
        obtain ⟨d, l, g1, g2⟩ := h.own i p hp
        have b1 : d ≠ c := by rintro rfl; rw [hk] at g1; cases g1; exact hne g2
        exact ⟨d, l, by dsimp only; rw [upd_ne _ _ b1, e5]; exact g1, g2⟩

/-- An object is changed. -/
private theorem Core.write {V : Type} {s : St V} {obj : Nat → Option (Obj V)} {n : Nat → Nat} (h : Core s obj n) {c i : Nat} {k : Pay}
    (hk : s.pay c = some k) (hi : k.item = some i) (hm : (s.mem i).isSome) (o : Obj V) :
    Core { s with mem := upd s.mem i (some o) } (upd obj c (some o)) n := by
  refine ⟨?_, ?_, h.pay, ?_, h.gone, h.inj, ?_⟩
  · intro d hd
    have hne : d ≠ c := by rintro rfl; rw [(h.fresh d hd).1] at hk; cases hk
    exact ⟨(h.fresh d hd).1, by rw [upd_ne _ _ hne]; exact (h.fresh d hd).2⟩
  · intro j hj
    have hne : j ≠ i := by rintro rfl; rw [h.freshM j hj] at hm; cases hm
    dsimp only
    rw [upd_ne _ _ hne]; exact h.freshM j hj
  · intro d l hl
    dsimp only at hl ⊢
    by_cases e : d = c
    · subst e
      rw [hk] at hl; cases hl
      rw [hi, Option.bind_some, upd_same, upd_same]; simp
    · rw [upd_ne _ _ e]
      obtain ⟨g1, g2⟩ := h.item d l hl
      refine ⟨?_, g2⟩
      rw [← g1]
      cases e1 : l.item with
      | none => rfl
      | some j =>
        rw [Option.bind_some, Option.bind_some, upd_ne]
        rintro rfl
        exact e (h.inj d c l k j hl hk e1 hi)
  · intro j p hp
    dsimp only at hp
    by_cases e : j = i
    · subst e; exact ⟨c, k, hk, hi⟩
    · rw [upd_ne _ _ e] at hp; exact h.own j p hp

private theorem count_pos {l : List (Option (Option Nat))} {x : Nat} {p : Option Nat} (h : get l x = some p) :
    ∀ c, p = some c → 0 < l.count (some (some c)) := by
  rintro c rfl; exact get_count h

private theorem Inv.deref {V : Type} {s : St V} {a : Abs V} (h : Inv s a) (x : Nat) :
    (deref s x).map (·.2) = a.shown x ∧ ∀ i o, deref s x = some (i, o) → ∃ c k, get a.vars x = some (some c) ∧ s.pay c = some k ∧
      k.item = some i ∧ s.mem i = some o ∧ a.obj c = some o := by
  rw [PolyRef.deref, Abs.shown, h.vars]
  cases e : get a.vars x with
  | none => simp
  | some p =>
    cases p with
    | none => simp
    | some c =>
      obtain ⟨k, hk⟩ := h.core.has (get_count e)
      obtain ⟨g1, g2⟩ := h.core.item c k hk
      dsimp only
      rw [hk, Option.bind_some, Option.bind_some, Option.bind_some, ← g1]
      cases e1 : k.item with
      | none => simp
      | some i =>
        cases e2 : s.mem i with
        | none => simp [e2]
        | some o =>
          refine ⟨by simp [e2], ?_⟩
          intro j p hp
          simp only [Option.bind_some, e2, Option.map_some, Option.some.injEq, Prod.mk.injEq] at hp
          obtain ⟨rfl, rfl⟩ := hp
          exact ⟨c, k, rfl, hk, e1, e2, by rw [← g1, e1]; exact e2⟩

private theorem step_inv {V : Type} (isa : Nat → Nat → Bool) {s : St V} {a : Abs V} (h : Inv s a) (op : Op V) {t : Bool} {a' : Abs V}
    (ha : a.step isa op = some (t, a')) :
    ∃ s', step isa s op = (if t = true then R.throw s' else R.ok s') ∧ Inv s' a' := by
  cases op with
  | new =>
    cases ha
    refine ⟨_, rfl, by simp [h.vars], h.next, ?_⟩
    exact (h.core.vars _).congr (by simp)
  | copy y =>
    obtain ⟨q, hq, e⟩ := Option.map_eq_some_iff.1 ha
    cases e
    obtain ⟨s', e1, e2, e3, hc⟩ := h.core.inc q (count_pos hq)
    refine ⟨{ s' with vars := s'.vars ++ [some q] }, ?_, by simp [e2, h.vars], by simp [e3, h.next], ?_⟩
    · simp only [step, h.vars, hq, e1, Option.map_some, R.of, Bool.false_eq_true, if_false]
    · refine (hc.vars _).congr fun c => ?_
      rw [List.count_append]
      simp [List.count_singleton]
  | assign x y =>
    obtain ⟨p, hp, ha⟩ := Option.bind_eq_some_iff.1 ha
    obtain ⟨q, hq, e⟩ := Option.map_eq_some_iff.1 ha
    cases e
    by_cases hqp : q = p
    · subst hqp
      have : a.vars.set x (some q) = a.vars := by
        obtain ⟨hx, e⟩ := get_lt hp
        rw [← e]; exact List.set_getElem_self hx
      refine ⟨s, by simp [step, h.vars, hp, hq], ?_⟩
      rw [this]; exact h
    · obtain ⟨s1, e1, e2, e3, hc⟩ := h.core.dec p (count_pos hp)
      have hq' : ∀ c, q = some c → 0 < a.vars.count (some (some c)) - if p = some c then 1 else 0 := by
        rintro c rfl
        rw [if_neg (fun e => hqp e.symm)]
        exact get_count hq
      obtain ⟨s2, f1, f2, f3, hc⟩ := hc.inc q hq'
      refine ⟨{ s2 with vars := s2.vars.set x (some q) }, ?_, by simp [f2, e2, h.vars], by simp [f3, e3, h.next], ?_⟩
      · simp only [step, h.vars, hp, hq, if_neg hqp, e1, Option.bind_some, f1, Option.map_some, R.of, Bool.false_eq_true, if_false]
      · refine (hc.vars _).congr fun c => ?_
        rw [count_set hp]
        simp
  | nullify x =>
    obtain ⟨p, hp, e⟩ := Option.map_eq_some_iff.1 ha
    cases e
    obtain ⟨s1, e1, e2, e3, hc⟩ := h.core.dec p (count_pos hp)
    refine ⟨{ s1 with vars := s1.vars.set x (some none) }, ?_, by simp [e2, h.vars], by simp [e3, h.next], ?_⟩
    · simp only [step, h.vars, hp, e1, Option.map_some, R.of, Bool.false_eq_true, if_false]
    · refine (hc.vars _).congr fun c => ?_
      rw [count_set hp]
      simp
  | swap x y =>
    obtain ⟨p, hp, ha⟩ := Option.bind_eq_some_iff.1 ha
    obtain ⟨q, hq, e⟩ := Option.map_eq_some_iff.1 ha
    cases e
    refine ⟨{ s with vars := (s.vars.set x (some q)).set y (some p) }, ?_, by simp [h.vars], h.next, ?_⟩
    · simp only [step, h.vars, hp, hq, Bool.false_eq_true, if_false]
    · refine (h.core.vars _).congr fun c => ?_
      by_cases e : y = x
      · subst e
        rw [hp] at hq; cases hq
        have h0 : get (a.vars.set y (some p)) y = some p := by
          obtain ⟨hx, _⟩ := get_lt hp
          simp [get, hx]
        rw [count_set h0, count_set hp]
        have := fun c' => count_pos hp c'
        by_cases e2 : p = some c
        · have := this c e2; simp [e2]; omega
        · simp [e2]
      · have h0 : get (a.vars.set x (some q)) y = some q := by
          rw [get, List.getElem?_set_ne (Ne.symm e)]; exact hq
        rw [count_set h0, count_set hp]
        have h1 := count_pos hp c
        have h2 := count_pos hq c
        by_cases e2 : p = some c <;> by_cases e3 : q = some c <;> simp [e2, e3]
        · have := h1 e2; omega
        · have := h1 e2; omega
  | add x o ok =>
    cases ok with
    | false => cases ha
    | true =>
      simp only [Abs.step] at ha
      cases hx : get a.vars x with
      | none => rw [hx] at ha; cases ha
      | some p =>
        rw [hx] at ha
        cases p with
        | none =>
          simp only [Option.some.injEq, Prod.mk.injEq] at ha
          obtain ⟨rfl, rfl⟩ := ha
          have hc : Core { s with pay := upd s.pay s.nextP (some ⟨1, none⟩), nextP := s.nextP + 1, vars := s.vars.set x (some (some s.nextP)) }
              a.obj fun c => (a.vars.set x (some (some s.nextP))).count (some (some c)) := by
            have hf := h.core.fresh s.nextP (Nat.le_refl _)
            have cnt : ∀ c, (a.vars.set x (some (some s.nextP))).count (some (some c)) =
                a.vars.count (some (some c)) + if c = s.nextP then 1 else 0 := by
              intro c
              rw [count_set hx]
              by_cases e : c = s.nextP
              · subst e; simp
              · simp [e, Ne.symm e]
            have key : ∀ d l, upd s.pay s.nextP (some ⟨1, none⟩) d = some l → (d = s.nextP ∧ l = ⟨1, none⟩) ∨ (d ≠ s.nextP ∧ s.pay d = some l) := by
              intro d l hl
              by_cases e : d = s.nextP
              · subst e; rw [upd_same] at hl; cases hl; exact .inl ⟨rfl, rfl⟩
              · rw [upd_ne _ _ e] at hl; exact .inr ⟨e, hl⟩
            refine ⟨?_, h.core.freshM, ?_, ?_, ?_, ?_, ?_⟩
            · intro d hd
              dsimp only at hd ⊢
              rw [upd_ne _ _ (by omega)]
              exact h.core.fresh d (by omega)
            · intro d l hl
              rw [cnt]
              rcases key d l hl with ⟨rfl, rfl⟩ | ⟨hne, hl⟩
              · have := h.core.gone _ hf.1
                simp only [if_true]
                omega
              · rw [if_neg hne]; exact h.core.pay d l hl
            · intro d l hl
              rcases key d l hl with ⟨rfl, rfl⟩ | ⟨hne, hl⟩
              · rw [hf.2]; simp
              · exact h.core.item d l hl
            · intro d hd
              dsimp only at hd ⊢
              by_cases e : d = s.nextP
              · subst e; rw [upd_same] at hd; cases hd
              · rw [upd_ne _ _ e] at hd
                rw [cnt, if_neg e]; exact h.core.gone d hd
            · intro d e l m i a1 a2 a3 a4
              rcases key d l a1 with ⟨rfl, rfl⟩ | ⟨n1, b1⟩
              · cases a3
              · rcases key e m a2 with ⟨rfl, rfl⟩ | ⟨n2, b2⟩
                · cases a4
                · exact h.core.inj d e l m i b1 b2 a3 a4
            · intro i p hp
              obtain ⟨d, l, g1, g2⟩ := h.core.own i p hp
              have b1 : d ≠ s.nextP := by rintro rfl; rw [hf.1] at g1; cases g1
              exact ⟨d, l, by dsimp only; rw [upd_ne _ _ b1]; exact g1, g2⟩
          obtain ⟨s', e1, e2, e3, hc'⟩ := hc.put (c := s.nextP) (k := ⟨1, none⟩) (upd_same _ _ _) o
          refine ⟨{ s' with mem := upd s'.mem s'.nextM (some o), nextM := s'.nextM + 1, pay := upd s'.pay s.nextP (some ⟨1, some s'.nextM⟩) },
            ?_, ?_, ?_, ?_⟩
          · have hx' : get s.vars x = some none := by rw [h.vars]; exact hx
            simp only [step, polyObj, hx', upd_same, e1, if_true, Bool.false_eq_true, if_false]
          · simp [e2, h.vars, h.next]
          · simp [e3, h.next]
          · rw [← h.next]; exact hc'
        | some c =>
          simp only [Option.some.injEq, Prod.mk.injEq] at ha
          obtain ⟨rfl, rfl⟩ := ha
          obtain ⟨k, hk⟩ := h.core.has (get_count hx)
          obtain ⟨s', e1, e2, e3, hc⟩ := h.core.put hk o
          refine ⟨_, ?_, ?_, ?_, hc⟩
          · simp only [step, polyObj, h.vars, hx, hk, e1, if_true, Bool.false_eq_true, if_false]
          · simp [e2, h.vars]
          · simp [e3, h.next]
  | write x f =>
    obtain ⟨d1, d2⟩ := h.deref x
    simp only [Abs.step] at ha
    cases hx : get a.vars x with
    | none => rw [hx] at ha; cases ha
    | some p =>
      rw [hx] at ha
      cases p with
      | none => cases ha
      | some c =>
        obtain ⟨o, ho, e⟩ := Option.map_eq_some_iff.1 ha
        cases e
        have hs : a.shown x = some o := by simp [Abs.shown, hx, ho]
        rw [hs] at d1
        obtain ⟨⟨i, o'⟩, g1, g2⟩ := Option.map_eq_some_iff.1 d1
        dsimp only at g2
        subst g2
        obtain ⟨c', k, h1, h2, h3, h4, h5⟩ := d2 _ _ g1
        rw [hx] at h1; cases h1
        refine ⟨{ s with mem := upd s.mem i (some { o' with val := f o'.val }) }, by simp [step, g1], h.vars, h.next, ?_⟩
        exact h.core.write h2 h3 (by rw [h4]; rfl) _
  | cast x c =>
    obtain ⟨d1, d2⟩ := h.deref x
    obtain ⟨o, ho, e⟩ := Option.map_eq_some_iff.1 ha
    cases e
    rw [ho] at d1
    obtain ⟨⟨i, o'⟩, g1, g2⟩ := Option.map_eq_some_iff.1 d1
    dsimp only at g2
    subst g2
    refine ⟨s, ?_, h⟩
    simp only [step, g1]
    cases isa o'.cls c <;> simp
  | drop x =>
    obtain ⟨p, hp, e⟩ := Option.map_eq_some_iff.1 ha
    cases e
    obtain ⟨s1, e1, e2, e3, hc⟩ := h.core.dec p (count_pos hp)
    refine ⟨{ s1 with vars := s1.vars.set x none }, ?_, by simp [e2, h.vars], by simp [e3, h.next], ?_⟩
    · simp only [step, h.vars, hp, e1, Option.map_some, R.of, Bool.false_eq_true, if_false]
    · refine (hc.vars _).congr fun c => ?_
      rw [count_set hp]
      simp

private theorem run_inv {V : Type} (isa : Nat → Nat → Bool) (ops : List (Op V)) :
    ∀ (s : St V) (a : Abs V), Inv s a → ∀ ts a', a.run isa ops = some (ts, a') → ∃ s', run isa s ops = some (ts, s') ∧ Inv s' a' := by
  induction ops with
  | nil =>
    intro s a h ts a' ha
    cases ha
    exact ⟨s, rfl, h⟩
  | cons o os ih =>
    intro s a h ts a' ha
    obtain ⟨⟨t, b⟩, h1, h2⟩ := Option.bind_eq_some_iff.1 ha
    obtain ⟨⟨us, c⟩, h3, h4⟩ := Option.map_eq_some_iff.1 h2
    cases h4
    obtain ⟨s1, e1, e2⟩ := step_inv isa h o h1
    obtain ⟨s2, f1, f2⟩ := ih s1 b e2 us c h3
    refine ⟨s2, ?_, f2⟩
    cases t <;> simp [run, e1, f1]

private theorem start_inv (V : Type) : Inv (start V) (Abs.start V) := by
  refine ⟨rfl, rfl, fun _ _ => ⟨rfl, rfl⟩, fun _ _ => rfl, ?_, ?_, fun _ _ => rfl, ?_, ?_⟩
  · intro _ _ h; cases h
  · intro _ _ h; cases h
  · intro _ _ _ _ _ h; cases h
  · intro _ _ h; cases h

/-- C133 (missing: constructors that throw): a program using polyref does what it means - copies share one object, whatever is done
through one of them is seen through all - with the same statements throwing.  The count is the number of variables sharing, and
`operator bool` says whether there is an object. -/
theorem C133_shared_partial {V : Type} (isa : Nat → Nat → Bool) (ops : List (Op V)) (ts : List Bool) (a : Abs V)
    (h : (Abs.start V).run isa ops = some (ts, a)) :
    ∃ s, run isa (start V) ops = some (ts, s) ∧
      (∀ x, (deref s x).map (·.2) = a.shown x) ∧
      (∀ x, truth s x = (get a.vars x).map fun _ => (a.shown x).isSome) ∧
      (∀ x p, get a.vars x = some p → refCount s x = some (if p = none then 0 else (a.vars.count (some p) : Int))) := by
  obtain ⟨s, h1, h2⟩ := run_inv isa ops _ _ (start_inv V) ts a h
  refine ⟨s, h1, fun x => (h2.deref x).1, fun x => ?_, fun x p hp => ?_⟩
  · rw [truth, Abs.shown, h2.vars]
    cases e : get a.vars x with
    | none => rfl
    | some p =>
      cases p with
      | none => rfl
      | some c =>
        obtain ⟨k, hk⟩ := h2.core.has (get_count e)
        obtain ⟨_, g2⟩ := h2.core.item c k hk
        dsimp only
        rw [hk]
        simp only [Option.map_some, Option.bind_some, Option.some.injEq]
        cases e1 : k.item with
        | none => rw [g2.1 e1]; rfl
        | some i =>
          cases e2 : a.obj c with
          | none => rw [g2.2 e2] at e1; cases e1
          | some o => rfl
  · rw [refCount, h2.vars, hp]
    cases p with
    | none => rfl
    | some c =>
      obtain ⟨k, hk⟩ := h2.core.has (get_count hp)
      obtain ⟨g1, _⟩ := h2.core.pay c k hk
      dsimp only
      rw [hk]
      simp [g1]

/-- C133: and every object there is in memory is that of an existing variable: it is deleted with the last one. -/
theorem C133_deleted_partial {V : Type} (isa : Nat → Nat → Bool) (ops : List (Op V)) (ts : List Bool) (a : Abs V)
    (h : (Abs.start V).run isa ops = some (ts, a)) :
    ∃ s, run isa (start V) ops = some (ts, s) ∧ ∀ i o, s.mem i = some o → ∃ x, deref s x = some (i, o) := by
  obtain ⟨s, h1, h2⟩ := run_inv isa ops _ _ (start_inv V) ts a h
  refine ⟨s, h1, fun i o ho => ?_⟩
  obtain ⟨c, k, g1, g2⟩ := h2.core.own i o ho
  obtain ⟨_, g3⟩ := h2.core.pay c k g1
  obtain ⟨x, hx, e⟩ := List.getElem_of_mem (List.count_pos_iff.1 g3)
  refine ⟨x, ?_⟩
  have : get s.vars x = some (some c) := by
    rw [h2.vars, get, List.getElem?_eq_getElem hx, e]; rfl
  simp [deref, this, g1, g2, ho]

/-- C133: replacing the object of a variable by one whose constructor throws leaves the variable with a deleted object: with a variable
that shares with no other, its destruction has no defined behaviour. -/
theorem C133_fails_throw {V : Type} (isa : Nat → Nat → Bool) (ops : List (Op V)) (ts : List Bool) (a : Abs V)
    (h : (Abs.start V).run isa ops = some (ts, a)) (x : Nat) (o p : Obj V) (ho : a.shown x = some o)
    (h1 : ∀ y, y ≠ x → get a.vars y ≠ get a.vars x) :
    run isa (start V) (ops ++ [.add x p false, .drop x]) = none := by
  obtain ⟨s, e1, h2⟩ := run_inv isa ops _ _ (start_inv V) ts a h
  have app : ∀ (l : List (Op V)) (s : St V) (ts : List Bool) (s' : St V) (m : List (Op V)), run isa s l = some (ts, s') →
      run isa s' m = none → run isa s (l ++ m) = none := by
    intro l
    induction l with
    | nil => intro s ts s' m a b; cases a; exact b
    | cons o os ih =>
      intro s ts s' m a b
      rw [List.cons_append, run]
      rw [run] at a
      cases e : step isa s o with
      | ub => rfl
      | ok s1 =>
        rw [e] at a
        obtain ⟨⟨us, c⟩, h3, h4⟩ := Option.map_eq_some_iff.1 a
        cases h4
        dsimp only
        rw [ih s1 us c m h3 b]; rfl
      | throw s1 =>
        rw [e] at a
        obtain ⟨⟨us, c⟩, h3, h4⟩ := Option.map_eq_some_iff.1 a
        cases h4
        dsimp only
        rw [ih s1 us c m h3 b]; rfl
  refine app ops _ ts s _ e1 ?_
  obtain ⟨d1, d2⟩ := h2.deref x
  rw [ho] at d1
  obtain ⟨⟨i, o'⟩, g1, g2⟩ := Option.map_eq_some_iff.1 d1
  obtain ⟨c, k, k1, k2, k3, k4, k5⟩ := d2 _ _ g1
  obtain ⟨p1, p2⟩ := h2.core.pay c k k2
  have cnt : a.vars.count (some (some c)) = 1 := by
    obtain ⟨hx, e⟩ := get_lt k1
    have h0 : (a.vars.set x none).count (some (some c)) = 0 := by
      apply List.count_eq_zero.2
      intro hm
      obtain ⟨y, hy, e2⟩ := List.getElem_of_mem hm
      rw [List.getElem_set] at e2
      split at e2
      · cases e2
      · rename_i hne
        rw [List.length_set] at hy
        refine h1 y (Ne.symm hne) ?_
        rw [k1, get, List.getElem?_eq_getElem hy, e2]; rfl
    rw [count_set k1] at h0
    simp at h0
    omega
  rw [cnt] at p1
  have hg : get s.vars x = some (some c) := by rw [h2.vars]; exact k1
  have st : step isa s (.add x p false) = .throw { s with mem := upd s.mem i none } := by
    simp [step, polyObj, hg, k2, k3, del, k4]
  rw [run, st]
  simp [run, step, hg, refdec, k2, p1, del, k3, R.of, upd_same]

/-- C133: copies of a null variable do not share: what is added to one is not seen through the other. -/
theorem C133_fails_null {V : Type} (isa : Nat → Nat → Bool) (ops : List (Op V)) (ts : List Bool) (a : Abs V)
    (h : (Abs.start V).run isa ops = some (ts, a)) (x : Nat) (o : Obj V) (hx : get a.vars x = some none) :
    ∃ ts s, run isa (start V) (ops ++ [.copy x, .add a.vars.length o true]) = some (ts, s) ∧
      (deref s a.vars.length).map (·.2) = some o ∧ truth s x = some false := by
  have app : ∀ (l : List (Op V)) (b : Abs V) (ts : List Bool) (c : Abs V) (m : List (Op V)), b.run isa l = some (ts, c) →
      b.run isa (l ++ m) = (c.run isa m).map fun q => (ts ++ q.1, q.2) := by
    intro l
    induction l with
    | nil => intro b ts c m e; cases e; simp
    | cons o os ih =>
      intro b ts c m e
      obtain ⟨⟨t, b1⟩, q1, q2⟩ := Option.bind_eq_some_iff.1 e
      obtain ⟨⟨us, c1⟩, q3, q4⟩ := Option.map_eq_some_iff.1 q2
      cases q4
      rw [List.cons_append, Abs.run, q1, Option.bind_some]
      dsimp only
      rw [ih b1 us c1 m q3, Option.map_map]
      rfl
  obtain ⟨hl, e0⟩ := get_lt hx
  have hr : (Abs.start V).run isa (ops ++ [.copy x, .add a.vars.length o true]) = some (ts ++ [false, false],
      ⟨(a.vars ++ [some none]).set a.vars.length (some (some a.next)), upd a.obj a.next (some o), a.next + 1⟩) := by
    rw [app _ _ _ _ _ h]
    have h1 : get (a.vars ++ [some none]) a.vars.length = some none := by simp [get]
    simp [Abs.run, Abs.step, hx, h1]
  obtain ⟨s, e1, e2, e3, _⟩ := C133_shared_partial isa _ _ _ hr
  refine ⟨_, s, e1, ?_, ?_⟩
  · rw [e2]
    simp [Abs.shown, get, upd_same]
  · rw [e3]
    have : get (((a.vars ++ [some none]).set a.vars.length (some (some a.next)))) x = some none := by
      rw [get, List.getElem?_set_ne (by omega), List.getElem?_append_left hl]
      exact hx
    dsimp only [Abs.shown]
    rw [this]
    rfl

-- Two variables share an object of class 1, replaced through one by an object of class 2, changed through the other; then the first goes.
example : ∃ s, run (fun c d => c == d) (start Nat)
      [.new, .add 0 ⟨1, 10⟩ true, .copy 0, .add 0 ⟨2, 20⟩ true, .write 1 (· + 1), .cast 0 1, .drop 0] =
        some ([false, false, false, false, false, true, false], s) ∧
    (∀ x, (deref s x).map (·.2) = if x = 1 then some ⟨2, 21⟩ else none) := by
  obtain ⟨s, h1, h2, _⟩ := C133_shared_partial (V := Nat) (fun c d => c == d)
    [.new, .add 0 ⟨1, 10⟩ true, .copy 0, .add 0 ⟨2, 20⟩ true, .write 1 (· + 1), .cast 0 1, .drop 0] [false, false, false, false, false, true, false]
    ⟨[none, some (some 0)], upd (upd (upd (fun _ => none) 0 (some ⟨1, 10⟩)) 0 (some ⟨2, 20⟩)) 0 (some ⟨2, 21⟩), 1⟩ rfl
  refine ⟨s, h1, fun x => ?_⟩
  rw [h2 x]
  match x with
  | 0 => rfl
  | 1 => rfl
  | x + 2 => simp [Abs.shown, get]

-- All variables are gone, and so is everything in memory.
example : ∃ ts s, run (fun c d => c == d) (start Nat) [.new, .add 0 ⟨1, 10⟩ true, .copy 0, .drop 0, .drop 1] = some (ts, s) ∧
    ∀ i, s.mem i = none := by
  obtain ⟨s, h1, h2⟩ := C133_deleted_partial (V := Nat) (fun c d => c == d) [.new, .add 0 ⟨1, 10⟩ true, .copy 0, .drop 0, .drop 1]
    [false, false, false, false, false] ⟨[none, none], upd (fun _ => none) 0 (some ⟨1, 10⟩), 1⟩ rfl
  obtain ⟨s', h1', h2', _⟩ := C133_shared_partial (V := Nat) (fun c d => c == d) [.new, .add 0 ⟨1, 10⟩ true, .copy 0, .drop 0, .drop 1]
    [false, false, false, false, false] ⟨[none, none], upd (fun _ => none) 0 (some ⟨1, 10⟩), 1⟩ rfl
  rw [h1] at h1'
  cases h1'
  refine ⟨_, s, h1, fun i => ?_⟩
  cases e : s.mem i with
  | none => rfl
  | some o =>
    obtain ⟨x, hx⟩ := h2 i o e
    have := h2' x
    rw [hx] at this
    match x with
    | 0 => cases this
    | 1 => cases this
    | x + 2 => simp [Abs.shown, get] at this

-- The constructor of the second object throws.
example : run (fun c d => c == d) (start Nat) [.new, .add 0 ⟨1, 10⟩ true, .add 0 ⟨2, 20⟩ false, .drop 0] = none :=
  C133_fails_throw _ [.new, .add 0 ⟨1, 10⟩ true] _ _ rfl 0 ⟨1, 10⟩ ⟨2, 20⟩ rfl (by
    intro y hy
    match y with
    | 0 => exact absurd rfl hy
    | y + 1 => simp [get, Abs.start])

example : ∃ ts s, run (fun c d => c == d) (start Nat) [.new, .copy 0, .add 1 ⟨1, 10⟩ true] = some (ts, s) ∧
    (deref s 1).map (·.2) = some ⟨1, 10⟩ ∧ truth s 0 = some false :=
  C133_fails_null _ [.new] _ _ rfl 0 ⟨1, 10⟩ rfl

end Verif.PolyRef
