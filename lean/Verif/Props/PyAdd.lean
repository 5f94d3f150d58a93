import Verif.PyAdd
/-
C137: objects added to modules of Python by path.
-/
namespace Verif.PyAdd

/-! ### What is expected -/

/-- The module and the name a path stands for: the name is what is behind the last dot; without one the module is `__main__`. -/
def C137.Names (path m n : Str) : Prop :=
  (46 : UInt8) ∉ n ∧ (path = m ++ 46 :: n ∨ (m = "__main__".toUTF8.toList ∧ path = n))

/-- What Python finds under a path. -/
def C137.Finds (s : St) (path : Str) (o : Nat) : Prop :=
  ∃ m n d, C137.Names path m n ∧ s m = some d ∧ d n = some o

open C137 (Names Finds)

private theorem rfind_none : ∀ {l : Str}, (46 : UInt8) ∉ l → rfind l = none
  | [], _ => rfl
  | c :: l, h => by
    have h1 : c ≠ 46 := fun e => h (by simp [e])
    have h2 : (46 : UInt8) ∉ l := fun e => h (by simp [e])
    simp [rfind, rfind_none h2, h1]

private theorem rfind_dot : ∀ (m n : Str), (46 : UInt8) ∉ n → rfind (m ++ 46 :: n) = some m.length
  | [], n, h => by simp [rfind, rfind_none h]
  | c :: m, n, h => by simp [rfind, rfind_dot m n h]

private theorem rfind_or : ∀ (p : Str), (46 : UInt8) ∉ p ∨ ∃ m n, p = m ++ 46 :: n ∧ (46 : UInt8) ∉ n
  | [] => .inl (by simp)
  | c :: p => by
    rcases rfind_or p with h | ⟨m, n, rfl, h⟩
    · by_cases hc : c = 46
      · exact .inr ⟨[], p, by simp [hc], h⟩
      · exact .inl (by simp [h, Ne.symm hc])
    · exact .inr ⟨c :: m, n, by simp, h⟩

private theorem main_eq : main = "__main__".toUTF8.toList := by decide +kernel

private theorem split_dot (m n : Str) (h : (46 : UInt8) ∉ n) : split (m ++ 46 :: n) = (m, n) := by
  simp only [split, rfind_dot m n h]
  simp

private theorem split_names {path m n : Str} (h : Names path m n) : split path = (m, n) := by
  obtain ⟨hn, rfl | ⟨rfl, rfl⟩⟩ := h
  · exact split_dot m n hn
  · simp only [split, rfind_none hn, main_eq]

private theorem names_split (path : Str) : Names path (split path).1 (split path).2 := by
  rcases rfind_or path with h | ⟨m, n, rfl, h⟩
  · exact ⟨by simpa [split, rfind_none h] using h, .inr (by simp [split, rfind_none h, main_eq])⟩
  · rw [split_dot m n h]; exact ⟨h, .inl rfl⟩

/-- C137: a path stands for exactly one name in one module. -/
theorem C137_names (path : Str) : ∃ m n, Names path m n ∧ ∀ m' n', Names path m' n' → m' = m ∧ n' = n := by
  refine ⟨_, _, names_split path, fun m' n' h => ?_⟩
  rw [split_names h]
  exact ⟨rfl, rfl⟩

/-- C137: an object added is found under its path; all other names in that module and all other modules stay. -/
theorem C137_added {path m n : Str} (h : Names path m n) (o : Nat) (s : St) (d : Dict) (hs : s m = some d) :
    ∃ s', add path o s = some s' ∧ Finds s' path o ∧
      (∃ d', s' m = some d' ∧ ∀ n', n' ≠ n → d' n' = d n') ∧ ∀ m', m' ≠ m → s' m' = s m' := by
  have e := split_names h
  refine ⟨_, by simp only [add, e, hs]; rfl, ⟨m, n, _, h, by simp; rfl, by simp⟩, ⟨_, by simp; rfl, ?_⟩, ?_⟩
  · intro n' hn; simp [hn]
  · intro m' hm; simp [hm]

/-- C137: if the module is not there, adding is an exception. -/
theorem C137_refused {path m n : Str} (h : Names path m n) (o : Nat) (s : St) :
    add path o s = none ↔ s m = none := by
  simp only [add, split_names h]
  cases s m <;> simp

/-- `__main__.x` and `x` are the same, for names without dots. -/
theorem C137_main (n : Str) (hn : (46 : UInt8) ∉ n) (o : Nat) (s : St) :
    add n o s = add ("__main__".toUTF8.toList ++ 46 :: n) o s := by
  have h1 := split_names (path := n) ⟨hn, .inr ⟨rfl, rfl⟩⟩
  have h2 := split_dot "__main__".toUTF8.toList n hn
  simp only [add, h1, h2]

/-- The object a program adds last for a name in a module. -/
def C137.Last (l : List (Str × Nat)) (m n : Str) (o : Nat) : Prop :=
  ∃ a p b, l = a ++ (p, o) :: b ∧ Names p m n ∧ ∀ q ∈ b, ¬ Names q.1 m n

/-- C137: after a program that adds to modules that are there, every name in every module is what was added for it last, or what it was if
nothing was; no module is made. -/
theorem C137_program (l : List (Str × Nat)) (s : St) (h : ∀ q ∈ l, ∀ m n, Names q.1 m n → s m ≠ none) :
    (addAll l s).2 = true ∧ ∀ m, (s m = none → (addAll l s).1 m = none) ∧ ∀ d, s m = some d →
      ∃ d', (addAll l s).1 m = some d' ∧ ∀ n, (∀ o, C137.Last l m n o → d' n = some o) ∧
        ((∀ q ∈ l, ¬ Names q.1 m n) → d' n = d n) := by
  induction l generalizing s with
  | nil =>
    refine ⟨rfl, fun m => ⟨fun h => h, fun d hd => ⟨d, hd, fun n => ⟨?_, fun _ => rfl⟩⟩⟩⟩
    rintro o ⟨a, p, b, he, _⟩
    simp at he
  | cons q l ih =>
    obtain ⟨p, o⟩ := q
    have hp := names_split p
    generalize hm0 : (split p).1 = m0 at hp
    generalize hn0 : (split p).2 = n0 at hp
    have hne := h (p, o) (by simp) _ _ hp
    obtain ⟨d0, hd0⟩ := Option.ne_none_iff_exists'.1 hne
    have ha : add p o s = some fun m => if m = m0 then some fun n => if n = n0 then some o else d0 n else s m := by
      simp only [add, hm0, hn0, hd0]
    have hs' : ∀ q ∈ l, ∀ m n, Names q.1 m n →
        (fun m => if m = m0 then some fun n => if n = n0 then some o else d0 n else s m : St) m ≠ none := by
      intro q hq m n hqn
      by_cases hm : m = m0
      · simp [hm]
      · simpa [hm] using h q (by simp [hq]) m n hqn
    obtain ⟨h1, h2⟩ := ih _ hs'
    simp only [addAll, ha]
    refine ⟨h1, fun m => ⟨fun hm => ?_, fun d hd => ?_⟩⟩
    · refine (h2 m).1 ?_
      have : m ≠ m0 := by rintro rfl; rw [hd0] at hm; cases hm
      simpa [this] using hm
    · by_cases hm : m = m0
      · subst hm
        have : d0 = d := by rw [hd0] at hd; exact Option.some.inj hd
        subst this
        obtain ⟨d', e1, e2⟩ := (h2 m).2 (fun n => if n = n0 then some o else d0 n) (by simp)
        refine ⟨d', e1, fun n => ⟨?_, ?_⟩⟩
        · rintro o' ⟨a, p', b, he, hp', hb⟩
          cases a with
          | nil =>
            simp only [List.nil_append, List.cons.injEq, Prod.mk.injEq] at he
            obtain ⟨⟨rfl, rfl⟩, rfl⟩ := he
            rw [(e2 n).2 hb]
            have : n = n0 := by
              have := split_names hp'
              rw [split_names hp] at this
              exact (Prod.mk.inj this).2.symm
            simp [this]
          | cons x a =>
            simp only [List.cons_append, List.cons.injEq] at he
            exact (e2 n).1 o' ⟨a, p', b, he.2, hp', hb⟩
        · intro hno
          rw [(e2 n).2 fun q hq => hno q (by simp [hq])]
          have : n ≠ n0 := by rintro rfl; exact hno (p, o) (by simp) hp
          simp [this]
      · obtain ⟨d', e1, e2⟩ := (h2 m).2 d (by simpa [hm] using hd)
        refine ⟨d', e1, fun n => ⟨?_, fun hno => (e2 n).2 fun q hq => hno q (by simp [hq])⟩⟩
        rintro o' ⟨a, p', b, he, hp', hb⟩
        cases a with
        | nil =>
          simp only [List.nil_append, List.cons.injEq, Prod.mk.injEq] at he
          obtain ⟨⟨rfl, rfl⟩, rfl⟩ := he
          have := split_names hp'
          rw [split_names hp] at this
          exact absurd (Prod.mk.inj this).1.symm hm
        | cons x a =>
          simp only [List.cons_append, List.cons.injEq] at he
          exact (e2 n).1 o' ⟨a, p', b, he.2, hp', hb⟩

/-- A path to a member of an object in a module is refused: only modules are looked for in front of the last dot. -/
theorem C137_member (s : St) (m x n : Str) (hn : (46 : UInt8) ∉ n) (d : Dict) (_ : s m = some d) (o' : Nat)
    (_ : d x = some o') (hx : s (m ++ 46 :: x) = none) (o : Nat) : add ((m ++ 46 :: x) ++ 46 :: n) o s = none :=
  (C137_refused ⟨hn, .inl rfl⟩ o s).2 hx

/-! ### Examples -/

private def b (s : String) : Str := s.toUTF8.toList

/-- `example.root1`, as in pythonExample.cc:13-15. -/
example : Names (b "example.root1") (b "example") (b "root1") ∧ Names (b "root1") main (b "root1") :=
  ⟨⟨by decide +kernel, .inl (by decide +kernel)⟩, by decide +kernel, .inr ⟨by decide +kernel, rfl⟩⟩

private def ex : St := fun m => if m = main ∨ m = b "example" then some fun _ => none else none

example : ((addAll [(b "root1", 1), (b "root1", 2), (b "example.root1", 3)] ex).1 main).bind (· (b "root1")) = some 2 ∧
    ((addAll [(b "root1", 1), (b "root1", 2), (b "example.root1", 3)] ex).1 (b "example")).bind (· (b "root1")) = some 3 ∧
    add (b "other.root") 1 ex = none := by
  refine ⟨by decide +kernel, by decide +kernel, (C137_refused (m := b "other") (n := b "root") ⟨by decide +kernel, .inl (by decide +kernel)⟩ 1 ex).2 (by decide +kernel)⟩
/-- C137: a program whose module is missing has added what came before, and ends with an exception. -/
theorem C137_stops (l : List (Str × Nat)) (s : St) (h : ∀ q ∈ l, ∀ m n, Names q.1 m n → s m ≠ none) (path m n : Str)
    (hp : Names path m n) (hm : s m = none) (o : Nat) (r : List (Str × Nat)) :
    addAll (l ++ (path, o) :: r) s = ((addAll l s).1, false) := by
  have e : ∀ (l : List (Str × Nat)) (s : St), (addAll l s).2 = true → addAll (l ++ (path, o) :: r) s =
      addAll ((path, o) :: r) (addAll l s).1 := by
    intro l
    induction l with
    | nil => intro s _; rfl
    | cons q l ih =>
      intro s hs
      simp only [List.cons_append, addAll] at hs ⊢
      cases ha : add q.1 q.2 s with
      | none => simp [ha] at hs
      | some s' => simp only [ha] at hs ⊢; exact ih s' hs
  obtain ⟨h1, h2⟩ := C137_program l s h
  rw [e l s h1]
  simp only [addAll, (C137_refused hp o _).2 ((h2 m).1 hm)]


end Verif.PyAdd
