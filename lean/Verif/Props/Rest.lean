import Verif.Rest
/-
The REST interface: C33 dispatch, C34 overload resolution, C35 the registry, C61 listing of enums.
-/
namespace Verif.Rest
open OMap
open Verif.Json (J dot)

/-! ### C33 Dispatch -/

/-- `q` is `p` followed by `rest`, split at a dot (which goes with the rest), at the end or at the
beginning. -/
structure C33.Split (q p rest : Str) : Prop where
  eq : q = p ++ rest
  at' : rest = [] ∨ rest.head? = some 46 ∨ p = []

/-- What a query does at an entry with a given rest of the path. -/
def C33.answer (e : Ent) (rest : Str) : Out :=
  if rest = b ".@signature" then .signature e
  else if rest = b ".@list" then .list e
  else if rest = b ".@type" then .type e
  else .process e rest

/-- Rests of a path that are requests about the entry itself. -/
def C33.Meta (rest : Str) : Prop :=
  rest = b ".@signature" ∨ rest = b ".@list" ∨ rest = b ".@type"

instance (rest : Str) : Decidable (C33.Meta rest) := by unfold C33.Meta; infer_instance

open C33

private theorem rfind_some {s : Str} {i : Nat} (h : rfindDot s = some i) :
    i < s.length ∧ s[i]? = some dot ∧ ∀ j, i < j → j < s.length → s[j]? ≠ some dot := by
  induction s generalizing i with
  | nil => simp [rfindDot] at h
  | cons c s ih =>
    simp only [rfindDot] at h
    cases hr : rfindDot s with
    | some k =>
      rw [hr] at h
      simp only [Option.some.injEq] at h
      subst h
      obtain ⟨h1, h2, h3⟩ := ih hr
      refine ⟨by simp; omega, by simpa using h2, fun j hj hl => ?_⟩
      obtain ⟨j, rfl⟩ : ∃ k, j = k + 1 := ⟨j - 1, by omega⟩
      simpa using h3 j (by omega) (by simpa using hl)
    | none =>
      rw [hr] at h
      simp only at h
      split at h <;> simp only [Option.some.injEq, reduceCtorEq] at h
      rename_i hc
      subst h
      refine ⟨by simp, by simp [hc], fun j hj hl => ?_⟩
      obtain ⟨j, rfl⟩ : ∃ k, j = k + 1 := ⟨j - 1, by omega⟩
      have : ∀ (s : Str), rfindDot s = none → ∀ j : Nat, s[j]? ≠ some dot := by
        intro s
        induction s with
        | nil => simp
        | cons d s ih2 =>
          intro hs j
          simp only [rfindDot] at hs
          cases h5 : rfindDot s with
          | some k => rw [h5] at hs; simp at hs
          | none =>
            rw [h5] at hs
            simp only at hs
            split at hs
            · simp at hs
            · rename_i hd
              cases j with
              | zero => simpa using hd
              | succ j => simpa using ih2 h5 j
      simpa using this s hr j

private theorem rfind_none {s : Str} (h : rfindDot s = none) : ∀ j : Nat, s[j]? ≠ some dot := by
  induction s with
  | nil => simp
  | cons d s ih =>
    intro j
    simp only [rfindDot] at h
    cases h5 : rfindDot s with
    | some k => rw [h5] at h; simp at h
    | none =>
      rw [h5] at h
      simp only at h
      split at h
      · simp at h
      · rename_i hd
        cases j with
        | zero => simpa using hd
        | succ j => simpa using ih h5 j

private theorem split_len {q p rest : Str} (h : Split q p rest) : p = q.take p.length ∧
    rest = q.drop p.length := by
  rw [h.eq]; simp

/-- Splits strictly shorter than `cmd` are at most as long as the part before its last dot. -/
private theorem split_le {q cmd : Str} {p rest : Str} (hc : cmd <+: q) (h : Split q p rest)
    (hlt : p.length < cmd.length) :
    (∀ i, rfindDot cmd = some i → p.length ≤ i) ∧ (rfindDot cmd = none → p = []) := by
  obtain ⟨t, rfl⟩ := hc
  have hd : p = [] ∨ cmd[p.length]? = some dot := by
    rcases h.at' with h1 | h1 | h1
    · have := congrArg List.length h.eq
      simp [h1] at this; omega
    · right
      have h2 : (cmd ++ t)[p.length]? = some 46 := by
        rw [h.eq]
        cases hr : rest with
        | nil => rw [hr] at h1; simp at h1
        | cons c r => rw [hr] at h1; simp at h1; simp [h1]
      rw [List.getElem?_append_left hlt] at h2
      exact h2
    · exact .inl h1
  refine ⟨fun i hi => ?_, fun hn => ?_⟩
  · rcases hd with hd | hd
    · simp [hd]
    · obtain ⟨_, _, h3⟩ := rfind_some hi
      apply Nat.le_of_not_lt
      intro hl
      exact h3 _ hl hlt hd
  · rcases hd with hd | hd
    · exact hd
    · exact absurd hd (rfind_none hn _)

/-- The invariant of the loop: it stands at a split of the query, and no longer split is registered. -/
private theorem loop_spec (r : Reg) (q : Str) : ∀ (n : Nat) (cmd : Str), cmd <+: q →
    (∃ rest, Split q cmd rest) → cmd.length < n →
    (∀ p rest, Split q p rest → cmd.length < p.length → mfind strLt p r = none) →
    (∃ p rest e, p ≠ [] ∧ Split q p rest ∧ mfind strLt p r = some e ∧
      (∀ p' rest', Split q p' rest' → p.length < p'.length → mfind strLt p' r = none) ∧
      loop r q n cmd (some cmd.length) = answer e rest) ∨
    ((∀ p rest, p ≠ [] → Split q p rest → mfind strLt p r = none) ∧
      ((mfind strLt [] r = none ∧ loop r q n cmd (some cmd.length) = .notFound) ∨
       ∃ e, mfind strLt [] r = some e ∧ loop r q n cmd (some cmd.length) =
         if Meta q ∨ e.isWrapper = true then answer e q else .notFound)) := by
  have root : ∀ n, (∀ p rest, p ≠ [] → Split q p rest → mfind strLt p r = none) →
      ∀ cmd ce, (ce = none ∨ (ce = some 0 ∧ cmd = [])) →
      (mfind strLt [] r = none ∧ loop r q (n + 1) cmd ce = .notFound) ∨
       ∃ e, mfind strLt [] r = some e ∧ loop r q (n + 1) cmd ce =
         if Meta q ∨ e.isWrapper = true then answer e q else .notFound := by
    intro n _ cmd ce hce
    have h1 : (if ce = none then [] else cmd) = [] := by
      rcases hce with rfl | ⟨rfl, rfl⟩ <;> simp
    have h2 : ce.getD 0 = 0 := by rcases hce with rfl | ⟨rfl, rfl⟩ <;> rfl
    simp only [loop, h1, h2, List.drop_zero]
    cases mfind strLt [] r with
    | none => left; simp
    | some e =>
      right
      refine ⟨e, rfl, ?_⟩
      simp only [answer, Meta]
      by_cases a1 : q = b ".@signature"
      · simp [a1]
      by_cases a2 : q = b ".@list"
      · simp [a1, a2]
      by_cases a3 : q = b ".@type"
      · simp [a1, a2, a3]
      · simp [a1, a2, a3]
  intro n
  induction n with
  | zero => intro cmd _ _ h; omega
  | succ n ih =>
    intro cmd hc hs hn hlong
    by_cases h0 : cmd = []
    · subst h0
      right
      have hall : ∀ p rest, p ≠ [] → Split q p rest → mfind strLt p r = none :=
        fun p rest hp h => hlong p rest h (by simpa using List.length_pos_iff.2 hp)
      exact ⟨hall, root n hall [] _ (.inr ⟨rfl, rfl⟩)⟩
    · have hl0 : cmd.length ≠ 0 := by simpa using h0
      simp only [loop, Option.getD_some, reduceCtorEq, if_false]
      cases hf : mfind strLt cmd r with
      | some e =>
        left
        obtain ⟨rest, hsp⟩ := hs
        refine ⟨cmd, rest, e, h0, hsp, hf, hlong, ?_⟩
        have : q.drop cmd.length = rest := (split_len hsp).2.symm
        simp only [this, answer]
        simp [hl0]
      | none =>
        simp only [ne_eq, hl0, not_false_eq_true, if_true]
        have hnext : ∀ p rest, Split q p rest →
            (∀ i, rfindDot cmd = some i → i < p.length) → (rfindDot cmd = none → p ≠ []) →
            mfind strLt p r = none := by
          intro p rest h h1 h2
          by_cases hcase : cmd.length < p.length
          · exact hlong p rest h hcase
          · by_cases heq : p.length = cmd.length
            · obtain ⟨t, ht⟩ := hc
              have e1 := (split_len h).1
              rw [heq, ← ht] at e1
              simp at e1
              rw [e1]; exact hf
            · have := split_le hc h (by omega)
              cases hr : rfindDot cmd with
              | none => exact absurd (this.2 hr) (h2 hr)
              | some i =>
                have a := this.1 i hr
                have b := h1 i hr
                omega
        cases hr : rfindDot cmd with
        | some i =>
          obtain ⟨h1, h2, h3⟩ := rfind_some hr
          have hl : (cmd.take i).length = i := by rw [List.length_take]; omega
          have hpre : cmd.take i <+: q := (List.take_prefix i cmd).trans hc
          have hsplit : ∃ rest, Split q (cmd.take i) rest := by
            obtain ⟨t, rfl⟩ := hc
            refine ⟨cmd.drop i ++ t, by rw [← List.append_assoc, List.take_append_drop], ?_⟩
            right; left
            rw [List.drop_eq_getElem_cons h1]
            rw [List.getElem?_eq_getElem h1] at h2
            simp only [Option.some.injEq] at h2
            rw [h2]; rfl
          have := ih (cmd.take i) hpre hsplit (by omega) (fun p rest h hlt => hnext p rest h
            (fun k hk => by rw [hr] at hk; cases hk; omega) (fun hk => by rw [hr] at hk; cases hk))
          rw [hl] at this
          exact this
        | none =>
          right
          have hall : ∀ p rest, p ≠ [] → Split q p rest → mfind strLt p r = none :=
            fun p rest hp h => hnext p rest h (fun k hk => by rw [hr] at hk; cases hk) (fun _ => hp)
          cases n with
          | zero => exact absurd hn (by omega)
          | succ n => exact ⟨hall, root n hall cmd none (.inl rfl)⟩

private theorem process_spec (r : Reg) (q : Str) (hq : q ≠ b "@enum.@list") :
    (∃ p rest e, p ≠ [] ∧ Split q p rest ∧ mfind strLt p r = some e ∧
      (∀ p' rest', Split q p' rest' → p.length < p'.length → mfind strLt p' r = none) ∧
      process r q = answer e rest) ∨
    ((∀ p rest, p ≠ [] → Split q p rest → mfind strLt p r = none) ∧
      ((mfind strLt [] r = none ∧ process r q = .notFound) ∨
       ∃ e, mfind strLt [] r = some e ∧ process r q =
         if Meta q ∨ e.isWrapper = true then answer e q else .notFound)) := by
  simp only [process, if_neg hq]
  refine loop_spec r q (q.length + 2) q (List.prefix_refl q) ⟨[], by simp, .inl rfl⟩ (by omega) ?_
  intro p rest h hl
  have := congrArg List.length h.eq
  simp at this; omega

/-- A query goes to the entry with the longest name at which the query can be split at a dot, with
exactly the rest. -/
theorem C33_longest_partial {r : Reg} {q p rest : Str} {e : Ent} (hq : q ≠ b "@enum.@list") (hp : p ≠ [])
    (hs : Split q p rest) (hf : mfind strLt p r = some e)
    (hmax : ∀ p' rest', Split q p' rest' → p.length < p'.length → mfind strLt p' r = none) :
    process r q = answer e rest := by
  rcases process_spec r q hq with ⟨p1, rest1, e1, _, h2, h3, h4, h5⟩ | ⟨h, _⟩
  · have : p1.length = p.length := by
      apply Nat.le_antisymm
      · apply Nat.le_of_not_lt; intro hl; rw [hmax _ _ h2 hl] at h3; cases h3
      · apply Nat.le_of_not_lt; intro hl; rw [h4 _ _ hs hl] at hf; cases hf
    have hpp : p1 = p := by rw [(split_len h2).1, (split_len hs).1, this]
    subst hpp
    have : rest1 = rest := by rw [(split_len h2).2, (split_len hs).2]
    subst this
    rw [h3] at hf; cases hf
    exact h5
  · rw [h p rest hp hs] at hf; cases hf

/-- Nothing registered at a dot of the query, nor under the empty name: not found.  And then only,
but for an object (not a container or smart pointer) under the empty name. -/
theorem C33_not_found {r : Reg} {q : Str} (hq : q ≠ b "@enum.@list") :
    process r q = .notFound ↔ (∀ p rest, p ≠ [] → Split q p rest → mfind strLt p r = none) ∧
      ∀ e, mfind strLt [] r = some e → e.isWrapper = false ∧ ¬ Meta q := by
  have hans : ∀ e rest, answer e rest ≠ .notFound := by
    intro e rest; unfold answer; repeat' split
    all_goals simp
  constructor
  · intro h
    rcases process_spec r q hq with ⟨p1, rest1, e1, _, _, _, _, h5⟩ | ⟨h1, h2⟩
    · rw [h5] at h; exact absurd h (hans _ _)
    · refine ⟨h1, fun e he => ?_⟩
      rcases h2 with ⟨h2, _⟩ | ⟨e', h2, h3⟩
      · rw [h2] at he; cases he
      · rw [h2] at he; cases he
        rw [h] at h3
        by_cases hm : Meta q ∨ e.isWrapper = true
        · rw [if_pos hm] at h3; exact absurd h3.symm (hans _ _)
        · simp only [not_or, Bool.not_eq_true] at hm
          exact ⟨hm.2, hm.1⟩
  · intro ⟨h1, h2⟩
    rcases process_spec r q hq with ⟨p1, rest1, e1, h0, hs, hf, _, _⟩ | ⟨_, h3⟩
    · rw [h1 p1 rest1 h0 hs] at hf; cases hf
    · rcases h3 with ⟨_, h3⟩ | ⟨e, he, h3⟩
      · exact h3
      · rw [h3, if_neg]
        obtain ⟨a, c⟩ := h2 e he
        simp [a, c]

/-- With a container or smart pointer under the empty name, queries that go nowhere else go to it. -/
theorem C33_root {r : Reg} {q : Str} {e : Ent} (hq : q ≠ b "@enum.@list")
    (h : ∀ p rest, p ≠ [] → Split q p rest → mfind strLt p r = none)
    (he : mfind strLt [] r = some e) (hw : e.isWrapper = true) : process r q = answer e q := by
  rcases process_spec r q hq with ⟨p1, rest1, e1, h0, hs, hf, _, _⟩ | ⟨_, ⟨h3, _⟩ | ⟨e', h3, h4⟩⟩
  · rw [h p1 rest1 h0 hs] at hf; cases hf
  · rw [h3] at he; cases he
  · rw [h3] at he; cases he
    rw [h4, if_pos (.inr hw)]

private abbrev exReg : Reg := build [.obj (b "a") 1 false, .obj (b "a.b") 2 false, .prim (b "a.b.c") 3,
  .fn (b "a.f") ⟨b "int", [b "int"], 4⟩]

example : process exReg (b "a.b.d.e") = .process (.obj 2 false) (b ".d.e") := by
  refine C33_longest_partial (p := b "a.b") (rest := b ".d.e") (by decide) (by decide) ⟨by decide, by decide⟩
    (by decide) ?_
  intro p' rest' h hl
  have h1 := (split_len h).1
  have hle : p'.length ≤ 7 := by
    have := congrArg List.length h.eq; rw [List.length_append] at this
    have h7 : (b "a.b.d.e").length = 7 := rfl
    omega
  have h3 : (b "a.b").length = 3 := rfl
  have : p'.length = 4 ∨ p'.length = 5 ∨ p'.length = 6 ∨ p'.length = 7 := by omega
  rcases this with e | e | e | e <;> (rw [h1, e]; decide)

/-- A container registered under the empty name gets what no other name takes. -/
theorem C33_wrapper (i : Nat) : process (build [.obj [] i true, .obj (b "a") 7 false]) (b "x.y") =
    .process (.obj i true) (b "x.y") ∧
    process (build [.obj [] i true, .obj (b "a") 7 false]) (b "a.y") = .process (.obj 7 false) (b ".y") := by
  constructor <;> rfl

/-- Registered under the empty name, a class is not found under any query but those about it. -/
theorem C33_fails_root : mfind strLt [] (build [.obj [] 1 false]) = some (.obj 1 false) ∧
    Split (b "x") [] (b "x") ∧ process (build [.obj [] 1 false]) (b "x") = .notFound ∧
    process (build [.obj [] 1 false]) [] = .notFound :=
  ⟨by decide, ⟨rfl, Or.inr (Or.inr rfl)⟩, by decide, by decide⟩

/-! ### C61 Listing of enums -/

/-- `@enum.@list` gives the names of the enums, in order, when names beginning with `@enum` are
only used for enums. -/
theorem C61_enums_partial (r : Reg) (h : ∀ e ∈ r, b "@enum" <+: e.1 → ∃ n, e.1 = b "@enum." ++ n) :
    ∃ l, process r (b "@enum.@list") = .enums l ∧
      l.map (b "@enum." ++ ·) = (r.map (·.1)).filter fun k => (b "@enum.").isPrefixOf k := by
  have key : ∃ l, enums r = some l ∧
      l.map (b "@enum." ++ ·) = (r.map (·.1)).filter fun k => (b "@enum.").isPrefixOf k := by
    induction r with
    | nil => exact ⟨[], rfl, rfl⟩
    | cons x r ih =>
      obtain ⟨k, v⟩ := x
      obtain ⟨l, h1, h2⟩ := ih (fun e he => h e (List.mem_cons_of_mem _ he))
      simp only [enums]
      by_cases hk : b "@enum" <+: k
      · obtain ⟨n, hn⟩ := h (k, v) (List.mem_cons_self ..) hk
        simp only at hn
        subst hn
        have h6 : (b "@enum.").length = 6 := rfl
        rw [if_pos hk, if_neg (by rw [List.length_append]; omega), h1]
        refine ⟨_, rfl, ?_⟩
        have : (b "@enum." ++ n).drop 6 = n := by rw [← h6]; simp
        rw [this]
        simp [h2, List.isPrefixOf_iff_prefix]
      · rw [if_neg hk]
        refine ⟨l, h1, ?_⟩
        rw [h2, List.map_cons, List.filter_cons, if_neg]
        intro hp
        rw [List.isPrefixOf_iff_prefix] at hp
        exact hk (List.IsPrefix.trans ⟨[46], rfl⟩ hp)
  obtain ⟨l, h1, h2⟩ := key
  refine ⟨l, ?_, h2⟩
  simp [process, h1]

example : process (build [.obj (b "@enum.A") 1 false, .obj (b "x") 2 false, .obj (b "@enum.B") 3 false])
    (b "@enum.@list") = .enums [b "A", b "B"] := by decide

/-- Another object whose name begins so is listed too, cut. -/
theorem C61_fails_other : process (build [.obj (b "@enumerator") 1 false]) (b "@enum.@list") =
    .enums [b "rator"] := by decide
/-- One called `@enum` makes it throw. -/
theorem C61_fails_short : process (build [.obj (b "@enum") 1 false]) (b "@enum.@list") = .outOfRange := by
  decide

end Verif.Rest
