import Verif.Rest
/-
C34: overload resolution.
-/
namespace Verif.Rest
open Verif.Json (J dot)

/-- The invariant of the loop over the overloads. -/
private theorem fold_inv {F : Type} (score : F → Nat) (f0 : F) : ∀ (l pre : List F) (st : F × Nat × Nat),
    ((∀ g ∈ pre, maxScore ≤ score g) ∧ st.1 = f0 ∧ st.2.1 = maxScore ∨
      ∃ a c, pre = a ++ st.1 :: c ∧ score st.1 < maxScore ∧ st.2.1 = score st.1 ∧
        (∀ g ∈ a, score st.1 < score g) ∧ (∀ g ∈ c, score st.1 ≤ score g) ∧ 1 ≤ st.2.2 ∧
        (1 < st.2.2 ↔ ∃ g ∈ c, score g = score st.1)) →
    let st' := l.foldl (better score) st
    ((∀ g ∈ pre ++ l, maxScore ≤ score g) ∧ st'.1 = f0 ∧ st'.2.1 = maxScore ∨
      ∃ a c, pre ++ l = a ++ st'.1 :: c ∧ score st'.1 < maxScore ∧ st'.2.1 = score st'.1 ∧
        (∀ g ∈ a, score st'.1 < score g) ∧ (∀ g ∈ c, score st'.1 ≤ score g) ∧ 1 ≤ st'.2.2 ∧
        (1 < st'.2.2 ↔ ∃ g ∈ c, score g = score st'.1)) := by
  intro l
  induction l with
  | nil => intro pre st h; simpa using h
  | cons x l ih =>
    intro pre st h
    have key := ih (pre ++ [x]) (better score st x) ?_
    · simpa using key
    · rcases h with ⟨h1, h2, h3⟩ | ⟨a, c, h1, h2, h3, h4, h5, h6, h7⟩
      · simp only [better]
        split
        · rename_i hlt
          right
          refine ⟨pre, [], by simp, by show score x < maxScore; omega, rfl, fun g hg => ?_, by simp, by simp, by simp⟩
          have := h1 g hg
          simp only at hlt ⊢
          omega
        · rename_i hge
          left
          refine ⟨fun g hg => ?_, ?_, ?_⟩
          · rcases List.mem_append.1 hg with h | h
            · exact h1 g h
            · rw [List.mem_singleton] at h; subst h; omega
          · split <;> exact h2
          · split <;> exact h3
      · right
        simp only [better]
        split
        · rename_i hlt
          refine ⟨pre, [], by simp, by show score x < maxScore; omega, rfl, fun g hg => ?_, by simp, by simp, by simp⟩
          rw [h1] at hg
          simp only at hlt ⊢
          rcases List.mem_append.1 hg with h | h
          · have := h4 g h; omega
          · rcases List.mem_cons.1 h with h | h
            · subst h; omega
            · have := h5 g h; omega
        · split
          · rename_i hge he
            refine ⟨a, c ++ [x], by simp [h1], h2, h3, h4, fun g hg => ?_, by simp, ?_⟩
            · rcases List.mem_append.1 hg with h | h
              · exact h5 g h
              · rw [List.mem_singleton] at h; subst h; show score st.1 ≤ _; omega
            · refine ⟨fun _ => ⟨x, by simp, by show score x = score st.1; omega⟩, fun _ => ?_⟩
              simp only; omega
          · rename_i hge hne
            refine ⟨a, c ++ [x], by simp [h1], h2, h3, h4, fun g hg => ?_, h6, ?_⟩
            · rcases List.mem_append.1 hg with h | h
              · exact h5 g h
              · rw [List.mem_singleton] at h; subst h; omega
            · rw [h7]
              constructor
              · rintro ⟨g, hg, e⟩; exact ⟨g, by simp [hg], e⟩
              · rintro ⟨g, hg, e⟩
                rcases List.mem_append.1 hg with h | h
                · exact ⟨g, h, e⟩
                · rw [List.mem_singleton] at h; subst h; omega

/-- The three outcomes. -/
private theorem choose_cases {F : Type} (score : F → Nat) (fs : List F) (hne : fs ≠ []) :
    ((∀ g ∈ fs, maxScore ≤ score g) ∧ choose score fs = .noMatch) ∨
    ∃ a f c, fs = a ++ f :: c ∧ score f < maxScore ∧ (∀ g ∈ a, score f < score g) ∧
      (∀ g ∈ c, score f ≤ score g) ∧
      (((∃ g ∈ c, score g = score f) ∧ choose score fs = .ambiguous) ∨
       ((∀ g ∈ c, score f < score g) ∧ choose score fs = .call f)) := by
  cases fs with
  | nil => exact absurd rfl hne
  | cons f0 fs =>
    have h := fold_inv score f0 (f0 :: fs) [] (f0, maxScore, 0) (.inl ⟨by simp, rfl, rfl⟩)
    simp only [List.nil_append] at h
    simp only [choose]
    generalize List.foldl (better score) (f0, maxScore, 0) (f0 :: fs) = st at h ⊢
    rcases h with ⟨h1, h2, h3⟩ | ⟨a, c, h1, h2, h3, h4, h5, h6, h7⟩
    · left
      refine ⟨h1, ?_⟩
      rw [if_pos]
      rw [h2]; exact h1 f0 (by simp)
    · right
      refine ⟨a, st.1, c, h1, h2, h4, h5, ?_⟩
      rw [if_neg (by omega)]
      by_cases hc : 1 < st.2.2
      · left
        exact ⟨h7.1 hc, by rw [if_pos hc]⟩
      · right
        refine ⟨fun g hg => ?_, by rw [if_neg hc]⟩
        have := h5 g hg
        have : score g ≠ score st.1 := fun e => hc (h7.2 ⟨g, hg, e⟩)
        omega

/-- The overload called is the one whose score is strictly below all others' (and is a match). -/
theorem C34_call {F : Type} (score : F → Nat) (fs : List F) (f : F) :
    choose score fs = .call f ↔ ∃ a c, fs = a ++ f :: c ∧ score f < maxScore ∧
      ∀ g ∈ a ++ c, score f < score g := by
  by_cases hne : fs = []
  · subst hne; simp [choose]
  rcases choose_cases score fs hne with ⟨h1, h2⟩ | ⟨a, f', c, h1, h2, h3, h4, ⟨⟨g, hg, e⟩, h6⟩ | ⟨h5, h6⟩⟩
  · rw [h2]
    refine ⟨fun h => (by cases h), fun ⟨a, c, e, h, _⟩ => ?_⟩
    have := h1 f (by simp [e])
    omega
  · rw [h6]
    refine ⟨fun h => (by cases h), fun ⟨a', c', e', h, h'⟩ => ?_⟩
    -- both `f'` and `g` are other elements with a lower or equal score
    have hf : ∀ x ∈ a ++ f' :: c, score f' ≤ score x := by
      intro x hx
      rcases List.mem_append.1 hx with hx | hx
      · have := h3 x hx; omega
      · rcases List.mem_cons.1 hx with hx | hx
        · subst hx; omega
        · exact h4 x hx
    have cnt : ∀ l : List F, l = a ++ f' :: c → 2 ≤ (l.filter fun x => score x ≤ score f').length := by
      rintro l rfl
      simp only [List.filter_append, List.filter_cons, Nat.le_refl, decide_true, if_true,
        List.length_append, List.length_cons]
      have : 0 < (c.filter fun x => score x ≤ score f').length := by
        refine List.length_pos_of_mem (a := g) ?_
        simp [hg, e]
      omega
    have cnt' : (fs.filter fun x => score x ≤ score f').length ≤ 1 := by
      rw [e']
      have hle : score f' ≤ score f := hf f (by rw [← h1, e']; simp)
      have e0 : ∀ l : List F, (∀ x ∈ l, score f < score x) →
          (l.filter fun x => score x ≤ score f') = [] := by
        intro l hl
        rw [List.filter_eq_nil_iff]
        intro x hx
        have := hl x hx
        simp; omega
      rw [List.filter_append, e0 a' fun x hx => h' x (by simp [hx]), List.nil_append, List.filter_cons,
        e0 c' fun x hx => h' x (by simp [hx])]
      split <;> simp
    have := cnt fs h1
    omega
  · rw [h6]
    constructor
    · intro h
      cases h
      exact ⟨a, c, h1, h2, fun g hg => by
        rcases List.mem_append.1 hg with h | h
        · exact h3 g h
        · exact h5 g h⟩
    · rintro ⟨a', c', e', h, h'⟩
      congr 1
      -- `f` is an element of the first list
      have hm : f ∈ a ++ f' :: c := by rw [← h1, e']; simp
      have hm' : f' ∈ a' ++ f :: c' := by rw [← e', h1]; simp
      rcases List.mem_append.1 hm with hm | hm
      · have a1 := h3 f hm
        rcases List.mem_append.1 hm' with k | k
        · have := h' f' (by simp [k]); omega
        · rcases List.mem_cons.1 k with k | k
          · exact k
          · have := h' f' (by simp [k]); omega
      · rcases List.mem_cons.1 hm with hm | hm
        · exact hm.symm
        · have a1 := h5 f hm
          rcases List.mem_append.1 hm' with k | k
          · have := h' f' (by simp [k]); omega
          · rcases List.mem_cons.1 k with k | k
            · exact k
            · have := h' f' (by simp [k]); omega

/-- No suitable overload: exactly when none is a match. -/
theorem C34_no_match {F : Type} (score : F → Nat) (fs : List F) (hne : fs ≠ []) :
    choose score fs = .noMatch ↔ ∀ g ∈ fs, maxScore ≤ score g := by
  rcases choose_cases score fs hne with ⟨h1, h2⟩ | ⟨a, f', c, h1, h2, h3, h4, ⟨⟨g, hg, e⟩, h6⟩ | ⟨h5, h6⟩⟩
  · exact ⟨fun _ => h1, fun _ => h2⟩
  · rw [h6]
    refine ⟨fun h => (by cases h), fun h => ?_⟩
    have := h f' (by simp [h1]); omega
  · rw [h6]
    refine ⟨fun h => (by cases h), fun h => ?_⟩
    have := h f' (by simp [h1]); omega

/-- Ambiguous: exactly when two tie for the lowest score and match. -/
theorem C34_ambiguous {F : Type} (score : F → Nat) (fs : List F) :
    choose score fs = .ambiguous ↔ ∃ a f c g d, fs = a ++ f :: c ++ g :: d ∧ score f < maxScore ∧
      score g = score f ∧ ∀ x ∈ fs, score f ≤ score x := by
  by_cases hne : fs = []
  · subst hne; simp [choose]
  rcases choose_cases score fs hne with ⟨h1, h2⟩ | ⟨a, f', c, h1, h2, h3, h4, ⟨⟨g, hg, e⟩, h6⟩ | ⟨h5, h6⟩⟩
  · rw [h2]
    refine ⟨fun h => (by cases h), ?_⟩
    rintro ⟨a, f, c, g, d, e, h, _⟩
    have := h1 f (by simp [e]); omega
  · rw [h6]
    refine ⟨fun _ => ?_, fun _ => rfl⟩
    obtain ⟨c1, c2, hc⟩ := List.append_of_mem hg
    refine ⟨a, f', c1, g, c2, by simp [h1, hc], h2, e, fun x hx => ?_⟩
    rw [h1] at hx
    rcases List.mem_append.1 hx with hx | hx
    · have := h3 x hx; omega
    · rcases List.mem_cons.1 hx with hx | hx
      · subst hx; omega
      · exact h4 x hx
  · have hcall := (C34_call score fs f').1 h6
    rw [h6]
    refine ⟨fun h => (by cases h), ?_⟩
    rintro ⟨a', f, c', g, d, e, hlt, hgf, hmin⟩
    exfalso
    have hff : score f ≤ score f' := hmin f' (by simp [h1])
    have cnt : 2 ≤ (fs.filter fun x => score x ≤ score f').length := by
      rw [e]
      simp only [List.filter_append, List.filter_cons, List.length_append]
      simp [hff, hgf]
      omega
    have : (fs.filter fun x => score x ≤ score f').length = 1 := by
      rw [h1]
      have e0 : ∀ l : List F, (∀ x ∈ l, score f' < score x) →
          (l.filter fun x => score x ≤ score f') = [] := by
        intro l hl
        rw [List.filter_eq_nil_iff]
        intro x hx
        have := hl x hx
        simp; omega
      rw [List.filter_append, e0 a h3, List.nil_append, List.filter_cons, e0 c h5]
      simp
    omega

/-- The order in which overloads were registered does not matter. -/
theorem C34_order {F : Type} (score : F → Nat) {fs gs : List F} (h : fs.Perm gs) :
    choose score fs = choose score gs := by
  by_cases hne : fs = []
  · subst hne; rw [List.Perm.eq_nil h.symm]
  have hne' : gs ≠ [] := fun e => hne (List.Perm.eq_nil (e ▸ h))
  cases hc : choose score fs with
  | void =>
    rcases choose_cases score fs hne with ⟨_, h2⟩ | ⟨a, f', c, _, _, _, _, ⟨_, h6⟩ | ⟨_, h6⟩⟩ <;>
      simp_all
  | noMatch =>
    have := (C34_no_match score fs hne).1 hc
    exact ((C34_no_match score gs hne').2 fun g hg => this g (h.mem_iff.2 hg)).symm
  | call f =>
    obtain ⟨a, c, e, h1, h2⟩ := (C34_call score fs f).1 hc
    have hm : f ∈ gs := h.mem_iff.1 (by simp [e])
    obtain ⟨a', c', e'⟩ := List.append_of_mem hm
    refine ((C34_call score gs f).2 ⟨a', c', e', h1, fun g hg => ?_⟩).symm
    have p : (f :: (a ++ c)).Perm (f :: (a' ++ c')) := by
      refine (List.perm_middle.symm.trans ?_).trans List.perm_middle
      rw [← e, ← e']; exact h
    exact h2 g ((List.perm_cons f).1 p |>.mem_iff.2 hg)
  | ambiguous =>
    obtain ⟨a, f, c, g, d, e, h1, h2, h3⟩ := (C34_ambiguous score fs).1 hc
    have key : ∃ x ∈ gs, score x < maxScore ∧ (∀ y ∈ gs, score x ≤ score y) ∧ choose score gs ≠ .call x := by
      refine ⟨f, h.mem_iff.1 (by simp [e]), h1, fun y hy => h3 y (h.mem_iff.2 hy), fun hcall => ?_⟩
      obtain ⟨a', c', e', _, h5⟩ := (C34_call score gs f).1 hcall
      have p : (f :: (a ++ c ++ g :: d)).Perm (f :: (a' ++ c')) := by
        have p1 : (a ++ f :: (c ++ g :: d)).Perm (a' ++ f :: c') := by
          rw [← e']; refine List.Perm.trans ?_ h; rw [e]; simp
        have := (List.perm_middle.symm.trans p1).trans List.perm_middle
        simpa using this
      have := h5 g ((List.perm_cons f).1 p |>.mem_iff.1 (by simp))
      omega
    obtain ⟨x, hx, hlt, hmin, hnc⟩ := key
    rcases choose_cases score gs hne' with ⟨k1, k2⟩ | ⟨a', f', c', k1, k2, k3, k4, ⟨k5, k6⟩ | ⟨k5, k6⟩⟩
    · have := k1 x hx; omega
    · exact k6.symm
    · exfalso
      -- `f'` is the strict minimum of `gs`, hence of `fs`, which is ambiguous
      have : choose score fs = .call f' := by
        have hm : f' ∈ fs := h.mem_iff.2 (by simp [k1])
        obtain ⟨a2, c2, e2⟩ := List.append_of_mem hm
        refine (C34_call score fs f').2 ⟨a2, c2, e2, k2, fun y hy => ?_⟩
        have p : (f' :: (a2 ++ c2)).Perm (f' :: (a' ++ c')) := by
          refine (List.perm_middle.symm.trans ?_).trans List.perm_middle
          rw [← e2, ← k1]; exact h
        have := (List.perm_cons f').1 p |>.mem_iff.1 hy
        rcases List.mem_append.1 this with hy | hy
        · exact k3 y hy
        · exact k5 y hy
      rw [hc] at this; cases this

/-! ### The scores -/

/-- An argument is acceptable for a parameter. -/
def C34.Fits (t : AT) (j : J) : Prop := matches' t j = true ∨ partly t j = true

/-- The arguments are acceptable for the parameters: enough of them, each acceptable. -/
def C34.FitsAll : List AT → List J → Prop
  | [], _ => True
  | _ :: _, [] => False
  | t :: ts, j :: l => C34.Fits t j ∧ C34.FitsAll ts l

/-- The number of arguments converted (integers, or null, for floating point). -/
def C34.converted : List AT → List J → Nat
  | t :: ts, j :: l => (if matches' t j = true then 0 else 1) + C34.converted ts l
  | _, _ => 0

open C34

private def total : List AT → List J → Nat
  | t :: ts, j :: l => argScore t j + total ts l
  | _, _ => 0

private theorem total_snoc (ts : List AT) (t : AT) (l : List J) (h : ts.length < l.length) :
    total (ts ++ [t]) l = total ts l + argScore t (l.getD ts.length .null) := by
  induction ts generalizing l with
  | nil =>
    cases l with
    | nil => simp at h
    | cons j l => simp [total]
  | cons x ts ih =>
    cases l with
    | nil => simp at h
    | cons j l =>
      simp only [List.length_cons, Nat.add_lt_add_iff_right] at h
      simp [total, ih l h, Nat.add_assoc]

private theorem scoreN_eq (nn : Nat) (l : List J) : ∀ (ts : List AT), 2 ≤ ts.length →
    ts.length ≤ l.length →
    scoreN nn l ts.reverse = (total ts l + 10 * (l.length - nn)) % 2 ^ 32 := by
  have key : ∀ (n : Nat) (ts : List AT), ts.length = n → 2 ≤ n → n ≤ l.length →
      scoreN nn l ts.reverse = (total ts l + 10 * (l.length - nn)) % 2 ^ 32 := by
    intro n
    induction n with
    | zero => intro ts _ h; omega
    | succ n ih =>
      intro ts hn h2 hl
      rcases List.eq_nil_or_concat ts with rfl | ⟨us, t, rfl⟩
      · simp at hn
      rw [List.concat_eq_append] at hn ⊢
      simp only [List.length_append, List.length_cons, List.length_nil, Nat.zero_add,
        Nat.add_right_cancel_iff] at hn
      by_cases h3 : n = 1
      · subst h3
        obtain ⟨t1, rfl⟩ := List.length_eq_one_iff.1 hn
        rw [total_snoc _ _ _ (by simp; omega)]
        cases l with
        | nil => simp at hl
        | cons j l =>
          simp only [List.singleton_append, List.reverse_cons, List.reverse_nil, List.nil_append, scoreN]
          rw [if_neg (by omega)]
          simp [u32, total]
      · have ih := ih us hn (by omega) (by omega)
        rw [total_snoc _ _ _ (by omega), List.reverse_append, List.reverse_singleton,
          List.singleton_append]
        have hlen : us.reverse.length = n := by simp [hn]
        generalize hr : us.reverse = w at hlen ih
        match w, hlen with
        | w1 :: w2 :: w3, hlen =>
          simp only [scoreN]
          rw [if_neg (by simp only [List.length_cons] at hlen ⊢; omega), ih, u32,
            show (w1 :: w2 :: w3).length = us.length by rw [hlen, hn]]
          omega
        | [w1], hlen => simp at hlen; omega
        | [], hlen => simp at hlen; omega
  intro ts h2 hl
  exact key _ ts rfl h2 hl

private theorem scoreN_short (nn : Nat) (l : List J) (ts : List AT) (h2 : 2 ≤ ts.length)
    (hl : l.length < ts.length) : scoreN nn l ts = maxScore := by
  match ts with
  | [t2, t1] => simp only [scoreN]; rw [if_pos (by simpa using hl)]
  | t :: t' :: t'' :: ts =>
    simp only [scoreN]
    rw [if_pos (by simpa using hl)]
  | [t] => simp at h2
  | [] => simp at h2

private theorem score_closed (ts : List AT) (l : List J) (h : ts.length ≤ l.length) :
    matchScore ts (.arr l) = (total ts l + 10 * (l.length - ts.length)) % 2 ^ 32 := by
  match ts with
  | [] => simp [matchScore, total, u32]
  | [t] =>
    cases l with
    | nil => simp at h
    | cons j l => simp [matchScore, total, u32]
  | t :: t' :: ts =>
    have := scoreN_eq (t :: t' :: ts).length l (t :: t' :: ts) (by simp) h
    rw [← this]
    simp [matchScore]

private theorem score_short (ts : List AT) (l : List J) (h : l.length < ts.length) :
    matchScore ts (.arr l) = maxScore := by
  match ts with
  | [] => simp at h
  | [t] =>
    cases l with
    | nil => simp [matchScore]
    | cons j l => simp at h
  | t :: t' :: ts =>
    simp only [matchScore]
    exact scoreN_short _ _ _ (by simp) (by simpa using h)

private theorem total_fits (ts : List AT) (l : List J) (h : FitsAll ts l) :
    total ts l = converted ts l := by
  induction ts generalizing l with
  | nil => simp [total, converted]
  | cons t ts ih =>
    cases l with
    | nil => simp [total, converted]
    | cons j l =>
      simp only [FitsAll] at h
      simp only [total, converted, ih l h.2, argScore]
      rcases h.1 with k | k
      · simp [k]
      · by_cases hm : matches' t j = true <;> simp [hm, k]

private theorem fits_len (ts : List AT) (l : List J) (h : FitsAll ts l) : ts.length ≤ l.length := by
  induction ts generalizing l with
  | nil => simp
  | cons t ts ih =>
    cases l with
    | nil => simp [FitsAll] at h
    | cons j l => simp only [FitsAll] at h; simpa using ih l h.2

private theorem converted_le (ts : List AT) (l : List J) : converted ts l ≤ ts.length := by
  induction ts generalizing l with
  | nil => simp [converted]
  | cons t ts ih =>
    cases l with
    | nil => simp [converted]
    | cons j l =>
      have := ih l
      simp only [converted, List.length_cons]
      split <;> omega

private theorem total_le (ts : List AT) (l : List J) : total ts l ≤ 1000000 * ts.length := by
  induction ts generalizing l with
  | nil => simp [total]
  | cons t ts ih =>
    cases l with
    | nil => simp [total]
    | cons j l =>
      have := ih l
      have : argScore t j ≤ 1000000 := by
        unfold argScore maxScore; repeat' split
        all_goals omega
      simp only [total, List.length_cons]
      omega

private theorem total_unfit (ts : List AT) (l : List J) (hl : ts.length ≤ l.length)
    (h : ¬ FitsAll ts l) : maxScore ≤ total ts l := by
  induction ts generalizing l with
  | nil => exact absurd trivial h
  | cons t ts ih =>
    cases l with
    | nil => simp at hl
    | cons j l =>
      simp only [FitsAll, not_and] at h
      simp only [total]
      by_cases hf : Fits t j
      · have := ih l (by simpa using hl) (h hf); omega
      · simp only [Fits, not_or] at hf
        simp [argScore, hf.1, hf.2]

/-- With matching arguments the score is the number of converted ones and ten for each excess one. -/
theorem C34_score (ts : List AT) (l : List J) (h : FitsAll ts l) :
    matchScore ts (.arr l) = (converted ts l + 10 * (l.length - ts.length)) % 2 ^ 32 := by
  rw [score_closed ts l (fits_len ts l h), total_fits ts l h]

/-- A function can be called exactly with enough arguments each fitting its parameter, as long as there
are not too many of them. -/
theorem C34_matchable_partial (ts : List AT) (l : List J)
    (hs : ts.length + 10 * (l.length - ts.length) < 1000000) (ht : ts.length ≤ 4000) :
    matchScore ts (.arr l) < maxScore ↔ FitsAll ts l := by
  constructor
  · intro h
    by_cases hl : ts.length ≤ l.length
    · by_cases hf : FitsAll ts l
      · exact hf
      · exfalso
        rw [score_closed ts l hl] at h
        have h1 := total_unfit ts l hl hf
        have h2 := total_le ts l
        rw [Nat.mod_eq_of_lt (by omega)] at h
        omega
    · rw [score_short ts l (by omega)] at h
      omega
  · intro h
    rw [C34_score ts l h]
    have := converted_le ts l
    rw [Nat.mod_eq_of_lt (by omega)]
    unfold maxScore
    omega

/-- Exact matches win over conversions, and fewer excess arguments over more: a function all of whose
parameters take the arguments as they are, with none left over, is only rivalled by another such. -/
theorem C34_exact (ts us : List AT) (l : List J) (h : FitsAll ts l) (hc : converted ts l = 0)
    (hl : l.length = ts.length) : matchScore ts (.arr l) = 0 ∧
    (FitsAll us l → l.length < 100000 → (converted us l ≠ 0 ∨ us.length < l.length) →
      0 < matchScore us (.arr l)) := by
  refine ⟨by rw [C34_score ts l h, hc, hl]; simp, fun hu hlen hd => ?_⟩
  rw [C34_score us l hu]
  have := converted_le us l
  have := fits_len us l hu
  rw [Nat.mod_eq_of_lt (by omega)]
  omega

/-- A single argument need not be in an array for a function of one parameter; no arguments for none. -/
theorem C34_single (t : AT) (j : J) (h : ∀ l, j ≠ .arr l) (h0 : j ≠ .null) :
    matchScore [t] j = matchScore [t] (.arr [j]) ∧ matchScore [] .null = matchScore [] (.arr []) ∧
    matchScore [] j = matchScore [] (.arr [j]) := by
  refine ⟨?_, rfl, by cases j <;> simp_all [matchScore, u32]⟩
  cases j <;> simp_all [matchScore, u32] <;>
    (unfold argScore maxScore; repeat' split) <;> omega

example : choose (fun ts => matchScore ts (.arr [.int 1, .str (b "x")]))
    [[.int, .int], [.flt, .str], [.int, .str]] = .call [.int, .str] :=
  (C34_call ..).2 ⟨[[.int, .int], [.flt, .str]], [], rfl, by decide, by decide⟩
example : choose (fun ts => matchScore ts (.arr [.int 1])) [[.flt], [.flt]] = .ambiguous := by
  refine (C34_ambiguous ..).2 ⟨[], [.flt], [], [.flt], [], rfl, by decide, rfl, by decide⟩
example : choose (fun ts => matchScore ts (.arr [.int 1])) [[.str], [.bool]] = .noMatch :=
  (C34_no_match _ _ (by simp)).2 (by decide)
example : matchScore [.flt, .str] (.arr [.int 1, .str (b "x"), .null]) < maxScore :=
  (C34_matchable_partial _ _ (by decide) (by decide)).2 ⟨.inr rfl, .inl rfl, trivial⟩

/-- With 100000 excess arguments a function that matches is not found to. -/
theorem C34_fails_excess (l : List J) (h : l.length = 100000) : FitsAll [] l ∧
    maxScore ≤ matchScore [] (.arr l) := by
  refine ⟨trivial, ?_⟩
  rw [C34_score [] _ trivial, h]
  simp [converted, maxScore]

/-- With more the score wraps around, and a function taking none of the arguments is preferred to one
that takes one. -/
theorem C34_fails_wrap (j : J) (l : List J) (hj : matches' .int j = true) (h : l.length = 429496729) :
    matchScore [] (.arr (j :: l)) < matchScore [.int] (.arr (j :: l)) := by
  have h1 : matchScore [] (.arr (j :: l)) = 4 := by
    rw [C34_score [] _ trivial, List.length_cons, h]
    simp [converted]
  have h2 : matchScore [.int] (.arr (j :: l)) = 4294967290 := by
    have hf : FitsAll [.int] (j :: l) := ⟨.inl hj, trivial⟩
    have hc : converted [.int] (j :: l) = 0 := by simp [converted, hj]
    rw [C34_score [.int] _ hf, hc, List.length_cons, h]
    simp
  omega

example : ∃ l : List J, l.length = 429496729 := ⟨List.replicate 429496729 .null, List.length_replicate⟩

/-! ### Which argument suits which parameter -/

/-- The argument has the type of the parameter. -/
inductive C34.Exact : AT → J → Prop
  | bool (x : Bool) : Exact .bool (.bool x)
  | str (s : Str) : Exact .str (.str s)
  | enum (s : Str) : Exact .enum (.str s)
  | int (i : Int) : Exact .int (.int i)
  | flt (r : Nat) : Exact .flt (.real r)
  | cls (p : List (Str × J) → Bool) (m : List (Str × J)) : p m = true → Exact (.cls p) (.obj m)
  | cont (t : AT) (l : List J) : (∀ j ∈ l, Exact t j) → Exact (.cont t) (.arr l)
  | single (t : AT) (j : J) : (∀ l, j ≠ .arr l) → Exact t j → Exact (.cont t) j

/-- The argument can be converted: integers and null to floating point, also inside containers. -/
inductive C34.Convertible : AT → J → Prop
  | exact (t : AT) (j : J) : C34.Exact t j → Convertible t j
  | int (i : Int) : Convertible .flt (.int i)
  | null : Convertible .flt .null
  | cont (t : AT) (l : List J) : (∀ j ∈ l, Convertible t j) → Convertible (.cont t) (.arr l)
  | single (t : AT) (j : J) : (∀ l, j ≠ .arr l) → Convertible t j → Convertible (.cont t) j

/-- An argument matches exactly when it has the type of the parameter. -/
theorem C34_matches_iff (t : AT) (j : J) : matches' t j = true ↔ Exact t j := by
  induction t generalizing j with
  | cont t ih =>
    constructor
    · intro h
      by_cases hj : ∃ l, j = .arr l
      · obtain ⟨l, rfl⟩ := hj
        simp only [matches', List.all_eq_true] at h
        exact .cont t l fun j hj => (ih j).1 (h j hj)
      · refine .single t j (fun l e => hj ⟨l, e⟩) ((ih j).1 ?_)
        cases j <;> simp_all [matches']
    · intro h
      cases h with
      | cont _ l h => simp only [matches', List.all_eq_true]; exact fun j hj => (ih j).2 (h j hj)
      | single _ _ h1 h2 =>
        have := (ih j).2 h2
        cases j <;> simp_all [matches']
  | _ =>
    constructor
    · intro h
      cases j <;> simp [matches', isBool, isStr, isInt, isReal] at h
      all_goals first
        | exact .cls _ _ h
        | constructor
    · intro h
      cases h <;> simp_all [matches', isBool, isStr, isInt, isReal]

/-- An argument is acceptable exactly when it can be converted to the type of the parameter. -/
theorem C34_fits_iff (t : AT) (j : J) : Fits t j ↔ Convertible t j := by
  have hle : ∀ (t : AT) (j : J), matches' t j = true → partly t j = true := by
    intro t
    induction t with
    | cont t ih =>
      intro j h
      cases j <;> simp_all [matches', partly]
    | flt => intro j h; cases j <;> simp_all [matches', partly, isReal]
    | _ => intro j h; simpa [partly] using h
  have hp : ∀ (t : AT) (j : J), partly t j = true ↔ Convertible t j := by
    intro t
    induction t with
    | cont t ih =>
      intro j
      constructor
      · intro h
        by_cases hj : ∃ l, j = .arr l
        · obtain ⟨l, rfl⟩ := hj
          simp only [partly, List.all_eq_true] at h
          exact .cont t l fun j hj => (ih j).1 (h j hj)
        · refine .single t j (fun l e => hj ⟨l, e⟩) ((ih j).1 ?_)
          cases j <;> simp_all [partly]
      · intro h
        cases h with
        | exact _ _ h => exact hle _ _ ((C34_matches_iff _ _).2 h)
        | cont _ l h => simp only [partly, List.all_eq_true]; exact fun j hj => (ih j).2 (h j hj)
        | single _ _ h1 h2 =>
          have := (ih j).2 h2
          cases j <;> simp_all [partly]
    | flt =>
      intro j
      constructor
      · intro h
        cases j <;> simp [partly, isReal, isInt, isNull] at h
        · exact .null
        · exact .int _
        · exact .exact _ _ (.flt _)
      · intro h
        cases h with
        | exact _ _ h => exact hle _ _ ((C34_matches_iff _ _).2 h)
        | int i => rfl
        | null => rfl
    | _ =>
      intro j
      constructor
      · intro h; exact .exact _ _ ((C34_matches_iff _ _).1 (by simpa [partly] using h))
      · intro h
        cases h with
        | exact _ _ h => exact hle _ _ ((C34_matches_iff _ _).2 h)
  constructor
  · rintro (h | h)
    · exact .exact _ _ ((C34_matches_iff _ _).1 h)
    · exact (hp t j).1 h
  · intro h; exact .inr ((hp t j).2 h)

end Verif.Rest
