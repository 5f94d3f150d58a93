import Verif.PyLife
/-
C92: what Python holds can be used.
-/
namespace Verif.PyLife

/-- The variable a statement assigns or deletes. -/
def C92.assigns : Op → Option Nat
  | .global x | .call x | .request x | .member x _ | .elem x _ _ | .target x _ _ | .copy x _ | .drop x => some x
  | .change _ | .reset _ | .use _ => none

open C92 (assigns)

private theorem lookup_unset {x y : Nat} (h : y ≠ x) : ∀ l : List (Nat × W), lookup y (unset x l) = lookup y l
  | [] => rfl
  | e :: l => by
    have ih := lookup_unset h l
    simp only [unset, List.filter_cons] at ih ⊢
    by_cases he : e.1 = x
    · have : ¬ e.1 = y := fun h2 => h (h2.symm.trans he)
      simp only [he, ne_eq, not_true_eq_false, decide_false, Bool.false_eq_true, if_false, lookup]
      rw [if_neg (fun h2 => h h2.symm)]
      exact ih
    · simp only [ne_eq, he, not_false_eq_true, decide_true, if_true, lookup, ih]

private theorem lookup_mem {x : Nat} {w : W} : ∀ {l : List (Nat × W)}, lookup x l = some w → (x, w) ∈ l
  | e :: l, h => by
    simp only [lookup] at h
    split at h
    · rename_i he
      cases h
      subst he
      simp
    · exact List.mem_cons_of_mem _ (lookup_mem h)

private theorem lookup_bind {s : S} {x y : Nat} {w : W} (h : y ≠ x) : lookup y (s.bind x w).vars = lookup y s.vars := by
  simp only [S.bind, lookup]
  rw [if_neg (Ne.symm h), lookup_unset h]

/-- A statement that does not assign `y` leaves it. -/
private theorem step_var (s : S) (o : Op) (y : Nat) (h : assigns o ≠ some y) :
    lookup y (step s o).2.vars = lookup y s.vars := by
  have hw : ∀ z (f : W → S), (∀ w, lookup y (f w).vars = lookup y s.vars) → lookup y (s.with z f).2.vars = lookup y s.vars := by
    intro z f hf
    simp only [S.with]
    split
    · rfl
    · split
      · exact hf _
      · rfl
  cases o with
  | «global» x => exact lookup_bind fun e => h (by rw [e]; rfl)
  | call x => exact lookup_bind fun e => h (by rw [e]; rfl)
  | request x => exact lookup_bind fun e => h (by rw [e]; rfl)
  | member x z => exact hw _ _ fun w => lookup_bind fun e => h (by rw [e]; rfl)
  | elem x z c => exact hw _ _ fun w => lookup_bind fun e => h (by rw [e]; rfl)
  | target x z t =>
    refine hw _ _ fun w => ?_
    split
    · exact lookup_bind fun e => h (by rw [e]; rfl)
    · rfl
  | copy x z =>
    simp only [step]
    split
    · rfl
    · exact lookup_bind fun e => h (by rw [e]; rfl)
  | drop x => exact lookup_unset (fun e => h (by rw [e]; rfl)) _
  | change c => rfl
  | reset t => rfl
  | use x => exact hw _ _ fun w => rfl

private theorem run_var (y : Nat) : ∀ (os : List Op) (s : S), (∀ o ∈ os, assigns o ≠ some y) →
    lookup y (run s os).2.vars = lookup y s.vars
  | [], _, _ => rfl
  | o :: os, s, h => by
    simp only [run]
    rw [run_var y os _ fun o' ho' => h o' (by simp [ho']), step_var s o y (h o (by simp))]

private theorem run_append (s : S) : ∀ (a c : List Op), run s (a ++ c) =
    ((run s a).1 ++ (run (run s a).2 c).1, (run (run s a).2 c).2)
  | [], c => rfl
  | o :: a, c => by
    simp only [List.cons_append, run]
    rw [run_append (step s o).2 a c]

private theorem use_eq {s : S} {x : Nat} {w : W} (h : lookup x s.vars = some w) :
    (step s (.use x)).1 = if s.usable w then .ok else .ub := by
  simp only [step, S.with, h]
  split <;> rfl

private theorem has_copy {s : S} {x : Nat} {w : W} {n : Nat} (h : lookup x s.vars = some w) (hk : w.keeps = some n) :
    s.has (.copy n) = true := by
  simp only [S.has, List.any_eq_true]
  exact ⟨_, lookup_mem h, by simp [hk]⟩

/-- A registered object, or a member of one, whatever is done before and after. -/
theorem C92_global_partial (s : S) (a c : List Op) (x : Nat) (hc : ∀ o ∈ c, assigns o ≠ some x) :
    (step (run s (a ++ .global x :: c)).2 (.use x)).1 = .ok := by
  rw [run_append]
  simp only [run]
  rw [use_eq (w := ⟨none, []⟩)]
  · rfl
  · rw [run_var x c _ hc]
    simp [step, S.bind, lookup]

/-- What a function returned, as long as it is held. -/
theorem C92_result_partial (s : S) (a c : List Op) (x : Nat) (hc : ∀ o ∈ c, assigns o ≠ some x) :
    (step (run s (a ++ .call x :: c)).2 (.use x)).1 = .ok := by
  rw [run_append]
  simp only [run]
  have h : lookup x (run (step (run s a).2 (.call x)).2 c).2.vars =
      some ⟨some (run s a).2.next, [.copy (run s a).2.next]⟩ := by
    rw [run_var x c _ hc]
    simp [step, S.bind, lookup]
  rw [use_eq h]
  simp [S.usable, has_copy h rfl]

/-- A member of what a function returned, as long as both are held. -/
theorem C92_member_partial (s : S) (a c d : List Op) (x y : Nat) (hxy : x ≠ y) (hc : ∀ o ∈ c, assigns o ≠ some x)
    (hd : ∀ o ∈ d, assigns o ≠ some x ∧ assigns o ≠ some y) :
    (step (run s (a ++ .call x :: c ++ .member y x :: d)).2 (.use y)).1 = .ok := by
  rw [run_append, run_append]
  simp only [run]
  have h : lookup x (run (step (run s a).2 (.call x)).2 c).2.vars =
      some ⟨some (run s a).2.next, [.copy (run s a).2.next]⟩ := by
    rw [run_var x c _ hc]
    simp [step, S.bind, lookup]
  generalize (run (step (run s a).2 (.call x)).2 c).2 = s1 at *
  generalize (run s a).2.next = n at *
  have hu : s1.usable ⟨some n, [.copy n]⟩ = true := by simp [S.usable, has_copy h rfl]
  have h2 : (step s1 (.member y x)).2 = s1.bind y ⟨none, [.copy n]⟩ := by
    simp [step, S.with, h, hu]
  rw [h2]
  have hx : lookup x (run (s1.bind y ⟨none, [.copy n]⟩) d).2.vars = some ⟨some n, [.copy n]⟩ := by
    rw [run_var x d _ fun o ho => (hd o ho).1, lookup_bind hxy, h]
  have hy : lookup y (run (s1.bind y ⟨none, [.copy n]⟩) d).2.vars = some ⟨none, [.copy n]⟩ := by
    rw [run_var y d _ fun o ho => (hd o ho).2]
    simp [S.bind, lookup]
  rw [use_eq hy]
  simp [S.usable, has_copy hx rfl]

/-- Statements after which nothing has gone: no variable is deleted, no container changed, no pointer reset; no
request goes into the result of a function. -/
def C92.Calm : Op → Prop
  | .drop _ | .change _ | .reset _ | .request _ => False
  | _ => True

private theorem unset_eq {x : Nat} : ∀ {l : List (Nat × W)}, (∀ e ∈ l, e.1 ≠ x) → unset x l = l := by
  intro l h
  simp only [unset]
  rw [List.filter_eq_self]
  intro e he
  simpa using h e he

private theorem kept (used : List Nat) : ∀ (os : List Op) (s : S), (∀ o ∈ os, C92.Calm o) →
    (os.filterMap assigns).Nodup → (∀ e ∈ s.vars, e.1 ∈ used) → (∀ x ∈ os.filterMap assigns, x ∉ used) →
    (∀ e ∈ s.vars, s.usable e.2 = true) → ∀ r ∈ (run s os).1, r ≠ .ub
  | [], _, _, _, _, _, _ => by simp [run]
  | o :: os, s, hc, hn, hv, hf, hu => by
    have hcalm := hc o (by simp)
    -- a new variable
    have newv : ∀ x w, assigns o = some x → s.usable w = true ∨ (∃ n, w = ⟨some n, [.copy n]⟩) →
        ∀ e ∈ (s.bind x w).vars, (s.bind x w).usable e.2 = true := by
      intro x w hx hw
      have hx' : x ∉ used := hf x (by simp [hx])
      have hun : unset x s.vars = s.vars := unset_eq fun e he h => hx' (h ▸ hv e he)
      have hb : s.bind x w = { s with vars := (x, w) :: s.vars } := by simp [S.bind, hun]
      have mono : ∀ nd, s.has nd = true → (s.bind x w).has nd = true := by
        intro nd hnd
        rw [hb]
        cases nd with
        | copy h =>
          simp only [S.has, List.any_cons, Bool.or_eq_true] at hnd ⊢
          exact .inr hnd
        | storage c g => exact hnd
        | target t => exact hnd
        | never => exact hnd
      have monou : ∀ w', s.usable w' = true → (s.bind x w).usable w' = true := by
        intro w' h
        simp only [S.usable, List.all_eq_true] at h ⊢
        exact fun nd hnd => mono nd (h nd hnd)
      intro e he
      rw [hb] at he
      rcases List.mem_cons.1 he with rfl | he
      · rcases hw with hw | ⟨n, rfl⟩
        · exact monou _ hw
        · simp [S.usable, hb, S.has]
      · exact monou _ (hu e he)
    have newk : ∀ x w, assigns o = some x → ∀ e ∈ (s.bind x w).vars, e.1 ∈ x :: used := by
      intro x w hx e he
      rcases List.mem_cons.1 he with rfl | he
      · simp
      · exact List.mem_cons_of_mem _ (hv e (List.mem_filter.1 he).1)
    have newf : ∀ x, assigns o = some x → ∀ z ∈ os.filterMap assigns, z ∉ x :: used := by
      intro x hx z hz hz'
      rw [List.filterMap_cons_some hx, List.nodup_cons] at hn
      rcases List.mem_cons.1 hz' with rfl | hz'
      · exact hn.1 hz
      · exact hf z (by rw [List.filterMap_cons_some hx]; exact List.mem_cons_of_mem _ hz) hz'
    have hn' : (os.filterMap assigns).Nodup := by
      cases hx : assigns o with
      | none => rwa [List.filterMap_cons_none hx] at hn
      | some x => rw [List.filterMap_cons_some hx, List.nodup_cons] at hn; exact hn.2
    have hc' : ∀ o' ∈ os, C92.Calm o' := fun o' ho' => hc o' (by simp [ho'])
    have hf' : ∀ x ∈ os.filterMap assigns, x ∉ used := by
      intro x hx
      refine hf x ?_
      cases hy : assigns o with
      | none => rwa [List.filterMap_cons_none hy]
      | some y => rw [List.filterMap_cons_some hy]; exact List.mem_cons_of_mem _ hx
    -- the statement does no harm, and the rest goes on
    have go : ∀ x w, assigns o = some x → s.usable w = true ∨ (∃ n, w = ⟨some n, [.copy n]⟩) →
        step s o = (.ok, s.bind x w) → ∀ r ∈ (run s (o :: os)).1, r ≠ .ub := by
      intro x w hx hw hst
      simp only [run, hst]
      intro r hr
      rcases List.mem_cons.1 hr with rfl | hr
      · simp
      · exact kept (x :: used) os _ hc' hn' (newk x w hx) (newf x hx) (newv x w hx hw) r hr
    have same : ∀ out, out ≠ .ub → step s o = (out, s) → ∀ r ∈ (run s (o :: os)).1, r ≠ .ub := by
      intro out hout hst
      simp only [run, hst]
      intro r hr
      rcases List.mem_cons.1 hr with rfl | hr
      · exact hout
      · exact kept used os s hc' hn' hv hf' hu r hr
    have useW : ∀ y (f : W → S), s.with y f = (.unknown, s) ∨ ∃ w, s.usable w = true ∧ s.with y f = (.ok, f w) := by
      intro y f
      simp only [S.with]
      cases hl : lookup y s.vars with
      | none => exact .inl rfl
      | some w =>
        have := hu _ (lookup_mem hl)
        exact .inr ⟨w, this, by simp [this]⟩
    cases o with
    | «global» x => exact go x ⟨none, []⟩ rfl (.inl rfl) rfl
    | call x =>
      -- as above, with the number of copies increased
      simp only [run, step]
      intro r hr
      rcases List.mem_cons.1 hr with rfl | hr
      · simp
      · refine kept (x :: used) os _ hc' hn' ?_ (newf x rfl) ?_ r hr
        · exact newk x ⟨some s.next, [.copy s.next]⟩ rfl
        · exact newv x ⟨some s.next, [.copy s.next]⟩ rfl (.inr ⟨_, rfl⟩)
    | request x => exact absurd hcalm (by simp [C92.Calm])
    | member x y =>
      rcases useW y fun w => s.bind x ⟨none, w.needs⟩ with h | ⟨w, hw, h⟩
      · exact same _ (by simp) h
      · exact go x ⟨none, w.needs⟩ rfl (.inl hw) h
    | elem x y c =>
      rcases useW y fun w => s.bind x ⟨none, .storage c (s.gen c) :: w.needs⟩ with h | ⟨w, hw, h⟩
      · exact same _ (by simp) h
      · refine go x ⟨none, .storage c (s.gen c) :: w.needs⟩ rfl (.inl ?_) h
        simp only [S.usable] at hw
        simp [S.usable, S.has, hw]
    | target x y t =>
      rcases useW y fun _ => if s.live t then s.bind x ⟨none, [.target t]⟩ else s with h | ⟨w, hw, h⟩
      · exact same _ (by simp) h
      · by_cases ht : s.live t = true
        · simp only [ht, if_true] at h
          exact go x ⟨none, [.target t]⟩ rfl (.inl (by simp [S.usable, S.has, ht])) (by simpa [step, ht] using h)
        · simp only [ht] at h
          exact same .ok (by simp) (by simpa [step, ht] using h)
    | copy x y =>
      cases hl : lookup y s.vars with
      | none => exact same .unknown (by simp) (by simp [step, hl])
      | some w => exact go x w rfl (.inl (hu _ (lookup_mem hl))) (by simp [step, hl])
    | drop x => exact absurd hcalm (by simp [C92.Calm])
    | change c => exact absurd hcalm (by simp [C92.Calm])
    | reset t => exact absurd hcalm (by simp [C92.Calm])
    | use x =>
      rcases useW x fun _ => s with h | ⟨w, hw, h⟩
      · exact same _ (by simp) h
      · exact same _ (by simp) h

/-- A program that keeps everything it got in variables of its own, while containers and pointers do not change, does
nothing undefined. -/
theorem C92_kept_partial (gen : Nat → Nat) (live : Nat → Bool) (os : List Op) (hc : ∀ o ∈ os, C92.Calm o)
    (hn : (os.filterMap assigns).Nodup) : ∀ r ∈ (run ⟨[], gen, live, 0⟩ os).1, r ≠ .ub :=
  kept [] os _ hc hn (by simp) (by simp) (by simp)

/-! ### Where it is otherwise -/

/-- `y=f().m`: the result is gone before `y` can be used, whatever else is done. -/
theorem C92_fails_member (s : S) (a c : List Op) (t y : Nat) (hty : t ≠ y) (hc : ∀ o ∈ c, assigns o ≠ some y)
    (hs : ∀ e ∈ (run s a).2.vars, ∀ n, e.2.keeps = some n → n < (run s a).2.next) :
    (step (run s (a ++ [.call t, .member y t, .drop t] ++ c)).2 (.use y)).1 = .ub := by
  rw [run_append, run_append]
  generalize (run s a).2 = s0 at *
  let w : W := ⟨some s0.next, [.copy s0.next]⟩
  -- after the three statements
  have h1 : (run s0 [.call t, .member y t, .drop t]).2 =
      { s0 with vars := unset t ((y, ⟨none, [.copy s0.next]⟩) :: unset y ((t, w) :: unset t s0.vars)), next := s0.next + 1 } := by
    simp [run, step, S.with, S.bind, lookup, S.usable, S.has, w]
  have h2 : ∀ e ∈ (run s0 [.call t, .member y t, .drop t]).2.vars, e.2.keeps ≠ some s0.next := by
    rw [h1]
    intro e he hk
    have he := List.mem_filter.1 he
    rcases List.mem_cons.1 he.1 with rfl | h
    · simp at hk
    · have h3 := (List.mem_filter.1 h).1
      rcases List.mem_cons.1 h3 with rfl | h3
      · simp at he
      · exact absurd (hs e (List.mem_filter.1 h3).1 _ hk) (by omega)
  have h3 : (run s0 [.call t, .member y t, .drop t]).2.next = s0.next + 1 := by rw [h1]
  have h4 : lookup y (run s0 [.call t, .member y t, .drop t]).2.vars = some ⟨none, [.copy s0.next]⟩ := by
    rw [h1]
    simp only []
    rw [lookup_unset (Ne.symm hty)]
    simp [lookup]
  -- nothing makes it come back
  have inv : ∀ (os : List Op) (s : S) (n : Nat), (∀ e ∈ s.vars, e.2.keeps ≠ some n) → n < s.next →
      (∀ e ∈ (run s os).2.vars, e.2.keeps ≠ some n) := by
    intro os
    induction os with
    | nil => intro s n h _; exact h
    | cons o os ih =>
      intro s n h hlt
      have hb : ∀ x (w : W), w.keeps ≠ some n → ∀ e ∈ (s.bind x w).vars, e.2.keeps ≠ some n := by
        intro x w hw e he
        rcases List.mem_cons.1 he with rfl | he
        · exact hw
        · exact h e (List.mem_filter.1 he).1
      have hstep : (∀ e ∈ (step s o).2.vars, e.2.keeps ≠ some n) ∧ n < (step s o).2.next := by
        have hwith : ∀ z (f : W → S), (∀ w, (∀ e ∈ (f w).vars, e.2.keeps ≠ some n) ∧ n < (f w).next) →
            (∀ e ∈ (s.with z f).2.vars, e.2.keeps ≠ some n) ∧ n < (s.with z f).2.next := by
          intro z f hf
          simp only [S.with]
          split
          · exact ⟨h, hlt⟩
          · split
            · exact hf _
            · exact ⟨h, hlt⟩
        cases o with
        | «global» x => exact ⟨hb x _ (by simp), hlt⟩
        | call x =>
          refine ⟨hb x ⟨some s.next, [.copy s.next]⟩ ?_, Nat.lt_succ_of_lt hlt⟩
          simp only [ne_eq, Option.some.injEq]
          omega
        | request x => exact ⟨hb x _ (by simp), hlt⟩
        | member x z => exact hwith _ _ fun w => ⟨hb x _ (by simp), hlt⟩
        | elem x z c => exact hwith _ _ fun w => ⟨hb x _ (by simp), hlt⟩
        | target x z k =>
          refine hwith _ _ fun w => ?_
          split
          · exact ⟨hb x _ (by simp), hlt⟩
          · exact ⟨h, hlt⟩
        | copy x z =>
          simp only [step]
          split
          · exact ⟨h, hlt⟩
          · rename_i w hw
            exact ⟨hb x w (h _ (lookup_mem hw)), hlt⟩
        | drop x => exact ⟨fun e he => h e (List.mem_filter.1 he).1, hlt⟩
        | change k => exact ⟨h, hlt⟩
        | reset k => exact ⟨h, hlt⟩
        | use x => exact hwith _ _ fun w => ⟨h, hlt⟩
      exact ih _ n hstep.1 hstep.2
  have h5 := inv c _ s0.next h2 (by rw [h3]; omega)
  have h6 : lookup y (run (run s0 [.call t, .member y t, .drop t]).2 c).2.vars = some ⟨none, [.copy s0.next]⟩ := by
    rw [run_var y c _ hc, h4]
  rw [use_eq h6]
  have h7 : (run (run s0 [.call t, .member y t, .drop t]).2 c).2.usable ⟨none, [.copy s0.next]⟩ = false := by
    simp only [S.usable, List.all_cons, List.all_nil, Bool.and_true, S.has]
    rw [List.any_eq_false]
    intro e he
    simpa using h5 e he
  simp [h7]

private theorem gen_le (c : Nat) : ∀ (os : List Op) (s : S), s.gen c ≤ (run s os).2.gen c
  | [], s => Nat.le_refl _
  | o :: os, s => by
    refine Nat.le_trans ?_ (gen_le c os (step s o).2)
    have hwith : ∀ z (f : W → S), (∀ w, s.gen c ≤ (f w).gen c) → s.gen c ≤ (s.with z f).2.gen c := by
      intro z f hf
      simp only [S.with]
      split
      · exact Nat.le_refl _
      · split
        · exact hf _
        · exact Nat.le_refl _
    cases o with
    | «global» x => exact Nat.le_refl _
    | call x => exact Nat.le_refl _
    | request x => exact Nat.le_refl _
    | member x z => exact hwith _ _ fun w => Nat.le_refl _
    | elem x z k => exact hwith _ _ fun w => Nat.le_refl _
    | target x z k => refine hwith _ _ fun w => ?_; split <;> exact Nat.le_refl _
    | copy x z => simp only [step]; split <;> exact Nat.le_refl _
    | drop x => exact Nat.le_refl _
    | change k =>
      show s.gen c ≤ if c = k then s.gen c + 1 else s.gen c
      split <;> omega
    | reset k => exact Nat.le_refl _
    | use x => exact hwith _ _ fun w => Nat.le_refl _

/-- An element of a container that has been changed since. -/
theorem C92_fails_element (s : S) (a c d : List Op) (x y k : Nat) (w : W) (hy : lookup y (run s a).2.vars = some w)
    (hw : (run s a).2.usable w = true) (hc : ∀ o ∈ c, assigns o ≠ some x) (hd : ∀ o ∈ d, assigns o ≠ some x) :
    (step (run s (a ++ .elem x y k :: c ++ .change k :: d)).2 (.use x)).1 = .ub := by
  rw [run_append, run_append]
  simp only [run]
  generalize (run s a).2 = s0 at *
  have h1 : (step s0 (.elem x y k)).2 = s0.bind x ⟨none, .storage k (s0.gen k) :: w.needs⟩ := by
    simp [step, S.with, hy, hw]
  rw [h1]
  have h2 : lookup x (run (s0.bind x ⟨none, .storage k (s0.gen k) :: w.needs⟩) c).2.vars =
      some ⟨none, .storage k (s0.gen k) :: w.needs⟩ := by
    rw [run_var x c _ hc]; simp [S.bind, lookup]
  have h3 : s0.gen k ≤ (run (s0.bind x ⟨none, .storage k (s0.gen k) :: w.needs⟩) c).2.gen k := gen_le k c (s0.bind x _)
  generalize (run (s0.bind x ⟨none, .storage k (s0.gen k) :: w.needs⟩) c).2 = s1 at *
  have h4 : (step s1 (.change k)).2.gen k = s1.gen k + 1 := by simp [step]
  have h5 : lookup x (run (step s1 (.change k)).2 d).2.vars = some ⟨none, .storage k (s0.gen k) :: w.needs⟩ := by
    rw [run_var x d _ hd, ← h2]; rfl
  have h6 := gen_le k d (step s1 (.change k)).2
  rw [use_eq h5]
  have h7 : ¬ (run (step s1 (.change k)).2 d).2.gen k = s0.gen k := by omega
  simp [S.usable, S.has, h7]

private theorem live_le (t : Nat) : ∀ (os : List Op) (s : S), s.live t = false → (run s os).2.live t = false
  | [], s, h => h
  | o :: os, s, h => by
    refine live_le t os (step s o).2 ?_
    have hwith : ∀ z (f : W → S), (∀ w, (f w).live t = false) → (s.with z f).2.live t = false := by
      intro z f hf
      simp only [S.with]
      split
      · exact h
      · split
        · exact hf _
        · exact h
    cases o with
    | «global» x => exact h
    | call x => exact h
    | request x => exact h
    | member x z => exact hwith _ _ fun w => h
    | elem x z k => exact hwith _ _ fun w => h
    | target x z k => refine hwith _ _ fun w => ?_; split <;> exact h
    | copy x z => simp only [step]; split <;> exact h
    | drop x => exact h
    | change k => exact h
    | reset k =>
      show (if t = k then false else s.live t) = false
      split
      · rfl
      · exact h
    | use x => exact hwith _ _ fun w => h

/-- A member of the target of a smart pointer that has been reset since, even if it was a shared pointer. -/
theorem C92_fails_target (s : S) (a c d : List Op) (x y t : Nat) (w : W) (hy : lookup y (run s a).2.vars = some w)
    (hw : (run s a).2.usable w = true) (ht : (run s a).2.live t = true) (hc : ∀ o ∈ c, assigns o ≠ some x)
    (hd : ∀ o ∈ d, assigns o ≠ some x) :
    (step (run s (a ++ .target x y t :: c ++ .reset t :: d)).2 (.use x)).1 = .ub := by
  rw [run_append, run_append]
  simp only [run]
  generalize (run s a).2 = s0 at *
  have h1 : (step s0 (.target x y t)).2 = s0.bind x ⟨none, [.target t]⟩ := by
    simp [step, S.with, hy, hw, ht]
  rw [h1]
  have h2 : lookup x (run (s0.bind x ⟨none, [.target t]⟩) c).2.vars = some ⟨none, [.target t]⟩ := by
    rw [run_var x c _ hc]; simp [S.bind, lookup]
  generalize (run (s0.bind x ⟨none, [.target t]⟩) c).2 = s1 at *
  have h5 : lookup x (run (step s1 (.reset t)).2 d).2.vars = some ⟨none, [.target t]⟩ := by
    rw [run_var x d _ hd, ← h2]; rfl
  have h6 := live_le t d (step s1 (.reset t)).2 (by simp [step])
  rw [use_eq h5]
  simp [S.usable, S.has, h6]

/-- The REST request `f.m` for a member of what a function returns: the answer refers to a variable that is no
more. -/
theorem C92_fails_request (s : S) (a c : List Op) (x : Nat) (hc : ∀ o ∈ c, assigns o ≠ some x) :
    (step (run s (a ++ .request x :: c)).2 (.use x)).1 = .ub := by
  rw [run_append]
  simp only [run]
  rw [use_eq (w := ⟨none, [.never]⟩)]
  · rfl
  · rw [run_var x c _ hc]
    simp [step, S.bind, lookup]

/-! ### Instances -/

private def s0 : S := ⟨[], fun _ => 0, fun _ => true, 0⟩

example : (∀ o ∈ [Op.call 1, .member 2 1, .global 3, .elem 4 3 7, .target 5 4 2, .use 2, .use 5], C92.Calm o) ∧
    ([Op.call 1, .member 2 1, .global 3, .elem 4 3 7, .target 5 4 2, .use 2, .use 5].filterMap assigns).Nodup ∧
    (run s0 [.call 1, .member 2 1, .global 3, .elem 4 3 7, .target 5 4 2, .use 2, .use 5]).1 =
      [.ok, .ok, .ok, .ok, .ok, .ok, .ok] := by
  refine ⟨?_, by decide, by decide⟩
  intro o h
  simp only [List.mem_cons, List.not_mem_nil, or_false] at h
  rcases h with rfl | rfl | rfl | rfl | rfl | rfl | rfl <;> trivial

example : (step (run s0 ([] ++ [.call 0, .member 1 0, .drop 0] ++ [])).2 (.use 1)).1 = .ub :=
  C92_fails_member s0 [] [] 0 1 (by decide) (by simp) (by simp [run, s0])
example : (step (run s0 ([.global 0] ++ .elem 1 0 5 :: [] ++ .change 5 :: [])).2 (.use 1)).1 = .ub :=
  C92_fails_element s0 [.global 0] [] [] 1 0 5 ⟨none, []⟩ rfl rfl (by simp) (by simp)
example : (step (run s0 ([.global 0] ++ .target 1 0 5 :: [] ++ .reset 5 :: [])).2 (.use 1)).1 = .ub :=
  C92_fails_target s0 [.global 0] [] [] 1 0 5 ⟨none, []⟩ rfl rfl rfl (by simp) (by simp)
example : (step (run s0 ([] ++ .call 1 :: [.drop 7] ++ .member 2 1 :: [.global 3, .change 1])).2 (.use 2)).1 = .ok :=
  C92_member_partial s0 [] [.drop 7] [.global 3, .change 1] 1 2 (by decide) (by simp [assigns]) (by simp [assigns])

end Verif.PyLife
