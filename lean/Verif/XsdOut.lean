import Verif.Xsd

/-! The order in which the definitions are written out. -/
namespace Verif.Xsd
open Verif.OMap

/-- `Reach deps a b`: `b` is a dependency of `a`, directly or through others. -/
inductive Reach (deps : Name → List Name) : Name → Name → Prop
  | one {a b} : b ∈ deps a → Reach deps a b
  | step {a b c} : b ∈ deps a → Reach deps b c → Reach deps a c

/-- What a run of `outputType` for some of the types `from` does to the state. -/
structure Post (deps : Name → List Name) (src : Name → Prop) (w w' : W) (new : List Name) : Prop where
  out : w'.out = w.out ++ new
  written : ∀ x, x ∈ w'.written ↔ x ∈ w.written ∨ x ∈ new
  nodup : new.Nodup
  fresh : ∀ x ∈ new, x ∉ w.written
  reach : ∀ x ∈ new, ∃ t, src t ∧ (x = t ∨ Reach deps t x)
  order : ∀ pre x post, new = pre ++ x :: post → ∀ y ∈ deps x, ¬ Reach deps y x →
    y ∈ pre ∨ y ∈ w.written

theorem Post.refl {deps src} (w : W) : Post deps src w w [] :=
  ⟨by simp, by simp, by simp, by simp, by simp, by simp⟩

theorem Post.trans {deps src} {w w' w'' : W} {a b : List Name} (h : Post deps src w w' a)
    (h' : Post deps src w' w'' b) : Post deps src w w'' (a ++ b) where
  out := by rw [h'.out, h.out, List.append_assoc]
  written x := by rw [h'.written, h.written, List.mem_append, or_assoc]
  nodup := by
    rw [List.nodup_append]
    refine ⟨h.nodup, h'.nodup, ?_⟩
    rintro x hx y hy rfl
    exact h'.fresh x hy ((h.written x).2 (.inr hx))
  fresh x hx := by
    rcases List.mem_append.1 hx with hx | hx
    · exact h.fresh x hx
    · exact fun hw => h'.fresh x hx ((h.written x).2 (.inl hw))
  reach x hx := by
    rcases List.mem_append.1 hx with hx | hx
    · exact h.reach x hx
    · exact h'.reach x hx
  order pre x post he y hy hr := by
    rw [List.append_eq_append_iff] at he
    rcases he with ⟨c, hc, hc'⟩ | ⟨c, hc, hc'⟩
    · rcases h'.order c x post hc' y hy hr with h1 | h1
      · exact .inl (by simp [hc, h1])
      · rcases (h.written y).1 h1 with h1 | h1
        · exact .inr h1
        · exact .inl (by simp [hc, h1])
    · cases c with
      | nil =>
        simp only [List.append_nil, List.nil_append] at hc hc'
        rcases h'.order [] x post hc'.symm y hy hr with h1 | h1
        · simp at h1
        · rcases (h.written y).1 h1 with h1 | h1
          · exact .inr h1
          · exact .inl (hc ▸ h1)
      | cons z c =>
        simp only [List.cons_append, List.cons.injEq] at hc'
        obtain ⟨rfl, hc'⟩ := hc'
        exact h.order pre x c hc y hy hr

/-- How many of `U` are not yet written. -/
def todo (U : List Name) (w : List Name) : Nat := (U.filter (fun x => !w.contains x)).length

theorem todo_mono (U : List Name) {w w' : List Name} (h : ∀ x ∈ w, x ∈ w') : todo U w' ≤ todo U w := by
  unfold todo
  induction U with
  | nil => simp
  | cons a U ih =>
    simp only [List.filter_cons]
    by_cases ha : a ∈ w
    · simp [ha, h a ha]
      simpa using ih
    · by_cases ha' : a ∈ w'
      · simp [ha, ha']
        simp at ih; omega
      · simp [ha, ha']
        simpa using ih

theorem todo_lt {U : List Name} {w : List Name} {t : Name} (hU : t ∈ U) (ht : t ∉ w) :
    todo U (t :: w) < todo U w := by
  unfold todo
  induction U with
  | nil => simp at hU
  | cons a U ih =>
    have hm := todo_mono U (w := w) (w' := t :: w) (fun x hx => List.mem_cons_of_mem _ hx)
    unfold todo at hm
    simp only [List.filter_cons]
    by_cases hat : a = t
    · subst hat
      simp [ht] at hm ⊢
      omega
    · have hU' : t ∈ U := by
        rcases List.mem_cons.1 hU with h | h
        · exact absurd h.symm hat
        · exact h
      have := ih hU'
      by_cases ha : a ∈ w
      · simp [ha] at this ⊢; omega
      · simp [ha, hat] at this ⊢; omega

theorem outputType_post (deps : Name → List Name) (U : List Name)
    (hU : ∀ t ∈ U, ∀ y ∈ deps t, y ∈ U) : ∀ (fuel : Nat) (w : W) (t : Name), t ∈ U →
    todo U w.written < fuel →
    ∃ w' new, outputType deps fuel w t = .ok w' ∧ Post deps (· = t) w w' new ∧ t ∈ w'.written := by
  intro fuel
  induction fuel with
  | zero => intro w t _ h; omega
  | succ n ih =>
    intro w t ht hf
    unfold outputType
    by_cases hw : t ∈ w.written
    · exact ⟨w, [], by simp [hw], Post.refl w, hw⟩
    · simp only [hw, if_false]
      have hlt := todo_lt ht hw
      have key : ∀ (l : List Name) (w1 : W), (∀ y ∈ l, y ∈ deps t) → todo U w1.written < n →
          ∃ w2 new, each (outputType deps n) w1 l = .ok w2 ∧ Post deps (fun x => x ∈ deps t) w1 w2 new
            ∧ ∀ y ∈ l, y ∈ w2.written := by
        intro l
        induction l with
        | nil => intro w1 _ _; exact ⟨w1, [], rfl, Post.refl w1, by simp⟩
        | cons y l ihl =>
          intro w1 hl hw1
          obtain ⟨wa, na, ea, pa, ma⟩ := ih w1 y (hU t ht y (hl y (by simp))) hw1
          have hle := todo_mono U (w := w1.written) (w' := wa.written)
            (fun x hx => (pa.written x).2 (.inl hx))
          obtain ⟨wb, nb, eb, pb, mb⟩ := ihl wa (fun z hz => hl z (by simp [hz])) (by omega)
          refine ⟨wb, na ++ nb, by simp [each, ea, R.bind, eb], Post.trans ?_ pb, ?_⟩
          · exact ⟨pa.out, pa.written, pa.nodup, pa.fresh,
              fun x hx => by
                obtain ⟨s, rfl, h⟩ := pa.reach x hx
                exact ⟨s, hl s (by simp), h⟩, pa.order⟩
          · intro z hz
            rcases List.mem_cons.1 hz with rfl | hz
            · exact (pb.written z).2 (.inl ma)
            · exact mb z hz
      obtain ⟨w2, new, e2, p2, m2⟩ := key (deps t) { w with written := t :: w.written }
        (fun _ h => h) (by simp only; omega)
      have htn : t ∉ new := fun h => p2.fresh t h (by simp)
      refine ⟨{ w2 with out := w2.out ++ [t] }, new ++ [t], by simp [e2, R.bind], ?_,
        (p2.written t).2 (.inl (by simp))⟩
      have hreach : ∀ x ∈ new, Reach deps t x := by
        intro x hx
        obtain ⟨s, hs, h⟩ := p2.reach x hx
        rcases h with rfl | h
        · exact .one hs
        · exact .step hs h
      constructor
      · simp [p2.out]
      · intro x
        simp only
        rw [p2.written]
        simp only [List.mem_cons, List.mem_append, List.not_mem_nil, or_false]
        constructor
        · rintro ((h | h) | h)
          · exact .inr (.inr h)
          · exact .inl h
          · exact .inr (.inl h)
        · rintro (h | h | h)
          · exact .inl (.inr h)
          · exact .inr h
          · exact .inl (.inl h)
      · rw [List.nodup_append]
        refine ⟨p2.nodup, by simp, ?_⟩
        rintro x hx y hy rfl
        simp only [List.mem_singleton] at hy
        exact htn (hy ▸ hx)
      · intro x hx
        rcases List.mem_append.1 hx with hx | hx
        · exact fun h => p2.fresh x hx (List.mem_cons_of_mem _ h)
        · simp only [List.mem_singleton] at hx
          exact hx ▸ hw
      · intro x hx
        refine ⟨t, rfl, ?_⟩
        rcases List.mem_append.1 hx with hx | hx
        · exact .inr (hreach x hx)
        · simp only [List.mem_singleton] at hx
          exact .inl hx
      · intro pre x post he y hy hr
        rcases List.eq_nil_or_concat post with rfl | ⟨post', z, rfl⟩
        · have he' := List.append_inj_right' he rfl
          have he'' := List.append_inj_left' he rfl
          simp only [List.cons.injEq, and_true] at he'
          subst he' he''
          rcases (p2.written y).1 (m2 y hy) with h | h
          · rcases List.mem_cons.1 h with rfl | h
            · exact absurd (.one hy) hr
            · exact .inr h
          · exact .inl h
        · have he2 : new ++ [t] = (pre ++ x :: post') ++ [z] := by rw [he]; simp
          have he3 := List.append_inj_left' he2 rfl
          rcases p2.order pre x post' he3 y hy hr with h | h
          · exact .inl h
          · rcases List.mem_cons.1 h with rfl | h
            · exact absurd (hreach x (by rw [he3]; simp)) hr
            · exact .inr h

/-- The names that occur: keys and dependencies. -/
def univ (g : G) : List Name := g.defs.map (·.1) ++ g.deps.flatMap (fun e => e.2.map (·.1))

theorem mfind_mem {V : Type} (k : Name) (m : List (Name × V)) (v : V) (h : mfind strLt k m = some v) :
    ∃ k', (k', v) ∈ m := by
  induction m with
  | nil => simp [mfind] at h
  | cons e m ih =>
    obtain ⟨a, b⟩ := e
    simp only [mfind] at h
    split at h
    · simp at h
    · split at h
      · obtain ⟨k', hk⟩ := ih h
        exact ⟨k', by simp [hk]⟩
      · simp only [Option.some.injEq] at h
        exact ⟨a, by simp [h]⟩

theorem depsOf_univ (g : G) (t y : Name) (h : y ∈ g.depsOf t) : y ∈ univ g := by
  unfold G.depsOf at h
  cases hf : mfind strLt t g.deps with
  | none => simp [hf] at h
  | some s =>
    simp only [hf, Option.getD_some] at h
    obtain ⟨k', hk⟩ := mfind_mem _ _ _ hf
    unfold univ
    rw [List.mem_append]
    right
    rw [List.mem_flatMap]
    exact ⟨(k', s), hk, h⟩

theorem output_post (g : G) (fuel : Nat) (hf : (univ g).length < fuel) :
    ∃ names, output g fuel = .ok names ∧ names.Nodup ∧
      (∀ n ∈ g.defs.map (·.1), n ∈ names) ∧
      (∀ n ∈ names, n ∈ g.defs.map (·.1) ∨ ∃ t ∈ g.defs.map (·.1), Reach g.depsOf t n) ∧
      ∀ pre x post, names = pre ++ x :: post → ∀ y ∈ g.depsOf x, ¬ Reach g.depsOf y x → y ∈ pre := by
  have key : ∀ (l : List Name) (w1 : W), (∀ y ∈ l, y ∈ g.defs.map (·.1)) →
      ∃ w2 new, each (outputType g.depsOf fuel) w1 l = .ok w2 ∧
        Post g.depsOf (fun x => x ∈ g.defs.map (·.1)) w1 w2 new ∧ ∀ y ∈ l, y ∈ w2.written := by
    intro l
    induction l with
    | nil => intro w1 _; exact ⟨w1, [], rfl, Post.refl w1, by simp⟩
    | cons y l ihl =>
      intro w1 hl
      have hle : todo (univ g) w1.written ≤ (univ g).length := List.length_filter_le _ _
      obtain ⟨wa, na, ea, pa, ma⟩ := outputType_post g.depsOf (univ g)
        (fun t _ y hy => depsOf_univ g t y hy) fuel w1 y
        (by unfold univ; exact List.mem_append.2 (.inl (hl y (by simp)))) (by omega)
      obtain ⟨wb, nb, eb, pb, mb⟩ := ihl wa (fun z hz => hl z (by simp [hz]))
      refine ⟨wb, na ++ nb, by simp [each, ea, R.bind, eb], Post.trans ?_ pb, ?_⟩
      · exact ⟨pa.out, pa.written, pa.nodup, pa.fresh,
          fun x hx => by
            obtain ⟨s, rfl, h⟩ := pa.reach x hx
            exact ⟨s, hl s (by simp), h⟩, pa.order⟩
      · intro z hz
        rcases List.mem_cons.1 hz with rfl | hz
        · exact (pb.written z).2 (.inl ma)
        · exact mb z hz
  obtain ⟨w2, new, e, p, m⟩ := key (g.defs.map (·.1)) ⟨[], []⟩ (fun _ h => h)
  have ho : w2.out = new := by simpa using p.out
  refine ⟨new, by simp [output, e, R.bind, ho], p.nodup, ?_, ?_, ?_⟩
  · intro n hn
    simpa using (p.written n).1 (m n hn)
  · intro n hn
    obtain ⟨t, ht, h⟩ := p.reach n hn
    rcases h with rfl | h
    · exact .inl ht
    · exact .inr ⟨t, ht, h⟩
  · intro pre x post he y hy hr
    simpa using p.order pre x post he y hy hr

end Verif.Xsd
