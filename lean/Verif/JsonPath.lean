import Verif.Json
namespace Verif.Json
open OMap EnumKeys

/-! Paths as lists of names, and what the string handling of the code amounts to on them. -/

def DotFree (c : Str) : Prop := dot ∉ c
def DotFrees (cs : List Str) : Prop := ∀ c ∈ cs, DotFree c

/-- The string for a list of names: `.a.b.c`. -/
def render : List Str → Str
  | [] => []
  | c :: cs => dot :: (c ++ render cs)

/-- Spec: descending into nested objects by name. -/
def walk : J → List Str → R J
  | x, [] => .ok x
  | .obj m, c :: cs =>
    match mfind strLt c m with
    | some y => walk y cs
    | none => .throw .notFound
  | _, _ :: _ => .throw .packErr

/-- Replacing the value a path leads to. -/
def replace : J → List Str → J → J
  | _, [], v => v
  | .obj m, c :: cs, v =>
    match mfind strLt c m with
    | some y => .obj (mput strLt c (replace y cs v) m)
    | none => .obj m
  | x, _ :: _, _ => x

/-- JSON values whose objects are maps. -/
def WF : J → Prop
  | .obj m => Sorted strLt m ∧ ∀ e ∈ m, WF e.2
  | _ => True
termination_by j => sizeOf j
decreasing_by
  rename_i h
  have := List.sizeOf_lt_of_mem h
  rcases e with ⟨a, b⟩
  simp at this ⊢; omega

theorem render_append (a b : List Str) : render (a ++ b) = render a ++ render b := by
  induction a with
  | nil => rfl
  | cons c cs ih => simp [render, ih]

theorem render_head (cs : List Str) : render cs = [] ∨ ∃ r, render cs = dot :: r := by
  cases cs with
  | nil => exact .inl rfl
  | cons c cs => exact .inr ⟨_, rfl⟩

theorem takeWhile_comp {c : Str} (hc : DotFree c) {r : Str} (hr : r = [] ∨ ∃ r', r = dot :: r') :
    (c ++ r).takeWhile (· != dot) = c := by
  induction c with
  | nil => rcases hr with rfl | ⟨r', rfl⟩ <;> simp
  | cons x c ih =>
    have hx : x ≠ dot := by intro e; exact hc (by simp [e])
    have := ih (fun h => hc (List.mem_cons_of_mem _ h))
    simp [List.takeWhile_cons, hx, this]

theorem dropWhile_comp {c : Str} (hc : DotFree c) {r : Str} (hr : r = [] ∨ ∃ r', r = dot :: r') :
    (c ++ r).dropWhile (· != dot) = r := by
  induction c with
  | nil => rcases hr with rfl | ⟨r', rfl⟩ <;> simp
  | cons x c ih =>
    have hx : x ≠ dot := by intro e; exact hc (by simp [e])
    have := ih (fun h => hc (List.mem_cons_of_mem _ h))
    simp [List.dropWhile_cons, hx, this]

theorem contains_comp {c : Str} (hc : DotFree c) (cs : List Str) :
    (c ++ render cs).contains dot = !cs.isEmpty := by
  cases cs with
  | nil => simp [render]; exact hc
  | cons a b => simp [render]

theorem findN_render : ∀ (cs : List Str) (n : Nat) (x : J), DotFrees cs → (render cs).length ≤ n →
    findN n x (render cs) = walk x cs
  | [], n, x, _, _ => by cases n <;> simp [findN, render, walk]
  | c :: cs, 0, x, _, h => by simp [render] at h
  | c :: cs, n + 1, x, hd, h => by
    have hc : DotFree c := hd c (by simp)
    have hcs : DotFrees cs := fun a ha => hd a (by simp [ha])
    have hl : (render cs).length ≤ n := by simp [render] at h; omega
    unfold findN
    rw [if_neg (by simp [render])]
    simp only [render, List.head?_cons, if_true, List.drop_succ_cons, List.drop_zero]
    cases x with
    | obj m =>
      simp only [walk]
      rw [takeWhile_comp hc (render_head cs), dropWhile_comp hc (render_head cs),
        contains_comp hc cs]
      cases hf : mfind strLt c m with
      | none => rfl
      | some y =>
        cases cs with
        | nil => simp [walk]
        | cons a b =>
          simp only [List.isEmpty_cons, Bool.not_false, if_true]
          exact findN_render (a :: b) n y hcs hl
    | _ => simp [walk]

theorem find_render {cs : List Str} (hd : DotFrees cs) (x : J) : find x (render cs) = walk x cs :=
  findN_render cs _ x hd (Nat.le_refl _)

/-- A path may also be written without the leading dot. -/
theorem find_bare {c : Str} {cs : List Str} (hd : DotFrees (c :: cs)) (hc : c ≠ []) (x : J) :
    find x (c ++ render cs) = walk x (c :: cs) := by
  have hdc : DotFree c := hd c (by simp)
  have hcs : DotFrees cs := fun a ha => hd a (by simp [ha])
  obtain ⟨a, c', rfl⟩ := List.exists_cons_of_ne_nil hc
  have ha : a ≠ dot := fun e => hdc (by simp [e])
  unfold find
  obtain ⟨n, hn⟩ : ∃ n, (a :: c' ++ render cs).length = n + 1 := ⟨_, by simp; rfl⟩
  rw [hn]
  unfold findN
  rw [if_neg (by simp), if_neg (by simp [ha])]
  cases x with
  | obj m =>
    simp only [walk]
    rw [takeWhile_comp hdc (render_head cs), dropWhile_comp hdc (render_head cs),
      contains_comp hdc cs]
    cases hf : mfind strLt (a :: c') m with
    | none => rfl
    | some y =>
      cases cs with
      | nil => simp [walk]
      | cons u w =>
        simp only [List.isEmpty_cons, Bool.not_false, if_true]
        exact findN_render (u :: w) n y hcs (by simp at hn ⊢; omega)
  | _ => simp [walk]

theorem storeN_render : ∀ (cs : List Str) (n : Nat) (x v : J), DotFrees cs →
    (render cs).length ≤ n → storeN n x (render cs) v = replace x cs v
  | [], n, x, v, _, _ => by cases n <;> cases x <;> simp [storeN, render, replace]
  | c :: cs, 0, x, v, _, h => by simp [render] at h
  | c :: cs, n + 1, x, v, hd, h => by
    have hc : DotFree c := hd c (by simp)
    have hcs : DotFrees cs := fun a ha => hd a (by simp [ha])
    have hl : (render cs).length ≤ n := by simp [render] at h; omega
    unfold storeN
    rw [if_neg (by simp [render])]
    simp only [render, List.head?_cons, if_true, List.drop_succ_cons, List.drop_zero]
    cases x with
    | obj m =>
      simp only [replace]
      rw [takeWhile_comp hc (render_head cs), dropWhile_comp hc (render_head cs),
        contains_comp hc cs]
      cases hf : mfind strLt c m with
      | none => rfl
      | some y =>
        cases cs with
        | nil => cases y <;> simp [replace]
        | cons a b =>
          simp only [List.isEmpty_cons, Bool.not_false, if_true]
          rw [storeN_render (a :: b) n y v hcs hl]
    | _ => simp [replace]

theorem store_render {cs : List Str} (hd : DotFrees cs) (x v : J) :
    store x (render cs) v = replace x cs v :=
  storeN_render cs _ x v hd (Nat.le_refl _)

theorem tail_render {c : Str} (hc : DotFree c) (cs : List Str) : tail (render (cs ++ [c])) = c := by
  rw [render_append]
  unfold tail
  have : ((render cs ++ render [c]).reverse) = c.reverse ++ (dot :: (render cs).reverse) := by
    simp [render]
  rw [this, takeWhile_comp (by unfold DotFree at *; simpa using hc) (.inr ⟨_, rfl⟩)]
  simp

theorem head_render {c : Str} (hc : DotFree c) (cs : List Str) :
    head (render (cs ++ [c])) = render cs := by
  rw [render_append]
  unfold head
  rw [if_pos (by simp [render])]
  have : ((render cs ++ render [c]).reverse) = c.reverse ++ (dot :: (render cs).reverse) := by
    simp [render]
  rw [this, dropWhile_comp (by unfold DotFree at *; simpa using hc) (.inr ⟨_, rfl⟩)]
  simp

theorem tail_bare {c : Str} (hc : DotFree c) : tail c = c := by
  have := takeWhile_comp (c := c.reverse) (by unfold DotFree at *; simpa using hc) (r := []) (.inl rfl)
  simp only [List.append_nil] at this
  simp [tail, this]

theorem head_bare {c : Str} (hc : DotFree c) : head c = c := by
  unfold head
  rw [if_neg (by unfold DotFree at hc; simpa using hc)]

/-! ### Walking and replacing -/

theorem walk_append (x : J) (a b : List Str) : walk x (a ++ b) = (walk x a).bind (walk · b) := by
  induction a generalizing x with
  | nil => simp [walk, R.bind]
  | cons c cs ih =>
    cases x with
    | obj m =>
      simp only [List.cons_append, walk]
      cases mfind strLt c m with
      | none => rfl
      | some y => exact ih y
    | _ => rfl

theorem walk_snoc {x : J} {cs : List Str} {m : List (Str × J)} (h : walk x cs = .ok (.obj m))
    (k : Str) : walk x (cs ++ [k]) =
      match mfind strLt k m with
      | some y => .ok y
      | none => .throw .notFound := by
  rw [walk_append, h]
  simp only [R.bind, walk]

theorem wf_find {m : List (Str × J)} (h : WF (.obj m)) {k : Str} {y : J}
    (hf : mfind strLt k m = some y) : WF y := by
  rw [WF] at h
  exact h.2 _ ((mfind_iff_mem strOrd h.1 k y).1 hf)

theorem wf_put {m : List (Str × J)} (h : WF (.obj m)) (k : Str) {y : J} (hy : WF y) :
    WF (.obj (mput strLt k y m)) := by
  rw [WF] at h ⊢
  refine ⟨sorted_mput strOrd k y m h.1, fun e he => ?_⟩
  rcases mem_mput _ _ _ _ he with h' | he | ⟨v', _, he⟩
  · rw [h'.2]; exact hy
  · exact h.2 _ he
  · rw [he]; exact hy

theorem wf_replace {cs : List Str} {x v : J} (hx : WF x) (hv : WF v) : WF (replace x cs v) := by
  induction cs generalizing x with
  | nil => cases x <;> exact hv
  | cons c cs ih =>
    cases x with
    | obj m =>
      simp only [replace]
      cases hf : mfind strLt c m with
      | none => exact hx
      | some y => exact wf_put hx c (ih (wf_find hx hf))
    | _ => exact hx

theorem walk_wf {cs : List Str} {x y : J} (hx : WF x) (h : walk x cs = .ok y) : WF y := by
  induction cs generalizing x with
  | nil => simp only [walk] at h; cases h; exact hx
  | cons c cs ih =>
    cases x with
    | obj m =>
      simp only [walk] at h
      cases hf : mfind strLt c m with
      | none => simp [hf] at h
      | some z => rw [hf] at h; exact ih (wf_find hx hf) h
    | _ => simp [walk] at h

theorem walk_replace {cs : List Str} {x y v : J} (hx : WF x) (h : walk x cs = .ok y) :
    walk (replace x cs v) cs = .ok v := by
  induction cs generalizing x with
  | nil => cases x <;> rfl
  | cons c cs ih =>
    cases x with
    | obj m =>
      simp only [walk] at h
      cases hf : mfind strLt c m with
      | none => simp [hf] at h
      | some z =>
        rw [hf] at h
        simp only [replace, hf, walk]
        rw [WF] at hx
        rw [mfind_mput strOrd, if_pos rfl]
        exact ih (hx.2 _ ((mfind_iff_mem strOrd hx.1 c z).1 hf)) h
    | _ => simp [walk] at h

theorem replace_replace {cs : List Str} {x v w : J} (hx : WF x) :
    replace (replace x cs v) cs w = replace x cs w := by
  induction cs generalizing x with
  | nil => cases x <;> simp only [replace] <;> cases v <;> rfl
  | cons c cs ih =>
    cases x with
    | obj m =>
      simp only [replace]
      cases hf : mfind strLt c m with
      | none => simp [replace, hf]
      | some z =>
        have hs : Sorted strLt m := by rw [WF] at hx; exact hx.1
        simp only [replace]
        rw [mfind_mput strOrd, if_pos rfl]
        simp only
        rw [ih (wf_find hx hf)]
        congr 1
        apply Sorted.ext strOrd (sorted_mput strOrd _ _ _ (sorted_mput strOrd _ _ _ hs))
          (sorted_mput strOrd _ _ _ hs)
        intro k
        rw [mfind_mput strOrd, mfind_mput strOrd,
          mfind_mput strOrd]
        split <;> rfl
    | _ => rfl

/-- Replacing what was there changes nothing. -/
theorem replace_same {cs : List Str} {x v : J} (hx : WF x) (h : walk x cs = .ok v) :
    replace x cs v = x := by
  induction cs generalizing x with
  | nil => simp only [walk] at h; cases h; cases v <;> rfl
  | cons c cs ih =>
    cases x with
    | obj m =>
      simp only [walk] at h
      cases hf : mfind strLt c m with
      | none => simp [hf] at h
      | some z =>
        rw [hf] at h
        have hs : Sorted strLt m := by rw [WF] at hx; exact hx.1
        simp only [replace, hf]
        rw [ih (wf_find hx hf) h]
        congr 1
        apply Sorted.ext strOrd (sorted_mput strOrd _ _ _ hs) hs
        intro k
        rw [mfind_mput strOrd]
        split
        · subst_vars; exact hf.symm
        · rfl
    | _ => rfl

/-- Replacing inside what a longer path leads to. -/
theorem replace_snoc {cs : List Str} {x w : J} {m : List (Str × J)} (hx : WF x)
    (h : walk x cs = .ok (.obj m)) {k : Str} {y : J} (hk : mfind strLt k m = some y) :
    replace x (cs ++ [k]) w = replace x cs (.obj (mput strLt k w m)) := by
  induction cs generalizing x with
  | nil =>
    simp only [walk] at h; cases h
    simp only [List.nil_append, replace, hk]
  | cons c cs ih =>
    cases x with
    | obj m' =>
      simp only [walk] at h
      cases hf : mfind strLt c m' with
      | none => simp [hf] at h
      | some z =>
        rw [hf] at h
        simp only [List.cons_append, replace, hf]
        rw [ih (wf_find hx hf) h]
    | _ => simp [walk] at h

/-- Neither path leads through the other. -/
def Apart (p q : List Str) : Prop := ¬ p <+: q ∧ ¬ q <+: p

theorem walk_replace_apart {p q : List Str} {x v : J} (hx : WF x) (h : Apart p q) :
    walk (replace x p v) q = walk x q := by
  induction p generalizing x q with
  | nil => exact absurd (List.nil_prefix) h.1
  | cons c p ih =>
    cases q with
    | nil => exact absurd (List.nil_prefix) h.2
    | cons d q =>
      cases x with
      | obj m =>
        simp only [replace]
        cases hf : mfind strLt c m with
        | none => rfl
        | some z =>
          have hs : Sorted strLt m := by rw [WF] at hx; exact hx.1
          simp only [walk]
          rw [mfind_mput strOrd]
          by_cases hcd : d = c
          · subst hcd
            rw [if_pos rfl, hf]
            exact ih (wf_find hx hf) ⟨fun hp => h.1 (List.cons_prefix_cons.2 ⟨rfl, hp⟩),
              fun hp => h.2 (List.cons_prefix_cons.2 ⟨rfl, hp⟩)⟩
          · rw [if_neg hcd]
      | _ => rfl

end Verif.Json
