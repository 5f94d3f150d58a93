import Verif.PyRef
/-
C135: PyObjectRef.
-/
namespace Verif.PyRef

/-! ### Specification -/

/-- Who has references: the variables, and the program itself (as plain pointers it has to release or to give away).
Each reference has one owner; moving, releasing and constructing pass it on. -/
structure C135.Own where
  vars : List (Option (Option Obj))
  plain : List Obj

/-- The owners after a statement; `none` if the program gives away or releases a reference it does not have, or uses a variable that does not
exist. -/
def C135.Own.step (a : C135.Own) : Op → Option C135.Own
  | .made o => some { a with plain := o :: a.plain }
  | .gone o => if o ∈ a.plain then some { a with plain := a.plain.erase o } else none
  | .dflt => some { a with vars := a.vars ++ [some none] }
  | .own none => some { a with vars := a.vars ++ [some none] }
  | .own (some o) => if o ∈ a.plain then some ⟨a.vars ++ [some (some o)], a.plain.erase o⟩ else none
  | .move y => (get a.vars y).map fun q => { a with vars := a.vars.set y (some none) ++ [some q] }
  | .assign x y =>
    match get a.vars x, get a.vars y with
    | some _, some q => some { a with vars := if x = y then a.vars.set x (some none) else (a.vars.set x (some q)).set y (some none) }
    | _, _ => none
  | .store x none => (get a.vars x).map fun _ => { a with vars := a.vars.set x (some none) }
  | .store x (some o) =>
    match get a.vars x with
    | some _ => if o ∈ a.plain then some ⟨a.vars.set x (some (some o)), a.plain.erase o⟩ else none
    | none => none
  | .release x =>
    match get a.vars x with
    | some none => some a
    | some (some o) => some ⟨a.vars.set x (some none), o :: a.plain⟩
    | none => none
  | .drop x => (get a.vars x).map fun _ => { a with vars := a.vars.set x none }

def C135.Own.run : C135.Own → List Op → Option C135.Own
  | a, [] => some a
  | a, o :: os => (a.step o).bind fun a => a.run os

/-- The references to an object that have an owner. -/
def C135.Own.refs (a : C135.Own) (o : Obj) : Nat := a.vars.count (some (some o)) + a.plain.count o

open C135

/-! ### Proofs -/

private theorem count_set {l : List (Option (Option Obj))} {x : Nat} {p : Option Obj} (h : get l x = some p) (v : Option (Option Obj)) (o : Obj) :
    (l.set x v).count (some (some o)) + (if p = some o then 1 else 0) = l.count (some (some o)) + (if v = some (some o) then 1 else 0) := by
  unfold get at h
  induction l generalizing x with
  | nil => simp at h
  | cons a l ih =>
    cases x with
    | zero =>
      simp only [List.length_cons, Nat.zero_lt_succ, getElem?_pos, List.getElem_cons_zero, Option.join_some] at h
      subst h
      simp only [List.set_cons_zero, List.count_cons, beq_iff_eq, Option.some.injEq]
      omega
    | succ x =>
      simp only [List.getElem?_cons_succ] at h
      have := ih h
      simp only [List.set_cons_succ, List.count_cons]
      omega

private theorem get_set {l : List (Option (Option Obj))} {x y : Nat} {p : Option Obj} (h : get l y = some p) (hxy : x ≠ y) (v : Option (Option Obj)) :
    get (l.set x v) y = some p := by
  unfold get at *
  rw [List.getElem?_set_ne hxy]; exact h

private theorem count_erase {l : List Obj} {o : Obj} (h : o ∈ l) (x : Obj) : (l.erase o).count x + (if o = x then 1 else 0) = l.count x := by
  rw [List.count_erase]
  by_cases e : o = x
  · subst e
    have := List.count_pos_iff.2 h
    simp; omega
  · simp [e]

/-- The counts are those of the owners and of references elsewhere. -/
private def Inv (other : Obj → Nat) (s : S) (a : Own) : Prop := s.vars = a.vars ∧ ∀ o, s.rc o = other o + a.refs o

private theorem dec_inv {rc : Obj → Nat} {o : Obj} (h : 0 < rc o) : decref rc o = some (upd rc o (rc o - 1)) := by
  unfold decref; rw [if_neg (by omega)]

private theorem xdec {rc : Obj → Nat} {p : Option Obj} (h : ∀ o, p = some o → 0 < rc o) :
    ∃ rc', xdecref rc p = some rc' ∧ ∀ o, rc' o + (if p = some o then 1 else 0) = rc o := by
  cases p with
  | none => exact ⟨rc, rfl, by simp⟩
  | some x =>
    have := h x rfl
    refine ⟨_, dec_inv this, fun o => ?_⟩
    unfold upd
    by_cases e : o = x
    · subst e; simp; omega
    · simp [e, Ne.symm e]

private theorem held_pos {l : List (Option (Option Obj))} {x : Nat} {o : Obj} (h : get l x = some (some o)) : 0 < l.count (some (some o)) := by
  rw [List.count_pos_iff]
  unfold get at h
  exact List.mem_of_getElem? (by
    cases e : l[x]? with
    | none => simp [e] at h
    | some v => simp [e] at h; rw [h])

private theorem step_inv (other : Obj → Nat) (s : S) (a a' : Own) (hi : Inv other s a) (op : Op) (h : a.step op = some a') :
    ∃ s', step s op = some s' ∧ Inv other s' a' := by
  obtain ⟨hv, hc⟩ := hi
  have pos : ∀ x p, get a.vars x = some p → ∀ o, p = some o → 0 < s.rc o := by
    rintro x p hx o rfl
    have := held_pos hx
    rw [hc, Own.refs]; omega
  cases op with
  | made o =>
    simp only [Own.step, Option.some.injEq] at h
    subst h
    refine ⟨_, rfl, hv, fun x => ?_⟩
    have := hc x
    simp only [Own.refs, List.count_cons, upd] at this ⊢
    by_cases e : x = o
    · subst e; simp; omega
    · simp [e, Ne.symm e, this]
  | gone o =>
    simp only [Own.step] at h
    split at h
    · next hm =>
      simp only [Option.some.injEq] at h
      subst h
      have hp := List.count_pos_iff.2 hm
      have ho := hc o
      simp only [Own.refs] at ho
      refine ⟨{ s with rc := upd s.rc o (s.rc o - 1) }, ?_, hv, fun x => ?_⟩
      · simp [step, dec_inv (show 0 < s.rc o by omega)]
      · have hx := hc x
        have he := count_erase hm x
        simp only [Own.refs, upd] at hx ⊢
        by_cases e : x = o
        · subst e; simp at he ⊢; omega
        · simp [e, Ne.symm e] at he ⊢; omega
    · simp at h
  | dflt =>
    simp only [Own.step, Option.some.injEq] at h
    subst h
    refine ⟨_, rfl, by simp [hv], fun x => ?_⟩
    simpa [Own.refs] using hc x
  | own p =>
    cases p with
    | none =>
      simp only [Own.step, Option.some.injEq] at h
      subst h
      refine ⟨_, rfl, by simp [hv], fun x => ?_⟩
      simpa [Own.refs] using hc x
    | some o =>
      simp only [Own.step] at h
      split at h
      · next hm =>
        simp only [Option.some.injEq] at h
        subst h
        refine ⟨_, rfl, by simp [hv], fun x => ?_⟩
        have hx := hc x
        have he := count_erase hm x
        simp only [Own.refs, List.count_append, List.count_singleton, beq_iff_eq, Option.some.injEq] at hx ⊢
        omega
      · simp at h
  | move y =>
    simp only [Own.step, Option.map_eq_some_iff] at h
    obtain ⟨q, hy, rfl⟩ := h
    refine ⟨⟨s.rc, s.vars.set y (some none) ++ [some q]⟩, by simp [step, hv, hy], by simp [hv], fun x => ?_⟩
    have hx := hc x
    have := count_set hy (some none) x
    simp only [Own.refs, List.count_append, List.count_singleton, beq_iff_eq, Option.some.injEq, reduceCtorEq, if_false] at this hx ⊢
    omega
  | assign x y =>
    simp only [Own.step] at h
    split at h
    · next p q hx hy =>
      simp only [Option.some.injEq] at h
      subst h
      obtain ⟨rc', h1, h2⟩ := xdec (pos x p hx)
      refine ⟨⟨rc', (s.vars.set x (some q)).set y (some none)⟩, by simp [step, hv, hx, hy, h1], ?_, fun o => ?_⟩
      · by_cases e : x = y
        · subst e; simp [hv, List.set_set]
        · simp [e, hv]
      · have ho := hc o
        have h3 := h2 o
        by_cases e : x = y
        · subst e
          have c1 := count_set hx (some none) o
          simp only [Own.refs, if_true, Option.some.injEq, reduceCtorEq, if_false] at ho c1 ⊢
          omega
        · have c1 := count_set hx (some q) o
          have c2 := count_set (get_set hy e (some q)) (some none) o
          simp only [Own.refs, e, Option.some.injEq, reduceCtorEq, if_false] at ho c1 c2 ⊢
          omega
    · simp at h
  | store x p =>
    cases p with
    | none =>
      simp only [Own.step, Option.map_eq_some_iff] at h
      obtain ⟨q, hx, rfl⟩ := h
      obtain ⟨rc', h1, h2⟩ := xdec (pos x q hx)
      refine ⟨⟨rc', s.vars.set x (some none)⟩, by simp [step, hv, hx, h1], by simp [hv], fun o => ?_⟩
      have ho := hc o
      have h3 := h2 o
      have c1 := count_set hx (some none) o
      simp only [Own.refs, Option.some.injEq, reduceCtorEq, if_false] at ho c1 ⊢
      omega
    | some r =>
      simp only [Own.step] at h
      split at h
      · next q hx =>
        split at h
        · next hm =>
          simp only [Option.some.injEq] at h
          subst h
          obtain ⟨rc', h1, h2⟩ := xdec (pos x q hx)
          refine ⟨⟨rc', s.vars.set x (some (some r))⟩, by simp [step, hv, hx, h1], by simp [hv], fun o => ?_⟩
          have ho := hc o
          have h3 := h2 o
          have c1 := count_set hx (some (some r)) o
          have he := count_erase hm o
          simp only [Own.refs, Option.some.injEq] at ho c1 ⊢
          omega
        · simp at h
      · simp at h
  | release x =>
    simp only [Own.step] at h
    split at h
    · next hx =>
      simp only [Option.some.injEq] at h
      subst h
      refine ⟨⟨s.rc, s.vars.set x (some none)⟩, by simp [step, hv, hx], ?_, hc⟩
      simp only [hv]
      unfold get at hx
      apply List.ext_getElem?
      intro i
      by_cases e : x = i
      · subst e
        cases hl : a.vars[x]? with
        | none => simp [hl] at hx
        | some v =>
          simp [hl] at hx
          subst hx
          rw [List.getElem?_set]
          have := (List.getElem?_eq_some_iff.1 hl).1
          simp [this]
      · rw [List.getElem?_set_ne e]
    · next o hx =>
      simp only [Option.some.injEq] at h
      subst h
      refine ⟨⟨s.rc, s.vars.set x (some none)⟩, by simp [step, hv, hx], by simp [hv], fun r => ?_⟩
      have hr := hc r
      have c1 := count_set hx (some none) r
      simp only [Own.refs, List.count_cons, beq_iff_eq, Option.some.injEq, reduceCtorEq, if_false] at hr c1 ⊢
      omega
    · simp at h
  | drop x =>
    simp only [Own.step, Option.map_eq_some_iff] at h
    obtain ⟨q, hx, rfl⟩ := h
    obtain ⟨rc', h1, h2⟩ := xdec (pos x q hx)
    refine ⟨⟨rc', s.vars.set x none⟩, by simp [step, hv, hx, h1], by simp [hv], fun o => ?_⟩
    have ho := hc o
    have h3 := h2 o
    have c1 := count_set hx none o
    simp only [Own.refs, reduceCtorEq, if_false] at ho c1 ⊢
    omega

/-- C135: whatever a program does with its variables, as long as it gives to them only references that it has, nothing undefined happens, and the
count of every object is that of the references elsewhere and of those with an owner. -/
theorem C135_counted_partial (rc : Obj → Nat) (ops : List Op) (a : Own) (h : Own.run ⟨[], []⟩ ops = some a) :
    ∃ s, run ⟨rc, []⟩ ops = some s ∧ s.vars = a.vars ∧ ∀ o, s.rc o = rc o + a.refs o := by
  have : ∀ (ops : List Op) (s : S) (b a : Own), Inv rc s b → b.run ops = some a → ∃ s', run s ops = some s' ∧ Inv rc s' a := by
    intro ops
    induction ops with
    | nil =>
      intro s b a hi h
      simp only [Own.run, Option.some.injEq] at h
      subst h
      exact ⟨s, rfl, hi⟩
    | cons op ops ih =>
      intro s b a hi h
      simp only [Own.run, Option.bind_eq_some_iff] at h
      obtain ⟨b', h1, h2⟩ := h
      obtain ⟨s', h3, h4⟩ := step_inv rc s b b' hi op h1
      obtain ⟨s'', h5, h6⟩ := ih s' b' a h4 h2
      exact ⟨s'', by simp [run, h3, h5], h6⟩
  exact this ops ⟨rc, []⟩ ⟨[], []⟩ a ⟨rfl, by simp [Own.refs]⟩ h

/-- C135: hence an object a variable refers to is there, and when all variables are destroyed and the program has no reference left each object
is counted as before. -/
theorem C135_alive_partial (rc : Obj → Nat) (ops : List Op) (a : Own) (h : Own.run ⟨[], []⟩ ops = some a) :
    ∃ s, run ⟨rc, []⟩ ops = some s ∧ (∀ x o, get s.vars x = some (some o) → 0 < s.rc o) ∧
      ((∀ x p, get s.vars x ≠ some (some p)) → a.plain = [] → s.rc = rc) := by
  obtain ⟨s, h1, h2, h3⟩ := C135_counted_partial rc ops a h
  refine ⟨s, h1, fun x o hx => ?_, fun hn hp => ?_⟩
  · rw [h2] at hx
    have := held_pos hx
    rw [h3, Own.refs]; omega
  · funext o
    rw [h3, Own.refs, hp]
    have : a.vars.count (some (some o)) = 0 := by
      rw [List.count_eq_zero]
      intro hm
      obtain ⟨i, hi⟩ := List.mem_iff_getElem?.1 hm
      exact hn i o (by rw [h2, get, hi]; rfl)
    simp [this]

/-! ### Where it fails -/

/-- C135 fails for what a plain pointer is made of: two variables made of the same new reference release it twice. -/
theorem C135_fails_twice (rc : Obj → Nat) (o : Obj) (h : rc o = 0) : run ⟨rc, []⟩ [.made o, .own (some o), .own (some o), .drop 0, .drop 1] = none := by
  simp [run, step, get, xdecref, decref, upd, h]

private theorem raw_same {rc : Obj → Nat} {o : Obj} (h : 0 < rc o) : rawOf rc o = some rc := by
  have : rawOf rc o = some (upd (upd rc o (rc o + 1)) o (rc o)) := by
    simp [rawOf, incref, decref, upd, Nat.ne_of_gt h]
  rw [this]
  congr 1
  funext x
  unfold upd
  by_cases e : x = o
  · simp [e]
  · simp [e]

/-- C135 fails for a Python list made of a sequence of buffers: the references it releases when it goes have never been made.  The items are counted
as before when the list has been made, and once less for each place they have in it when it has gone, when there are that many references. -/
theorem C135_fails_list (rc : Obj → Nat) (l : List Obj) (h : ∀ o ∈ l, l.count o ≤ rc o) :
    listOf rc l = some rc ∧ ∃ rc', listGone rc l = some rc' ∧ ∀ o, rc' o = rc o - l.count o := by
  constructor
  · induction l with
    | nil => rfl
    | cons o l ih =>
      have ho := h o (by simp)
      simp only [List.count_cons_self] at ho
      rw [listOf, raw_same (by omega)]
      refine ih fun x hx => ?_
      have := h x (by simp [hx])
      rw [List.count_cons] at this
      omega
  · induction l generalizing rc with
    | nil => exact ⟨rc, rfl, by simp⟩
    | cons o l ih =>
      have ho := h o (by simp)
      simp only [List.count_cons_self] at ho
      obtain ⟨rc', h1, h2⟩ := ih (upd rc o (rc o - 1)) fun x hx => by
        have := h x (by simp [hx])
        rw [List.count_cons] at this
        unfold upd
        by_cases e : x = o
        · subst e; simp at this ⊢; omega
        · simp [e, Ne.symm e] at this ⊢; omega
      refine ⟨rc', by simp [listGone, dec_inv (show 0 < rc o by omega), h1], fun x => ?_⟩
      rw [h2, List.count_cons]
      unfold upd
      by_cases e : x = o
      · subst e; simp; omega
      · simp [e, Ne.symm e]

/-- Hence what only one buffer holds is gone when a list made of that buffer is, and the buffer's destructor is undefined. -/
theorem C135_fails_buffer (rc : Obj → Nat) (o : Obj) (h : rc o = 1) :
    ((listOf rc [o]).bind fun rc => (listGone rc [o]).bind fun rc => decref rc o) = none := by
  simp [listOf, raw_same (show 0 < rc o by omega), listGone, decref, upd, h]

private theorem item_counts {rc : Obj → Nat} {k v t : Obj} (hk : 0 < rc k) (hv : 0 < rc v) :
    ∃ rc', mapItem rc k v t = some rc' ∧ ∀ o, rc' o = rc o + (if k = o then 1 else 0) + (if v = o then 1 else 0) := by
  have e1 : incref rc k = some (upd rc k (rc k + 1)) := by simp [incref, Nat.ne_of_gt hk]
  let r1 := upd rc k (rc k + 1)
  have e2 : decref (upd r1 t (r1 t + 1)) t = some r1 := by
    have : decref (upd r1 t (r1 t + 1)) t = some (upd (upd r1 t (r1 t + 1)) t (r1 t)) := by simp [decref, upd]
    rw [this]
    congr 1
    funext x
    by_cases e : x = t
    · subst e; simp [upd]
    · simp [upd, e]
  have hv1 : 0 < r1 v := by
    show 0 < upd rc k (rc k + 1) v
    unfold upd; split <;> omega
  have e3 : incref r1 v = some (upd r1 v (r1 v + 1)) := by simp [incref, Nat.ne_of_gt hv1]
  have e4 : ((incref (upd r1 v (r1 v + 1)) v).bind fun rc => decref rc v) = some (upd r1 v (r1 v + 1)) :=
    raw_same (rc := upd r1 v (r1 v + 1)) (by simp [upd])
  refine ⟨upd r1 v (r1 v + 1), ?_, fun o => ?_⟩
  · simp only [mapItem, e1, Option.bind_some]
    rw [show decref (upd (upd rc k (rc k + 1)) t (upd rc k (rc k + 1) t + 1)) t = some r1 from e2]
    simp only [Option.bind_some, e3, e4]
  · show upd (upd rc k (rc k + 1)) v (upd rc k (rc k + 1) v + 1) o = _
    unfold upd
    by_cases a : o = k <;> by_cases c : o = v
    · subst a; subst c; simp
    · subst a; simp [c, Ne.symm c]
    · subst c; simp [a, Ne.symm a]
    · simp [a, c, Ne.symm a, Ne.symm c]

/-- C70 fails for reading a Python mapping as JSON: every key and every value is counted once too often for each time, so that none of them is ever
released. -/
theorem C70_fails_mapping (rc : Obj → Nat) (l : List (Obj × Obj × Obj)) (h : ∀ e ∈ l, 0 < rc e.1 ∧ 0 < rc e.2.1) :
    ∃ rc', readMap rc l = some rc' ∧ ∀ o, rc' o = rc o + (l.map (·.1)).count o + (l.map (·.2.1)).count o := by
  induction l generalizing rc with
  | nil => exact ⟨rc, rfl, by simp⟩
  | cons e l ih =>
    obtain ⟨k, v, t⟩ := e
    obtain ⟨r1, h1, h2⟩ := item_counts (t := t) (h (k, v, t) (by simp)).1 (h (k, v, t) (by simp)).2
    obtain ⟨r2, h3, h4⟩ := ih r1 fun e he => by
      have := h e (by simp [he])
      rw [h2, h2]; omega
    refine ⟨r2, by simp [readMap, h1, h3], fun o => ?_⟩
    rw [h4, h2]
    simp only [List.map_cons, List.count_cons, beq_iff_eq]
    omega

/-! ### Instances -/

/-- A new reference given to a variable, moved twice, by assignment and to a new variable, taken out and released. -/
example : Own.run ⟨[], []⟩ [.made 5, .own (some 5), .dflt, .assign 1 0, .move 1, .release 2, .gone 5, .drop 0, .drop 1, .drop 2] =
    some ⟨[none, none, none], []⟩ := rfl

/-- A variable moved to itself loses what it had, which is released. -/
example : (run ⟨fun _ => 1, []⟩ [.made 5, .own (some 5), .assign 0 0]).map (fun s => (s.rc 5, get s.vars 0)) = some (1, some none) := by decide
/-- Nothing is defined for a variable that has been destroyed. -/
theorem C135_fails_destroyed (s s' : S) (x y : Nat) (p : Option Obj) (h : step s (.drop x) = some s') :
    ∀ op ∈ [Op.move x, .assign x y, .assign y x, .store x p, .release x, .drop x], step s' op = none := by
  have hg : get s'.vars x = none := by
    simp only [step] at h
    split at h
    · cases h
    · rw [Option.map_eq_some_iff] at h
      obtain ⟨rc, _, rfl⟩ := h
      simp only [get, List.getElem?_set]
      split <;> (try split) <;> simp_all
  intro op ho
  simp only [List.mem_cons, List.not_mem_nil, or_false] at ho
  rcases ho with rfl | rfl | rfl | rfl | rfl | rfl <;> simp only [step, hg]
  cases get s'.vars y <;> rfl


end Verif.PyRef
