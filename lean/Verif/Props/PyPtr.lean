import Verif.PyPtr
/-
C128: smart pointers in Python.
-/
namespace Verif.PyPtr
variable {α : Type}

/-! ### Specification: objects live for ever -/

/-- Pointers, objects and variables as Python has them: nothing is ever destroyed. -/
structure C128.W (α : Type) where
  ptr : Nat → Option Nat
  obj : Nat → α
  py : Nat → Option (Held α)

/-- Some pointer still refers to the object, or a variable got it through a data member. -/
def C128.Kept (g : Cfg) (w : C128.W α) (o : Nat) : Prop :=
  (∃ i, i < g.n ∧ w.ptr i = some o) ∨ ∃ r, r < g.m ∧ w.py r = some (.obj o true)

/-- The statement uses an object to which no pointer refers. -/
def C128.Lost (g : Cfg) (w : C128.W α) : Op α → Prop
  | .copy _ r => ∃ o k, w.py r = some (.obj o k) ∧ ¬C128.Kept g w o
  | .read r => ∃ o k, w.py r = some (.obj o k) ∧ ¬C128.Kept g w o
  | .write r _ => ∃ o k, w.py r = some (.obj o k) ∧ ¬C128.Kept g w o
  | _ => False

def C128.assignTo (g : Cfg) (v : Nat) (x : α) (w : C128.W α) : Out α × C128.W α :=
  match w.ptr v, g.assignable with
  | some o, true => (.done, { w with obj := fun i => if i = o then x else w.obj i })
  | _, _ => (.raised, w)

def C128.does (g : Cfg) (w : C128.W α) : Op α → Out α × C128.W α
  | .get k r v =>
    match w.ptr v with
    | none => (.raised, w)
    | some o => (.done, { w with py := fun i => if i = r then some (if g.basic then .val (w.obj o) else .obj o k) else w.py i })
  | .put v x => C128.assignTo g v x w
  | .copy v r =>
    match w.py r with
    | none => (.raised, w)
    | some (.val x) => C128.assignTo g v x w
    | some (.obj o _) => C128.assignTo g v (w.obj o) w
  | .read r =>
    match w.py r with
    | none => (.raised, w)
    | some (.val x) => (.value x, w)
    | some (.obj o _) => (.value (w.obj o), w)
  | .write r x =>
    match w.py r with
    | some (.obj o _) => (.done, { w with obj := fun i => if i = o then x else w.obj i })
    | _ => (.raised, w)
  | .assign v u => (.done, { w with ptr := fun i => if i = v then w.ptr u else w.ptr i })
  | .clear v => (.done, { w with ptr := fun i => if i = v then none else w.ptr i })

/-- What the program shows. -/
def C128.shows (g : Cfg) : C128.W α → List (Op α) → List (Out α)
  | _, [] => []
  | w, op :: l => (C128.does g w op).1 :: C128.shows g (C128.does g w op).2 l

/-- Some statement uses an object to which no pointer refers any more. -/
def C128.Loses (g : Cfg) : C128.W α → List (Op α) → Prop
  | _, [] => False
  | w, op :: l => C128.Lost g w op ∨ C128.Loses g (C128.does g w op).2 l

/-- The pointers of the statement are among those there are. -/
def C128.Within (g : Cfg) : Op α → Prop
  | .get _ r v => r < g.m ∧ v < g.n
  | .put v _ => v < g.n
  | .copy v _ => v < g.n
  | .assign v u => v < g.n ∧ u < g.n
  | .clear v => v < g.n
  | _ => True

/-- A program starts with objects that are all referred to. -/
structure C128.Starts (g : Cfg) (s : St α) (w : C128.W α) : Prop where
  ptr : s.ptr = w.ptr
  py : s.py = w.py
  heap : ∀ o, (C128.Kept g w o → s.heap o = some (w.obj o)) ∧ (¬C128.Kept g w o → s.heap o = none)

open C128

/-! ### Proof -/

private theorem keeps_iff (o : Nat) (x : Option (Held α)) : keeps o x = true ↔ x = some (.obj o true) := by
  unfold keeps
  split
  · simp
  · rename_i h
    constructor
    · simp
    · intro e
      exact absurd e (h o)

private theorem owned_iff (g : Cfg) (s : St α) (w : W α) (h1 : s.ptr = w.ptr) (h2 : s.py = w.py) (o : Nat) :
    owned g s o = true ↔ Kept g w o := by
  simp [owned, Kept, keeps_iff, h1, h2]

private theorem kept_of {g : Cfg} {w : W α} {v o : Nat} (h : v < g.n) (e : w.ptr v = some o) : Kept g w o := .inl ⟨v, h, e⟩

private theorem set_obj {g : Cfg} {s : St α} {w : W α} (h : Starts g s w) {o : Nat} (x : α) (hk : Kept g w o) :
    Starts g { s with heap := upd s.heap o (some x) } { w with obj := fun i => if i = o then x else w.obj i } := by
  refine ⟨h.ptr, h.py, fun i => ⟨fun hi => ?_, fun hi => ?_⟩⟩
  · simp only [upd]
    split
    · rfl
    · exact (h.heap i).1 hi
  · simp only [upd]
    split
    · rename_i e; subst e; exact absurd hk hi
    · exact (h.heap i).2 hi

private theorem settled {g : Cfg} {s s' : St α} {w w' : W α} (h : Starts g s w) (h1 : s'.ptr = w'.ptr) (h2 : s'.py = w'.py)
    (h3 : s'.heap = s.heap) (h4 : w'.obj = w.obj) (hk : ∀ o, Kept g w' o → Kept g w o) : Starts g (settle g s') w' := by
  refine ⟨h1, h2, fun o => ?_⟩
  have ho := owned_iff g s' w' h1 h2 o
  simp only [settle]
  constructor
  · intro hi
    rw [if_pos (ho.2 hi), h3, h4]
    exact (h.heap o).1 (hk o hi)
  · intro hi
    rw [if_neg (fun hc => hi (ho.1 hc))]

private theorem set_ptr {g : Cfg} {s : St α} {w : W α} (h : Starts g s w) (v : Nat) (p : Option Nat) (hp : ∀ o, p = some o → Kept g w o) :
    Starts g (settle g { s with ptr := upd s.ptr v p }) { w with ptr := fun i => if i = v then p else w.ptr i } := by
  refine settled h (by rw [← h.ptr]; rfl) h.py rfl rfl fun o hk => ?_
  rcases hk with ⟨i, hi, hio⟩ | hr
  · simp only at hio
    split at hio
    · exact hp o hio
    · exact .inl ⟨i, hi, hio⟩
  · exact .inr hr

private theorem set_py {g : Cfg} {s : St α} {w : W α} (h : Starts g s w) (r : Nat) (x : Held α)
    (hx : ∀ o, x = .obj o true → Kept g w o) :
    Starts g (settle g { s with py := upd s.py r (some x) }) { w with py := fun i => if i = r then some x else w.py i } := by
  refine settled h h.ptr (by rw [← h.py]; rfl) rfl rfl fun o hk => ?_
  rcases hk with hi | ⟨i, hi, hio⟩
  · exact .inl hi
  · simp only at hio
    split at hio
    · exact hx o (Option.some.inj hio)
    · exact .inr ⟨i, hi, hio⟩

private theorem setter_ok {g : Cfg} {s : St α} {w : W α} (h : Starts g s w) {v : Nat} (hv : v < g.n) (x : α) :
    (setter g v x s).1 = (assignTo g v x w).1 ∧ Starts g (setter g v x s).2 (assignTo g v x w).2 := by
  obtain ⟨sp, sh, sy⟩ := s
  obtain ⟨wp, wo, wy⟩ := w
  obtain rfl : sp = wp := h.ptr
  obtain rfl : sy = wy := h.py
  unfold setter assignTo
  cases e : sp v with
  | none => simpa [e] using h
  | some o =>
    cases ha : g.assignable
    · simpa [e, ha] using h
    · simpa [e, ha] using set_obj h x (kept_of hv e)

private theorem heap_cases {g : Cfg} {s : St α} {w : W α} (h : Starts g s w) (o : Nat) :
    (Kept g w o ∧ s.heap o = some (w.obj o)) ∨ (¬Kept g w o ∧ s.heap o = none) := by
  by_cases hk : Kept g w o
  · exact .inl ⟨hk, (h.heap o).1 hk⟩
  · exact .inr ⟨hk, (h.heap o).2 hk⟩

private theorem step_ok {g : Cfg} {s : St α} {w : W α} (h : Starts g s w) (op : Op α) (hw : Within g op) :
    (Lost g w op ∧ step g s op = none) ∨
    (¬Lost g w op ∧ ∃ s', step g s op = some ((does g w op).1, s') ∧ Starts g s' (does g w op).2) := by
  obtain ⟨sp, sh, sy⟩ := s
  obtain ⟨wp, wo, wy⟩ := w
  obtain rfl : sp = wp := h.ptr
  obtain rfl : sy = wy := h.py
  cases op with
  | get k r v =>
    refine .inr ⟨id, ?_⟩
    simp only [step, does]
    cases e : sp v with
    | none => exact ⟨_, rfl, h⟩
    | some o =>
      have hk := (h.heap o).1 (kept_of hw.2 e)
      cases hb : g.basic
      · refine ⟨_, ?_, set_py h r (.obj o k) fun i hi => ?_⟩
        · simp
        · cases hi
          exact kept_of hw.2 e
      · refine ⟨_, ?_, set_py h r (.val (wo o)) fun i hi => by cases hi⟩
        simp only at hk
        simp [hk]
  | put v x =>
    refine .inr ⟨id, (setter g v x ⟨sp, sh, sy⟩).2, ?_, (setter_ok h hw x).2⟩
    simp only [step, does, ← (setter_ok h hw x).1]
  | copy v r =>
    simp only [step, does, Lost]
    cases e : sy r with
    | none => exact .inr ⟨by simp, _, rfl, h⟩
    | some x =>
      cases x with
      | val x => exact .inr ⟨by simp, (setter g v x ⟨sp, sh, sy⟩).2, by simp only [← (setter_ok h hw x).1], (setter_ok h hw x).2⟩
      | obj o k =>
        rcases heap_cases h o with ⟨hk, he⟩ | ⟨hk, he⟩ <;> simp only at he
        · refine .inr ⟨by simpa using hk, (setter g v (wo o) ⟨sp, sh, sy⟩).2, ?_, (setter_ok h hw _).2⟩
          simp only [he, Option.map_some, ← (setter_ok h hw (wo o)).1]
        · exact .inl ⟨⟨o, k, rfl, hk⟩, by simp [he]⟩
  | read r =>
    simp only [step, does, Lost]
    cases e : sy r with
    | none => exact .inr ⟨by simp, _, rfl, h⟩
    | some x =>
      cases x with
      | val x => exact .inr ⟨by simp, _, rfl, h⟩
      | obj o k =>
        rcases heap_cases h o with ⟨hk, he⟩ | ⟨hk, he⟩ <;> simp only at he
        · exact .inr ⟨by simpa using hk, _, by simp [he], h⟩
        · exact .inl ⟨⟨o, k, rfl, hk⟩, by simp [he]⟩
  | write r x =>
    simp only [step, does, Lost]
    cases e : sy r with
    | none => exact .inr ⟨by simp, _, rfl, h⟩
    | some y =>
      cases y with
      | val y => exact .inr ⟨by simp, _, rfl, h⟩
      | obj o k =>
        rcases heap_cases h o with ⟨hk, he⟩ | ⟨hk, he⟩ <;> simp only at he
        · exact .inr ⟨by simpa using hk, _, by simp [he], set_obj h x hk⟩
        · exact .inl ⟨⟨o, k, rfl, hk⟩, by simp [he]⟩
  | assign v u =>
    refine .inr ⟨id, _, rfl, ?_⟩
    exact set_ptr h v (sp u) fun o e => kept_of hw.2 e
  | clear v => exact .inr ⟨id, _, rfl, set_ptr h v none fun o e => by cases e⟩

/-- C128, exactly: a program in Python shows what it would if objects lived for ever, unless it uses an object that it got from a pointer when no
pointer refers to the object any more; that is undefined behaviour. -/
theorem C128_exact (g : Cfg) : ∀ (p : List (Op α)) (s : St α) (w : W α), Starts g s w → (∀ op ∈ p, Within g op) →
    (Loses g w p → run g s p = none) ∧ (¬Loses g w p → run g s p = some (shows g w p))
  | [], _, _, _, _ => ⟨fun h => h.elim, fun _ => rfl⟩
  | op :: l, s, w, h, hw => by
    rcases step_ok h op (hw op (by simp)) with ⟨h1, h2⟩ | ⟨h1, s', h2, h3⟩
    · exact ⟨fun _ => by simp [run, h2], fun hn => absurd (.inl h1) hn⟩
    · have ih := C128_exact g l s' _ h3 fun o ho => hw o (by simp [ho])
      constructor
      · rintro (hl | hl)
        · exact absurd hl h1
        · simp [run, h2, ih.1 hl]
      · intro hn
        simp [run, h2, ih.2 (fun hl => hn (.inr hl)), shows]

/-- C128: for values there is nothing to lose: with a basic type every program shows what it should. -/
theorem C128_basic (g : Cfg) (hb : g.basic = true) (p : List (Op α)) (s : St α) (w : W α) (h : Starts g s w)
    (hv : ∀ r o k, w.py r ≠ some (.obj o k)) (hw : ∀ op ∈ p, Within g op) : run g s p = some (shows g w p) := by
  refine (C128_exact g p s w h hw).2 ?_
  clear h hw s
  induction p generalizing w with
  | nil => exact id
  | cons op l ih =>
    rintro (hl | hl)
    · cases op <;> first | exact hl | exact hl.elim fun o ho => ho.elim fun k hk => hv _ o k hk.1
    · refine ih _ ?_ hl
      cases op with
      | get k r v =>
        simp only [does]
        split
        · exact hv
        · intro r' o' k'
          simp only [hb, if_true]
          split
          · simp
          · exact hv r' o' k'
      | put v x => simp only [does, assignTo]; split <;> exact hv
      | copy v r => simp only [does, assignTo]; split <;> first | exact hv | (split <;> exact hv)
      | read r => simp only [does]; split <;> exact hv
      | write r x => simp only [does]; split <;> exact hv
      | assign v u => exact hv
      | clear v => exact hv

/-- The program uses pointers that are data members only. -/
def C128.Members (p : List (Op α)) : Prop := ∀ r v, Op.get false r v ∉ p

/-- C128, for data members: every program shows what it would if objects lived for ever. -/
theorem C128_members (g : Cfg) (p : List (Op α)) (s : St α) (w : W α) (h : Starts g s w) (hv : ∀ r, w.py r = none)
    (hm : Members p) (hw : ∀ op ∈ p, Within g op) : run g s p = some (shows g w p) := by
  refine (C128_exact g p s w h hw).2 ?_
  have hv' : ∀ r o k, w.py r = some (.obj o k) → r < g.m ∧ k = true := fun r o k e => by rw [hv r] at e; cases e
  clear h hv s
  induction p generalizing w with
  | nil => exact id
  | cons op l ih =>
    have hl : ∀ r o k, w.py r = some (.obj o k) → Kept g w o := fun r o k e => by
      obtain ⟨h1, rfl⟩ := hv' r o k e
      exact .inr ⟨r, h1, e⟩
    rintro (hx | hx)
    · cases op <;> first | exact hx | exact hx.elim fun o ho => ho.elim fun k hk => hk.2 (hl _ o k hk.1)
    · refine ih _ (fun r v hc => hm r v (List.mem_cons_of_mem _ hc)) (fun o ho => hw o (List.mem_cons_of_mem _ ho)) ?_ hx
      have hw0 := hw op (by simp)
      cases op with
      | get k r v =>
        have hk : k = true := by
          cases k
          · exact absurd (List.mem_cons_self ..) (hm r v)
          · rfl
        subst hk
        simp only [does]
        split
        · exact hv'
        · intro r' o' k'
          simp only
          split
          · rename_i e
            subst e
            intro e'
            cases hb : g.basic <;> simp [hb] at e'
            exact ⟨hw0.1, e'.2⟩
          · exact hv' r' o' k'
      | put v x => simp only [does, assignTo]; split <;> exact hv'
      | copy v r => simp only [does, assignTo]; split <;> first | exact hv' | (split <;> exact hv')
      | read r => simp only [does]; split <;> exact hv'
      | write r x => simp only [does]; split <;> exact hv'
      | assign v u => exact hv'
      | clear v => exact hv'

/-- An element of a container: the object got from it is gone once the element is given another pointer. -/
theorem C128_fails_element (g : Cfg) (hb : g.basic = false) (hn : 1 < g.n) (hm : 0 < g.m) (x y : α) (s : St α)
    (hs : s = ⟨fun i => if i = 0 then some 0 else if i = 1 then some 1 else none,
      fun o => if o = 0 then some x else if o = 1 then some y else none, fun _ => none⟩) :
    run g s [.get false 0 0, .assign 0 1, .read 0] = none ∧
    run g s [.get true 0 0, .assign 0 1, .read 0] = some [.done, .done, .value x] := by
  let w : W α := ⟨fun i => if i = 0 then some 0 else if i = 1 then some 1 else none, fun o => if o = 0 then x else y, fun _ => none⟩
  have hst : Starts g s w := by
    subst hs
    refine ⟨rfl, rfl, fun o => ⟨?_, ?_⟩⟩
    · rintro (⟨i, hi, hio⟩ | ⟨r, hr, hro⟩)
      · simp only [w] at hio ⊢
        split at hio
        · cases hio; simp
        · split at hio
          · cases hio; simp
          · cases hio
      · cases hro
    · intro hk
      simp only
      split
      · rename_i e; subst e; exact absurd (.inl ⟨0, by omega, by simp [w]⟩) hk
      · split
        · rename_i e; subst e; exact absurd (.inl ⟨1, by omega, by simp [w]⟩) hk
        · rfl
  constructor
  · refine (C128_exact g _ _ w hst ?_).1 ?_
    · intro op ho
      simp only [List.mem_cons, List.not_mem_nil, or_false] at ho
      rcases ho with rfl | rfl | rfl <;> simp only [Within] <;> omega
    · refine .inr (.inr (.inl ⟨0, false, ?_, ?_⟩))
      · simp [does, w, hb]
      · rintro (⟨i, hi, hio⟩ | ⟨r, hr, hro⟩)
        · simp only [does, w] at hio
          simp at hio
          split at hio <;> simp_all
        · simp [does, w, hb] at hro
  · refine C128_members g _ _ w hst (fun _ => rfl) ?_ ?_ |>.trans ?_
    · intro r v hc
      simp at hc
    · intro op ho
      simp only [List.mem_cons, List.not_mem_nil, or_false] at ho
      rcases ho with rfl | rfl | rfl <;> simp only [Within] <;> omega
    · simp [shows, does, w, hb]

/-- Two members that share an object, a value put through one of them and read through the other. -/
example : run ⟨true, true, 2, 2⟩ (⟨fun _ => some 0, fun o => if o = 0 then some 5 else none, fun _ => none⟩ : St Nat)
    [.put 0 7, .get true 0 1, .read 0, .clear 1, .put 1 8, .get true 1 0, .read 1]
    = some [.done, .done, .value 7, .done, .raised, .done, .value 7] := rfl

end Verif.PyPtr
