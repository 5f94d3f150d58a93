import Verif.PyReg
import Verif.Props.Rest
/- C100 -/
namespace Verif.PyReg
open Verif.Rest Verif.OMap
open Verif.Rest.C33 (Split answer)

/-! ### Specification -/

/-- The references there are to an object: by the program, and by the module. -/
def C100.refs (s : St) (o : Obj) : Int := s.held.count o + (s.attrs.map (·.2)).count o

/-- A call of `register` that names `o`, and the name. -/
def C100.Names (kind : Obj → Kind) (args : List Obj) (o : Obj) (e : Ent) (k : Str) : Prop :=
  ∃ a rest n, args = o :: a :: rest ∧ kind o = .wrapper e ∧ kind a = .str n ∧ k = n.takeWhile (· != 0)

/-- What a program leaves behind under a name: `none` if nothing has been done with it. -/
inductive C100.Last (kind : Obj → Kind) (k : Str) : List Op → Option (Option (Obj × Ent)) → Prop
  | nil : Last kind k [] none
  | named {ops args o e x} : Last kind k ops x → C100.Names kind args o e k → Last kind k (ops ++ [.register args]) (some (some (o, e)))
  | unnamed {ops args x} : Last kind k ops x → (∀ o e, ¬ C100.Names kind args o e k) → Last kind k (ops ++ [.register args]) x
  | deleted {ops x} : Last kind k ops x → Last kind k (ops ++ [.delete k]) (some none)
  | other {ops k' x} : Last kind k ops x → k' ≠ k → Last kind k (ops ++ [.delete k']) x
  | hold {ops o x} : Last kind k ops x → Last kind k (ops ++ [.hold o]) x
  | drop {ops o x} : Last kind k ops x → Last kind k (ops ++ [.drop o]) x

/-- The references a call of `register` takes and never gives back; for None less the one it gives away without having
it. -/
def C100.lost (kind : Obj → Kind) (args : List Obj) (o : Obj) : Int :=
  match args with
  | x :: a :: _ =>
    match kind x, kind a with
    | .wrapper _, .str _ => (if x = o then 1 else 0) + (if a = o then 1 else 0) - (if 0 = o then 1 else 0)
    | .wrapper _, _ => (if x = o then 1 else 0) + (if a = o then 1 else 0)
    | _, _ => if x = o then 1 else 0
  | _ => 0

/-- The same for a program. -/
def C100.lostBy (kind : Obj → Kind) (o : Obj) : List Op → Int
  | [] => 0
  | .register args :: ops => C100.lost kind args o + lostBy kind o ops
  | _ :: ops => lostBy kind o ops

open C100

/-! ### Lists of attributes -/

private theorem get_put (k q : Str) (v : Obj) : ∀ l, get q (put k v l) = if q = k then some v else get q l
  | [] => by
    by_cases h : q = k
    · simp [put, get, h]
    · simp [put, get, h, Ne.symm h]
  | e :: l => by
    have ih := get_put k q v l
    simp only [put]
    split
    · rename_i h
      by_cases hq : q = k
      · simp [get, hq]
      · have : ¬ e.1 = q := by rw [h]; exact Ne.symm hq
        simp [get, hq, Ne.symm hq, this]
    · rename_i h
      simp only [get]
      split
      · rename_i h2
        have : ¬ q = k := by rw [← h2]; exact h
        simp [this]
      · exact ih

private theorem count_put (k : Str) (v o : Obj) : ∀ l, (((put k v l).map (·.2)).count o : Int) =
    (l.map (·.2)).count o + (if v = o then 1 else 0) - (if get k l = some o then 1 else 0)
  | [] => by by_cases h : v = o <;> simp [put, get, h, List.count_cons]
  | e :: l => by
    have ih := count_put k v o l
    simp only [put]
    split
    · rename_i h
      by_cases h1 : v = o <;> by_cases h2 : e.2 = o <;> simp [get, h, h1, h2, List.count_cons]
    · rename_i h
      simp only [get, h, if_false, List.map_cons, List.count_cons]
      by_cases h2 : e.2 = o <;> simp [h2] <;> omega

private theorem count_del (k : Str) (o : Obj) : ∀ l, (((del k l).map (·.2)).count o : Int) =
    (l.map (·.2)).count o - (if get k l = some o then 1 else 0)
  | [] => by simp [del, get]
  | e :: l => by
    have ih := count_del k o l
    simp only [del]
    split
    · rename_i h
      by_cases h2 : e.2 = o <;> simp [get, h, h2, List.count_cons]
    · rename_i h
      simp only [get, h, if_false, List.map_cons, List.count_cons]
      by_cases h2 : e.2 = o <;> simp [h2] <;> omega

private theorem keys_put (k : Str) (v : Obj) : ∀ l : List (Str × Obj), ∀ x, x ∈ (put k v l).map (·.1) → x = k ∨ x ∈ l.map (·.1)
  | [], x, h => by simp [put] at h; exact .inl h
  | e :: l, x, h => by
    simp only [put] at h
    split at h
    · simp at h ⊢; rcases h with h | h
      · exact .inl h
      · exact .inr (.inr h)
    · simp only [List.map_cons, List.mem_cons] at h ⊢
      rcases h with h | h
      · exact .inr (.inl h)
      · rcases keys_put k v l x h with h | h
        · exact .inl h
        · exact .inr (.inr h)

private theorem nodup_put (k : Str) (v : Obj) : ∀ l : List (Str × Obj), (l.map (·.1)).Nodup → ((put k v l).map (·.1)).Nodup
  | [], _ => by simp [put]
  | e :: l, h => by
    simp only [List.map_cons, List.nodup_cons] at h
    simp only [put]
    split
    · rename_i h1; rw [← h1]; simp [h.1, h.2]
    · rename_i h1
      simp only [List.map_cons, List.nodup_cons]
      refine ⟨fun h2 => ?_, nodup_put k v l h.2⟩
      rcases keys_put k v l _ h2 with h2 | h2
      · exact h1 h2
      · exact h.1 h2

private theorem del_sub (k : Str) : ∀ l : List (Str × Obj), (del k l).Sublist l
  | [] => .slnil
  | e :: l => by
    simp only [del]
    split
    · exact List.sublist_cons_self e l
    · exact (del_sub k l).cons_cons e

private theorem get_del (k q : Str) : ∀ l : List (Str × Obj), (l.map (·.1)).Nodup → get q (del k l) = if q = k then none else get q l
  | [], _ => by simp [del, get]
  | e :: l, h => by
    simp only [List.map_cons, List.nodup_cons] at h
    have ih := get_del k q l h.2
    have no : ∀ (l : List (Str × Obj)), q ∉ l.map (·.1) → get q l = none := by
      intro l
      induction l with
      | nil => intro _; rfl
      | cons x l ih =>
        intro hx
        simp only [List.map_cons, List.mem_cons, not_or] at hx
        simp [get, Ne.symm hx.1, ih hx.2]
    simp only [del]
    split
    · rename_i h1
      by_cases hq : q = k
      · simp only [hq, if_true]
        rw [← hq]
        exact no l (by rw [hq, ← h1]; exact h.1)
      · have : ¬ e.1 = q := by rw [h1]; exact Ne.symm hq
        simp [get, hq, this]
    · rename_i h1
      simp only [get]
      split
      · rename_i h2
        have : ¬ q = k := by rw [← h2]; exact h1
        simp [this]
      · exact ih

/-! ### Counting -/

private theorem incs (o : Obj) : ∀ (l : List Obj) (s : St), (l.foldl St.inc s).rc o = s.rc o + l.count o ∧
    (l.foldl St.inc s).held = s.held ∧ (l.foldl St.inc s).attrs = s.attrs ∧ (l.foldl St.inc s).reg = s.reg
  | [], s => by simp
  | x :: l, s => by
    obtain ⟨h1, h2, h3, h4⟩ := incs o l (s.inc x)
    refine ⟨?_, h2, h3, h4⟩
    rw [List.foldl_cons, h1, List.count_cons]
    by_cases h : x = o
    · subst h; simp [St.inc]; omega
    · simp [St.inc, h, Ne.symm h]

private theorem decs (o : Obj) : ∀ (l : List Obj) (s : St), (l.foldl St.dec s).rc o = s.rc o - l.count o ∧
    (l.foldl St.dec s).held = s.held ∧ (l.foldl St.dec s).attrs = s.attrs ∧ (l.foldl St.dec s).reg = s.reg
  | [], s => by simp
  | x :: l, s => by
    obtain ⟨h1, h2, h3, h4⟩ := decs o l (s.dec x)
    refine ⟨?_, h2, h3, h4⟩
    rw [List.foldl_cons, h1, List.count_cons]
    by_cases h : x = o
    · subst h; simp [St.dec]; omega
    · simp [St.dec, h, Ne.symm h]

private theorem add_facts (s : St) (k : Str) (v o : Obj) :
    (s.addObject k v).rc o = s.rc o - (if get k s.attrs = some o then 1 else 0) ∧
    (s.addObject k v).held = s.held ∧ (s.addObject k v).attrs = put k v s.attrs ∧ (s.addObject k v).reg = s.reg := by
  simp only [St.addObject]
  cases h : get k s.attrs with
  | none => simp
  | some x =>
    simp only [St.dec, Option.some.injEq]
    refine ⟨?_, trivial, trivial, trivial⟩
    by_cases hx : o = x
    · simp [hx]
    · simp [hx, Ne.symm hx]

private theorem reg_facts (kind : Obj → Kind) (args : List Obj) (s : St) (o : Obj) :
    (registerObject kind true args s).2.held = s.held ∧
    (registerObject kind true args s).2.rc o - ((registerObject kind true args s).2.attrs.map (·.2)).count o =
      s.rc o - (s.attrs.map (·.2)).count o + lost kind args o +
        (if (registerObject kind true args s).1 = some o then 1 else 0) ∧
    ((registerObject kind true args s).1 = none ∨ (registerObject kind true args s).1 = some 0) := by
  have inc_rc : ∀ (s : St) (x : Obj), (s.inc x).rc o = s.rc o + if x = o then 1 else 0 := by
    intro s x
    by_cases h : o = x
    · simp [St.inc, h]
    · simp [St.inc, h, Ne.symm h]
  rcases args with _ | ⟨x, _ | ⟨a, l⟩⟩
  · simp [registerObject, lost]
  · simp [registerObject, lost]
  · simp only [registerObject, Bool.true_eq_false, if_false, lost]
    cases hx : kind x with
    | wrapper e =>
      cases ha : kind a with
      | str n =>
        simp only []
        generalize ht : ({ (s.inc x).inc a with reg := mput strLt (cstr n) e ((s.inc x).inc a).reg } : St) = t
        have t1 : t.rc o = s.rc o + (if x = o then 1 else 0) + if a = o then 1 else 0 := by
          subst ht; show ((s.inc x).inc a).rc o = _; rw [inc_rc, inc_rc]
        have t2 : t.attrs = s.attrs := by subst ht; rfl
        have t3 : t.held = s.held := by subst ht; rfl
        obtain ⟨f1, f2, f3, _⟩ := add_facts t (cstr n) x o
        have f4 : ((t.addObject (cstr n) x).inc x).attrs = put (cstr n) x s.attrs := by rw [← t2]; exact f3
        refine ⟨f2.trans t3, ?_, by simp⟩
        rw [inc_rc, f1, t1, t2, f4, count_put]
        by_cases h0 : (0 : Nat) = o <;> simp [h0] <;> omega
      | _ =>
        simp only []
        refine ⟨rfl, ?_, by simp⟩
        rw [inc_rc, inc_rc]
        simp only [St.inc]
        simp
        omega
    | _ =>
      simp only []
      refine ⟨rfl, ?_, by simp⟩
      rw [inc_rc]
      simp only [St.inc]
      simp
      omega

/-- What is not a reference that somebody has. -/
private def extra (s : St) (o : Obj) : Int := s.rc o - refs s o

private theorem extra_step (kind : Obj → Kind) (s : St) (op : Op) (o : Obj) :
    extra (step kind true s op) o = extra s o + lostBy kind o [op] := by
  cases op with
  | hold x =>
    simp only [step, extra, refs, lostBy, St.inc, List.count_cons]
    by_cases h : o = x
    · subst h; simp; omega
    · simp [h, Ne.symm h]
  | drop x =>
    simp only [step, lostBy]
    split
    · rename_i hx
      simp only [extra, refs, St.dec, List.count_erase]
      by_cases h : o = x
      · subst h
        have := List.count_pos_iff.2 hx
        simp; omega
      · simp [h, Ne.symm h]
    · simp
  | delete k =>
    simp only [step, lostBy]
    cases h : get k s.attrs with
    | none => simp
    | some x =>
      simp only [extra, refs, St.dec]
      rw [count_del, h]
      by_cases hx : o = x
      · subst hx; simp; omega
      · simp [hx, Ne.symm hx]
  | register args =>
    obtain ⟨h1, h2, h3, _⟩ := incs o args s
    simp only [step, lostBy]
    generalize args.foldl St.inc s = s1 at h1 h2 h3 ⊢
    obtain ⟨r1, r2, r3⟩ := reg_facts kind args s1 o
    generalize registerObject kind true args s1 = r at r1 r2 r3 ⊢
    obtain ⟨d1, d2, d3, _⟩ := decs o args r.2
    generalize args.foldl St.dec r.2 = s2 at d1 d2 d3 ⊢
    rw [h1, h3] at r2
    rcases r3 with r3 | r3
    · rw [r3] at r2 ⊢
      simp only [extra, refs, d1, d2, d3, r1, h2]
      simp at r2
      omega
    · rw [r3] at r2 ⊢
      simp only [extra, refs, St.dec, d1, d2, d3, r1, h2]
      by_cases h0 : o = 0
      · simp [h0] at r2 ⊢; omega
      · simp [h0, Ne.symm h0] at r2 ⊢; omega

private theorem lostBy_append (kind : Obj → Kind) (o : Obj) : ∀ l m : List Op, lostBy kind o (l ++ m) = lostBy kind o l + lostBy kind o m
  | [], m => by simp [lostBy]
  | op :: l, m => by
    have ih := lostBy_append kind o l m
    cases op <;> simp only [List.cons_append, lostBy, ih] <;> omega

/-- C100: at any time the reference count of an object is the number of references to it (those of the program and
attributes of the module) together with what calls of `register` have lost. -/
theorem C100_counts (kind : Obj → Kind) (ops : List Op) (s : St) (o : Obj) :
    (run kind true s ops).rc o - refs (run kind true s ops) o = s.rc o - refs s o + lostBy kind o ops := by
  induction ops generalizing s with
  | nil => simp [run, lostBy]
  | cons op ops ih =>
    have h1 := extra_step kind s op o
    have h2 := ih (step kind true s op)
    have h3 := lostBy_append kind o [op] ops
    simp only [List.cons_append, List.nil_append] at h3
    simp only [run, List.foldl_cons, extra] at h1 h2 ⊢
    rw [h3]
    omega

private theorem lost_nonneg (kind : Obj → Kind) (o : Obj) (ho : o ≠ 0) : ∀ ops, 0 ≤ lostBy kind o ops
  | [] => by simp [lostBy]
  | op :: ops => by
    have ih := lost_nonneg kind o ho ops
    cases op with
    | register args =>
      simp only [lostBy]
      have : 0 ≤ lost kind args o := by
        simp only [lost]
        split
        · split
          · simp only [Ne.symm ho, if_false]; split <;> split <;> omega
          · split <;> split <;> omega
          · split <;> omega
        · omega
      omega
    | _ => simpa [lostBy] using ih

/-- C100: no object but None is deleted while there are references to it. -/
theorem C100_alive_partial (kind : Obj → Kind) (ops : List Op) (s : St) (o : Obj) (ho : o ≠ 0) (hs : s.rc o = refs s o) :
    refs (run kind true s ops) o ≤ (run kind true s ops).rc o := by
  have h := C100_counts kind ops s o
  have := lost_nonneg kind o ho ops
  omega

/-- C100 fails: an object that `register` has been called with, whether it worked or not, is never deleted. -/
theorem C100_fails_leak (kind : Obj → Kind) (before after : List Op) (s : St) (o a : Obj) (l : List Obj) (ho : o ≠ 0)
    (hs : s.rc o = refs s o) :
    refs (run kind true s (before ++ .register (o :: a :: l) :: after)) o <
      (run kind true s (before ++ .register (o :: a :: l) :: after)).rc o := by
  have h := C100_counts kind (before ++ .register (o :: a :: l) :: after) s o
  rw [lostBy_append] at h
  have h1 := lost_nonneg kind o ho before
  have h2 := lost_nonneg kind o ho after
  have h3 : 1 ≤ lost kind (o :: a :: l) o := by
    simp only [lost, if_true]
    split
    · simp only [Ne.symm ho, if_false]; split <;> omega
    · split <;> omega
    · omega
  simp only [lostBy] at h
  omega

/-- C100 fails: every call that works gives away a reference to None that it does not have.  After as many calls as the
interpreter has references of its own, the count is the number of the program's, and dropping these deletes None (before
Python 3.12, which does not count references to it). -/
theorem C100_fails_none (kind : Obj → Kind) (o a : Obj) (ho : o ≠ 0) (ha : a ≠ 0) (e : Ent) (n : Str)
    (hk : kind o = .wrapper e) (hn : kind a = .str n) (s : St) (i : Nat) :
    (run kind true s (List.replicate i (.register [o, a]))).rc 0 -
      refs (run kind true s (List.replicate i (.register [o, a]))) 0 = s.rc 0 - refs s 0 - i := by
  rw [C100_counts]
  have : lostBy kind 0 (List.replicate i (.register [o, a])) = -(i : Int) := by
    induction i with
    | zero => simp [lostBy]
    | succ i ih =>
      simp only [List.replicate_succ, lostBy, ih, lost, hk, hn, ho, ha, if_true, if_false]
      omega
  omega

/-! ### Names -/

private theorem foldl_inc_same (l : List Obj) (s : St) : (l.foldl St.inc s).attrs = s.attrs ∧ (l.foldl St.inc s).reg = s.reg :=
  ⟨(incs 0 l s).2.2.1, (incs 0 l s).2.2.2⟩

private theorem foldl_dec_same (l : List Obj) (s : St) : (l.foldl St.dec s).attrs = s.attrs ∧ (l.foldl St.dec s).reg = s.reg :=
  ⟨(decs 0 l s).2.2.1, (decs 0 l s).2.2.2⟩

private theorem step_same (kind : Obj → Kind) (args : List Obj) (s : St) :
    (step kind true s (.register args)).attrs = (registerObject kind true args (args.foldl St.inc s)).2.attrs ∧
    (step kind true s (.register args)).reg = (registerObject kind true args (args.foldl St.inc s)).2.reg := by
  obtain ⟨d1, d2⟩ := foldl_dec_same args (registerObject kind true args (args.foldl St.inc s)).2
  simp only [step]
  split
  · exact ⟨d1, d2⟩
  · exact ⟨d1, d2⟩

/-- What a call does to the names. -/
private theorem names_step (kind : Obj → Kind) (args : List Obj) (s : St) :
    (∃ o e k, Names kind args o e k ∧ (step kind true s (.register args)).attrs = put k o s.attrs ∧
      (step kind true s (.register args)).reg = mput strLt k e s.reg) ∨
    ((∀ o e k, ¬ Names kind args o e k) ∧ (step kind true s (.register args)).attrs = s.attrs ∧
      (step kind true s (.register args)).reg = s.reg) := by
  obtain ⟨i1, i2⟩ := foldl_inc_same args s
  obtain ⟨f1, f2⟩ := step_same kind args s
  rw [f1, f2, ← i1, ← i2]
  clear f1 f2 i1 i2
  generalize args.foldl St.inc s = s1
  rcases args with _ | ⟨x, _ | ⟨a, l⟩⟩
  · right; refine ⟨?_, rfl, rfl⟩
    rintro o e k ⟨a, rest, n, h, _⟩; cases h
  · right; refine ⟨?_, rfl, rfl⟩
    rintro o e k ⟨a, rest, n, h, _⟩; cases h
  · simp only [registerObject, Bool.true_eq_false, if_false]
    cases hx : kind x with
    | wrapper e =>
      cases ha : kind a with
      | str n =>
        left
        refine ⟨x, e, cstr n, ⟨a, l, n, rfl, hx, ha, rfl⟩, ?_, ?_⟩
        · exact (add_facts { (s1.inc x).inc a with reg := mput strLt (cstr n) e s1.reg } (cstr n) x 0).2.2.1
        · exact (add_facts { (s1.inc x).inc a with reg := mput strLt (cstr n) e s1.reg } (cstr n) x 0).2.2.2
      | _ =>
        right
        refine ⟨?_, rfl, rfl⟩
        rintro o e' k ⟨a', rest, n, h, _, h2, _⟩
        cases h; rw [ha] at h2; cases h2
    | _ =>
      right
      refine ⟨?_, rfl, rfl⟩
      rintro o e' k ⟨a', rest, n, h, h2, _⟩
      cases h; rw [hx] at h2; cases h2

private theorem names_unique {kind : Obj → Kind} {args : List Obj} {o o' : Obj} {e e' : Ent} {k k' : Str}
    (h : Names kind args o e k) (h' : Names kind args o' e' k') : o = o' ∧ e = e' ∧ k = k' := by
  obtain ⟨a, r, n, rfl, h1, h2, rfl⟩ := h
  obtain ⟨a', r', n', h3, h4, h5, rfl⟩ := h'
  cases h3
  rw [h1] at h4; cases h4
  rw [h2] at h5; cases h5
  exact ⟨rfl, rfl, rfl⟩

private theorem nodup_step (kind : Obj → Kind) (s : St) (op : Op) (h : (s.attrs.map (·.1)).Nodup) :
    ((step kind true s op).attrs.map (·.1)).Nodup := by
  cases op with
  | hold o => exact h
  | drop o => simp only [step]; split <;> exact h
  | register args =>
    rcases names_step kind args s with ⟨o, e, k, _, h2, _⟩ | ⟨_, h2, _⟩ <;> rw [h2]
    · exact nodup_put k o _ h
    · exact h
  | delete k =>
    simp only [step]
    split
    · exact ((del_sub k s.attrs).map _).nodup h
    · exact h

/-- C100: after any program a name of the module is the object it was given to last, and it is so in the registry too; what
has been deleted is gone from the module, but not from the registry. -/
theorem C100_names_partial (kind : Obj → Kind) (k : Str) (ops : List Op) (x : Option (Option (Obj × Ent)))
    (hl : Last kind k ops x) (s : St) (hs : (s.attrs.map (·.1)).Nodup) :
    ((run kind true s ops).attrs.map (·.1)).Nodup ∧
    match x with
    | none => get k (run kind true s ops).attrs = get k s.attrs ∧ mfind strLt k (run kind true s ops).reg = mfind strLt k s.reg
    | some none => get k (run kind true s ops).attrs = none
    | some (some (o, e)) => get k (run kind true s ops).attrs = some o ∧ mfind strLt k (run kind true s ops).reg = some e := by
  have app : ∀ (ops : List Op) (op : Op), run kind true s (ops ++ [op]) = step kind true (run kind true s ops) op := by
    intro ops op; simp [run]
  induction hl with
  | nil => exact ⟨hs, rfl, rfl⟩
  | @named ops args o e x _ hn ih =>
    rw [app]
    generalize run kind true s ops = t at ih
    refine ⟨nodup_step kind t _ ih.1, ?_⟩
    rcases names_step kind args t with ⟨o', e', k', h1, h2, h3⟩ | ⟨h1, _⟩
    · obtain ⟨rfl, rfl, rfl⟩ := names_unique hn h1
      refine ⟨?_, ?_⟩
      · rw [h2, get_put, if_pos rfl]
      · rw [h3, mfind_mput strOrd, if_pos rfl]
    · exact absurd hn (h1 o e k)
  | @unnamed ops args x _ hn ih =>
    rw [app]
    generalize run kind true s ops = t at ih
    refine ⟨nodup_step kind t _ ih.1, ?_⟩
    have same : get k (step kind true t (.register args)).attrs = get k t.attrs ∧
        mfind strLt k (step kind true t (.register args)).reg = mfind strLt k t.reg := by
      rcases names_step kind args t with ⟨o', e', k', h1, h2, h3⟩ | ⟨_, h2, h3⟩
      · have : k ≠ k' := fun h => hn o' e' (h ▸ h1)
        exact ⟨by rw [h2, get_put, if_neg this], by rw [h3, mfind_mput strOrd, if_neg this]⟩
      · exact ⟨by rw [h2], by rw [h3]⟩
    rcases x with _ | _ | ⟨o, e⟩
    · exact ⟨same.1.trans ih.2.1, same.2.trans ih.2.2⟩
    · exact same.1.trans ih.2
    · exact ⟨same.1.trans ih.2.1, same.2.trans ih.2.2⟩
  | @deleted ops x _ ih =>
    rw [app]
    generalize run kind true s ops = t at ih
    refine ⟨nodup_step kind t _ ih.1, ?_⟩
    simp only [step]
    cases h : get k t.attrs with
    | none => exact h
    | some o => simp only []; rw [get_del k k _ ih.1, if_pos rfl]
  | @other ops k' x _ hk ih =>
    rw [app]
    generalize run kind true s ops = t at ih
    refine ⟨nodup_step kind t _ ih.1, ?_⟩
    have same : get k (step kind true t (.delete k')).attrs = get k t.attrs ∧ (step kind true t (.delete k')).reg = t.reg := by
      simp only [step]
      cases h : get k' t.attrs with
      | none => exact ⟨rfl, rfl⟩
      | some o => exact ⟨by simp only []; rw [get_del k' k _ ih.1, if_neg (Ne.symm hk)], rfl⟩
    rcases x with _ | _ | ⟨o, e⟩
    · exact ⟨same.1.trans ih.2.1, by rw [same.2]; exact ih.2.2⟩
    · exact same.1.trans ih.2
    · exact ⟨same.1.trans ih.2.1, by rw [same.2]; exact ih.2.2⟩
  | @hold ops o x _ ih => rw [app]; exact ih
  | @drop ops o x _ ih =>
    rw [app]
    have : (step kind true (run kind true s ops) (.drop o)).attrs = (run kind true s ops).attrs ∧
        (step kind true (run kind true s ops) (.drop o)).reg = (run kind true s ops).reg := by
      simp only [step]; split <;> exact ⟨rfl, rfl⟩
    rw [this.1, this.2]; exact ih

/-- C100: requests for what has been registered, or for something in it, go to it, if nothing with a longer name is
registered. -/
theorem C100_rest_partial (kind : Obj → Kind) (s : St) (args : List Obj) (o : Obj) (e : Ent) (k rest : Str)
    (h : Names kind args o e k) (hk : k ≠ []) (hr : rest = [] ∨ rest.head? = some 46) (hq : k ++ rest ≠ b "@enum.@list")
    (hmax : ∀ p r, Split (k ++ rest) p r → k.length < p.length → mfind strLt p s.reg = none) :
    process (step kind true s (.register args)).reg (k ++ rest) = answer e rest := by
  rcases names_step kind args s with ⟨o', e', k', h1, _, h3⟩ | ⟨h1, _⟩
  · obtain ⟨rfl, rfl, rfl⟩ := names_unique h h1
    rw [h3]
    refine C33_longest_partial hq hk ⟨rfl, ?_⟩ (by rw [mfind_mput strOrd, if_pos rfl]) fun p r hs hl => ?_
    · rcases hr with hr | hr
      · exact .inl hr
      · exact .inr (.inl hr)
    · have : p ≠ k := fun h => by rw [h] at hl; omega
      rw [mfind_mput strOrd, if_neg this]
      exact hmax p r hs hl
  · exact absurd h (h1 o e k)

/-- C100 fails: members of an object that had the name before are still found under it. -/
theorem C100_fails_stale (kind : Obj → Kind) (s : St) (args : List Obj) (o : Obj) (e old : Ent) (k m : Str)
    (h : Names kind args o e k) (hm : m.head? = some 46) (hq : k ++ m ≠ b "@enum.@list")
    (ho : mfind strLt (k ++ m) s.reg = some old) :
    process (step kind true s (.register args)).reg (k ++ m) = answer old [] := by
  have hne : k ++ m ≠ k := by
    intro h2
    have : m = [] := by simpa using h2
    rw [this] at hm; cases hm
  have hn : k ++ m ≠ [] := by
    intro h2
    have : m = [] := (List.append_eq_nil_iff.1 h2).2
    rw [this] at hm; cases hm
  rcases names_step kind args s with ⟨o', e', k', h1, _, h3⟩ | ⟨h1, _⟩
  · obtain ⟨rfl, rfl, rfl⟩ := names_unique h h1
    rw [h3]
    refine C33_longest_partial hq hn ⟨by simp, .inl rfl⟩ (by rw [mfind_mput strOrd, if_neg hne]; exact ho)
      fun p r hs hl => ?_
    have := congrArg List.length hs.eq
    simp only [List.length_append] at this hl
    omega
  · exact absurd h (h1 o e k)

/-- C100 fails: a module with another name than the one it was compiled with (in a package, say) refuses every call. -/
theorem C100_fails_package (kind : Obj → Kind) (args : List Obj) (s : St) :
    registerObject kind false args s = (none, s) := by simp [registerObject]

/-- Object 1 wraps entry 7 of the registry, 2 is the string `x`; there is a member `x.y` of an earlier `x`. -/
example : ∃ (kind : Obj → Kind) (s : St), Names kind [1, 2] 1 (.obj 7 false) (b "x") ∧
    Last kind (b "x") [.hold 1, .register [1, 2]] (some (some (1, .obj 7 false))) ∧ s.rc 1 = refs s 1 ∧
    (s.attrs.map (·.1)).Nodup ∧ mfind strLt (b "x" ++ b ".y") s.reg = some (.obj 3 false) ∧
    process (run kind true s [.hold 1, .register [1, 2]]).reg (b "x.z") = .process (.obj 7 false) (b ".z") ∧
    process (run kind true s [.hold 1, .register [1, 2]]).reg (b "x.y") = .process (.obj 3 false) [] ∧
    (run kind true s [.hold 1, .register [1, 2], .delete (b "x"), .drop 1]).rc 1 = 1 ∧
    refs (run kind true s [.hold 1, .register [1, 2], .delete (b "x"), .drop 1]) 1 = 0 := by
  refine ⟨fun o => match o with | 1 => .wrapper (.obj 7 false) | 2 => .str (b "x") | _ => .other,
    ⟨fun _ => 0, [], [], [(b "x", .obj 2 false), (b "x.y", .obj 3 false)]⟩, ⟨2, [], b "x", rfl, rfl, rfl, by decide⟩,
    .named (ops := [.hold 1]) (.hold (ops := []) .nil) ⟨2, [], b "x", rfl, rfl, rfl, by decide⟩, rfl, by simp, by decide, by decide +kernel,
    by decide +kernel, by decide +kernel, by decide +kernel⟩

end Verif.PyReg
