import Verif.Python
/-
C69: JSON turned into Python objects and back, and Python objects turned into JSON and back.
C70: the references the Python interface holds are counted.
-/
namespace Verif.Python
open Verif.OMap Verif.Json
open Verif.EnumKeys (Str)

/-! ### Specification of C69 -/

/-- Text that a C string can hold and Python accepts. -/
def Plain (utf8 : Str → Bool) (s : Str) : Prop := 0 ∉ s ∧ utf8 s = true

/-- Documents whose integers fit into 64 bits, and whose texts and keys are plain; the keys of an object are in order,
as a std::map holds them. -/
inductive Fit (utf8 : Str → Bool) : J → Prop
  | null : Fit utf8 .null
  | bool (b : Bool) : Fit utf8 (.bool b)
  | int (i : Int) : -(2 ^ 63) ≤ i → i < 2 ^ 63 → Fit utf8 (.int i)
  | real (r : Nat) : Fit utf8 (.real r)
  | str (s : Str) : Plain utf8 s → Fit utf8 (.str s)
  | arr (l : List J) : (∀ j ∈ l, Fit utf8 j) → Fit utf8 (.arr l)
  | obj (m : List (Str × J)) : Sorted strLt m → (∀ e ∈ m, Plain utf8 e.1) → (∀ e ∈ m, Fit utf8 e.2) →
      Fit utf8 (.obj m)

/-- Python values made of None, bools, ints of 64 bits, floats, plain strings, lists, and dicts with plain strings, all
different, as keys. -/
inductive Simple (utf8 : Str → Bool) : PyT → Prop
  | none : Simple utf8 .none
  | bool (b : Bool) : Simple utf8 (.bool b)
  | int (i : Int) : -(2 ^ 63) ≤ i → i < 2 ^ 63 → Simple utf8 (.int i)
  | float (r : Nat) : Simple utf8 (.float r)
  | str (s : Str) : Plain utf8 s → Simple utf8 (.str s)
  | list (l : List PyT) : (∀ p ∈ l, Simple utf8 p) → Simple utf8 (.list l)
  | dict (l : List (Str × PyT)) : (l.map (·.1)).Nodup → (∀ e ∈ l, Plain utf8 e.1) → (∀ e ∈ l, Simple utf8 e.2) →
      Simple utf8 (.dict l)

/-- Python's `==` with types compared too: the items of a dict may stand in another order. -/
inductive PyEq : PyT → PyT → Prop
  | none : PyEq .none .none
  | bool (b : Bool) : PyEq (.bool b) (.bool b)
  | int (i : Int) : PyEq (.int i) (.int i)
  | float (r : Nat) : PyEq (.float r) (.float r)
  | str (s : Str) : PyEq (.str s) (.str s)
  | list (z : List (PyT × PyT)) : (∀ e ∈ z, PyEq e.1 e.2) → PyEq (.list (z.map (·.1))) (.list (z.map (·.2)))
  | dict (z : List (Str × PyT × PyT)) (l : List (Str × PyT)) : (∀ e ∈ z, PyEq e.2.1 e.2.2) →
      l.Perm (z.map fun e => (e.1, e.2.2)) → PyEq (.dict (z.map fun e => (e.1, e.2.1))) (.dict l)

/-! ### Lemmas -/

private theorem cstr_plain {s : Str} (h : 0 ∉ s) : cstr s = s := by
  unfold cstr
  induction s with
  | nil => rfl
  | cons a s ih =>
    simp only [List.mem_cons, not_or] at h
    have : (a != 0) = true := by simpa using fun e => h.1 e.symm
    rw [List.takeWhile_cons_of_pos (by simpa using this), ih h.2]

private theorem cstr_cut {s : Str} (h : 0 ∉ s) (t : Str) : cstr (s ++ 0 :: t) = s := by
  unfold cstr
  induction s with
  | nil => simp
  | cons a s ih =>
    simp only [List.mem_cons, not_or] at h
    have : (a != 0) = true := by simpa using fun e => h.1 e.symm
    rw [List.cons_append, List.takeWhile_cons_of_pos (by simpa using this), ih h.2]

private theorem mput_end {V : Type} (k : Str) (v : V) (m : List (Str × V)) (h : ∀ e ∈ m, strLt e.1 k = true) :
    mput strLt k v m = m ++ [(k, v)] := by
  induction m with
  | nil => rfl
  | cons x r ih =>
    have hx := h x (by simp)
    simp only [mput, strOrd.asymm hx, hx, Bool.false_eq_true, if_false, if_true]
    rw [ih (fun e he => h e (by simp [he]))]; rfl

private theorem mput_map {V W : Type} (g : V → W) (k : Str) (v : V) (m : List (Str × V)) :
    mput strLt k (g v) (m.map fun e => (e.1, g e.2)) = (mput strLt k v m).map fun e => (e.1, g e.2) := by
  induction m with
  | nil => rfl
  | cons x r ih =>
    simp only [List.map_cons, mput]
    split
    · rfl
    · split
      · simp only [List.map_cons]; rw [ih]
      · rfl

private theorem mput_perm {V : Type} (k : Str) (v : V) (m : List (Str × V)) (h : k ∉ m.map (·.1)) :
    (mput strLt k v m).Perm ((k, v) :: m) := by
  induction m with
  | nil => exact .refl _
  | cons x r ih =>
    simp only [List.map_cons, List.mem_cons, not_or] at h
    simp only [mput]
    split
    · exact .refl _
    · split
      · exact (List.Perm.cons x (ih h.2)).trans (.swap _ _ _)
      · rename_i h1 h2
        exact absurd (strOrd.tri _ _ (by simpa using h1) (by simpa using h2)) h.1

private theorem setItem_end {α : Type} (k : Str) (v : α) (d : List (Str × α)) (h : k ∉ d.map (·.1)) :
    setItem k v d = d ++ [(k, v)] := by
  induction d with
  | nil => rfl
  | cons x r ih =>
    simp only [List.map_cons, List.mem_cons, not_or] at h
    have : x.1 ≠ k := fun e => h.1 e.symm
    simp only [setItem, this, if_false]
    rw [ih h.2]; rfl

private theorem newPyM_sorted {utf8 : Str → Bool} {V : Type} (fj : V → J) (fp : V → PyT) :
    ∀ (M : List (Str × V)) (d : List (Str × PyT)), Sorted strLt M → (∀ e ∈ M, Plain utf8 e.1) →
      (∀ e ∈ M, newPy utf8 (fj e.2) = some (fp e.2)) → (∀ e ∈ M, e.1 ∉ d.map (·.1)) →
      newPyM utf8 d (M.map fun e => (e.1, fj e.2)) = some (d ++ M.map fun e => (e.1, fp e.2))
  | [], d, _, _, _, _ => by simp [newPyM]
  | (k, v) :: M, d, hs, hp, hn, hd => by
    have hk := hp (k, v) (by simp)
    simp only [List.map_cons]
    rw [newPyM, cstr_plain hk.1, if_pos hk.2, hn (k, v) (by simp)]
    simp only
    rw [setItem_end _ _ _ (hd (k, v) (by simp)), newPyM_sorted fj fp M _ hs.2 (fun e he => hp e (by simp [he]))
      (fun e he => hn e (by simp [he]))]
    · simp
    · intro e he
      simp only [List.map_append, List.map_cons, List.map_nil, List.mem_append, List.mem_singleton, not_or]
      exact ⟨hd e (by simp [he]), fun e' => strOrd.ne (hs.1 e he) e'.symm⟩

private theorem newPyL_map {utf8 : Str → Bool} {V : Type} (fj : V → J) (fp : V → PyT) :
    ∀ z : List V, (∀ e ∈ z, newPy utf8 (fj e) = some (fp e)) → newPyL utf8 (z.map fj) = some (z.map fp)
  | [], _ => by simp [newPyL]
  | v :: z, h => by
    simp only [List.map_cons]
    rw [newPyL, h v (by simp), newPyL_map fj fp z (fun e he => h e (by simp [he]))]

private theorem mapR_map {V : Type} (f : PyT → R J) (fp : V → PyT) (fj : V → J) :
    ∀ z : List V, (∀ e ∈ z, f (fp e) = .ok (fj e)) → mapR f (z.map fp) = .ok (z.map fj)
  | [], _ => rfl
  | v :: z, h => by
    simp only [List.map_cons, mapR]
    rw [h v (by simp), mapR_map f fp fj z (fun e he => h e (by simp [he]))]; rfl

/-- The items of a dict put one after the other into a std::map. -/
private def sort {V : Type} (m : List (Str × V)) (z : List (Str × V)) : List (Str × V) :=
  z.foldl (fun m e => mput strLt e.1 e.2 m) m

private theorem sort_sorted {V : Type} : ∀ (z m : List (Str × V)), Sorted strLt m → Sorted strLt (sort m z)
  | [], _, h => h
  | e :: z, m, h => sort_sorted z _ (sorted_mput strOrd e.1 e.2 m h)

private theorem sort_perm {V : Type} : ∀ (z m : List (Str × V)), (z.map (·.1)).Nodup →
    (∀ e ∈ z, e.1 ∉ m.map (·.1)) → (sort m z).Perm (m ++ z)
  | [], m, _, _ => by simp [sort]
  | e :: z, m, hn, hm => by
    simp only [List.map_cons, List.nodup_cons] at hn
    have hp := mput_perm e.1 e.2 m (hm e (by simp))
    have h1 := sort_perm z (mput strLt e.1 e.2 m) hn.2 (by
      intro x hx hin
      rw [(hp.map (·.1)).mem_iff, List.map_cons, List.mem_cons] at hin
      rcases hin with h | h
      · exact hn.1 (h ▸ List.mem_map_of_mem hx)
      · exact hm x (by simp [hx]) h)
    refine (show sort m (e :: z) = sort (mput strLt e.1 e.2 m) z from rfl) ▸ h1.trans ?_
    refine (hp.append_right z).trans ?_
    exact (List.perm_middle (a := e) (l₁ := m) (l₂ := z)).symm

private theorem sort_id {V : Type} : ∀ (z m : List (Str × V)), Sorted strLt z →
    (∀ e ∈ z, ∀ x ∈ m, strLt x.1 e.1 = true) → sort m z = m ++ z
  | [], m, _, _ => by simp [sort]
  | e :: z, m, hs, hm => by
    show sort (mput strLt e.1 e.2 m) z = _
    rw [mput_end _ _ _ (hm e (by simp)), sort_id z _ hs.2]
    · simp
    · intro x hx y hy
      simp only [List.mem_append, List.mem_singleton] at hy
      rcases hy with hy | hy
      · exact hm x (by simp [hx]) y hy
      · subst hy; exact hs.1 x hx

private theorem fill_sort {V : Type} (shw : PyT → Str) (n : Nat) (fp : V → PyT) (fj : V → J) :
    ∀ (z m : List (Str × V)), (∀ e ∈ z, 0 ∉ e.1) → (∀ e ∈ z, getJson PyT.view shw n (fp e.2) = .ok (fj e.2)) →
      fill (fun e => keyText PyT.view shw e.1) (fun e => getJson PyT.view shw n e.2) (m.map fun e => (e.1, fj e.2))
        (z.map fun e => (PyT.str e.1, fp e.2)) = .ok ((sort m z).map fun e => (e.1, fj e.2))
  | [], m, _, _ => rfl
  | e :: z, m, hk, hj => by
    simp only [List.map_cons, fill, keyText, PyT.view]
    rw [cstr_plain (hk e (by simp)), hj e (by simp)]
    simp only [R.bind]
    rw [mput_map fj]
    exact fill_sort shw n fp fj z _ (fun x hx => hk x (by simp [hx])) (fun x hx => hj x (by simp [hx]))

private theorem bound {V : Type} (z : List V) (P : V → Nat → Prop) (h : ∀ e ∈ z, ∃ n, ∀ n' ≥ n, P e n') :
    ∃ n, ∀ n' ≥ n, ∀ e ∈ z, P e n' := by
  induction z with
  | nil => exact ⟨0, by simp⟩
  | cons v z ih =>
    obtain ⟨a, ha⟩ := ih (fun e he => h e (by simp [he]))
    obtain ⟨c, hc⟩ := h v (by simp)
    refine ⟨a + c, fun n' hn e he => ?_⟩
    simp only [List.mem_cons] at he
    rcases he with rfl | he
    · exact hc n' (by omega)
    · exact ha n' (by omega) e he

private theorem view_dict (l : List (Str × PyT)) : PyT.view (.dict l) = .dict (l.map fun e => (.str e.1, e.2)) := rfl

private theorem zip1 {α β : Type} (P : α → β → Prop) : ∀ l : List α, (∀ a ∈ l, ∃ b, P a b) →
    ∃ z : List (α × β), l = z.map (·.1) ∧ ∀ e ∈ z, P e.1 e.2
  | [], _ => ⟨[], rfl, by simp⟩
  | a :: l, h => by
    obtain ⟨b, hb⟩ := h a (by simp)
    obtain ⟨z, hz, hP⟩ := zip1 P l (fun x hx => h x (by simp [hx]))
    refine ⟨(a, b) :: z, by simp [← hz], fun e he => ?_⟩
    simp only [List.mem_cons] at he
    rcases he with rfl | he
    · exact hb
    · exact hP e he

private theorem zip2 {K α β : Type} (P : α → β → Prop) : ∀ l : List (K × α), (∀ a ∈ l, ∃ b, P a.2 b) →
    ∃ z : List (K × α × β), (l = z.map fun e => (e.1, e.2.1)) ∧ ∀ e ∈ z, P e.2.1 e.2.2
  | [], _ => ⟨[], rfl, by simp⟩
  | a :: l, h => by
    obtain ⟨b, hb⟩ := h a (by simp)
    obtain ⟨z, hz, hP⟩ := zip2 P l (fun x hx => h x (by simp [hx]))
    refine ⟨(a.1, a.2, b) :: z, by simp [← hz], fun e he => ?_⟩
    simp only [List.mem_cons] at he
    rcases he with rfl | he
    · exact hb
    · exact hP e he

private theorem pos {n : Nat} (h : 1 ≤ n) : ∃ m, n = m + 1 := ⟨n - 1, by omega⟩

/-! ### Theorems of C69 -/

/-- A document of which all fits turns into Python objects, and these, given stack enough, into the same document. -/
theorem C69_json_partial (utf8 : Str → Bool) (shw : PyT → Str) (j : J) (h : Fit utf8 j) :
    ∃ p, newPy utf8 j = some p ∧ ∃ n, ∀ n' ≥ n, getJson PyT.view shw n' p = .ok j := by
  induction h with
  | null => exact ⟨.none, by simp [newPy], 1, fun n' hn => by obtain ⟨m, rfl⟩ := pos hn; rfl⟩
  | bool b => exact ⟨.bool b, by simp [newPy], 1, fun n' hn => by obtain ⟨m, rfl⟩ := pos hn; rfl⟩
  | int i h1 h2 =>
    refine ⟨.int i, by rw [newPy, int64, if_pos h2], 1, fun n' hn => ?_⟩
    obtain ⟨m, rfl⟩ := pos hn
    simp only [getJson, PyT.view, asLongLong, h1, h2, and_self, if_true]
  | real r => exact ⟨.float r, by simp [newPy], 1, fun n' hn => by obtain ⟨m, rfl⟩ := pos hn; rfl⟩
  | str s hs =>
    refine ⟨.str s, by rw [newPy, cstr_plain hs.1, if_pos hs.2], 1, fun n' hn => ?_⟩
    obtain ⟨m, rfl⟩ := pos hn
    simp only [getJson, PyT.view, cstr_plain hs.1]
  | arr l _ ih =>
    obtain ⟨z, hz, hP⟩ := zip1 _ l ih
    obtain ⟨n, hn⟩ := bound z (fun e n' => getJson PyT.view shw n' e.2 = .ok e.1) (fun e he => (hP e he).2)
    refine ⟨.list (z.map (·.2)), ?_, n + 1, fun n' hn' => ?_⟩
    · rw [hz, newPy, newPyL_map (·.1) (·.2) z (fun e he => (hP e he).1)]; rfl
    · obtain ⟨m, rfl⟩ := pos (show 1 ≤ n' by omega)
      simp only [getJson, PyT.view]
      rw [mapR_map _ (·.2) (·.1) z (fun e he => hn m (by omega) e he), hz]; rfl
  | obj m hs hk _ ih =>
    obtain ⟨z, hz, hP⟩ := zip2 (fun j p => newPy utf8 j = some p ∧ ∃ n, ∀ n' ≥ n, getJson PyT.view shw n' p = .ok j) m ih
    subst hz
    have hs' : Sorted strLt z := by
      have : ∀ z : List (Str × J × PyT), Sorted strLt (z.map fun e => (e.1, e.2.1)) → Sorted strLt z := by
        intro z
        induction z with
        | nil => exact fun h => h
        | cons x z ih => exact fun h => ⟨fun e he => h.1 (e.1, e.2.1) (List.mem_map.2 ⟨e, he, rfl⟩), ih h.2⟩
      exact this z hs
    have hk' : ∀ e ∈ z, Plain utf8 e.1 := fun e he => hk (e.1, e.2.1) (List.mem_map.2 ⟨e, he, rfl⟩)
    obtain ⟨n, hn⟩ := bound z (fun e n' => getJson PyT.view shw n' e.2.2 = .ok e.2.1) (fun e he => (hP e he).2)
    refine ⟨.dict (z.map fun e => (e.1, e.2.2)), ?_, n + 1, fun n' hn' => ?_⟩
    · rw [newPy, newPyM_sorted (·.1) (·.2) z [] hs' hk' (fun e he => (hP e he).1) (by simp)]; rfl
    · obtain ⟨a, rfl⟩ := pos (show 1 ≤ n' by omega)
      simp only [getJson, view_dict, List.map_map, Function.comp_def]
      have := fill_sort shw a (·.2) (·.1) z [] (fun e he => (hk' e he).1) (fun e he => hn a (by omega) e he)
      rw [List.map_nil] at this
      rw [this, sort_id z [] hs' (by simp)]; rfl

/-- A Python value of the simple kinds turns, given stack enough, into a document, and that into an equal Python
value. -/
theorem C69_python_partial (utf8 : Str → Bool) (shw : PyT → Str) (p : PyT) (h : Simple utf8 p) :
    ∃ j q, (∃ n, ∀ n' ≥ n, getJson PyT.view shw n' p = .ok j) ∧ newPy utf8 j = some q ∧ PyEq p q := by
  induction h with
  | none => exact ⟨.null, .none, ⟨1, fun n' hn => by obtain ⟨m, rfl⟩ := pos hn; rfl⟩, by simp [newPy], .none⟩
  | bool b => exact ⟨.bool b, .bool b, ⟨1, fun n' hn => by obtain ⟨m, rfl⟩ := pos hn; rfl⟩, by simp [newPy], .bool b⟩
  | int i h1 h2 =>
    refine ⟨.int i, .int i, ⟨1, fun n' hn => ?_⟩, by rw [newPy, int64, if_pos h2], .int i⟩
    obtain ⟨m, rfl⟩ := pos hn
    simp only [getJson, PyT.view, asLongLong, h1, h2, and_self, if_true]
  | float r => exact ⟨.real r, .float r, ⟨1, fun n' hn => by obtain ⟨m, rfl⟩ := pos hn; rfl⟩, by simp [newPy], .float r⟩
  | str s hs =>
    refine ⟨.str s, .str s, ⟨1, fun n' hn => ?_⟩, by rw [newPy, cstr_plain hs.1, if_pos hs.2], .str s⟩
    obtain ⟨m, rfl⟩ := pos hn
    simp only [getJson, PyT.view, cstr_plain hs.1]
  | list l _ ih =>
    obtain ⟨z, hz, hP⟩ := zip1 (β := J × PyT) (fun p b =>
      (∃ n, ∀ n' ≥ n, getJson PyT.view shw n' p = .ok b.1) ∧ newPy utf8 b.1 = some b.2 ∧ PyEq p b.2) l
      (fun a ha => by obtain ⟨j, q, h⟩ := ih a ha; exact ⟨(j, q), h⟩)
    obtain ⟨n, hn⟩ := bound z (fun e n' => getJson PyT.view shw n' e.1 = .ok e.2.1) (fun e he => (hP e he).1)
    refine ⟨.arr (z.map (·.2.1)), .list (z.map (·.2.2)), ⟨n + 1, fun n' hn' => ?_⟩, ?_, ?_⟩
    · obtain ⟨m, rfl⟩ := pos (show 1 ≤ n' by omega)
      simp only [getJson, PyT.view]
      rw [hz, mapR_map _ (·.1) (·.2.1) z (fun e he => hn m (by omega) e he)]; rfl
    · rw [newPy, newPyL_map (·.2.1) (·.2.2) z (fun e he => (hP e he).2.1)]; rfl
    · rw [hz]
      have := PyEq.list (z.map fun e => (e.1, e.2.2)) (by
        intro e he
        obtain ⟨x, hx, rfl⟩ := List.mem_map.1 he
        exact (hP x hx).2.2)
      simpa [List.map_map, Function.comp_def] using this
  | dict l hd hk _ ih =>
    obtain ⟨z, hz, hP⟩ := zip2 (β := J × PyT) (fun p b =>
      (∃ n, ∀ n' ≥ n, getJson PyT.view shw n' p = .ok b.1) ∧ newPy utf8 b.1 = some b.2 ∧ PyEq p b.2) l
      (fun a ha => by obtain ⟨j, q, h⟩ := ih a ha; exact ⟨(j, q), h⟩)
    subst hz
    have hk' : ∀ e ∈ z, Plain utf8 e.1 := fun e he => hk (e.1, e.2.1) (List.mem_map.2 ⟨e, he, rfl⟩)
    have hd' : (z.map (·.1)).Nodup := by simpa [List.map_map, Function.comp_def] using hd
    have hsp : (sort [] z).Perm z := by simpa using sort_perm z [] hd' (by simp)
    have hss : Sorted strLt (sort [] z) := sort_sorted z [] trivial
    obtain ⟨n, hn⟩ := bound z (fun e n' => getJson PyT.view shw n' e.2.1 = .ok e.2.2.1) (fun e he => (hP e he).1)
    refine ⟨.obj ((sort [] z).map fun e => (e.1, e.2.2.1)), .dict ((sort [] z).map fun e => (e.1, e.2.2.2)),
      ⟨n + 1, fun n' hn' => ?_⟩, ?_, ?_⟩
    · obtain ⟨a, rfl⟩ := pos (show 1 ≤ n' by omega)
      simp only [getJson, view_dict, List.map_map, Function.comp_def]
      have := fill_sort shw a (·.1) (·.2.1) z [] (fun e he => (hk' e he).1) (fun e he => hn a (by omega) e he)
      rw [List.map_nil] at this
      rw [this]; rfl
    · rw [newPy, newPyM_sorted (·.2.1) (·.2.2) (sort [] z) [] hss (fun e he => hk' e (hsp.mem_iff.1 he))
        (fun e he => (hP e (hsp.mem_iff.1 he)).2.1) (by simp)]; rfl
    · have := PyEq.dict (z.map fun e => (e.1, e.2.1, e.2.2.2)) ((sort [] z).map fun e => (e.1, e.2.2.2)) (by
        intro e he
        obtain ⟨x, hx, rfl⟩ := List.mem_map.1 he
        exact (hP x hx).2.2) (by
        simpa [List.map_map, Function.comp_def] using hsp.map fun e => (e.1, e.2.2.2))
      simpa [List.map_map, Function.comp_def] using this

/-- Every Python int that does not fit into 64 bits becomes -1, and every JSON integer from 2^63 up becomes another,
negative number. -/
theorem C69_bigint_fails {α : Type} (view : α → Node α) (shw : α → Str) (utf8 : Str → Bool) (n : Nat) (o : α) (i : Int)
    (ho : view o = .int i) :
    (i < -(2 ^ 63) ∨ 2 ^ 63 ≤ i → getJson view shw (n + 1) o = .ok (.int (-1))) ∧
    (2 ^ 63 ≤ i → i < 2 ^ 64 → newPy utf8 (.int i) = some (.int (i - 2 ^ 64)) ∧ i - 2 ^ 64 < 0) := by
  refine ⟨fun h => ?_, fun h1 h2 => ⟨?_, by omega⟩⟩
  · simp only [getJson, ho, asLongLong]
    rw [if_neg (by omega)]
  · rw [newPy, int64, if_neg (by omega)]

/-- Text is cut off at its first zero byte, on the way into Python and on the way out. -/
theorem C69_nul_fails {α : Type} (view : α → Node α) (shw : α → Str) (utf8 : Str → Bool) (n : Nat) (o : α) (s t : Str)
    (hs : 0 ∉ s) (hu : utf8 s = true) (ho : view o = .str (s ++ 0 :: t)) :
    getJson view shw (n + 1) o = .ok (.str s) ∧ newPy utf8 (.str (s ++ 0 :: t)) = some (.str s) := by
  constructor
  · simp only [getJson, ho, cstr_cut hs]
  · rw [newPy, cstr_cut hs, if_pos hu]

/-- A dict with a key that has no UTF-8 form is rejected by an exception. -/
theorem C69_badkey {α : Type} (view : α → Node α) (shw : α → Str) (n : Nat) (o k x : α) (l : List (α × α))
    (ho : view o = .dict ((k, x) :: l)) (hk : view k = .badStr) : getJson view shw (n + 1) o = .throw := by
  simp only [getJson, ho, fill, keyText, hk, R.bind]

/-- Two keys of a dict whose texts agree, such as 1 and "1", leave one entry with the value of the second. -/
theorem C69_keys_fails {α : Type} (view : α → Node α) (shw : α → Str) (n : Nat) (o a x c y : α) (k : Str) (jx jy : J)
    (ho : view o = .dict [(a, x), (c, y)]) (ha : keyText view shw a = .ok k) (hc : keyText view shw c = .ok k)
    (hx : getJson view shw n x = .ok jx) (hy : getJson view shw n y = .ok jy) :
    getJson view shw (n + 1) o = .ok (.obj [(k, jy)]) := by
  simp only [getJson, ho, fill, ha, hc, hx, hy, R.bind, mput, strOrd.irrefl]
  rfl

/-- `o'` is an element, a value or an attribute of `o`. -/
def Part {α : Type} (view : α → Node α) (o o' : α) : Prop :=
  (∃ l, view o = .seq l ∧ o' ∈ l) ∨ (∃ l k, view o = .dict l ∧ (k, o') ∈ l) ∨ (∃ l k, view o = .other l ∧ (k, o') ∈ l)

private theorem mapR_ok {α β : Type} {f : α → R β} : ∀ {l : List α} {r : List β}, mapR f l = .ok r →
    ∀ a ∈ l, ∃ v, f a = .ok v
  | [], _, _, a, ha => by simp at ha
  | x :: l, r, h, a, ha => by
    simp only [mapR] at h
    cases hx : f x with
    | throw => simp [hx, R.bind] at h
    | deep => simp [hx, R.bind] at h
    | ok v =>
      rw [hx] at h
      simp only [R.bind] at h
      cases hl : mapR f l with
      | throw => simp [hl] at h
      | deep => simp [hl] at h
      | ok vs =>
        simp only [List.mem_cons] at ha
        rcases ha with rfl | ha
        · exact ⟨v, hx⟩
        · exact mapR_ok hl a ha

private theorem fill_ok {α : Type} {key : α → R Str} {val : α → R J} : ∀ {l : List α} {m r : List (Str × J)},
    fill key val m l = .ok r → ∀ a ∈ l, ∃ v, val a = .ok v
  | [], _, _, _, a, ha => by simp at ha
  | x :: l, m, r, h, a, ha => by
    simp only [fill] at h
    cases hk : key x with
    | throw => simp [hk, R.bind] at h
    | deep => simp [hk, R.bind] at h
    | ok k =>
      rw [hk] at h
      simp only [R.bind] at h
      cases hx : val x with
      | throw => simp [hx] at h
      | deep => simp [hx] at h
      | ok v =>
        rw [hx] at h
        simp only [List.mem_cons] at ha
        rcases ha with rfl | ha
        · exact ⟨v, hx⟩
        · exact fill_ok h a ha

private theorem part_ok {α : Type} {view : α → Node α} {shw : α → Str} {n : Nat} {o o' : α} {j : J}
    (hp : Part view o o') (h : getJson view shw (n + 1) o = .ok j) : ∃ j', getJson view shw n o' = .ok j' := by
  rcases hp with ⟨l, hv, hm⟩ | ⟨l, k, hv, hm⟩ | ⟨l, k, hv, hm⟩
  · simp only [getJson, hv] at h
    cases hl : mapR (getJson view shw n) l with
    | throw => simp [hl, R.bind] at h
    | deep => simp [hl, R.bind] at h
    | ok r => exact mapR_ok hl o' hm
  · simp only [getJson, hv] at h
    cases hl : fill (fun e : α × α => keyText view shw e.1) (fun e => getJson view shw n e.2) [] l with
    | throw => simp [hl, R.bind] at h
    | deep => simp [hl, R.bind] at h
    | ok r => exact fill_ok hl (k, o') hm
  · simp only [getJson, hv] at h
    cases hl : fill (fun e : Str × α => R.ok (cstr e.1)) (fun e => getJson view shw n e.2) [] l with
    | throw => simp [hl, R.bind] at h
    | deep => simp [hl, R.bind] at h
    | ok r => exact fill_ok hl (k, o') hm

/-- A list that contains itself, and any object from which the attributes lead on for ever, as those of an ordinary
Python object do through `__class__`, yields no document whatever the size of the stack. -/
theorem C69_cycle_fails {α : Type} (view : α → Node α) (shw : α → Str) (S : α → Prop)
    (hS : ∀ o, S o → ∃ o', S o' ∧ Part view o o') (n : Nat) (o : α) (ho : S o) (j : J) :
    getJson view shw n o ≠ .ok j := by
  induction n generalizing o j with
  | zero => simp [getJson]
  | succ n ih =>
    intro h
    obtain ⟨o', hs, hp⟩ := hS o ho
    obtain ⟨j', hj⟩ := part_ok hp h
    exact ih o' hs j' hj

/-- For a list that contains nothing but itself it is the stack that runs out; there is no exception to catch. -/
theorem C69_stack_fails {α : Type} (view : α → Node α) (shw : α → Str) (o : α) (ho : view o = .seq [o]) (n : Nat) :
    getJson view shw n o = .deep := by
  induction n with
  | zero => rfl
  | succ n ih => simp only [getJson, ho, mapR, ih, R.bind]

/-- `b<<x; b>>y` with x of a class: what is read is one string, not the object that was written. -/
theorem C69_shift_fails (utf8 : Str → Bool) (write : J → Str) (shw : PyT → Str) (n : Nat) (j : J) (p : PyT)
    (h : shiftOut utf8 write j = some p) : getJson PyT.view shw (n + 1) p = .ok (.str (cstr (write j))) := by
  rw [shiftOut, newPy] at h
  split at h
  · cases h
    have hc : cstr (cstr (write j)) = cstr (write j) := by
      apply cstr_plain
      intro h0
      have := List.all_takeWhile (l := write j) (p := (· != 0))
      rw [List.all_eq_true] at this
      have := this 0 h0
      simp at this
    simp only [getJson, PyT.view, hc]
  · simp at h

/-- Documents with everything in them, and Python values, meet the hypotheses. -/
example : Fit (fun _ => true) (.obj [([97], .arr [.int (-5), .null, .real 7]), ([98, 99], .str [120]), ([99], .obj [])]) := by
  refine .obj _ (by simp [Sorted, strLt]) ?_ ?_
  · simp [Plain]
  · intro e he
    simp only [List.mem_cons, List.not_mem_nil, or_false] at he
    rcases he with rfl | rfl | rfl
    · refine .arr _ fun j hj => ?_
      simp only [List.mem_cons, List.not_mem_nil, or_false] at hj
      rcases hj with rfl | rfl | rfl
      · exact .int _ (by decide) (by decide)
      · exact .null
      · exact .real _
    · exact .str _ (by simp [Plain])
    · exact .obj _ trivial (by simp) (by simp)

example : Simple (fun _ => true) (.dict [([98], .int 3), ([97], .list [.none, .bool true])]) := by
  refine .dict _ (by simp) (by simp [Plain]) ?_
  intro e he
  simp only [List.mem_cons, List.not_mem_nil, or_false] at he
  rcases he with rfl | rfl
  · exact .int _ (by decide) (by decide)
  · refine .list _ fun j hj => ?_
    simp only [List.mem_cons, List.not_mem_nil, or_false] at hj
    rcases hj with rfl | rfl
    · exact .none
    · exact .bool _

/-- A list containing itself; an object whose class is an object whose class is itself. -/
example : ∀ o, (fun o : Nat => o = 0) o → ∃ o', (fun o : Nat => o = 0) o' ∧ Part (fun _ => Node.seq [0]) o o' :=
  fun _ _ => ⟨0, rfl, .inl ⟨[0], rfl, by simp⟩⟩
example : ∀ o, (fun _ : Nat => True) o → ∃ o', (fun _ : Nat => True) o' ∧
    Part (fun _ => Node.other [([95, 95, 99], 1)]) o o' :=
  fun _ _ => ⟨1, trivial, .inr (.inr ⟨_, [95, 95, 99], rfl, by simp⟩)⟩

/-- The keys 1 and "1". -/
private def oneView : Nat → Node Nat
  | 0 => .dict [(1, 2), (3, 4)]
  | 1 => .int 1
  | 2 => .int 10
  | 3 => .str [49]
  | _ => .int 20
example : getJson oneView (fun _ => [49]) 2 0 = .ok (.obj [([49], .int 20)]) :=
  C69_keys_fails oneView _ 1 0 1 2 3 4 [49] (.int 10) (.int 20) rfl rfl rfl rfl rfl

example : getJson (fun o : Nat => if o = 0 then .dict [(1, 2)] else .badStr) (fun _ => [49]) 5 0 = .throw :=
  C69_badkey _ _ 4 0 1 2 [] rfl rfl
example : getJson (fun _ : Unit => .seq [()]) (fun _ => []) 100 () = .deep := C69_stack_fails _ _ () rfl 100

/-! ### C70: specification -/

/-- How many of the variables 0 … N-1 hold the object. -/
def held (N : Nat) (h : H) (o : Obj) : Int := ((List.range N).countP fun s => h.buf s = some o : Nat)

/-- Operations a program can perform: a variable is constructed where none is, one that exists is copied, destroyed or
asked for its object.  Assignment, null pointers, array() and the attributes are left out. -/
def Proper (N : Nat) (h : H) : Op → Prop
  | .dflt s => s < N ∧ h.buf s = none
  | .wrap s _ => s < N ∧ h.buf s = none
  | .fresh s _ => s < N ∧ h.buf s = none
  | .copy s t => s < N ∧ h.buf s = none ∧ h.buf t ≠ none
  | .drop s => s < N ∧ h.buf s ≠ none
  | .take s => h.buf s ≠ none
  | _ => False

/-- … one after the other. -/
def Propers (N : Nat) : H → List Op → Prop
  | _, [] => True
  | h, op :: ops => Proper N h op ∧ Propers N (step h op) ops

/-- The references handed out to callers. -/
def taken (o : Obj) : H → List Op → Int
  | _, [] => 0
  | h, .take s :: ops => (if h.buf s = some o then 1 else 0) + taken o (step h (.take s)) ops
  | h, op :: ops => taken o (step h op) ops

private theorem held_set (N : Nat) (h : H) (s : Nat) (x : Option Obj) (o : Obj) (hs : s < N) :
    held N (h.set s x) o + (if h.buf s = some o then 1 else 0) = held N h o + (if x = some o then 1 else 0) := by
  have step : ∀ (N : Nat) (h : H), held (N + 1) h o = held N h o + (if h.buf N = some o then 1 else 0) := by
    intro N h
    simp only [held, List.range_succ, List.countP_append, List.countP_singleton]
    by_cases hb : h.buf N = some o <;> simp [hb]
  have out : ∀ N, N ≤ s → held N (h.set s x) o = held N h o := by
    intro N
    induction N with
    | zero => intro _; rfl
    | succ N ih =>
      intro hN
      rw [step, step, ih (by omega)]
      have : (h.set s x).buf N = h.buf N := by
        show (if N = s then x else h.buf N) = _
        rw [if_neg (by omega)]
      rw [this]
  induction N with
  | zero => omega
  | succ N ih =>
    rw [step, step]
    by_cases hN : N = s
    · subst hN
      rw [out N (Nat.le_refl _)]
      have : (h.set N x).buf N = x := by
        show (if N = N then x else h.buf N) = _
        simp
      rw [this]
      omega
    · have : (h.set s x).buf N = h.buf N := by
        show (if N = s then x else h.buf N) = _
        rw [if_neg hN]
      rw [this]
      have := ih (by omega)
      omega

private theorem held_inc (N : Nat) (h : H) (x o : Obj) : held N (h.inc x) o = held N h o := rfl
private theorem held_dec (N : Nat) (h : H) (x o : Obj) : held N (h.dec x) o = held N h o := rfl
private theorem rc_set (h : H) (s : Nat) (x : Option Obj) : (h.set s x).rc = h.rc := rfl
private theorem rc_inc (h : H) (x o : Obj) : (h.inc x).rc o = h.rc o + (if x = o then 1 else 0) := by
  show (if o = x then h.rc o + 1 else h.rc o) = _
  by_cases e : o = x
  · simp [e]
  · have : x ≠ o := fun h => e h.symm
    simp [e, this]
private theorem rc_dec (h : H) (x o : Obj) : (h.dec x).rc o = h.rc o - (if x = o then 1 else 0) := by
  show (if o = x then h.rc o - 1 else h.rc o) = _
  by_cases e : o = x
  · simp [e]
  · have : x ≠ o := fun h => e h.symm
    simp [e, this]

private theorem made (N : Nat) (h : H) (s : Nat) (x o : Obj) (hs : s < N) (he : h.buf s = none) :
    ((h.inc x).set s (some x)).rc o - held N ((h.inc x).set s (some x)) o = h.rc o - held N h o := by
  rw [rc_set, rc_inc]
  have := held_set N (h.inc x) s (some x) o hs
  rw [held_inc] at this
  have hb : (h.inc x).buf s = none := he
  rw [hb] at this
  simp only [reduceCtorEq, if_false, Option.some.injEq] at this
  omega

/-- Constructing, copying and destroying buffers and handing out what they hold keeps the count of every object in
step: it changes by as much as the number of buffers that hold the object and of references handed out. -/
theorem C70_balanced_partial (N : Nat) (o : Obj) (ops : List Op) (h : H) (hp : Propers N h ops) :
    (run h ops).rc o - held N (run h ops) o = h.rc o - held N h o + taken o h ops := by
  induction ops generalizing h with
  | nil => simp [run, taken]
  | cons op ops ih =>
    obtain ⟨h1, h2⟩ := hp
    have ih := ih (step h op) h2
    rw [show run h (op :: ops) = run (step h op) ops from rfl, ih]
    cases op with
    | dflt s => simp only [taken, step]; rw [made N h s 0 o h1.1 h1.2]
    | wrap s x => simp only [taken, step]; rw [made N h s x o h1.1 h1.2]
    | fresh s x => simp only [taken, step]; rw [made N h s x o h1.1 h1.2]
    | copy s t =>
      obtain ⟨ha, hb, hc⟩ := h1
      cases ht : h.buf t with
      | none => exact absurd ht hc
      | some x => simp only [taken, step, ht]; rw [made N h s x o ha hb]
    | drop s =>
      obtain ⟨ha, hb⟩ := h1
      cases hx : h.buf s with
      | none => exact absurd hx hb
      | some x =>
        simp only [taken, step, hx]
        have := held_set N (h.dec x) s none o ha
        rw [held_dec] at this
        have hb' : (h.dec x).buf s = some x := hx
        rw [hb'] at this
        simp only [reduceCtorEq, if_false, Option.some.injEq] at this
        rw [rc_set, rc_dec]
        omega
    | take s =>
      cases hx : h.buf s with
      | none => exact absurd hx h1
      | some x =>
        simp only [taken, step, hx, held_inc, rc_inc, Option.some.injEq]
        omega
    | wrapNull s => exact absurd h1 id
    | assign s t => exact absurd h1 id
    | items l => exact absurd h1 id
    | setattr k x => exact absurd h1 id
    | delattr k => exact absurd h1 id
    | retNone => exact absurd h1 id

/-- Hence an object that was counted right is not released while a buffer holds it. -/
theorem C70_alive_partial (N : Nat) (o : Obj) (ops : List Op) (h : H) (hp : Propers N h ops)
    (h0 : h.rc o ≥ held N h o) : (run h ops).rc o ≥ held N (run h ops) o + taken o h ops := by
  have := C70_balanced_partial N o ops h hp
  omega

/-- Every assignment leaves the object held before counted once more than it is held: it is never released. -/
theorem C70_assign_fails (N : Nat) (h : H) (s t : Nat) (x old o : Obj) (hs : s < N) (ht : h.buf t = some x)
    (ho : h.buf s = some old) :
    (step h (.assign s t)).rc o - held N (step h (.assign s t)) o =
      h.rc o - held N h o + (if old = o then 1 else 0) := by
  simp only [step, ht, rc_inc, held_inc]
  have := held_set N h s (some x) o hs
  rw [ho] at this
  simp only [Option.some.injEq] at this
  rw [rc_set]
  omega

/-- array() leaves every item of the list counted once too often for each time it occurs. -/
theorem C70_array_fails (N : Nat) (h : H) (l : List Obj) (o : Obj) :
    (step h (.items l)).rc o = h.rc o + (l.count o : Nat) ∧ held N (step h (.items l)) o = held N h o := by
  simp only [step]
  induction l generalizing h with
  | nil => simp
  | cons x l ih =>
    simp only [List.foldl_cons]
    rw [(ih _).1, (ih _).2, held_dec, held_inc, held_inc, rc_dec, rc_inc, rc_inc, List.count_cons]
    refine ⟨?_, rfl⟩
    by_cases e : x = o
    · simp [e]; omega
    · simp [e]

/-- An attribute set from Python is not counted, and deleting it takes away a reference that somebody else holds. -/
theorem C70_setattr_fails (h : H) (k : Nat) (v o : Obj) (hk : h.attr k = none) :
    (run h [.setattr k v]).attr k = some v ∧ (run h [.setattr k v]).rc o = h.rc o ∧
    (run h [.setattr k v, .delattr k]).rc o = h.rc o - (if v = o then 1 else 0) := by
  have h1 : step h (.setattr k v) = h.setA k (some v) := by simp [step, H.decA, hk]
  have h2 : (h.setA k (some v)).attr k = some v := by simp [H.setA]
  simp only [run, List.foldl_cons, List.foldl_nil, h1]
  refine ⟨h2, rfl, ?_⟩
  simp only [step, H.decA, h2]
  show ((h.setA k (some v)).dec v).rc o = _
  rw [rc_dec]; rfl

/-- None loses a reference with every buffer made of a null pointer and destroyed, and with every insert or erase. -/
theorem C70_none_fails (h : H) (s : Nat) :
    (run h [.wrapNull s, .drop s]).rc 0 = h.rc 0 - 1 ∧ (run h [.retNone]).rc 0 = h.rc 0 - 1 := by
  constructor
  · simp [run, step, H.set, H.dec]
  · simp [run, step, H.dec]

/-- A program: a buffer on object 5, a copy of it, the first destroyed, the object handed out, the second destroyed. -/
example : Propers 2 ⟨fun _ => 1, fun _ => none, fun _ => none⟩ [.wrap 0 5, .copy 1 0, .drop 0, .take 1, .drop 1] := by
  simp [Propers, Proper, step, H.set, H.inc, H.dec]

end Verif.Python
