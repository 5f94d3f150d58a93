import Verif.GraphErr
/- C102 -/
namespace Verif.GraphErr
open Verif.Graph (Fld Kind Slot)

/-! ### Specification -/

/-- The static variables are as at the start of the program. -/
structure C102.Clean (st : USt) : Prop where
  level : st.level = 0
  map : st.map = []
  restart : st.restart = []

/-- The same for packing. -/
structure C102.CleanP (st : PSt) : Prop where
  level : st.level = 0
  map : st.map = []
  restart : st.restart = []

open C102

/-! ### Unpacking -/

/-- What is known stays known, and numbers lead to objects there are. -/
private structure Le (st st' : USt) : Prop where
  map : ∀ id a, st.map.lookup id = some a → st'.map.lookup id = some a
  heap : st.heap.length ≤ st'.heap.length
  ok : (∀ id a, st.map.lookup id = some a → a < st.heap.length) → ∀ id a, st'.map.lookup id = some a → a < st'.heap.length

private theorem Le.refl (st : USt) : Le st st := ⟨fun _ _ h => h, Nat.le_refl _, fun h => h⟩

private theorem Le.trans {a c d : USt} (h : Le a c) (h' : Le c d) : Le a d :=
  ⟨fun i x hx => h'.map i x (h.map i x hx), Nat.le_trans h.heap h'.heap, fun hk => h'.ok (h.ok hk)⟩

/-- Without a limit nothing is deferred. -/
private def Z (st st' : USt) : Prop := st.rmax = 0 → st'.rmax = 0 ∧ st'.restart = st.restart

private theorem Z.refl (st : USt) : Z st st := fun h => ⟨h, rfl⟩

private theorem Z.trans {a c d : USt} (h : Z a c) (h' : Z c d) : Z a d := fun e =>
  ⟨(h' (h e).1).1, (h' (h e).1).2.trans (h e).2⟩

private def Good {α : Type} (st : USt) : Res USt α → Prop
  | .ok _ st' => st'.level = st.level ∧ Le st st' ∧ Z st st'
  | .throw st' => st.level ≤ st'.level ∧ Le st st'
  | _ => True

private theorem Good.bind {α β : Type} {st : USt} {r : Res USt α} {f : α → USt → Res USt β} (h : Good st r)
    (hf : ∀ a st', st'.level = st.level → Le st st' → Good st' (f a st')) : Good st (r.bind f) := by
  cases r with
  | ok a st' =>
    have := hf a st' h.1 h.2.1
    simp only [Res.bind]
    cases hr : f a st' with
    | ok c st'' => rw [hr] at this; exact ⟨this.1.trans h.1, h.2.1.trans this.2.1, h.2.2.trans this.2.2⟩
    | throw st'' => rw [hr] at this; exact ⟨Nat.le_trans (Nat.le_of_eq h.1.symm) this.1, h.2.1.trans this.2⟩
    | ub => trivial
    | fuel => trivial
  | throw st' => exact h
  | ub => trivial
  | fuel => trivial

private theorem good_read (st : USt) : Good st (read st) := by
  unfold read
  split
  · exact ⟨Nat.le_refl _, Le.refl _⟩
  · exact ⟨rfl, ⟨fun _ _ h => h, Nat.le_refl _, fun h => h⟩, fun h => ⟨h, rfl⟩⟩

private theorem good_vec {junk : Option Nat} {f : Slot → USt → Res USt (Option (Option Nat))}
    (hf : ∀ s st, 1 ≤ st.level → Good st (f s st)) : ∀ (n : Nat) (st : USt), 1 ≤ st.level → Good st (unpackVec junk f n st)
  | 0, st, _ => ⟨rfl, Le.refl _, Z.refl _⟩
  | n + 1, st, h => by
    refine (hf _ _ h).bind fun v st1 e1 _ => ?_
    refine (good_vec hf n st1 (by omega)).bind fun vs st2 _ _ => ?_
    exact ⟨rfl, Le.refl _, Z.refl _⟩

private theorem good_fields {junk : Option Nat} {f : Slot → USt → Res USt (Option (Option Nat))}
    (hf : ∀ s st, 1 ≤ st.level → Good st (f s st)) (a : Nat) : ∀ (ks : List Kind) (j : Nat) (st : USt), 1 ≤ st.level →
    Good st (unpackFields junk f a j ks st)
  | [], _, st, _ => ⟨rfl, Le.refl _, Z.refl _⟩
  | .data :: ks, j, st, h => by
    refine (good_read st).bind fun v st1 e1 _ => ?_
    refine (good_fields hf a ks _ st1 (by omega)).bind fun vs st2 _ _ => ?_
    exact ⟨rfl, Le.refl _, Z.refl _⟩
  | .ptr :: ks, j, st, h => by
    refine (hf _ _ h).bind fun v st1 e1 _ => ?_
    refine (good_fields hf a ks _ st1 (by omega)).bind fun vs st2 _ _ => ?_
    exact ⟨rfl, Le.refl _, Z.refl _⟩
  | .vec :: ks, j, st, h => by
    refine (good_read st).bind fun v st1 e1 _ => ?_
    refine (good_vec hf v st1 (by omega)).bind fun vs st2 e2 _ => ?_
    refine (good_fields hf a ks _ st2 (by omega)).bind fun vs st3 _ _ => ?_
    exact ⟨rfl, Le.refl _, Z.refl _⟩

/-- The middle part of `unpack_graph`: pack_graph.h:135-151. -/
private def mid (sh : List Kind) (junk : Option Nat) (fuel : Nat) (slot : Slot) (st : USt) : Res USt (Option (Option Nat)) :=
  if st.level = st.rmax then .ok none { st with restart := slot :: st.restart }
  else (read st).bind fun id st =>
    if id = 0 then .ok (some none) st
    else
      match st.map.lookup id with
      | some a => .ok (some (some a)) st
      | none =>
        (unpackFields junk (unpackG sh junk fuel) st.heap.length 0 sh
          { st with heap := st.heap ++ [[]], map := (id, st.heap.length) :: st.map }).bind fun fs st' =>
            .ok (some (some st.heap.length)) { st' with heap := st'.heap.set st.heap.length fs }

/-- The last part: pack_graph.h:152-162. -/
private def fin (sh : List Kind) (junk : Option Nat) (fuel : Nat) (slot : Slot) (v : Option (Option Nat)) (st : USt) :
    Res USt (Option (Option Nat)) :=
  if st.level - 1 = 0 then
    (unpackLoop (unpackG sh junk fuel) fuel
      (leave slot v st)).bind fun _ st => .ok v { st with map := [] }
  else .ok v { st with level := st.level - 1 }

private theorem unpackG_eq (sh : List Kind) (junk : Option Nat) (fuel : Nat) (slot : Slot) (st : USt) :
    unpackG sh junk (fuel + 1) slot st =
      (enter st).bind fun _ st => (mid sh junk fuel slot st).bind fun v st => fin sh junk fuel slot v st := by
  rw [unpackG]; rfl

private theorem good_mid {sh : List Kind} {junk : Option Nat} {fuel : Nat}
    (ih : ∀ s st, 1 ≤ st.level → Good st (unpackG sh junk fuel s st)) (slot : Slot) (st : USt) (h : 1 ≤ st.level) :
    Good st (mid sh junk fuel slot st) := by
  unfold mid
  split
  · exact ⟨rfl, ⟨fun _ _ h => h, Nat.le_refl _, fun h => h⟩, fun e => by omega⟩
  · refine (good_read st).bind fun id st1 e1 _ => ?_
    split
    · exact ⟨rfl, Le.refl _, Z.refl _⟩
    · split
      · exact ⟨rfl, Le.refl _, Z.refl _⟩
      · rename_i hn
        have hg := good_fields ih st1.heap.length (junk := junk) sh 0
          { st1 with heap := st1.heap ++ [[]], map := (id, st1.heap.length) :: st1.map } (by simp only; omega)
        have hle : Le st1 { st1 with heap := st1.heap ++ [[]], map := (id, st1.heap.length) :: st1.map } := by
          refine ⟨fun i a hi => ?_, by simp, fun hk i a hi => ?_⟩
          · simp only [List.lookup_cons]
            split
            · rename_i e
              simp only [beq_iff_eq] at e
              rw [e, hn] at hi; cases hi
            · exact hi
          · simp only [List.lookup_cons] at hi
            simp only [List.length_append, List.length_singleton]
            split at hi
            · cases hi; omega
            · have := hk _ _ hi; omega
        cases hr : unpackFields junk (unpackG sh junk fuel) st1.heap.length 0 sh
            { st1 with heap := st1.heap ++ [[]], map := (id, st1.heap.length) :: st1.map } with
        | ok fs st2 =>
          rw [hr] at hg
          refine ⟨hg.1, hle.trans ⟨hg.2.1.map, by simpa using hg.2.1.heap, fun hk i a hi => ?_⟩, hg.2.2⟩
          have := hg.2.1.ok hk i a hi
          simpa using this
        | throw st2 => rw [hr] at hg; exact ⟨hg.1, hle.trans hg.2⟩
        | ub => trivial
        | fuel => trivial

/-- Inside a session. -/
private theorem good (sh : List Kind) (junk : Option Nat) : ∀ (fuel : Nat) (s : Slot) (st : USt), 1 ≤ st.level →
    Good st (unpackG sh junk fuel s st)
  | 0, _, _, _ => trivial
  | fuel + 1, s, st, h => by
    have hm := good_mid (good sh junk fuel) s { st with level := st.level + 1 } (by simp)
    rw [unpackG_eq]
    have he : enter st = .ok () { st with level := st.level + 1 } := by
      unfold enter; rw [if_neg (by omega)]
    rw [he]
    simp only [Res.bind]
    cases hr : mid sh junk fuel s { st with level := st.level + 1 } with
    | ok v st1 =>
      rw [hr] at hm
      have e : st1.level = st.level + 1 := hm.1
      simp only [fin]
      rw [if_neg (by omega)]
      exact ⟨by simp only [e]; omega, ⟨hm.2.1.map, hm.2.1.heap, hm.2.1.ok⟩, hm.2.2⟩
    | throw st1 =>
      rw [hr] at hm
      have e : st.level + 1 ≤ st1.level := hm.1
      exact ⟨by omega, ⟨hm.2.map, hm.2.heap, hm.2.ok⟩⟩
    | ub => trivial
    | fuel => trivial

/-- From the outermost level. -/
private def Good0 {α : Type} (st : USt) : Res USt α → Prop
  | .ok _ st' => st'.level = 0 ∧ st'.restart = [] ∧ st'.map = []
  | .throw st' => Le st st'
  | _ => True

private def GoodL {α : Type} (st : USt) : Res USt α → Prop
  | .ok _ st' => st'.level = 0 ∧ st'.restart = []
  | .throw st' => Le st st'
  | _ => True

private theorem loop0 {sh : List Kind} {junk : Option Nat} {fuel : Nat}
    (ih : ∀ s st, st.level = 0 → Good0 st (unpackG sh junk fuel s st)) (k : Nat) (st : USt) (h : st.level = 0) :
    GoodL st (unpackLoop (unpackG sh junk fuel) k st) := by
  unfold unpackLoop
  cases e : st.restart with
  | nil => exact ⟨h, e⟩
  | cons s rs =>
    cases k with
    | zero => trivial
    | succ k =>
      simp only
      split
      · trivial
      · have := ih s { st with restart := rs } h
        cases hr : unpackG sh junk fuel s { st with restart := rs } with
        | ok v st1 =>
          rw [hr] at this
          obtain ⟨h1, h2, h3⟩ := this
          simp only [Res.bind]
          unfold unpackLoop
          rw [h2]
          exact ⟨h1, h2⟩
        | throw st1 => rw [hr] at this; exact ⟨this.map, this.heap, this.ok⟩
        | ub => trivial
        | fuel => trivial

private theorem le_assign {st st' : USt} (h : Le st st') (s : Slot) (v : Option Nat) : Le st (assign st' s v) := by
  cases s with
  | root => exact ⟨h.map, h.heap, h.ok⟩
  | cell i j => exact ⟨h.map, by simpa [assign] using h.heap, by simpa [assign] using h.ok⟩
  | loc => exact h

private theorem assign_level (st : USt) (s : Slot) (v : Option Nat) : (assign st s v).level = st.level := by
  cases s <;> rfl

private theorem good0 (sh : List Kind) (junk : Option Nat) : ∀ (fuel : Nat) (s : Slot) (st : USt), st.level = 0 →
    Good0 st (unpackG sh junk fuel s st)
  | 0, _, _, _ => trivial
  | fuel + 1, s, st, h => by
    rw [unpackG_eq]
    unfold enter
    rw [if_pos h]
    cases hi : st.inp with
    | nil =>
      simp only [read, hi, Res.bind]
      exact Le.refl _
    | cons r l =>
      simp only [read, hi, Res.bind]
      have hm := good_mid (good sh junk fuel) s { st with inp := l, rmax := r, level := st.level + 1 } (by simp)
      cases hr : mid sh junk fuel s { st with inp := l, rmax := r, level := st.level + 1 } with
      | throw st1 => rw [hr] at hm; exact ⟨hm.2.map, hm.2.heap, hm.2.ok⟩
      | ub => trivial
      | fuel => trivial
      | ok v st1 =>
        rw [hr] at hm
        have e : st1.level = 1 := by have := hm.1; simp only at this; omega
        have hle : Le st st1 := ⟨hm.2.1.map, hm.2.1.heap, hm.2.1.ok⟩
        simp only [fin]
        rw [if_pos (by omega)]
        have hl := loop0 (good0 sh junk fuel) fuel (leave s v st1) (by
            cases v with
            | none => simp [leave, e]
            | some w => simp [leave, assign_level, e])
        have hle' : Le st (leave s v st1) := by
          cases v with
          | none => exact ⟨hle.map, hle.heap, hle.ok⟩
          | some w => exact le_assign (st' := { st1 with level := st1.level - 1 }) ⟨hle.map, hle.heap, hle.ok⟩ s w
        generalize unpackLoop (unpackG sh junk fuel) fuel (leave s v st1) = res at hl ⊢
        cases res with
        | ok u st2 => exact ⟨hl.1, hl.2, rfl⟩
        | throw st2 => exact hle'.trans hl
        | ub => trivial
        | fuel => trivial

/-! ### Reading -/

private def ext (z : List Nat) (st : USt) : USt := { st with inp := st.inp ++ z }

/-- More data makes no difference to what does not want it. -/
private def More {α : Type} (f : USt → Res USt α) : Prop := ∀ st z,
  match f st with
  | .ok v st' => f (ext z st) = .ok v (ext z st')
  | .ub => f (ext z st) = .ub
  | .fuel => f (ext z st) = .fuel
  | .throw _ => True

private theorem More.bind {α β : Type} {f : USt → Res USt α} {g : α → USt → Res USt β} (hf : More f) (hg : ∀ a, More (g a)) :
    More fun st => (f st).bind g := by
  intro st z
  have h1 := hf st z
  cases hr : f st with
  | ok v st1 =>
    rw [hr] at h1
    have h2 := hg v st1 z
    simp only at h1
    simp only [Res.bind, hr, h1]
    exact h2
  | ub => rw [hr] at h1; simp only at h1; simp only [Res.bind, hr, h1]
  | fuel => rw [hr] at h1; simp only at h1; simp only [Res.bind, hr, h1]
  | throw st1 => simp only [Res.bind, hr]

private theorem more_read : More read := by
  intro st z
  unfold read
  cases hi : st.inp with
  | nil => trivial
  | cons n r => simp [ext, hi]

private theorem more_id {α : Type} (v : α) (g : USt → USt) (hg : ∀ st z, g (ext z st) = ext z (g st)) : More fun st => Res.ok v (g st) := by
  intro st z
  simp [hg]

private theorem more_ret {α : Type} (v : α) : More (Res.ok v) := fun st z => rfl

private theorem more_vec {junk : Option Nat} {f : Slot → USt → Res USt (Option (Option Nat))} (hf : ∀ s, More (f s)) :
    ∀ n, More (unpackVec junk f n)
  | 0 => fun st z => rfl
  | n + 1 => by
    have := (hf .loc).bind fun v => (more_vec (junk := junk) hf n).bind fun vs =>
      more_ret (v.getD junk :: vs)
    exact this

private theorem more_fields {junk : Option Nat} {f : Slot → USt → Res USt (Option (Option Nat))} (hf : ∀ s, More (f s)) (a : Nat) :
    ∀ ks j, More (unpackFields junk f a j ks)
  | [], j => fun st z => by simp [unpackFields]
  | .data :: ks, j => by
    have := more_read.bind fun n => (more_fields (junk := junk) hf a ks (j + 1)).bind fun fs =>
      more_ret (Fld.data n :: fs)
    simpa only [unpackFields] using this
  | .ptr :: ks, j => by
    have := (hf (.cell a j)).bind fun v => (more_fields (junk := junk) hf a ks (j + 1)).bind fun fs =>
      more_ret (Fld.ptr (v.getD junk) :: fs)
    simpa only [unpackFields] using this
  | .vec :: ks, j => by
    have := more_read.bind fun n => (more_vec (junk := junk) hf n).bind fun vs =>
      (more_fields (junk := junk) hf a ks (j + 1)).bind fun fs =>
      more_ret (Fld.vec vs :: fs)
    simpa only [unpackFields] using this

private theorem more_enter : More enter := by
  intro st z
  unfold enter
  by_cases h : st.level = 0
  · rw [if_pos h, if_pos (by exact h)]
    unfold read
    cases hi : st.inp with
    | nil => trivial
    | cons n r => simp [ext, hi, Res.bind]
  · rw [if_neg h, if_neg (by exact h)]
    simp [ext]

private theorem more_ite {α : Type} (c : USt → Prop) [∀ st, Decidable (c st)] (hc : ∀ st z, c (ext z st) ↔ c st)
    {f g : USt → Res USt α} (hf : More f) (hg : More g) : More fun st => if c st then f st else g st := by
  intro st z
  simp only [hc]
  by_cases h : c st
  · simp only [if_pos h]; exact hf st z
  · simp only [if_neg h]; exact hg st z

private theorem more_mid {sh : List Kind} {junk : Option Nat} {fuel : Nat} (ih : ∀ s, More (unpackG sh junk fuel s)) (slot : Slot) :
    More (mid sh junk fuel slot) := by
  unfold mid
  refine more_ite (fun st => st.level = st.rmax) (fun _ _ => Iff.rfl) (more_id _ _ fun _ _ => rfl) ?_
  refine more_read.bind fun id => ?_
  refine more_ite (fun _ => id = 0) (fun _ _ => Iff.rfl) (more_id _ (fun st => st) fun _ _ => rfl) ?_
  intro st z
  have he : (ext z st).map = st.map := rfl
  simp only [he]
  cases hl : st.map.lookup id with
  | some a => simp
  | none =>
    simp only
    have h1 := more_fields (junk := junk) ih st.heap.length sh 0
      { st with heap := st.heap ++ [[]], map := (id, st.heap.length) :: st.map } z
    have he2 : ({ ext z st with heap := (ext z st).heap ++ [[]], map := (id, (ext z st).heap.length) :: st.map } : USt) =
        ext z { st with heap := st.heap ++ [[]], map := (id, st.heap.length) :: st.map } := rfl
    rw [he2]
    have he3 : (ext z st).heap.length = st.heap.length := rfl
    rw [he3]
    generalize unpackFields junk (unpackG sh junk fuel) st.heap.length 0 sh
      { st with heap := st.heap ++ [[]], map := (id, st.heap.length) :: st.map } = res at h1 ⊢
    cases res with
    | ok fs st1 => simp only at h1; rw [h1]; rfl
    | ub => simp only at h1; rw [h1]; rfl
    | fuel => simp only at h1; rw [h1]; rfl
    | throw st1 => trivial

private theorem more_loop {f : Slot → USt → Res USt (Option (Option Nat))} (hf : ∀ s, More (f s)) : ∀ k, More (unpackLoop f k)
  | 0 => by
    intro st z
    unfold unpackLoop
    have he : (ext z st).restart = st.restart := rfl
    rw [he]
    cases hr : st.restart <;> simp
  | k + 1 => by
    intro st z
    unfold unpackLoop
    have he : (ext z st).restart = st.restart := rfl
    rw [he]
    cases hr : st.restart with
    | nil => simp
    | cons s rs =>
      by_cases hs : s = .loc
      · simp [hs]
      · simp only [hs, if_false]
        exact ((hf s).bind fun _ => more_loop hf k) { st with restart := rs } z

private theorem leave_ext (slot : Slot) (v : Option (Option Nat)) (st : USt) (z : List Nat) :
    leave slot v (ext z st) = ext z (leave slot v st) := by
  cases v with
  | none => rfl
  | some w => cases slot <;> rfl

private theorem more_fin {sh : List Kind} {junk : Option Nat} {fuel : Nat} (ih : ∀ s, More (unpackG sh junk fuel s)) (slot : Slot)
    (v : Option (Option Nat)) : More (fin sh junk fuel slot v) := by
  unfold fin
  refine more_ite (fun st => st.level - 1 = 0) (fun _ _ => Iff.rfl) ?_ (more_id _ _ fun _ _ => rfl)
  intro st z
  simp only [leave_ext]
  exact ((more_loop ih fuel).bind fun _ => more_id v (fun st => { st with map := [] }) fun _ _ => rfl) (leave slot v st) z

private theorem more (sh : List Kind) (junk : Option Nat) : ∀ (fuel : Nat) (s : Slot), More (unpackG sh junk fuel s)
  | 0, s => fun st z => by simp [unpackG]
  | fuel + 1, s => by
    intro st z
    rw [unpackG_eq, unpackG_eq]
    exact (more_enter.bind fun _ => (more_mid (more sh junk fuel) s).bind fun v => more_fin (more sh junk fuel) s v) st z

/-- C102: data that is cut short anywhere is noticed: an exception. -/
theorem C102_truncated (sh : List Kind) (junk : Option Nat) (fuel : Nat) (slot : Slot) (st st' : USt) (v : Option (Option Nat))
    (x t y : List Nat) (c : Nat) (hi : st.inp = x ++ c :: t ++ y) (h : unpackG sh junk fuel slot st = .ok v st') (hy : st'.inp = y) :
    ∃ e, unpackG sh junk fuel slot { st with inp := x } = .throw e := by
  have hm := more sh junk fuel slot { st with inp := x } (c :: t ++ y)
  have he : ext (c :: t ++ y) { st with inp := x } = st := by
    cases st; simp only [ext] at hi ⊢; simp [hi]
  rw [he, h] at hm
  cases hr : unpackG sh junk fuel slot { st with inp := x } with
  | throw e => exact ⟨e, rfl⟩
  | ok v1 st1 =>
    rw [hr] at hm
    simp only [Res.ok.injEq] at hm
    have := congrArg (fun s => s.inp.length) hm.2
    simp [ext, hy] at this
    omega
  | ub => rw [hr] at hm; cases hm
  | fuel => rw [hr] at hm; cases hm

/-- C102: a call that returns leaves the static variables as they were at the start of the program, so that the next one is as
the first. -/
theorem C102_clean_partial (sh : List Kind) (junk : Option Nat) (fuel : Nat) (slot : Slot) (st st' : USt) (v : Option (Option Nat))
    (hc : Clean st) (h : unpackG sh junk fuel slot st = .ok v st') : Clean st' := by
  have := good0 sh junk fuel slot st hc.level
  rw [h] at this
  exact ⟨this.1, this.2.2, this.2.1⟩

/-- C102 fails: after an exception the object read first is still known by its number. -/
theorem C102_fails_dirty (sh : List Kind) (junk : Option Nat) (fuel : Nat) (slot : Slot) (st st' : USt) (r id : Nat) (l : List Nat)
    (hc : Clean st) (hi : st.inp = r :: id :: l) (hr : r ≠ 1) (hid : id ≠ 0)
    (h : unpackG sh junk fuel slot st = .throw st') :
    st'.map.lookup id = some st.heap.length ∧ st.heap.length < st'.heap.length ∧
      ∀ id a, st'.map.lookup id = some a → a < st'.heap.length := by
  have hle : Le st st' := by
    have := good0 sh junk fuel slot st hc.level
    rwa [h] at this
  have hmap : st'.map.lookup id = some st.heap.length := by
    cases fuel with
    | zero => simp [unpackG] at h
    | succ fuel =>
      rw [unpackG_eq] at h
      have he : enter st = .ok () { st with inp := id :: l, rmax := r, level := 1 } := by
        unfold enter
        rw [if_pos hc.level]
        simp [read, hi, Res.bind, hc.level]
      rw [he] at h
      simp only [Res.bind] at h
      have hm : mid sh junk fuel slot { st with inp := id :: l, rmax := r, level := 1 } =
          (unpackFields junk (unpackG sh junk fuel) st.heap.length 0 sh
            { st with inp := l, rmax := r, level := 1, heap := st.heap ++ [[]], map := [(id, st.heap.length)] }).bind fun fs st' =>
            .ok (some (some st.heap.length)) { st' with heap := st'.heap.set st.heap.length fs } := by
        unfold mid
        rw [if_neg (by simpa using fun e => hr e.symm)]
        simp [read, Res.bind, hid, hc.map]
      rw [hm] at h
      have hg := good_fields (good sh junk fuel) (junk := junk) st.heap.length sh 0
        { st with inp := l, rmax := r, level := 1, heap := st.heap ++ [[]], map := [(id, st.heap.length)] } (by simp)
      generalize unpackFields junk (unpackG sh junk fuel) st.heap.length 0 sh
        { st with inp := l, rmax := r, level := 1, heap := st.heap ++ [[]], map := [(id, st.heap.length)] } = res at h hg
      cases res with
      | throw s1 =>
        simp only [Res.bind, Res.throw.injEq] at h
        subst h
        exact hg.2.map id _ (by simp)
      | ub => simp [Res.bind] at h
      | fuel => simp [Res.bind] at h
      | ok fs s1 =>
        simp only [Res.bind, fin] at h
        have h1 : s1.map.lookup id = some st.heap.length := hg.2.1.map id _ (by simp)
        have e1 : s1.level = 1 := hg.1
        rw [if_pos (by simp [e1])] at h
        have hl := loop0 (good0 sh junk fuel) fuel (leave slot (some (some st.heap.length))
          { s1 with heap := s1.heap.set st.heap.length fs }) (by simp [leave, assign_level, e1])
        generalize unpackLoop (unpackG sh junk fuel) fuel (leave slot (some (some st.heap.length))
          { s1 with heap := s1.heap.set st.heap.length fs }) = res at h hl
        cases res with
        | ok _ s2 => simp at h
        | ub => simp at h
        | fuel => simp at h
        | throw s2 =>
          simp only [Res.throw.injEq] at h
          subst h
          refine hl.map id _ ?_
          cases slot <;> exact h1
  have hok := hle.ok (by rw [hc.map]; simp)
  exact ⟨hmap, hok _ _ hmap, hok⟩

/-- C102 fails: after an exception, a graph read from another buffer is not the one that was packed: if the call returns at all, the
pointer is not set, or is null, or points to what was read before the exception (and belongs to the other buffer), or to an object
whose first member is 1 (the number of the first object of the graph), whatever it should be. -/
theorem C102_fails (ks : List Kind) (junk : Option Nat) (fuel : Nat) (slot : Slot) (st st' : USt) (r : Nat) (l : List Nat)
    (hc : Clean st) (hi : st.inp = r :: 1 :: l) (hr : r ≠ 1) (h : unpackG (.data :: ks) junk fuel slot st = .throw st')
    (fuel' : Nat) (slot' : Slot) (r' rm : Nat) (l' : List Nat) (v : Option (Option Nat)) (st'' : USt)
    (h' : unpackG (.data :: ks) junk fuel' slot' (st'.other (r' :: 1 :: l') rm) = .ok v st'') :
    v = none ∨ v = some none ∨ (∃ a, v = some (some a) ∧ a < st'.heap.length) ∨
      ∃ a fs, v = some (some a) ∧ st''.heap[a]? = some (.data 1 :: fs) := by
  obtain ⟨hd1, hd2, hd3⟩ := C102_fails_dirty _ junk fuel slot st st' r 1 l hc hi hr (by decide) h
  have finv : ∀ {n s w} {x : USt} {v : Option (Option Nat)} {y}, fin (.data :: ks) junk n s w x = .ok v y → v = w := by
    intro n s w x v y hf
    unfold fin at hf
    split at hf
    · generalize unpackLoop (unpackG (.data :: ks) junk n) n (leave s w x) = res at hf
      cases res <;> simp [Res.bind] at hf
      exact hf.1.symm
    · simp at hf; exact hf.1.symm
  cases fuel' with
  | zero => simp [unpackG] at h'
  | succ n =>
    rw [unpackG_eq] at h'
    by_cases hl : st'.level = 0
    · have he : enter (st'.other (r' :: 1 :: l') rm) = .ok () { st' with inp := 1 :: l', rmax := r', level := 1 } := by
        unfold enter
        rw [if_pos (by exact hl)]
        simp [read, USt.other, Res.bind, hl]
      rw [he] at h'
      simp only [Res.bind] at h'
      by_cases hr' : r' = 1
      · have hm : mid (.data :: ks) junk n slot' { st' with inp := 1 :: l', rmax := r', level := 1 } =
            .ok none { st' with inp := 1 :: l', rmax := r', level := 1, restart := slot' :: st'.restart } := by
          unfold mid; rw [if_pos (by simp [hr'])]
        rw [hm] at h'
        exact .inl (finv h')
      · have hm : mid (.data :: ks) junk n slot' { st' with inp := 1 :: l', rmax := r', level := 1 } =
            .ok (some (some st.heap.length)) { st' with inp := l', rmax := r', level := 1 } := by
          unfold mid
          rw [if_neg (by simpa using fun e => hr' e.symm)]
          simp [read, Res.bind, hd1]
        rw [hm] at h'
        exact .inr (.inr (.inl ⟨_, finv h', hd2⟩))
    · have he : enter (st'.other (r' :: 1 :: l') rm) =
          .ok () { st' with inp := r' :: 1 :: l', rmax := rm, level := st'.level + 1 } := by
        unfold enter
        rw [if_neg (by exact hl)]
        rfl
      rw [he] at h'
      simp only [Res.bind] at h'
      by_cases hrm : st'.level + 1 = rm
      · have hm : mid (.data :: ks) junk n slot' { st' with inp := r' :: 1 :: l', rmax := rm, level := st'.level + 1 } =
            .ok none { st' with inp := r' :: 1 :: l', rmax := rm, level := st'.level + 1, restart := slot' :: st'.restart } := by
          unfold mid; rw [if_pos (by simp [hrm])]
        rw [hm] at h'
        exact .inl (finv h')
      · by_cases hr' : r' = 0
        · have hm : mid (.data :: ks) junk n slot' { st' with inp := r' :: 1 :: l', rmax := rm, level := st'.level + 1 } =
              .ok (some none) { st' with inp := 1 :: l', rmax := rm, level := st'.level + 1 } := by
            unfold mid; rw [if_neg (by simp [hrm])]; simp [read, Res.bind, hr']
          rw [hm] at h'
          exact .inr (.inl (finv h'))
        · cases hlk : st'.map.lookup r' with
          | some a =>
            have hm : mid (.data :: ks) junk n slot' { st' with inp := r' :: 1 :: l', rmax := rm, level := st'.level + 1 } =
                .ok (some (some a)) { st' with inp := 1 :: l', rmax := rm, level := st'.level + 1 } := by
              unfold mid; rw [if_neg (by simp [hrm])]; simp [read, Res.bind, hr', hlk]
            rw [hm] at h'
            exact .inr (.inr (.inl ⟨a, finv h', hd3 _ _ hlk⟩))
          | none =>
            have hm : mid (.data :: ks) junk n slot' { st' with inp := r' :: 1 :: l', rmax := rm, level := st'.level + 1 } =
                (unpackFields junk (unpackG (.data :: ks) junk n) st'.heap.length 1 ks
                  { st' with inp := l', rmax := rm, level := st'.level + 1, heap := st'.heap ++ [[]], map := (r', st'.heap.length) :: st'.map }).bind fun fs s1 =>
                  .ok (some (some st'.heap.length)) { s1 with heap := s1.heap.set st'.heap.length (.data 1 :: fs) } := by
              unfold mid
              rw [if_neg (by simp [hrm])]
              simp only [read, Res.bind, hr', hlk, unpackFields, if_false]
              generalize unpackFields junk (unpackG (.data :: ks) junk n) st'.heap.length 1 ks _ = res
              cases res <;> rfl
            rw [hm] at h'
            have hg := good_fields (good (.data :: ks) junk n) (junk := junk) st'.heap.length ks 1
              { st' with inp := l', rmax := rm, level := st'.level + 1, heap := st'.heap ++ [[]], map := (r', st'.heap.length) :: st'.map } (by simp)
            generalize unpackFields junk (unpackG (.data :: ks) junk n) st'.heap.length 1 ks
              { st' with inp := l', rmax := rm, level := st'.level + 1, heap := st'.heap ++ [[]], map := (r', st'.heap.length) :: st'.map } = res at h' hg
            cases res with
            | throw s1 => simp [Res.bind] at h'
            | ub => simp [Res.bind] at h'
            | fuel => simp [Res.bind] at h'
            | ok fs s1 =>
              simp only [Res.bind] at h'
              have e1 : s1.level = st'.level + 1 := hg.1
              have e2 : st'.heap.length < s1.heap.length := by
                have := hg.2.1.heap
                simp at this
                omega
              have hv := finv h'
              refine .inr (.inr (.inr ⟨st'.heap.length, fs, hv, ?_⟩))
              unfold fin at h'
              rw [if_neg (by simp only [e1]; omega)] at h'
              simp only [Res.ok.injEq] at h'
              rw [← h'.2]
              simp [e2]

/-- C102 fails: and so it remains.  Once `recur_level` has been left above zero, it is so after every later call, whether it returns
or throws. -/
theorem C102_fails_forever (sh : List Kind) (junk : Option Nat) (fuel : Nat) (slot : Slot) (st : USt) (h : 1 ≤ st.level) :
    (∀ v st', unpackG sh junk fuel slot st = .ok v st' → 1 ≤ st'.level) ∧
    ∀ st', unpackG sh junk fuel slot st = .throw st' → 1 ≤ st'.level := by
  have hg := good sh junk fuel slot st h
  constructor
  · intro v st' e; rw [e] at hg; have := hg.1; omega
  · intro st' e; rw [e] at hg; have := hg.1; omega

/-- It is left above zero by every exception in a graph packed without a limit. -/
theorem C102_fails_level (sh : List Kind) (junk : Option Nat) (fuel : Nat) (slot : Slot) (st st' : USt) (l : List Nat)
    (hc : Clean st) (hi : st.inp = 0 :: l) (h : unpackG sh junk fuel slot st = .throw st') : 1 ≤ st'.level := by
  cases fuel with
  | zero => simp [unpackG] at h
  | succ fuel =>
    rw [unpackG_eq] at h
    have he : enter st = .ok () { st with inp := l, rmax := 0, level := 1 } := by
      unfold enter
      rw [if_pos hc.level]
      simp [read, hi, Res.bind, hc.level]
    rw [he] at h
    simp only [Res.bind] at h
    have hm := good_mid (good sh junk fuel) slot { st with inp := l, rmax := 0, level := 1 } (by simp)
    generalize mid sh junk fuel slot { st with inp := l, rmax := 0, level := 1 } = res at h hm
    cases res with
    | throw s1 => simp only [Res.throw.injEq] at h; subst h; exact hm.1
    | ub => simp at h
    | fuel => simp at h
    | ok v s1 =>
      obtain ⟨e1, -, e2⟩ := hm
      have e3 : s1.restart = [] := (e2 rfl).2.trans hc.restart
      have e1 : s1.level = 1 := e1
      simp only [fin] at h
      rw [if_pos (by omega)] at h
      have : (leave slot v s1).restart = [] := by
        cases v with
        | none => exact e3
        | some w => cases slot <;> exact e3
      unfold unpackLoop at h
      rw [this] at h
      simp [Res.bind] at h

/-! ### Packing -/

private def GoodP (rmax : Nat) {α : Type} (st : PSt) : Res PSt α → Prop
  | .ok _ st' => st'.level = st.level ∧ st.map <+: st'.map ∧ (rmax = 0 → st'.restart = st.restart)
  | .throw st' => st.level ≤ st'.level ∧ st.map <+: st'.map
  | _ => True

private theorem GoodP.bind {rmax : Nat} {α β : Type} {st : PSt} {r : Res PSt α} {f : α → PSt → Res PSt β} (h : GoodP rmax st r)
    (hf : ∀ a st', st'.level = st.level → GoodP rmax st' (f a st')) : GoodP rmax st (r.bind f) := by
  cases r with
  | ok a st' =>
    have := hf a st' h.1
    simp only [Res.bind]
    cases hr : f a st' with
    | ok c st'' =>
      rw [hr] at this
      exact ⟨this.1.trans h.1, h.2.1.trans this.2.1, fun e => (this.2.2 e).trans (h.2.2 e)⟩
    | throw st'' =>
      rw [hr] at this
      exact ⟨Nat.le_trans (Nat.le_of_eq h.1.symm) this.1, h.2.1.trans this.2⟩
    | ub => trivial
    | fuel => trivial
  | throw st' => exact h
  | ub => trivial
  | fuel => trivial

private theorem goodP_write (rmax : Nat) (bad : List Nat → Nat → Bool) (n : Nat) (st : PSt) : GoodP rmax st (write bad n st) := by
  unfold write
  split
  · exact ⟨Nat.le_refl _, List.prefix_rfl⟩
  · exact ⟨rfl, List.prefix_rfl, fun _ => rfl⟩

private theorem goodP_ok (rmax : Nat) (st : PSt) : GoodP rmax st (.ok () st) := ⟨rfl, List.prefix_rfl, fun _ => rfl⟩

private theorem goodP_vec {rmax : Nat} {f : Option Nat → PSt → Res PSt Unit} (hf : ∀ p st, 1 ≤ st.level → GoodP rmax st (f p st)) :
    ∀ ps st, 1 ≤ st.level → GoodP rmax st (packVec f ps st)
  | [], st, _ => goodP_ok rmax st
  | p :: ps, st, h => (hf p st h).bind fun _ st' e => goodP_vec hf ps st' (by omega)

private theorem goodP_fields {rmax : Nat} {bad : List Nat → Nat → Bool} {f : Option Nat → PSt → Res PSt Unit}
    (hf : ∀ p st, 1 ≤ st.level → GoodP rmax st (f p st)) :
    ∀ fs st, 1 ≤ st.level → GoodP rmax st (packFields bad f fs st)
  | [], st, _ => by unfold packFields; exact goodP_ok rmax st
  | .data n :: fs, st, h => by
    unfold packFields
    exact (goodP_write rmax bad n st).bind fun _ st' e => goodP_fields hf fs st' (by omega)
  | .ptr p :: fs, st, h => by
    unfold packFields
    exact (hf p st h).bind fun _ st' e => goodP_fields hf fs st' (by omega)
  | .vec ps :: fs, st, h => by
    unfold packFields
    exact (goodP_write rmax bad _ st).bind fun _ st' e => (goodP_vec hf ps st' (by omega)).bind fun _ st'' e' =>
      goodP_fields hf fs st'' (by omega)

private def midP (G : Nat → List Fld) (rmax : Nat) (bad : List Nat → Nat → Bool) (fuel : Nat) (p : Option Nat) (st : PSt) :
    Res PSt Unit :=
  if st.level + 1 = rmax then .ok () { st with level := st.level + 1, restart := p :: st.restart }
  else
    match p with
    | none => write bad 0 { st with level := st.level + 1 }
    | some a =>
      match st.map.idxOf? a with
      | some i => write bad (i + 1) { st with level := st.level + 1 }
      | none => (write bad (st.map.length + 1) { st with level := st.level + 1, map := st.map ++ [a] }).bind fun _ st =>
          packFields bad (packG G rmax bad fuel) (G a) st

private def finP (G : Nat → List Fld) (rmax : Nat) (bad : List Nat → Nat → Bool) (fuel : Nat) (st : PSt) : Res PSt Unit :=
  if st.level - 1 = 0 then
    (packLoop (packG G rmax bad fuel) fuel { st with level := st.level - 1 }).bind fun _ st => .ok () { st with map := [] }
  else .ok () { st with level := st.level - 1 }

private theorem packG_eq (G : Nat → List Fld) (rmax : Nat) (bad : List Nat → Nat → Bool) (fuel : Nat) (p : Option Nat) (st : PSt) :
    packG G rmax bad (fuel + 1) p st =
      (if st.level = 0 then write bad rmax st else .ok () st).bind fun _ st =>
        (midP G rmax bad fuel p st).bind fun _ st => finP G rmax bad fuel st := rfl

/-- As seen from one level up. -/
private theorem goodP_mid {G : Nat → List Fld} {rmax : Nat} {bad : List Nat → Nat → Bool} {fuel : Nat}
    (ih : ∀ p st, 1 ≤ st.level → GoodP rmax st (packG G rmax bad fuel p st)) (p : Option Nat) (st : PSt) :
    GoodP rmax { st with level := st.level + 1 } (midP G rmax bad fuel p st) := by
  unfold midP
  split
  · exact ⟨rfl, List.prefix_rfl, fun e => by omega⟩
  · cases p with
    | none => exact goodP_write rmax bad 0 _
    | some a =>
      simp only
      cases hl : st.map.idxOf? a with
      | some i => exact goodP_write rmax bad _ _
      | none =>
        simp only
        have := (goodP_write rmax bad (st.map.length + 1) { st with level := st.level + 1, map := st.map ++ [a] }).bind
          fun _ st' e => goodP_fields (bad := bad) ih (G a) st' (by rw [e]; simp)
        generalize ((write bad (st.map.length + 1) { st with level := st.level + 1, map := st.map ++ [a] }).bind fun _ st =>
          packFields bad (packG G rmax bad fuel) (G a) st) = res at this ⊢
        cases res with
        | ok _ s => exact ⟨this.1, (List.prefix_append _ _).trans this.2.1, this.2.2⟩
        | throw s => exact ⟨this.1, (List.prefix_append _ _).trans this.2⟩
        | ub => trivial
        | fuel => trivial

private theorem goodP (G : Nat → List Fld) (rmax : Nat) (bad : List Nat → Nat → Bool) :
    ∀ fuel p st, 1 ≤ st.level → GoodP rmax st (packG G rmax bad fuel p st)
  | 0, p, st, _ => by unfold packG; trivial
  | fuel + 1, p, st, h => by
    rw [packG_eq, if_neg (by omega)]
    simp only [Res.bind]
    have hm := goodP_mid (goodP G rmax bad fuel) p st
    generalize midP G rmax bad fuel p st = res at hm
    cases res with
    | ok _ s =>
      simp only [finP]
      have e1 : s.level = st.level + 1 := hm.1
      rw [if_neg (by omega)]
      exact ⟨by simp only [e1]; omega, hm.2.1, hm.2.2⟩
    | throw s =>
      have e1 : st.level + 1 ≤ s.level := hm.1
      exact ⟨by omega, hm.2⟩
    | ub => trivial
    | fuel => trivial

/-- C102: packing too leaves its static variables as at the start of the program if it returns. -/
theorem C102_pack_clean_partial (G : Nat → List Fld) (rmax : Nat) (bad : List Nat → Nat → Bool) :
    ∀ (fuel : Nat) (p : Option Nat) (st st' : PSt), st.level = 0 → packG G rmax bad fuel p st = .ok () st' → CleanP st'
  | 0, p, st, st', _, h => by simp [packG] at h
  | fuel + 1, p, st, st', hl, h => by
    rw [packG_eq, if_pos hl] at h
    cases hw : write bad rmax st with
    | ok u s0 =>
      have e0 : s0.level = 0 := by
        have := goodP_write rmax bad rmax st
        rw [hw] at this
        exact this.1.trans hl
      rw [hw] at h
      simp only [Res.bind] at h
      have hm := goodP_mid (goodP G rmax bad fuel) p s0
      generalize midP G rmax bad fuel p s0 = res at hm h
      cases res with
      | ok _ s1 =>
        have e1 : s1.level = 1 := by have := hm.1; simpa [e0] using this
        simp only [finP] at h
        rw [if_pos (by omega)] at h
        have hloop : ∀ k s s', s.level = 0 → packLoop (packG G rmax bad fuel) k s = .ok () s' → s'.level = 0 ∧ s'.restart = [] := by
          intro k
          induction k with
          | zero =>
            intro s s' hs he
            unfold packLoop at he
            cases hr : s.restart with
            | nil => rw [hr] at he; simp at he; subst he; exact ⟨hs, hr⟩
            | cons q rs => rw [hr] at he; simp at he
          | succ k ihk =>
            intro s s' hs he
            unfold packLoop at he
            cases hr : s.restart with
            | nil => rw [hr] at he; simp at he; subst he; exact ⟨hs, hr⟩
            | cons q rs =>
              rw [hr] at he
              simp only at he
              cases hq : packG G rmax bad fuel q { s with restart := rs } with
              | ok u s2 =>
                rw [hq] at he
                exact ihk s2 s' (C102_pack_clean_partial G rmax bad fuel q _ s2 (by exact hs) hq).level he
              | throw s2 => rw [hq] at he; simp [Res.bind] at he
              | ub => rw [hq] at he; simp [Res.bind] at he
              | fuel => rw [hq] at he; simp [Res.bind] at he
        cases hp : packLoop (packG G rmax bad fuel) fuel { s1 with level := s1.level - 1 } with
        | ok u s2 =>
          rw [hp] at h
          simp only [Res.bind, Res.ok.injEq] at h
          obtain ⟨h1, h2⟩ := hloop _ _ _ (by simp [e1]) hp
          rw [← h.2]
          exact ⟨h1, rfl, h2⟩
        | throw s2 => rw [hp] at h; simp [Res.bind] at h
        | ub => rw [hp] at h; simp [Res.bind] at h
        | fuel => rw [hp] at h; simp [Res.bind] at h
      | throw s1 => simp [Res.bind] at h
      | ub => simp [Res.bind] at h
      | fuel => simp [Res.bind] at h
    | throw s0 => rw [hw] at h; simp [Res.bind] at h
    | ub => rw [hw] at h; simp [Res.bind] at h
    | fuel => rw [hw] at h; simp [Res.bind] at h

/-- C102 fails: when packing an object without a limit throws, the object is taken for packed from then on: packed again, into whatever
buffer, nothing of it is written but the number 1; and unpacking that ends in an exception. -/
theorem C102_fails_pack (G : Nat → List Fld) (bad : List Nat → Nat → Bool) (fuel a : Nat) (st st' : PSt)
    (hc : CleanP st) (hb : bad st.out 0 = false) (h : packG G 0 bad fuel (some a) st = .throw st')
    (o : List Nat) (bad' : List Nat → Nat → Bool) (hb' : bad' o 1 = false) (fuel' : Nat) :
    packG G 0 bad' (fuel' + 1) (some a) { st' with out := o } = .ok () { st' with out := o ++ [1] } ∧
      ∀ sh junk n slot u v u', Clean u → u.inp = [1] → unpackG sh junk n slot u ≠ .ok v u' := by
  constructor
  · have key : 1 ≤ st'.level ∧ [a] <+: st'.map := by
      cases fuel with
      | zero => simp [packG] at h
      | succ fuel =>
        rw [packG_eq, if_pos hc.level] at h
        have hw : write bad 0 st = .ok () { st with out := st.out ++ [0] } := by simp [write, hb]
        rw [hw] at h
        simp only [Res.bind] at h
        have hm : midP G 0 bad fuel (some a) { st with out := st.out ++ [0] } =
            (write bad 1 { st with out := st.out ++ [0], level := 1, map := [a] }).bind fun _ st =>
              packFields bad (packG G 0 bad fuel) (G a) st := by
          unfold midP
          rw [if_neg (by simp)]
          simp [hc.map, hc.level]
        rw [hm] at h
        have hg := (goodP_write 0 bad 1 { st with out := st.out ++ [0], level := 1, map := [a] }).bind
          fun _ st' e => goodP_fields (bad := bad) (goodP G 0 bad fuel) (G a) st' (by rw [e]; simp)
        generalize ((write bad 1 { st with out := st.out ++ [0], level := 1, map := [a] }).bind fun _ st =>
          packFields bad (packG G 0 bad fuel) (G a) st) = res at hg h
        cases res with
        | throw s => simp only [Res.bind, Res.throw.injEq] at h; subst h; exact hg
        | ub => simp [Res.bind] at h
        | fuel => simp [Res.bind] at h
        | ok u s =>
          simp only [Res.bind, finP] at h
          have e1 : s.level = 1 := hg.1
          have e2 : s.restart = [] := (hg.2.2 rfl).trans hc.restart
          rw [if_pos (by omega)] at h
          unfold packLoop at h
          simp [e2, Res.bind] at h
    obtain ⟨hl, t, ht⟩ := key
    rw [packG_eq, if_neg (by simp; omega)]
    have hm : midP G 0 bad' fuel' (some a) { st' with out := o } = .ok () { st' with out := o ++ [1], level := st'.level + 1 } := by
      unfold midP
      rw [if_neg (by simp)]
      simp [← ht, List.idxOf?, List.findIdx?_cons, write, hb']
    simp only [Res.bind, hm, finP]
    rw [if_neg (by simp; omega)]
    rfl
  · intro sh junk n slot u v u' hu hi he
    cases n with
    | zero => simp [unpackG] at he
    | succ n =>
      rw [unpackG_eq] at he
      have h1 : enter u = .ok () { u with inp := [], rmax := 1, level := 1 } := by
        unfold enter
        rw [if_pos hu.level]
        simp [read, hi, Res.bind, hu.level]
      rw [h1] at he
      have h2 : mid sh junk n slot { u with inp := [], rmax := 1, level := 1 } =
          .ok none { u with inp := [], rmax := 1, level := 1, restart := [slot] } := by
        unfold mid
        simp [hu.restart]
      simp only [Res.bind, h2, fin, leave] at he
      rw [if_pos (by simp)] at he
      cases n with
      | zero => simp [unpackLoop] at he
      | succ n =>
        unfold unpackLoop at he
        simp only at he
        by_cases hs : slot = .loc
        · simp [hs] at he
        · rw [if_neg hs] at he
          rw [unpackG_eq] at he
          simp [enter, read, Res.bind] at he

/-! ### Cases: a class with a value and a pointer -/

/-- The start of the program. -/
def C102.start (inp : List Nat) : USt := ⟨inp, 500, [], none, 0, [], []⟩

/-- Two objects, 70 -> 71 -> null, without a limit: read in full; and cut before the last value. -/
example : (unpackG [.data, .ptr] none 9 .root (start [0, 1, 70, 2, 71, 0])) =
    .ok (some (some 0)) ⟨[], 0, [[.data 70, .ptr (some 1)], [.data 71, .ptr none]], some 0, 0, [], []⟩ := by decide +kernel

example : (unpackG [.data, .ptr] none 9 .root (start [0, 1, 70, 2, 71])) =
    .throw ⟨[], 0, [[], []], none, 3, [(2, 1), (1, 0)], []⟩ := by decide +kernel

/-- After that, the whole stream gives a null pointer; one with a limit gives an object with number 1 for its value. -/
example : (unpackG [.data, .ptr] none 9 .root ((⟨[], 0, [[], []], none, 3, [(2, 1), (1, 0)], []⟩ : USt).other
    [0, 1, 70, 2, 71, 0] 500)) = .ok (some none) ⟨[1, 70, 2, 71, 0], 500, [[], []], none, 3, [(2, 1), (1, 0)], []⟩ := by
  decide +kernel

example : (unpackG [.data, .ptr] none 9 .root ((⟨[], 0, [[], []], none, 3, [(2, 1), (1, 0)], []⟩ : USt).other
    [500, 1, 2, 2, 71, 0] 500)) =
    .ok (some (some 2)) ⟨[2, 71, 0], 500, [[], [], [.data 1, .ptr (some 1)]], none, 3, [(500, 2), (2, 1), (1, 0)], []⟩ := by
  decide +kernel

/-- Packing 70 -> 71, with no room for the last value; then again, with room. -/
example : packG (fun a => if a = 0 then [.data 70, .ptr (some 1)] else [.data 71, .ptr none]) 0 (fun o _ => o.length == 5) 9 (some 0)
    ⟨[], 0, [], []⟩ = .throw ⟨[0, 1, 70, 2, 71], 3, [0, 1], []⟩ := by decide +kernel

example : packG (fun a => if a = 0 then [.data 70, .ptr (some 1)] else [.data 71, .ptr none]) 0 (fun _ _ => false) 9 (some 0)
    ⟨[], 3, [0, 1], []⟩ = .ok () ⟨[1], 3, [0, 1], []⟩ := by decide +kernel

end Verif.GraphErr
