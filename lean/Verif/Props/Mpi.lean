import Verif.Mpi

/-
C31, C32, C46: MPI buffers and the master/slave manager.
-/
namespace Verif.Mpi

/-! ## C31: scatter and gather -/

/-- The user's program on the root: for every process its segment and then a mark. -/
def build (b : Buf) : List (List UInt8) → R Buf
  | [] => .ok b
  | s :: r => (b.put s).mark.bind fun b => build b r

private theorem sum_len (l : List (List UInt8)) : (l.map (·.length)).sum = l.flatten.length := by
  induction l with
  | nil => rfl
  | cons a l ih =>
    simp only [List.map_cons, List.sum_cons, List.flatten_cons, List.length_append, ih]

/-- Where the marks are after `build`. -/
private def ends (n : Nat) : List (List UInt8) → List (Option Nat)
  | [] => []
  | s :: r => some (n + s.length) :: ends (n + s.length) r

private theorem ends_length (n : Nat) (l : List (List UInt8)) : (ends n l).length = l.length := by
  induction l generalizing n with
  | nil => rfl
  | cons a l ih => simp [ends, ih]

private theorem build_ok (b : Buf) (pre : List (Option Nat)) (l : List (List UInt8)) (rest : List (Option Nat))
    (hr : rest.length = l.length) (ho : b.offs = pre ++ rest) (hc : b.ctr = pre.length) :
    build b l = .ok { b with
      data := b.data ++ l.flatten, offs := pre ++ ends b.data.length l, ctr := pre.length + l.length } := by
  induction l generalizing b pre rest with
  | nil =>
    cases rest with
    | nil => cases b; simp_all [build, ends]
    | cons => simp at hr
  | cons s l ih =>
    cases rest with
    | nil => simp at hr
    | cons x rest =>
      have h1 : b.ctr < b.offs.length := by rw [ho, hc]; simp
      simp only [build, Buf.put, Buf.mark, h1, if_true, R.bind]
      have hset : b.offs.set b.ctr (some (b.data ++ s).length) = (pre ++ [some (b.data ++ s).length]) ++ rest := by
        rw [ho, hc, List.set_append_right _ _ (Nat.le_refl _)]; simp
      rw [ih _ (pre ++ [some (b.data ++ s).length]) rest (by simpa using hr) hset (by simp [hc])]
      simp only [ends, List.length_append, List.flatten_cons, List.append_assoc, List.length_cons,
        List.length_nil, R.ok.injEq, Buf.mk.injEq, List.cons_append, List.nil_append, true_and, and_true]
      omega

private def pieces (n : Nat) : List (List UInt8) → List (Nat × Nat)
  | [] => []
  | s :: r => (n, s.length) :: pieces (n + s.length) r

private theorem sizes_ok (offs pre : List (Option Nat)) (n : Nat) (l : List (List UInt8))
    (ho : offs = pre ++ some n :: ends n l) : sizes offs pre.length l.length = .ok (pieces n l) := by
  induction l generalizing pre n with
  | nil => rfl
  | cons s l ih =>
    have h0 : offs[pre.length]? = some (some n) := by rw [ho]; simp
    have h1 : offs[pre.length + 1]? = some (some (n + s.length)) := by
      rw [ho, List.getElem?_append_right (by omega)]
      have : pre.length + 1 - pre.length = 1 := by omega
      rw [this]; rfl
    have hs : size1 offs pre.length = .ok (n, s.length) := by
      unfold size1; rw [h0, h1]
      simp only [Nat.le_add_right, if_true]
      congr 2; omega
    simp only [List.length_cons, sizes, hs, R.bind]
    have := ih (pre ++ [some n]) (n + s.length) (by rw [ho]; simp [ends])
    rw [List.length_append] at this
    simp only [List.length_cons, List.length_nil, Nat.zero_add] at this
    rw [this]; rfl

private theorem slices_ok (data pre : List UInt8) (l : List (List UInt8)) (post : List UInt8)
    (hd : data = pre ++ l.flatten ++ post) : slices data (pieces pre.length l) = .ok l := by
  induction l generalizing pre with
  | nil => rfl
  | cons s l ih =>
    have h1 : pre.length + s.length ≤ data.length := by rw [hd]; simp
    simp only [pieces, slices, h1, if_true]
    have := ih (pre ++ s) (by rw [hd]; simp)
    rw [List.length_append] at this
    rw [this]
    simp only [R.bind]
    rw [hd]; simp

/-- Scatter delivers process i the i-th segment: whatever state the buffers of the other processes
are in, and wherever the root is among them. (Read positions stay as they were.) -/
theorem C31_scatter_partial (segs : List (List UInt8)) (root : Nat) (w : List Buf) (r : Buf)
    (hlen : w.length = segs.length) (hr : build (Buf.fresh segs.length) segs = .ok r)
    (hroot : w[root]? = some r) :
    ∃ w', scatter root w = .ok w' ∧ w'.length = w.length ∧
      ∀ i : Nat, (w'[i]?).map (·.data) = segs[i]? ∧ (w'[i]?).map (·.pos) = (w[i]?).map (·.pos) := by
  have hb := build_ok (Buf.fresh segs.length) [some 0] segs (List.replicate segs.length none)
    (by simp) rfl rfl
  rw [hr] at hb
  simp only [R.ok.injEq] at hb
  have hoffs : r.offs = [] ++ some 0 :: ends 0 segs := by rw [hb]; rfl
  have hdata : r.data = [] ++ segs.flatten ++ [] := by rw [hb]; simp [Buf.fresh]
  have hs := sizes_ok r.offs [] 0 segs hoffs
  have hp := slices_ok r.data [] segs [] hdata
  simp only [List.length_nil] at hs hp
  refine ⟨(List.zipWith (fun (b : Buf) d => { b with data := d }) w segs).modify root
          fun b => { b with offs := zero w.length b.offs }, ?_, ?_, ?_⟩
  · unfold scatter
    rw [hroot, hlen]
    simp only [hs, hp, R.bind]
  · simp [hlen]
  · intro i
    rw [List.getElem?_modify]
    by_cases hi : i < segs.length
    · have hw : i < w.length := by omega
      simp only [List.getElem?_zipWith, List.getElem?_eq_getElem hi, List.getElem?_eq_getElem hw]
      by_cases h : root = i <;> simp [h]
    · have hw : ¬ i < w.length := by omega
      simp [List.getElem?_zipWith, List.getElem?_eq_none (Nat.le_of_not_lt hi),
        List.getElem?_eq_none (Nat.le_of_not_lt hw)]

/-- The user's program never fails on a fresh buffer. -/
theorem C31_build (segs : List (List UInt8)) :
    ∃ r, build (Buf.fresh segs.length) segs = .ok r ∧ r.data = segs.flatten ∧ r.pos = 0 := by
  refine ⟨_, build_ok (Buf.fresh segs.length) [some 0] segs (List.replicate segs.length none)
    (by simp) rfl rfl, ?_, rfl⟩
  simp [Buf.fresh]

private theorem gatherv_eq (pre : List UInt8) (l : List (List UInt8)) (rest : List UInt8)
    (hr : rest.length = l.flatten.length) :
    gatherv (pre ++ rest) pre.length l = pre ++ l.flatten := by
  induction l generalizing pre rest with
  | nil =>
    have : rest = [] := List.eq_nil_of_length_eq_zero (by simpa using hr)
    subst this; rfl
  | cons s l ih =>
    simp only [gatherv]
    have hw : write (pre ++ rest) pre.length s = (pre ++ s) ++ rest.drop s.length := by
      simp [write, List.drop_append]
    rw [hw]
    have := ih (pre ++ s) (rest.drop s.length) (by simp at hr ⊢; omega)
    rw [List.length_append] at this
    rw [this]; simp

/-- Gather gives the root the concatenation of all contributions in rank order, ready to be read
from the start, and leaves the others empty; whatever the sizes and the root. -/
theorem C31_gather (root : Nat) (w : List Buf) (h : root < w.length) :
    ((gather root w)[root]?).map (fun b => (b.data, b.pos)) = some ((w.map (·.data)).flatten, 0) ∧
    ∀ i : Nat, i ≠ root → i < w.length → ((gather root w)[i]?).map (·.data) = some [] := by
  have hm : gatherv (List.replicate (w.map (·.data.length)).sum 0) 0 (w.map (·.data))
      = (w.map (·.data)).flatten := by
    have := gatherv_eq [] (w.map (·.data)) (List.replicate (w.map (·.data.length)).sum 0)
      (by rw [List.length_replicate, ← sum_len, List.map_map]; rfl)
    simpa using this
  constructor
  · simp only [gather, hm, List.getElem?_modify]
    simp [List.getElem?_eq_getElem h]
  · intro i hi hl
    simp only [gather, List.getElem?_modify]
    simp [List.getElem?_eq_getElem hl, Ne.symm hi]

/-- Three processes with contributions of different sizes, one of them empty. -/
example : (gather 2 [⟨[1, 2], 1, [], 0, false⟩, ⟨[], 0, [], 0, false⟩, ⟨[3], 1, [], 0, false⟩]).map
    (fun b => (b.data, b.pos)) = [([], 1), ([], 0), ([1, 2, 3], 0)] := rfl

/-- Scatter followed by gather gives the root its contents back. -/
theorem C31_scatter_gather (segs : List (List UInt8)) (root : Nat) (w : List Buf) (r : Buf)
    (hlen : w.length = segs.length) (hr : build (Buf.fresh segs.length) segs = .ok r)
    (hroot : w[root]? = some r) :
    ∃ w', scatter root w = .ok w' ∧
      ((gather root w')[root]?).map (fun b => (b.data, b.pos)) = some (r.data, 0) := by
  obtain ⟨w', h1, h2, h3⟩ := C31_scatter_partial segs root w r hlen hr hroot
  refine ⟨w', h1, ?_⟩
  have hlt : root < w'.length := by
    rw [h2]
    exact (List.getElem?_eq_some_iff.mp hroot).1
  rw [(C31_gather root w' hlt).1]
  have : w'.map (·.data) = segs := by
    apply List.ext_getElem?
    intro i
    rw [List.getElem?_map]; exact (h3 i).1
  rw [this]
  obtain ⟨r2, hb, hd, -⟩ := C31_build segs
  rw [hr] at hb
  cases hb
  rw [hd]

/-- Every process has the root's contents after bcast. -/
theorem C31_bcast (root : Nat) (w : List Buf) (r : Buf) (h : w[root]? = some r) :
    ∃ w', bcast root w = .ok w' ∧ w'.length = w.length ∧
      ∀ b ∈ w', b.data = r.data ∧ b.pos = 0 := by
  unfold bcast
  rw [h]
  refine ⟨_, rfl, by simp, ?_⟩
  intro b hb
  obtain ⟨c, -, rfl⟩ := List.mem_map.mp hb
  exact ⟨rfl, rfl⟩

/-- A buffer cannot be used for a second scatter: the marks are counted on from the first one, so
the very first mark for the second scatter is written behind the end of the array, even if the
buffer is reset in between. True for every number of processes. -/
theorem C31_reuse_fails (segs : List (List UInt8)) (root : Nat) (w w' : List Buf) (r r' : Buf)
    (hlen : w.length = segs.length) (hr : build (Buf.fresh segs.length) segs = .ok r)
    (hroot : w[root]? = some r) (hs : scatter root w = .ok w') (hr' : w'[root]? = some r')
    (s : List UInt8) :
    (r'.reset.put s).mark = .ub ∧ (r'.put s).mark = .ub := by
  have hb := build_ok (Buf.fresh segs.length) [some 0] segs (List.replicate segs.length none)
    (by simp) rfl rfl
  rw [hr] at hb
  simp only [R.ok.injEq] at hb
  have hoffs : r.offs = [] ++ some 0 :: ends 0 segs := by rw [hb]; rfl
  have hdata : r.data = [] ++ segs.flatten ++ [] := by rw [hb]; simp [Buf.fresh]
  have hsz := sizes_ok r.offs [] 0 segs hoffs
  have hp := slices_ok r.data [] segs [] hdata
  simp only [List.length_nil] at hsz hp
  unfold scatter at hs
  rw [hroot, hlen] at hs
  simp only [hsz, hp, R.bind, R.ok.injEq] at hs
  have hlt : root < w.length := (List.getElem?_eq_some_iff.mp hroot).1
  have hw : w[root] = r := (List.getElem?_eq_some_iff.mp hroot).2
  rw [← hs, List.getElem?_modify] at hr'
  simp only [List.getElem?_zipWith, List.getElem?_eq_getElem hlt,
    List.getElem?_eq_getElem (hlen ▸ hlt), hw, if_true, Option.map_eq_map, Option.map_some, Option.some.injEq] at hr'
  have hc : ¬ r'.ctr < r'.offs.length := by
    rw [← hr', hb]
    simp [zero, ends_length]
    omega
  constructor
  · have : ¬ (r'.reset.put s).ctr < (r'.reset.put s).offs.length := hc
    unfold Buf.mark
    rw [if_neg this]
  · have : ¬ (r'.put s).ctr < (r'.put s).offs.length := hc
    unfold Buf.mark
    rw [if_neg this]

/-- The hypotheses of the above are met: two processes, root 1. -/
example : ∃ r w' r', build (Buf.fresh 2) [[1, 2], [3]] = .ok r ∧
    scatter 1 [Buf.fresh 2, r] = .ok w' ∧ w'[1]? = some r' ∧
    w'.map (·.data) = [[1, 2], [3]] ∧ (r'.reset.put [9]).mark = .ub :=
  ⟨_, _, _, rfl, rfl, rfl, rfl, rfl⟩

/-- Where a process was reading is not forgotten by scatter: a process that has read a byte of an
earlier message misses the first byte of its segment. -/
theorem C31_position_fails : ∃ (w w' : List Buf) (r : Buf),
    build (Buf.fresh 2) [[1], [2, 3]] = .ok r ∧ w = [r, ⟨[7], 1, [], 0, false⟩] ∧
    scatter 0 w = .ok w' ∧ (w'[1]?).map (fun b => b.data.drop b.pos) = some [3] :=
  ⟨_, _, _, rfl, rfl, rfl, rfl⟩

/-- With const_buffer set the root reports only as many bytes as it contributed itself: whenever
there is another process and the contributions are not empty, the concatenation is cut short. -/
theorem C31_const_gather_fails (root : Nat) (w : List Buf) (r : Buf) (hroot : w[root]? = some r)
    (hsame : ∀ b ∈ w, b.data.length = r.data.length) (hne : r.data ≠ []) (htwo : 2 ≤ w.length) :
    ∃ w' r', gatherConst root w = .ok w' ∧ w'[root]? = some r' ∧
      r'.data.length = r.data.length ∧ r'.data ≠ (w.map (·.data)).flatten := by
  have hall : w.all (fun b => b.data.length == r.data.length) = true := by
    simpa [List.all_eq_true] using hsame
  have hflat : (w.map (·.data)).flatten.length = w.length * r.data.length := by
    clear hroot hall htwo
    induction w with
    | nil => simp
    | cons a w ih =>
      simp only [List.map_cons, List.flatten_cons, List.length_append, List.length_cons]
      rw [ih (fun b hb => hsame b (by simp [hb])), hsame a (by simp), Nat.succ_mul, Nat.add_comm]
  have hpos : 0 < r.data.length := List.length_pos_iff.mpr hne
  have hlt : r.data.length < w.length * r.data.length := by
    calc r.data.length < 2 * r.data.length := by omega
      _ ≤ w.length * r.data.length := Nat.mul_le_mul_right _ htwo
  have hroot' : root < w.length := (List.getElem?_eq_some_iff.mp hroot).1
  unfold gatherConst
  rw [hroot]
  simp only [hall, if_true]
  refine ⟨_, ?r', rfl, ?_, ?_⟩
  case r' => exact { w[root] with data := ((w.map (·.data)).flatten).take r.data.length, pos := 0 }
  · rw [List.getElem?_modify]
    simp [List.getElem?_eq_getElem hroot']
  · have h1 : (((w.map (·.data)).flatten).take r.data.length).length = r.data.length := by
      rw [List.length_take]; omega
    refine ⟨h1, fun h => ?_⟩
    simp only at h
    rw [h] at h1
    omega

example : ∃ w', gatherConst 0 [⟨[1], 0, [], 0, true⟩, ⟨[2], 0, [], 0, true⟩] = .ok w' ∧
    w'.map (·.data) = [[1], []] := ⟨_, rfl, rfl⟩

/-! ## C46: copying a buffer -/

/-- A well formed buffer: at least one and at most np+1 marks (every buffer is, by `C46_wf`). -/
def Wf (np : Nat) (b : Buf) : Prop := b.offs.length = np + 1 ∧ b.ctr ≤ np + 1

instance (np : Nat) (b : Buf) : Decidable (Wf np b) := inferInstanceAs (Decidable (_ ∧ _))

theorem C46_wf (np : Nat) : Wf np (Buf.fresh np) ∧
    ∀ b, Wf np b → (∀ s, Wf np (b.put s)) ∧ (∀ b', b.mark = .ok b' → Wf np b') ∧ Wf np b.reset := by
  refine ⟨by simp [Wf, Buf.fresh], fun b hb => ⟨fun s => hb, fun b' h => ?_, hb⟩⟩
  unfold Buf.mark at h
  split at h
  · cases h
    rename_i hlt
    obtain ⟨h1, h2⟩ := hb
    constructor
    · simpa using h1
    · simp only; omega
  · cases h

/-- Copying a buffer, and assigning one to an empty buffer, gives the contents and all the marks
that were made. -/
theorem C46_copy_partial (np : Nat) (a b : Buf) (hb : Wf np b) (ha : a.data = []) :
    ∃ c, Buf.assign np a b = .ok c ∧ c.data = b.data ∧ c.ctr = b.ctr ∧ c.pos = a.pos ∧
      ∀ i, i < b.ctr → c.offs[i]? = b.offs[i]? := by
  unfold Buf.assign
  rw [if_pos hb.2]
  refine ⟨_, rfl, by simp [ha], rfl, rfl, fun i hi => ?_⟩
  have : i < (b.offs.take b.ctr).length := by rw [List.length_take, hb.1]; have := hb.2; omega
  rw [List.getElem?_append_left this, List.getElem?_take]
  simp [hi]

theorem C46_copy_ctor (np : Nat) (b : Buf) (hb : Wf np b) :
    ∃ c, Buf.copy np b = .ok c ∧ c.data = b.data ∧ c.ctr = b.ctr ∧ c.pos = 0 ∧
      ∀ i, i < b.ctr → c.offs[i]? = b.offs[i]? :=
  C46_copy_partial np _ b hb rfl

example : ∃ b c, ((Buf.fresh 2).put [5, 6]).mark = .ok b ∧ Wf 2 b ∧ Buf.copy 2 b = .ok c ∧
    c.data = [5, 6] ∧ c.offs = [some 0, some 2, none] := ⟨_, _, rfl, by decide, rfl, rfl, rfl⟩

/-- Assignment to a buffer that holds something appends: the contents are those of `b` exactly
when `a` was empty. -/
theorem C46_assign_fails (np : Nat) (a b c : Buf) (h : Buf.assign np a b = .ok c) :
    (c.data = b.data ↔ a.data = []) ∧ c.data = a.data ++ b.data := by
  unfold Buf.assign at h
  split at h
  · cases h
    simp
  · cases h

example : ∃ c, Buf.assign 1 ((Buf.fresh 1).put [1]) ((Buf.fresh 1).put [2]) = .ok c ∧
    c.data = [1, 2] := ⟨_, rfl, rfl⟩

/-- Assigning a buffer to itself is undefined if it holds anything, and loses all its marks, also the
one at the beginning, if not. -/
theorem C46_fails_self (np : Nat) (a : Buf) (ha : Wf np a) :
    (a.data ≠ [] → Buf.assignSelf np a = .ub) ∧
    (a.data = [] → ∃ c, Buf.assignSelf np a = .ok c ∧ c.data = [] ∧ c.ctr = a.ctr ∧
      ∀ i, i ≤ np → c.offs[i]? = some none) := by
  unfold Buf.assignSelf
  rw [if_pos ha.2]
  refine ⟨fun h => by rw [if_neg h], fun h => ?_⟩
  rw [if_pos h]
  refine ⟨_, rfl, h, rfl, fun i hi => ?_⟩
  rw [List.getElem?_replicate, if_pos (by omega)]

example : Wf 2 (Buf.fresh 2) ∧ (Buf.fresh 2).data = [] ∧ (Buf.fresh 2).offs[0]? = some (some 0) := by
  decide

/-- A copy of a built buffer scatters like the original. -/
theorem C46_copy_scatters (segs : List (List UInt8)) (root : Nat) (w : List Buf) (r c : Buf)
    (hlen : w.length = segs.length) (hr : build (Buf.fresh segs.length) segs = .ok r)
    (hc : Buf.copy segs.length r = .ok c) (hroot : w[root]? = some c) :
    ∃ w', scatter root w = .ok w' ∧ w'.map (·.data) = segs := by
  have hb := build_ok (Buf.fresh segs.length) [some 0] segs (List.replicate segs.length none)
    (by simp) rfl rfl
  have hr0 := hr
  rw [hr] at hb
  simp only [R.ok.injEq] at hb
  have hcr : c = r := by
    unfold Buf.copy Buf.assign at hc
    split at hc
    · cases hc
      have h1 : r.ctr = segs.length + 1 := by rw [hb]; simp; omega
      have h2 : r.offs.length = segs.length + 1 := by rw [hb]; simp [ends_length]
      have h3 : r.pos = 0 ∧ r.const = false := by rw [hb]; exact ⟨rfl, rfl⟩
      cases r
      simp only at h1 h2 h3
      simp only [List.nil_append, Buf.mk.injEq, h1, Nat.sub_self, List.replicate_zero,
        List.append_nil, true_and, and_true, h3]
      rw [List.take_of_length_le (by omega)]
    · cases hc
  subst hcr
  obtain ⟨w', h1, h2, h3⟩ := C31_scatter_partial segs root w c hlen hr0 hroot
  refine ⟨w', h1, ?_⟩
  apply List.ext_getElem?
  intro i
  rw [List.getElem?_map]; exact (h3 i).1

/-! ## C32: master and slaves -/

/-- The master's actions considered: requests that are answered. -/
def Act.Plain : Act → Prop
  | .exec r => r.reply = true
  | .serve _ => True
  | .receive _ => True
  | .bcast .. => False

/-- Actions that may happen while the master waits. -/
def Act.Wait : Act → Prop
  | .serve _ => True
  | .receive _ => True
  | _ => False

/-- The slaves with an unanswered request. -/
def Sys.busy (s : Sys) : List Nat := s.queue.map (·.1) ++ s.replies.map (·.1)

/-- The requests sent in a run. -/
def sent : List Act → List Nat
  | [] => []
  | .exec r :: as => r.id :: sent as
  | _ :: as => sent as

/-- The requests answered in a run, in the order the answers arrive. -/
def answered : Sys → List Act → List Nat
  | _, [] => []
  | s, a :: as =>
    (match a with
     | .receive i => ((s.replies[i]?).map (·.2)).toList
     | _ => []) ++ ((step s a).map fun s => answered s as).getD []

private theorem eraseIdx_perm {α : Type} (l : List α) (i : Nat) (x : α) (h : l[i]? = some x) :
    (x :: l.eraseIdx i).Perm l := by
  induction l generalizing i with
  | nil => simp at h
  | cons a l ih =>
    cases i with
    | zero => simp at h; subst h; simp
    | succ i =>
      simp only [List.getElem?_cons_succ] at h
      simp only [List.eraseIdx_cons_succ]
      exact (List.Perm.swap a x _).trans ((ih i h).cons a)

/-- Queued requests are all of the answering kind. -/
private def QOk (s : Sys) : Prop := ∀ q ∈ s.queue, q.2.reply = true

private theorem getLast_perm (l : List Nat) (p : Nat) (h : l.getLast? = some p) :
    l = l.dropLast ++ [p] := by
  cases l with
  | nil => simp at h
  | cons a l =>
    rw [List.getLast?_eq_some_getLast (by simp)] at h
    have := List.dropLast_concat_getLast (l := a :: l) (by simp)
    simp only [Option.some.injEq] at h
    rw [h] at this
    exact this.symm

private theorem perm_count {l m : List Nat} (h : l.Perm m) (a : Nat) : l.count a = m.count a :=
  h.count_eq a

private theorem step_serve (s s' : Sys) (i : Nat) (h : step s (.serve i) = some s') :
    ∃ p r, s.queue[i]? = some (p, r) ∧ s' = { s with
        queue := s.queue.eraseIdx i
        replies := if r.reply then s.replies ++ [(p, r.id)] else s.replies } := by
  simp only [step] at h
  split at h
  · cases h
  · rename_i p r hg
    exact ⟨p, r, hg, (Option.some.inj h).symm⟩

private theorem step_receive (s s' : Sys) (i : Nat) (h : step s (.receive i) = some s') :
    ∃ p r, s.replies[i]? = some (p, r) ∧
      s' = { s with idle := s.idle ++ [p], replies := s.replies.eraseIdx i } := by
  simp only [step] at h
  split at h
  · cases h
  · rename_i p r hg
    exact ⟨p, r, hg, (Option.some.inj h).symm⟩

private theorem step_inv (s s' : Sys) (a : Act) (ha : a.Plain) (h : step s a = some s') (hq : QOk s) :
    QOk s' ∧ (s'.idle ++ s'.busy).Perm (s.idle ++ s.busy) := by
  cases a with
  | exec r =>
    unfold step at h
    generalize hg : s.idle.getLast? = g at h
    cases g with
    | none => simp at h
    | some p =>
      simp only [Option.some.injEq] at h
      subst h
      constructor
      · intro q hqm
        simp only [List.mem_append, List.mem_singleton] at hqm
        rcases hqm with hqm | rfl
        · exact hq q hqm
        · exact ha
      · have he := getLast_perm _ _ hg
        rw [List.perm_iff_count]
        intro x
        have : s.idle.count x = (s.idle.dropLast ++ [p]).count x := by rw [← he]
        simp only [Sys.busy, List.map_append, List.map_cons, List.map_nil, List.count_append] at this ⊢
        omega
  | serve i =>
    obtain ⟨p, r, hg, rfl⟩ := step_serve _ _ _ h
    have hr : r.reply = true := hq (p, r) (List.mem_of_getElem? hg)
    have hp := eraseIdx_perm _ _ _ hg
    constructor
    · intro q hqm
      exact hq q (List.mem_of_mem_eraseIdx hqm)
    · have hp2 := hp.map (·.1)
      rw [List.perm_iff_count]
      intro x
      have := hp2.count_eq x
      simp only [Sys.busy, hr, if_true, List.map_append, List.map_cons, List.map_nil,
        List.count_append, List.count_cons, List.count_nil] at this ⊢
      omega
  | receive i =>
    obtain ⟨p, r, hg, rfl⟩ := step_receive _ _ _ h
    have hp := eraseIdx_perm _ _ _ hg
    refine ⟨hq, ?_⟩
    have hp2 := hp.map (·.1)
    rw [List.perm_iff_count]
    intro x
    have := hp2.count_eq x
    simp only [Sys.busy, List.map_append, List.map_cons, List.map_nil,
      List.count_append, List.count_cons, List.count_nil] at this ⊢
    omega
  | bcast => exact ha.elim

private theorem run_inv (s s' : Sys) (as : List Act) (ha : ∀ a ∈ as, a.Plain) (h : run s as = some s')
    (hq : QOk s) : QOk s' ∧ (s'.idle ++ s'.busy).Perm (s.idle ++ s.busy) := by
  induction as generalizing s with
  | nil => simp only [run, Option.some.injEq] at h; subst h; exact ⟨hq, .refl _⟩
  | cons a as ih =>
    simp only [run] at h
    generalize hg : step s a = g at h
    cases g with
    | none => simp at h
    | some s1 =>
      simp only [Option.bind_some] at h
      have h1 := step_inv s s1 a (ha a (by simp)) hg hq
      have h2 := ih s1 (fun b hb => ha b (by simp [hb])) h h1.1
      exact ⟨h2.1, h2.2.trans h1.2⟩

private theorem range_drop (np : Nat) : ((List.range np).drop 1).Nodup :=
  List.Nodup.sublist (List.drop_sublist _ _) List.nodup_range

private theorem mem_range_drop (np p : Nat) : p ∈ (List.range np).drop 1 ↔ 1 ≤ p ∧ p < np := by
  cases np with
  | zero => simp
  | succ n =>
    rw [List.range_succ_eq_map]
    simp only [List.drop_succ_cons, List.drop_zero, List.mem_map, List.mem_range]
    constructor
    · rintro ⟨a, h, rfl⟩; omega
    · rintro ⟨h1, h2⟩; exact ⟨p - 1, by omega, by omega⟩

/-- In every run of the master and its slaves, whatever the order in which slaves work and answers
arrive: nobody is idle twice or busy twice or both; every slave is one or the other; and all_idle()
is true exactly when no request is unanswered. -/
theorem C32_partition_partial (np : Nat) (as : List Act) (s : Sys) (ha : ∀ a ∈ as, a.Plain)
    (h : run (init np) as = some s) :
    s.idle.Nodup ∧ s.busy.Nodup ∧ (∀ p, ¬ (p ∈ s.idle ∧ p ∈ s.busy)) ∧
    (∀ p, (1 ≤ p ∧ p < np) ↔ (p ∈ s.idle ∨ p ∈ s.busy)) ∧
    (allIdle np s = true ↔ s.queue = [] ∧ s.replies = []) := by
  obtain ⟨-, hp⟩ := run_inv (init np) s as ha h (by intro q hq; simp [init] at hq)
  have hp' : (s.idle ++ s.busy).Perm ((List.range np).drop 1) := by
    simpa [init, Sys.busy] using hp
  have hnd : (s.idle ++ s.busy).Nodup := hp'.nodup_iff.mpr (range_drop np)
  have hnd' := List.nodup_append.mp hnd
  refine ⟨hnd'.1, hnd'.2.1, fun p hpp => hnd'.2.2 p hpp.1 p hpp.2 rfl, fun p => ?_, ?_⟩
  · rw [← mem_range_drop, ← hp'.mem_iff, List.mem_append]
  · have hl := hp'.length_eq
    simp only [List.length_append, List.length_drop, List.length_range, Sys.busy, List.length_map] at hl
    simp only [allIdle, beq_iff_eq]
    constructor
    · intro he
      constructor <;> apply List.eq_nil_of_length_eq_zero <;> omega
    · rintro ⟨h1, h2⟩
      rw [h1, h2] at hl
      simpa using hl

/-- Every request is answered exactly once: the requests sent are, up to order, those answered and
those still under way. -/
theorem C32_answers_partial (np : Nat) (as : List Act) (s : Sys) (ha : ∀ a ∈ as, a.Plain)
    (h : run (init np) as = some s) :
    (sent as).Perm (answered (init np) as ++ s.queue.map (·.2.id) ++ s.replies.map (·.2)) := by
  have key : ∀ (as : List Act) (s0 s : Sys), (∀ a ∈ as, a.Plain) → run s0 as = some s → QOk s0 →
      (s0.queue.map (·.2.id) ++ s0.replies.map (·.2) ++ sent as).Perm
        (answered s0 as ++ s.queue.map (·.2.id) ++ s.replies.map (·.2)) := by
    intro as
    induction as with
    | nil =>
      intro s0 s _ h _
      simp only [run, Option.some.injEq] at h
      subst h
      simp [sent, answered]
    | cons a as ih =>
      intro s0 s ha h hq
      simp only [run] at h
      generalize hg : step s0 a = g at h
      cases g with
      | none => simp at h
      | some s1 =>
        simp only [Option.bind_some] at h
        have h1 := step_inv s0 s1 a (ha a (by simp)) hg hq
        have h2 := ih s1 s (fun b hb => ha b (by simp [hb])) h h1.1
        rw [List.perm_iff_count] at h2 ⊢
        intro x
        have h3 := h2 x
        cases a with
        | exec r =>
          simp only [answered, hg, Option.map_some, Option.getD_some, sent]
          unfold step at hg
          generalize s0.idle.getLast? = g at hg
          cases g with
          | none => simp at hg
          | some p =>
            simp only [Option.some.injEq] at hg
            subst hg
            simp only [List.map_append, List.map_cons, List.map_nil, List.count_append,
              List.count_cons, List.count_nil, List.nil_append] at h3 ⊢
            omega
        | serve i =>
          simp only [answered, hg, Option.map_some, Option.getD_some, sent]
          obtain ⟨p, r, hgi, rfl⟩ := step_serve _ _ _ hg
          have hr : r.reply = true := hq (p, r) (List.mem_of_getElem? hgi)
          have hp := ((eraseIdx_perm _ _ _ hgi).map (·.2.id)).count_eq x
          simp only [hr, if_true, List.map_append, List.map_cons, List.map_nil, List.count_append,
            List.count_cons, List.count_nil, List.nil_append] at h3 hp ⊢
          omega
        | receive i =>
          simp only [answered, hg, Option.map_some, Option.getD_some, sent]
          obtain ⟨p, r, hgi, rfl⟩ := step_receive _ _ _ hg
          have hp := ((eraseIdx_perm _ _ _ hgi).map (·.2)).count_eq x
          simp only [hgi, Option.map_some, Option.toList_some, List.map_cons, List.count_append,
            List.count_cons, List.count_nil] at h3 hp ⊢
          omega
        | bcast n r => exact (ha (.bcast n r) (List.mem_cons_self ..)).elim
  have := key as (init np) s ha h (by intro q hq; simp [init] at hq)
  simpa [init] using this

private theorem wait_measure (as : List Act) (s s' : Sys) (hw : ∀ a ∈ as, a.Wait)
    (h : run s as = some s') :
    as.length + 2 * s'.queue.length + s'.replies.length ≤ 2 * s.queue.length + s.replies.length := by
  induction as generalizing s with
  | nil => simp only [run, Option.some.injEq] at h; subst h; simp
  | cons a as ih =>
    simp only [run] at h
    generalize hg : step s a = g at h
    cases g with
    | none => simp at h
    | some s1 =>
      simp only [Option.bind_some] at h
      have h1 := ih s1 (fun b hb => hw b (by simp [hb])) h
      have h2 : 2 * s1.queue.length + s1.replies.length + 1 ≤ 2 * s.queue.length + s.replies.length := by
        cases a with
        | exec r => exact (hw (.exec r) (List.mem_cons_self ..)).elim
        | bcast n r => exact (hw (.bcast n r) (List.mem_cons_self ..)).elim
        | serve i =>
          obtain ⟨p, r, hgi, rfl⟩ := step_serve _ _ _ hg
          have hp := (eraseIdx_perm _ _ _ hgi).length_eq
          simp only [List.length_cons] at hp ⊢
          split <;> (try simp only [List.length_append, List.length_cons, List.length_nil]) <;> omega
        | receive i =>
          obtain ⟨p, r, hgi, rfl⟩ := step_receive _ _ _ hg
          have hp := (eraseIdx_perm _ _ _ hgi).length_eq
          simp only [List.length_cons] at hp ⊢
          omega
      simp only [List.length_cons]
      omega

/-- wait_all_idle() returns: while the master waits, only finitely many steps are possible, and when
none is possible any more all slaves are idle. -/
theorem C32_wait_partial (np : Nat) (as ws : List Act) (s s' : Sys) (ha : ∀ a ∈ as, a.Plain)
    (h : run (init np) as = some s) (hw : ∀ a ∈ ws, a.Wait) (h' : run s ws = some s') :
    ws.length ≤ 2 * s.queue.length + s.replies.length ∧
    ((∀ a : Act, a.Wait → step s' a = none) → allIdle np s' = true) := by
  refine ⟨by have := wait_measure ws s s' hw h'; omega, fun hstop => ?_⟩
  have happ : ∀ (l m : List Act) (s0 s1 : Sys), run s0 l = some s1 → run s0 (l ++ m) = run s1 m := by
    intro l
    induction l with
    | nil => intro m s0 s1 h; simp only [run, Option.some.injEq] at h; subst h; rfl
    | cons a l ih =>
      intro m s0 s1 h
      simp only [run, List.cons_append] at h ⊢
      generalize step s0 a = g at h
      cases g with
      | none => simp at h
      | some s2 => simp only [Option.bind_some] at h ⊢; exact ih m s2 s1 h
  have hr : run (init np) (as ++ ws) = some s' := by rw [happ as ws _ _ h, h']
  refine (C32_partition_partial np (as ++ ws) s' ?_ hr).2.2.2.2.mpr ⟨?_, ?_⟩
  · intro a hm
    rcases List.mem_append.mp hm with hm | hm
    · exact ha a hm
    · have := hw a hm
      cases a <;> simp_all [Act.Wait, Act.Plain]
  · have := hstop (.serve 0) trivial
    unfold step at this
    cases hq : s'.queue with
    | nil => rfl
    | cons q r => rw [hq] at this; simp at this
  · have := hstop (.receive 0) trivial
    unfold step at this
    cases hq : s'.replies with
    | nil => rfl
    | cons q r => rw [hq] at this; simp at this

/-- Three processes, two requests answered in the opposite order. -/
example : ∃ s s', run (init 3) [.exec ⟨7, true⟩, .exec ⟨8, true⟩, .serve 1, .receive 0] = some s ∧
    s.idle = [1] ∧ s.busy = [2] ∧ allIdle 3 s = false ∧
    run s [.serve 0, .receive 0] = some s' ∧ s'.idle = [1, 2] ∧ allIdle 3 s' = true :=
  ⟨_, _, rfl, rfl, rfl, rfl, rfl, rfl, rfl⟩

/-- exec with no idle slave has no defined meaning, in whatever state. -/
theorem C32_exec_idle (s : Sys) (r : Req) : step s (.exec r) = none ↔ s.idle = [] := by
  unfold step
  cases hg : s.idle.getLast? with
  | none => simpa using hg
  | some p => simp; intro h; rw [h] at hg; simp at hg

/-- A method that sends nothing back leaves its slave neither idle nor busy: nothing can happen any
more and wait_all_idle() waits for ever. -/
theorem C32_silent_fails : ∃ s, run (init 2) [.exec ⟨0, false⟩, .serve 0] = some s ∧
    s.idle = [] ∧ s.busy = [] ∧ allIdle 2 s = false ∧ ∀ a : Act, a.Wait → step s a = none := by
  refine ⟨⟨[], [], []⟩, rfl, rfl, rfl, rfl, ?_⟩
  intro a ha
  cases a <;> first | exact ha.elim | simp [step]

/-- Answers to a broadcast make slaves idle twice, after which the number of idle slaves never is
right: wait_all_idle() waits for ever, and the next two requests go to one and the same slave. -/
theorem C32_bcast_fails : ∃ s, run (init 2) [.bcast 2 ⟨0, true⟩, .serve 0, .receive 0] = some s ∧
    s.idle = [1, 1] ∧ allIdle 2 s = false ∧ (∀ a : Act, a.Wait → step s a = none) ∧
    ∃ s', run s [.exec ⟨1, true⟩, .exec ⟨2, true⟩] = some s' ∧ s'.busy = [1, 1] := by
  refine ⟨⟨[1, 1], [], []⟩, rfl, rfl, rfl, ?_, _, rfl, rfl⟩
  intro a ha
  cases a <;> first | exact ha.elim | simp [step]

end Verif.Mpi
