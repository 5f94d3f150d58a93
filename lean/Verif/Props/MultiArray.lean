import Verif.MultiArray
/-
C30.  For any dimensions, indexing a MultiArray with in-range indices always lands inside its
storage, distinct index vectors address distinct elements, and every element is addressed;
indexing agrees between arrays constructed from a dimension list and from a dimension array.

True for ranks 1 and 2 built from a list of dimensions; staying inside the storage is true of
every rank; the rest is false of the code.
-/
namespace Verif.MultiArray

/-- Spec: the number of elements. -/
def volume (dim : List Nat) : Nat := dim.foldr (· * ·) 1

/-- Spec: the first index written belongs to the last dimension (`size()` is the last one). -/
def Valid (dim : List Nat) (idx : List Nat) : Prop :=
  idx.length = dim.length ∧ ∀ k, (h : k < idx.length) → idx[k] < (dim.reverse)[k]?.getD 0

private theorem volume_append (a b : List Nat) : volume (a ++ b) = volume a * volume b := by
  induction a with
  | nil => simp [volume]
  | cons x r ih =>
    simp only [volume, List.cons_append, List.foldr_cons] at *
    rw [ih, Nat.mul_assoc]

private theorem foldl_mod (l : List Nat) (s : Nat) :
    l.foldl (fun s d => s * d % W) (s % W) = s * volume l % W := by
  induction l generalizing s with
  | nil => simp [volume]
  | cons x r ih =>
    simp only [List.foldl_cons]
    rw [Nat.mod_mul_mod, ih]
    simp [volume, Nat.mul_assoc]

private theorem foldl_one (l : List Nat) : l.foldl (fun s d => s * d % W) 1 = volume l % W := by
  have := foldl_mod l 1
  rw [Nat.mod_eq_of_lt (by decide), Nat.one_mul] at this
  exact this

/-- Both constructors compute the product of all dimensions but the last. -/
theorem C30_stride (std : Std) (data : Nat) (init : List Nat) (last : Nat) (hi : init ≠ [])
    (hl : 0 < last) (hv : volume (init ++ [last]) < W) :
    mkArgs std data (init ++ [last]) = some ⟨data, init ++ [last], volume init⟩ := by
  have hlen : (init ++ [last]).length ≠ 1 := by
    cases init with
    | nil => exact absurd rfl hi
    | cons a b => simp
  have hvv := hv
  rw [volume_append, show volume [last] = last by simp [volume]] at hvv
  have hlt : volume init < W := Nat.lt_of_le_of_lt (Nat.le_mul_of_pos_right _ hl) hvv
  simp only [mkArgs, if_neg hlen]
  cases std with
  | cpp11 =>
    simp only [strideArgs, stride11, List.dropLast_concat, foldl_one, Nat.mod_eq_of_lt hlt,
      Option.map_some]
  | cpp17 =>
    simp only [strideArgs, stride17, List.getLast?_concat, foldl_one]
    rw [if_neg (by omega), Nat.mod_eq_of_lt hv, volume_append,
      show volume [last] = last by simp [volume], Nat.mul_div_cancel _ hl]
    rfl

private theorem valid_nil {idx : List Nat} (h : Valid [] idx) : idx = [] := by
  have := h.1
  simpa using this

private theorem valid_concat {init : List Nat} {last : Nat} {idx : List Nat}
    (h : Valid (init ++ [last]) idx) :
    ∃ i r, idx = i :: r ∧ i < last ∧ Valid init r := by
  cases idx with
  | nil => have := h.1; simp at this
  | cons i r =>
    refine ⟨i, r, rfl, ?_, ?_, ?_⟩
    · have := h.2 0 (by simp)
      simpa using this
    · have := h.1; simp at this; exact this
    · intro k hk
      have := h.2 (k + 1) (by simp; exact hk)
      simpa using this

private theorem snoc (l : List Nat) (h : l ≠ []) : ∃ init last, l = init ++ [last] :=
  ⟨l.dropLast, l.getLast h, (List.dropLast_concat_getLast h).symm⟩

private theorem volume_pos {dim idx : List Nat} (h : Valid dim idx) : 0 < volume dim := by
  induction idx generalizing dim with
  | nil =>
    have := h.1
    have : dim = [] := by
      cases dim with
      | nil => rfl
      | cons => simp at this
    subst this; simp [volume]
  | cons i r ih =>
    have hne : dim ≠ [] := by
      intro e; subst e; have := h.1; simp at this
    obtain ⟨init, last, rfl⟩ := snoc dim hne
    obtain ⟨i', r', he, hi, hv⟩ := valid_concat h
    cases he
    rw [volume_append, show volume [last] = last by simp [volume]]
    exact Nat.mul_pos (ih hv) (by omega)

/-- In a sub-array every stride is 1; the offsets still stay inside it. -/
private theorem sub_bound (idx : List Nat) : ∀ (dim : List Nat) (data : Nat), Valid dim idx →
    volume dim < W →
    data ≤ (mkArray data dim).addr idx ∧ (mkArray data dim).addr idx < data + volume dim := by
  induction idx with
  | nil =>
    intro dim data h _
    have := volume_pos h
    simp [mkArray, MA.addr]; omega
  | cons i r ih =>
    intro dim data h hW
    have hne : dim ≠ [] := by
      intro e; subst e; have := h.1; simp at this
    obtain ⟨init, last, rfl⟩ := snoc dim hne
    obtain ⟨i', r', he, hi, hv⟩ := valid_concat h
    cases he
    have hp := volume_pos hv
    have hvol : volume (init ++ [last]) = volume init * last := by
      rw [volume_append]; simp [volume]
    rw [hvol] at hW ⊢
    have hle : volume init + i ≤ volume init * last := by
      obtain ⟨l', rfl⟩ : ∃ l', last = l' + 1 := ⟨last - 1, by omega⟩
      have := Nat.le_mul_of_pos_left l' hp
      rw [Nat.mul_add]; omega
    cases r with
    | nil =>
      simp only [MA.addr, MA.elem, mkArray]; omega
    | cons j s =>
      have hlt : volume init < W := by omega
      have hb := ih init (data + i * 1 % W) hv hlt
      have e : (mkArray data (init ++ [last])).addr (i :: j :: s)
          = (mkArray (data + i * 1 % W) init).addr (j :: s) := by
        simp only [MA.addr, MA.sub, mkArray, List.dropLast_concat]
      rw [e]
      have : i * 1 % W = i := by rw [Nat.mul_one]; exact Nat.mod_eq_of_lt (by omega)
      rw [this] at hb
      rw [this]; omega

/-- Indexing stays inside the storage: every rank, both language standards, both constructors. -/
theorem C30_in_bounds (std : Std) (data : Nat) (dim idx : List Nat) (h : Valid dim idx)
    (hW : volume dim < W) :
    (∀ a, mkArgs std data dim = some a → data ≤ a.addr idx ∧ a.addr idx < data + volume dim)
    ∧ data ≤ (mkArray data dim).addr idx ∧ (mkArray data dim).addr idx < data + volume dim := by
  refine ⟨?_, sub_bound idx dim data h hW⟩
  intro a ha
  by_cases hne : dim = []
  · subst hne
    have := valid_nil h
    subst this
    have : a.data = data := by
      cases std <;> simp [mkArgs, strideArgs, stride11, stride17] at ha <;> rw [← ha]
    simp [MA.addr, this, volume]
  obtain ⟨init, last, rfl⟩ := snoc dim hne
  obtain ⟨i, r, rfl, hi, hv⟩ := valid_concat h
  by_cases hinit : init = []
  · subst hinit
    have := valid_nil hv
    subst this
    simp [mkArgs] at ha
    subst ha
    simp [MA.addr, MA.elem, volume]; omega
  · rw [C30_stride std data init last hinit (by omega) hW] at ha
    cases ha
    have hvol : volume (init ++ [last]) = volume init * last := by
      rw [volume_append]; simp [volume]
    rw [hvol] at hW ⊢
    have hle : i * volume init + volume init ≤ volume init * last := by
      have : (i + 1) * volume init ≤ last * volume init := Nat.mul_le_mul_right _ (by omega)
      rw [Nat.add_mul, Nat.one_mul, Nat.mul_comm last] at this
      exact this
    have hp := volume_pos hv
    have hmod : i * volume init % W = i * volume init := Nat.mod_eq_of_lt (by omega)
    cases r with
    | nil =>
      exact absurd (List.length_eq_zero_iff.1 hv.1.symm) hinit
    | cons j s =>
      simp only [MA.addr, MA.sub, List.dropLast_concat]
      rw [hmod]
      have hb := sub_bound (j :: s) init (data + i * volume init) hv (by omega)
      omega

/-- Spec of correct indexing: offsets cover the storage, each exactly once. -/
def Correct (data : Nat) (dim : List Nat) (a : MA) : Prop :=
  (∀ idx, Valid dim idx → data ≤ a.addr idx ∧ a.addr idx < data + volume dim)
  ∧ (∀ idx idx', Valid dim idx → Valid dim idx' → a.addr idx = a.addr idx' → idx = idx')
  ∧ (∀ n, n < volume dim → ∃ idx, Valid dim idx ∧ a.addr idx = data + n)

private theorem valid_one {d : Nat} {idx : List Nat} (h : Valid [d] idx) :
    ∃ i, idx = [i] ∧ i < d := by
  obtain ⟨i, r, rfl, hi, hv⟩ := valid_concat (init := []) h
  have := valid_nil hv
  subst this
  exact ⟨i, rfl, hi⟩

private theorem valid_two {c d : Nat} {idx : List Nat} (h : Valid [c, d] idx) :
    ∃ i j, idx = [i, j] ∧ i < d ∧ j < c := by
  obtain ⟨i, r, rfl, hi, hv⟩ := valid_concat (init := [c]) h
  obtain ⟨j, rfl, hj⟩ := valid_one hv
  exact ⟨i, j, rfl, hi, hj⟩

/-- Ranks 1 and 2, built from a list of dimensions: in bounds, injective and onto.  What is
missing from the full statement: ranks above 2 (`C30_rank3_fails`) and arrays built from a
dimension array (`C30_array_ctor_fails`). -/
theorem C30_rank12_partial (std : Std) (data : Nat) (dim : List Nat)
    (hr : dim.length = 1 ∨ dim.length = 2) (hpos : ∀ d ∈ dim, 0 < d) (hW : volume dim < W) :
    ∃ a, mkArgs std data dim = some a ∧ a.size = dim.getLast?.getD 0 ∧ Correct data dim a := by
  match dim, hr with
  | [d], _ =>
    refine ⟨⟨data, [d], 1⟩, by simp [mkArgs], rfl, ?_, ?_, ?_⟩
    · intro idx h
      exact (C30_in_bounds std data [d] idx h hW).1 _ (by simp [mkArgs])
    · intro idx idx' h h' e
      obtain ⟨i, rfl, _⟩ := valid_one h
      obtain ⟨i', rfl, _⟩ := valid_one h'
      simp only [MA.addr, MA.elem] at e
      rw [show i = i' by omega]
    · intro n hn
      simp [volume] at hn
      exact ⟨[n], ⟨rfl, by intro k hk; simp at hk; subst hk; simpa using hn⟩,
        by simp [MA.addr, MA.elem]⟩
  | [c, d], _ =>
    have hc : 0 < c := hpos c (by simp)
    have hd : 0 < d := hpos d (by simp)
    have hst := C30_stride std data [c] d (by simp) hd hW
    have hvol : volume [c, d] = d * c := by simp [volume, Nat.mul_comm]
    have hvc : volume [c] = c := by simp [volume]
    rw [hvc] at hst
    have haddr : ∀ i j, i < d → (MA.mk data [c, d] c).addr [i, j] = data + i * c + j := by
      intro i j hi
      have : i * c < d * c := Nat.mul_lt_mul_of_pos_right hi hc
      simp only [MA.addr, MA.elem, MA.sub, mkArray]
      rw [Nat.mod_eq_of_lt (by omega)]
    refine ⟨⟨data, [c, d], c⟩, hst, rfl, ?_, ?_, ?_⟩
    · intro idx h
      exact (C30_in_bounds std data [c, d] idx h hW).1 _ hst
    · intro idx idx' h h' e
      obtain ⟨i, j, rfl, hi, hj⟩ := valid_two h
      obtain ⟨i', j', rfl, hi', hj'⟩ := valid_two h'
      rw [haddr _ _ hi, haddr _ _ hi'] at e
      have e : j + c * i = j' + c * i' := by rw [Nat.mul_comm c i, Nat.mul_comm c i']; omega
      have h1 : (j + c * i) / c = i := by
        rw [Nat.add_mul_div_left _ _ hc, Nat.div_eq_of_lt hj, Nat.zero_add]
      have h2 : (j' + c * i') / c = i' := by
        rw [Nat.add_mul_div_left _ _ hc, Nat.div_eq_of_lt hj', Nat.zero_add]
      have : i = i' := by rw [← h1, e, h2]
      subst this
      rw [show j = j' by omega]
    · intro n hn
      rw [hvol] at hn
      have h1 : n / c < d := (Nat.div_lt_iff_lt_mul hc).2 hn
      have h2 : n % c < c := Nat.mod_lt _ hc
      refine ⟨[n / c, n % c], ⟨rfl, ?_⟩, ?_⟩
      · intro k hk
        match k, hk with
        | 0, _ => simpa using h1
        | 1, _ => simpa using h2
      · rw [haddr _ _ h1]
        have := Nat.div_add_mod n c
        rw [Nat.mul_comm] at this
        omega

/-- Iterating a rank 2 array, row by row and within each row element by element, visits the
storage from first to last; row number k of the iteration is `a[k]`. -/
theorem C30_iterate (std : Std) (data c d : Nat) (hd : 0 < d) (hW : volume [c, d] < W) (a : MA)
    (ha : mkArgs std data [c, d] = some a) :
    (∀ k, k ≤ d → a.begin.plus k = ⟨a.sub k, a.stride⟩
      ∧ Nat.repeat It.next k a.begin = a.begin.plus k)
    ∧ a.end_ = a.begin.plus d
    ∧ (List.range d).flatMap (fun k => (List.range c).map fun j => (a.begin.plus k).array.elem j)
        = (List.range (d * c)).map (data + ·) := by
  have hst := C30_stride std data [c] d (by simp) hd hW
  have hvc : volume [c] = c := by simp [volume]
  rw [hvc] at hst
  rw [show [c, d] = [c] ++ [d] from rfl, hst] at ha
  cases ha
  have hvol : volume [c, d] = d * c := by simp [volume, Nat.mul_comm]
  have hm : ∀ k, k ≤ d → k * c % W = k * c := by
    intro k hk
    have : k * c ≤ d * c := Nat.mul_le_mul_right c hk
    exact Nat.mod_eq_of_lt (by omega)
  refine ⟨?_, rfl, ?_⟩
  · intro k
    induction k with
    | zero => intro _; simp [Nat.repeat, MA.begin, It.plus, MA.sub, mkArray]
    | succ k ih =>
      intro hk
      have := (ih (by omega)).2
      refine ⟨by simp [MA.begin, It.plus, MA.sub, mkArray], ?_⟩
      simp only [Nat.repeat]
      rw [this]
      simp only [It.next, It.plus, MA.begin, mkArray]
      rw [hm k (by omega), hm (k + 1) hk, Nat.add_mul, Nat.one_mul, Nat.add_assoc]
  · have : ∀ n, n ≤ d → (List.range n).flatMap (fun k => (List.range c).map fun j =>
        ((MA.begin ⟨data, [c] ++ [d], c⟩).plus k).array.elem j)
          = (List.range (n * c)).map (data + ·) := by
      intro n
      induction n with
      | zero => intro _; simp
      | succ n ih =>
        intro hn
        rw [List.range_succ, List.flatMap_append, ih (by omega), Nat.add_mul, Nat.one_mul,
          List.range_add, List.map_append]
        congr 1
        simp only [List.flatMap_cons, List.flatMap_nil, List.append_nil, List.map_map,
          It.plus, MA.begin, mkArray, MA.elem]
        apply List.map_congr_left
        intro j _
        rw [hm n (by omega)]
        simp [Nat.add_assoc]
    exact this d (Nat.le_refl d)

/-- False from rank 3 on: whatever the number of further dimensions, with the first two
dimensions at least 2, the elements `[0]...[0][1][0]` and `[0]...[0][0][1]` are the same
storage location. -/
theorem C30_rank3_fails (std : Std) (data c d : Nat) (rest : List Nat) (a : MA)
    (ha : mkArgs std data (c :: d :: rest) = some a) (hr : rest ≠ [])
    (hc : 2 ≤ c) (hd : 2 ≤ d) (hpos : ∀ e ∈ rest, 0 < e) :
    ∃ idx idx', Valid (c :: d :: rest) idx ∧ Valid (c :: d :: rest) idx' ∧ idx ≠ idx'
      ∧ a.addr idx = a.addr idx' := by
  have hdim : a.data = data ∧ a.dim = c :: d :: rest := by
    unfold mkArgs at ha
    rw [if_neg (by simp)] at ha
    cases hs : strideArgs std (c :: d :: rest) with
    | none => rw [hs] at ha; cases ha
    | some s => rw [hs] at ha; cases ha; exact ⟨rfl, rfl⟩
  -- peeling zero indices
  have peel : ∀ (n : Nat) (rest : List Nat) (a : MA) (x y : Nat), rest.length = n →
      a.dim = c :: d :: rest →
      (rest ≠ [] ∨ a.stride = 1) →
      a.addr (List.replicate n 0 ++ [x, y]) = a.data + (if n = 0 then x * a.stride % W else x % W) + y := by
    intro n
    induction n with
    | zero => intro rest a x y hl hd' hs; simp [MA.addr, MA.sub, MA.elem, mkArray]
    | succ n ih =>
      intro rest a x y hl hd' hs
      have hne : rest ≠ [] := by intro e; subst e; simp at hl
      obtain ⟨init, last, rfl⟩ := snoc rest hne
      have hl' : init.length = n := by simp at hl; exact hl
      have e : a.addr (List.replicate (n + 1) 0 ++ [x, y])
          = (a.sub 0).addr (List.replicate n 0 ++ [x, y]) := by
        rw [List.replicate_succ, List.cons_append]
        cases hz : List.replicate n 0 ++ [x, y] with
        | nil => simp at hz
        | cons p q => rfl
      have hsd : (a.sub 0).dim = c :: d :: init := by
        simp only [MA.sub, mkArray, hd']
        rw [show c :: d :: (init ++ [last]) = (c :: d :: init) ++ [last] by simp,
          List.dropLast_concat]
      rw [e, ih init (a.sub 0) x y hl' hsd (.inr rfl)]
      simp [MA.sub, mkArray]
  have hlen : ∃ n, rest.length = n + 1 := ⟨rest.length - 1, by
    have : 0 < rest.length := List.length_pos_iff.2 hr
    omega⟩
  obtain ⟨n, hn⟩ := hlen
  have valid : ∀ x y, x < 2 → y < 2 →
      Valid (c :: d :: rest) (List.replicate (n + 1) 0 ++ [x, y]) := by
    intro x y hx hy
    refine ⟨by simp [hn], ?_⟩
    intro k hk
    simp only [List.reverse_cons, List.append_assoc]
    simp at hk
    by_cases h1 : k < n + 1
    · rw [List.getElem_append_left (by simp; exact h1)]
      rw [List.getElem?_append_left (by simp [hn]; exact h1)]
      simp only [List.getElem_replicate]
      have hk' : k < rest.reverse.length := by simp [hn]; exact h1
      rw [List.getElem?_eq_getElem hk']
      exact hpos _ (List.mem_reverse.1 (List.getElem_mem hk'))
    · rw [List.getElem_append_right (by simp; omega)]
      rw [List.getElem?_append_right (by simp [hn]; omega)]
      simp only [List.length_replicate, List.length_reverse, hn]
      have : k = n + 1 ∨ k = n + 2 := by omega
      rcases this with rfl | rfl
      · simp; omega
      · simp [show n + 2 - (n + 1) = 1 by omega]; omega
  refine ⟨_, _, valid 1 0 (by omega) (by omega), valid 0 1 (by omega) (by omega), ?_, ?_⟩
  · intro e
    have := List.append_cancel_left e
    simp at this
  · rw [peel (n + 1) rest a 1 0 hn hdim.2 (.inl hr), peel (n + 1) rest a 0 1 hn hdim.2 (.inl hr)]
    simp [W]

/-- The constructor taking an array of dimensions disagrees with the one taking a list already
in rank 2: it leaves the stride at 1, so `a[1][0]` and `a[0][1]` are the same element. -/
theorem C30_array_ctor_fails (std : Std) (data c d : Nat) (hc : 2 ≤ c) (hd : 2 ≤ d)
    (hW : volume [c, d] < W) (a : MA) (ha : mkArgs std data [c, d] = some a) :
    a.addr [1, 0] ≠ (mkArray data [c, d]).addr [1, 0]
    ∧ (mkArray data [c, d]).addr [1, 0] = (mkArray data [c, d]).addr [0, 1] := by
  have hst := C30_stride std data [c] d (by simp) (by omega) hW
  have hvc : volume [c] = c := by simp [volume]
  rw [hvc] at hst
  rw [show [c, d] = [c] ++ [d] from rfl, hst] at ha
  cases ha
  have hvol : volume [c, d] = c * d := by simp [volume]
  have : c ≤ c * d := Nat.le_mul_of_pos_right _ (by omega)
  have hm : c % W = c := Nat.mod_eq_of_lt (by omega)
  refine ⟨?_, by simp [MA.addr, MA.sub, MA.elem, mkArray, W]⟩
  simp [MA.addr, MA.sub, MA.elem, mkArray, hm]
  simp [W]; omega

/-- With C++17 or later, a last dimension of 0 is a division by zero; the older code accepts
it. -/
theorem C30_zero_dim_fails (data c : Nat) :
    mkArgs .cpp17 data [c, 0] = none ∧ (mkArgs .cpp11 data [c, 0]).isSome = true := by
  simp [mkArgs, strideArgs, stride17, stride11]

/-- A 3 by 4 array at offset 5. -/
example : mkArgs .cpp17 5 [3, 4] = some ⟨5, [3, 4], 3⟩
    ∧ (MA.mk 5 [3, 4] 3).addr [2, 1] = 12 ∧ Valid [3, 4] [2, 1] ∧ volume [3, 4] < W := by
  refine ⟨by decide, by decide, ⟨rfl, ?_⟩, by decide⟩
  intro k hk
  match k, hk with
  | 0, _ => simp
  | 1, _ => simp

/-- A rank 3 array meeting the hypotheses of the failure. -/
example : (mkArgs .cpp17 0 [2, 2, 2]).isSome = true := by decide

end Verif.MultiArray
