import Verif.RestArr
import Verif.Props.RestSeq
/-
C93: arrays of C behind the REST interface and the wrappers of a Python module.
-/
namespace Verif.Rest
open Verif.Json (J Lib dot)
open Verif.MultiArray (MA Std mkArgs strideArgs stride11 stride17 W)
open Verif.Xml (isDigit valD)

/-- Spec: where C keeps `a[i1]...[ir]` of `T a[d1]...[dr]`, counted in elements; none if an index is out of range or
there are not as many of them as dimensions. -/
def C93.off : List Nat → List Nat → Option Nat
  | [], [] => some 0
  | d :: ds, i :: is => if i < d then (C93.off ds is).map fun k => i * ds.foldr (· * ·) 1 + k else none
  | _, _ => none

/-- Spec: the path to an element, the indices written as decimal numbers. -/
def C93.path (ds : List Str) : Str := ds.flatMap (b ".@elem." ++ ·)

/-- Spec: decimal numbers below 2^31. -/
def C93.Dec (ds : Str) : Prop := ds ≠ [] ∧ (∀ c ∈ ds, isDigit c = true) ∧ valD ds < 2 ^ 31

/-- Spec: the array as its rows, `n` of them with `m` elements each. -/
def C93.rows {E : Type} (n m : Nat) (xs : List E) : List (List E) :=
  (List.range n).map fun i => (xs.drop (i * m)).take m

private theorem mk1 (std : Std) (n : Nat) : mkArgs std 0 [n] = some ⟨0, [n], 1⟩ := by simp [mkArgs]

private theorem mk2 (std : Std) (n m : Nat) (hm : 0 < m) (hW : n * m < W) :
    mkArgs std 0 [n, m] = some ⟨0, [n, m], n⟩ := by
  have hn : n < W := Nat.lt_of_le_of_lt (Nat.le_mul_of_pos_right n hm) hW
  cases std
  · simp [mkArgs, strideArgs, stride11, Nat.mod_eq_of_lt hn]
  · have h0 : m ≠ 0 := by omega
    simp [mkArgs, strideArgs, stride17, Nat.mod_eq_of_lt hn, Nat.mod_eq_of_lt hW, h0, Nat.mul_div_cancel n hm]

private theorem off1 (n i : Nat) : C93.off [n] [i] = if i < n then some i else none := by
  by_cases h : i < n <;> simp [C93.off, h]

private theorem off2 (n m i j : Nat) :
    C93.off [n, m] [i, j] = if i < n ∧ j < m then some (i * m + j) else none := by
  by_cases h : i < n <;> by_cases h' : j < m <;> simp [C93.off, h, h']

private theorem row_lt {n m i j : Nat} (hi : i < m) (hj : j < n) : i * n + j < n * m := by
  have : i * n + n ≤ m * n := by
    have := Nat.mul_le_mul_right n (show i + 1 ≤ m from hi)
    rwa [Nat.add_mul, Nat.one_mul] at this
  rw [Nat.mul_comm n m]; omega

/-- What a step of a path to a row gives. -/
private theorem step2 {E : Type} (lib : Lib) (tr : Nat → Option Nat) (el : El E) (top : Bool) (a : MA) (args : J)
    (mem : List E) (ds t : Str) (hd : C93.Dec ds) (ht : t.head? = some 46) (hab : t ∉ abouts) :
    procN lib tr el 2 top a (b ".@elem." ++ ds ++ t) args mem =
      if valD ds < a.size then procN lib tr el 1 false (a.begin.plus (valD ds)).array t args mem else (.throw, mem) := by
  obtain ⟨hne, h, hv⟩ := hd
  have e : b ".@elem." ++ ds ++ t = dot :: b "@elem" ++ dot :: (ds ++ t) := by
    rw [List.append_assoc]; rfl
  have hp : b ".@elem" <+: b ".@elem." ++ ds ++ t := by
    rw [List.append_assoc]
    exact List.IsPrefix.trans ⟨[46], rfl⟩ (List.prefix_append ..)
  have hnp : ¬ b ".@elemNoThrow" <+: b ".@elem." ++ ds ++ t := by
    intro hp
    rw [List.append_assoc, show b ".@elemNoThrow" = b ".@elem" ++ (78 :: b "oThrow") from rfl,
      show b ".@elem." ++ (ds ++ t) = b ".@elem" ++ (46 :: (ds ++ t)) from rfl, List.prefix_append_right_inj,
      List.cons_prefix_cons] at hp
    exact absurd hp.1 (by decide)
  have hi := C43.elemImpl_dec a.size (b "@elem") ds t (by decide) h hne (.inr ht) hv
  rw [← e, if_neg hnp] at hi
  have htn : t ≠ [] := by rintro rfl; simp at ht
  by_cases hs : valD ds < a.size
  · rw [if_neg (by omega)] at hi
    simp only [procN, if_pos hp, hi, if_neg htn, if_neg hab, if_pos hs]
  · rw [if_pos (by omega)] at hi
    simp only [procN, if_pos hp, hi, if_neg hs]

private theorem not_about (ds : Str) : b ".@elem." ++ ds ∉ abouts := by
  have : ∀ x ∈ abouts, ¬ b ".@elem" <+: x := by decide
  intro h
  exact this _ h (List.IsPrefix.trans ⟨[46], rfl⟩ (List.prefix_append ..))

private theorem slice_get {E : Type} (a : MA) (mem : List E) (j : Nat) (hj : j < a.size) :
    (slice a mem)[j]? = mem[a.data + j]? := by
  rw [slice, List.getElem?_take_of_lt hj, List.getElem?_drop]

private theorem slice_len {E : Type} (a : MA) (mem : List E) (h : a.data + a.size ≤ mem.length) :
    (slice a mem).length = a.size := by
  simp [slice]; omega

private theorem splice_slice {E : Type} (a : MA) (mem : List E) : splice a mem (slice a mem) = mem := by
  simp only [splice, slice]
  rw [← List.drop_drop, List.append_assoc, List.take_append_drop, List.take_append_drop]

private theorem splice_get {E : Type} (a : MA) (mem xs : List E) (h : a.data + a.size ≤ mem.length)
    (hx : xs.length = a.size) (k : Nat) :
    (splice a mem xs)[k]? = if a.data ≤ k ∧ k < a.data + a.size then xs[k - a.data]? else mem[k]? := by
  have h1 : (mem.take a.data).length = a.data := by simp; omega
  simp only [splice, List.append_assoc]
  by_cases hk : k < a.data
  · rw [List.getElem?_append_left (by omega), List.getElem?_take_of_lt hk, if_neg (by omega)]
  · rw [List.getElem?_append_right (by omega), h1]
    by_cases hk2 : k < a.data + a.size
    · rw [List.getElem?_append_left (by omega), if_pos (by omega)]
    · rw [List.getElem?_append_right (by omega), hx, List.getElem?_drop, if_neg (by omega)]
      congr 1; omega

/-- Paths within a one dimensional view. -/
private theorem step1 {E : Type} (lib : Lib) (tr : Nat → Option Nat) (el : El E) (top : Bool) (a : MA)
    (mem : List E) (hin : a.data + a.size ≤ mem.length) (ds : Str) (hd : C93.Dec ds) :
    (a.size ≤ valD ds → ∀ args, procN lib tr el 1 top a (b ".@elem." ++ ds) args mem = (.throw, mem)) ∧
    ∀ x, valD ds < a.size → mem[a.data + valD ds]? = some x →
      procN lib tr el 1 top a (b ".@elem." ++ ds) .null mem = (.ref (a.data + valD ds), mem) ∧
      ∀ v, procN lib tr el 1 top a (b ".@elem." ++ ds) (.arr [v]) mem =
        (if (el.conv v x).1 then .ref (a.data + valD ds) else .throw, mem.set (a.data + valD ds) (el.conv v x).2) := by
  obtain ⟨hne, h, hv⟩ := hd
  have hI : inside a mem = true := by simp [inside, hin]
  have hl := slice_len a mem hin
  refine ⟨fun ho args => ?_, fun x hs hx => ⟨?_, fun v => ?_⟩⟩
  · have := C43_path_out lib tr el ⟨false, false, false⟩ args (slice a mem) ds [] h hne (.inl rfl) hv (by omega)
    rw [List.append_nil] at this
    simp only [procN, hI, if_true, this, ofCO, splice_slice]
  · have := (C43_path_end lib tr el ⟨false, false, false⟩ rfl (slice a mem) ds h hne hv x
      (by rw [slice_get a mem _ hs]; exact hx)).1
    simp only [procN, hI, if_true, this, ofCO, splice_slice]
  · have := (C43_path_end lib tr el ⟨false, false, false⟩ rfl (slice a mem) ds h hne hv x
      (by rw [slice_get a mem _ hs]; exact hx)).2 v
    obtain ⟨p1, p2, p3, p4, p5⟩ := this
    simp only [procN, hI, if_true]
    generalize hr : seqProcess lib tr el ⟨false, false, false⟩ (b ".@elem." ++ ds) (.arr [v]) (slice a mem) = r at *
    refine Prod.ext ?_ ?_
    · cases hc : (el.conv v x).1
      · simp [p2.2 hc, ofCO]
      · simp [p1.2 hc, ofCO]
    · simp only
      apply List.ext_getElem?
      intro k
      rw [splice_get a mem r.2 hin (by omega)]
      by_cases hk : k = a.data + valD ds
      · subst hk
        rw [if_pos (by omega), show a.data + valD ds - a.data = valD ds by omega, p4,
          List.getElem?_set_self (by omega)]
      · rw [List.getElem?_set_ne (Ne.symm hk)]
        split
        · rw [p5 _ (by omega), slice_get a mem _ (by omega)]
          congr 1; omega
        · rfl

/-- What a request for an element of `T a[n][m]` gives: bounds and place are those of an array with `m` rows of `n`. -/
theorem C93_shape {E : Type} (lib : Lib) (tr : Nat → Option Nat) (el : El E) (std : Std) (n m : Nat) (hm : 0 < m)
    (hW : n * m < W) (a : MA) (ha : mkArgs std 0 [n, m] = some a) (mem : List E) (hl : mem.length = n * m)
    (ds es : Str) (hd : C93.Dec ds) (he : C93.Dec es) :
    (C93.off [m, n] [valD ds, valD es] = none →
      ∀ args, procN lib tr el 2 true a (C93.path [ds, es]) args mem = (.throw, mem)) ∧
    ∀ k x, C93.off [m, n] [valD ds, valD es] = some k → mem[k]? = some x →
      procN lib tr el 2 true a (C93.path [ds, es]) .null mem = (.ref k, mem) ∧
      ∀ v, procN lib tr el 2 true a (C93.path [ds, es]) (.arr [v]) mem =
        (if (el.conv v x).1 then .ref k else .throw, mem.set k (el.conv v x).2) := by
  rw [mk2 std n m hm hW] at ha
  cases ha
  have hpath : C93.path [ds, es] = b ".@elem." ++ ds ++ (b ".@elem." ++ es) := by
    simp [C93.path]
  have hst := fun args => step2 lib tr el true ⟨0, [n, m], n⟩ args mem ds (b ".@elem." ++ es) hd rfl (not_about es)
  have hsz : (⟨0, [n, m], n⟩ : MA).size = m := rfl
  rw [hsz] at hst
  rw [hpath, off2]
  have hsub : valD ds < m → ((⟨0, [n, m], n⟩ : MA).begin.plus (valD ds)).array = ⟨valD ds * n, [n], 1⟩ := by
    intro hi
    have : valD ds * n < W := by
      have := Nat.mul_le_mul_right n (show valD ds ≤ m by omega)
      rw [Nat.mul_comm m n] at this; omega
    simp [MultiArray.MA.begin, MultiArray.It.plus, MultiArray.mkArray, Nat.mod_eq_of_lt this]
  have hin : valD ds < m → (⟨valD ds * n, [n], 1⟩ : MA).data + (⟨valD ds * n, [n], 1⟩ : MA).size ≤ mem.length := by
    intro hi
    show valD ds * n + n ≤ mem.length
    have := Nat.mul_le_mul_right n (show valD ds + 1 ≤ m from hi)
    rw [Nat.add_mul, Nat.one_mul, Nat.mul_comm m n] at this; omega
  refine ⟨fun ho args => ?_, fun k x hk hx => ?_⟩
  · rw [hst]
    by_cases hi : valD ds < m
    · rw [if_pos hi, hsub hi]
      refine (step1 lib tr el false _ mem (hin hi) es he).1 ?_ args
      show n ≤ valD es
      by_cases hj : valD es < n
      · simp [hi, hj] at ho
      · omega
    · rw [if_neg hi]
  · by_cases hij : valD ds < m ∧ valD es < n
    · rw [if_pos hij] at hk
      cases hk
      have := (step1 lib tr el false _ mem (hin hij.1) es he).2 x hij.2 hx
      simp only [hst, if_pos hij.1, hsub hij.1]
      exact this
    · rw [if_neg hij] at hk; cases hk

private theorem get1 {E : Type} (lib : Lib) (tr : Nat → Option Nat) (el : El E) (n : Nat) (mem : List E)
    (hl : mem.length = n) (ds : Str) (hd : C93.Dec ds) :
    (C93.off [n] [valD ds] = none →
      ∀ args, procN lib tr el 1 true ⟨0, [n], 1⟩ (C93.path [ds]) args mem = (.throw, mem)) ∧
    ∀ k x, C93.off [n] [valD ds] = some k → mem[k]? = some x →
      procN lib tr el 1 true ⟨0, [n], 1⟩ (C93.path [ds]) .null mem = (.ref k, mem) ∧
      ∀ v, procN lib tr el 1 true ⟨0, [n], 1⟩ (C93.path [ds]) (.arr [v]) mem =
        (if (el.conv v x).1 then .ref k else .throw, mem.set k (el.conv v x).2) := by
  have hpath : C93.path [ds] = b ".@elem." ++ ds := by simp [C93.path]
  rw [hpath, off1]
  have hs := step1 lib tr el true ⟨0, [n], 1⟩ mem (by show 0 + n ≤ _; omega) ds hd
  simp only [Nat.zero_add] at hs
  refine ⟨fun ho => hs.1 ?_, fun k x hk hx => ?_⟩
  · show n ≤ valD ds
    by_cases h : valD ds < n
    · simp [h] at ho
    · omega
  · by_cases h : valD ds < n
    · rw [if_pos h] at hk; cases hk
      exact hs.2 x h hx
    · rw [if_neg h] at hk; cases hk

/-- Spec: the arrays for which the answers are those of C: of one dimension, or square. -/
def C93.Square (dims : List Nat) : Prop := (∃ n, dims = [n]) ∨ ∃ n, 0 < n ∧ dims = [n, n]

private theorem path_any {E : Type} (lib : Lib) (tr : Nat → Option Nat) (el : El E) (std : Std) (dims : List Nat)
    (hs : C93.Square dims) (hW : dims.foldr (· * ·) 1 < W) (a : MA) (ha : mkArgs std 0 dims = some a) (mem : List E)
    (hl : mem.length = dims.foldr (· * ·) 1) (ds : List Str) (hlen : ds.length = dims.length)
    (hd : ∀ s ∈ ds, C93.Dec s) :
    (C93.off dims (ds.map valD) = none →
      ∀ args, procN lib tr el dims.length true a (C93.path ds) args mem = (.throw, mem)) ∧
    ∀ k x, C93.off dims (ds.map valD) = some k → mem[k]? = some x →
      procN lib tr el dims.length true a (C93.path ds) .null mem = (.ref k, mem) ∧
      ∀ v, procN lib tr el dims.length true a (C93.path ds) (.arr [v]) mem =
        (if (el.conv v x).1 then .ref k else .throw, mem.set k (el.conv v x).2) := by
  rcases hs with ⟨n, rfl⟩ | ⟨n, hn, rfl⟩
  · rw [mk1] at ha; cases ha
    match ds, hlen with
    | [d], _ => exact get1 lib tr el n mem (by simpa using hl) d (hd d (by simp))
  · match ds, hlen with
    | [d, e], _ =>
      exact C93_shape lib tr el std n n hn (by simpa using hW) a ha mem (by simpa using hl) d e (hd d (by simp))
        (hd e (by simp))

/-- The path with the indices of an element gives that element, and changes nothing. -/
theorem C93_get_partial {E : Type} (lib : Lib) (tr : Nat → Option Nat) (el : El E) (std : Std) (dims : List Nat)
    (hs : C93.Square dims) (hW : dims.foldr (· * ·) 1 < W) (a : MA) (ha : mkArgs std 0 dims = some a) (mem : List E)
    (hl : mem.length = dims.foldr (· * ·) 1) (ds : List Str) (hlen : ds.length = dims.length)
    (hd : ∀ s ∈ ds, C93.Dec s) (k : Nat) (x : E) (hk : C93.off dims (ds.map valD) = some k) (hx : mem[k]? = some x) :
    procN lib tr el dims.length true a (C93.path ds) .null mem = (.ref k, mem) :=
  ((path_any lib tr el std dims hs hW a ha mem hl ds hlen hd).2 k x hk hx).1

/-- With an argument that element, and no other, becomes what converting the argument gives. -/
theorem C93_set_partial {E : Type} (lib : Lib) (tr : Nat → Option Nat) (el : El E) (std : Std) (dims : List Nat)
    (hs : C93.Square dims) (hW : dims.foldr (· * ·) 1 < W) (a : MA) (ha : mkArgs std 0 dims = some a) (mem : List E)
    (hl : mem.length = dims.foldr (· * ·) 1) (ds : List Str) (hlen : ds.length = dims.length)
    (hd : ∀ s ∈ ds, C93.Dec s) (k : Nat) (x : E) (hk : C93.off dims (ds.map valD) = some k) (hx : mem[k]? = some x)
    (v : J) :
    let r := procN lib tr el dims.length true a (C93.path ds) (.arr [v]) mem
    (r.1 = .ref k ↔ (el.conv v x).1 = true) ∧ (r.1 = .throw ↔ (el.conv v x).1 = false) ∧ r.2.length = mem.length ∧
      r.2[k]? = some (el.conv v x).2 ∧ ∀ i, i ≠ k → r.2[i]? = mem[i]? := by
  have hlt : k < mem.length := (List.getElem?_eq_some_iff.1 hx).1
  simp only [((path_any lib tr el std dims hs hW a ha mem hl ds hlen hd).2 k x hk hx).2 v]
  refine ⟨?_, ?_, by simp, by simp [hlt], fun i hi => List.getElem?_set_ne (Ne.symm hi)⟩
  · cases (el.conv v x).1 <;> simp
  · cases (el.conv v x).1 <;> simp

/-- Out of range it throws, and nothing changes. -/
theorem C93_out_partial {E : Type} (lib : Lib) (tr : Nat → Option Nat) (el : El E) (std : Std) (dims : List Nat)
    (hs : C93.Square dims) (hW : dims.foldr (· * ·) 1 < W) (a : MA) (ha : mkArgs std 0 dims = some a) (mem : List E)
    (hl : mem.length = dims.foldr (· * ·) 1) (ds : List Str) (hlen : ds.length = dims.length)
    (hd : ∀ s ∈ ds, C93.Dec s) (hk : C93.off dims (ds.map valD) = none) (args : J) :
    procN lib tr el dims.length true a (C93.path ds) args mem = (.throw, mem) :=
  (path_any lib tr el std dims hs hW a ha mem hl ds hlen hd).1 hk args

/-- Other arrays: elements which exist, but not in the array with rows and columns exchanged, are not reached, and
`a[1][0]` is another element. -/
theorem C93_fails_order {E : Type} (lib : Lib) (tr : Nat → Option Nat) (el : El E) (std : Std) (n m : Nat) (hn : 0 < n)
    (hm : 0 < m) (hnm : n ≠ m) (hW : n * m < W) (a : MA) (ha : mkArgs std 0 [n, m] = some a) (mem : List E)
    (hl : mem.length = n * m) :
    (∃ i j k, C93.off [n, m] [i, j] = some k ∧ ∀ ds es, C93.Dec ds → C93.Dec es → valD ds = i → valD es = j →
      ∀ args, procN lib tr el 2 true a (C93.path [ds, es]) args mem = (.throw, mem)) ∧
    (2 ≤ n → 2 ≤ m → ∃ k k', C93.off [n, m] [1, 0] = some k ∧ k' ≠ k ∧
      procN lib tr el 2 true a (b ".@elem.1.@elem.0") .null mem = (.ref k', mem)) := by
  refine ⟨?_, fun h2 h3 => ?_⟩
  · by_cases h : n < m
    · refine ⟨0, n, 0 * m + n, by rw [off2, if_pos ⟨hn, h⟩], fun ds es hd he hi hj => ?_⟩
      refine (C93_shape lib tr el std n m hm hW a ha mem hl ds es hd he).1 ?_
      rw [off2, if_neg (by omega)]
    · refine ⟨m, 0, m * m + 0, by rw [off2, if_pos ⟨by omega, hm⟩], fun ds es hd he hi hj => ?_⟩
      refine (C93_shape lib tr el std n m hm hW a ha mem hl ds es hd he).1 ?_
      rw [off2, if_neg (by omega)]
  · refine ⟨1 * m + 0, 1 * n + 0, by rw [off2, if_pos ⟨by omega, by omega⟩], by omega, ?_⟩
    have hlt : 1 * n + 0 < mem.length := by rw [hl]; exact row_lt (by omega) (by omega)
    have h10 : C93.off [m, n] [valD (b "1"), valD (b "0")] = some (1 * n + 0) := by
      rw [show valD (b "1") = 1 from rfl, show valD (b "0") = 0 from rfl, off2, if_pos ⟨by omega, by omega⟩]
    exact ((C93_shape lib tr el std n m hm hW a ha mem hl (b "1") (b "0") ⟨by decide, by decide, by decide⟩
      ⟨by decide, by decide, by decide⟩).2 _ mem[1 * n + 0] h10 (List.getElem?_eq_getElem hlt)).1

private theorem mapM_some {α β : Type} (f : α → Option β) (g : α → β) (l : List α) (h : ∀ x ∈ l, f x = some (g x)) :
    l.mapM f = some (l.map g) := by
  induction l with
  | nil => rfl
  | cons x l ih =>
    rw [List.mapM_cons, h x (by simp), ih fun y hy => h y (by simp [hy])]
    rfl

private theorem row_view (n m k : Nat) (hW : n * m < W) (hk : k < m) :
    ((⟨0, [n, m], n⟩ : MA).begin.plus k).array = ⟨k * n, [n], 1⟩ := by
  have : k * n < W := by
    have := Nat.mul_le_mul_right n (show k ≤ m by omega)
    rw [Nat.mul_comm m n] at this; omega
  simp [MultiArray.MA.begin, MultiArray.It.plus, MultiArray.mkArray, Nat.mod_eq_of_lt this]

private theorem row_in (n m k : Nat) (hk : k < m) : k * n + n ≤ n * m := by
  have := Nat.mul_le_mul_right n (show k + 1 ≤ m from hk)
  rw [Nat.add_mul, Nat.one_mul, Nat.mul_comm m n] at this; omega

/-- What `T a[n][m]` is shown as: `m` rows of `n` elements. -/
theorem C93_show {E : Type} (shw : E → J) (std : Std) (n m : Nat) (hm : 0 < m) (hW : n * m < W) (a : MA)
    (ha : mkArgs std 0 [n, m] = some a) (mem : List E) (hl : mem.length = n * m) :
    showN shw 2 a mem = some (.arr ((C93.rows m n mem).map fun r => .arr (r.map shw))) := by
  rw [mk2 std n m hm hW] at ha
  cases ha
  simp only [showN]
  rw [mapM_some _ fun k => J.arr (((mem.drop (k * n)).take n).map shw)]
  · simp only [Option.map_some, C93.rows, List.map_map]
    rfl
  · intro k hk
    have hk : k < m := List.mem_range.1 hk
    rw [row_view n m k hW hk]
    have hI : inside (⟨k * n, [n], 1⟩ : MA) mem = true := by
      simp only [inside, decide_eq_true_eq]
      show k * n + n ≤ _
      rw [hl]; exact row_in n m k hk
    rw [hI]; rfl

/-- An array of one dimension is shown as its elements in order, a square one as its rows in order. -/
theorem C93_show_partial {E : Type} (shw : E → J) (std : Std) (n : Nat) (hn : 0 < n) (mem : List E) :
    (∀ a, mkArgs std 0 [n] = some a → mem.length = n → showN shw 1 a mem = some (.arr (mem.map shw))) ∧
    (∀ a, mkArgs std 0 [n, n] = some a → n * n < W → mem.length = n * n →
      showN shw 2 a mem = some (.arr ((C93.rows n n mem).map fun r => .arr (r.map shw)))) := by
  refine ⟨fun a ha hl => ?_, fun a ha hW hl => C93_show shw std n n hn hW a ha mem hl⟩
  rw [mk1] at ha; cases ha
  have hI : inside (⟨0, [n], 1⟩ : MA) mem = true := by
    simp only [inside, decide_eq_true_eq]
    show 0 + n ≤ _
    omega
  simp only [showN, hI, if_true]
  show some (J.arr (((mem.drop 0).take n).map shw)) = _
  rw [List.drop_zero, List.take_of_length_le (by omega)]

/-- Any other is not shown as its rows. -/
theorem C93_fails_show {E : Type} (shw : E → J) (std : Std) (n m : Nat) (hm : 0 < m) (hnm : n ≠ m)
    (hW : n * m < W) (a : MA) (ha : mkArgs std 0 [n, m] = some a) (mem : List E) (hl : mem.length = n * m) :
    showN shw 2 a mem ≠ some (.arr ((C93.rows n m mem).map fun r => .arr (r.map shw))) := by
  rw [C93_show shw std n m hm hW a ha mem hl]
  intro h
  have := congrArg (fun o : Option J => match o with | some (.arr l) => l.length | _ => 0) h
  simp [C93.rows] at this
  omega

private theorem decAll_all {E : Type} (el : El E) (f : J → E) : ∀ (js : List J) (xs : List E), js.length = xs.length →
    (∀ j ∈ js, ∀ y, el.dec j y = (true, f j)) → decAll el js xs = (true, js.map f)
  | [], [], _, _ => rfl
  | j :: js, x :: xs, h, hf => by
    simp only [decAll, hf j (by simp) x, if_true,
      decAll_all el f js xs (by simpa using h) fun k hk => hf k (by simp [hk]), List.map_cons]
  | [], _ :: _, h, _ => by simp at h
  | _ :: _, [], h, _ => by simp at h

private theorem conv1 {E : Type} (el : El E) (f : J → E) (a : MA) (mem : List E) (js : List J)
    (hin : a.data + a.size ≤ mem.length) (hj : js.length = a.size) (hf : ∀ j ∈ js, ∀ y, el.dec j y = (true, f j)) :
    convN el 1 a (.arr js) mem = (.ok, splice a mem (js.map f)) := by
  have hI : inside a mem = true := by simp [inside, hin]
  simp only [convN, hI, if_true, decAll_all el f js (slice a mem) (by rw [slice_len a mem hin, hj]) hf]

private theorem each_all {E : Type} (el : El E) (f : J → E) (n m : Nat) (hW : n * m < W) (js : List (List J)) :
    ∀ (k : Nat) (done rest : List E), k + js.length = m → done.length = k * n → rest.length = js.length * n →
    (∀ r ∈ js, r.length = n ∧ ∀ j ∈ r, ∀ y, el.dec j y = (true, f j)) →
    eachSub m (fun k j mm => convN el 1 ((⟨0, [n, m], n⟩ : MA).begin.plus k).array j mm) k (js.map .arr)
      (done ++ rest) = (.ok, done ++ (js.flatten).map f) := by
  induction js with
  | nil =>
    intro k done rest _ _ hr _
    have : rest = [] := List.length_eq_zero_iff.1 (by simpa using hr)
    simp [eachSub, this]
  | cons r js ih =>
    intro k done rest hk hd hr hf
    obtain ⟨hrn, hrf⟩ := hf r (by simp)
    have hkm : k < m := by simp at hk; omega
    have hlr : rest.length = n + js.length * n := by
      rw [hr, List.length_cons, Nat.add_mul, Nat.one_mul, Nat.add_comm]
    have hc := conv1 el f ⟨k * n, [n], 1⟩ (done ++ rest) r
      (by show k * n + n ≤ _; rw [List.length_append, hd, hlr]; omega) (by rw [hrn]; rfl) hrf
    have hsp : splice (⟨k * n, [n], 1⟩ : MA) (done ++ rest) (r.map f) = (done ++ r.map f) ++ rest.drop n := by
      simp only [splice]
      show (done ++ rest).take (k * n) ++ r.map f ++ (done ++ rest).drop (k * n + n) = _
      rw [← hd, List.take_left, ← List.drop_drop, List.drop_left]
    simp only [List.map_cons, eachSub, if_neg (show k ≠ m by omega)]
    rw [row_view n m k hW hkm, hc, hsp]
    simp only
    rw [ih (k + 1) (done ++ r.map f) (rest.drop n) (by simp at hk; omega)
      (by rw [List.length_append, hd, List.length_map, hrn, Nat.add_mul, Nat.one_mul])
      (by rw [List.length_drop]; omega) fun q hq => hf q (by simp [hq])]
    simp

/-- Giving `T a[n][m]` an array of `m` arrays of `n` values stores them one after the other. -/
theorem C93_assign {E : Type} (lib : Lib) (tr : Nat → Option Nat) (el : El E) (f : J → E) (std : Std) (n m : Nat)
    (hm : 0 < m) (hW : n * m < W) (a : MA) (ha : mkArgs std 0 [n, m] = some a) (mem : List E)
    (hl : mem.length = n * m) (js : List (List J)) (hj : js.length = m) (hr : ∀ r ∈ js, r.length = n)
    (hf : ∀ r ∈ js, ∀ j ∈ r, ∀ y, el.dec j y = (true, f j)) :
    procN lib tr el 2 true a [] (.arr [.arr (js.map .arr)]) mem = (.view a, (js.flatten).map f) := by
  rw [mk2 std n m hm hW] at ha
  cases ha
  have h1 : ¬ b ".@elem" <+: [] := by decide
  have := each_all el f n m hW js 0 [] mem (by omega) (by simp) (by rw [hl, hj, Nat.mul_comm])
    fun r h => ⟨hr r h, hf r h⟩
  simp only [List.nil_append] at this
  simp only [procN, if_neg h1, Bool.true_eq_false, false_and, if_false, if_true, assignN, convN]
  rw [show (⟨0, [n, m], n⟩ : MA).size = m from rfl, this]
  rfl

private theorem flat_get {α : Type} (n : Nat) : ∀ (js : List (List α)) (i j : Nat), (∀ r ∈ js, r.length = n) → j < n →
    js.flatten[i * n + j]? = js[i]?.bind (·[j]?)
  | [], i, j, _, _ => by simp
  | r :: js, 0, j, h, hj => by
    have := h r (by simp)
    simp only [Nat.zero_mul, Nat.zero_add, List.flatten_cons, List.getElem?_cons_zero, Option.bind_some]
    rw [List.getElem?_append_left (by omega)]
  | r :: js, i + 1, j, h, hj => by
    have := h r (by simp)
    rw [List.flatten_cons, List.getElem?_append_right (by rw [Nat.add_mul]; omega),
      show (i + 1) * n + j - r.length = i * n + j by rw [Nat.add_mul]; omega,
      flat_get n js i j (fun q hq => h q (by simp [hq])) hj, List.getElem?_cons_succ]

/-- A square array given `n` arrays of `n` values has, at the place C keeps `a[i][j]`, the j-th value of the i-th. -/
theorem C93_assign_partial {E : Type} (lib : Lib) (tr : Nat → Option Nat) (el : El E) (f : J → E) (std : Std) (n : Nat)
    (hn : 0 < n) (hW : n * n < W) (a : MA) (ha : mkArgs std 0 [n, n] = some a) (mem : List E)
    (hl : mem.length = n * n) (js : List (List J)) (hj : js.length = n) (hr : ∀ r ∈ js, r.length = n)
    (hf : ∀ r ∈ js, ∀ j ∈ r, ∀ y, el.dec j y = (true, f j)) :
    let r := procN lib tr el 2 true a [] (.arr [.arr (js.map .arr)]) mem
    r.1 = .view a ∧ r.2.length = mem.length ∧
      ∀ i j k, C93.off [n, n] [i, j] = some k → r.2[k]? = (js[i]?.bind (·[j]?)).map f := by
  simp only [C93_assign lib tr el f std n n hn hW a ha mem hl js hj hr hf]
  refine ⟨trivial, ?_, fun i j k hk => ?_⟩
  · have : ∀ (l : List (List J)), (∀ r ∈ l, r.length = n) → l.flatten.length = l.length * n := by
      intro l
      induction l with
      | nil => simp
      | cons r l ih =>
        intro h
        rw [List.flatten_cons, List.length_append, h r (by simp), ih fun q hq => h q (by simp [hq]), List.length_cons,
          Nat.add_mul, Nat.one_mul, Nat.add_comm]
    rw [List.length_map, this js hr, hj, hl]
  · rw [off2] at hk
    by_cases h : i < n ∧ j < n
    · rw [if_pos h] at hk; cases hk
      rw [List.getElem?_map, flat_get n js i j hr h.2]
    · rw [if_neg h] at hk; cases hk

/-- What an array of any dimensions is shown as can be given to another of the same dimensions, which then has the same
elements. -/
theorem C93_copy {E : Type} (lib : Lib) (tr : Nat → Option Nat) (el : El E) (shw : E → J)
    (hc : ∀ x y, el.dec (shw x) y = (true, x)) (std : Std) (n m : Nat) (hm : 0 < m) (hW : n * m < W) (a : MA)
    (ha : mkArgs std 0 [n, m] = some a) (src mem : List E) (hs : src.length = n * m) (hl : mem.length = n * m) (j : J)
    (hj : showN shw 2 a src = some j) :
    procN lib tr el 2 true a [] (.arr [j]) mem = (.view a, src) := by
  rw [C93_show shw std n m hm hW a ha src hs] at hj
  cases hj
  have hflat : ∀ k, (List.map (fun i => (src.drop (i * n)).take n) (List.range k)).flatten = src.take (k * n) := by
    intro k
    induction k with
    | zero => simp
    | succ k ih =>
      rw [List.range_succ, List.map_append, List.flatten_append, ih, Nat.add_mul, Nat.one_mul, List.take_add]
      simp
  classical
  have h := C93_assign lib tr el (fun j => if hx : ∃ x ∈ src, shw x = j then hx.choose else el.dflt) std n m hm hW a ha mem
    hl ((C93.rows m n src).map fun r => r.map shw) (by simp [C93.rows])
    (by
      intro r hr
      simp only [C93.rows, List.map_map, List.mem_map, List.mem_range, Function.comp] at hr
      obtain ⟨i, hi, rfl⟩ := hr
      have := row_in n m i hi
      simp only [List.length_map, List.length_take, List.length_drop]
      omega)
    (by
      intro r hr j hj y
      simp only [C93.rows, List.map_map, List.mem_map, List.mem_range, Function.comp] at hr
      obtain ⟨i, hi, rfl⟩ := hr
      obtain ⟨x, hx, rfl⟩ := List.mem_map.1 hj
      have hx : x ∈ src := List.mem_of_mem_drop (List.mem_of_mem_take hx)
      have hex : ∃ z ∈ src, shw z = shw x := ⟨x, hx, rfl⟩
      simp only [dif_pos hex]
      rw [← hc (hex.choose) y, hex.choose_spec.2])
  rw [List.map_map] at h
  rw [show (List.map (fun r => J.arr (List.map shw r)) (C93.rows m n src))
    = List.map (J.arr ∘ fun r => List.map shw r) (C93.rows m n src) from rfl, h]
  refine Prod.ext rfl ?_
  simp only [C93.rows]
  rw [← List.map_flatten, hflat, List.take_of_length_le (by rw [hs, Nat.mul_comm]; omega), List.map_map]
  refine (List.map_congr_left (g := id) ?_).trans (List.map_id src)
  intro x hx
  have hex : ∃ z ∈ src, shw z = shw x := ⟨x, hx, rfl⟩
  simp only [Function.comp, dif_pos hex, id]
  have h1 := hc hex.choose el.dflt
  rw [hex.choose_spec.2, hc x el.dflt] at h1
  exact (Prod.ext_iff.1 h1).2.symm

/-- Python: `w[i]` of one dimension and `w[i][j]` of a square array are the elements of C; out of range `w[i]` of one
dimension and `w[i][j]` with `i` in range are exceptions.  Assigning changes that element only. -/
theorem C93_python_partial {E : Type} (lib : Lib) (el : El E) (std : Std) (n : Nat) (hn : 0 < n) (hW : n * n < W)
    (hs : n < 2 ^ 63) (mem : List E) (v : J) :
    (∀ a, mkArgs std 0 [n] = some a → mem.length = n → ∀ i : Nat, i < 2 ^ 63 →
      (∀ k x, C93.off [n] [i] = some k → mem[k]? = some x → pyGet lib (.wrapper 1 a) [.int i] = .elem k ∧
        pySet lib el (.wrapper 1 a) [] (.int i) v mem =
          (if (el.dec v x).1 then .none else .error, mem.set k (el.dec v x).2)) ∧
      (C93.off [n] [i] = none → pyGet lib (.wrapper 1 a) [.int i] = .error ∧
        pySet lib el (.wrapper 1 a) [] (.int i) v mem = (.error, mem))) ∧
    (∀ a, mkArgs std 0 [n, n] = some a → mem.length = n * n → ∀ i j : Nat, i < 2 ^ 63 → j < 2 ^ 63 →
      (∀ k x, C93.off [n, n] [i, j] = some k → mem[k]? = some x →
        pyGet lib (.wrapper 2 a) [.int i, .int j] = .elem k ∧
        pySet lib el (.wrapper 2 a) [.int i] (.int j) v mem =
          (if (el.dec v x).1 then .none else .error, mem.set k (el.dec v x).2)) ∧
      (C93.off [n, n] [i, j] = none → pyGet lib (.wrapper 2 a) [.int i, .int j] = .error ∧
        pySet lib el (.wrapper 2 a) [.int i] (.int j) v mem = (.error, mem))) := by
  have hidx : ∀ i : Nat, i < 2 ^ 63 → readIdx lib (.int i) = .ok i := by
    intro i hi
    rw [C43.readIdx_int lib i (by omega)]
    congr 1; omega
  refine ⟨fun a ha hl i hi => ?_, fun a ha hl i j hi hj => ?_⟩
  · rw [mk1] at ha; cases ha
    have hsz : (⟨0, [n], 1⟩ : MA).size = n := rfl
    have hel : (⟨0, [n], 1⟩ : MA).elem i = i := by simp [MultiArray.MA.elem]
    rw [off1]
    refine ⟨fun k x hk hx => ?_, fun hk => ?_⟩
    · by_cases h : i < n
      · rw [if_pos h] at hk; cases hk
        refine ⟨by simp [pyGet, getN, hidx i hi, hsz, h, pyRes, hel], ?_⟩
        simp only [pySet, pyGet, setN, hidx i hi, hsz, h, if_true, hel, hx]
        cases (el.dec v x).1 <;> simp
      · rw [if_neg h] at hk; cases hk
    · by_cases h : i < n
      · rw [if_pos h] at hk; cases hk
      · exact ⟨by simp [pyGet, getN, hidx i hi, hsz, h, pyRes], by simp [pySet, pyGet, setN, hidx i hi, hsz, h]⟩
  · rw [mk2 std n n hn hW] at ha; cases ha
    have hsz : (⟨0, [n, n], n⟩ : MA).size = n := rfl
    rw [off2]
    have hsub : i < n → (⟨0, [n, n], n⟩ : MA).sub i = ⟨i * n, [n], 1⟩ := by
      intro h
      have : i * n < W := Nat.lt_of_le_of_lt (Nat.mul_le_mul_right n (by omega : i ≤ n)) hW
      simp [MultiArray.MA.sub, MultiArray.mkArray, Nat.mod_eq_of_lt this]
    have hsz1 : (⟨i * n, [n], 1⟩ : MA).size = n := rfl
    have hel : (⟨i * n, [n], 1⟩ : MA).elem j = i * n + j := rfl
    by_cases h : i < n
    · have hg : pyGet lib (.wrapper 2 ⟨0, [n, n], n⟩) [.int i] = .wrapper 1 ⟨i * n, [n], 1⟩ := by
        simp [pyGet, getN, hidx i hi, hsz, h, pyRes, hsub h]
      have hg2 : pyGet lib (.wrapper 2 ⟨0, [n, n], n⟩) [.int i, .int j] =
          pyGet lib (.wrapper 1 ⟨i * n, [n], 1⟩) [.int j] := by
        simp [pyGet, getN, hidx i hi, hsz, h, pyRes, hsub h]
      refine ⟨fun k x hk hx => ?_, fun hk => ?_⟩
      · by_cases h' : j < n
        · rw [if_pos ⟨h, h'⟩] at hk; cases hk
          refine ⟨by rw [hg2]; simp [pyGet, getN, hidx j hj, hsz1, h', pyRes, hel], ?_⟩
          simp only [pySet, hg, setN, hidx j hj, hsz1, h', if_true, hel, hx]
          cases (el.dec v x).1 <;> simp
        · rw [if_neg (by omega)] at hk; cases hk
      · by_cases h' : j < n
        · rw [if_pos ⟨h, h'⟩] at hk; cases hk
        · exact ⟨by rw [hg2]; simp [pyGet, getN, hidx j hj, hsz1, h', pyRes],
            by simp [pySet, hg, setN, hidx j hj, hsz1, h']⟩
    · have hg : pyGet lib (.wrapper 2 ⟨0, [n, n], n⟩) [.int i] = .none := by
        simp [pyGet, getN, hidx i hi, hsz, h, pyRes]
      have hg2 : pyGet lib (.wrapper 2 ⟨0, [n, n], n⟩) [.int i, .int j] = .error := by
        simp [pyGet, getN, hidx i hi, hsz, h, pyRes]
      refine ⟨fun k x hk hx => ?_, fun _ => ⟨hg2, by simp [pySet, hg]⟩⟩
      rw [if_neg (by omega)] at hk
      cases hk

/-- Python: `w[i]` of an array with two dimensions out of range is None, and `w[i]=v` does nothing: no exception. -/
theorem C93_fails_none {E : Type} (lib : Lib) (el : El E) (std : Std) (n m : Nat) (hm : 0 < m) (hW : n * m < W)
    (a : MA) (ha : mkArgs std 0 [n, m] = some a) (mem : List E) (i : Nat) (hi : m ≤ i ∧ i < 2 ^ 63) (v : J) :
    pyGet lib (.wrapper 2 a) [.int i] = .none ∧ pySet lib el (.wrapper 2 a) [] (.int i) v mem = (.none, mem) := by
  rw [mk2 std n m hm hW] at ha; cases ha
  have hidx : readIdx lib (.int i) = .ok i := by
    rw [C43.readIdx_int lib i (by omega)]
    congr 1; omega
  have hsz : (⟨0, [n, m], n⟩ : MA).size = m := rfl
  have h : ¬ i < m := by omega
  exact ⟨by simp [pyGet, getN, hidx, hsz, h, pyRes], by simp [pySet, pyGet, setN, hidx, hsz, h]⟩

/-- What is given to a row is stored in it, as `C93_set_partial` says of elements: `.@elem.i` with a list of the values
of the row.  If the first of them is refused it is an exception and the row has what that left in its first element. -/
theorem C93_row {E : Type} (lib : Lib) (tr : Nat → Option Nat) (el : El E) (f : J → E) (std : Std) (n m : Nat)
    (hm : 0 < m) (hW : n * m < W) (a : MA) (ha : mkArgs std 0 [n, m] = some a) (mem : List E)
    (hl : mem.length = n * m) (ds : Str) (hd : C93.Dec ds) (hi : valD ds < m) (js : List J) :
    (js.length = n → (∀ j ∈ js, ∀ y, el.dec j y = (true, f j)) →
      let r := procN lib tr el 2 true a (b ".@elem." ++ ds) (.arr [.arr js]) mem
      (∃ v, r.1 = .view v) ∧ r.2 = mem.take (valD ds * n) ++ js.map f ++ mem.drop (valD ds * n + n)) ∧
    (∀ j x y, mem[valD ds * n]? = some x → 0 < n → el.dec j x = (false, y) →
      procN lib tr el 2 true a (b ".@elem." ++ ds) (.arr [.arr (j :: js)]) mem = (.throw, mem.set (valD ds * n) y)) := by
  rw [mk2 std n m hm hW] at ha
  cases ha
  obtain ⟨hne, h, hv⟩ := hd
  have e : b ".@elem." ++ ds = dot :: b "@elem" ++ dot :: (ds ++ []) := by
    rw [List.append_nil]; rfl
  have hp : b ".@elem" <+: b ".@elem." ++ ds := List.IsPrefix.trans ⟨[46], rfl⟩ (List.prefix_append ..)
  have hnp : ¬ b ".@elemNoThrow" <+: b ".@elem." ++ ds := by
    intro hp
    rw [show b ".@elemNoThrow" = b ".@elem" ++ (78 :: b "oThrow") from rfl,
      show b ".@elem." ++ ds = b ".@elem" ++ (46 :: ds) from rfl, List.prefix_append_right_inj,
      List.cons_prefix_cons] at hp
    exact absurd hp.1 (by decide)
  have hel := C43.elemImpl_dec m (b "@elem") ds [] (by decide) h hne (.inl rfl) hv
  rw [← e, if_neg hnp, if_neg (by omega)] at hel
  have hsz : (⟨0, [n, m], n⟩ : MA).size = m := rfl
  have hrow := row_view n m (valD ds) hW hi
  have hin := row_in n m (valD ds) hi
  have hI : inside (⟨valD ds * n, [n], 1⟩ : MA) mem = true := by
    simp only [inside, decide_eq_true_eq]
    show valD ds * n + n ≤ _
    omega
  constructor
  · intro hj hf
    have h1 := conv1 el f (⟨valD ds * n, [n], 1⟩ : MA) mem js (by show valD ds * n + n ≤ _; omega) hj hf
    simp only [procN, if_pos hp, hsz, hel, if_true, hrow, assignN, h1, given]
    exact ⟨⟨_, rfl⟩, rfl⟩
  · intro j x y hx hn hy
    have hs : slice (⟨valD ds * n, [n], 1⟩ : MA) mem = x :: ((mem.drop (valD ds * n)).take n).tail := by
      show (mem.drop (valD ds * n)).take n = _
      obtain ⟨n, rfl⟩ : ∃ q, n = q + 1 := ⟨n - 1, by omega⟩
      cases hd : mem.drop (valD ds * (n + 1)) with
      | nil => have := List.drop_eq_nil_iff.1 hd; rw [List.getElem?_eq_none this] at hx; cases hx
      | cons z zs =>
        have : (mem.drop (valD ds * (n + 1)))[0]? = some x := by simpa using hx
        rw [hd] at this
        simp at this
        subst this
        simp
    have h1 : convN el 1 (⟨valD ds * n, [n], 1⟩ : MA) (.arr (j :: js)) mem = (.throw, mem.set (valD ds * n) y) := by
      simp only [convN, hI, if_true, hs, decAll, hy, Bool.false_eq_true, if_false, Prod.mk.injEq, true_and]
      have hlt : valD ds * n < mem.length := (List.getElem?_eq_some_iff.1 hx).1
      show mem.take (valD ds * n) ++ (y :: ((mem.drop (valD ds * n)).take n).tail) ++ mem.drop (valD ds * n + n) = _
      rw [List.set_eq_take_append_cons_drop, if_pos hlt, List.append_assoc, List.cons_append]
      congr 2
      generalize valD ds * n = k
      obtain ⟨q, rfl⟩ : ∃ q, n = q + 1 := ⟨n - 1, by omega⟩
      have h2 := List.take_append_drop q (mem.drop (k + 1))
      rw [List.drop_drop] at h2
      rw [← List.drop_one, List.drop_take, List.drop_drop, show k + (q + 1) = k + 1 + q by omega]
      exact h2
    simp only [procN, if_pos hp, hsz, hel, if_true, hrow, assignN, h1, given]

/-- An index that is no number is an exception at any depth, and nothing is stored; with pack_errors taken for missing
values it is undefined. -/
theorem C93_index {E : Type} (lib : Lib) (el : El E) (r : Nat) (a : MA) (j i v : J) (js : List J) (mem : List E)
    (hj : ∀ i, j ≠ .int i) :
    (lib.mm.isPack = false → pyGet lib (.wrapper r a) (j :: js) = .error ∧
      pySet lib el (.wrapper r a) [] j v mem = (.error, mem) ∧
      pySet lib el (.wrapper r a) (j :: js) i v mem = (.error, mem)) ∧
    (lib.mm.isPack = true → pyGet lib (.wrapper r a) (j :: js) = .ub ∧
      pySet lib el (.wrapper r a) [] j v mem = (.ub, mem) ∧
      pySet lib el (.wrapper r a) (j :: js) i v mem = (.ub, mem)) := by
  have h : readIdx lib j = if lib.mm.isPack = true then .ub else .throw lib.mm := by
    cases j <;> first | exact absurd rfl (hj _) | rfl
  have he : ∀ js, pyGet lib .error js = .error := by intro js; cases js <;> rfl
  have hu : ∀ js, pyGet lib .ub js = .ub := by intro js; cases js <;> rfl
  constructor <;> intro hp <;> simp [pySet, pyGet, getN, setN, h, hp, pyRes, he, hu]

/-- What follows the indices in a path is left to the element they name, for members of elements that are objects. -/
theorem C93_path {E : Type} (lib : Lib) (tr : Nat → Option Nat) (el : El E) (std : Std) (n m : Nat) (hm : 0 < m)
    (hW : n * m < W) (a : MA) (mem : List E) (t : Str) (ht : t.head? = some 46) (args : J) :
    (∀ ds, mkArgs std 0 [n] = some a → mem.length = n → C93.Dec ds → valD ds < n →
      procN lib tr el 1 true a (b ".@elem." ++ ds ++ t) args mem = (.path (valD ds) t, mem)) ∧
    (∀ ds es, mkArgs std 0 [n, m] = some a → mem.length = n * m → C93.Dec ds → valD ds < m → C93.Dec es → valD es < n →
      procN lib tr el 2 true a (b ".@elem." ++ ds ++ (b ".@elem." ++ es ++ t)) args mem =
        (.path (valD ds * n + valD es) t, mem)) := by
  have key : ∀ (a : MA) (top : Bool) ds, a.data + a.size ≤ mem.length → C93.Dec ds → valD ds < a.size →
      procN lib tr el 1 top a (b ".@elem." ++ ds ++ t) args mem = (.path (a.data + valD ds) t, mem) := by
    intro a top ds hin ⟨hne, h, hv⟩ hs
    have hI : inside a mem = true := by simp [inside, hin]
    have e : b ".@elem." ++ ds ++ t = dot :: b "@elem" ++ dot :: (ds ++ t) := by
      rw [List.append_assoc]; rfl
    have hp : b ".@elem" <+: b ".@elem." ++ ds ++ t := by
      rw [List.append_assoc]
      exact List.IsPrefix.trans ⟨[46], rfl⟩ (List.prefix_append ..)
    have hnp : ¬ b ".@elemNoThrow" <+: b ".@elem." ++ ds ++ t := by
      intro hp
      rw [List.append_assoc, show b ".@elemNoThrow" = b ".@elem" ++ (78 :: b "oThrow") from rfl,
        show b ".@elem." ++ (ds ++ t) = b ".@elem" ++ (46 :: (ds ++ t)) from rfl, List.prefix_append_right_inj,
        List.cons_prefix_cons] at hp
      exact absurd hp.1 (by decide)
    have hi := C43.elemImpl_dec (slice a mem).length (b "@elem") ds t (by decide) h hne (.inr ht) hv
    have htn : t ≠ [] := by rintro rfl; simp at ht
    rw [← e, if_neg hnp, slice_len a mem hin, if_neg (by omega)] at hi
    have hq : seqProcess lib tr el ⟨false, false, false⟩ (b ".@elem." ++ ds ++ t) args (slice a mem) =
        (.path (valD ds) t, slice a mem) := by
      unfold seqProcess
      rw [if_pos hp, slice_len a mem hin, hi]
      simp only [if_neg htn]
    simp only [procN, hI, if_true, hq, ofCO, splice_slice]
  refine ⟨fun ds ha hl hd hv => ?_, fun ds es ha hl hd hv he hw => ?_⟩
  · rw [mk1] at ha; cases ha
    have := key ⟨0, [n], 1⟩ true ds (by show 0 + n ≤ _; omega) hd hv
    simpa using this
  · rw [mk2 std n m hm hW] at ha; cases ha
    rw [step2 lib tr el true _ args mem ds (b ".@elem." ++ es ++ t) hd rfl (by
      rw [List.append_assoc]; exact not_about _), show (⟨0, [n, m], n⟩ : MA).size = m from rfl, if_pos hv, row_view n m _ hW hv]
    exact key ⟨valD ds * n, [n], 1⟩ false es (by show valD ds * n + n ≤ _; have := row_in n m _ hv; omega) he hw

/-- Elements for the examples. -/
def C93.el : El Int := ⟨0, fun j x => match j with | .int i => (true, i) | _ => (false, x),
  fun j x => match j with | .int i => (true, i) | _ => (false, x)⟩

/-- A JSON library for the examples. -/
def C93.lib : Lib := ⟨.lib, 0, fun i => i.toNat, id, id⟩

/-- `int a[2][3]={{0,1,2},{3,4,5}}`: what Python and a path take for `a[1][0]` is `a[0][2]`. -/
example : C93.off [2, 3] [1, 0] = some 3 ∧ C93.off [2, 3] [0, 2] = some 2 ∧
    ∃ a, mkArgs .cpp17 0 [2, 3] = some a ∧
      procN C93.lib some C93.el 2 true a (b ".@elem.1.@elem.0") .null [0, 1, 2, 3, 4, 5]
        = (.ref 2, [0, 1, 2, 3, 4, 5]) ∧
      procN C93.lib some C93.el 2 true a (b ".@elem.0.@elem.2") .null [0, 1, 2, 3, 4, 5]
        = (.throw, [0, 1, 2, 3, 4, 5]) := by
  refine ⟨by decide, by decide, ⟨0, [2, 3], 2⟩, by decide, by decide +kernel, by decide +kernel⟩

/-- A square one. -/
example : C93.Square [2, 2] ∧ C93.Dec (b "1") ∧ C93.Dec (b "0") ∧ C93.off [2, 2] [1, 0] = some 2 ∧
    ∃ a, mkArgs .cpp17 0 [2, 2] = some a ∧
      procN C93.lib some C93.el 2 true a (C93.path [b "1", b "0"]) (.arr [.int 7]) [0, 1, 2, 3]
        = (.ref 2, [0, 1, 7, 3]) ∧
      procN C93.lib some C93.el 2 true a [] (.arr [.arr [.arr [.int 5, .int 6], .arr [.int 7, .int 8]]])
        [0, 1, 2, 3] = (.view a, [5, 6, 7, 8]) ∧
      pySet C93.lib C93.el (.wrapper 2 a) [.int 1] (.int 0) (.int 9) [0, 1, 2, 3] = (.none, [0, 1, 9, 3]) ∧
      pySet C93.lib C93.el (.wrapper 2 a) [] (.int 2) (.int 9) [0, 1, 2, 3] = (.none, [0, 1, 2, 3]) := by
  refine ⟨.inr ⟨2, by decide, rfl⟩, ⟨by decide, by decide, by decide⟩, ⟨by decide, by decide, by decide⟩, by decide,
    ⟨0, [2, 2], 2⟩, by decide, by decide +kernel, by decide +kernel, by decide +kernel, by decide +kernel⟩

example : procN C93.lib some C93.el 2 true ⟨0, [2, 2], 2⟩ (b ".@elem." ++ b "1") (.arr [.arr [.null]]) [0, 1, 2, 3] =
    (.throw, [0, 1, 2, 3]) :=
  (C93_row C93.lib some C93.el (fun _ => 0) .cpp17 2 2 (by decide) (by decide) ⟨0, [2, 2], 2⟩ (by decide) [0, 1, 2, 3] rfl
    (b "1") ⟨by decide, by decide, by decide⟩ (by decide) []).2 .null 2 2 (by decide) (by decide) rfl

example : pySet C93.lib C93.el (.wrapper 2 ⟨0, [2, 2], 2⟩) [.str (b "1")] (.int 0) (.int 9) [0, 1, 2, 3] =
    (.error, [0, 1, 2, 3]) :=
  ((C93_index C93.lib C93.el 2 ⟨0, [2, 2], 2⟩ (.str (b "1")) (.int 0) (.int 9) [] [0, 1, 2, 3] (by simp)).1 rfl).2.2

example (args : J) : procN C93.lib some C93.el 2 true ⟨0, [2, 2], 2⟩ (b ".@elem.1.@elem.0.x") args [0, 1, 2, 3] =
    (.path 2 (b ".x"), [0, 1, 2, 3]) :=
  (C93_path C93.lib some C93.el .cpp17 2 2 (by decide) (by decide) ⟨0, [2, 2], 2⟩ [0, 1, 2, 3] (b ".x") rfl args).2
    (b "1") (b "0") (by decide) rfl ⟨by decide, by decide, by decide⟩ (by decide) ⟨by decide, by decide, by decide⟩
    (by decide)

end Verif.Rest
