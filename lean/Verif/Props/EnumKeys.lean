import Verif.EnumKeys
/-
C19 (enum names and values correspond) and C20 (enums survive textual serialisation).
-/
namespace Verif.EnumKeys
open OMap

/-- An underlying type no wider than `int`. -/
def Narrow (u : Under) : Prop := u.width ≠ .w64

/-- Spec: a declaration C++ accepts: distinct names, values in the underlying type. -/
structure Decl (u : Under) (decl : List (Str × Int)) : Prop where
  names : (decl.map (·.1)).Nodup
  range : ∀ e ∈ decl, InRange u e.2

/-- Spec: the last declared name of a value. -/
def lastName (v : Int) (decl : List (Str × Int)) : Option Str :=
  ((decl.filter fun e => e.2 == v).getLast?).map (·.1)

private theorem ordI : StrictOrd ilt := intOrd

private theorem cast_back {u : Under} (hu : Narrow u) {v : Int} (hv : InRange u v) :
    cast u (cast int32 v) = v := by
  obtain ⟨w, s⟩ := u
  cases w <;> cases s <;>
    simp [cast, int32, InRange, Width.modulus, Narrow] at * <;> omega

private theorem cast_twice {u : Under} (hu : Narrow u) {v : Int} (hv : InRange u v) :
    cast u (cast int32 (cast u (cast int32 v))) = v := by
  rw [cast_back hu hv, cast_back hu hv]

private theorem cast_zero (u : Under) : cast u 0 = 0 := by
  obtain ⟨w, s⟩ := u
  cases w <;> cases s <;> decide

private theorem cast_inj {u : Under} (hu : Narrow u) {v w : Int} (hv : InRange u v)
    (hw : InRange u w) (h : cast int32 v = cast int32 w) : v = w := by
  rw [← cast_back hu hv, h, cast_back hu hw]

/-- the last pair whose first component is `q` -/
private def lastOf {K V : Type} [DecidableEq K] (q : K) : List (K × V) → Option V
  | [] => none
  | (k, v) :: r => (lastOf q r).or (if q = k then some v else none)

private theorem fold_s2v (data : List (Str × Int)) (k : Keys) (q : Str) :
    mfind strLt q (data.foldl addKey k).s2v = (lastOf q data).or (mfind strLt q k.s2v) := by
  induction data generalizing k with
  | nil => simp [lastOf]
  | cons x r ih =>
    obtain ⟨n, v⟩ := x
    rw [List.foldl_cons, ih]
    simp only [addKey, mfind_mput strOrd, lastOf]
    by_cases hq : q = n
    · simp [hq, Option.or_assoc]
    · simp [hq]

private theorem fold_v2s (data : List (Str × Int)) (k : Keys) (q : Int) :
    mfind ilt q (data.foldl addKey k).v2s
      = (lastOf q (data.map fun e => (e.2, e.1))).or (mfind ilt q k.v2s) := by
  induction data generalizing k with
  | nil => simp [lastOf]
  | cons x r ih =>
    obtain ⟨n, v⟩ := x
    rw [List.foldl_cons, ih]
    simp only [addKey, mfind_mput ordI, lastOf, List.map_cons]
    by_cases hq : q = v
    · simp [hq, Option.or_assoc]
    · simp [hq]

private theorem fold_sorted (data : List (Str × Int)) (k : Keys) (h1 : Sorted strLt k.s2v)
    (h2 : Sorted ilt k.v2s) :
    Sorted strLt (data.foldl addKey k).s2v ∧ Sorted ilt (data.foldl addKey k).v2s := by
  induction data generalizing k with
  | nil => exact ⟨h1, h2⟩
  | cons x r ih => exact ih _ (sorted_mput strOrd _ _ _ h1) (sorted_mput ordI _ _ _ h2)

private theorem lastOf_mem {K V : Type} [DecidableEq K] {q : K} {v : V} {l : List (K × V)}
    (h : lastOf q l = some v) : (q, v) ∈ l := by
  induction l with
  | nil => cases h
  | cons x r ih =>
    obtain ⟨k, w⟩ := x
    simp only [lastOf] at h
    cases hr : lastOf q r with
    | some w' =>
      simp [hr] at h; subst h
      exact List.mem_cons_of_mem _ (ih hr)
    | none =>
      simp [hr] at h
      obtain ⟨rfl, rfl⟩ := h
      simp

private theorem lastOf_none {K V : Type} [DecidableEq K] {q : K} {l : List (K × V)} :
    lastOf q l = none ↔ q ∉ l.map (·.1) := by
  induction l with
  | nil => simp [lastOf]
  | cons x r ih =>
    obtain ⟨k, w⟩ := x
    simp only [lastOf, Option.or_eq_none_iff, ih]
    by_cases hq : q = k <;> simp [hq]

private theorem lastOf_nodup {K V : Type} [DecidableEq K] {q : K} {v : V} {l : List (K × V)}
    (hn : (l.map (·.1)).Nodup) (h : (q, v) ∈ l) : lastOf q l = some v := by
  cases hl : lastOf q l with
  | none => exact absurd (List.mem_map.2 ⟨_, h, rfl⟩) (lastOf_none.1 hl)
  | some w =>
    have hw := lastOf_mem hl
    congr 1
    induction l with
    | nil => cases h
    | cons x r ih =>
      simp only [List.map_cons, List.nodup_cons] at hn
      rcases List.mem_cons.1 h with ha | ha <;> rcases List.mem_cons.1 hw with h' | h'
      · rw [← ha] at h'; exact (Prod.mk.inj h').2
      · subst ha; exact absurd (List.mem_map.2 ⟨(q, w), h', rfl⟩) hn.1
      · subst h'; exact absurd (List.mem_map.2 ⟨(q, v), ha, rfl⟩) hn.1
      · apply ih hn.2 ha _ h'
        cases hl2 : lastOf q r with
        | none => exact absurd (List.mem_map.2 ⟨_, ha, rfl⟩) (lastOf_none.1 hl2)
        | some y =>
          obtain ⟨k, z⟩ := x
          simp only [lastOf, hl2, Option.some_or] at hl
          exact hl

private theorem find_name (decl : List (Str × Int)) (q : Str) :
    mfind strLt q (table decl).s2v = lastOf q (keysData decl) := by
  simp [table, mkKeys, fold_s2v, mfind]

private theorem find_value (decl : List (Str × Int)) (q : Int) :
    mfind ilt q (table decl).v2s = lastOf q ((keysData decl).map fun e => (e.2, e.1)) := by
  simp [table, mkKeys, fold_v2s, mfind]

private theorem keysData_names (decl : List (Str × Int)) :
    (keysData decl).map (·.1) = decl.map (·.1) := by
  simp [keysData, Function.comp_def]

private theorem mem_keysData {u : Under} (hu : Narrow u) {decl : List (Str × Int)}
    (hd : Decl u decl) {n : Str} {v : Int} (hv : InRange u v)
    (h : (n, cast int32 v) ∈ keysData decl) : (n, v) ∈ decl := by
  simp only [keysData, List.mem_map] at h
  obtain ⟨e, he, hx⟩ := h
  have h1 := (Prod.mk.inj hx).1
  have h2 := cast_inj hu (hd.range e he) hv (Prod.mk.inj hx).2
  rw [← h1, ← h2]; exact he

private theorem ofName_decl {u : Under} (hu : Narrow u) {decl : List (Str × Int)}
    (hd : Decl u decl) {n : Str} {v : Int} (h : (n, v) ∈ decl) :
    mfind strLt n (table decl).s2v = some (cast int32 v) := by
  rw [find_name]
  exact lastOf_nodup (by rw [keysData_names]; exact hd.names)
    (List.mem_map.2 ⟨(n, v), h, rfl⟩)

/-- C19, names: looking up a declared name yields its value. -/
theorem C19_name {u : Under} (hu : Narrow u) {decl : List (Str × Int)} (hd : Decl u decl)
    (n : Str) (v : Int) (h : (n, v) ∈ decl) : ofName u (table decl) n = v := by
  simp only [ofName, ofName_decl hu hd h]
  exact cast_back hu (hd.range _ h)

private theorem lastOf_lastName {u : Under} (hu : Narrow u) {decl : List (Str × Int)}
    (hr : ∀ e ∈ decl, InRange u e.2) {v : Int} (hv : InRange u v) :
    lastOf (cast int32 v) ((keysData decl).map fun e => (e.2, e.1)) = lastName v decl := by
  induction decl with
  | nil => rfl
  | cons x r ih =>
    obtain ⟨n, w⟩ := x
    have ih := ih (fun e he => hr e (List.mem_cons_of_mem _ he))
    simp only [keysData, List.map_cons, lastOf] at ih ⊢
    rw [ih]
    simp only [lastName]
    by_cases hw : w = v
    · subst hw
      simp only [List.filter_cons_of_pos (p := fun e : Str × Int => e.2 == w) (a := (n, w))
        (l := r) (by simp)]
      rw [List.getLast?_cons]
      cases (List.filter (fun e => e.2 == w) r).getLast? <;> simp
    · have hne : ¬ cast int32 v = cast int32 w := by
        intro e
        exact hw (cast_inj hu hv (hr (n, w) (by simp)) e).symm
      simp only [List.filter_cons_of_neg (p := fun e : Str × Int => e.2 == v) (a := (n, w))
        (l := r) (by simp [hw])]
      simp [hne]

/-- C19, values: looking up a value yields the last declared of its names. -/
theorem C19_value {u : Under} (hu : Narrow u) {decl : List (Str × Int)} (hd : Decl u decl)
    (v : Int) (hv : InRange u v) : nameOf (table decl) v = (lastName v decl).getD [] := by
  simp only [nameOf, nameOfInt, find_value, lastOf_lastName hu hd.range hv]
  cases lastName v decl <;> rfl

/-- C19, both ways: the name found for a declared value is a declared name of that value and
maps back to it. -/
theorem C19_value_name {u : Under} (hu : Narrow u) {decl : List (Str × Int)} (hd : Decl u decl)
    (n : Str) (v : Int) (h : (n, v) ∈ decl) :
    (nameOf (table decl) v, v) ∈ decl
    ∧ ofName u (table decl) (nameOf (table decl) v) = v := by
  have hv := hd.range _ h
  have : (nameOf (table decl) v, v) ∈ decl := by
    rw [C19_value hu hd v hv]
    cases hl : lastName v decl with
    | none =>
      simp only [lastName, Option.map_eq_none_iff, List.getLast?_eq_none_iff,
        List.filter_eq_nil_iff] at hl
      have := hl _ h
      simp at this
    | some m =>
      simp only [lastName, Option.map_eq_some_iff] at hl
      obtain ⟨e, he, rfl⟩ := hl
      have := List.mem_of_getLast? he
      simp only [List.mem_filter, beq_iff_eq] at this
      simp only [Option.getD_some]
      rw [← this.2]; exact this.1
  exact ⟨this, C19_name hu hd _ _ this⟩

/-- C19, unknown names and values. -/
theorem C19_unknown {u : Under} (hu : Narrow u) {decl : List (Str × Int)} (hd : Decl u decl) :
    (∀ n, n ∉ decl.map (·.1) → ofName u (table decl) n = 0 ∧ hasName (table decl) n = false)
    ∧ (∀ v, InRange u v → v ∉ decl.map (·.2) →
        nameOf (table decl) v = [] ∧ hasValue (table decl) v = false) := by
  constructor
  · intro n hn
    have : mfind strLt n (table decl).s2v = none := by
      rw [find_name, lastOf_none, keysData_names]; exact hn
    simp [ofName, hasName, this, cast_zero]
  · intro v hv hn
    have : mfind ilt (cast int32 v) (table decl).v2s = none := by
      rw [find_value, lastOf_lastName hu hd.range hv]
      simp only [lastName, Option.map_eq_none_iff, List.getLast?_eq_none_iff,
        List.filter_eq_nil_iff]
      intro e he hev
      exact hn (List.mem_map.2 ⟨e, he, by simpa using hev⟩)
    simp [nameOf, nameOfInt, hasValue, this]

/-- C19, membership tests: `has` is true exactly of declared names and values. -/
theorem C19_has {u : Under} (hu : Narrow u) {decl : List (Str × Int)} (hd : Decl u decl) :
    (∀ n, hasName (table decl) n = true ↔ n ∈ decl.map (·.1))
    ∧ (∀ v, InRange u v → (hasValue (table decl) v = true ↔ v ∈ decl.map (·.2))) := by
  constructor
  · intro n
    constructor
    · intro h
      refine Decidable.byContradiction fun hn => ?_
      simp [((C19_unknown hu hd).1 n hn).2] at h
    · intro h
      obtain ⟨⟨a, b⟩, he, rfl⟩ := List.mem_map.1 h
      simp [hasName, ofName_decl hu hd he]
  · intro v hv
    constructor
    · intro h
      refine Decidable.byContradiction fun hn => ?_
      simp [((C19_unknown hu hd).2 v hv hn).2] at h
    · intro h
      obtain ⟨⟨a, b⟩, he, rfl⟩ := List.mem_map.1 h
      simp only [hasValue, find_value, lastOf_lastName hu hd.range hv]
      cases hl : lastName b decl with
      | some => rfl
      | none =>
        simp only [lastName, Option.map_eq_none_iff, List.getLast?_eq_none_iff,
          List.filter_eq_nil_iff] at hl
        have := hl _ he
        simp at this

/-- C19, what iterating the keys does deliver: every declared value exactly once, each with
its last declared name, in increasing order of `int(value)` (which for a signed enum is
increasing order of value).  The order of declaration is not kept: `C19_order_fails`. -/
theorem C19_iterate_partial {u : Under} (hu : Narrow u) {decl : List (Str × Int)}
    (hd : Decl u decl) :
    (kvalues u (table decl)).Nodup
    ∧ (∀ v, v ∈ kvalues u (table decl) ↔ v ∈ decl.map (·.2))
    ∧ knames (table decl) = (kvalues u (table decl)).map (nameOf (table decl))
    ∧ ksize (table decl) = (kvalues u (table decl)).length
    ∧ (u.signed = true → (kvalues u (table decl)).Pairwise (· < ·)) := by
  obtain ⟨hs1, hs2⟩ := fold_sorted (keysData decl) ⟨[], []⟩ trivial trivial
  have hs2 : Sorted ilt (table decl).v2s := hs2
  -- every key in the table is int(v) for a declared v
  have key : ∀ e ∈ (table decl).v2s, ∃ v, v ∈ decl.map (·.2) ∧ InRange u v
      ∧ e.1 = cast int32 v := by
    intro e he
    have hf := (mfind_iff_mem ordI hs2 e.1 e.2).2 he
    rw [find_value] at hf
    have hm := lastOf_mem hf
    simp only [keysData, List.map_map, List.mem_map, Function.comp_apply] at hm
    obtain ⟨d, hdm, hde⟩ := hm
    exact ⟨d.2, List.mem_map.2 ⟨d, hdm, rfl⟩, hd.range d hdm, (Prod.mk.inj hde).1.symm⟩
  have back : ∀ e ∈ (table decl).v2s, cast int32 (cast u e.1) = e.1 := by
    intro e he
    obtain ⟨v, _, hr, hev⟩ := key e he
    rw [hev, cast_back hu hr]
  have hkeys := hs2.pairwise
  refine ⟨?_, ?_, ?_, by simp [ksize, kvalues], ?_⟩
  · have hn := hs2.nodup ordI
    unfold kvalues
    have : ∀ l : List (Int × Str), (∀ e ∈ l, cast int32 (cast u e.1) = e.1) →
        (l.map (·.1)).Nodup → (l.map fun e => cast u e.1).Nodup := by
      intro l
      induction l with
      | nil => simp
      | cons x r ih =>
        intro hb hn
        simp only [List.map_cons, List.nodup_cons] at hn ⊢
        refine ⟨?_, ih (fun e he => hb e (List.mem_cons_of_mem _ he)) hn.2⟩
        intro hx
        obtain ⟨e, he, hex⟩ := List.mem_map.1 hx
        apply hn.1
        refine List.mem_map.2 ⟨e, he, ?_⟩
        rw [← hb e (List.mem_cons_of_mem _ he), hex, hb x (by simp)]
    exact this _ back hn
  · intro v
    constructor
    · intro hv
      obtain ⟨e, he, rfl⟩ := List.mem_map.1 hv
      obtain ⟨w, hw, hr, hew⟩ := key e he
      rw [hew, cast_back hu hr]; exact hw
    · intro hv
      obtain ⟨d, hdm, rfl⟩ := List.mem_map.1 hv
      have hr := hd.range d hdm
      have := ((C19_has hu hd).2 d.2 hr).2 (List.mem_map.2 ⟨d, hdm, rfl⟩)
      simp only [hasValue] at this
      obtain ⟨s, hsm⟩ := Option.isSome_iff_exists.1 this
      have := (mfind_iff_mem ordI hs2 _ _).1 hsm
      exact List.mem_map.2 ⟨_, this, cast_back hu hr⟩
  · simp only [knames, kvalues, List.map_map]
    apply List.map_congr_left
    intro e he
    simp only [Function.comp_apply, nameOf, nameOfInt, back e he,
      (mfind_iff_mem ordI hs2 e.1 e.2).2 he]
  · intro hsg
    have hle : ∀ e ∈ (table decl).v2s, cast u e.1 = e.1 := by
      intro e he
      obtain ⟨v, _, hr, hev⟩ := key e he
      rw [hev, cast_back hu hr]
      obtain ⟨w, s⟩ := u
      subst hsg
      cases w <;> simp [cast, int32, InRange, Width.modulus, Narrow] at * <;> omega
    unfold kvalues
    rw [List.map_congr_left hle]
    exact hkeys.imp (by simp [ilt])

/-- C19 is false of the order: `enum {b=2, a=1}` is iterated as a, b. -/
theorem C19_order_fails : ∃ decl : List (Str × Int), Decl int32 decl
    ∧ decl.map (·.2) = [2, 1]
    ∧ knames (table decl) ≠ decl.map (·.1) := by
  refine ⟨[([98], 2), ([97], 1)], ⟨by decide, ?_⟩, rfl, by decide⟩
  intro e he
  simp at he
  rcases he with rfl | rfl <;> simp [InRange, int32, Width.modulus]

/-- C19 is false of enums wider than `int`: the enumerator `x = 2^32` of
`enum class E: long` is found under its name as 0, and shares an entry with `y = 0`. -/
theorem C19_wide_fails : ∃ (u : Under) (decl : List (Str × Int)), Decl u decl
    ∧ ([120], 4294967296) ∈ decl
    ∧ ofName u (table decl) [120] = 0
    ∧ nameOf (table decl) 4294967296 = [121] := by
  refine ⟨⟨.w64, true⟩, [([120], 4294967296), ([121], 0)], ⟨by decide, ?_⟩, by simp, by decide,
    by decide⟩
  intro e he
  simp at he
  rcases he with rfl | rfl <;> simp [InRange, Width.modulus]

/-- An enum with an alias: `enum E: unsigned {a=1, b=3000000000, c=1}`. -/
example : Decl ⟨.w32, false⟩ [([97], 1), ([98], 3000000000), ([99], 1)]
    ∧ Narrow ⟨.w32, false⟩
    ∧ nameOf (table [([97], 1), ([98], 3000000000), ([99], 1)]) 1 = [99]
    ∧ ofName ⟨.w32, false⟩ (table [([97], 1), ([98], 3000000000), ([99], 1)]) [98] = 3000000000 := by
  refine ⟨⟨by decide, ?_⟩, by simp [Narrow], by decide, by decide⟩
  intro e he
  simp at he
  rcases he with rfl | rfl | rfl <;> simp [InRange, Width.modulus]

/-! ### C20 -/

/-- Spec: an identifier contains no white space. -/
def NoSpace (s : Str) : Prop := ∀ c ∈ s, isSpace c = false

/-- C20: the text written for a declared enumerator, with any white space inserted before and
after it, is read back as the same value. -/
theorem C20_roundtrip_partial {u : Under} (hu : Narrow u) {decl : List (Str × Int)} (hd : Decl u decl)
    (hid : ∀ n ∈ decl.map (·.1), NoSpace n)
    (n : Str) (v : Int) (h : (n, v) ∈ decl) (pre post : Str)
    (hpre : ∀ c ∈ pre, isSpace c = true) (hpost : ∀ c ∈ post, isSpace c = true) :
    textRead u (table decl) (pre ++ textWrite (table decl) v ++ post) = v := by
  obtain ⟨hm, hb⟩ := C19_value_name hu hd n v h
  have hns := hid _ (List.mem_map.2 ⟨_, hm, rfl⟩)
  have e : (pre ++ textWrite (table decl) v ++ post).filter (fun c => !isSpace c)
      = nameOf (table decl) v := by
    have e1 : pre.filter (fun c => !isSpace c) = [] :=
      List.filter_eq_nil_iff.2 (by intro c hc; simp [hpre c hc])
    have e2 : post.filter (fun c => !isSpace c) = [] :=
      List.filter_eq_nil_iff.2 (by intro c hc; simp [hpost c hc])
    rw [List.filter_append, List.filter_append, e1, e2, List.append_nil, List.nil_append]
    exact List.filter_eq_self.2 (fun c hc => by rw [hns c hc]; rfl)
  simp only [textRead, handleAssign, enumKeyOfName, e, hb]
  exact cast_back hu (hd.range _ h)

/-- C20 through `operator<<` and `operator>>` of Enum_handle: same, if white space or the end
follows. -/
theorem C20_stream {u : Under} (hu : Narrow u) {decl : List (Str × Int)} (hd : Decl u decl)
    (hid : ∀ n ∈ decl.map (·.1), NoSpace n ∧ n ≠ [])
    (n : Str) (v : Int) (h : (n, v) ∈ decl) (pre post : Str)
    (hpre : ∀ c ∈ pre, isSpace c = true) (hpost : ∀ c ∈ post.head?, isSpace c = true) :
    streamRead u (table decl) (pre ++ (textWrite (table decl) v ++ post)) = v := by
  obtain ⟨hm, hb⟩ := C19_value_name hu hd n v h
  obtain ⟨hns, hne⟩ := hid _ (List.mem_map.2 ⟨_, hm, rfl⟩)
  have e : ((pre ++ (textWrite (table decl) v ++ post)).dropWhile isSpace).takeWhile
      (fun c => !isSpace c) = nameOf (table decl) v := by
    change ((pre ++ (nameOf (table decl) v ++ post)).dropWhile isSpace).takeWhile _ = _
    generalize nameOf (table decl) v = nm at *
    rw [List.dropWhile_append_of_pos hpre]
    cases nm with
    | nil => exact absurd rfl hne
    | cons c r =>
      have hc := hns c (by simp)
      rw [List.cons_append, List.dropWhile_cons_of_neg (by simp [hc]), ← List.cons_append,
        List.takeWhile_append_of_pos (by intro a ha; simp [hns a ha])]
      cases post with
      | nil => simp
      | cons d s => simp [hpost d (by simp)]
  simp only [streamRead, handleAssign, enumKeyOfName, e, hb]
  exact cast_back hu (hd.range _ h)

/-- C20 for enums wider than `int` is false: the declared value 2^32 comes back as 0. -/
theorem C20_wide_fails : ∃ (u : Under) (decl : List (Str × Int)), Decl u decl
    ∧ ([120], 4294967296) ∈ decl
    ∧ textRead u (table decl) (textWrite (table decl) 4294967296) = 0 := by
  refine ⟨⟨.w64, true⟩, [([120], 4294967296)], ⟨by decide, ?_⟩, by simp, by decide⟩
  intro e he
  simp at he
  subst he; simp [InRange, Width.modulus]

/-- A value that is not an enumerator (for instance flags or-ed together) is written as the
empty string and read back as 0: the textual form only carries declared enumerators. -/
theorem C20_undeclared_lost {u : Under} (hu : Narrow u) {decl : List (Str × Int)}
    (hd : Decl u decl) (hid : [] ∉ decl.map (·.1))
    (v : Int) (hv : InRange u v) (h : v ∉ decl.map (·.2)) :
    textWrite (table decl) v = [] ∧ textRead u (table decl) (textWrite (table decl) v) = 0 := by
  have h1 : textWrite (table decl) v = [] := ((C19_unknown hu hd).2 v hv h).1
  refine ⟨h1, ?_⟩
  have h2 := ((C19_unknown hu hd).1 [] hid).1
  rw [h1]
  simp only [textRead, handleAssign, enumKeyOfName, List.filter_nil, h2]
  rw [show cast int32 0 = 0 from cast_zero int32, cast_zero]

/-- Hypotheses met: `enum E: unsigned char {red, green=200, verde=200}`. -/
example : textRead ⟨.w8, false⟩ (table [([114], 0), ([103], 200), ([118], 200)])
      ([32, 10] ++ textWrite (table [([114], 0), ([103], 200), ([118], 200)]) 200 ++ [32]) = 200
    ∧ streamRead ⟨.w8, false⟩ (table [([114], 0), ([103], 200), ([118], 200)])
      ([32, 10] ++ (textWrite (table [([114], 0), ([103], 200), ([118], 200)]) 200 ++ [32, 65])) = 200
    ∧ Decl ⟨.w8, false⟩ [([114], 0), ([103], 200), ([118], 200)] := by
  refine ⟨by decide, by decide, by decide, ?_⟩
  intro e he
  simp at he
  rcases he with rfl | rfl | rfl <;> simp [InRange, Width.modulus]

end Verif.EnumKeys
