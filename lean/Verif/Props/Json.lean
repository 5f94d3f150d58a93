import Verif.JsonSub
/-! C21–C24: JSON serialisation. -/
namespace Verif.Json
open OMap EnumKeys

/-! ### C21 -/

/-- Spec: taking the tail and going on with the head, until nothing is left. -/
def visit : Nat → Str → List Str
  | 0, _ => []
  | n + 1, s => if s = [] then [] else tail s :: visit n (head s)

/-- C21: head and tail visit exactly the names of a path, last first. -/
theorem C21_visits (cs : List Str) (hd : DotFrees cs) (n : Nat) (hn : cs.length ≤ n) :
    visit n (render cs) = cs.reverse := by
  induction n generalizing cs with
  | zero =>
    have : cs = [] := List.length_eq_zero_iff.1 (by omega)
    subst this; rfl
  | succ n ih =>
    rcases List.eq_nil_or_concat cs with rfl | ⟨cs', c, rfl⟩
    · rfl
    · rw [List.concat_eq_append] at *
      have hc : DotFree c := hd c (by simp)
      unfold visit
      rw [if_neg render_ne, tail_render hc, head_render hc,
        ih cs' (fun a ha => hd a (by simp [ha])) (by simp at hn; omega)]
      simp

/-- C21: every string beginning with a dot is the path of exactly one list of names. -/
theorem C21_decomposes (s : Str) : ∃ cs, (DotFrees cs ∧ dot :: s = render cs) ∧
    ∀ cs', DotFrees cs' ∧ dot :: s = render cs' → cs' = cs := by
  obtain ⟨cs, hd, h⟩ := split_exists s
  exact ⟨cs, ⟨hd, h⟩, fun cs' h' => render_inj h'.1 hd (h'.2.symm.trans h)⟩

/-- C21: json_find follows the names one by one, with or without a dot in front. -/
theorem C21_find (x : J) (cs : List Str) (hd : DotFrees cs) :
    find x (render cs) = walk x cs ∧
      (∀ c r, cs = c :: r → c ≠ [] → find x (c ++ render r) = walk x cs) :=
  ⟨find_render hd x, fun c r e hc => by subst e; exact find_bare hd hc x⟩

/-- C21: a basic value stored at a path whose parent is an object is found there afterwards;
what other paths lead to is unchanged, and nothing is found below it. -/
theorem C21_store_find_partial (o : JP) (hw : WF o.v) (cs : List Str) (k : Str) (hp : PathOk (cs ++ [k]))
    (m : List (Str × J)) (hx : walk o.v cs = .ok (.obj m)) (j : J) (hj : ∀ m', j ≠ .obj m') :
    ∃ o', packLeaf o (render (cs ++ [k])) j = .ok o' ∧
      find o'.v (render (cs ++ [k])) = .ok j ∧
      (∀ q, DotFrees q → Apart (cs ++ [k]) q → find o'.v (render q) = find o.v (render q)) ∧
      (∀ q, q ≠ [] → DotFrees q → find o'.v (render ((cs ++ [k]) ++ q)) = .throw .packErr) := by
  refine ⟨_, packLeaf_mem hp hx j, ?_, ?_, ?_⟩
  · rw [find_render hp.dots, walk_snoc (walk_replace hw hx), mfind_mput strOrd, if_pos rfl]
  · intro q hq ha
    rw [find_render hq, find_render hq]
    by_cases hpre : cs <+: q
    · obtain ⟨r, rfl⟩ := hpre
      rw [walk_append, walk_append, walk_replace hw hx, hx]
      simp only [R.bind]
      cases r with
      | nil => exact absurd (by simp) ha.2
      | cons c r =>
        simp only [walk]
        rw [mfind_mput strOrd, if_neg]
        rintro rfl
        exact ha.1 (by simp)
    · refine walk_replace_apart hw ⟨hpre, fun h => ha.2 (h.trans (by simp))⟩
  · intro q hq hd
    rw [find_render (dotFrees_append hp.dots hd), walk_append,
      walk_snoc (walk_replace hw hx), mfind_mput strOrd, if_pos rfl]
    simp only [R.bind]
    cases q with
    | nil => exact absurd rfl hq
    | cons c q =>
      cases j with
      | obj m' => exact absurd rfl (hj m')
      | _ => rfl

/-- C21 does not hold for a name without a dot: json_pack(o,"x",v) stores nothing. -/
theorem C21_undotted_fails (o : JP) (hf : o.throwOnNotFound = false) (m : List (Str × J))
    (hv : o.v = .obj m) (k : Str) (hk : DotFree k ∧ k ≠ []) (hn : mfind strLt k m = none) (j : J) :
    packLeaf o k j = .ok o ∧ find o.v k = .throw .notFound := by
  have e : find o.v k = .throw .notFound := by
    have := find_bare (c := k) (cs := []) (one_dotFree hk.1) hk.2 o.v
    simp only [render, List.append_nil] at this
    rw [this, hv]
    simp only [walk, hn]
  refine ⟨?_, e⟩
  have ho : o.objectify = o := by unfold JP.objectify; rw [hv]
  unfold packLeaf
  rw [if_neg hk.2, ho, head_bare hk.1]
  simp only [e, hf]
  rfl

example : visit 9 (render [[97], [98, 99], [100]]) = [[100], [98, 99], [97]] := by decide
example : PathOk ([[97]] ++ [[98]]) ∧ walk (.obj [([97], .obj [])]) [[97]] = .ok (.obj []) :=
  ⟨by intro c hc; simp at hc; rcases hc with rfl | rfl <;> simp [DotFree, dot], by
    simp [walk, mfind, strOrd.irrefl]⟩

/-! ### C22 -/

/-- C22: packing into an empty buffer and unpacking, whatever the destination holds, restores the
value, excluded and const members apart. -/
theorem C22_roundtrip_partial (lib : Lib) (hl : ∀ r, lib.narrow (lib.widen r) = r)
    (t : JT) (hk : Ok .root t) (v : JV) (hv : Rep lib t v) :
    ∃ o, packJ lib t (.mk' .null) [] v = .ok o ∧
      ∀ (toe tonf : Bool) (dst : JV), Typed t dst →
        unpackJ lib t ⟨o.v, toe, tonf⟩ [] dst = (.ok, restore t v dst) := by
  obtain ⟨o, h1, h2⟩ := pack_root lib t v (.mk' .null) hk hv root_free
  refine ⟨o, h1, fun toe tonf dst hd => ?_⟩
  exact unpack_at hl t v dst .root ⟨o.v, toe, tonf⟩ [] hk hv hd (fun c hc => by simp at hc)
    (by simp only [walk]; rw [h2])

/-- C22: without excluded or const members the value itself is restored. -/
theorem C22_equal_partial (lib : Lib) (hl : ∀ r, lib.narrow (lib.widen r) = r)
    (t : JT) (hk : Ok .root t) (hp : Plain t) (v : JV) (hv : Rep lib t v) :
    ∃ o, packJ lib t (.mk' .null) [] v = .ok o ∧
      ∀ (toe tonf : Bool) (dst : JV), Typed t dst →
        unpackJ lib t ⟨o.v, toe, tonf⟩ [] dst = (.ok, v) := by
  obtain ⟨o, h1, h2⟩ := C22_roundtrip_partial lib hl t hk v hv
  refine ⟨o, h1, fun toe tonf dst hd => ?_⟩
  rw [h2 toe tonf dst hd, restore_plain lib t v dst hp hv hd]

/-- C22: the same for a member at any path of an existing document, whose other parts stay. -/
theorem C22_member_partial (lib : Lib) (hl : ∀ r, lib.narrow (lib.widen r) = r)
    (t : JT) (hk : Ok .slot t) (v : JV) (hv : Rep lib t v) (o : JP) (hw : WF o.v)
    (cs : List Str) (k : Str) (hp : PathOk (cs ++ [k])) (m : List (Str × J))
    (hx : walk o.v cs = .ok (.obj m)) (hn : mfind strLt k m = none) :
    ∃ o', packJ lib t o (render (cs ++ [k])) v = .ok o' ∧
      (∀ q, DotFrees q → Apart (cs ++ [k]) q → find o'.v (render q) = find o.v (render q)) ∧
      ∀ (dst : JV), Typed t dst →
        unpackJ lib t o' (render (cs ++ [k])) dst = (.ok, restore t v dst) := by
  refine ⟨_, pack_mem lib t v .slot o cs k m hk hv hp hw hx (.inl ⟨rfl, hn⟩), ?_, ?_⟩
  · intro q hq ha
    rw [find_render hq, find_render hq]
    by_cases hpre : cs <+: q
    · obtain ⟨r, rfl⟩ := hpre
      rw [walk_append, walk_append, walk_replace hw hx, hx]
      simp only [R.bind]
      cases r with
      | nil => exact absurd (by simp) ha.2
      | cons c r =>
        simp only [walk]
        rw [mfind_mput strOrd, if_neg]
        rintro rfl
        exact ha.1 (by simp)
    · exact walk_replace_apart hw ⟨hpre, fun h => ha.2 (h.trans (by simp))⟩
  · intro dst hd
    exact unpack_at hl t v dst .slot _ (cs ++ [k]) hk hv hd hp
      (by rw [walk_snoc (walk_replace hw hx), mfind_mput strOrd, if_pos rfl])

/-- A library in which floats are doubles. -/
def lib0 : Lib := ⟨.lib, 0, fun i => i.toNat, id, id⟩

def i32 : JT := .int ⟨.w32, true⟩
def sa : Str := [97]
def sb : Str := [98]

/-- C22 fails: a std::pair member of a class is lost. -/
theorem C22_pair_member_fails : ∃ o,
    packJ lib0 (.struct (.mem sa (.pair i32 i32) .nil)) (.mk' .null) []
      (.pair (.pair (.int 1) (.int 2)) .unit) = .ok o ∧
    unpackJ lib0 (.struct (.mem sa (.pair i32 i32) .nil)) o []
      (.pair (.pair (.int 0) (.int 0)) .unit) = (.ok, .pair (.pair (.int 0) (.int 0)) .unit) := by
  refine ⟨⟨.obj [], false, false⟩, ?_, ?_⟩ <;> rfl

/-- C22 fails: a map whose values are pairs loses them. -/
theorem C22_map_to_pair_fails : ∃ o,
    packJ lib0 (.assoc (fun _ _ => true) false (.pair .real (.pair .real .real))) (.mk' .null) []
      (.seq [.pair (.real 7) (.pair (.real 1) (.real 2))]) = .ok o ∧
    unpackJ lib0 (.assoc (fun _ _ => true) false (.pair .real (.pair .real .real))) o [] (.seq [])
      = (.ok, .seq [.pair (.real 7) (.pair (.real 0) (.real 0))]) := by
  refine ⟨_, rfl, ?_⟩
  rfl

/-- C22 fails: in a StringKeyMap of class objects the one with the empty key is lost. -/
theorem C22_empty_key_fails : ∃ o,
    packJ lib0 (.smap (.struct (.mem sa i32 .nil))) (.mk' .null) []
      (.kv [([], .pair (.int 1) .unit)]) = .ok o ∧
    unpackJ lib0 (.smap (.struct (.mem sa i32 .nil))) o [] (.kv []) = (.ok, .kv []) := by
  refine ⟨⟨.obj [], false, false⟩, ?_, ?_⟩ <;> rfl

/-- C22 fails for keys with dots, which the statement leaves out. -/
theorem C22_dotted_key_fails : ∃ o,
    packJ lib0 (.smap i32) (.mk' .null) [] (.kv [([97, 46, 98], .int 1)]) = .ok o ∧
    unpackJ lib0 (.smap i32) o [] (.kv []) = (.ok, .kv []) := by
  refine ⟨⟨.obj [], false, false⟩, ?_, ?_⟩ <;> rfl

/-- C22 fails: a null pointer to a class object comes back as a default object. -/
theorem C22_null_pointer_fails : ∃ o,
    packJ lib0 (.struct (.mem sa (.ptr (.struct (.mem sb i32 .nil))) .nil)) (.mk' .null) []
      (.pair .null .unit) = .ok o ∧
    unpackJ lib0 (.struct (.mem sa (.ptr (.struct (.mem sb i32 .nil))) .nil)) o []
      (.pair .null .unit) = (.ok, .pair (.ptr (.pair (.int 0) .unit)) .unit) := by
  refine ⟨_, rfl, ?_⟩
  rfl

/-- A non-trivial type and value the round trip is proved for: a class with a base class, a
vector of classes, a map with integer keys, an array, a pointer to a pair and a StringKeyMap. -/
def bigT : JT := .struct
  (.base (.struct (.mem [120] .bool .nil))
  (.mem sa (.seq (.struct (.mem sa i32 .nil)))
  (.mem sb (.carr [2, 2] i32)
  (.mem [99] (.ptr (.pair i32 .str))
  (.mem [100] (.smap (.seq i32))
  (.mem [101] (.excl .unit) .nil))))))
def bigV : JV := .pair (.pair (.bool true) .unit)
  (.pair (.seq [.pair (.int 1) .unit, .pair (.int (-2)) .unit])
  (.pair (.seq [.int 1, .int 2, .int 3, .int 4])
  (.pair (.ptr (.pair (.int 5) (.str [104])))
  (.pair (.kv [(sa, .seq [.int 1]), (sb, .seq [])])
  (.pair .unit .unit)))))

example : Ok .root bigT := by
  simp [bigT, Ok, OkF, OkB, keysF, keysB, isExcl, DotFree, dot, sa, sb, i32]
example : Rep lib0 bigT bigV := by
  have hi : ∀ i : Int, -2147483648 ≤ i → i < 2147483648 → Rep lib0 i32 (.int i) := by
    intro i h1 h2
    exact ⟨i, rfl, by simp [InRange, Width.modulus]; omega⟩
  refine ⟨_, _, rfl, ⟨_, _, rfl, ⟨true, rfl⟩, rfl⟩, _, _, rfl, ⟨_, rfl, ?_⟩, _, _, rfl,
    ⟨_, rfl, rfl, ?_⟩, _, _, rfl, .inr ⟨_, rfl, _, _, rfl, hi 5 (by decide) (by decide), _, rfl⟩,
    _, _, rfl, ⟨_, rfl, ?_, ?_, ?_⟩, _, _, rfl, trivial, rfl⟩
  · intro x hx
    simp at hx
    rcases hx with rfl | rfl <;> exact ⟨_, _, rfl, hi _ (by decide) (by decide), rfl⟩
  · intro x hx
    simp at hx
    rcases hx with rfl | rfl | rfl | rfl <;> exact hi _ (by decide) (by decide)
  · simp [Sorted, sa, sb, strLt]
  · intro e he
    simp at he
    rcases he with rfl | rfl <;> simp [DotFree, dot, sa, sb]
  · intro e he
    simp at he
    rcases he with rfl | rfl
    · refine ⟨_, rfl, fun x hx => ?_⟩
      simp at hx; subst hx
      exact hi _ (by decide) (by decide)
    · exact ⟨_, rfl, by simp⟩

/-! ### C23 -/

mutual
/-- Spec: the paths and types of what a class object consists of. -/
def leavesT : List Str → JT → List (List Str × JT)
  | p, .struct fs => leavesF p fs
  | p, t => [(p, t)]
def leavesF : List Str → Fs → List (List Str × JT)
  | _, .nil => []
  | p, .mem k t r => leavesT (p ++ [k]) t ++ leavesF p r
  | p, .base t r => leavesT p t ++ leavesF p r
end

mutual
/-- Spec: the values of what a class object consists of. -/
def valsT : JT → JV → List JV
  | .struct fs, v => valsF fs v
  | _, v => [v]
def valsF : Fs → JV → List JV
  | .nil, _ => []
  | .mem _ t r, v => valsT t v.fst ++ valsF r v.snd
  | .base t r, v => valsT t v.fst ++ valsF r v.snd
end

/-- Basic types and containers. -/
def isMember : JT → Bool
  | .bool | .int _ | .real | .flt | .char | .str => true
  | .seq _ | .arr _ _ | .carr _ _ | .assoc _ _ _ => true
  | _ => false

/-- Spec: the new value of a member: what is in the document, or the old value. -/
def newVal (lib : Lib) (o : JP) (e : List Str × JT) (old : JV) : JV :=
  match walk o.v e.1 with
  | .ok j => (unpackJ lib e.2 { o with v := j } [] old).2
  | _ => old

def Present (o : JP) (e : List Str × JT) : Prop := ∃ j, walk o.v e.1 = .ok j

/-- Where the document has a value for a member, it can be read. -/
def Readable (lib : Lib) (o : JP) (e : (List Str × JT) × JV) : Prop :=
  isMember e.1.2 = true ∧ Named e.1.2 ∧ DotFrees e.1.1 ∧
    ∀ j, walk o.v e.1.1 = .ok j → (unpackJ lib e.1.2 { o with v := j } [] e.2).1 = .ok

private theorem walk_err (x : J) (cs : List Str) :
    (∃ j, walk x cs = .ok j) ∨ ∃ e, walk x cs = .throw e ∧ e.isPack = true := by
  induction cs generalizing x with
  | nil => exact .inl ⟨x, rfl⟩
  | cons c cs ih =>
    cases x with
    | obj m =>
      simp only [walk]
      cases mfind strLt c m with
      | none => exact .inr ⟨_, rfl, rfl⟩
      | some y => exact ih y
    | _ => exact .inr ⟨_, rfl, rfl⟩

private theorem member_missing (lib : Lib) {t : JT} (ht : isMember t = true) {o : JP}
    {cs : List Str} (hd : DotFrees cs) {e : Err} (he : walk o.v cs = .throw e)
    (hp : e.isPack = true) (dst : JV) :
    unpackJ lib t o (render cs) dst = if o.throwOnError then (.throw e, dst) else (.ok, dst) := by
  have hf : find o.v (render cs) = .throw e := by rw [find_render hd, he]
  cases ho : o.throwOnError <;> cases t <;> simp [isMember] at ht <;>
    simp [unpackJ, unpackLeaf, unSeq, hf, R.bind, catchU, hp, ho]

private theorem leaf_step (lib : Lib) (o : JP) (e : List Str × JT) (old : JV)
    (h : Readable lib o (e, old)) :
    ((unpackJ lib e.2 o (render e.1) old).1 = .ok ↔ (o.throwOnError = false ∨ Present o e)) ∧
    ((unpackJ lib e.2 o (render e.1) old).1 = .ok →
      (unpackJ lib e.2 o (render e.1) old).2 = newVal lib o e old) ∧
    ((unpackJ lib e.2 o (render e.1) old).1 ≠ .ok →
      ∃ x, x.isPack = true ∧ (unpackJ lib e.2 o (render e.1) old).1 = .throw x) := by
  obtain ⟨h1, h2, h3, h4⟩ := h
  simp only at h1 h2 h3 h4
  rcases walk_err o.v e.1 with ⟨j, hj⟩ | ⟨x, hx, hp⟩
  · have hs := unpack_sub lib e.2 o e.1 old j h2 h3 hj
    rw [hs]
    have hok := h4 j hj
    refine ⟨⟨fun _ => .inr ⟨j, hj⟩, fun _ => hok⟩, fun _ => ?_, fun hn => absurd hok hn⟩
    simp only [newVal, hj]
  · have hm := member_missing lib h1 h3 hx hp old
    rw [hm]
    have hnp : ¬ Present o e := by rintro ⟨j, hj⟩; rw [hx] at hj; cases hj
    cases ho : o.throwOnError with
    | true =>
      simp only [if_true]
      refine ⟨⟨fun h => (by simp at h), fun h => ?_⟩, fun h => (by simp at h), fun _ => ⟨x, hp, rfl⟩⟩
      rcases h with h | h
      · simp at h
      · exact absurd h hnp
    | false =>
      simp only [Bool.false_eq_true, if_false]
      refine ⟨⟨fun _ => .inl trivial, fun _ => trivial⟩, fun _ => ?_, fun h => absurd rfl h⟩
      simp only [newVal, hx]

private theorem zip_append_of {α β : Type} {a b : List α} {c d : List β} (h : a.length = c.length) :
    (a ++ b).zip (c ++ d) = a.zip c ++ b.zip d := by
  rw [List.zip_append h]

private theorem struct_shape {t : JT} (h : ∀ fs, t ≠ .struct fs) (p : List Str) (v : JV) :
    leavesT p t = [(p, t)] ∧ valsT t v = [v] := by
  cases t with
  | struct fs => exact absurd rfl (h fs)
  | _ => exact ⟨by unfold leavesT; rfl, by unfold valsT; rfl⟩

mutual
private theorem len_T : ∀ (t : JT) (p : List Str) (v : JV), (leavesT p t).length = (valsT t v).length
  | .struct fs, p, v => by unfold leavesT valsT; exact len_F fs p v
  | .bool, p, v => by unfold leavesT valsT; rfl
  | .int _, p, v => by unfold leavesT valsT; rfl
  | .real, p, v => by unfold leavesT valsT; rfl
  | .flt, p, v => by unfold leavesT valsT; rfl
  | .char, p, v => by unfold leavesT valsT; rfl
  | .str, p, v => by unfold leavesT valsT; rfl
  | .enum _ _, p, v => by unfold leavesT valsT; rfl
  | .seq _, p, v => by unfold leavesT valsT; rfl
  | .arr _ _, p, v => by unfold leavesT valsT; rfl
  | .carr _ _, p, v => by unfold leavesT valsT; rfl
  | .assoc _ _ _, p, v => by unfold leavesT valsT; rfl
  | .smap _, p, v => by unfold leavesT valsT; rfl
  | .pair _ _, p, v => by unfold leavesT valsT; rfl
  | .tuple _, p, v => by unfold leavesT valsT; rfl
  | .ptr _, p, v => by unfold leavesT valsT; rfl
  | .excl _, p, v => by unfold leavesT valsT; rfl
  | .cst _, p, v => by unfold leavesT valsT; rfl
private theorem len_F : ∀ (fs : Fs) (p : List Str) (v : JV),
    (leavesF p fs).length = (valsF fs v).length
  | .nil, p, v => by unfold leavesF valsF; rfl
  | .mem k t r, p, v => by
    unfold leavesF valsF; simp only [List.length_append]; rw [len_T t, len_F r]
  | .base t r, p, v => by
    unfold leavesF valsF; simp only [List.length_append]; rw [len_T t, len_F r]
end

/-- What the two statements about a sequence of steps have in common. -/
private def Flat (lib : Lib) (o : JP) (ls : List (List Str × JT)) (old new : List JV) (r : Oc) :
    Prop :=
  (r = .ok ↔ (o.throwOnError = false ∨ ∀ e ∈ ls, Present o e)) ∧
  (r = .ok → new = List.zipWith (newVal lib o) ls old) ∧
  (r ≠ .ok → ∃ x, x.isPack = true ∧ r = .throw x)

private theorem Flat.single {lib : Lib} {o : JP} {e : List Str × JT} {old : JV}
    (h : Readable lib o (e, old)) :
    Flat lib o [e] [old] [(unpackJ lib e.2 o (render e.1) old).2]
      (unpackJ lib e.2 o (render e.1) old).1 := by
  obtain ⟨h1, h2, h3⟩ := leaf_step lib o e old h
  refine ⟨?_, fun hr => ?_, h3⟩
  · rw [h1]; simp
  · rw [h2 hr]; rfl

private theorem Flat.seq {lib : Lib} {o : JP} {l1 l2 : List (List Str × JT)}
    {v1 v2 w1 w2 : List JV} {r1 r2 : Oc} (hl : l1.length = v1.length)
    (h1 : Flat lib o l1 v1 w1 r1) (h2 : Flat lib o l2 v2 w2 r2) (hr : r1 = .ok) :
    Flat lib o (l1 ++ l2) (v1 ++ v2) (w1 ++ w2) r2 := by
  obtain ⟨a1, b1, c1⟩ := h1
  obtain ⟨a2, b2, c2⟩ := h2
  refine ⟨?_, fun h => ?_, c2⟩
  · rw [a2]
    constructor
    · rintro (h | h)
      · exact .inl h
      · rcases a1.1 hr with h' | h'
        · exact .inl h'
        · refine .inr fun e he => ?_
          rcases List.mem_append.1 he with he | he
          · exact h' e he
          · exact h e he
    · rintro (h | h)
      · exact .inl h
      · exact .inr fun e he => h e (List.mem_append.2 (.inr he))
  · rw [b1 hr, b2 h, List.zipWith_append hl]

private theorem Flat.stop {lib : Lib} {o : JP} {l1 l2 : List (List Str × JT)}
    {v1 v2 w1 w2 : List JV} {r1 : Oc}
    (h1 : Flat lib o l1 v1 w1 r1) (hr : r1 ≠ .ok) :
    Flat lib o (l1 ++ l2) (v1 ++ v2) w2 r1 := by
  obtain ⟨a1, b1, c1⟩ := h1
  refine ⟨⟨fun h => absurd h hr, fun h => absurd (a1.2 ?_) hr⟩, fun h => absurd h hr, c1⟩
  rcases h with h | h
  · exact .inl h
  · exact .inr fun e he => h e (List.mem_append.2 (.inl he))

mutual
private theorem flat_T (lib : Lib) : ∀ (t : JT) (o : JP) (p : List Str) (dst : JV),
    (∀ e ∈ (leavesT p t).zip (valsT t dst), Readable lib o e) →
    Flat lib o (leavesT p t) (valsT t dst) (valsT t (unpackJ lib t o (render p) dst).2)
      (unpackJ lib t o (render p) dst).1
  | .struct fs, o, p, dst, h => by
    unfold leavesT valsT at h ⊢
    simp only [unpackJ]
    exact flat_F lib fs o p dst h
  | .bool, o, p, dst, h => by
    unfold leavesT valsT at h ⊢; exact Flat.single (e := (p, .bool)) (h _ (by simp))
  | .int u, o, p, dst, h => by
    unfold leavesT valsT at h ⊢; exact Flat.single (e := (p, .int u)) (h _ (by simp))
  | .real, o, p, dst, h => by
    unfold leavesT valsT at h ⊢; exact Flat.single (e := (p, .real)) (h _ (by simp))
  | .flt, o, p, dst, h => by
    unfold leavesT valsT at h ⊢; exact Flat.single (e := (p, .flt)) (h _ (by simp))
  | .char, o, p, dst, h => by
    unfold leavesT valsT at h ⊢; exact Flat.single (e := (p, .char)) (h _ (by simp))
  | .str, o, p, dst, h => by
    unfold leavesT valsT at h ⊢; exact Flat.single (e := (p, .str)) (h _ (by simp))
  | .enum a b, o, p, dst, h => by
    unfold leavesT valsT at h ⊢; exact Flat.single (e := (p, .enum a b)) (h _ (by simp))
  | .seq a, o, p, dst, h => by
    unfold leavesT valsT at h ⊢; exact Flat.single (e := (p, .seq a)) (h _ (by simp))
  | .arr a b, o, p, dst, h => by
    unfold leavesT valsT at h ⊢; exact Flat.single (e := (p, .arr a b)) (h _ (by simp))
  | .carr a b, o, p, dst, h => by
    unfold leavesT valsT at h ⊢; exact Flat.single (e := (p, .carr a b)) (h _ (by simp))
  | .assoc a b c, o, p, dst, h => by
    unfold leavesT valsT at h ⊢; exact Flat.single (e := (p, .assoc a b c)) (h _ (by simp))
  | .smap a, o, p, dst, h => by
    unfold leavesT valsT at h ⊢; exact Flat.single (e := (p, .smap a)) (h _ (by simp))
  | .pair a b, o, p, dst, h => by
    unfold leavesT valsT at h ⊢; exact Flat.single (e := (p, .pair a b)) (h _ (by simp))
  | .tuple a, o, p, dst, h => by
    unfold leavesT valsT at h ⊢; exact Flat.single (e := (p, .tuple a)) (h _ (by simp))
  | .ptr a, o, p, dst, h => by
    unfold leavesT valsT at h ⊢; exact Flat.single (e := (p, .ptr a)) (h _ (by simp))
  | .excl a, o, p, dst, h => by
    unfold leavesT valsT at h ⊢; exact Flat.single (e := (p, .excl a)) (h _ (by simp))
  | .cst a, o, p, dst, h => by
    unfold leavesT valsT at h ⊢; exact Flat.single (e := (p, .cst a)) (h _ (by simp))
private theorem flat_F (lib : Lib) : ∀ (fs : Fs) (o : JP) (p : List Str) (dst : JV),
    (∀ e ∈ (leavesF p fs).zip (valsF fs dst), Readable lib o e) →
    Flat lib o (leavesF p fs) (valsF fs dst) (valsF fs (unpackF lib fs o (render p) dst).2)
      (unpackF lib fs o (render p) dst).1
  | .nil, o, p, dst, h => by
    unfold leavesF valsF
    simp only [unpackF]
    exact ⟨by simp, fun _ => rfl, fun h => absurd rfl h⟩
  | .mem k t r, o, p, dst, h => by
    unfold leavesF valsF at h
    have hl := len_T t (p ++ [k]) dst.fst
    rw [List.zip_append hl] at h
    have i1 := flat_T lib t o (p ++ [k]) dst.fst (fun e he => h e (by simp [he]))
    have i2 := flat_F lib r o p dst.snd (fun e he => h e (by simp [he]))
    simp only [unpackF]
    rw [show render p ++ dot :: k = render (p ++ [k]) from by rw [render_append]; simp [render]]
    generalize hu : unpackJ lib t o (render (p ++ [k])) dst.fst = u at i1 ⊢
    obtain ⟨oc, y⟩ := u
    cases oc with
    | ok =>
      simp only [leavesF, valsF, JV.fst, JV.snd]
      exact Flat.seq hl i1 i2 rfl
    | throw e =>
      simp only [leavesF, valsF]
      exact Flat.stop i1 (by simp)
    | ub =>
      simp only [leavesF, valsF]
      exact Flat.stop i1 (by simp)
  | .base t r, o, p, dst, h => by
    unfold leavesF valsF at h
    have hl := len_T t p dst.fst
    rw [List.zip_append hl] at h
    have i1 := flat_T lib t o p dst.fst (fun e he => h e (by simp [he]))
    have i2 := flat_F lib r o p dst.snd (fun e he => h e (by simp [he]))
    simp only [unpackF]
    generalize hu : unpackJ lib t o (render p) dst.fst = u at i1 ⊢
    obtain ⟨oc, y⟩ := u
    cases oc with
    | ok =>
      simp only [leavesF, valsF, JV.fst, JV.snd]
      exact Flat.seq hl i1 i2 rfl
    | throw e =>
      simp only [leavesF, valsF]
      exact Flat.stop i1 (by simp)
    | ub =>
      simp only [leavesF, valsF]
      exact Flat.stop i1 (by simp)
end

/-- C23: with throw_on_error unset, whatever is missing from the document, every member it has is
assigned and every other member left unchanged; nothing is thrown. -/
theorem C23_missing_partial (lib : Lib) (fs : Fs) (o : JP) (dst : JV)
    (ho : o.throwOnError = false)
    (h : ∀ e ∈ (leavesF [] fs).zip (valsF fs dst), Readable lib o e) :
    (unpackJ lib (.struct fs) o [] dst).1 = .ok ∧
      valsF fs (unpackJ lib (.struct fs) o [] dst).2
        = List.zipWith (newVal lib o) (leavesF [] fs) (valsF fs dst) := by
  have hf := flat_F lib fs o [] dst h
  simp only [unpackJ]
  have hok := hf.1.2 (.inl ho)
  exact ⟨hok, hf.2.1 hok⟩

/-- C23: with throw_on_error set, unpacking throws exactly when a member is missing, and assigns
every member otherwise. -/
theorem C23_throws_partial (lib : Lib) (fs : Fs) (o : JP) (dst : JV)
    (ho : o.throwOnError = true)
    (h : ∀ e ∈ (leavesF [] fs).zip (valsF fs dst), Readable lib o e) :
    ((∃ x, x.isPack = true ∧ (unpackJ lib (.struct fs) o [] dst).1 = .throw x) ↔
        ∃ e ∈ leavesF [] fs, ¬ Present o e) ∧
      ((∀ e ∈ leavesF [] fs, Present o e) →
        (unpackJ lib (.struct fs) o [] dst).1 = .ok ∧
        valsF fs (unpackJ lib (.struct fs) o [] dst).2
          = List.zipWith (newVal lib o) (leavesF [] fs) (valsF fs dst)) := by
  have hf := flat_F lib fs o [] dst h
  simp only [unpackJ]
  refine ⟨⟨?_, ?_⟩, fun ha => ?_⟩
  · rintro ⟨x, _, hx⟩
    refine Classical.byContradiction fun hc => ?_
    have := hf.1.2 (.inr fun e he => Classical.byContradiction fun hn => hc ⟨e, he, hn⟩)
    simp only [render] at this
    rw [hx] at this
    cases this
  · rintro ⟨e, he, hn⟩
    refine hf.2.2 fun hok => ?_
    rcases hf.1.1 hok with h' | h'
    · rw [ho] at h'; cases h'
    · exact hn (h' e he)
  · have hok := hf.1.2 (.inr ha)
    exact ⟨hok, hf.2.1 hok⟩

/-- C23: a container member for which the document has something else than an array is left
unchanged, and the unpacking throws exactly when throw_on_error is set. -/
theorem C23_container_type_partial (lib : Lib) (t : JT) (o : JP) (cs : List Str) (dst : JV) (j : J)
    (ht : isMember t = true) (hb : isBasic t = false) (hd : DotFrees cs)
    (hx : walk o.v cs = .ok j) (hj : ∀ l, j ≠ .arr l) :
    unpackJ lib t o (render cs) dst
      = if o.throwOnError then (.throw .packErr, dst) else (.ok, dst) := by
  have hf : find o.v (render cs) = .ok j := by rw [find_render hd, hx]
  cases ho : o.throwOnError <;> cases t <;> simp [isMember, isBasic] at ht hb <;>
    cases j <;> simp_all [unpackJ, unSeq, catchU, Err.isPack]

/-- C23: a wrongly typed basic member is left unchanged. -/
theorem C23_basic_unchanged_partial (lib : Lib) (t : JT) (o : JP) (d : Str) (dst : JV)
    (ht : isBasic t = true) (h : (unpackJ lib t o d dst).1 ≠ .ok) :
    (unpackJ lib t o d dst).2 = dst := by
  have key : ∀ g, (unpackLeaf o d g dst).1 ≠ .ok → (unpackLeaf o d g dst).2 = dst := by
    intro g h
    unfold unpackLeaf at h ⊢
    cases hr : (find o.v d).bind g with
    | ok v => rw [hr] at h; simp [catchU] at h
    | throw e => simp only [catchU]; split <;> rfl
    | ub => rfl
  cases t <;> simp [isBasic] at ht <;> simp only [unpackJ] at h ⊢ <;> exact key _ h

/-- C23 fails: a wrongly typed basic member throws although throw_on_error is unset, if the JSON
library's exception is not a json_pack_error. -/
theorem C23_wrong_type_fails (lib : Lib) (hm : lib.mm = .lib) (u : Under) (o : JP)
    (cs : List Str) (hd : DotFrees cs) (s : Str) (hx : walk o.v cs = .ok (.str s)) (dst : JV) :
    unpackJ lib (.int u) o (render cs) dst = (.throw .lib, dst) := by
  have hf : find o.v (render cs) = .ok (.str s) := by rw [find_render hd, hx]
  simp [unpackJ, unpackLeaf, hf, R.bind, getInt, hm, catchU, Err.isPack]

/-- C23 fails: throw_on_not_found plays no part in unpacking. -/
theorem C23_not_found_flag_fails (lib : Lib) (t : JT) (hn : Named t) (o : JP) (cs : List Str)
    (hd : DotFrees cs) (b : Bool) (dst : JV) :
    unpackJ lib t { o with throwOnNotFound := b } (render cs) dst
      = unpackJ lib t o (render cs) dst :=
  unpack_congr lib t _ _ cs cs dst hn ⟨rfl, hd, hd, fun _ _ => rfl⟩

/-- C23 fails: an enum member missing from the document is set to the enumeration's default. -/
theorem C23_missing_enum_fails :
    unpackJ lib0 (.struct (.mem sa (.enum ⟨.w32, true⟩ [([120], 5), ([121], 6)]) .nil))
      (.mk' (.obj [])) [] (.pair (.int 5) .unit) = (.ok, .pair (.int 0) .unit) := by
  have h1 : unpackLeaf (.mk' (.obj [])) ([] ++ dot :: sa) (getStr lib0) (.str []) = (.ok, .str []) := rfl
  have h2 : textRead ⟨.w32, true⟩ (table [([120], 5), ([121], 6)]) [] = 0 := by decide
  simp only [unpackJ, unpackF, h1, h2, JV.snd]

/-- C23 fails: a JSON array shorter than the C array it is unpacked into is read past its end. -/
theorem C23_short_array_fails (toe : Bool) :
    (unpackJ lib0 (.struct (.mem sa (.carr [2] i32) .nil))
      ⟨.obj [(sa, .arr [.int 1])], toe, false⟩ [] (.pair (.seq [.int 0, .int 0]) .unit)).1 = .ub := by
  cases toe <;> rfl

/-- … also behind a smart pointer, which is otherwise null when its target cannot be read. -/
theorem C23_short_array_pointer_fails (toe : Bool) (dst : JV) :
    (unpackJ lib0 (.ptr (.struct (.mem sa (.carr [2] i32) .nil)))
      ⟨.obj [(sa, .arr [.int 1])], toe, false⟩ [] dst).1 = .ub := by
  cases toe <;> rfl

example : ∀ e ∈ (leavesF [] (.mem sa i32 (.mem sb (.struct (.mem sa .str .nil)) .nil))).zip
    (valsF (.mem sa i32 (.mem sb (.struct (.mem sa .str .nil)) .nil))
      (.pair (.int 3) (.pair (.pair (.str [1]) .unit) .unit))),
    Readable lib0 ⟨.obj [(sa, .int 4), (sb, .obj [])], false, false⟩ e := by
  intro e he
  simp [leavesF, leavesT, valsF, valsT, i32, JV.fst, JV.snd] at he
  rcases he with rfl | rfl
  · refine ⟨rfl, trivial, one_dotFree (by unfold DotFree; decide), fun j hj => ?_⟩
    simp [walk, mfind, sa, sb, strLt] at hj
    subst hj; rfl
  · refine ⟨rfl, trivial, ?_, fun j hj => ?_⟩
    · intro c hc; simp at hc; rcases hc with rfl | rfl <;> (unfold DotFree; decide)
    · simp [walk, mfind, sa, sb, strLt] at hj

/-! ### C24 -/

/-- C24: the elements of a tuple are written in order, and the first is restored.  Missing: the
others. -/
theorem C24_first_partial (lib : Lib) (hl : ∀ r, lib.narrow (lib.widen r) = r) (k : Str)
    (t : JT) (r : Fs) (x y x' y' : JV) (hk : Ok .root t) (hx : Rep lib t x) (hx' : Typed t x')
    (js : List J) :
    ∃ oc, unpackJ lib (.tuple (.mem k t r)) (.mk' (.arr (enc lib t x :: js))) [] (.pair x' y')
      = (oc, .pair (restore t x x') y') := by
  have := unpack_at hl t x x' .root (.mk' (enc lib t x)) [] hk hx hx' (fun c hc => by simp at hc) rfl
  simp only [render] at this
  simp only [unpackJ, unpackT, JP.mk', JV.fst, JV.snd]
  simp only [JP.mk'] at this
  rw [this]
  exact ⟨_, rfl⟩

/-- Spec: the elements of a tuple, encoded one by one. -/
def encTuple (lib : Lib) : Fs → JV → List J
  | .mem _ t r, .pair x y => enc lib t x :: encTuple lib r y
  | _, _ => []

def OkTuple : Fs → Prop
  | .nil => True
  | .mem _ t r => Ok .root t ∧ OkTuple r
  | .base _ _ => False

private theorem packT_ok (lib : Lib) : ∀ (ts : Fs) (v : JV) (o : JP), OkTuple ts → RepF lib ts v →
    ∃ o' l, packT lib ts o [] v = .ok o' ∧ o'.v = .arr (l ++ encTuple lib ts v) ∧
      (l = [] ∧ (∀ l', o.v ≠ .arr l') ∨ o.v = .arr l)
  | .nil, v, o, hk, hr => by
    unfold packT
    cases hv : o.v with
    | arr l => exact ⟨o, l, rfl, by simp [hv, encTuple], .inr rfl⟩
    | _ => exact ⟨_, [], rfl, by simp [JP.mk', encTuple], .inl ⟨rfl, by simp⟩⟩
  | .mem k t r, v, o, hk, hr => by
    unfold RepF at hr
    unfold OkTuple at hk
    obtain ⟨x, y, rfl, h1, h2⟩ := hr
    obtain ⟨j, hj, hjv⟩ := pack_root lib t x (.mk' .null) hk.1 h1 root_free
    simp only [packT, hj, R.bind]
    have go : ∀ o1 : JP, ∀ l1, o1.v = .arr (l1 ++ [j.v]) →
        ∃ o', packT lib r o1 [] y = .ok o' ∧ o'.v = .arr (l1 ++ encTuple lib (.mem k t r) (.pair x y)) := by
      intro o1 l1 ho
      obtain ⟨o', l, e1, e2, e3⟩ := packT_ok lib r y o1 hk.2 h2
      refine ⟨o', e1, ?_⟩
      rcases e3 with ⟨_, h⟩ | h
      · exact absurd ho (h _)
      · rw [ho] at h
        cases h
        rw [e2, hjv]
        simp [encTuple]
    cases hv : o.v with
    | arr l =>
      obtain ⟨o', e1, e2⟩ := go { o with v := .arr (l ++ [j.v]) } l rfl
      exact ⟨o', l, e1, e2, .inr rfl⟩
    | _ =>
      obtain ⟨o', e1, e2⟩ := go (.mk' (.arr [j.v])) [] rfl
      exact ⟨o', [], e1, e2, .inl ⟨rfl, by simp⟩⟩
  | .base t r, v, o, hk, hr => by unfold OkTuple at hk; exact hk.elim

/-- C24: packing writes an array of the elements in order. -/
theorem C24_pack_partial (lib : Lib) (ts : Fs) (hk : OkTuple ts) (v : JV) (hv : RepF lib ts v) :
    ∃ o, packJ lib (.tuple ts) (.mk' .null) [] v = .ok o ∧ o.v = .arr (encTuple lib ts v) := by
  obtain ⟨o, l, h1, h2, h3⟩ := packT_ok lib ts v (.mk' .null) hk hv
  refine ⟨o, by simp only [packJ]; exact h1, ?_⟩
  rcases h3 with ⟨rfl, _⟩ | h3
  · simpa using h2
  · simp [JP.mk'] at h3

/-- C24 fails: whatever is in the document, no element but the first is changed. -/
theorem C24_rest_fails (lib : Lib) (k : Str) (t : JT) (r : Fs) (o : JP) (d : Str) (dst : JV) :
    (unpackJ lib (.tuple (.mem k t r)) o d dst).2.snd = dst.snd := by
  simp only [unpackJ, unpackT]
  split
  · split <;> rfl
  · rfl
  · rfl

/-- C24 fails: the tuple (1,2) is restored as (1,0). -/
theorem C24_roundtrip_fails : ∃ o,
    packJ lib0 (.tuple (.mem [] .real (.mem [] .real .nil))) (.mk' .null) []
      (.pair (.real 1) (.pair (.real 2) .unit)) = .ok o ∧
    unpackJ lib0 (.tuple (.mem [] .real (.mem [] .real .nil))) o []
      (.pair (.real 0) (.pair (.real 0) .unit)) = (.ok, .pair (.real 1) (.pair (.real 0) .unit)) := by
  refine ⟨_, rfl, ?_⟩
  rfl

/-- C24 fails: a tuple member replaces the whole document of its class, losing the members
packed before it. -/
theorem C24_member_fails : ∃ o,
    packJ lib0 (.struct (.mem sa i32 (.mem sb (.tuple (.mem [] i32 .nil)) .nil))) (.mk' .null) []
      (.pair (.int 1) (.pair (.pair (.int 2) .unit) .unit)) = .ok o ∧
    (∀ m, o.v ≠ .obj m) ∧ find o.v (render [sa]) = .throw .packErr := by
  refine ⟨_, rfl, ?_, rfl⟩
  intro m h
  cases h

end Verif.Json
