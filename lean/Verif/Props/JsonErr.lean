import Verif.JsonPack
/-
C67: packing into a JSON document below something that is not there or is not an object.
-/
namespace Verif.Json
open OMap EnumKeys

/-- Following the names leads to one that is not there. -/
inductive Missing : J → List Str → Prop
  | here (m : List (Str × J)) (c : Str) (cs : List Str) : mfind strLt c m = none → Missing (.obj m) (c :: cs)
  | there (m : List (Str × J)) (c : Str) (cs : List Str) (y : J) : mfind strLt c m = some y → Missing y cs →
      Missing (.obj m) (c :: cs)

/-- Following the names leads to something that is not an object. -/
inductive Blocked : J → List Str → Prop
  | here (x : J) (cs : List Str) : (∀ m, x ≠ .obj m) → Blocked x cs
  | there (m : List (Str × J)) (c : Str) (cs : List Str) (y : J) : mfind strLt c m = some y → Blocked y cs →
      Blocked (.obj m) (c :: cs)

private theorem walk_missing {x : J} {cs : List Str} (h : Missing x cs) : walk x cs = .throw .notFound := by
  induction h with
  | here m c cs h => simp [walk, h]
  | there m c cs y h _ ih => simp [walk, h, ih]

private theorem walk_blocked {x : J} {cs : List Str} (h : Blocked x cs) :
    walk x cs = .throw .packErr ∨ ∃ y, walk x cs = .ok y ∧ ∀ m, y ≠ .obj m := by
  induction h with
  | here x cs h =>
    cases cs with
    | nil => exact .inr ⟨x, by simp [walk], h⟩
    | cons c cs =>
      refine .inl ?_
      cases x <;> first | exact absurd rfl (h _) | simp [walk]
  | there m c cs y h _ ih => simpa [walk, h] using ih

private theorem missing_snoc {x : J} {cs : List Str} (h : Missing x cs) (c : Str) : Missing x (cs ++ [c]) := by
  induction h with
  | here m c cs h => exact .here _ _ _ h
  | there m c cs y h _ ih => exact .there _ _ _ _ h ih

private theorem blocked_snoc {x : J} {cs : List Str} (h : Blocked x cs) (c : Str) : Blocked x (cs ++ [c]) := by
  induction h with
  | here x cs h => exact .here _ _ h
  | there m c cs y h _ ih => exact .there _ _ _ _ h ih

/-- The three possibilities. -/
theorem C67.cases (x : J) (cs : List Str) : Missing x cs ∨ Blocked x cs ∨ ∃ m, walk x cs = .ok (.obj m) := by
  induction cs generalizing x with
  | nil =>
    by_cases h : ∃ m, x = .obj m
    · obtain ⟨m, rfl⟩ := h; exact .inr (.inr ⟨m, by simp [walk]⟩)
    · exact .inr (.inl (.here _ _ (fun m e => h ⟨m, e⟩)))
  | cons c cs ih =>
    by_cases h : ∃ m, x = .obj m
    · obtain ⟨m, rfl⟩ := h
      cases hf : mfind strLt c m with
      | none => exact .inl (.here _ _ _ hf)
      | some y =>
        rcases ih y with h | h | ⟨m', h⟩
        · exact .inl (.there _ _ _ _ hf h)
        · exact .inr (.inl (.there _ _ _ _ hf h))
        · exact .inr (.inr ⟨m', by simp [walk, hf, h]⟩)
    · exact .inr (.inl (.here _ _ (fun m e => h ⟨m, e⟩)))

mutual
/-- No tuple and no member name with a dot, outside of containers' elements. -/
def NoTuple : JT → Prop
  | .struct fs => NoTupleF fs
  | .smap t => NoTuple t
  | .pair a b => NoTuple a ∧ NoTuple b
  | .ptr t => NoTuple t
  | .cst t => NoTuple t
  | .tuple _ => False
  | _ => True
def NoTupleF : Fs → Prop
  | .nil => True
  | .mem k t r => DotFree k ∧ NoTuple t ∧ NoTupleF r
  | .base t r => NoTuple t ∧ NoTupleF r
end

mutual
/-- The value has the type (elements of containers are not looked at). -/
def Shape : JT → JV → Prop
  | .bool, .bool _ => True
  | .int _, .int _ => True
  | .real, .real _ => True
  | .flt, .real _ => True
  | .char, .str _ => True
  | .str, .str _ => True
  | .enum _ _, .int _ => True
  | .struct fs, v => ShapeF fs v
  | .seq _, .seq _ => True
  | .arr _ _, .seq _ => True
  | .assoc _ _ _, .seq _ => True
  | .carr _ _, .seq _ => True
  | .smap _, .kv _ => True
  | .pair a b, .pair x y => Shape a x ∧ Shape b y
  | .ptr _, .null => True
  | .ptr t, .ptr v => Shape t v
  | .excl _, _ => True
  | .cst t, v => Shape t v
  | _, _ => False
def ShapeF : Fs → JV → Prop
  | .nil, _ => True
  | .mem _ t r, .pair x y => Shape t x ∧ ShapeF r y
  | .base t r, .pair x y => Shape t x ∧ ShapeF r y
  | _, _ => False
end

variable {o : JP} {cs : List Str} {k : Str}

private theorem objectify_self (h : ∃ m, o.v = .obj m) : o.objectify = o := by
  obtain ⟨m, h⟩ := h; simp [JP.objectify, h]

private theorem find_head (hd : DotFrees (cs ++ [k])) : find o.v (head (render (cs ++ [k]))) = walk o.v cs := by
  rw [head_render (hd k (by simp))]
  exact find_render (fun c hc => hd c (by simp [hc])) _

/-- Neither there nor an object. -/
private def Bad (x : J) (cs : List Str) : Prop := Missing x cs ∨ Blocked x cs

private theorem bad_snoc {x : J} (h : Bad x cs) (c : Str) : Bad x (cs ++ [c]) :=
  h.imp (missing_snoc · c) (blocked_snoc · c)

private theorem parentOf_missing (hd : DotFrees (cs ++ [k])) (h : Missing o.v cs) :
    parentOf o (render (cs ++ [k])) = .throw .notFound := by
  simp [parentOf, find_head hd, walk_missing h, R.bind]

private theorem parentOf_blocked (hd : DotFrees (cs ++ [k])) (h : Blocked o.v cs) :
    parentOf o (render (cs ++ [k])) = .throw .packErr := by
  rw [parentOf, find_head hd]
  rcases walk_blocked h with h | ⟨y, h, hy⟩
  · simp [h, R.bind]
  · rw [h]
    cases y <;> first | exact absurd rfl (hy _) | simp [R.bind]

private theorem packLeaf_missing (hd : DotFrees (cs ++ [k])) (h : Missing o.v cs) (ho : ∃ m, o.v = .obj m) (j : J) :
    packLeaf o (render (cs ++ [k])) j = if o.throwOnNotFound then .throw .notFound else .ok o := by
  simp [packLeaf, render_ne, objectify_self ho, find_head hd, walk_missing h]

private theorem packLeaf_blocked (hd : DotFrees (cs ++ [k])) (h : Blocked o.v cs) (ho : ∃ m, o.v = .obj m) (j : J) :
    packLeaf o (render (cs ++ [k])) j = if o.throwOnError then .throw .packErr else .ok o := by
  simp only [packLeaf, render_ne, objectify_self ho, find_head hd, if_false]
  rcases walk_blocked h with h | ⟨y, h, hy⟩
  · simp [h]
  · rw [h]
    cases y <;> first | exact absurd rfl (hy _) | simp

private theorem render_snoc (cs : List Str) (k : Str) : render cs ++ dot :: k = render (cs ++ [k]) := by
  rw [render_append]; simp [render]

private theorem dots_snoc (hd : DotFrees cs) (hk : DotFree k) : DotFrees (cs ++ [k]) := by
  intro c hc
  rcases List.mem_append.1 hc with hc | hc
  · exact hd c hc
  · simp at hc; exact hc ▸ hk

section quiet
variable (hn : o.throwOnNotFound = false) (he : o.throwOnError = false) (ho : ∃ m, o.v = .obj m)
include hn he ho

private theorem leaf_quiet (hd : DotFrees (cs ++ [k])) (h : Bad o.v cs) (j : J) :
    packLeaf o (render (cs ++ [k])) j = .ok o := by
  rcases h with h | h
  · simp [packLeaf_missing hd h ho, hn]
  · simp [packLeaf_blocked hd h ho, he]

private theorem parent_quiet (hd : DotFrees (cs ++ [k])) (h : Bad o.v cs) :
    ∃ e, parentOf o (render (cs ++ [k])) = .throw e ∧ e.isPack = true := by
  rcases h with h | h
  · exact ⟨_, parentOf_missing hd h, rfl⟩
  · exact ⟨_, parentOf_blocked hd h, rfl⟩

private theorem create_quiet (hd : DotFrees (cs ++ [k])) (h : Bad o.v cs) :
    createObj o (render (cs ++ [k])) = .ok o := by
  obtain ⟨e, h1, h2⟩ := parent_quiet hn he ho hd h
  simp only [createObj, objectify_self ho]
  split
  · rfl
  · simp [h1, R.bind, catchP, h2, he]

private theorem cont_quiet (hd : DotFrees (cs ++ [k])) (h : Bad o.v cs) (js : R (List J)) :
    packCont o (render (cs ++ [k])) js = .ok o := by
  obtain ⟨e, h1, h2⟩ := parent_quiet hn he ho hd h
  simp [packCont, objectify_self ho, h1, R.bind, catchP, h2, he]

mutual
private theorem quiet (lib : Lib) : ∀ (t : JT) (v : JV) (cs : List Str) (k : Str), NoTuple t → Shape t v →
    DotFrees (cs ++ [k]) → Bad o.v cs → packJ lib t o (render (cs ++ [k])) v = .ok o
  | .bool, .bool b, cs, k, _, _, hd, h => by simp [packJ, leaf_quiet hn he ho hd h]
  | .int u, .int b, cs, k, _, _, hd, h => by simp [packJ, leaf_quiet hn he ho hd h]
  | .real, .real b, cs, k, _, _, hd, h => by simp [packJ, leaf_quiet hn he ho hd h]
  | .flt, .real b, cs, k, _, _, hd, h => by simp [packJ, leaf_quiet hn he ho hd h]
  | .char, .str b, cs, k, _, _, hd, h => by simp [packJ, leaf_quiet hn he ho hd h]
  | .str, .str b, cs, k, _, _, hd, h => by simp [packJ, leaf_quiet hn he ho hd h]
  | .enum _ _, .int b, cs, k, _, _, hd, h => by
    simp [packJ, create_quiet hn he ho hd h, R.bind, leaf_quiet hn he ho hd h]
  | .struct fs, v, cs, k, ht, hv, hd, h => by
    simp only [packJ, create_quiet hn he ho hd h, R.bind]
    exact quietF lib fs v cs k (by simpa [NoTuple] using ht) (by simpa [Shape] using hv) hd h
  | .seq _, .seq _, cs, k, _, _, hd, h => by simp [packJ, cont_quiet hn he ho hd h]
  | .arr _ _, .seq _, cs, k, _, _, hd, h => by simp [packJ, cont_quiet hn he ho hd h]
  | .assoc _ _ _, .seq _, cs, k, _, _, hd, h => by simp [packJ, cont_quiet hn he ho hd h]
  | .carr _ _, .seq _, cs, k, _, _, hd, h => by
    obtain ⟨e, h1, h2⟩ := parent_quiet hn he ho hd h
    simp [packJ, h1, R.bind, catchP, h2, he]
  | .smap _, .kv _, cs, k, _, _, hd, h => by
    obtain ⟨e, h1, h2⟩ := parent_quiet hn he ho hd h
    simp [packJ, create_quiet hn he ho hd h, R.bind, h1, catchP', h2, he]
  | .pair a b, .pair x y, cs, k, ht, hv, hd, h => by
    have ha := quiet lib a x (cs ++ [k]) [102, 105, 114, 115, 116] (by simp [NoTuple] at ht; exact ht.1)
      (by simp [Shape] at hv; exact hv.1) (dots_snoc hd (by simp [DotFree, dot])) (bad_snoc h k)
    have hb := quiet lib b y (cs ++ [k]) [115, 101, 99, 111, 110, 100] (by simp [NoTuple] at ht; exact ht.2)
      (by simp [Shape] at hv; exact hv.2) (dots_snoc hd (by simp [DotFree, dot])) (bad_snoc h k)
    rw [← render_snoc] at ha hb
    simp only [packJ, objectify_self ho]
    show R.bind (packJ lib a o (render (cs ++ [k]) ++ dot :: [102, 105, 114, 115, 116]) x) _ = _
    rw [ha]
    exact hb
  | .ptr _, .null, cs, k, _, _, hd, h => by simp [packJ, create_quiet hn he ho hd h]
  | .ptr t, .ptr v, cs, k, ht, hv, hd, h => by
    simp only [packJ, create_quiet hn he ho hd h, R.bind]
    exact quiet lib t v cs k (by simpa [NoTuple] using ht) (by simpa [Shape] using hv) hd h
  | .excl _, _, cs, k, _, _, hd, h => by simp [packJ]
  | .cst t, v, cs, k, ht, hv, hd, h => by
    simp only [packJ]
    exact quiet lib t v cs k (by simpa [NoTuple] using ht) (by simpa [Shape] using hv) hd h
private theorem quietF (lib : Lib) : ∀ (fs : Fs) (v : JV) (cs : List Str) (k : Str), NoTupleF fs → ShapeF fs v →
    DotFrees (cs ++ [k]) → Bad o.v cs → packF lib fs o (render (cs ++ [k])) v = .ok o
  | .nil, _, _, _, _, _, _, _ => by simp [packF]
  | .mem n t r, .pair x y, cs, k, ht, hv, hd, h => by
    simp only [NoTupleF] at ht
    simp only [ShapeF] at hv
    have ha := quiet lib t x (cs ++ [k]) n ht.2.1 hv.1 (dots_snoc hd ht.1) (bad_snoc h k)
    rw [← render_snoc] at ha
    simp only [packF, ha, R.bind]
    exact quietF lib r y cs k ht.2.2 hv.2 hd h
  | .base t r, .pair x y, cs, k, ht, hv, hd, h => by
    simp only [NoTupleF] at ht
    simp only [ShapeF] at hv
    simp only [packF, quiet lib t x cs k ht.1 hv.1 hd h, R.bind]
    exact quietF lib r y cs k ht.2 hv.2 hd h
end
end quiet

/-- C67, neither flag set: packing a value of any type below something that is missing or is not an object returns
and leaves the document as it was.  Missing: tuples, which replace the document (C24); a document that is not an
object, which is replaced (`C67_root_fails`). -/
theorem C67_quiet_partial (lib : Lib) (o : JP) (hn : o.throwOnNotFound = false) (he : o.throwOnError = false)
    (ho : ∃ m, o.v = .obj m) (t : JT) (ht : NoTuple t) (v : JV) (hv : Shape t v) (cs : List Str) (k : Str)
    (hd : DotFrees (cs ++ [k])) (h : Missing o.v cs ∨ Blocked o.v cs) :
    packJ lib t o (render (cs ++ [k])) v = .ok o :=
  quiet hn he ho lib t v cs k ht hv hd h

/-- struct { vector<int> a; struct { int b; } c; } below .x.y in { x : 5 } -/
example (lib : Lib) : packJ lib (.struct (.mem [97] (.seq (.int ⟨.w32, true⟩)) (.mem [99] (.struct (.mem [98] (.int ⟨.w32, true⟩) .nil)) .nil)))
    ⟨.obj [([120], .int 5)], false, false⟩ (render [[120], [121]]) (.pair (.seq [.int 1]) (.pair (.pair (.int 2) .unit) .unit)) =
    .ok ⟨.obj [([120], .int 5)], false, false⟩ :=
  C67_quiet_partial lib _ rfl rfl ⟨_, rfl⟩ _ (by simp [NoTuple, NoTupleF, DotFree, dot]) _ (by simp [Shape, ShapeF]) [[120]] [121]
    (by simp [DotFrees, DotFree, dot]) (.inr (.there _ _ _ (.int 5) (by simp [mfind, strLt]) (.here _ _ (by simp))))

/-- Numbers, booleans, characters and strings. -/
inductive Basic : JT → JV → Prop
  | bool b : Basic .bool (.bool b)
  | int u i : Basic (.int u) (.int i)
  | real r : Basic .real (.real r)
  | flt r : Basic .flt (.real r)
  | char c : Basic .char (.str c)
  | str s : Basic .str (.str s)

/-- C67 for basic types: throw_on_not_found decides alone about a missing parent, throw_on_error alone about one that
is not an object. -/
theorem C67_basic (lib : Lib) (o : JP) (ho : ∃ m, o.v = .obj m) (t : JT) (v : JV) (hb : Basic t v) (cs : List Str) (k : Str)
    (hd : DotFrees (cs ++ [k])) :
    (Missing o.v cs → packJ lib t o (render (cs ++ [k])) v = if o.throwOnNotFound then .throw .notFound else .ok o) ∧
    (Blocked o.v cs → packJ lib t o (render (cs ++ [k])) v = if o.throwOnError then .throw .packErr else .ok o) := by
  cases hb <;> exact ⟨fun h => by simp only [packJ, packLeaf_missing hd h ho], fun h => by simp only [packJ, packLeaf_blocked hd h ho]⟩

example (lib : Lib) : packJ lib .bool ⟨.obj [], false, true⟩ (render [[120], [121]]) (.bool true) = .throw .notFound :=
  (C67_basic lib ⟨.obj [], false, true⟩ ⟨_, rfl⟩ _ _ (.bool true) [[120]] [121] (by simp [DotFrees, DotFree, dot])).1 (.here _ _ _ (by decide))

/-- Everything else that is packed under a name of its own. -/
inductive Compound : JT → JV → Prop
  | enum u d i : Compound (.enum u d) (.int i)
  | struct fs v : Compound (.struct fs) v
  | seq t l : Compound (.seq t) (.seq l)
  | arr n t l : Compound (.arr n t) (.seq l)
  | assoc f m t l : Compound (.assoc f m t) (.seq l)
  | carr d t l : Compound (.carr d t) (.seq l)
  | smap t l : Compound (.smap t) (.kv l)
  | null t : Compound (.ptr t) .null
  | ptr t v : Compound (.ptr t) (.ptr v)

private theorem compound_throws (lib : Lib) (o : JP) (ho : ∃ m, o.v = .obj m) (he : o.throwOnError = true)
    (t : JT) (v : JV) (hb : Compound t v) (cs : List Str) (k : Str) (hk : k ≠ [])
    (hd : DotFrees (cs ++ [k])) (e : Err) (hp : parentOf o (render (cs ++ [k])) = .throw e) :
    packJ lib t o (render (cs ++ [k])) v = .throw e := by
  have hc : createObj o (render (cs ++ [k])) = .throw e := by
    simp [createObj, objectify_self ho, tail_render (hd k (by simp)), hk, hp, R.bind, catchP, he]
  cases hb <;> simp [packJ, hc, R.bind, packCont, objectify_self ho, hp, catchP, he]

/-- C67 for classes, enums, containers, arrays and smart pointers below something that is not an object: throws
json_pack_error exactly when throw_on_error is set.  Missing: pairs, whose members are packed instead; with only
throw_on_not_found set, see `C67_quiet_partial` for both clear. -/
theorem C67_compound_partial (lib : Lib) (o : JP) (ho : ∃ m, o.v = .obj m) (t : JT) (ht : NoTuple t) (v : JV) (hb : Compound t v)
    (hv : Shape t v) (hn : o.throwOnNotFound = false) (cs : List Str) (k : Str) (hk : k ≠ []) (hd : DotFrees (cs ++ [k]))
    (h : Blocked o.v cs) :
    packJ lib t o (render (cs ++ [k])) v = if o.throwOnError then .throw .packErr else .ok o := by
  cases he : o.throwOnError with
  | true => simpa using compound_throws lib o ho he t v hb cs k hk hd _ (parentOf_blocked hd h)
  | false => simpa using quiet hn he ho lib t v cs k ht hv hd (.inr h)

example (lib : Lib) : packJ lib (.seq .bool) ⟨.obj [([120], .int 5)], true, false⟩ (render [[120], [121]]) (.seq []) = .throw .packErr :=
  C67_compound_partial lib ⟨.obj [([120], .int 5)], true, false⟩ ⟨_, rfl⟩ (.seq .bool) (by simp [NoTuple]) _ (.seq _ _) (by simp [Shape]) rfl [[120]] [121] (by simp)
    (by simp [DotFrees, DotFree, dot]) (.there _ _ _ (.int 5) (by simp [mfind, strLt]) (.here _ _ (by simp)))

/-- C67 is false for a missing parent of a class, enum, container, array or smart pointer: the documented flag
throw_on_not_found is clear, and json_object_not_found is thrown because the other flag is set. -/
theorem C67_wrong_flag_fails (lib : Lib) (o : JP) (ho : ∃ m, o.v = .obj m) (t : JT) (v : JV) (hb : Compound t v)
    (he : o.throwOnError = true) (cs : List Str) (k : Str) (hk : k ≠ []) (hd : DotFrees (cs ++ [k])) (h : Missing o.v cs) :
    packJ lib t o (render (cs ++ [k])) v = .throw .notFound :=
  compound_throws lib o ho he t v hb cs k hk hd _ (parentOf_missing hd h)

/-- … and the other way round: with throw_on_not_found set and throw_on_error clear no exception reports it. -/
theorem C67_unreported_fails (lib : Lib) (o : JP) (ho : ∃ m, o.v = .obj m) (he : o.throwOnError = false) (t : JT) (l : List JV)
    (cs : List Str) (k : Str) (hd : DotFrees (cs ++ [k])) (h : Missing o.v cs) :
    packJ lib (.seq t) o (render (cs ++ [k])) (.seq l) = .ok o := by
  simp [packJ, packCont, objectify_self ho, parentOf_missing hd h, R.bind, catchP, he, Err.isPack]

example (lib : Lib) : packJ lib (.seq .bool) ⟨.obj [], false, true⟩ (render [[120], [121]]) (.seq []) = .ok ⟨.obj [], false, true⟩ :=
  C67_unreported_fails lib ⟨.obj [], false, true⟩ ⟨_, rfl⟩ rfl _ _ [[120]] [121] (by simp [DotFrees, DotFree, dot]) (.here _ _ _ (by decide))

example (lib : Lib) : packJ lib (.seq .bool) ⟨.obj [], true, false⟩ (render [[120], [121]]) (.seq []) = .throw .notFound :=
  C67_wrong_flag_fails lib ⟨.obj [], true, false⟩ ⟨_, rfl⟩ _ _ (.seq _ _) rfl [[120]] [121] (by simp) (by simp [DotFrees, DotFree, dot]) (.here _ _ _ (by decide))

/-- C67 is false when the document itself is not an object: it is discarded together with both flags, and the value
packed into a new one. -/
theorem C67_root_fails (lib : Lib) (o : JP) (ho : ∀ m, o.v ≠ .obj m) (k : Str) (hk : DotFree k) (b : Bool) :
    packJ lib .bool o (render [k]) (.bool b) = .ok ⟨.obj [(k, .bool b)], false, false⟩ := by
  have hob : o.objectify = ⟨.obj [], false, false⟩ := by
    cases hv : o.v <;> first | exact absurd hv (ho _) | simp [JP.objectify, hv, JP.mk']
  have hh : head (render [k]) = [] := by
    have := head_render hk []; simpa [render] using this
  have ht : tail (render [k]) = k := by
    have := tail_render hk []; simpa using this
  have hr : render [k] ≠ [] := render_ne (cs := [])
  simp [packJ, packLeaf, hob, hh, ht, hr, find, findN, store, storeN, mput]

example (lib : Lib) : packJ lib .bool ⟨.arr [.int 1], true, true⟩ (render [[120]]) (.bool true) =
    .ok ⟨.obj [([120], .bool true)], false, false⟩ :=
  C67_root_fails lib ⟨.arr [.int 1], true, true⟩ (by simp) [120] (by simp [DotFree, dot]) true

end Verif.Json
