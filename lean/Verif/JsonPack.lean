import Verif.JsonSpec
namespace Verif.Json
open OMap EnumKeys

/-! Packing yields the document `enc` describes. -/

theorem cast_of_inRange {u : Under} {i : Int} (h : InRange u i) : cast u i = i := by
  obtain ⟨w, s⟩ := u
  cases w <;> cases s <;> simp [InRange, EnumKeys.cast, Width.modulus] at h ⊢ <;> omega

theorem via_inRange {u : Under} {i : Int} (h : InRange u i) : InRange (via u) i := by
  obtain ⟨w, s⟩ := u
  cases w <;> cases s <;> simp [InRange, via, Width.modulus] at h ⊢ <;> omega

def PathOk (cs : List Str) : Prop := ∀ c ∈ cs, DotFree c ∧ c ≠ []

theorem PathOk.dots {cs : List Str} (h : PathOk cs) : DotFrees cs := fun c hc => (h c hc).1

theorem PathOk.left {a b : List Str} (h : PathOk (a ++ b)) : PathOk a :=
  fun c hc => h c (by simp [hc])

theorem PathOk.snoc {a : List Str} {k : Str} (h : PathOk a) (hk : DotFree k ∧ k ≠ []) :
    PathOk (a ++ [k]) := by
  intro c hc
  simp at hc
  rcases hc with hc | rfl
  · exact h c hc
  · exact hk

theorem objectify_obj {o : JP} {cs : List Str} {m : List (Str × J)}
    (h : walk o.v cs = .ok (.obj m)) : o.objectify = o := by
  unfold JP.objectify
  cases hv : o.v with
  | obj m => rfl
  | _ => cases cs <;> simp [hv, walk] at h

theorem wf_nil : WF (.obj []) := by rw [WF]; simp [Sorted]

theorem render_ne {cs : List Str} {k : Str} : render (cs ++ [k]) ≠ [] := by
  rw [render_append]; simp [render]

theorem mput_minsert (k : Str) (a b : J) {m : List (Str × J)} (h : Sorted strLt m) :
    mput strLt k a (minsert strLt k b m) = mput strLt k a m := by
  apply Sorted.ext strOrd (sorted_mput strOrd _ _ _ (sorted_minsert strOrd _ _ _ h))
    (sorted_mput strOrd _ _ _ h)
  intro q
  rw [mfind_mput strOrd, mfind_mput strOrd, mfind_minsert strOrd]
  split <;> rfl

theorem minsert_same {k : Str} {a b : J} {m : List (Str × J)} (h : Sorted strLt m)
    (hf : mfind strLt k m = some b) : minsert strLt k a m = m := by
  apply Sorted.ext strOrd (sorted_minsert strOrd _ _ _ h) h
  intro q
  rw [mfind_minsert strOrd]
  split
  · subst_vars; simp [hf]
  · rfl

theorem mput_mput (k : Str) (a b : J) {m : List (Str × J)} (h : Sorted strLt m) :
    mput strLt k a (mput strLt k b m) = mput strLt k a m := by
  apply Sorted.ext strOrd (sorted_mput strOrd _ _ _ (sorted_mput strOrd _ _ _ h))
    (sorted_mput strOrd _ _ _ h)
  intro q
  rw [mfind_mput strOrd, mfind_mput strOrd, mfind_mput strOrd]
  split <;> rfl

theorem wf_minsert {m : List (Str × J)} (h : WF (.obj m)) (k : Str) :
    WF (.obj (minsert strLt k (.obj []) m)) := by
  rw [WF] at h ⊢
  have hs := sorted_minsert strOrd k (.obj []) m h.1
  refine ⟨hs, fun e he => ?_⟩
  have hf := (mfind_iff_mem strOrd hs e.1 e.2).2 he
  rw [mfind_minsert strOrd] at hf
  split at hf
  · cases hm : mfind strLt e.1 m with
    | none =>
      rw [hm] at hf
      simp only [Option.getD_none, Option.some.injEq] at hf
      rw [← hf]
      exact wf_nil
    | some b =>
      rw [hm] at hf
      simp only [Option.getD_some, Option.some.injEq] at hf
      have := h.2 _ ((mfind_iff_mem strOrd h.1 e.1 b).1 hm)
      rw [← hf]
      exact this
  · exact h.2 _ ((mfind_iff_mem strOrd h.1 e.1 e.2).1 hf)

theorem walk_sorted {x : J} {cs : List Str} {m : List (Str × J)} (hx : WF x)
    (h : walk x cs = .ok (.obj m)) : Sorted strLt m := by
  have := walk_wf hx h
  rw [WF] at this
  exact this.1

section
variable {o : JP} {cs : List Str} {k : Str} {m : List (Str × J)}

theorem packLeaf_mem (hp : PathOk (cs ++ [k])) (h : walk o.v cs = .ok (.obj m)) (j : J) :
    packLeaf o (render (cs ++ [k])) j
      = .ok { o with v := replace o.v cs (.obj (mput strLt k j m)) } := by
  have hk := (hp k (by simp)).1
  unfold packLeaf
  rw [if_neg render_ne, objectify_obj h]
  simp only
  rw [head_render hk, tail_render hk, find_render hp.left.dots, h, ← store_render hp.left.dots]

theorem parentOf_mem (hp : PathOk (cs ++ [k])) (h : walk o.v cs = .ok (.obj m)) :
    parentOf o (render (cs ++ [k])) = .ok m := by
  have hk := (hp k (by simp)).1
  unfold parentOf
  rw [head_render hk, find_render hp.left.dots, h]
  rfl

theorem createObj_mem (hp : PathOk (cs ++ [k])) (h : walk o.v cs = .ok (.obj m)) :
    createObj o (render (cs ++ [k]))
      = .ok { o with v := replace o.v cs (.obj (minsert strLt k (.obj []) m)) } := by
  have hk := (hp k (by simp)).1
  unfold createObj
  rw [objectify_obj h]
  simp only
  rw [parentOf_mem hp h, tail_render hk, if_neg (hp k (by simp)).2, head_render hk,
    ← store_render hp.left.dots]
  rfl

/-- At a place where there is an object nothing is created. -/
theorem createObj_obj (hx : WF o.v) (hp : PathOk cs) (h : walk o.v cs = .ok (.obj m)) :
    createObj o (render cs) = .ok o := by
  rcases List.eq_nil_or_concat cs with rfl | ⟨cs', k, rfl⟩
  · unfold createObj
    rw [objectify_obj h]
    simp [render, tail]
  · rw [List.concat_eq_append] at *
    rw [walk_append] at h
    cases hw : walk o.v cs' with
    | ok y =>
      rw [hw] at h
      simp only [R.bind] at h
      cases y with
      | obj m' =>
        rw [createObj_mem hp hw]
        simp only [walk] at h
        cases hf : mfind strLt k m' with
        | none => simp [hf] at h
        | some z =>
          rw [minsert_same (walk_sorted hx hw) hf, replace_same hx hw]
      | _ => simp [walk] at h
    | throw e => simp [hw, R.bind] at h
    | ub => simp [hw, R.bind] at h

theorem packCont_mem (hp : PathOk (cs ++ [k])) (h : walk o.v cs = .ok (.obj m)) (js : List J) :
    packCont o (render (cs ++ [k])) (.ok js)
      = .ok { o with v := replace o.v cs (.obj (mput strLt k (.arr js) m)) } := by
  have hk := (hp k (by simp)).1
  unfold packCont
  rw [objectify_obj h]
  simp only
  rw [parentOf_mem hp h, head_render hk, ← store_render hp.left.dots, tail_render hk]
  simp only [R.bind]
  rw [if_neg render_ne]
  rfl

end

theorem packCont_root (o : JP) (ho : o.v = .obj [] ∨ ∀ m, o.v ≠ .obj m) (js : List J) :
    ∃ o', packCont o [] (.ok js) = .ok o' ∧ o'.v = .arr js := by
  have : ∃ m, o.objectify.v = .obj m := by
    unfold JP.objectify
    cases hv : o.v with
    | obj m => exact ⟨m, by simp [hv]⟩
    | _ => exact ⟨[], rfl⟩
  obtain ⟨m, hm⟩ := this
  refine ⟨{ o.objectify with v := .arr js }, ?_, rfl⟩
  unfold packCont
  simp only
  rw [show parentOf o.objectify [] = .ok m from by
    simp [parentOf, head, find, findN, hm, R.bind]]
  simp only [R.bind, if_true, catchP]

theorem objectify_root (o : JP) (ho : o.v = .obj [] ∨ ∀ m, o.v ≠ .obj m) :
    o.objectify.v = .obj [] := by
  unfold JP.objectify
  cases hv : o.v with
  | obj m =>
    rcases ho with h | h
    · rw [hv] at h; simpa using h ▸ hv
    · exact absurd hv (h m)
  | _ => rfl

theorem createObj_root (o : JP) (ho : o.v = .obj [] ∨ ∀ m, o.v ≠ .obj m) :
    createObj o [] = .ok o.objectify := by simp [createObj, tail]

theorem mapR_ok {f : JV → R J} {g : JV → J} : ∀ (l : List JV), (∀ x ∈ l, f x = .ok (g x)) →
    mapR f l = .ok (l.map g)
  | [], _ => rfl
  | x :: l, h => by
    simp only [mapR, h x (by simp), R.bind, mapR_ok l (fun y hy => h y (by simp [hy])), List.map]

theorem chunks_mem {s n : Nat} : ∀ {l : List JV} {c : List JV}, c ∈ chunks s n l → ∀ x ∈ c, x ∈ l := by
  induction s with
  | zero => intro l c h; simp [chunks] at h
  | succ s ih =>
    intro l c h x hx
    simp only [chunks, List.mem_cons] at h
    rcases h with rfl | h
    · exact List.mem_of_mem_take hx
    · exact List.mem_of_mem_drop (ih h x hx)

theorem chunks_length {s n : Nat} : ∀ {l : List JV}, l.length = s * n →
    ∀ c ∈ chunks s n l, c.length = n := by
  induction s with
  | zero => intro l _ c h; simp [chunks] at h
  | succ s ih =>
    intro l hl c h
    have hm : (s + 1) * n = s * n + n := Nat.succ_mul _ _
    simp only [chunks, List.mem_cons] at h
    rcases h with rfl | h
    · rw [List.length_take]; omega
    · exact ih (by rw [List.length_drop]; omega) c h

theorem packArr_ok {f : JV → R J} {g : JV → J} : ∀ (dims : List Nat) (l : List JV),
    l.length = prod dims → (∀ x ∈ l, f x = .ok (g x)) → packArr f dims l = .ok (encArr g dims l)
  | [], [], hl, _ => by simp [prod] at hl
  | [], v :: l, _, h => by simp [packArr, encArr, h v (by simp)]
  | s :: ds, l, hl, h => by
    have hl' : l.length = s * prod ds := by simpa [prod] using hl
    have hc : ∀ c ∈ chunks s (prod ds) l, packArr f ds c = .ok (encArr g ds c) := by
      intro c hcm
      exact packArr_ok ds c (chunks_length hl' c hcm) (fun x hx => h x (chunks_mem hcm x hx))
    have hgo : ∀ (cs : List (List JV)), (∀ c ∈ cs, packArr f ds c = .ok (encArr g ds c)) →
        packArr.go f ds cs = .ok (cs.map (encArr g ds)) := by
      intro cs
      induction cs with
      | nil => intro _; simp only [packArr.go, List.map]
      | cons c cs ih =>
        intro h
        simp only [packArr.go, h c (by simp), R.bind, ih (fun a ha => h a (by simp [ha])), List.map]
    simp only [packArr, encArr, hgo _ hc, R.map]

/-! ### Documents are well formed -/

theorem wf_arr (l : List J) : WF (.arr l) := by simp [WF]

theorem kv_sorted {β : Type} {f : Str × JV → β} {l : List (Str × JV)} (h : Sorted strLt l) :
    Sorted strLt (l.map fun e => (e.1, f e)) := by
  induction l with
  | nil => trivial
  | cons a r ih =>
    simp only [List.map, Sorted] at h ⊢
    refine ⟨fun e he => ?_, ih h.2⟩
    obtain ⟨b, hb, rfl⟩ := List.mem_map.1 he
    exact h.1 b hb

theorem wf_encArr {g : JV → J} : ∀ (dims : List Nat) (l : List JV), (∀ x ∈ l, WF (g x)) →
    WF (encArr g dims l)
  | [], [], _ => by simp [encArr, WF]
  | [], v :: l, h => by simpa [encArr] using h v (by simp)
  | _ :: _, l, _ => by simp only [encArr]; exact wf_arr _

mutual
theorem wf_enc (lib : Lib) : ∀ (t : JT) (v : JV), Rep lib t v → WF (enc lib t v)
  | .bool, v, h => by unfold Rep at h; obtain ⟨b, rfl⟩ := h; simp [enc, WF]
  | .int u, v, h => by unfold Rep at h; obtain ⟨b, rfl, _⟩ := h; simp [enc, WF]
  | .real, v, h => by unfold Rep at h; obtain ⟨b, rfl⟩ := h; simp [enc, WF]
  | .flt, v, h => by unfold Rep at h; obtain ⟨b, rfl⟩ := h; simp [enc, WF]
  | .char, v, h => by unfold Rep at h; obtain ⟨b, rfl⟩ := h; simp [enc, WF]
  | .str, v, h => by unfold Rep at h; obtain ⟨b, rfl⟩ := h; simp [enc, WF]
  | .enum u d, v, h => by unfold Rep at h; obtain ⟨n, i, rfl, _⟩ := h; simp [enc, WF]
  | .struct fs, v, h => by
    unfold Rep at h
    simp only [enc]
    exact wf_encF lib fs v [] h wf_nil
  | .seq t, v, h => by unfold Rep at h; obtain ⟨l, rfl, _⟩ := h; simp only [enc]; exact wf_arr _
  | .arr n t, v, h => by unfold Rep at h; obtain ⟨l, rfl, _⟩ := h; simp only [enc]; exact wf_arr _
  | .assoc _ _ t, v, h => by
    unfold Rep at h; obtain ⟨l, rfl, _⟩ := h; simp only [enc]; exact wf_arr _
  | .carr dims t, v, h => by
    unfold Rep at h
    obtain ⟨l, rfl, _, hr⟩ := h
    simp only [enc]
    exact wf_encArr dims l (fun x hx => wf_enc lib t x (hr x hx))
  | .smap t, v, h => by
    unfold Rep at h
    obtain ⟨l, rfl, hs, _, hr⟩ := h
    simp only [enc]
    rw [WF]
    refine ⟨kv_sorted hs, fun e he => ?_⟩
    obtain ⟨a, ha, rfl⟩ := List.mem_map.1 he
    exact wf_enc lib t a.2 (hr a ha)
  | .pair a b, v, h => by
    unfold Rep at h
    obtain ⟨x, y, rfl, h1, h2⟩ := h
    simp only [enc]
    exact wf_put (wf_put wf_nil _ (wf_enc lib a x h1)) _ (wf_enc lib b y h2)
  | .tuple ts, v, h => by unfold Rep at h; exact h.elim
  | .ptr t, v, h => by
    unfold Rep at h
    rcases h with ⟨rfl, _⟩ | ⟨x, rfl, h⟩
    · simp only [enc]; exact wf_nil
    · simp only [enc]; exact wf_enc lib t x h
  | .excl _, v, _ => by simp [enc, WF]
  | .cst t, v, h => by
    unfold Rep at h
    have := wf_enc lib t v h
    unfold enc
    exact this
theorem wf_encF (lib : Lib) : ∀ (fs : Fs) (v : JV) (m : List (Str × J)), RepF lib fs v →
    WF (.obj m) → WF (.obj (encF lib fs v m))
  | .nil, v, m, h, hm => by simpa [encF] using hm
  | .mem k t r, v, m, h, hm => by
    unfold RepF at h
    obtain ⟨x, y, rfl, h1, h2⟩ := h
    simp only [encF]
    refine wf_encF lib r y _ h2 ?_
    split
    · exact hm
    · exact wf_put hm _ (wf_enc lib t x h1)
  | .base t r, v, m, h, hm => by
    unfold RepF at h
    obtain ⟨x, y, rfl, h1, h2⟩ := h
    simp only [encF]
    exact wf_encF lib r y _ h2 (wf_encB lib t x m h1 hm)
theorem wf_encB (lib : Lib) : ∀ (t : JT) (v : JV) (m : List (Str × J)), Rep lib t v →
    WF (.obj m) → WF (.obj (encB lib t v m))
  | .struct fs, v, m, h, hm => by
    unfold Rep at h
    simp only [encB]
    exact wf_encF lib fs v m h hm
  | .bool, v, m, h, hm => by simpa [encB] using hm
  | .int u, v, m, h, hm => by simpa [encB] using hm
  | .real, v, m, h, hm => by simpa [encB] using hm
  | .flt, v, m, h, hm => by simpa [encB] using hm
  | .char, v, m, h, hm => by simpa [encB] using hm
  | .str, v, m, h, hm => by simpa [encB] using hm
  | .enum u d, v, m, h, hm => by simpa [encB] using hm
  | .seq t, v, m, h, hm => by simpa [encB] using hm
  | .arr n t, v, m, h, hm => by simpa [encB] using hm
  | .assoc _ _ t, v, m, h, hm => by simpa [encB] using hm
  | .carr dims t, v, m, h, hm => by simpa [encB] using hm
  | .smap t, v, m, h, hm => by simpa [encB] using hm
  | .pair a b, v, m, h, hm => by simpa [encB] using hm
  | .tuple ts, v, m, h, hm => by simpa [encB] using hm
  | .ptr t, v, m, h, hm => by simpa [encB] using hm
  | .excl _, v, m, h, hm => by simpa [encB] using hm
  | .cst t, v, m, h, hm => by simpa [encB] using hm
end

mutual
/-- Only the class's own members are written. -/
theorem encF_other (lib : Lib) : ∀ (fs : Fs) (v : JV) (m : List (Str × J)) (q : Str),
    q ∉ keysF fs → mfind strLt q (encF lib fs v m) = mfind strLt q m
  | .nil, v, m, q, _ => by simp [encF]
  | .mem k t r, v, m, q, hq => by
    unfold keysF at hq
    cases v with
    | pair x y =>
      simp only [encF]
      by_cases he : isExcl t = true
      · rw [if_pos he] at hq ⊢
        exact encF_other lib r y m q hq
      · rw [if_neg he] at hq ⊢
        simp only [List.mem_cons, not_or] at hq
        rw [encF_other lib r y _ q hq.2, mfind_mput strOrd, if_neg hq.1]
    | _ => simp [encF]
  | .base t r, v, m, q, hq => by
    unfold keysF at hq
    simp only [List.mem_append, not_or] at hq
    cases v with
    | pair x y =>
      simp only [encF]
      rw [encF_other lib r y _ q hq.2, encB_other lib t x m q hq.1]
    | _ => simp [encF]
theorem encB_other (lib : Lib) : ∀ (t : JT) (v : JV) (m : List (Str × J)) (q : Str),
    q ∉ keysB t → mfind strLt q (encB lib t v m) = mfind strLt q m
  | .struct fs, v, m, q, hq => by
    unfold keysB at hq
    simp only [encB]
    exact encF_other lib fs v m q hq
  | .bool, v, m, q, _ => by simp [encB]
  | .int u, v, m, q, _ => by simp [encB]
  | .real, v, m, q, _ => by simp [encB]
  | .flt, v, m, q, _ => by simp [encB]
  | .char, v, m, q, _ => by simp [encB]
  | .str, v, m, q, _ => by simp [encB]
  | .enum u d, v, m, q, _ => by simp [encB]
  | .seq t, v, m, q, _ => by simp [encB]
  | .arr n t, v, m, q, _ => by simp [encB]
  | .assoc _ _ t, v, m, q, _ => by simp [encB]
  | .carr dims t, v, m, q, _ => by simp [encB]
  | .smap t, v, m, q, _ => by simp [encB]
  | .pair a b, v, m, q, _ => by simp [encB]
  | .tuple ts, v, m, q, _ => by simp [encB]
  | .ptr t, v, m, q, _ => by simp [encB]
  | .excl _, v, m, q, _ => by simp [encB]
  | .cst t, v, m, q, _ => by simp [encB]
end

theorem mput_end {β : Type} (k : Str) (b : β) : ∀ (m : List (Str × β)),
    (∀ e ∈ m, strLt e.1 k = true) → mput strLt k b m = m ++ [(k, b)]
  | [], _ => rfl
  | (k', b') :: m, h => by
    have h1 := h (k', b') (by simp)
    have h2 : strLt k k' = false := strOrd.asymm h1
    simp only [mput, h1, h2]
    simp [mput_end k b m (fun e he => h e (by simp [he]))]

/-- Position of a member. -/
def SlotOk (p : Pos) (k : Str) (m : List (Str × J)) : Prop :=
  (p = .slot ∧ mfind strLt k m = none) ∨ (p = .held ∧ mfind strLt k m = some (.obj []))

theorem SlotOk.minsert {p : Pos} {k : Str} {m : List (Str × J)} (h : SlotOk p k m) :
    mfind strLt k (minsert strLt k (.obj []) m) = some (.obj []) := by
  rw [mfind_minsert strOrd, if_pos rfl]
  rcases h with ⟨_, h⟩ | ⟨_, h⟩ <;> simp [h]

/-- Entries of a map, given that values are packed right. -/
theorem packKV_ok {f : JP → Str → JV → R JP} {g : JV → J} {cs : List Str} :
    ∀ (l : List (Str × JV)) (o : JP) (m : List (Str × J)),
    (∀ e ∈ l, WF (g e.2)) →
    (∀ e ∈ l, ∀ (o : JP) (m : List (Str × J)), WF o.v → walk o.v cs = .ok (.obj m) →
      mfind strLt e.1 m = none → f o (render (cs ++ [e.1])) e.2
        = .ok { o with v := replace o.v cs (.obj (mput strLt e.1 (g e.2) m)) }) →
    WF o.v → walk o.v cs = .ok (.obj m) → Sorted strLt (m ++ l.map fun e => (e.1, g e.2)) →
    packKV f (render cs) l o
      = .ok { o with v := replace o.v cs (.obj (m ++ l.map fun e => (e.1, g e.2))) }
  | [], o, m, _, _, hw, hx, _ => by
    simp only [packKV, List.map, List.append_nil]
    rw [replace_same hw hx]
  | (k, v) :: l, o, m, hg, hf, hw, hx, hs => by
    have hp := hs.pairwise
    rw [List.map_append, List.pairwise_append] at hp
    have hlt : ∀ e ∈ m, strLt e.1 k = true := fun e he =>
      hp.2.2 e.1 (List.mem_map.2 ⟨e, he, rfl⟩) k (by simp)
    have hnone : mfind strLt k m = none := by
      refine (mfind_none_iff strOrd (walk_sorted hw hx) k).2 ?_
      intro hk
      obtain ⟨e, he, rfl⟩ := List.mem_map.1 hk
      have := hlt e he
      rw [strOrd.irrefl] at this
      simp at this
    have hr : render cs ++ dot :: k = render (cs ++ [k]) := by
      rw [render_append]; simp [render]
    simp only [packKV]
    rw [hr, hf (k, v) (by simp) o m hw hx hnone]
    simp only
    have hwo : WF (.obj (mput strLt k (g v) m)) := wf_put (walk_wf hw hx) k (hg (k, v) (by simp))
    rw [packKV_ok l _ (mput strLt k (g v) m) (fun e he => hg e (by simp [he]))
      (fun e he => hf e (by simp [he])) (wf_replace hw hwo) (walk_replace hw hx)
      (by rw [mput_end k (g v) m hlt]; simpa using hs)]
    simp only
    rw [replace_replace hw, mput_end k (g v) m hlt]
    simp

end Verif.Json
