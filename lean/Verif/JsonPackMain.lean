import Verif.JsonPack
namespace Verif.Json
open OMap EnumKeys

theorem dfirst (cs : List Str) :
    render cs ++ [46, 102, 105, 114, 115, 116] = render (cs ++ [sFirst]) := by
  rw [render_append]; simp [render, sFirst, dot]

theorem dsecond (cs : List Str) :
    render cs ++ [46, 115, 101, 99, 111, 110, 100] = render (cs ++ [sSecond]) := by
  rw [render_append]; simp [render, sSecond, dot]

theorem first_ok : DotFree sFirst ∧ sFirst ≠ [] := by
  constructor
  · unfold DotFree; decide
  · decide

theorem second_ok : DotFree sSecond ∧ sSecond ≠ [] := by
  constructor
  · unfold DotFree; decide
  · decide

theorem root_free : (JP.mk' .null).v = .obj [] ∨ ∀ m, (JP.mk' .null).v ≠ .obj m :=
  .inr (fun m => by simp [JP.mk'])

theorem walk_slot {o : JP} {cs : List Str} {k : Str} {m : List (Str × J)} {y : J}
    (h : walk o.v cs = .ok (.obj m)) (hk : mfind strLt k m = some y) :
    walk o.v (cs ++ [k]) = .ok y := by rw [walk_snoc h, hk]

theorem elems_ok {lib : Lib} {t : JT} {l : List JV}
    (h : ∀ x ∈ l, ∃ o', packJ lib t (.mk' .null) [] x = .ok o' ∧ o'.v = enc lib t x) :
    ∀ x ∈ l, (packJ lib t (.mk' .null) [] x).map JP.v = .ok (enc lib t x) := by
  intro x hx
  obtain ⟨o', h1, h2⟩ := h x hx
  rw [h1, ← h2]
  rfl

mutual
theorem pack_root (lib : Lib) : ∀ (t : JT) (v : JV) (o : JP), Ok .root t → Rep lib t v →
    (o.v = .obj [] ∨ ∀ m, o.v ≠ .obj m) →
    ∃ o', packJ lib t o [] v = .ok o' ∧ o'.v = enc lib t v
  | .bool, v, o, _, h, ho => by
    unfold Rep at h; obtain ⟨b, rfl⟩ := h
    exact ⟨_, by simp only [packJ, packLeaf, if_true]; rfl, rfl⟩
  | .int u, v, o, _, h, ho => by
    unfold Rep at h; obtain ⟨b, rfl, hr⟩ := h
    refine ⟨.mk' (.int b), ?_, rfl⟩
    simp only [packJ, packLeaf, if_true]
    rw [cast_of_inRange (via_inRange hr)]
  | .real, v, o, _, h, ho => by
    unfold Rep at h; obtain ⟨b, rfl⟩ := h
    exact ⟨_, by simp only [packJ, packLeaf, if_true]; rfl, rfl⟩
  | .flt, v, o, _, h, ho => by
    unfold Rep at h; obtain ⟨b, rfl⟩ := h
    exact ⟨_, by simp only [packJ, packLeaf, if_true]; rfl, rfl⟩
  | .char, v, o, _, h, ho => by
    unfold Rep at h; obtain ⟨b, rfl⟩ := h
    exact ⟨_, by simp only [packJ, packLeaf, if_true]; rfl, rfl⟩
  | .str, v, o, _, h, ho => by
    unfold Rep at h; obtain ⟨b, rfl⟩ := h
    exact ⟨_, by simp only [packJ, packLeaf, if_true]; rfl, rfl⟩
  | .enum u d, v, o, _, h, ho => by
    unfold Rep at h; obtain ⟨n, i, rfl, _⟩ := h
    refine ⟨.mk' (.str (textWrite (table d) i)), ?_, rfl⟩
    simp only [packJ]
    rw [createObj_root o ho]
    simp only [R.bind, packLeaf, if_true]
  | .struct fs, v, o, hk, h, ho => by
    unfold Rep at h
    unfold Ok at hk
    have hv := objectify_root o ho
    have hw : WF o.objectify.v := by rw [hv]; exact wf_nil
    simp only [packJ]
    rw [createObj_root o ho]
    simp only [R.bind]
    have := pack_F lib fs v o.objectify [] [] hk.1 h (fun c hc => by simp at hc) hw
      (by simp [walk, hv]) hk.2 (fun k _ => by simp [mfind])
    simp only [render] at this
    rw [this]
    refine ⟨_, rfl, ?_⟩
    simp only [enc, hv, replace]
  | .seq t, v, o, hk, h, ho => by
    unfold Rep at h
    unfold Ok at hk
    obtain ⟨l, rfl, hr⟩ := h
    simp only [packJ]
    rw [mapR_ok l (elems_ok fun x hx => pack_root lib t x _ hk (hr x hx) root_free)]
    simp only [enc]
    exact packCont_root o ho _
  | .arr n t, v, o, hk, h, ho => by
    unfold Rep at h
    unfold Ok at hk
    obtain ⟨l, rfl, _, hr⟩ := h
    simp only [packJ]
    rw [mapR_ok l (elems_ok fun x hx => pack_root lib t x _ hk (hr x hx) root_free)]
    simp only [enc]
    exact packCont_root o ho _
  | .assoc _ _ t, v, o, hk, h, ho => by
    unfold Rep at h
    unfold Ok at hk
    obtain ⟨l, rfl, hr, _⟩ := h
    simp only [packJ]
    rw [mapR_ok l (elems_ok fun x hx => pack_root lib t x _ hk.1 (hr x hx) root_free)]
    simp only [enc]
    exact packCont_root o ho _
  | .carr dims t, v, o, hk, h, ho => by
    unfold Ok at hk
    exact absurd rfl hk.1
  | .smap t, v, o, hk, h, ho => by
    unfold Rep at h
    unfold Ok at hk
    obtain ⟨l, rfl, hs, hd, hr⟩ := h
    have hv := objectify_root o ho
    have hw : WF o.objectify.v := by rw [hv]; exact wf_nil
    have hkv := packKV_ok (f := packJ lib t) (g := enc lib t) (cs := []) l o.objectify []
      (fun e he => wf_enc lib t e.2 (hr e he))
      (fun e he o m hw hx hn => pack_mem lib t e.2 .slot o [] e.1 m hk (hr e he)
        (by intro c hc; simp at hc; subst hc; exact hd e he) hw hx (.inl ⟨rfl, hn⟩))
      hw (by simp [walk, hv]) (by simpa using kv_sorted hs)
    simp only [packJ]
    rw [createObj_root o ho]
    simp only [R.bind]
    rw [show parentOf o.objectify [] = .ok [] from by
      simp [parentOf, head, find, findN, hv, R.bind]]
    simp only [catchP', R.bind, if_true]
    simp only [render] at hkv
    rw [hkv]
    refine ⟨_, rfl, ?_⟩
    simp only [enc, hv, replace, List.nil_append]
  | .pair a b, v, o, hk, h, ho => by
    unfold Rep at h
    unfold Ok at hk
    obtain ⟨x, y, rfl, h1, h2⟩ := h
    have hv := objectify_root o ho
    have hw : WF o.objectify.v := by rw [hv]; exact wf_nil
    have hwalk : walk o.objectify.v [] = .ok (.obj []) := by simp [walk, hv]
    have e1 := pack_mem lib a x .slot o.objectify [] sFirst [] hk.2.1 h1
      (PathOk.snoc (fun c hc => by simp at hc) first_ok) hw hwalk (.inl ⟨rfl, rfl⟩)
    simp only [packJ]
    rw [show ([] : Str) ++ [46, 102, 105, 114, 115, 116] = render ([] ++ [sFirst]) from dfirst [], e1]
    simp only [R.bind]
    rw [show ([] : Str) ++ [46, 115, 101, 99, 111, 110, 100] = render ([] ++ [sSecond]) from dsecond []]
    have hwf : WF (.obj (mput strLt sFirst (enc lib a x) [])) := wf_put wf_nil _ (wf_enc lib a x h1)
    rw [pack_mem lib b y .slot _ [] sSecond (mput strLt sFirst (enc lib a x) []) hk.2.2 h2
      (PathOk.snoc (fun c hc => by simp at hc) second_ok) (wf_replace hw hwf)
      (walk_replace hw hwalk) (.inl ⟨rfl, by rw [mfind_mput strOrd, if_neg (by decide)]; rfl⟩)]
    refine ⟨_, rfl, ?_⟩
    simp only [enc]
    rw [replace_replace hw, hv]
    rfl
  | .tuple ts, v, o, hk, h, ho => by unfold Ok at hk; exact hk.elim
  | .ptr t, v, o, hk, h, ho => by
    unfold Rep at h
    unfold Ok at hk
    rcases h with ⟨rfl, _⟩ | ⟨x, rfl, h⟩
    · simp only [packJ]
      rw [createObj_root o ho]
      exact ⟨_, rfl, by simp only [enc]; exact objectify_root o ho⟩
    · simp only [packJ]
      rw [createObj_root o ho]
      simp only [R.bind, enc]
      exact pack_root lib t x o.objectify hk h (.inl (objectify_root o ho))
  | .excl _, v, o, hk, h, ho => by unfold Ok at hk; exact hk.elim
  | .cst t, v, o, hk, h, ho => by unfold Ok at hk; exact absurd hk.1 (by decide)

theorem pack_mem (lib : Lib) : ∀ (t : JT) (v : JV) (p : Pos) (o : JP) (cs : List Str) (k : Str)
    (m : List (Str × J)), Ok p t → Rep lib t v → PathOk (cs ++ [k]) → WF o.v →
    walk o.v cs = .ok (.obj m) → SlotOk p k m →
    packJ lib t o (render (cs ++ [k])) v
      = .ok { o with v := replace o.v cs (.obj (mput strLt k (enc lib t v) m)) }
  | .bool, v, p, o, cs, k, m, _, h, hp, hw, hx, hs => by
    unfold Rep at h; obtain ⟨b, rfl⟩ := h
    simp only [packJ, enc]; exact packLeaf_mem hp hx _
  | .int u, v, p, o, cs, k, m, _, h, hp, hw, hx, hs => by
    unfold Rep at h; obtain ⟨b, rfl, hr⟩ := h
    simp only [packJ, enc]
    rw [cast_of_inRange (via_inRange hr)]
    exact packLeaf_mem hp hx _
  | .real, v, p, o, cs, k, m, _, h, hp, hw, hx, hs => by
    unfold Rep at h; obtain ⟨b, rfl⟩ := h
    simp only [packJ, enc]; exact packLeaf_mem hp hx _
  | .flt, v, p, o, cs, k, m, _, h, hp, hw, hx, hs => by
    unfold Rep at h; obtain ⟨b, rfl⟩ := h
    simp only [packJ, enc]; exact packLeaf_mem hp hx _
  | .char, v, p, o, cs, k, m, _, h, hp, hw, hx, hs => by
    unfold Rep at h; obtain ⟨b, rfl⟩ := h
    simp only [packJ, enc]; exact packLeaf_mem hp hx _
  | .str, v, p, o, cs, k, m, _, h, hp, hw, hx, hs => by
    unfold Rep at h; obtain ⟨b, rfl⟩ := h
    simp only [packJ, enc]; exact packLeaf_mem hp hx _
  | .enum u d, v, p, o, cs, k, m, _, h, hp, hw, hx, hs => by
    unfold Rep at h; obtain ⟨n, i, rfl, _⟩ := h
    simp only [packJ, enc]
    rw [createObj_mem hp hx]
    simp only [R.bind]
    have hwf : WF (.obj (minsert strLt k (.obj []) m)) := wf_minsert (walk_wf hw hx) k
    rw [packLeaf_mem hp (walk_replace hw hx)]
    simp only
    rw [replace_replace hw, mput_minsert _ _ _ (walk_sorted hw hx)]
  | .struct fs, v, p, o, cs, k, m, hk, h, hp, hw, hx, hs => by
    unfold Rep at h
    unfold Ok at hk
    simp only [packJ, enc]
    rw [createObj_mem hp hx]
    simp only [R.bind]
    have hwf : WF (.obj (minsert strLt k (.obj []) m)) := wf_minsert (walk_wf hw hx) k
    have hx1 := walk_replace (v := .obj (minsert strLt k (.obj []) m)) hw hx
    rw [pack_F lib fs v _ (cs ++ [k]) [] hk.1 h hp (wf_replace hw hwf)
      (by rw [walk_snoc hx1, hs.minsert]) hk.2 (fun k _ => by simp [mfind])]
    simp only
    rw [replace_snoc (wf_replace hw hwf) hx1 hs.minsert, replace_replace hw,
      mput_minsert _ _ _ (walk_sorted hw hx)]
  | .seq t, v, p, o, cs, k, m, hk, h, hp, hw, hx, hs => by
    unfold Rep at h
    unfold Ok at hk
    obtain ⟨l, rfl, hr⟩ := h
    simp only [packJ, enc]
    rw [mapR_ok l (elems_ok fun x hx => pack_root lib t x _ hk (hr x hx) root_free)]
    exact packCont_mem hp hx _
  | .arr n t, v, p, o, cs, k, m, hk, h, hp, hw, hx, hs => by
    unfold Rep at h
    unfold Ok at hk
    obtain ⟨l, rfl, _, hr⟩ := h
    simp only [packJ, enc]
    rw [mapR_ok l (elems_ok fun x hx => pack_root lib t x _ hk (hr x hx) root_free)]
    exact packCont_mem hp hx _
  | .assoc _ _ t, v, p, o, cs, k, m, hk, h, hp, hw, hx, hs => by
    unfold Rep at h
    unfold Ok at hk
    obtain ⟨l, rfl, hr, _⟩ := h
    simp only [packJ, enc]
    rw [mapR_ok l (elems_ok fun x hx => pack_root lib t x _ hk.1 (hr x hx) root_free)]
    exact packCont_mem hp hx _
  | .carr dims t, v, p, o, cs, k, m, hk, h, hp, hw, hx, hs => by
    unfold Rep at h
    unfold Ok at hk
    obtain ⟨l, rfl, hl, hr⟩ := h
    have hkd := (hp k (by simp)).1
    simp only [packJ, enc]
    rw [packArr_ok dims l hl (elems_ok fun x hx => pack_root lib t x _ hk.2.2 (hr x hx) root_free),
      parentOf_mem hp hx, head_render hkd, tail_render hkd]
    simp only [R.bind, catchP]
    rw [store_render hp.left.dots]
  | .smap t, v, p, o, cs, k, m, hk, h, hp, hw, hx, hs => by
    unfold Rep at h
    unfold Ok at hk
    obtain ⟨l, rfl, hsl, hd, hr⟩ := h
    have hwf : WF (.obj (minsert strLt k (.obj []) m)) := wf_minsert (walk_wf hw hx) k
    have hx1 := walk_replace (v := .obj (minsert strLt k (.obj []) m)) hw hx
    simp only [packJ, enc]
    rw [createObj_mem hp hx]
    simp only [R.bind]
    rw [parentOf_mem hp hx1]
    simp only [catchP', R.bind, if_true]
    rw [packKV_ok (f := packJ lib t) (g := enc lib t) (cs := cs ++ [k]) l _ []
      (fun e he => wf_enc lib t e.2 (hr e he))
      (fun e he o m hw hx hn => pack_mem lib t e.2 .slot o (cs ++ [k]) e.1 m hk (hr e he)
        (hp.snoc (hd e he)) hw hx (.inl ⟨rfl, hn⟩))
      (wf_replace hw hwf) (by rw [walk_snoc hx1, hs.minsert]) (by simpa using kv_sorted hsl)]
    simp only [List.nil_append]
    rw [replace_snoc (wf_replace hw hwf) hx1 hs.minsert, replace_replace hw,
      mput_minsert _ _ _ (walk_sorted hw hx)]
  | .pair a b, v, p, o, cs, k, m, hk, h, hp, hw, hx, hs => by
    unfold Rep at h
    unfold Ok at hk
    obtain ⟨x, y, rfl, h1, h2⟩ := h
    have hheld : mfind strLt k m = some (.obj []) := by
      rcases hs with ⟨e, _⟩ | ⟨_, hs⟩
      · exact absurd e hk.1
      · exact hs
    have hwalk : walk o.v (cs ++ [k]) = .ok (.obj []) := walk_slot hx hheld
    have e1 := pack_mem lib a x .slot o (cs ++ [k]) sFirst [] hk.2.1 h1
      (hp.snoc first_ok) hw hwalk (.inl ⟨rfl, rfl⟩)
    simp only [packJ]
    rw [objectify_obj hx, dfirst, e1]
    simp only [R.bind]
    have hwf : WF (.obj (mput strLt sFirst (enc lib a x) [])) := wf_put wf_nil _ (wf_enc lib a x h1)
    rw [dsecond, pack_mem lib b y .slot _ (cs ++ [k]) sSecond (mput strLt sFirst (enc lib a x) [])
      hk.2.2 h2 (hp.snoc second_ok) (wf_replace hw hwf)
      (walk_replace hw hwalk) (.inl ⟨rfl, by rw [mfind_mput strOrd, if_neg (by decide)]; rfl⟩)]
    simp only [enc]
    rw [replace_replace hw, replace_snoc hw hx hheld]
  | .tuple ts, v, p, o, cs, k, m, hk, h, hp, hw, hx, hs => by unfold Ok at hk; exact hk.elim
  | .ptr t, v, p, o, cs, k, m, hk, h, hp, hw, hx, hs => by
    unfold Rep at h
    have hk' : Ok .held t := by
      rcases hs with ⟨rfl, _⟩ | ⟨rfl, _⟩ <;> simpa [Ok] using hk
    have hwf : WF (.obj (minsert strLt k (.obj []) m)) := wf_minsert (walk_wf hw hx) k
    have hx1 := walk_replace (v := .obj (minsert strLt k (.obj []) m)) hw hx
    rcases h with ⟨rfl, _⟩ | ⟨x, rfl, h⟩
    · simp only [packJ, enc]
      rw [createObj_mem hp hx]
      congr 3
      apply congrArg
      apply Sorted.ext strOrd (sorted_minsert strOrd _ _ _ (walk_sorted hw hx))
        (sorted_mput strOrd _ _ _ (walk_sorted hw hx))
      intro q
      rw [mfind_mput strOrd, mfind_minsert strOrd]
      split
      · subst_vars
        rcases hs with ⟨_, hs⟩ | ⟨_, hs⟩ <;> simp [hs]
      · rfl
    · simp only [packJ, enc]
      rw [createObj_mem hp hx]
      simp only [R.bind]
      rw [pack_mem lib t x .held _ cs k _ hk' h hp (wf_replace hw hwf) hx1 (.inr ⟨rfl, hs.minsert⟩)]
      simp only
      rw [replace_replace hw, mput_minsert _ _ _ (walk_sorted hw hx)]
  | .excl _, v, p, o, cs, k, m, hk, h, hp, hw, hx, hs => by unfold Ok at hk; exact hk.elim
  | .cst t, v, p, o, cs, k, m, hk, h, hp, hw, hx, hs => by
    unfold Rep at h
    unfold Ok at hk
    have := pack_mem lib t v p o cs k m (hk.1 ▸ hk.2) h hp hw hx hs
    unfold packJ enc
    exact this

theorem pack_F (lib : Lib) : ∀ (fs : Fs) (v : JV) (o : JP) (cs : List Str) (m : List (Str × J)),
    OkF fs → RepF lib fs v → PathOk cs → WF o.v → walk o.v cs = .ok (.obj m) →
    (keysF fs).Nodup → (∀ k ∈ keysF fs, mfind strLt k m = none) →
    packF lib fs o (render cs) v
      = .ok { o with v := replace o.v cs (.obj (encF lib fs v m)) }
  | .nil, v, o, cs, m, hk, h, hp, hw, hx, hn, hf => by
    simp only [packF, encF]
    rw [replace_same hw hx]
  | .mem k t r, v, o, cs, m, hk, h, hp, hw, hx, hn, hf => by
    unfold RepF at h
    unfold OkF at hk
    unfold keysF at hn hf
    obtain ⟨x, y, rfl, h1, h2⟩ := h
    simp only [packF, encF]
    cases he : isExcl t with
    | true =>
      simp only [he, if_true] at hn hf ⊢
      cases t with
      | excl d =>
        simp only [packJ, R.bind]
        exact pack_F lib r y o cs m hk.2.2 h2 hp hw hx hn hf
      | _ => simp [isExcl] at he
    | false =>
      simp only [he] at hn hf ⊢
      simp only [Bool.false_eq_true, if_false, List.nodup_cons, List.mem_cons] at hn hf ⊢
      have hkt : Ok .slot t := by
        rcases hk.2.1 with h | h
        · simp [he] at h
        · exact h
      rw [show render cs ++ dot :: k = render (cs ++ [k]) from by
        rw [render_append]; simp [render]]
      rw [pack_mem lib t x .slot o cs k m hkt h1 (hp.snoc hk.1) hw hx
        (.inl ⟨rfl, hf k (.inl rfl)⟩)]
      simp only [R.bind]
      have hwf : WF (.obj (mput strLt k (enc lib t x) m)) :=
        wf_put (walk_wf hw hx) k (wf_enc lib t x h1)
      rw [pack_F lib r y _ cs (mput strLt k (enc lib t x) m) hk.2.2 h2 hp (wf_replace hw hwf)
        (walk_replace hw hx) hn.2 (by
          intro q hq
          rw [mfind_mput strOrd, if_neg (by rintro rfl; exact hn.1 hq)]
          exact hf q (.inr hq))]
      simp only
      rw [replace_replace hw]
  | .base t r, v, o, cs, m, hk, h, hp, hw, hx, hn, hf => by
    unfold RepF at h
    unfold OkF at hk
    unfold keysF at hn hf
    obtain ⟨x, y, rfl, h1, h2⟩ := h
    rw [List.nodup_append] at hn
    simp only [packF, encF]
    rw [pack_B lib t x o cs m hk.1 h1 hp hw hx hn.1 (fun q hq => hf q (by simp [hq]))]
    simp only [R.bind]
    have hwf : WF (.obj (encB lib t x m)) := wf_encB lib t x m h1 (walk_wf hw hx)
    rw [pack_F lib r y _ cs (encB lib t x m) hk.2 h2 hp (wf_replace hw hwf)
        (walk_replace hw hx) hn.2.1 (by
          intro q hq
          rw [encB_other lib t x m q (fun hb => hn.2.2 q hb q hq rfl)]
          exact hf q (by simp [hq]))]
    simp only
    rw [replace_replace hw]

theorem pack_B (lib : Lib) : ∀ (t : JT) (v : JV) (o : JP) (cs : List Str) (m : List (Str × J)),
    OkB t → Rep lib t v → PathOk cs → WF o.v → walk o.v cs = .ok (.obj m) →
    (keysB t).Nodup → (∀ k ∈ keysB t, mfind strLt k m = none) →
    packJ lib t o (render cs) v
      = .ok { o with v := replace o.v cs (.obj (encB lib t v m)) }
  | .struct fs, v, o, cs, m, hk, h, hp, hw, hx, hn, hf => by
    unfold Rep at h
    unfold OkB at hk
    unfold keysB at hn hf
    simp only [packJ, encB]
    rw [createObj_obj hw hp hx]
    simp only [R.bind]
    exact pack_F lib fs v o cs m hk h hp hw hx hn hf
  | .bool, v, o, cs, m, hk, h, hp, hw, hx, hn, hf => by unfold OkB at hk; exact hk.elim
  | .int _, v, o, cs, m, hk, h, hp, hw, hx, hn, hf => by unfold OkB at hk; exact hk.elim
  | .real, v, o, cs, m, hk, h, hp, hw, hx, hn, hf => by unfold OkB at hk; exact hk.elim
  | .flt, v, o, cs, m, hk, h, hp, hw, hx, hn, hf => by unfold OkB at hk; exact hk.elim
  | .char, v, o, cs, m, hk, h, hp, hw, hx, hn, hf => by unfold OkB at hk; exact hk.elim
  | .str, v, o, cs, m, hk, h, hp, hw, hx, hn, hf => by unfold OkB at hk; exact hk.elim
  | .enum _ _, v, o, cs, m, hk, h, hp, hw, hx, hn, hf => by unfold OkB at hk; exact hk.elim
  | .seq _, v, o, cs, m, hk, h, hp, hw, hx, hn, hf => by unfold OkB at hk; exact hk.elim
  | .arr _ _, v, o, cs, m, hk, h, hp, hw, hx, hn, hf => by unfold OkB at hk; exact hk.elim
  | .carr _ _, v, o, cs, m, hk, h, hp, hw, hx, hn, hf => by unfold OkB at hk; exact hk.elim
  | .assoc _ _ _, v, o, cs, m, hk, h, hp, hw, hx, hn, hf => by unfold OkB at hk; exact hk.elim
  | .smap _, v, o, cs, m, hk, h, hp, hw, hx, hn, hf => by unfold OkB at hk; exact hk.elim
  | .pair _ _, v, o, cs, m, hk, h, hp, hw, hx, hn, hf => by unfold OkB at hk; exact hk.elim
  | .tuple _, v, o, cs, m, hk, h, hp, hw, hx, hn, hf => by unfold OkB at hk; exact hk.elim
  | .ptr _, v, o, cs, m, hk, h, hp, hw, hx, hn, hf => by unfold OkB at hk; exact hk.elim
  | .excl _, v, o, cs, m, hk, h, hp, hw, hx, hn, hf => by unfold OkB at hk; exact hk.elim
  | .cst _, v, o, cs, m, hk, h, hp, hw, hx, hn, hf => by unfold OkB at hk; exact hk.elim
end

end Verif.Json
