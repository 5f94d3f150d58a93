import Verif.JsonUnpack
namespace Verif.Json
open OMap EnumKeys

mutual
/-- The members are in the object. -/
def Holds (lib : Lib) : Fs → JV → List (Str × J) → Prop
  | .mem k t r, .pair x y, m =>
    (isExcl t = true ∨ mfind strLt k m = some (enc lib t x)) ∧ Holds lib r y m
  | .base t r, .pair x y, m => HoldsB lib t x m ∧ Holds lib r y m
  | _, _, _ => True
def HoldsB (lib : Lib) : JT → JV → List (Str × J) → Prop
  | .struct fs, v, m => Holds lib fs v m
  | _, _, _ => True
end

mutual
theorem Holds.congr {lib : Lib} : ∀ {fs : Fs} {v : JV} {m m' : List (Str × J)}, Holds lib fs v m →
    (∀ k ∈ keysF fs, mfind strLt k m' = mfind strLt k m) → Holds lib fs v m'
  | .nil, v, m, m', h, hk => by unfold Holds; trivial
  | .mem k t r, v, m, m', h, hk => by
    cases v with
    | pair x y =>
      unfold Holds at h ⊢
      unfold keysF at hk
      by_cases he : isExcl t = true
      · rw [if_pos he] at hk
        exact ⟨.inl he, Holds.congr h.2 hk⟩
      · rw [if_neg he] at hk
        refine ⟨.inr ?_, Holds.congr h.2 (fun q hq => hk q (by simp [hq]))⟩
        rw [hk k (by simp)]
        exact h.1.resolve_left he
    | _ => unfold Holds; trivial
  | .base t r, v, m, m', h, hk => by
    cases v with
    | pair x y =>
      unfold Holds at h ⊢
      unfold keysF at hk
      exact ⟨HoldsB.congr h.1 (fun q hq => hk q (by simp [hq])),
        Holds.congr h.2 (fun q hq => hk q (by simp [hq]))⟩
    | _ => unfold Holds; trivial
theorem HoldsB.congr {lib : Lib} : ∀ {t : JT} {v : JV} {m m' : List (Str × J)}, HoldsB lib t v m →
    (∀ k ∈ keysB t, mfind strLt k m' = mfind strLt k m) → HoldsB lib t v m'
  | .struct fs, v, m, m', h, hk => by
    unfold HoldsB at h ⊢
    unfold keysB at hk
    exact Holds.congr h hk
  | .bool, v, m, m', h, hk => by unfold HoldsB; trivial
  | .int _, v, m, m', h, hk => by unfold HoldsB; trivial
  | .real, v, m, m', h, hk => by unfold HoldsB; trivial
  | .flt, v, m, m', h, hk => by unfold HoldsB; trivial
  | .char, v, m, m', h, hk => by unfold HoldsB; trivial
  | .str, v, m, m', h, hk => by unfold HoldsB; trivial
  | .enum _ _, v, m, m', h, hk => by unfold HoldsB; trivial
  | .seq _, v, m, m', h, hk => by unfold HoldsB; trivial
  | .arr _ _, v, m, m', h, hk => by unfold HoldsB; trivial
  | .carr _ _, v, m, m', h, hk => by unfold HoldsB; trivial
  | .assoc _ _ _, v, m, m', h, hk => by unfold HoldsB; trivial
  | .smap _, v, m, m', h, hk => by unfold HoldsB; trivial
  | .pair _ _, v, m, m', h, hk => by unfold HoldsB; trivial
  | .tuple _, v, m, m', h, hk => by unfold HoldsB; trivial
  | .ptr _, v, m, m', h, hk => by unfold HoldsB; trivial
  | .excl _, v, m, m', h, hk => by unfold HoldsB; trivial
  | .cst _, v, m, m', h, hk => by unfold HoldsB; trivial
end

mutual
theorem holds_encF (lib : Lib) : ∀ (fs : Fs) (v : JV) (m : List (Str × J)), (keysF fs).Nodup →
    Holds lib fs v (encF lib fs v m)
  | .nil, v, m, hn => by unfold Holds; trivial
  | .mem k t r, v, m, hn => by
    cases v with
    | pair x y =>
      unfold keysF at hn
      simp only [encF]
      unfold Holds
      by_cases he : isExcl t = true
      · rw [if_pos he] at hn
        exact ⟨.inl he, holds_encF lib r y _ hn⟩
      · rw [if_neg he] at hn
        rw [List.nodup_cons] at hn
        refine ⟨.inr ?_, holds_encF lib r y _ hn.2⟩
        rw [encF_other lib r y _ k hn.1, if_neg he, mfind_mput strOrd, if_pos rfl]
    | _ => unfold Holds; trivial
  | .base t r, v, m, hn => by
    cases v with
    | pair x y =>
      unfold keysF at hn
      rw [List.nodup_append] at hn
      simp only [encF]
      unfold Holds
      refine ⟨HoldsB.congr (holds_encB lib t x m hn.1) (fun q hq => ?_), holds_encF lib r y _ hn.2.1⟩
      exact encF_other lib r y _ q (fun h => hn.2.2 q hq q h rfl)
    | _ => unfold Holds; trivial
theorem holds_encB (lib : Lib) : ∀ (t : JT) (v : JV) (m : List (Str × J)), (keysB t).Nodup →
    HoldsB lib t v (encB lib t v m)
  | .struct fs, v, m, hn => by
    unfold HoldsB
    unfold keysB at hn
    simp only [encB]
    exact holds_encF lib fs v m hn
  | .bool, v, m, _ => by unfold HoldsB; trivial
  | .int _, v, m, _ => by unfold HoldsB; trivial
  | .real, v, m, _ => by unfold HoldsB; trivial
  | .flt, v, m, _ => by unfold HoldsB; trivial
  | .char, v, m, _ => by unfold HoldsB; trivial
  | .str, v, m, _ => by unfold HoldsB; trivial
  | .enum _ _, v, m, _ => by unfold HoldsB; trivial
  | .seq _, v, m, _ => by unfold HoldsB; trivial
  | .arr _ _, v, m, _ => by unfold HoldsB; trivial
  | .carr _ _, v, m, _ => by unfold HoldsB; trivial
  | .assoc _ _ _, v, m, _ => by unfold HoldsB; trivial
  | .smap _, v, m, _ => by unfold HoldsB; trivial
  | .pair _ _, v, m, _ => by unfold HoldsB; trivial
  | .tuple _, v, m, _ => by unfold HoldsB; trivial
  | .ptr _, v, m, _ => by unfold HoldsB; trivial
  | .excl _, v, m, _ => by unfold HoldsB; trivial
  | .cst _, v, m, _ => by unfold HoldsB; trivial
end

theorem null_basic {lib : Lib} (hl : lib.mm = .lib) {t : JT} (ht : isBasic t = true) {o : JP}
    {d : Str} (hf : find o.v d = .ok (.obj [])) (x : JV) :
    ∃ y, unpackJ lib t o d x = (.throw .lib, y) := by
  cases t <;> simp [isBasic] at ht <;>
    exact ⟨x, by simp [unpackJ, unpackLeaf, hf, R.bind, getBool, getInt, getReal, getFlt, getChar,
      getStr, hl, catchU, Err.isPack]⟩

theorem find_of_walk {o : JP} {cs : List Str} (hp : PathOk cs) {j : J} (h : walk o.v cs = .ok j) :
    find o.v (render cs) = .ok j := by rw [find_render hp.dots, h]

variable {lib : Lib} (hlib : ∀ r, lib.narrow (lib.widen r) = r)

include hlib in
mutual
theorem unpack_at : ∀ (t : JT) (v dst : JV) (p : Pos) (o : JP) (cs : List Str), Ok p t →
    Rep lib t v → Typed t dst → PathOk cs → walk o.v cs = .ok (enc lib t v) →
    unpackJ lib t o (render cs) dst = (.ok, restore t v dst)
  | .bool, v, dst, p, o, cs, hk, hr, ht, hp, hx => by
    unfold Rep at hr; obtain ⟨b, rfl⟩ := hr
    simp only [unpackJ, restore]
    exact unpackLeaf_ok dst (find_of_walk hp hx) rfl
  | .int u, v, dst, p, o, cs, hk, hr, ht, hp, hx => by
    unfold Rep at hr; obtain ⟨b, rfl, hr⟩ := hr
    simp only [unpackJ, restore]
    refine unpackLeaf_ok dst (find_of_walk hp hx) ?_
    simp only [enc, getInt]
    rw [cast_of_inRange (via_inRange hr), cast_of_inRange hr]
  | .real, v, dst, p, o, cs, hk, hr, ht, hp, hx => by
    unfold Rep at hr; obtain ⟨b, rfl⟩ := hr
    simp only [unpackJ, restore]
    exact unpackLeaf_ok dst (find_of_walk hp hx) rfl
  | .flt, v, dst, p, o, cs, hk, hr, ht, hp, hx => by
    unfold Rep at hr; obtain ⟨b, rfl⟩ := hr
    simp only [unpackJ, restore]
    refine unpackLeaf_ok dst (find_of_walk hp hx) ?_
    simp only [enc, getFlt, hlib]
  | .char, v, dst, p, o, cs, hk, hr, ht, hp, hx => by
    unfold Rep at hr; obtain ⟨b, rfl⟩ := hr
    simp only [unpackJ, restore]
    exact unpackLeaf_ok dst (find_of_walk hp hx) rfl
  | .str, v, dst, p, o, cs, hk, hr, ht, hp, hx => by
    unfold Rep at hr; obtain ⟨b, rfl⟩ := hr
    simp only [unpackJ, restore]
    exact unpackLeaf_ok dst (find_of_walk hp hx) rfl
  | .enum u decl, v, dst, p, o, cs, hk, hr, ht, hp, hx => by
    unfold Rep at hr; obtain ⟨n, i, rfl, hm⟩ := hr
    unfold Ok at hk
    simp only [unpackJ, restore]
    rw [unpackLeaf_ok (.str []) (find_of_walk hp hx) rfl]
    simp only
    have := C20_roundtrip_partial hk.1 hk.2.1 hk.2.2 n i hm [] [] (by simp) (by simp)
    simp only [List.nil_append, List.append_nil] at this
    rw [this]
  | .struct fs, v, dst, p, o, cs, hk, hr, ht, hp, hx => by
    unfold Rep at hr; unfold Ok at hk; unfold Typed at ht
    simp only [enc] at hx
    simp only [unpackJ, restore]
    exact unpack_F fs v dst o cs _ hk.1 hr ht hp hx (holds_encF lib fs v [] hk.2)
  | .seq t, v, dst, p, o, cs, hk, hr, ht, hp, hx => by
    unfold Rep at hr; unfold Ok at hk; unfold Typed at ht
    obtain ⟨l, rfl, hr⟩ := hr
    simp only [enc] at hx
    simp only [unpackJ, restore, unSeq]
    rw [find_of_walk hp hx]
    simp only
    rw [each_ok (r := restore t) l _ (by rw [resize_length, List.length_map]) (fun a ha x hx => ?_)]
    · simp [catchU]
    · exact unpack_at t a x .root (.mk' (enc lib t a)) [] hk (hr a ha)
        (by
          rcases resize_mem hx with hx | rfl
          · exact typedL ht x hx
          · exact typed_dflt t)
        (fun c hc => by simp at hc) rfl
  | .arr n t, v, dst, p, o, cs, hk, hr, ht, hp, hx => by
    unfold Rep at hr; unfold Ok at hk; unfold Typed at ht
    obtain ⟨l, rfl, hl, hr⟩ := hr
    obtain ⟨l', rfl, hl', ht⟩ := ht
    simp only [enc] at hx
    simp only [unpackJ, restore, unSeq, JV.elems]
    rw [find_of_walk hp hx]
    simp only
    rw [each_ok (r := restore t) l l' (by rw [hl, hl']) (fun a ha x hx =>
      unpack_at t a x .root (.mk' (enc lib t a)) [] hk (hr a ha) (ht x hx)
        (fun c hc => by simp at hc) rfl)]
    simp [catchU]
  | .carr dims t, v, dst, p, o, cs, hk, hr, ht, hp, hx => by
    unfold Rep at hr; unfold Ok at hk; unfold Typed at ht
    obtain ⟨l, rfl, hl, hr⟩ := hr
    obtain ⟨l', rfl, hl', ht⟩ := ht
    have hu := unArr_ok (lib := lib) (f := fun j y => unpackJ lib t (.mk' j) [] y)
      (g := enc lib t) (r := restore t) dims l l' hl hl'
      (fun a ha x hx => unpack_at t a x .root (.mk' (enc lib t a)) [] hk.2.2 (hr a ha) (ht x hx)
        (fun c hc => by simp at hc) rfl)
    simp only [enc] at hx
    simp only [unpackJ, restore, JV.elems]
    rw [find_of_walk hp hx]
    match dims, hk with
    | s :: ds, _ =>
      simp only [encArr] at hu ⊢
      rw [hu]
      simp [catchU]
    | [], hk => exact absurd rfl hk.2.1
  | .assoc lt multi t, v, dst, p, o, cs, hk, hr, ht, hp, hx => by
    unfold Rep at hr; unfold Ok at hk
    obtain ⟨l, rfl, hr, hs⟩ := hr
    simp only [enc] at hx
    simp only [unpackJ, restore]
    rw [find_of_walk hp hx]
    simp only
    rw [fill_ok l [] (fun a ha => ?_) (by simpa using hs)]
    · simp [catchU]
    · have := unpack_at t a (dflt t) .root (.mk' (enc lib t a)) [] hk.1 (hr a ha) (typed_dflt t)
        (fun c hc => by simp at hc) rfl
      simp only [render] at this
      rw [this, restore_plain lib t a _ hk.2 (hr a ha) (typed_dflt t)]
  | .smap t, v, dst, p, o, cs, hk, hr, ht, hp, hx => by
    unfold Rep at hr; unfold Ok at hk
    obtain ⟨l, rfl, hs, hd, hr⟩ := hr
    simp only [enc] at hx
    simp only [unpackJ, restore]
    rw [find_of_walk hp hx]
    simp only
    rw [fillKV_ok (r := fun x => restore t x (dflt t)) l [] (fun e he => ?_)
      (by simpa using kv_sorted hs)]
    · simp [catchU]
    · have hw : walk o.v (cs ++ [e.1]) = .ok (enc lib t e.2) := by
        rw [walk_snoc hx]
        have hm : (e.1, enc lib t e.2) ∈ l.map fun e => (e.1, enc lib t e.2) :=
          List.mem_map.2 ⟨e, he, rfl⟩
        rw [(mfind_iff_mem strOrd (kv_sorted hs) _ _).2 hm]
      have := unpack_at t e.2 (dflt t) .slot o (cs ++ [e.1]) hk (hr e he) (typed_dflt t)
        (hp.snoc (hd e he)) hw
      rw [show render cs ++ dot :: e.1 = render (cs ++ [e.1]) from by
        rw [render_append]; simp [render]]
      exact this
  | .pair a b, v, dst, p, o, cs, hk, hr, ht, hp, hx => by
    unfold Rep at hr; unfold Ok at hk; unfold Typed at ht
    obtain ⟨x, y, rfl, h1, h2⟩ := hr
    obtain ⟨x', y', rfl, h1', h2'⟩ := ht
    simp only [enc] at hx
    simp only [unpackJ, restore, JV.fst, JV.snd]
    have w1 : walk o.v (cs ++ [sFirst]) = .ok (enc lib a x) := by
      rw [walk_snoc hx, mfind_mput strOrd, if_neg (by decide), mfind_mput strOrd, if_pos rfl]
    have w2 : walk o.v (cs ++ [sSecond]) = .ok (enc lib b y) := by
      rw [walk_snoc hx, mfind_mput strOrd, if_pos rfl]
    rw [dfirst, unpack_at a x x' .slot o (cs ++ [sFirst]) hk.2.1 h1 h1' (hp.snoc first_ok) w1]
    simp only
    rw [dsecond, unpack_at b y y' .slot o (cs ++ [sSecond]) hk.2.2 h2 h2' (hp.snoc second_ok) w2]
  | .tuple _, v, dst, p, o, cs, hk, hr, ht, hp, hx => by unfold Ok at hk; exact hk.elim
  | .ptr t, v, dst, p, o, cs, hk, hr, ht, hp, hx => by
    unfold Rep at hr
    rcases hr with ⟨rfl, hb, hl⟩ | ⟨x, rfl, hr⟩
    · simp only [enc] at hx
      obtain ⟨y, hy⟩ := null_basic hl hb (find_of_walk hp hx) (dflt t)
      simp only [unpackJ, hy, restore]
    · simp only [enc] at hx
      have : ∃ p', Ok p' t := by
        cases p <;> exact ⟨_, by simpa [Ok] using hk⟩
      obtain ⟨p', hk'⟩ := this
      simp only [unpackJ, restore]
      rw [unpack_at t x (dflt t) p' o cs hk' hr (typed_dflt t) hp hx]
  | .excl _, v, dst, p, o, cs, hk, hr, ht, hp, hx => by unfold Ok at hk; exact hk.elim
  | .cst _, v, dst, p, o, cs, hk, hr, ht, hp, hx => by simp only [unpackJ, restore]

theorem unpack_F : ∀ (fs : Fs) (v dst : JV) (o : JP) (cs : List Str) (m : List (Str × J)),
    OkF fs → RepF lib fs v → TypedF fs dst → PathOk cs → walk o.v cs = .ok (.obj m) →
    Holds lib fs v m → unpackF lib fs o (render cs) dst = (.ok, restoreF fs v dst)
  | .nil, v, dst, o, cs, m, hk, hr, ht, hp, hx, hh => by
    unfold RepF at hr; unfold TypedF at ht
    subst hr ht
    simp only [unpackF, restoreF]
  | .mem k t r, v, dst, o, cs, m, hk, hr, ht, hp, hx, hh => by
    unfold RepF at hr; unfold OkF at hk; unfold TypedF at ht
    obtain ⟨x, y, rfl, h1, h2⟩ := hr
    obtain ⟨x', y', rfl, h1', h2'⟩ := ht
    unfold Holds at hh
    simp only [unpackF, restoreF, JV.fst, JV.snd]
    have he : unpackJ lib t o (render cs ++ dot :: k) x' = (.ok, restore t x x') := by
      cases hc : isExcl t with
      | true =>
        cases t with
        | excl d => simp only [unpackJ, restore]
        | _ => simp [isExcl] at hc
      | false =>
        have hf : mfind strLt k m = some (enc lib t x) := hh.1.resolve_left (by simp [hc])
        have hkt : Ok .slot t := hk.2.1.resolve_left (by simp [hc])
        rw [show render cs ++ dot :: k = render (cs ++ [k]) from by
          rw [render_append]; simp [render]]
        exact unpack_at t x x' .slot o (cs ++ [k]) hkt h1 h1' (hp.snoc hk.1)
          (by rw [walk_snoc hx, hf])
    rw [he]
    simp only
    rw [unpack_F r y y' o cs m hk.2.2 h2 h2' hp hx hh.2]
  | .base t r, v, dst, o, cs, m, hk, hr, ht, hp, hx, hh => by
    unfold RepF at hr; unfold OkF at hk; unfold TypedF at ht
    obtain ⟨x, y, rfl, h1, h2⟩ := hr
    obtain ⟨x', y', rfl, h1', h2'⟩ := ht
    unfold Holds at hh
    simp only [unpackF, restoreF, JV.fst, JV.snd]
    rw [unpack_B t x x' o cs m hk.1 h1 h1' hp hx hh.1]
    simp only
    rw [unpack_F r y y' o cs m hk.2 h2 h2' hp hx hh.2]

theorem unpack_B : ∀ (t : JT) (v dst : JV) (o : JP) (cs : List Str) (m : List (Str × J)),
    OkB t → Rep lib t v → Typed t dst → PathOk cs → walk o.v cs = .ok (.obj m) →
    HoldsB lib t v m → unpackJ lib t o (render cs) dst = (.ok, restore t v dst)
  | .struct fs, v, dst, o, cs, m, hk, hr, ht, hp, hx, hh => by
    unfold Rep at hr; unfold OkB at hk; unfold Typed at ht; unfold HoldsB at hh
    simp only [unpackJ, restore]
    exact unpack_F fs v dst o cs m hk hr ht hp hx hh
  | .bool, v, dst, o, cs, m, hk, hr, ht, hp, hx, hh => by unfold OkB at hk; exact hk.elim
  | .int _, v, dst, o, cs, m, hk, hr, ht, hp, hx, hh => by unfold OkB at hk; exact hk.elim
  | .real, v, dst, o, cs, m, hk, hr, ht, hp, hx, hh => by unfold OkB at hk; exact hk.elim
  | .flt, v, dst, o, cs, m, hk, hr, ht, hp, hx, hh => by unfold OkB at hk; exact hk.elim
  | .char, v, dst, o, cs, m, hk, hr, ht, hp, hx, hh => by unfold OkB at hk; exact hk.elim
  | .str, v, dst, o, cs, m, hk, hr, ht, hp, hx, hh => by unfold OkB at hk; exact hk.elim
  | .enum _ _, v, dst, o, cs, m, hk, hr, ht, hp, hx, hh => by unfold OkB at hk; exact hk.elim
  | .seq _, v, dst, o, cs, m, hk, hr, ht, hp, hx, hh => by unfold OkB at hk; exact hk.elim
  | .arr _ _, v, dst, o, cs, m, hk, hr, ht, hp, hx, hh => by unfold OkB at hk; exact hk.elim
  | .carr _ _, v, dst, o, cs, m, hk, hr, ht, hp, hx, hh => by unfold OkB at hk; exact hk.elim
  | .assoc _ _ _, v, dst, o, cs, m, hk, hr, ht, hp, hx, hh => by unfold OkB at hk; exact hk.elim
  | .smap _, v, dst, o, cs, m, hk, hr, ht, hp, hx, hh => by unfold OkB at hk; exact hk.elim
  | .pair _ _, v, dst, o, cs, m, hk, hr, ht, hp, hx, hh => by unfold OkB at hk; exact hk.elim
  | .tuple _, v, dst, o, cs, m, hk, hr, ht, hp, hx, hh => by unfold OkB at hk; exact hk.elim
  | .ptr _, v, dst, o, cs, m, hk, hr, ht, hp, hx, hh => by unfold OkB at hk; exact hk.elim
  | .excl _, v, dst, o, cs, m, hk, hr, ht, hp, hx, hh => by unfold OkB at hk; exact hk.elim
  | .cst _, v, dst, o, cs, m, hk, hr, ht, hp, hx, hh => by unfold OkB at hk; exact hk.elim
end

end Verif.Json
