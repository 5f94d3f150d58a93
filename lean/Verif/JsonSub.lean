import Verif.JsonUnpackMain
namespace Verif.Json
open OMap EnumKeys

/-! Unpacking at a path depends only on what is below that path. -/

/-- Every string is a list of names joined by dots. -/
theorem split_exists : ∀ k : Str, ∃ ks, DotFrees ks ∧ dot :: k = render ks := by
  intro k
  induction k with
  | nil => exact ⟨[[]], by intro c hc; simp at hc; subst hc; simp [DotFree], by simp [render]⟩
  | cons a k ih =>
    obtain ⟨ks, hd, hk⟩ := ih
    by_cases ha : a = dot
    · subst ha
      refine ⟨[] :: ks, ?_, ?_⟩
      · intro c hc
        simp at hc
        rcases hc with rfl | hc
        · simp [DotFree]
        · exact hd c hc
      · rw [hk]; simp [render]
    · cases ks with
      | nil => simp [render] at hk
      | cons c ks =>
        refine ⟨(a :: c) :: ks, ?_, ?_⟩
        · intro c' hc
          simp at hc
          rcases hc with rfl | hc
          · intro hm
            simp at hm
            rcases hm with hm | hm
            · exact ha hm.symm
            · exact hd c (by simp) hm
          · exact hd c' (by simp [hc])
        · simp only [render, List.cons.injEq, true_and, List.cons_append] at hk ⊢
          exact hk

theorem render_inj : ∀ {a b : List Str}, DotFrees a → DotFrees b → render a = render b → a = b
  | [], [], _, _, _ => rfl
  | [], c :: b, _, _, h => by simp [render] at h
  | c :: a, [], _, _, h => by simp [render] at h
  | c :: a, d :: b, ha, hb, h => by
    simp only [render, List.cons.injEq, true_and] at h
    have e1 := takeWhile_comp (ha c (by simp)) (render_head a)
    have e2 := takeWhile_comp (hb d (by simp)) (render_head b)
    have e3 := dropWhile_comp (ha c (by simp)) (render_head a)
    have e4 := dropWhile_comp (hb d (by simp)) (render_head b)
    rw [h] at e1 e3
    have hc : c = d := e1.symm.trans e2
    have hr : render a = render b := e3.symm.trans e4
    rw [hc, render_inj (fun x hx => ha x (by simp [hx])) (fun x hx => hb x (by simp [hx])) hr]

mutual
/-- Member names have no dots; no tuples. -/
def Named : JT → Prop
  | .struct fs => NamedF fs
  | .seq t | .arr _ t | .carr _ t | .assoc _ _ t | .smap t | .ptr t | .cst t => Named t
  | .pair a b => Named a ∧ Named b
  | .tuple _ => False
  | _ => True
def NamedF : Fs → Prop
  | .nil => True
  | .mem k t r => DotFree k ∧ Named t ∧ NamedF r
  | .base t r => Named t ∧ NamedF r
end

/-- The same is found below the two places. -/
def SameBelow (o o' : JP) (cs cs' : List Str) : Prop :=
  o.throwOnError = o'.throwOnError ∧ DotFrees cs ∧ DotFrees cs' ∧
    ∀ ks, DotFrees ks → walk o.v (cs ++ ks) = walk o'.v (cs' ++ ks)

section
variable {o o' : JP} {cs cs' : List Str}

theorem dotFrees_append {a b : List Str} (ha : DotFrees a) (hb : DotFrees b) : DotFrees (a ++ b) := by
  intro c hc
  rcases List.mem_append.1 hc with h | h
  · exact ha c h
  · exact hb c h

theorem SameBelow.find (h : SameBelow o o' cs cs') :
    Json.find o.v (render cs) = Json.find o'.v (render cs') := by
  rw [find_render h.2.1, find_render h.2.2.1]
  have := h.2.2.2 [] (by intro c hc; simp at hc)
  simpa using this

theorem SameBelow.sub (h : SameBelow o o' cs cs') {ks : List Str} (hk : DotFrees ks) :
    SameBelow o o' (cs ++ ks) (cs' ++ ks) := by
  refine ⟨h.1, dotFrees_append h.2.1 hk, dotFrees_append h.2.2.1 hk, fun js hj => ?_⟩
  rw [List.append_assoc, List.append_assoc]
  exact h.2.2.2 (ks ++ js) (dotFrees_append hk hj)

theorem SameBelow.leaf (h : SameBelow o o' cs cs') (get : J → R JV) (dst : JV) :
    unpackLeaf o (render cs) get dst = unpackLeaf o' (render cs') get dst := by
  unfold unpackLeaf
  rw [h.find, h.1]

end

theorem fillKV_congr {f f' : Str → JV → Oc × JV} {d d' : Str} {dv : JV}
    (h : ∀ k v, f (d ++ dot :: k) v = f' (d' ++ dot :: k) v) : ∀ (m : List (Str × J))
    (acc : List (Str × JV)), fillKV f d dv m acc = fillKV f' d' dv m acc
  | [], acc => rfl
  | (k, j) :: m, acc => by
    simp only [fillKV, h]
    split
    · exact fillKV_congr h m _
    · rfl

theorem render_cons (cs : List Str) (k : Str) : ∃ ks, DotFrees ks ∧
    render cs ++ dot :: k = render (cs ++ ks) := by
  obtain ⟨ks, hd, hk⟩ := split_exists k
  exact ⟨ks, hd, by rw [hk, render_append]⟩

theorem one_dotFree {k : Str} (h : DotFree k) : DotFrees [k] := by
  intro c hc; simp at hc; subst hc; exact h

mutual
theorem unpack_congr (lib : Lib) : ∀ (t : JT) (o o' : JP) (cs cs' : List Str) (dst : JV),
    Named t → SameBelow o o' cs cs' →
    unpackJ lib t o (render cs) dst = unpackJ lib t o' (render cs') dst
  | .bool, o, o', cs, cs', dst, _, h => by simp only [unpackJ]; exact h.leaf _ _
  | .int u, o, o', cs, cs', dst, _, h => by simp only [unpackJ]; exact h.leaf _ _
  | .real, o, o', cs, cs', dst, _, h => by simp only [unpackJ]; exact h.leaf _ _
  | .flt, o, o', cs, cs', dst, _, h => by simp only [unpackJ]; exact h.leaf _ _
  | .char, o, o', cs, cs', dst, _, h => by simp only [unpackJ]; exact h.leaf _ _
  | .str, o, o', cs, cs', dst, _, h => by simp only [unpackJ]; exact h.leaf _ _
  | .enum u d, o, o', cs, cs', dst, _, h => by simp only [unpackJ]; rw [h.leaf]
  | .struct fs, o, o', cs, cs', dst, hn, h => by
    unfold Named at hn
    simp only [unpackJ]
    exact unpackF_congr lib fs o o' cs cs' dst hn h
  | .seq t, o, o', cs, cs', dst, _, h => by simp only [unpackJ, unSeq]; rw [h.find, h.1]
  | .arr n t, o, o', cs, cs', dst, _, h => by simp only [unpackJ, unSeq]; rw [h.find, h.1]
  | .carr dims t, o, o', cs, cs', dst, _, h => by simp only [unpackJ]; rw [h.find, h.1]
  | .assoc lt multi t, o, o', cs, cs', dst, _, h => by simp only [unpackJ]; rw [h.find, h.1]
  | .smap t, o, o', cs, cs', dst, hn, h => by
    unfold Named at hn
    simp only [unpackJ]
    have hc : ∀ m acc, fillKV (unpackJ lib t o) (render cs) (dflt t) m acc
        = fillKV (unpackJ lib t o') (render cs') (dflt t) m acc := by
      intro m acc
      refine fillKV_congr (fun k v => ?_) m acc
      obtain ⟨ks, hd, hk⟩ := split_exists k
      rw [hk, ← render_append, ← render_append]
      exact unpack_congr lib t o o' (cs ++ ks) (cs' ++ ks) v hn (h.sub hd)
    rw [h.find, h.1]
    cases find o'.v (render cs') with
    | ok j => cases j <;> simp only [hc]
    | throw e => rfl
    | ub => rfl
  | .pair a b, o, o', cs, cs', dst, hn, h => by
    unfold Named at hn
    simp only [unpackJ]
    rw [dfirst, dfirst, dsecond, dsecond]
    rw [unpack_congr lib a o o' (cs ++ [sFirst]) (cs' ++ [sFirst]) dst.fst hn.1
      (h.sub (one_dotFree first_ok.1)),
      unpack_congr lib b o o' (cs ++ [sSecond]) (cs' ++ [sSecond]) dst.snd hn.2
      (h.sub (one_dotFree second_ok.1))]
  | .tuple _, o, o', cs, cs', dst, hn, h => by unfold Named at hn; exact hn.elim
  | .ptr t, o, o', cs, cs', dst, hn, h => by
    unfold Named at hn
    simp only [unpackJ]
    rw [unpack_congr lib t o o' cs cs' (dflt t) hn h]
  | .excl _, o, o', cs, cs', dst, _, h => by simp only [unpackJ]
  | .cst _, o, o', cs, cs', dst, _, h => by simp only [unpackJ]
theorem unpackF_congr (lib : Lib) : ∀ (fs : Fs) (o o' : JP) (cs cs' : List Str) (dst : JV),
    NamedF fs → SameBelow o o' cs cs' →
    unpackF lib fs o (render cs) dst = unpackF lib fs o' (render cs') dst
  | .nil, o, o', cs, cs', dst, _, h => by simp only [unpackF]
  | .mem k t r, o, o', cs, cs', dst, hn, h => by
    unfold NamedF at hn
    simp only [unpackF]
    have e : ∀ cs : List Str, render cs ++ dot :: k = render (cs ++ [k]) := by
      intro cs; rw [render_append]; simp [render]
    rw [e, e, unpack_congr lib t o o' (cs ++ [k]) (cs' ++ [k]) dst.fst hn.2.1
      (h.sub (one_dotFree hn.1)), unpackF_congr lib r o o' cs cs' dst.snd hn.2.2 h]
  | .base t r, o, o', cs, cs', dst, hn, h => by
    unfold NamedF at hn
    simp only [unpackF]
    rw [unpack_congr lib t o o' cs cs' dst.fst hn.1 h,
      unpackF_congr lib r o o' cs cs' dst.snd hn.2 h]
end

/-- Unpacking a member is unpacking the part of the document it leads to. -/
theorem unpack_sub (lib : Lib) (t : JT) (o : JP) (cs : List Str) (dst : JV) (j : J)
    (hn : Named t) (hd : DotFrees cs) (h : walk o.v cs = .ok j) :
    unpackJ lib t o (render cs) dst = unpackJ lib t { o with v := j } [] dst :=
  unpack_congr lib t o { o with v := j } cs [] dst hn
    ⟨rfl, hd, by intro c hc; simp at hc, fun ks _ => by
      rw [walk_append, h]; simp [R.bind]⟩

end Verif.Json
