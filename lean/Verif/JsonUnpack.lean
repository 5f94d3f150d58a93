import Verif.JsonPackMain
namespace Verif.Json
open OMap EnumKeys

/-! Unpacking the document `enc` describes yields what `restore` describes. -/

theorem unpackLeaf_ok {o : JP} {d : Str} {j : J} {get : J → R JV} {v : JV} (dst : JV)
    (hf : find o.v d = .ok j) (hg : get j = .ok v) : unpackLeaf o d get dst = (.ok, v) := by
  simp [unpackLeaf, hf, R.bind, hg, catchU]

mutual
theorem typed_dflt : ∀ t : JT, Typed t (dflt t)
  | .bool => by unfold Typed; exact ⟨_, rfl⟩
  | .int u => by
    unfold Typed
    refine ⟨0, rfl, ?_⟩
    obtain ⟨w, s⟩ := u
    cases w <;> cases s <;> simp [InRange, Width.modulus]
  | .real => by unfold Typed; exact ⟨_, rfl⟩
  | .flt => by unfold Typed; exact ⟨_, rfl⟩
  | .char => by unfold Typed; exact ⟨_, rfl⟩
  | .str => by unfold Typed; exact ⟨_, rfl⟩
  | .enum _ _ => by unfold Typed; exact ⟨_, rfl⟩
  | .struct fs => by unfold Typed dflt; exact typed_dfltF fs
  | .seq t => by unfold Typed; exact ⟨_, rfl, by simp⟩
  | .arr n t => by
    unfold Typed
    refine ⟨List.replicate n (dflt t), rfl, by simp, fun x hx => ?_⟩
    rw [(List.mem_replicate.1 hx).2]; exact typed_dflt t
  | .carr dims t => by
    unfold Typed
    refine ⟨List.replicate (prod dims) (dflt t), rfl, by simp, fun x hx => ?_⟩
    rw [(List.mem_replicate.1 hx).2]; exact typed_dflt t
  | .assoc _ _ t => by unfold Typed; exact ⟨_, rfl, by simp⟩
  | .smap t => by unfold Typed; exact ⟨_, rfl, by simp⟩
  | .pair a b => by unfold Typed; exact ⟨_, _, rfl, typed_dflt a, typed_dflt b⟩
  | .tuple ts => by unfold Typed dflt; exact typed_dfltF ts
  | .ptr t => by unfold Typed; exact .inl rfl
  | .excl _ => by unfold Typed; trivial
  | .cst t => by unfold Typed dflt; exact typed_dflt t
theorem typed_dfltF : ∀ fs : Fs, TypedF fs (dfltF fs)
  | .nil => by unfold TypedF; rfl
  | .mem _ t r => by unfold TypedF; exact ⟨_, _, rfl, typed_dflt t, typed_dfltF r⟩
  | .base t r => by unfold TypedF; exact ⟨_, _, rfl, typed_dflt t, typed_dfltF r⟩
end

theorem each_ok {f : J → JV → Oc × JV} {g : JV → J} {r : JV → JV → JV} :
    ∀ (l xs : List JV), xs.length = l.length →
    (∀ a ∈ l, ∀ x ∈ xs, f (g a) x = (.ok, r a x)) →
    each f (l.map g) xs = (.ok, List.zipWith r l xs)
  | [], [], _, _ => rfl
  | a :: l, x :: xs, hl, h => by
    simp only [List.map, each, h a (by simp) x (by simp), List.zipWith]
    rw [each_ok l xs (by simpa using hl) (fun a ha x hx => h a (by simp [ha]) x (by simp [hx]))]
  | [], _ :: _, hl, _ => by simp at hl
  | _ :: _, [], hl, _ => by simp at hl

theorem resize_length (n : Nat) (d : JV) (l : List JV) : (resize n d l).length = n := by
  simp [resize]; omega

theorem resize_mem {n : Nat} {d : JV} {l : List JV} {x : JV} (h : x ∈ resize n d l) :
    x ∈ l ∨ x = d := by
  simp only [resize, List.mem_append] at h
  rcases h with h | h
  · exact .inl (List.mem_of_mem_take h)
  · exact .inr (List.mem_replicate.1 h).2

theorem insU_end {lt : JV → JV → Bool} {e : JV} : ∀ (l : List JV),
    (∀ x ∈ l, lt x e = true ∧ lt e x = false) → insU lt e l = l ++ [e]
  | [], _ => rfl
  | x :: xs, h => by
    obtain ⟨h1, h2⟩ := h x (by simp)
    simp only [insU, h1, h2, if_true, List.cons_append]
    rw [insU_end xs (fun y hy => h y (by simp [hy]))]
    rfl

theorem insM_end {lt : JV → JV → Bool} {e : JV} : ∀ (l : List JV),
    (∀ x ∈ l, lt e x = false) → insM lt e l = l ++ [e]
  | [], _ => rfl
  | x :: xs, h => by
    simp only [insM, h x (by simp), List.cons_append]
    rw [insM_end xs (fun y hy => h y (by simp [hy]))]
    rfl

theorem fill_ok {f : J → Oc × JV} {g : JV → J} {lt : JV → JV → Bool} {multi : Bool} :
    ∀ (l acc : List JV), (∀ a ∈ l, f (g a) = (.ok, a)) →
    (acc ++ l).Pairwise (fun a b => lt b a = false ∧ (multi = true ∨ lt a b = true)) →
    fill f (ins lt multi) (l.map g) acc = (.ok, acc ++ l)
  | [], acc, _, _ => by simp [fill]
  | a :: l, acc, h, hp => by
    have hx : ∀ x ∈ acc, lt a x = false ∧ (multi = true ∨ lt x a = true) := by
      intro x hx
      exact (List.pairwise_append.1 hp).2.2 x hx a (by simp)
    have hi : ins lt multi a acc = acc ++ [a] := by
      unfold ins
      cases multi with
      | true => simp only [if_true]; exact insM_end acc (fun x hx' => (hx x hx').1)
      | false =>
        simp only [Bool.false_eq_true, if_false]
        exact insU_end acc (fun x hx' => ⟨(hx x hx').2.resolve_left (by simp), (hx x hx').1⟩)
    simp only [List.map, fill, h a (by simp), hi]
    rw [fill_ok l (acc ++ [a]) (fun a ha => h a (by simp [ha])) (by simpa using hp)]
    simp

theorem zipWith_append' {α β γ : Type} (f : α → β → γ) : ∀ (a b : List α) (c d : List β),
    a.length = c.length → List.zipWith f (a ++ b) (c ++ d) = List.zipWith f a c ++ List.zipWith f b d
  | [], b, [], d, _ => rfl
  | x :: a, b, y :: c, d, h => by
    simp [zipWith_append' f a b c d (by simpa using h)]
  | [], _, _ :: _, _, h => by simp at h
  | _ :: _, _, [], _, h => by simp at h

theorem unArr_ok {lib : Lib} {f : J → JV → Oc × JV} {g : JV → J} {r : JV → JV → JV} :
    ∀ (dims : List Nat) (l xs : List JV), l.length = prod dims → xs.length = prod dims →
    (∀ a ∈ l, ∀ x ∈ xs, f (g a) x = (.ok, r a x)) →
    unArr lib f dims (encArr g dims l) xs = (.ok, List.zipWith r l xs)
  | [], l, xs, hl, hx, h => by
    simp only [prod, List.foldr_nil] at hl hx
    match l, xs, hl, hx with
    | [a], [x], _, _ => simp [unArr, encArr, h a (by simp) x (by simp)]
  | s :: ds, l, xs, hl, hx, h => by
    have hl' : l.length = s * prod ds := by simpa [prod] using hl
    have hx' : xs.length = s * prod ds := by simpa [prod] using hx
    have hgo : ∀ (s : Nat) (l xs : List JV), l.length = s * prod ds → xs.length = s * prod ds →
        (∀ a ∈ l, ∀ x ∈ xs, f (g a) x = (.ok, r a x)) →
        unArr.go lib f ds s ((chunks s (prod ds) l).map (encArr g ds)) xs
          = (.ok, List.zipWith r l xs) := by
      intro s
      induction s with
      | zero =>
        intro l xs hl hx _
        have : l = [] := List.length_eq_zero_iff.1 (by simpa using hl)
        have : xs = [] := List.length_eq_zero_iff.1 (by simpa using hx)
        subst_vars
        simp [unArr.go, chunks]
      | succ s ih =>
        intro l xs hl hx h
        have hm : (s + 1) * prod ds = s * prod ds + prod ds := Nat.succ_mul _ _
        simp only [chunks, List.map, unArr.go]
        rw [unArr_ok ds (l.take (prod ds)) (xs.take (prod ds))
          (by rw [List.length_take]; omega) (by rw [List.length_take]; omega)
          (fun a ha x hx => h a (List.mem_of_mem_take ha) x (List.mem_of_mem_take hx))]
        simp only
        rw [ih (l.drop (prod ds)) (xs.drop (prod ds)) (by rw [List.length_drop]; omega)
          (by rw [List.length_drop]; omega)
          (fun a ha x hx => h a (List.mem_of_mem_drop ha) x (List.mem_of_mem_drop hx))]
        simp only
        rw [← zipWith_append' r _ _ _ _ (by rw [List.length_take, List.length_take]; omega),
          List.take_append_drop, List.take_append_drop]
    simp only [unArr, encArr]
    exact hgo s l xs hl' hx' h

theorem fillKV_ok {f : Str → JV → Oc × JV} {d : Str} {dv : JV} {g : JV → J} {r : JV → JV} :
    ∀ (l : List (Str × JV)) (acc : List (Str × JV)),
    (∀ e ∈ l, f (d ++ dot :: e.1) dv = (.ok, r e.2)) →
    Sorted strLt (acc ++ l.map fun e => (e.1, r e.2)) →
    fillKV f d dv (l.map fun e => (e.1, g e.2)) acc
      = (.ok, acc ++ l.map fun e => (e.1, r e.2))
  | [], acc, _, _ => by simp [fillKV]
  | (k, v) :: l, acc, h, hs => by
    have hp := hs.pairwise
    rw [List.map_append, List.pairwise_append] at hp
    have hlt : ∀ e ∈ acc, strLt e.1 k = true := fun e he =>
      hp.2.2 e.1 (List.mem_map.2 ⟨e, he, rfl⟩) k (by simp)
    have hnone : mfind strLt k acc = none := by
      have : ∀ (acc : List (Str × JV)), (∀ e ∈ acc, strLt e.1 k = true) → mfind strLt k acc = none := by
        intro acc
        induction acc with
        | nil => intro _; rfl
        | cons a acc ih =>
          intro h
          obtain ⟨k', b⟩ := a
          have h1 := h (k', b) (by simp)
          simp only at h1
          simp [mfind, h1, strOrd.asymm h1, ih (fun e he => h e (by simp [he]))]
      exact this acc hlt
    simp only [List.map, fillKV, hnone, Option.getD_none, h (k, v) (by simp)]
    rw [mput_end k (r v) acc hlt]
    rw [fillKV_ok l (acc ++ [(k, r v)]) (fun e he => h e (by simp [he])) (by simpa using hs)]
    simp

theorem typedL {t : JT} {d : JV} (h : ∃ l, d = .seq l ∧ ∀ x ∈ l, Typed t x) :
    ∀ x ∈ d.elems, Typed t x := by
  obtain ⟨l, rfl, h⟩ := h; exact h

/-! Excluded and const members aside, the value itself is restored. -/

theorem zipWith_left {f : JV → JV → JV} : ∀ (l xs : List JV), xs.length = l.length →
    (∀ a ∈ l, ∀ x ∈ xs, f a x = a) → List.zipWith f l xs = l
  | [], [], _, _ => rfl
  | a :: l, x :: xs, hl, h => by
    simp only [List.zipWith, h a (by simp) x (by simp)]
    rw [zipWith_left l xs (by simpa using hl) (fun a ha x hx => h a (by simp [ha]) x (by simp [hx]))]
  | [], _ :: _, hl, _ => by simp at hl
  | _ :: _, [], hl, _ => by simp at hl

mutual
theorem restore_plain (lib : Lib) : ∀ (t : JT) (v d : JV), Plain t → Rep lib t v → Typed t d →
    restore t v d = v
  | .bool, v, d, _, _, _ => by unfold restore; rfl
  | .int _, v, d, _, _, _ => by unfold restore; rfl
  | .real, v, d, _, _, _ => by unfold restore; rfl
  | .flt, v, d, _, _, _ => by unfold restore; rfl
  | .char, v, d, _, _, _ => by unfold restore; rfl
  | .str, v, d, _, _, _ => by unfold restore; rfl
  | .enum _ _, v, d, _, _, _ => by unfold restore; rfl
  | .struct fs, v, d, hp, hr, ht => by
    unfold Plain at hp; unfold Rep at hr; unfold Typed at ht
    simp only [restore]
    exact restoreF_plain lib fs v d hp hr ht
  | .seq t, v, d, hp, hr, ht => by
    unfold Plain at hp; unfold Rep at hr; unfold Typed at ht
    obtain ⟨l, rfl, hr⟩ := hr
    simp only [restore]
    rw [zipWith_left l _ (resize_length _ _ _) (fun a ha x hx => ?_)]
    refine restore_plain lib t a x hp (hr a ha) ?_
    rcases resize_mem hx with hx | rfl
    · exact typedL ht x hx
    · exact typed_dflt t
  | .arr n t, v, d, hp, hr, ht => by
    unfold Plain at hp; unfold Rep at hr; unfold Typed at ht
    obtain ⟨l, rfl, hl, hr⟩ := hr
    obtain ⟨l', rfl, hl', ht⟩ := ht
    simp only [restore, JV.elems]
    rw [zipWith_left l _ (by rw [hl, hl'])
      (fun a ha x hx => restore_plain lib t a x hp (hr a ha) (ht x hx))]
  | .carr dims t, v, d, hp, hr, ht => by
    unfold Plain at hp; unfold Rep at hr; unfold Typed at ht
    obtain ⟨l, rfl, hl, hr⟩ := hr
    obtain ⟨l', rfl, hl', ht⟩ := ht
    simp only [restore, JV.elems]
    rw [zipWith_left l _ (by rw [hl, hl'])
      (fun a ha x hx => restore_plain lib t a x hp (hr a ha) (ht x hx))]
  | .assoc _ _ t, v, d, _, _, _ => by unfold restore; rfl
  | .smap t, v, d, hp, hr, ht => by
    unfold Plain at hp; unfold Rep at hr
    obtain ⟨l, rfl, _, _, hr⟩ := hr
    simp only [restore]
    congr 1
    rw [show l = l.map id from by simp]
    rw [List.map_map]
    refine List.map_congr_left fun e he => ?_
    simp [restore_plain lib t e.2 _ hp (hr e he) (typed_dflt t)]
  | .pair a b, v, d, hp, hr, ht => by
    unfold Plain at hp; unfold Rep at hr; unfold Typed at ht
    obtain ⟨x, y, rfl, h1, h2⟩ := hr
    obtain ⟨x', y', rfl, h1', h2'⟩ := ht
    simp only [restore, JV.fst, JV.snd]
    rw [restore_plain lib a x x' hp.1 h1 h1', restore_plain lib b y y' hp.2 h2 h2']
  | .tuple ts, v, d, _, hr, _ => by unfold Rep at hr; exact hr.elim
  | .ptr t, v, d, hp, hr, ht => by
    unfold Plain at hp; unfold Rep at hr
    rcases hr with ⟨rfl, _⟩ | ⟨x, rfl, hr⟩
    · simp only [restore]
    · simp only [restore]
      rw [restore_plain lib t x _ hp hr (typed_dflt t)]
  | .excl _, v, d, hp, _, _ => by unfold Plain at hp; exact hp.elim
  | .cst _, v, d, hp, _, _ => by unfold Plain at hp; exact hp.elim
theorem restoreF_plain (lib : Lib) : ∀ (fs : Fs) (v d : JV), PlainF fs → RepF lib fs v →
    TypedF fs d → restoreF fs v d = v
  | .nil, v, d, _, _, _ => by unfold restoreF; rfl
  | .mem k t r, v, d, hp, hr, ht => by
    unfold PlainF at hp; unfold RepF at hr; unfold TypedF at ht
    obtain ⟨x, y, rfl, h1, h2⟩ := hr
    obtain ⟨x', y', rfl, h1', h2'⟩ := ht
    simp only [restoreF, JV.fst, JV.snd]
    rw [restore_plain lib t x x' hp.1 h1 h1', restoreF_plain lib r y y' hp.2 h2 h2']
  | .base t r, v, d, hp, hr, ht => by
    unfold PlainF at hp; unfold RepF at hr; unfold TypedF at ht
    obtain ⟨x, y, rfl, h1, h2⟩ := hr
    obtain ⟨x', y', rfl, h1', h2'⟩ := ht
    simp only [restoreF, JV.fst, JV.snd]
    rw [restore_plain lib t x x' hp.1 h1 h1', restoreF_plain lib r y y' hp.2 h2 h2']
end

end Verif.Json
