import Verif.XmlArr
import Verif.Props.XmlMore
/-
C122: arrays and tuples as XML.
-/
namespace Verif.Xml
open OMap EnumKeys
open Verif.Json (JV dot tail)
open XmlP

mutual
/-- The type with sequences for arrays, and for tuples of one type. -/
def C122.asX : AX → XT
  | .plain t => t
  | .arr e t => .seq e (C122.asX t)
  | .tup [] => .struct .nil
  | .tup ((e, t) :: _) => .seq e t
  | .cls fs => .struct (C122.asXs fs)
def C122.asXs : AXs → Fs
  | .nil => .nil
  | .mem n t fs => .mem n (C122.asX t) (C122.asXs fs)
  | .base t fs => .base (C122.asX t) (C122.asXs fs)
end

/-- Numbers, characters and strings. -/
def C122.Simple : XT → Prop
  | .bool | .int _ | .chr | .byte | .str => True
  | _ => False

/-- Lists of the same length, element by element. -/
def C122.Match (f : JV → JV → Prop) : List JV → List JV → Prop
  | [], [] => True
  | x :: xs, y :: ys => f x y ∧ C122.Match f xs ys
  | _, _ => False

mutual
/-- `v` is a value of the type that can be read back into a variable holding `old`: parts other than
arrays and tuples as for C27; arrays are as long as the variable and not of pointers; tuples are of
one simple type, without pretty printing. -/
def C122.Good (g : Cfg) (miss : Bool) : AX → JV → JV → Prop
  | .plain t, v, old => Val g t v ∧ Wr g okRun t v ∧ Fit miss t v old
  | .arr _ t, v, old => isPtr (C122.asX t) = false ∧
      ∃ l o, v = .seq l ∧ old = .seq o ∧ C122.Match (fun x y => C122.Good g miss t x y) l o
  | .tup es, v, old => g.pretty = false ∧ ∃ e t l o, C122.Simple t ∧ es ≠ [] ∧ (∀ x ∈ es, x = (e, t)) ∧
      v = .seq l ∧ old = .seq o ∧ l.length = es.length ∧
      C122.Match (fun x y => Val g t x ∧ Wr g okRun t x ∧ Fit miss t x y) l o
  | .cls fs, v, old => C122.Goods g miss fs v old
def C122.Goods (g : Cfg) (miss : Bool) : AXs → JV → JV → Prop
  | .nil, v, _ => v = .unit
  | .mem _ t fs, v, old => ∃ x y, v = .pair x y ∧ C122.Good g miss t x (fstOf old) ∧ C122.Goods g miss fs y (sndOf old)
  | .base t fs, v, old => ∃ x y, v = .pair x y ∧ C122.Good g miss t x (fstOf old) ∧ C122.Goods g miss fs y (sndOf old)
end

open C122

private theorem match_mem {f : JV → JV → Prop} : ∀ {l o : List JV}, Match f l o → ∀ x ∈ l, ∃ y ∈ o, f x y
  | [], [], _, x, h => by simp at h
  | a :: l, b :: o, h, x, hx => by
    rcases List.mem_cons.1 hx with rfl | hx
    · exact ⟨b, by simp, h.1⟩
    · obtain ⟨y, hy, hf⟩ := match_mem h.2 x hx
      exact ⟨y, by simp [hy], hf⟩
  | [], _ :: _, h, _, _ => h.elim
  | _ :: _, [], h, _, _ => h.elim

private theorem withTag_twice (g : Cfg) (d : Str) (f : PK → PK) : withTag g d (withTag g d f) = withTag g d f := by
  funext p
  unfold withTag
  by_cases h : p.lvl < level d
  · simp [h]
  · simp [h]

private theorem simple_eq {g : Cfg} (hg : g.pretty = false) {t : XT} (ht : Simple t) {d e : Str} (he : dot ∉ e) (v : JV) (p : PK) :
    packX g t e v p = packX g t (d ++ dot :: e) v p := by
  have h0 : tail e = e := by
    unfold tail
    rw [takeWhile_all, List.reverse_reverse]
    intro c hc
    simp only [List.mem_reverse] at hc
    simp only [bne_iff_ne]
    rintro rfl
    exact he hc
  have hl : ∀ s, leaf g e s p = leaf g (d ++ dot :: e) s p := by
    intro s
    simp [leaf, pre, post, hg, tail_dot he, h0]
  cases t <;> simp only [Simple] at ht <;> simp only [packX, hl]

private theorem tup_eq {g : Cfg} (hg : g.pretty = false) {t : XT} (ht : Simple t) {d e : Str} (he : dot ∉ e) :
    ∀ (es : List (Str × XT)) (l : List JV) (p : PK), (∀ x ∈ es, x = (e, t)) → l.length = es.length →
      packTup g es l p = packL (fun x p => packX g t (d ++ dot :: e) x p) l p
  | [], [], p, _, _ => by simp [packTup, packL]
  | a :: es, v :: l, p, h, hl => by
    have := h a (by simp)
    subst this
    simp only [packTup, packL]
    rw [simple_eq hg ht (d := d) he]
    exact tup_eq hg ht he es l _ (fun x hx => h x (by simp [hx])) (by simpa using hl)
  | [], _ :: _, _, _, hl => by simp at hl
  | _ :: _, [], _, _, hl => by simp at hl

private theorem packL_congr {f k : JV → PK → PK} : ∀ (l : List JV) (p : PK), (∀ x ∈ l, ∀ p, f x p = k x p) → packL f l p = packL k l p
  | [], _, _ => rfl
  | x :: l, p, h => by
    simp only [packL, h x (by simp)]
    exact packL_congr l _ fun x hx => h x (by simp [hx])

private theorem simple_ptr {t : XT} (h : Simple t) : isPtr t = false := by
  cases t <;> simp_all [Simple, isPtr]

mutual
private theorem pack_eq {g : Cfg} {miss : Bool} : ∀ (t : AX) (d : Str) (v old : JV) (p : PK), NamesOK (asX t) → Good g miss t v old →
    packA g t d v p = packX g (asX t) d v p
  | .plain t, d, v, old, p, _, _ => by simp only [packA, asX]
  | .arr e t, d, v, old, p, hN, h => by
    simp only [Good] at h
    obtain ⟨hp, l, o, rfl, rfl, hm⟩ := h
    simp only [asX, NamesOK] at hN
    simp only [packA, asX, packX, elemsOf, hp, Bool.false_eq_true, if_false]
    congr 1
    funext q
    refine packL_congr l q ?_
    intro x hx p
    obtain ⟨y, _, hy⟩ := match_mem hm x hx
    exact pack_eq t _ x y p hN.2 hy
  | .tup es, d, v, old, p, hN, h => by
    simp only [Good] at h
    obtain ⟨hg, e, t, l, o, ht, hne, he, rfl, rfl, hl, hm⟩ := h
    cases es with
    | nil => exact absurd rfl hne
    | cons a es =>
      have ha := he a (by simp)
      subst ha
      simp only [asX, NamesOK] at hN
      have hd : dot ∉ e := hN.1.key.2.2
      simp only [packA, asX, packX, elemsOf, simple_ptr ht, Bool.false_eq_true, if_false, withTag_twice]
      congr 1
      funext q
      exact tup_eq hg ht hd _ l q he hl
  | .cls fs, d, v, old, p, hN, h => by
    simp only [Good] at h
    simp only [asX, NamesOK] at hN
    simp only [packA, asX, packX]
    congr 1
    funext q
    exact packs_eq fs d v old q hN h
private theorem packs_eq {g : Cfg} {miss : Bool} : ∀ (fs : AXs) (d : Str) (v old : JV) (p : PK), NamesOKF (asXs fs) → Goods g miss fs v old →
    packAs g fs d v p = packF g (asXs fs) d v p
  | .nil, _, _, _, _, _, _ => by simp only [packAs, asXs, packF]
  | .mem n t fs, d, v, old, p, hN, h => by
    simp only [Goods] at h
    obtain ⟨x, y, rfl, h1, h2⟩ := h
    simp only [asXs, NamesOKF] at hN
    simp only [packAs, asXs, packF, fstOf, sndOf]
    rw [pack_eq t _ x _ p hN.2.1 h1, packs_eq fs d y _ _ hN.2.2 h2]
  | .base t fs, d, v, old, p, hN, h => by
    simp only [Goods] at h
    obtain ⟨x, y, rfl, h1, h2⟩ := h
    simp only [asXs, NamesOKF] at hN
    simp only [packAs, asXs, packF, fstOf, sndOf]
    rw [pack_eq t _ x _ p hN.1 h1, packs_eq fs d y _ _ hN.2 h2]
end

private theorem notNull_of {t : XT} (h : isPtr t = false) (x : JV) : NotNull t x := by
  cases t <;> simp_all [isPtr, NotNull]

mutual
private theorem conds {g : Cfg} {miss : Bool} : ∀ (t : AX) (v old : JV), Good g miss t v old → Val g (asX t) v ∧ Wr g okRun (asX t) v
  | .plain t, v, old, h => by simp only [Good] at h; simp only [asX]; exact ⟨h.1, h.2.1⟩
  | .arr e t, v, old, h => by
    simp only [Good] at h
    obtain ⟨hp, l, o, rfl, rfl, hm⟩ := h
    simp only [asX, Val, Wr, elemsOf]
    refine ⟨⟨l, rfl, ?_⟩, ?_⟩
    · intro x hx
      obtain ⟨y, _, hy⟩ := match_mem hm x hx
      exact ⟨(conds t x y hy).1, notNull_of hp x⟩
    · intro x hx
      obtain ⟨y, _, hy⟩ := match_mem hm x hx
      exact (conds t x y hy).2
  | .tup es, v, old, h => by
    simp only [Good] at h
    obtain ⟨hg, e, t, l, o, ht, hne, he, rfl, rfl, hl, hm⟩ := h
    cases es with
    | nil => exact absurd rfl hne
    | cons a es =>
      have ha := he a (by simp)
      subst ha
      simp only [asX, Val, Wr, elemsOf]
      refine ⟨⟨l, rfl, ?_⟩, ?_⟩
      · intro x hx
        obtain ⟨y, _, hy⟩ := match_mem hm x hx
        exact ⟨hy.1, notNull_of (simple_ptr ht) x⟩
      · intro x hx
        obtain ⟨y, _, hy⟩ := match_mem hm x hx
        exact hy.2.1
  | .cls fs, v, old, h => by
    simp only [Good] at h
    simp only [asX, Val, Wr]
    exact condss fs v old h
private theorem condss {g : Cfg} {miss : Bool} : ∀ (fs : AXs) (v old : JV), Goods g miss fs v old → ValF g (asXs fs) v ∧ WrF g okRun (asXs fs) v
  | .nil, v, old, h => by simp only [Goods] at h; subst h; simp [asXs, ValF, WrF]
  | .mem n t fs, v, old, h => by
    simp only [Goods] at h
    obtain ⟨x, y, rfl, h1, h2⟩ := h
    simp only [asXs, ValF, WrF, fstOf, sndOf]
    exact ⟨⟨x, y, rfl, (conds t x _ h1).1, (condss fs y _ h2).1⟩, (conds t x _ h1).2, (condss fs y _ h2).2⟩
  | .base t fs, v, old, h => by
    simp only [Goods] at h
    obtain ⟨x, y, rfl, h1, h2⟩ := h
    simp only [asXs, ValF, WrF, fstOf, sndOf]
    exact ⟨⟨x, y, rfl, (conds t x _ h1).1, (condss fs y _ h2).1⟩, (conds t x _ h1).2, (condss fs y _ h2).2⟩
end

private theorem match_get {f : JV → JV → Prop} : ∀ {l o : List JV}, Match f l o → ∀ (i : Nat) (y : JV), o[i]? = some y → ∃ x, l[i]? = some x ∧ f x y
  | [], [], _, i, x, h => by simp at h
  | a :: l, b :: o, h, i, y, hy => by
    cases i with
    | zero => simp at hy; subst hy; exact ⟨a, by simp, h.1⟩
    | succ i => simpa using match_get h.2 i y (by simpa using hy)
  | [], _ :: _, h, _, _, _ => h.elim
  | _ :: _, [], h, _, _, _ => h.elim

private theorem match_len {f : JV → JV → Prop} : ∀ {l o : List JV}, Match f l o → o.length = l.length
  | [], [], _ => rfl
  | a :: l, b :: o, h => by simp [match_len h.2]
  | [], _ :: _, h => h.elim
  | _ :: _, [], h => h.elim

private theorem eachOld_spec {f : Nat → JV → Option JV} : ∀ (l o : List JV) (j : Nat), o.length = l.length →
    (∀ i x y, l[i]? = some x → o[i]? = some y → f (j + i) y = some x) → eachOld f j o = some l
  | [], [], _, _, _ => rfl
  | a :: l, b :: o, j, hl, h => by
    have h0 := h 0 a b (by simp) (by simp)
    rw [Nat.add_zero] at h0
    have ih := eachOld_spec l o (j + 1) (by simpa using hl) (fun i x y hx hy => by
      have := h (i + 1) x y (by simpa using hx) (by simpa using hy)
      rw [show j + 1 + i = j + (i + 1) from by omega]; exact this)
    simp [eachOld, h0, ih]
  | [], _ :: _, _, hl, _ => by simp at hl
  | _ :: _, [], _, hl, _ => by simp at hl

private theorem unpackTup_spec {miss : Bool} {m : DB} {d e : Str} {t : XT} : ∀ (es : List (Str × XT)) (l o : List JV) (j : Nat),
    (∀ x ∈ es, x = (e, t)) → l.length = es.length → o.length = l.length →
    (∀ i x y, l[i]? = some x → o[i]? = some y → unpackX miss m t (idx d (j + i)) y = some x) → unpackTup miss m d j es o = some l
  | [], [], [], _, _, _, _, _ => by simp [unpackTup]
  | c :: es, a :: l, b :: o, j, hes, hl, ho, h => by
    have hc := hes c (by simp)
    subst hc
    have h0 := h 0 a b (by simp) (by simp)
    rw [Nat.add_zero] at h0
    have ih := unpackTup_spec es l o (j + 1) (fun x hx => hes x (by simp [hx])) (by simpa using hl) (by simpa using ho) (fun i x y hx hy => by
      have := h (i + 1) x y (by simpa using hx) (by simpa using hy)
      rw [show j + 1 + i = j + (i + 1) from by omega]; exact this)
    simp [unpackTup, h0, ih]
  | [], _ :: _, _, _, _, hl, _, _ => by simp at hl
  | _ :: _, [], _, _, _, hl, _, _ => by simp at hl
  | _, [], _ :: _, _, _, _, hl, _ => by simp at hl
  | _, _ :: _, [], _, _, _, hl, _ => by simp at hl

private theorem elem_at {m : DB} {q : Path} {T : Tree} {d e : Str} {t : XT} {xs : List JV} (hl : Loc m q (some T)) (hk : Keys d q)
    (he : KeyName e) (hr : RepL (fun x k => Rep t x k) xs (named T e)) (i : Nat) (x : JV) (hx : xs[i]? = some x) :
    ∃ k, Rep t x k ∧ Loc m (q ++ [(e, i)]) (some k) ∧ Keys (idx (d ++ dot :: e) i) (q ++ [(e, i)]) ∧
      existsK m (idx (d ++ dot :: e) i) = true := by
  obtain ⟨k, h1, h2⟩ := hr.get i x hx
  have hloc := hl.kid (n := e) (i := i) he
  rw [sel_named h1] at hloc
  refine ⟨k, h2, hloc, hk.elem he i, ?_⟩
  unfold existsK
  rw [count_elem hl hk he]
  obtain ⟨hlt, -⟩ := List.getElem?_eq_some_iff.1 h1
  simp; omega

mutual
private theorem unpackA_rep {g : Cfg} {miss : Bool} {m : DB} : ∀ (t : AX) (v old : JV) (q : Path) (T : Tree) (d : Str), TypeOK (asX t) →
    NamesOK (asX t) → Good g miss t v old → Rep (asX t) v T → Loc m q (some T) → Keys d q → existsK m d = true → unpackA miss m t d old = some v
  | .plain t, v, old, q, T, d, ht, hN, h, hr, hl, hk, hx => by
    simp only [Good] at h
    simp only [asX] at ht hN hr
    rw [unpackA]
    exact unpack_rep t v old q T d ht hN h.1 h.2.2 hr hl hk hx
  | .arr e t, v, old, q, T, d, ht, hN, h, hr, hl, hk, hx => by
    simp only [Good] at h
    obtain ⟨hp, l, o, rfl, rfl, hm⟩ := h
    simp only [asX, TypeOK, NamesOK, Rep, elemsOf] at ht hN hr
    simp only [unpackA, elemsOf]
    rw [eachOld_spec l o 0 (match_len hm)]
    · rfl
    · intro i x y h1 h2
      obtain ⟨x', h3, h4⟩ := match_get hm i y h2
      rw [h1] at h3
      cases h3
      obtain ⟨k, h5, h6, h7, h8⟩ := elem_at hl hk hN.1.key hr i x h1
      rw [Nat.zero_add]
      exact unpackA_rep t x y _ k _ ht.2 hN.2 h4 h5 h6 h7 h8
  | .tup es, v, old, q, T, d, ht, hN, h, hr, hl, hk, hx => by
    simp only [Good] at h
    obtain ⟨hg, e, t, l, o, hs, hne, he, rfl, rfl, hle, hm⟩ := h
    cases es with
    | nil => exact absurd rfl hne
    | cons a es =>
      have ha := he a (by simp)
      subst ha
      simp only [asX, TypeOK, NamesOK, Rep, elemsOf] at ht hN hr
      simp only [unpackA, elemsOf, firstName]
      rw [unpackTup_spec (e := e) (t := t) _ l o 0 he hle (match_len hm)]
      · rfl
      · intro i x y h1 h2
        obtain ⟨x', h3, h4⟩ := match_get hm i y h2
        rw [h1] at h3
        cases h3
        obtain ⟨k, h5, h6, h7, h8⟩ := elem_at hl hk hN.1.key hr i x h1
        rw [Nat.zero_add]
        exact unpack_rep t x y _ k _ ht.2 hN.2 h4.1 h4.2.2 h5 h6 h7 h8
  | .cls fs, v, old, q, T, d, ht, hN, h, hr, hl, hk, hx => by
    simp only [Good] at h
    simp only [asX, TypeOK, NamesOK, Rep] at ht hN hr
    rw [unpackA]
    exact unpackAs_rep fs v old q T d ht.2 hN h hr hl hk hx
private theorem unpackAs_rep {g : Cfg} {miss : Bool} {m : DB} : ∀ (fs : AXs) (v old : JV) (q : Path) (T : Tree) (d : Str), TypeOKF (asXs fs) →
    NamesOKF (asXs fs) → Goods g miss fs v old → RepF (asXs fs) v T → Loc m q (some T) → Keys d q → existsK m d = true →
    unpackAs miss m fs d old = some v
  | .nil, v, old, q, T, d, _, _, h, _, _, _, _ => by
    simp only [Goods] at h
    subst h; rfl
  | .mem n t fs, v, old, q, T, d, ht, hN, h, hr, hl, hk, hx => by
    simp only [Goods] at h
    obtain ⟨x, y, rfl, h1, h2⟩ := h
    simp only [asXs, TypeOKF, NamesOKF, RepF, fstOf, sndOf] at ht hN hr
    have hn := hN.1.key
    have e1 : unpackA miss m t (d ++ dot :: n) (fstOf old) = some x := by
      rcases hr.1 with ⟨hp, hnull, hnil⟩ | ⟨U, hU, hrU⟩
      · cases t with
        | plain t =>
          simp only [Good] at h1
          simp only [asX] at ht hN hp
          generalize fstOf old = o at h1 ⊢
          have := unpackF_rep (g := g) (miss := miss) (m := m) (.mem n t .nil) (.pair x .unit) (.pair o .unit) q T d
            ⟨ht.1, trivial⟩ ⟨hN.1, hN.2.1, trivial⟩ (by simp only [ValF]; exact ⟨_, _, rfl, h1.1, rfl⟩)
            (by simp only [FitF, fstOf]; exact ⟨h1.2.2, trivial⟩)
            (by simp only [RepF, fstOf]; exact ⟨.inl ⟨hp, hnull, hnil⟩, trivial⟩) hl hk hx
          simp only [unpackF, fstOf, Option.map_some] at this
          rw [unpackA]
          cases hu : unpackX miss m t (d ++ dot :: n) o with
          | none => rw [hu] at this; simp at this
          | some z => rw [hu] at this; simp at this; rw [this]
        | arr e t => simp [asX, isPtr] at hp
        | tup es => cases es <;> simp [asX, isPtr] at hp
        | cls fs => simp [asX, isPtr] at hp
      · have hloc := hl.kid (n := n) (i := 0) hn
        rw [sel_named (k := U) (by rw [hU]; rfl)] at hloc
        refine unpackA_rep t x (fstOf old) _ U _ ht.1 hN.2.1 h1 hrU hloc (hk.mem hn) ?_
        unfold existsK; rw [count_mem hl hk hn, hU]; rfl
    rw [unpackAs, e1]
    simp only [Option.bind_some]
    rw [unpackAs_rep fs y (sndOf old) q T d ht.2 hN.2.2 h2 hr.2 hl hk hx]
    rfl
  | .base t fs, v, old, q, T, d, ht, hN, h, hr, hl, hk, hx => by
    simp only [Goods] at h
    obtain ⟨x, y, rfl, h1, h2⟩ := h
    simp only [asXs, TypeOKF, NamesOKF, RepF, fstOf, sndOf] at ht hN hr
    rw [unpackAs, unpackA_rep t x (fstOf old) q T d ht.2.1 hN.1 h1 hr.1 hl hk hx]
    simp only [Option.bind_some]
    rw [unpackAs_rep fs y (sndOf old) q T d ht.2.2 hN.2 h2 hr.2 hl hk hx]
    rfl
end

/-- What a new packer writes for anything but a pointer is found after parsing. -/
private theorem located {g : Cfg} {t : XT} {n : Str} {v : JV} (hs : SchemaOK g.schema) (hn : XmlName n) (hN : NamesOK t) (ht : TypeOK t)
    (hp : isPtr t = false) (hv : Val g t v) (hw : Wr g okRun t v) :
    ∃ m U, parse g.sgn DB.empty (packDoc g t n v) = some m ∧ Rep t v U ∧ Loc m [(n, 0)] (some U) ∧ Keys n [(n, 0)] ∧ existsK m n = true := by
  have hso : SolidPtr t v := by cases t <;> simp_all [isPtr, SolidPtr]
  have hr : Rooted t v := by cases t <;> simp_all [isPtr, Rooted]
  obtain ⟨U, d, sp, h1, h2, -, h4, h5⟩ := packDoc_doc okRun_plain hs hn hN hw hr
  obtain ⟨U', h6, h7⟩ := shape_false_rep g t 1 n v ht hv hso
  have hU : U = U' := by rw [h5] at h6; simpa using h6
  subst hU
  have hvt : VT U := by obtain ⟨p, e, _, he, _⟩ := h2; exact he.vt
  have hk : Keys n [(U.name, 0)] := by rw [h4]; exact Keys.name hn.key
  refine ⟨_, U, by rw [h1]; exact parse_doc h2 DB.empty sp, h7, ?_, ?_, ?_⟩
  · rw [← h4]; exact walk_empty hvt
  · rw [← h4] at hk ⊢; exact hk
  · have := hk.strip (q := [])
    have hc : count (walk U.name U DB.empty) n = 1 := by
      unfold count; rw [this]; exact count_root hvt
    simp [existsK, hc]

/-- **C122** (part): an object with arrays, and tuples of one simple type, in classes and base classes to any depth, is read back
from what is written, whatever was in the variable. -/
theorem C122_roundtrip_partial {g : Cfg} {miss : Bool} {t : AX} {n : Str} {v old : JV} (hs : SchemaOK g.schema) (hn : XmlName n)
    (hN : NamesOK (asX t)) (ht : TypeOK (asX t)) (hp : isPtr (asX t) = false) (hv : Good g miss t v old) :
    ∃ m, parse g.sgn DB.empty (packDocA g t n v) = some m ∧ unpackA miss m t n old = some v := by
  obtain ⟨h1, h2⟩ := conds t v old hv
  obtain ⟨m, U, h3, h4, h5, h6, h7⟩ := located hs hn hN ht hp h1 h2
  refine ⟨m, ?_, unpackA_rep t v old _ U n ht hN hv h4 h5 h6 h7⟩
  have : packDocA g t n v = packDoc g (asX t) n v := by simp only [packDocA, packDoc, pack_eq t n v old _ hN hv]
  rw [this, h3]


/-- `struct R { int a[2][2]; P p[2]; tuple<string,string> t; }` -/
example : ∃ m, parse true DB.empty (packDocA ⟨true, [], false⟩ (.cls (.mem (b "a") (.arr (b "int") (.plain (.int int32)))
      (.mem (b "p") (.arr (b "P") (.plain P)) (.mem (b "t") (.tup [(b "string", .str), (b "string", .str)]) .nil)))) (b "r")
      (.pair (.seq [.int 1, .int 2, .int 3, .int 4]) (.pair (.seq [pv 5 (b "x"), pv 6 (b "y")]) (.pair (.seq [.str (b "u"), .str (b "v")]) .unit)))) = some m ∧
    unpackA true m (.cls (.mem (b "a") (.arr (b "int") (.plain (.int int32)))
      (.mem (b "p") (.arr (b "P") (.plain P)) (.mem (b "t") (.tup [(b "string", .str), (b "string", .str)]) .nil)))) (b "r")
      (.pair (.seq [.int 9, .int 9, .int 9, .int 9]) (.pair (.seq [pv 9 (b "z"), pv 9 []]) (.pair (.seq [.str [], .str (b "w")]) .unit))) =
      some (.pair (.seq [.int 1, .int 2, .int 3, .int 4]) (.pair (.seq [pv 5 (b "x"), pv 6 (b "y")]) (.pair (.seq [.str (b "u"), .str (b "v")]) .unit))) := by
  have nm : ∀ n : Str, n.all nameCh = true → n.head? ≠ some 33 → n.head? ≠ some 63 → n ≠ [] → XmlName n := xmlName
  refine C122_roundtrip_partial (g := ⟨true, [], false⟩) (.inl rfl) (nm _ (by decide) (by decide) (by decide) (by decide)) ?_ ?_ rfl ?_
  · simp only [asX, asXs, NamesOK, NamesOKF, P]
    refine ⟨?_, ⟨?_, trivial⟩, ?_, ⟨?_, ?_, trivial, ?_, trivial, trivial⟩, ?_, ⟨?_, trivial⟩, trivial⟩ <;>
      exact nm _ (by decide) (by decide) (by decide) (by decide)
  · simp only [asX, asXs, P, TypeOK, TypeOKF, ElemType, namesF]
    decide
  · have hp : ∀ i : Int, InRange int32 i → ∀ c : UInt8, goodCh true c = true → okRun [c] → c ≠ 61 → ∀ o, Good ⟨true, [], false⟩ true (.plain P) (pv i [c]) o := by
      intro i hi c hc hr h61 o
      simp only [Good, P, pv, Val, ValF, Wr, WrF, Fit, FitF, fstOf, sndOf, bytesOf]
      refine ⟨⟨_, _, rfl, ⟨i, rfl, hi⟩, _, _, rfl, ⟨_, rfl, by simpa using hc⟩, rfl⟩, ⟨trivial, ?_, trivial⟩, trivial, .inl (by simp), trivial⟩
      simp [dcd, dc, hc, Runs, h61, hr]
    refine ⟨_, _, rfl, ⟨rfl, _, _, rfl, rfl, ?_⟩, _, _, rfl, ⟨rfl, _, _, rfl, rfl, ?_⟩, _, _, rfl, ⟨rfl, b "string", .str, _, _, trivial, by simp, by simp, rfl, rfl, rfl, ?_⟩, rfl⟩
    · simp only [Match, Good, Val, Wr, Fit]
      refine ⟨⟨⟨1, rfl, ?_⟩, trivial, trivial⟩, ⟨⟨2, rfl, ?_⟩, trivial, trivial⟩, ⟨⟨3, rfl, ?_⟩, trivial, trivial⟩, ⟨⟨4, rfl, ?_⟩, trivial, trivial⟩, trivial⟩ <;>
        exact ⟨by decide, by decide⟩
    · exact ⟨hp 5 ⟨by decide, by decide⟩ _ (by decide) ⟨by decide, by decide⟩ (by decide) _, hp 6 ⟨by decide, by decide⟩ _ (by decide) ⟨by decide, by decide⟩ (by decide) _, trivial⟩
    · simp only [Match, Val, Wr, Fit, bytesOf]
      refine ⟨⟨⟨_, rfl, by decide⟩, ?_, .inl (by decide)⟩, ⟨⟨_, rfl, by decide⟩, ?_, .inl (by decide)⟩, trivial⟩ <;>
        exact ⟨by decide, by decide⟩

/-! ### What fails -/

private theorem getText_gone {m : DB} {q : Path} {d : Str} (h : Loc m q none) (hk : Keys d q) (miss : Bool) :
    getText miss m d = if miss then none else some none := by
  have := (h [] VP.nil).2.1
  simp only [List.append_nil, Option.bind_none] at this
  unfold getText
  rw [hk.noughts, this]

private theorem simple_gone {m : DB} {d : Str} {miss : Bool} {t : XT} (ht : Simple t) (h : getText miss m d = if miss then none else some none) (old : JV) :
    unpackX miss m t d old = if miss then none else some old := by
  cases t <;> simp only [Simple] at ht <;> cases miss <;> simp [unpackX, h]

/-- **C122 fails**: of a tuple of two simple types, the second element is not read back: it is left as it was, or found to be missing. -/
theorem C122_fails_mixed {g : Cfg} (hg : g.pretty = false) (hs : SchemaOK g.schema) {n e f : Str} (hn : XmlName n) (he : XmlName e) (hf : XmlName f)
    (hef : e ≠ f) {s t : XT} (h1 : Simple s) (h2 : Simple t) {x y ox oy : JV} (hx : Val g s x ∧ Wr g okRun s x ∧ Fit true s x ox)
    (hy : Val g t y ∧ Wr g okRun t y) :
    ∃ m, parse g.sgn DB.empty (packDocA g (.tup [(e, s), (f, t)]) n (.seq [x, y])) = some m ∧
      unpackA false m (.tup [(e, s), (f, t)]) n (.seq [ox, oy]) = some (.seq [x, oy]) ∧
      unpackA true m (.tup [(e, s), (f, t)]) n (.seq [ox, oy]) = none := by
  have T1 : ∀ {t : XT}, Simple t → NamesOK t ∧ TypeOK t := by
    intro t h; cases t <;> simp_all [Simple, NamesOK, TypeOK]
  have pk : packDocA g (.tup [(e, s), (f, t)]) n (.seq [x, y]) = packDoc g (.struct (.mem e s (.mem f t .nil))) n (.pair x (.pair y .unit)) := by
    simp only [packDocA, packDoc, packA, packX, withTag_twice, elemsOf]
    congr 2
    funext p
    simp only [packTup, packF, fstOf, sndOf]
    rw [simple_eq hg h1 (d := n) he.key.2.2, simple_eq hg h2 (d := n) hf.key.2.2]
  obtain ⟨m, U, h3, h4, h5, h6, h7⟩ := located (t := .struct (.mem e s (.mem f t .nil))) (v := .pair x (.pair y .unit)) hs hn
    ⟨he, (T1 h1).1, hf, (T1 h2).1, trivial⟩ (by simp only [TypeOK, TypeOKF, namesF]; exact ⟨by simp [hef], (T1 h1).2, (T1 h2).2, trivial⟩) rfl
    (by simp only [Val, ValF]; exact ⟨_, _, rfl, hx.1, _, _, rfl, hy.1, rfl⟩)
    (by simp only [Wr, WrF, fstOf, sndOf]; exact ⟨hx.2.1, hy.2, trivial⟩)
  refine ⟨m, by rw [pk, h3], ?_⟩
  simp only [Rep, RepF, fstOf, sndOf] at h4
  obtain ⟨K, hK, hr⟩ := h4.1.resolve_left (by rw [simple_ptr h1]; simp)
  have hk0 := h6.elem he.key 0
  have l0 : Loc m ([(n, 0)] ++ [(e, 0)]) (some K) := by
    have := h5.kid (n := e) (i := 0) he.key
    rwa [sel_named (k := K) (by rw [hK]; rfl)] at this
  have l1 : Loc m ([(n, 0)] ++ [(e, 1)]) none := by
    have := h5.kid (n := e) (i := 1) he.key
    rwa [show sel U.kids e 1 = none from by rw [show sel U.kids e 1 = (named U e)[1]? from rfl, hK]; rfl] at this
  have hk1 := h6.elem he.key 1
  have ex : existsK m (idx (n ++ dot :: e) 0) = true := by
    unfold existsK; rw [count_elem h5 h6 he.key, hK]; rfl
  have r0 : ∀ miss, Fit miss s x ox → unpackX miss m s (idx (n ++ dot :: e) 0) ox = some x := fun miss hfit =>
    unpack_rep (g := g) s x ox _ K _ (T1 h1).2 (T1 h1).1 hx.1 hfit hr l0 hk0 ex
  have ff : Fit false s x ox := by
    have := hx.2.2
    cases s <;> simp only [Simple] at h1 <;> simp_all [Fit]
  have r1 : ∀ miss, unpackX miss m t (idx (n ++ dot :: e) 1) oy = if miss then none else some oy := fun miss =>
    simple_gone h2 (getText_gone l1 hk1 miss) oy
  constructor
  · simp [unpackA, unpackTup, firstName, elemsOf, r0 false ff, r1 false]
  · simp [unpackA, unpackTup, firstName, elemsOf, r0 true hx.2.2, r1 true]

/-- `tuple<int,bool>` -/
example : ∃ m, parse true DB.empty (packDocA ⟨true, [], false⟩ (.tup [(b "int", .int int32), (b "bool", .bool)]) (b "r") (.seq [.int 5, .bool true])) = some m ∧
    unpackA false m (.tup [(b "int", .int int32), (b "bool", .bool)]) (b "r") (.seq [.int 0, .bool false]) = some (.seq [.int 5, .bool false]) ∧
    unpackA true m (.tup [(b "int", .int int32), (b "bool", .bool)]) (b "r") (.seq [.int 0, .bool false]) = none := by
  have nm : ∀ n : Str, n.all nameCh = true → n.head? ≠ some 33 → n.head? ≠ some 63 → n ≠ [] → XmlName n := xmlName
  refine C122_fails_mixed (g := ⟨true, [], false⟩) (s := .int int32) (t := .bool) rfl (.inl rfl) (nm _ (by decide) (by decide) (by decide) (by decide))
    (nm _ (by decide) (by decide) (by decide) (by decide)) (nm _ (by decide) (by decide) (by decide) (by decide)) (by decide) trivial trivial ?_ ?_
  · simp only [Val, Wr, Fit]; exact ⟨⟨5, rfl, by decide, by decide⟩, trivial, trivial⟩
  · simp only [Val, Wr]; exact ⟨⟨true, rfl⟩, trivial⟩

/-- **C122 fails**: an array of pointers with a null before one that is not is written as the array with them the other way round. -/
theorem C122_fails_null (g : Cfg) (e n : Str) (t : XT) (v : JV) :
    packDocA g (.arr e (.plain (.ptr t))) n (.seq [.null, .ptr v]) = packDocA g (.arr e (.plain (.ptr t))) n (.seq [.ptr v, .null]) := by
  simp [packDocA, packA, packL, packX, elemsOf]

/-- **C122 fails**: a class in a tuple is written without an element of its own, and is not found. -/
theorem C122_fails_class : packDocA ⟨true, [], false⟩ (.tup [(b "P", P)]) (b "r") (.seq [pv 5 (b "q")]) = b "<r><x>5</x><s>q</s></r>" ∧
    (parse true DB.empty (b "<r><x>5</x><s>q</s></r>")).bind
      (fun m => unpackA false m (.tup [(b "P", P)]) (b "r") (.seq [pv 0 []])) = some (.seq [pv 0 []]) :=
  ⟨by decide +kernel, eqO_eq (by decide +kernel)⟩

/-- **C122 fails**: an array of vectors, or of anything with template arguments, is not XML. -/
theorem C122_fails_template : packDocA ⟨true, [], false⟩ (.arr (b "vector<int>") (.plain (.seq (b "int") (.int int32)))) (b "r")
      (.seq [.seq [.int 5]]) = b "<r><vector<int>><int>5</int></vector<int>></r>" ∧
    (parse true DB.empty (b "<r><vector<int>><int>5</int></vector<int>></r>")).isNone = true :=
  ⟨by decide +kernel, by decide +kernel⟩

end Verif.Xml
