import Verif.XmlFltTxt
import Verif.Props.XmlWrite
/-
C120: floating point numbers as XML.
-/
namespace Verif.XmlFlt
open Verif.Xml
open EnumKeys (Str isSpace)
open Verif.Json (JV dot tail)

/-! ### Specification -/

/-- The values of a floating point type. -/
def C120.Of (F : FF) : Fl → Prop
  | .num _ q => 0 ≤ q ∧ C120.Number F q
  | _ => True

/-- float and double. -/
def C120.binary32 : FF := ⟨24, -149, 104⟩
def C120.binary64 : FF := ⟨53, -1074, 971⟩

mutual
/-- The type with strings for numbers. -/
def C120.asText : FX → XT
  | .flt => .str
  | .plain t => t
  | .seq e t => .seq e (C120.asText t)
  | .struct fs => .struct (C120.asTexts fs)
def C120.asTexts : FXs → Fs
  | .nil => .nil
  | .mem n t fs => .mem n (C120.asText t) (C120.asTexts fs)
  | .base t fs => .base (C120.asText t) (C120.asTexts fs)
end

/-- No null pointers among elements. -/
def C120.Solid : FX → FV → Prop
  | .plain t, v => NotNull t (plainOf v)
  | _, _ => True

mutual
/-- Values of a type, and variables they are read into: what is not a number as in C27. -/
def C120.Good (g : Cfg) (miss : Bool) (F : FF) : FX → FV → FV → Prop
  | .flt, v, _ => ∃ x, v = .flt x ∧ C120.Of F x
  | .plain t, v, old => ∃ a, v = .plain a ∧ Val g t a ∧ Wr g okRun t a ∧ Fit miss t a (plainOf old)
  | .seq _ t, v, _ => ∃ l, v = .seq l ∧ ∀ x ∈ l, C120.Good g miss F t x (newF t) ∧ C120.Solid t x
  | .struct fs, v, old => C120.Goods g miss F fs v old
def C120.Goods (g : Cfg) (miss : Bool) (F : FF) : FXs → FV → FV → Prop
  | .nil, v, _ => v = .unit
  | .mem _ t fs, v, old => ∃ x y, v = .pair x y ∧ C120.Good g miss F t x (fstF old) ∧ C120.Goods g miss F fs y (sndF old)
  | .base t fs, v, old => ∃ x y, v = .pair x y ∧ C120.Good g miss F t x (fstF old) ∧ C120.Goods g miss F fs y (sndF old)
end

open C120

/-! ### One number -/

private theorem absText_facts (P : Nat) (q : Rat) :
    (∃ c r, absText P q = c :: r ∧ isDigit c = true) ∧ (∀ c ∈ absText P q, txtCh c = true) ∧
    numOf (absText P q) = some (if q = 0 then 0 else ((decimal (max P 1) q).1 : Rat) * 10 ^ (decimal (max P 1) q).2) := by
  unfold absText
  split
  · exact ⟨⟨48, [], rfl, by decide⟩, by decide, by
      rw [numOf_int (by decide) (by decide)]; simp [valD]⟩
  · simp only
    refine ⟨layout_head _ _ _, layout_chars _ _ _, ?_⟩
    rw [numOf_layout, strip_val]

private theorem all_u8 {p : UInt8 → Prop} (h : ∀ n, n < 256 → p (UInt8.ofNat n)) (c : UInt8) : p c := by
  have := h c.toNat c.toNat_lt
  rwa [UInt8.ofNat_toNat] at this

private theorem digit_facts {c : UInt8} : isDigit c = true →
    isSpace c = false ∧ c ≠ 45 ∧ c ≠ 43 ∧ toLower c ≠ 105 ∧ toLower c ≠ 110 := by
  revert c
  exact fun {c} => all_u8 (p := fun c => isDigit c = true → isSpace c = false ∧ c ≠ 45 ∧ c ≠ 43 ∧ toLower c ≠ 105 ∧ toLower c ≠ 110)
    (by decide +kernel) c

private theorem stoT_digit (F : FF) {c : UInt8} {r : Str} (hc : isDigit c = true) (q : Rat) (hq : numOf (c :: r) = some q) :
    stoT F (c :: r) = .num false (min (nearest F q) (largest F)) ∧ stoT F (45 :: c :: r) = .num true (min (nearest F q) (largest F)) := by
  obtain ⟨h1, h2, h3, h4, h5⟩ := digit_facts hc
  have hs : signOf (c :: r) = (false, c :: r) := by
    unfold signOf
    split
    · rename_i h; cases h; exact absurd rfl h2
    · rename_i h; cases h; exact absurd rfl h3
    · rfl
  constructor
  · simp [stoT, h1, hs, hq, h4, h5]
  · simp [stoT, isSpace, signOf, hq, h4, h5]

private theorem stoT_text (F : FF) (P : Nat) (neg : Bool) (q : Rat) :
    stoT F (text P (.num neg q)) = .num neg (min (nearest F (if q = 0 then 0 else
      ((decimal (max P 1) q).1 : Rat) * 10 ^ (decimal (max P 1) q).2)) (largest F)) := by
  obtain ⟨⟨c, r, h1, h2⟩, -, h3⟩ := absText_facts P q
  rw [h1] at h3
  have := stoT_digit F h2 _ h3
  cases neg
  · simp only [text, h1]; exact this.1
  · simp only [text, h1]; exact this.2

/-- C120, partial: with a precision of `P` decimal digits every number of a format with at most `log2 10^(P-1)` binary digits is read back,
with its sign, and so are infinities and NaN. -/
theorem C120_number_partial (F : FF) (P : Nat) (hF : 0 < F.prec) (hP : 2 ^ F.prec < 10 ^ (P - 1)) (x : Fl) (h : Of F x) :
    stoT F (text P x) = x := by
  cases x with
  | nan => rfl
  | inf neg => cases neg <;> rfl
  | num neg q =>
    obtain ⟨h1, h2⟩ := h
    have hP1 : 1 < P := by
      by_contra hc
      have : P - 1 = 0 := by omega
      rw [this] at hP
      have := Nat.one_lt_two_pow (n := F.prec) (by omega)
      simp at hP
    rw [stoT_text F P neg q, max_eq_left (by omega)]
    congr 1
    by_cases h0 : q = 0
    · rw [if_pos h0]
      subst h0
      rw [nearest_self hF (le_refl _) h2, min_eq_left (le_largest h2)]
    · rw [if_neg h0, decimal_back hF (by omega) hP (lt_of_le_of_ne h1 (Ne.symm h0)) h2, min_eq_left (le_largest h2)]

/-- C120, partial: 17 digits are enough for a double, 9 for a float. -/
theorem C120_digits_partial (P : Nat) (x : Fl) :
    (17 ≤ P → Of binary64 x → stoT binary64 (text P x) = x) ∧ (9 ≤ P → Of binary32 x → stoT binary32 (text P x) = x) := by
  constructor
  · intro h hx
    refine C120_number_partial _ _ (by decide) ?_ x hx
    calc 2 ^ binary64.prec < 10 ^ 16 := by decide
      _ ≤ 10 ^ (P - 1) := Nat.pow_le_pow_right (by decide) (by omega)
  · intro h hx
    refine C120_number_partial _ _ (by decide) ?_ x hx
    calc 2 ^ binary32.prec < 10 ^ 8 := by decide
      _ ≤ 10 ^ (P - 1) := Nat.pow_le_pow_right (by decide) (by omega)

/-- The double nearest to 0.1. -/
example : stoT binary64 (text 17 (.num true (3602879701896397 / 2 ^ 55))) = .num true (3602879701896397 / 2 ^ 55) :=
  (C120_digits_partial 17 _).1 (by decide) ⟨by norm_num, 3602879701896397, -55, by decide, by decide, by decide, by norm_num⟩

/-! ### Objects with numbers in them -/

private theorem text_chars (P : Nat) (x : Fl) :
    text P x ≠ [] ∧ ∀ c ∈ text P x, txtCh c = true ∨ c = 73 ∨ c = 78 ∨ c = 70 ∨ c = 97 := by
  cases x with
  | nan => exact ⟨by simp [text], by simp [text]⟩
  | inf neg => cases neg <;> exact ⟨by simp [text], by simp [text, txtCh]⟩
  | num neg q =>
    obtain ⟨⟨c, r, h1, -⟩, h2, -⟩ := absText_facts P q
    cases neg
    · exact ⟨by simp [text, h1], fun c hc => .inl (h2 c hc)⟩
    · refine ⟨by simp [text], fun c hc => .inl ?_⟩
      simp only [text, if_true, List.mem_cons] at hc
      rcases hc with rfl | hc
      · decide
      · exact h2 c hc

private theorem ch_facts {c : UInt8} : (txtCh c = true ∨ c = 73 ∨ c = 78 ∨ c = 70 ∨ c = 97) →
    (∀ sgn, quote1 sgn c = [c]) ∧ (∀ sgn, goodCh sgn c = true) ∧ c ≠ 61 ∧ c ≠ 60 :=
  all_u8 (p := fun c => (txtCh c = true ∨ c = 73 ∨ c = 78 ∨ c = 70 ∨ c = 97) →
    (∀ sgn, quote1 sgn c = [c]) ∧ (∀ sgn, goodCh sgn c = true) ∧ c ≠ 61 ∧ c ≠ 60) (by decide +kernel) c

private theorem quote_text {sgn : Bool} {s : Str} (h : ∀ c ∈ s, quote1 sgn c = [c]) : quote sgn s = s := by
  induction s with
  | nil => rfl
  | cons c s ih =>
    have := ih fun c hc => h c (by simp [hc])
    simp only [quote, List.map_cons, List.flatten_cons] at this ⊢
    rw [this, h c (by simp)]; rfl

private theorem runs_text : ∀ (s p : Str), (∀ c ∈ s, c ≠ 61 ∧ c ≠ 60) → (∀ c ∈ p, c ≠ 60) → Runs okRun p s
  | [], p, _, hp => by
    constructor
    · rintro rfl; exact hp 60 (by simp) rfl
    · rintro rfl; exact hp 60 (by simp) rfl
  | c :: s, p, h, hp => by
    simp only [Runs, if_neg (h c (by simp)).1]
    refine runs_text s _ (fun c hc => h c (by simp [hc])) ?_
    intro c' hc
    rcases List.mem_append.1 hc with hc | hc
    · exact hp c' hc
    · simp at hc; subst hc; exact (h _ (by simp)).2

mutual
/-- The value with texts for numbers. -/
private def shown (P : Nat) : FX → FV → JV
  | .flt, v => .str (text P (fltOf v))
  | .plain _, v => plainOf v
  | .seq _ t, v => .seq ((listOf v).map (shown P t))
  | .struct fs, v => showns P fs v
private def showns (P : Nat) : FXs → FV → JV
  | .nil, _ => .unit
  | .mem _ t fs, v => .pair (shown P t (fstF v)) (showns P fs (sndF v))
  | .base t fs, v => .pair (shown P t (fstF v)) (showns P fs (sndF v))
end

mutual
/-- The variable with empty texts for numbers. -/
private def low : FX → FV → JV
  | .flt, _ => .str []
  | .plain _, v => plainOf v
  | .seq _ _, _ => .seq []
  | .struct fs, v => lows fs v
private def lows : FXs → FV → JV
  | .nil, _ => .unit
  | .mem _ t fs, v => .pair (low t (fstF v)) (lows fs (sndF v))
  | .base t fs, v => .pair (low t (fstF v)) (lows fs (sndF v))
end

mutual
private theorem low_new : ∀ t : FX, low t (newF t) = dflt (asText t)
  | .flt => rfl
  | .plain t => rfl
  | .seq e t => rfl
  | .struct fs => by simp only [low, newF, asText, dflt]; exact lows_new fs
private theorem lows_new : ∀ fs : FXs, lows fs (newF.newFs fs) = dfltF (asTexts fs)
  | .nil => rfl
  | .mem n t fs => by simp only [lows, newF.newFs, asTexts, dfltF, fstF, sndF, low_new t, lows_new fs]
  | .base t fs => by simp only [lows, newF.newFs, asTexts, dfltF, fstF, sndF, low_new t, lows_new fs]
end

private theorem ptrElem_shape (t : FX) : isPtr (asText t) = ptrElem t := by
  cases t <;> simp [asText, ptrElem, isPtr]

private theorem packL_map (f : FV → PK → PK) (k : JV → PK → PK) (sh : FV → JV) : ∀ (l : List FV) (p : PK), (∀ x ∈ l, ∀ p, f x p = k (sh x) p) →
    packLF f l p = packL k (l.map sh) p
  | [], _, _ => rfl
  | x :: l, p, h => by
    simp only [packLF, List.map_cons, packL, h x (by simp)]
    exact packL_map f k sh l _ fun x hx => h x (by simp [hx])

mutual
private theorem pack_eq (g : Cfg) (miss : Bool) (F : FF) (P : Nat) : ∀ (t : FX) (d : Str) (v old : FV) (p : PK), Good g miss F t v old →
    packV g P t d v p = packX g (asText t) d (shown P t v) p
  | .flt, d, v, old, p, h => by
    obtain ⟨x, rfl, hx⟩ := h
    simp only [packV, asText, shown, packX, bytesOf, fltOf]
    rw [quote_text fun c hc => (ch_facts ((text_chars P x).2 c hc)).1 _]
  | .plain t, d, v, old, p, h => rfl
  | .seq e t, d, v, old, p, h => by
    obtain ⟨l, rfl, hl⟩ := h
    simp only [packV, asText, shown, packX, elemsOf, listOf, ptrElem_shape]
    congr 1
    funext q
    refine packL_map _ _ _ l q ?_
    intro x hx q
    have he : packV g P t (d ++ dot :: e) x = packX g (asText t) (d ++ dot :: e) (shown P t x) :=
      funext fun q => pack_eq g miss F P t _ x _ q (hl x hx).1
    rw [he]
  | .struct fs, d, v, old, p, h => by
    simp only [packV, asText, shown, packX]
    congr 1
    funext q
    exact packs_eq g miss F P fs d v old q h
private theorem packs_eq (g : Cfg) (miss : Bool) (F : FF) (P : Nat) : ∀ (fs : FXs) (d : Str) (v old : FV) (p : PK), Goods g miss F fs v old →
    packVs g P fs d v p = packF g (asTexts fs) d (showns P fs v) p
  | .nil, _, _, _, _, _ => rfl
  | .mem n t fs, d, v, old, p, h => by
    obtain ⟨x, y, rfl, h1, h2⟩ := h
    simp only [packVs, asTexts, showns, packF, fstF, sndF, fstOf, sndOf]
    rw [pack_eq g miss F P t _ x _ p h1, packs_eq g miss F P fs d y _ _ h2]
  | .base t fs, d, v, old, p, h => by
    obtain ⟨x, y, rfl, h1, h2⟩ := h
    simp only [packVs, asTexts, showns, packF, fstF, sndF, fstOf, sndOf]
    rw [pack_eq g miss F P t _ x _ p h1, packs_eq g miss F P fs d y _ _ h2]
end

private theorem solid_shape {t : FX} {x : FV} (P : Nat) (h : Solid t x) : NotNull (asText t) (shown P t x) := by
  cases t with
  | plain t => exact h
  | _ => simp [asText, NotNull]

mutual
private theorem conds (g : Cfg) (miss : Bool) (F : FF) (P : Nat) : ∀ (t : FX) (v old : FV), Good g miss F t v old →
    Val g (asText t) (shown P t v) ∧ Wr g okRun (asText t) (shown P t v) ∧ Fit miss (asText t) (shown P t v) (low t old)
  | .flt, v, old, h => by
    obtain ⟨x, rfl, hx⟩ := h
    obtain ⟨h1, h2⟩ := text_chars P x
    have hg : ∀ c ∈ text P x, goodCh g.sgn c = true := fun c hc => (ch_facts (h2 c hc)).2.1 _
    simp only [asText, shown, low, Val, Wr, Fit, fltOf, bytesOf]
    refine ⟨⟨_, rfl, hg⟩, ?_, .inl h1⟩
    rw [dcd_good hg]
    exact runs_text _ _ (fun c hc => (ch_facts (h2 c hc)).2.2) (by simp)
  | .plain t, v, old, h => by
    obtain ⟨a, rfl, h1, h2, h3⟩ := h
    exact ⟨h1, h2, h3⟩
  | .seq e t, v, old, h => by
    obtain ⟨l, rfl, hl⟩ := h
    simp only [asText, shown, low, Val, Wr, Fit, elemsOf, listOf]
    refine ⟨⟨_, rfl, ?_⟩, ?_, ?_⟩
    · intro x hx
      obtain ⟨y, hy, rfl⟩ := List.mem_map.1 hx
      exact ⟨(conds g miss F P t y _ (hl y hy).1).1, solid_shape P (hl y hy).2⟩
    · intro x hx
      obtain ⟨y, hy, rfl⟩ := List.mem_map.1 hx
      exact (conds g miss F P t y _ (hl y hy).1).2.1
    · intro x hx
      obtain ⟨y, hy, rfl⟩ := List.mem_map.1 hx
      have := (conds g miss F P t y _ (hl y hy).1).2.2
      rwa [low_new] at this
  | .struct fs, v, old, h => by
    simp only [asText, shown, low, Val, Wr, Fit]
    exact condss g miss F P fs v old h
private theorem condss (g : Cfg) (miss : Bool) (F : FF) (P : Nat) : ∀ (fs : FXs) (v old : FV), Goods g miss F fs v old →
    ValF g (asTexts fs) (showns P fs v) ∧ WrF g okRun (asTexts fs) (showns P fs v) ∧ FitF miss (asTexts fs) (showns P fs v) (lows fs old)
  | .nil, v, old, h => by simp [asTexts, showns, ValF, WrF, FitF]
  | .mem n t fs, v, old, h => by
    obtain ⟨x, y, rfl, h1, h2⟩ := h
    have a := conds g miss F P t x _ h1
    have b := condss g miss F P fs y _ h2
    simp only [asTexts, showns, lows, ValF, WrF, FitF, fstF, sndF, fstOf, sndOf]
    exact ⟨⟨_, _, rfl, a.1, b.1⟩, ⟨a.2.1, b.2.1⟩, a.2.2, b.2.2⟩
  | .base t fs, v, old, h => by
    obtain ⟨x, y, rfl, h1, h2⟩ := h
    have a := conds g miss F P t x _ h1
    have b := condss g miss F P fs y _ h2
    simp only [asTexts, showns, lows, ValF, WrF, FitF, fstF, sndF, fstOf, sndOf]
    exact ⟨⟨_, _, rfl, a.1, b.1⟩, ⟨a.2.1, b.2.1⟩, a.2.2, b.2.2⟩
end

private theorem each_map (f : Nat → Option JV) (k : Nat → Option FV) (sh : FV → JV) (l0 : List FV)
    (h : ∀ i, ∀ x ∈ l0, f i = some (sh x) → k i = some x) : ∀ (n i : Nat) (l : List FV), (∀ x ∈ l, x ∈ l0) → eachN f n i = some (l.map sh) →
    eachF k n i = some l
  | 0, i, l, _, he => by
    simp only [eachN, Option.some.injEq] at he
    have : l = [] := List.map_eq_nil_iff.1 he.symm
    subst this; rfl
  | n + 1, i, l, hl, he => by
    simp only [eachN, Option.bind_eq_some_iff, Option.map_eq_some_iff] at he
    obtain ⟨v, h1, vs, h2, h3⟩ := he
    cases l with
    | nil => simp at h3
    | cons x l =>
      simp only [List.map_cons, List.cons.injEq] at h3
      obtain ⟨rfl, rfl⟩ := h3
      simp only [eachF, h i x (hl x (by simp)) h1, each_map f k sh l0 h n (i + 1) l (fun x hx => hl x (by simp [hx])) h2]
      rfl

mutual
private theorem unpack_eq (g : Cfg) (miss : Bool) (F : FF) (P : Nat) (hF : 0 < F.prec) (hP : 2 ^ F.prec < 10 ^ (P - 1)) (m : DB) :
    ∀ (t : FX) (d : Str) (v old : FV), Good g miss F t v old → unpackX miss m (asText t) d (low t old) = some (shown P t v) →
      unpackV F miss m t d old = some v
  | .flt, d, v, old, h, he => by
    obtain ⟨x, rfl, hx⟩ := h
    have h1 := (text_chars P x).1
    simp only [asText, low, shown, unpackX, fltOf, Option.map_eq_some_iff] at he
    obtain ⟨r, hr, he⟩ := he
    simp only [unpackV, hr, Option.map_some]
    cases r with
    | none => simp at he; exact absurd he h1
    | some s =>
      simp at he
      subst he
      simp only [C120_number_partial F P hF hP x hx]
  | .plain t, d, v, old, h, he => by
    obtain ⟨a, rfl, -⟩ := h
    simp only [asText, low, shown] at he
    simp only [unpackV, he, Option.map_some]
    rfl
  | .seq e t, d, v, old, h, he => by
    obtain ⟨l, rfl, hl⟩ := h
    simp only [asText, low, shown, unpackX, listOf, Option.map_eq_some_iff, JV.seq.injEq] at he
    obtain ⟨w, hw, rfl⟩ := he
    simp only [unpackV]
    rw [each_map _ (fun i => unpackV F miss m t (idx (d ++ dot :: e) i) (newF t)) (shown P t) l ?_ _ _ l (fun _ h => h) hw]
    · rfl
    · intro i x hx hi
      exact unpack_eq g miss F P hF hP m t _ x _ (hl x hx).1 (by rw [low_new]; exact hi)
  | .struct fs, d, v, old, h, he => by
    simp only [asText, low, shown, unpackX] at he
    simp only [unpackV]
    exact unpacks_eq g miss F P hF hP m fs d v old h he
private theorem unpacks_eq (g : Cfg) (miss : Bool) (F : FF) (P : Nat) (hF : 0 < F.prec) (hP : 2 ^ F.prec < 10 ^ (P - 1)) (m : DB) :
    ∀ (fs : FXs) (d : Str) (v old : FV), Goods g miss F fs v old → unpackF miss m (asTexts fs) d (lows fs old) = some (showns P fs v) →
      unpackVs F miss m fs d old = some v
  | .nil, d, v, old, h, _ => by
    have : v = .unit := h
    subst this; rfl
  | .mem n t fs, d, v, old, h, he => by
    obtain ⟨x, y, rfl, h1, h2⟩ := h
    simp only [asTexts, lows, showns, unpackF, fstF, sndF, fstOf, sndOf, Option.bind_eq_some_iff, Option.map_eq_some_iff, JV.pair.injEq] at he
    obtain ⟨a, ha, b, hb, rfl, rfl⟩ := he
    simp only [unpackVs, unpack_eq g miss F P hF hP m t _ x _ h1 ha, unpacks_eq g miss F P hF hP m fs _ y _ h2 hb]
    rfl
  | .base t fs, d, v, old, h, he => by
    obtain ⟨x, y, rfl, h1, h2⟩ := h
    simp only [asTexts, lows, showns, unpackF, fstF, sndF, fstOf, sndOf, Option.bind_eq_some_iff, Option.map_eq_some_iff, JV.pair.injEq] at he
    obtain ⟨a, ha, b, hb, rfl, rfl⟩ := he
    simp only [unpackVs, unpack_eq g miss F P hF hP m t _ x _ h1 ha, unpacks_eq g miss F P hF hP m fs _ y _ h2 hb]
    rfl
end

/-- C120, partial: objects with floating point numbers in them, in classes, base classes and sequences, are read back unchanged from what is
written with enough digits, whatever was in the variable. -/
theorem C120_roundtrip_partial (g : Cfg) (miss : Bool) (F : FF) (P : Nat) (hF : 0 < F.prec) (hP : 2 ^ F.prec < 10 ^ (P - 1)) (t : FX) (n : Str)
    (v old : FV) (hs : SchemaOK g.schema) (hn : XmlName n) (hN : NamesOK (asText t)) (ht : TypeOK (asText t)) (hv : Good g miss F t v old)
    (hr : Solid t v) : ∃ m, parse g.sgn DB.empty (packDocF g P t n v) = some m ∧ unpackV F miss m t n old = some v := by
  obtain ⟨h1, h2, h3⟩ := conds g miss F P t v old hv
  obtain ⟨m, h4, h5⟩ := C27_roundtrip_partial hs hn hN ht h1 (solid_shape P hr) h2 h3
  refine ⟨m, ?_, unpack_eq g miss F P hF hP m t n v old hv h5⟩
  have : packDocF g P t n v = packDoc g (asText t) n (shown P t v) := by
    simp only [packDocF, packDoc, pack_eq g miss F P t n v old _ hv]
  rw [this, h4]

/-- A class with a double and a sequence of doubles. -/
example : ∃ m, parse true DB.empty (packDocF ⟨true, [], false⟩ 17
      (.struct (.mem [120] .flt (.mem [108] (.seq [100] .flt) .nil))) [114] (.pair (.flt (.num true (3 / 4))) (.pair (.seq [.flt .nan, .flt (.inf true)]) .unit))) = some m ∧
    unpackV binary64 true m (.struct (.mem [120] .flt (.mem [108] (.seq [100] .flt) .nil))) [114]
      (newF (.struct (.mem [120] .flt (.mem [108] (.seq [100] .flt) .nil)))) =
      some (.pair (.flt (.num true (3 / 4))) (.pair (.seq [.flt .nan, .flt (.inf true)]) .unit)) := by
  have nm : ∀ c : UInt8, nameCh c = true → c ≠ 33 → c ≠ 63 → XmlName [c] := fun c h h1 h2 => ⟨by simpa using h, c, [], rfl, h1, h2⟩
  refine C120_roundtrip_partial ⟨true, [], false⟩ true binary64 17 (by decide) (by decide) _ _ _ _ (.inl rfl) (nm _ (by decide) (by decide) (by decide)) ?_ ?_ ?_
    trivial
  · exact ⟨nm _ (by decide) (by decide) (by decide), trivial, nm _ (by decide) (by decide) (by decide),
      ⟨nm _ (by decide) (by decide) (by decide), trivial⟩, trivial⟩
  · simp [asText, asTexts, TypeOK, TypeOKF, ElemType, namesF]
  · refine ⟨_, _, rfl, ⟨_, rfl, by norm_num, 3, -2, by decide, by decide, by decide, by norm_num⟩, _, _, rfl, ⟨_, rfl, ?_⟩, rfl⟩
    intro x hx
    simp at hx
    rcases hx with rfl | rfl
    · exact ⟨⟨_, rfl, trivial⟩, trivial⟩
    · exact ⟨⟨_, rfl, trivial⟩, trivial⟩

/-! ### What fails -/

/-- C120 fails with the precision streams have by default: no integer of seven digits is read back, unless the last is 0. -/
theorem C120_fails_default (F : FF) (hF : 24 ≤ F.prec) (he : F.emin ≤ 0) (he2 : 0 ≤ F.emax) (n : Nat) (h1 : 10 ^ 6 ≤ n) (h2 : n < 10 ^ 7)
    (h3 : n % 10 ≠ 0) : Of F (.num false n) ∧ stoT F (text 6 (.num false n)) ≠ .num false n := by
  have hw : 2 ^ 24 ≤ 2 ^ F.prec := Nat.pow_le_pow_right (by decide) hF
  have isN : ∀ m : Nat, m ≤ 10 ^ 7 → Number F m := fun m hm => ⟨m, 0, by omega, he, he2, by simp⟩
  refine ⟨⟨by positivity, isN n (by omega)⟩, ?_⟩
  have hq : (0 : Rat) < n := by exact_mod_cast (by omega : 0 < n)
  have hlog : Int.log 10 (n : Rat) = 6 := by
    refine log_unique (by decide) ?_ ?_
    · have : ((10 ^ 6 : Nat) : Rat) ≤ n := by exact_mod_cast h1
      push_cast at this ⊢
      exact_mod_cast this
    · have : (n : Rat) < ((10 ^ 7 : Nat) : Rat) := by exact_mod_cast h2
      push_cast at this ⊢
      exact_mod_cast this
  obtain ⟨-, -, -, d2⟩ := decimal_near 6 hq (by decide)
  have hk : (decimal 6 (n : Rat)).2 = 1 := by
    simp only [decimal, hlog]; norm_num
  rw [stoT_text F 6 false n, if_neg (ne_of_gt hq), show max 6 1 = 6 from rfl, hk]
  generalize (decimal 6 (n : Rat)).1 = D at *
  have e : (D : Rat) * 10 ^ (1 : Int) = ((D * 10 : Nat) : Rat) := by push_cast; norm_num
  have hD := isN (D * 10) (by omega)
  rw [e, nearest_self (by omega) (by positivity) hD, min_eq_left (le_largest hD)]
  intro hc
  simp only [Fl.num.injEq, true_and] at hc
  have : D * 10 = n := by exact_mod_cast hc
  omega

example : stoT binary64 (text 6 (.num false (1234567 : Nat))) ≠ .num false (1234567 : Nat) :=
  (C120_fails_default binary64 (by decide) (by decide) (by decide) 1234567 (by decide) (by decide) (by decide)).2

/-- C120 fails with 16 digits for doubles, such as the sum of 0.1 and 0.2. -/
theorem C120_fails_sixteen : Of binary64 (.num false (5404319552844596 / 2 ^ 54)) ∧ text 16 (.num false (5404319552844596 / 2 ^ 54)) = [48, 46, 51] ∧
    stoT binary64 [48, 46, 51] = .num false (5404319552844595 / 2 ^ 54) :=
  ⟨⟨by norm_num, 5404319552844596, -54, by decide, by decide, by decide, by norm_num⟩, by decide +kernel, by decide +kernel⟩

/-- C120 fails with 8 digits for floats. -/
theorem C120_fails_eight : Of binary32 (.num false (16384001 / 2 ^ 14)) ∧ stoT binary32 (text 8 (.num false (16384001 / 2 ^ 14))) =
    .num false (16384002 / 2 ^ 14) := ⟨⟨by norm_num, 16384001, -14, by decide, by decide, by decide, by norm_num⟩, by decide +kernel⟩

private theorem stoT_num (F : FF) {c : UInt8} {r : Str} (hc : isDigit c = true) :
    stoT F (c :: r) = match numOf (c :: r) with
      | none => .num false 0
      | some q => .num false (min (nearest F q) (largest F)) := by
  obtain ⟨h1, h2, h3, h4, h5⟩ := digit_facts hc
  have hs : signOf (c :: r) = (false, c :: r) := by
    unfold signOf
    split
    · rename_i h; cases h; exact absurd rfl h2
    · rename_i h; cases h; exact absurd rfl h3
    · rfl
  simp only [stoT, List.dropWhile_cons, h1, Bool.false_eq_true, if_false, hs]
  simp only [List.take_succ_cons, List.map_cons, List.cons.injEq, h4, h5, false_and, if_false]
  cases numOf (c :: r) <;> rfl

/-- C120: an exponent may be written with `e` or with `E`. -/
theorem C120_upper (F : FF) (a b : Str) (ha : ∀ c ∈ a, isDigit c = true) (h0 : a ≠ []) : stoT F (a ++ 69 :: b) = stoT F (a ++ 101 :: b) := by
  have e : numOf (a ++ 69 :: b) = numOf (a ++ 101 :: b) := by
    have t1 := take_all ha (r := 69 :: b) (by intro c t h; cases h; decide)
    have t2 := take_all ha (r := 101 :: b) (by intro c t h; cases h; decide)
    simp only [numOf, t1.1, t1.2, t2.1, t2.2, fracOf, expOf]
    simp
  match a, h0 with
  | c :: a, _ =>
    have hc := ha c (by simp)
    simp only [List.cons_append] at e ⊢
    rw [stoT_num F hc, stoT_num F hc, e]

example : stoT binary64 [49, 69, 50] = .num false 100 := by decide +kernel

/-- C120: a text that begins with no number, infinity or NaN is read as 0. -/
theorem C120_none (F : FF) (c : UInt8) (r : Str) (h1 : isSpace c = false) (h2 : isDigit c = false)
    (h3 : c ∉ [45, 43, 46, 73, 105, 78, 110]) : stoT F (c :: r) = .num false 0 := by
  simp only [List.mem_cons, List.not_mem_nil, or_false, not_or] at h3
  obtain ⟨a1, a2, a3, a4, a5, a6, a7⟩ := h3
  have low : toLower c ≠ 105 ∧ toLower c ≠ 110 := by
    revert a4 a5 a6 a7
    have := all_u8 (p := fun c => c = 73 ∨ c = 105 ∨ c = 78 ∨ c = 110 ∨ (toLower c ≠ 105 ∧ toLower c ≠ 110)) (by decide +kernel) c
    tauto
  have hs : signOf (c :: r) = (false, c :: r) := by
    unfold signOf
    split
    · rename_i h; cases h; exact absurd rfl a1
    · rename_i h; cases h; exact absurd rfl a2
    · rfl
  have hf : fracOf (c :: r) = ([], c :: r) := by
    unfold fracOf
    split
    · rename_i h; cases h; exact absurd rfl a3
    · rfl
  have hn : numOf (c :: r) = none := by simp [numOf, h2, hf]
  simp [stoT, h1, hs, low.1, low.2, hn]

example : stoT binary64 [120, 49] = .num false 0 := C120_none _ _ _ (by decide) (by decide) (by decide)

/-- C120: a number too large for the format is read as the greatest of the format, never as infinity. -/
theorem C120_large (F : FF) (hF : 0 < F.prec) (a : Str) (ha : ∀ c ∈ a, isDigit c = true) (h0 : a ≠ [])
    (he : F.emin ≤ F.emax) (hl : (2 : Rat) ^ (F.prec + F.emax) ≤ valD a) :
    ∃ q, stoT F a = .num false q ∧ Number F q ∧ ∀ y, Number F y → y ≤ q := by
  have h1 : 1 ≤ 2 ^ F.prec := Nat.one_le_two_pow
  refine ⟨largest F, ?_, ⟨2 ^ F.prec - 1, F.emax, by omega, he, le_refl _, by rw [largest]; push_cast [h1]; ring⟩, fun y h => le_largest h⟩
  have hn := numOf_int ha h0
  match a, h0 with
  | c :: r, _ =>
    rw [stoT_num F (ha c (by simp)), hn]
    simp only [Fl.num.injEq, true_and]
    generalize (valD (c :: r) : Rat) = q at hl
    have q0 : 0 < q := lt_of_lt_of_le (zp _) hl
    have lo := log_lo (b := 2) (by decide) q0
    have hi := log_hi (b := 2) (by decide) q
    push_cast at lo hi
    have hL : F.prec + F.emax < Int.log 2 q + 1 := zlt' (lt_of_le_of_lt hl hi)
    have hu : unit F q = Int.log 2 q - (F.prec - 1) := by
      unfold unit; exact max_eq_left (by omega)
    apply min_eq_right
    rw [nearest, if_neg (ne_of_gt q0), hu]
    generalize hU : Int.log 2 q - ((F.prec : Int) - 1) = u at *
    have e1 : (2 : Rat) ^ Int.log 2 q = (2 ^ (F.prec - 1) : Nat) * 2 ^ u := by
      rw [show Int.log 2 q = ((F.prec - 1 : Nat) : Int) + u by omega, zadd]; push_cast; rw [zpow_natCast]
    have hx : ((2 ^ (F.prec - 1) : Nat) : Rat) ≤ q / 2 ^ u := by
      rw [le_div_iff₀ (zp u), ← e1]; exact lo
    have hr := abs_le.1 (rnd_near (q / 2 ^ u))
    have h2 : ((2 ^ (F.prec - 1) : Nat) : Int) ≤ rnd (q / 2 ^ u) := by
      have : (((2 ^ (F.prec - 1) : Nat) : Int) : Rat) < (rnd (q / 2 ^ u) + 1 : Int) := by
        push_cast at hx ⊢
        linarith [hr.2]
      have := Int.cast_lt.1 this
      omega
    have h3 : ((2 ^ (F.prec - 1) : Nat) : Rat) ≤ (rnd (q / 2 ^ u) : Rat) := by exact_mod_cast h2
    calc largest F ≤ 2 ^ ((F.prec : Int) + F.emax) := by
          rw [largest, zadd, zpow_natCast]; nlinarith [zp F.emax]
      _ ≤ 2 ^ Int.log 2 q := zle (by omega)
      _ = (2 ^ (F.prec - 1) : Nat) * 2 ^ u := e1
      _ ≤ _ := mul_le_mul_of_nonneg_right h3 (le_of_lt (zp u))

/-- A format with 2 digits, and 16 read into it. -/
example : stoT ⟨2, 0, 1⟩ [49, 54] = .num false 6 := by decide +kernel

/-- C120: `inf`, `infinity`, `nan` and the like are read in capitals too, and whatever follows. -/
theorem C120_words (F : FF) (a b c : UInt8) (r : Str) :
    (a = 73 ∨ a = 105 → b = 78 ∨ b = 110 → c = 70 ∨ c = 102 → stoT F (a :: b :: c :: r) = .inf false ∧ stoT F (45 :: a :: b :: c :: r) = .inf true) ∧
    (a = 78 ∨ a = 110 → b = 65 ∨ b = 97 → c = 78 ∨ c = 110 → stoT F (a :: b :: c :: r) = .nan ∧ stoT F (45 :: a :: b :: c :: r) = .nan) := by
  constructor <;> rintro (rfl | rfl) (rfl | rfl) (rfl | rfl) <;> exact ⟨rfl, rfl⟩

example : stoT binary64 [45, 73, 110, 102, 105, 110, 105, 116, 121] = .inf true := (C120_words binary64 73 110 102 _).1 (by simp) (by simp) (by simp) |>.2

end Verif.XmlFlt
