import Verif.OnBase
import Verif.Props.Json
/-
C134: the option -onbase.
-/
namespace Verif.OnBase
open Verif.Json EnumKeys OMap

/-- C134: two types have the same name there exactly if their names differ in characters only that are neither letters nor digits. -/
theorem C134_name (n m : List UInt8) : basename n = basename m ↔
    n.length = m.length ∧ ∀ (i : Nat) (c d : UInt8), n[i]? = some c → m[i]? = some d →
      c = d ∨ (alnum c = false ∧ alnum d = false) := by
  have h95 : alnum 95 = false := by decide
  have key : ∀ c d : UInt8, (if alnum c then c else 95) = (if alnum d then d else 95) ↔
      (c = d ∨ (alnum c = false ∧ alnum d = false)) := by
    intro c d
    cases hc : alnum c <;> cases hd : alnum d <;> simp
    · constructor
      · rintro rfl; rw [h95] at hd; cases hd
      · rintro rfl; rw [hc] at hd; cases hd
    · constructor
      · rintro rfl; rw [h95] at hc; cases hc
      · rintro rfl; rw [hc] at hd; cases hd
  rw [basename, basename, List.append_cancel_left_eq]
  constructor
  · intro h
    refine ⟨by simpa using congrArg List.length h, fun i c d hc hd => ?_⟩
    have := congrArg (fun l : List UInt8 => l[i]?) h
    simp only [List.getElem?_map, hc, hd, Option.map_some, Option.some.injEq] at this
    exact (key c d).1 this
  · rintro ⟨hl, h⟩
    apply List.ext_getElem?
    intro i
    simp only [List.getElem?_map]
    by_cases hi : i < n.length
    · rw [List.getElem?_eq_getElem hi, List.getElem?_eq_getElem (hl ▸ hi)]
      simp only [Option.map_some, Option.some.injEq]
      exact (key _ _).2 (h i _ _ (List.getElem?_eq_getElem hi) (List.getElem?_eq_getElem (hl ▸ hi)))
    · rw [List.getElem?_eq_none (by omega), List.getElem?_eq_none (by omega)]

/-- C134: classes that are not in a namespace and not templates have names of their own. -/
theorem C134_identifier (n m : Str) (hn : ∀ c ∈ n, alnum c = true ∨ c = 95) (hm : ∀ c ∈ m, alnum c = true ∨ c = 95)
    (h : basename n = basename m) : n = m := by
  have e : ∀ l : Str, (∀ c ∈ l, alnum c = true ∨ c = 95) → (l.map fun c => if alnum c then c else 95) = l := by
    intro l hl
    conv => rhs; rw [← List.map_id l]
    apply List.map_congr_left
    intro c hc
    rcases hl c hc with h | rfl
    · simp [h]
    · rfl
  rw [basename, basename, List.append_cancel_left_eq, e n hn, e m hm] at h
  exact h

private theorem alnum_dot : alnum dot = false := by decide

private theorem basename_ok (n : Str) : DotFree (basename n) ∧ basename n ≠ [] := by
  refine ⟨?_, by simp [basename]⟩
  intro hc
  rw [basename, List.mem_append] at hc
  rcases hc with hc | hc
  · revert hc; decide
  · obtain ⟨c, _, h⟩ := List.mem_map.1 hc
    split at h
    · rename_i hc; subst h; rw [alnum_dot] at hc; cases hc
    · revert h; decide

namespace C134

/-- The names written for a class: those of its members, and one for each base class. -/
def names (tn : JT → Str) : Fs → List Str
  | .nil => []
  | .mem k t r => if isExcl t then names tn r else k :: names tn r
  | .base t r => basename (tn t) :: names tn r

mutual
/-- As for C22, but base classes may be anything a member may be, and only the names in the class itself are to be distinct. -/
def Good (tn : JT → Str) : Pos → JT → Prop
  | _, .enum u decl => Narrow u ∧ Decl u decl ∧ ∀ n ∈ decl.map (·.1), NoSpace n
  | _, .struct fs => GoodF tn fs ∧ (names tn fs).Nodup
  | _, .seq t => Good tn .root t
  | _, .arr _ t => Good tn .root t
  | _, .assoc _ _ t => Good tn .root t ∧ Plain t
  | p, .carr dims t => p ≠ .root ∧ dims ≠ [] ∧ Good tn .root t
  | _, .smap t => Good tn .slot t
  | p, .pair a b => p ≠ .slot ∧ Good tn .slot a ∧ Good tn .slot b
  | _, .tuple _ => False
  | .root, .ptr t => Good tn .root t
  | .slot, .ptr t => Good tn .held t
  | .held, .ptr t => Good tn .held t
  | _, .excl _ => False
  | p, .cst t => p = .slot ∧ Good tn .slot t
  | _, .bool => True
  | _, .int _ => True
  | _, .real => True
  | _, .flt => True
  | _, .char => True
  | _, .str => True
def GoodF (tn : JT → Str) : Fs → Prop
  | .nil => True
  | .mem k t r => (DotFree k ∧ k ≠ []) ∧ (isExcl t = true ∨ Good tn .slot t) ∧ GoodF tn r
  | .base t r => Good tn .slot t ∧ GoodF tn r
end

end C134
open C134

private theorem isExcl_on (tn : JT → Str) (t : JT) : isExcl (onT tn t) = isExcl t := by cases t <;> simp [onT, isExcl]
private theorem isBasic_on (tn : JT → Str) (t : JT) : isBasic (onT tn t) = isBasic t := by cases t <;> simp [onT, isBasic]

mutual
private theorem dflt_on (tn : JT → Str) : ∀ t, dflt (onT tn t) = dflt t
  | .struct fs => by simp only [onT, dflt]; exact dfltF_on tn fs
  | .arr n t => by simp only [onT, dflt, dflt_on tn t]
  | .carr dims t => by simp only [onT, dflt, dflt_on tn t]
  | .pair a b => by simp only [onT, dflt, dflt_on tn a, dflt_on tn b]
  | .cst t => by simp only [onT, dflt, dflt_on tn t]
  | .seq t => by simp only [onT, dflt]
  | .assoc _ _ t => by simp only [onT, dflt]
  | .smap t => by simp only [onT, dflt]
  | .tuple ts => by simp only [onT, dflt]
  | .ptr t => by simp only [onT, dflt]
  | .bool | .int _ | .real | .flt | .char | .str | .enum _ _ | .excl _ => by simp only [onT]
private theorem dfltF_on (tn : JT → Str) : ∀ fs, dfltF (onF tn fs) = dfltF fs
  | .nil => rfl
  | .mem k t r => by simp only [onF, dfltF, dflt_on tn t, dfltF_on tn r]
  | .base t r => by simp only [onF, dfltF, dflt_on tn t, dfltF_on tn r]
end

mutual
private theorem typed_on (tn : JT → Str) : ∀ t v, Typed (onT tn t) v ↔ Typed t v
  | .struct fs, v => by simp only [onT, Typed]; exact typedF_on tn fs v
  | .arr n t, v => by simp only [onT, Typed, typed_on tn t]
  | .carr dims t, v => by simp only [onT, Typed, typed_on tn t]
  | .pair a b, v => by simp only [onT, Typed, typed_on tn a, typed_on tn b]
  | .cst t, v => by simp only [onT, Typed, typed_on tn t]
  | .seq t, v => by simp only [onT, Typed, typed_on tn t]
  | .assoc _ _ t, v => by simp only [onT, Typed, typed_on tn t]
  | .smap t, v => by simp only [onT, Typed, typed_on tn t]
  | .tuple ts, v => by simp only [onT, Typed]
  | .ptr t, v => by simp only [onT, Typed, typed_on tn t]
  | .bool, v | .int _, v | .real, v | .flt, v | .char, v | .str, v | .enum _ _, v | .excl _, v => by simp only [onT]
private theorem typedF_on (tn : JT → Str) : ∀ fs v, TypedF (onF tn fs) v ↔ TypedF fs v
  | .nil, _ => Iff.rfl
  | .mem k t r, v => by simp only [onF, TypedF, typed_on tn t, typedF_on tn r]
  | .base t r, v => by simp only [onF, TypedF, typed_on tn t, typedF_on tn r]
end

mutual
private theorem rep_on (lib : Lib) (tn : JT → Str) : ∀ t v, Rep lib (onT tn t) v ↔ Rep lib t v
  | .struct fs, v => by simp only [onT, Rep]; exact repF_on lib tn fs v
  | .arr n t, v => by simp only [onT, Rep, rep_on lib tn t]
  | .carr dims t, v => by simp only [onT, Rep, rep_on lib tn t]
  | .pair a b, v => by simp only [onT, Rep, rep_on lib tn a, rep_on lib tn b]
  | .cst t, v => by simp only [onT, Rep, rep_on lib tn t]
  | .seq t, v => by simp only [onT, Rep, rep_on lib tn t]
  | .assoc _ _ t, v => by simp only [onT, Rep, rep_on lib tn t]
  | .smap t, v => by simp only [onT, Rep, rep_on lib tn t]
  | .tuple ts, v => by simp only [onT, Rep]
  | .ptr t, v => by simp only [onT, Rep, rep_on lib tn t, isBasic_on]
  | .bool, v | .int _, v | .real, v | .flt, v | .char, v | .str, v | .enum _ _, v | .excl _, v => by simp only [onT]
private theorem repF_on (lib : Lib) (tn : JT → Str) : ∀ fs v, RepF lib (onF tn fs) v ↔ RepF lib fs v
  | .nil, _ => Iff.rfl
  | .mem k t r, v => by simp only [onF, RepF, rep_on lib tn t, repF_on lib tn r]
  | .base t r, v => by simp only [onF, RepF, rep_on lib tn t, repF_on lib tn r]
end

mutual
private theorem plain_on (tn : JT → Str) : ∀ t, Plain (onT tn t) ↔ Plain t
  | .struct fs => by simp only [onT, Plain]; exact plainF_on tn fs
  | .arr n t => by simp only [onT, Plain, plain_on tn t]
  | .carr dims t => by simp only [onT, Plain, plain_on tn t]
  | .pair a b => by simp only [onT, Plain, plain_on tn a, plain_on tn b]
  | .cst t => by simp only [onT, Plain]
  | .seq t => by simp only [onT, Plain, plain_on tn t]
  | .assoc _ _ t => by simp only [onT, Plain, plain_on tn t]
  | .smap t => by simp only [onT, Plain, plain_on tn t]
  | .tuple ts => by simp only [onT, Plain]
  | .ptr t => by simp only [onT, Plain, plain_on tn t]
  | .bool | .int _ | .real | .flt | .char | .str | .enum _ _ | .excl _ => by simp only [onT]
private theorem plainF_on (tn : JT → Str) : ∀ fs, PlainF (onF tn fs) ↔ PlainF fs
  | .nil => Iff.rfl
  | .mem k t r => by simp only [onF, PlainF, plain_on tn t, plainF_on tn r]
  | .base t r => by simp only [onF, PlainF, plain_on tn t, plainF_on tn r]
end

mutual
private theorem restore_on (tn : JT → Str) : ∀ t v d, restore (onT tn t) v d = restore t v d
  | .struct fs, v, d => by simp only [onT, restore]; exact restoreF_on tn fs v d
  | .arr n t, v, d => by
    have h : restore (onT tn t) = restore t := by funext a b; exact restore_on tn t a b
    cases v <;> simp only [onT, restore, h]
  | .carr dims t, v, d => by
    have h : restore (onT tn t) = restore t := by funext a b; exact restore_on tn t a b
    cases v <;> simp only [onT, restore, h]
  | .pair a b, v, d => by cases v <;> simp only [onT, restore, restore_on tn a, restore_on tn b]
  | .cst t, v, d => by simp only [onT, restore]
  | .seq t, v, d => by
    have h : restore (onT tn t) = restore t := by funext a b; exact restore_on tn t a b
    cases v <;> simp only [onT, restore, h, dflt_on]
  | .assoc _ _ t, v, d => by simp only [onT, restore]
  | .smap t, v, d => by cases v <;> simp only [onT, restore, restore_on tn t, dflt_on]
  | .tuple ts, v, d => by simp only [onT, restore]
  | .ptr t, v, d => by cases v <;> simp only [onT, restore, restore_on tn t, dflt_on]
  | .bool, v, _ | .int _, v, _ | .real, v, _ | .flt, v, _ | .char, v, _ | .str, v, _ | .enum _ _, v, _ | .excl _, v, _ => by simp only [onT]
private theorem restoreF_on (tn : JT → Str) : ∀ fs v d, restoreF (onF tn fs) v d = restoreF fs v d
  | .nil, _, _ => rfl
  | .mem k t r, v, d => by cases v <;> simp only [onF, restoreF, restore_on tn t, restoreF_on tn r]
  | .base t r, v, d => by cases v <;> simp only [onF, restoreF, restore_on tn t, restoreF_on tn r]
end

private theorem not_excl {tn : JT → Str} {p : Pos} {t : JT} (h : Good tn p t) : isExcl t = false := by
  cases t <;> simp_all [isExcl, Good]

private theorem keys_on (tn : JT → Str) : ∀ fs, GoodF tn fs → keysF (onF tn fs) = names tn fs
  | .nil, _ => rfl
  | .mem k t r, h => by
    simp only [GoodF] at h
    simp only [onF, keysF, names, isExcl_on, keys_on tn r h.2.2]
  | .base t r, h => by
    simp only [GoodF] at h
    simp [onF, keysF, names, isExcl_on, keys_on tn r h.2, not_excl h.1]

mutual
private theorem ok_on (tn : JT → Str) : ∀ t p, Good tn p t → Ok p (onT tn t)
  | .struct fs, p, h => by
    simp only [Good] at h
    simp only [onT, Ok]
    exact ⟨okF_on tn fs h.1, by rw [keys_on tn fs h.1]; exact h.2⟩
  | .arr n t, p, h => by simp only [Good] at h; simp only [onT, Ok]; exact ok_on tn t _ h
  | .carr dims t, p, h => by simp only [Good] at h; simp only [onT, Ok]; exact ⟨h.1, h.2.1, ok_on tn t _ h.2.2⟩
  | .pair a b, p, h => by simp only [Good] at h; simp only [onT, Ok]; exact ⟨h.1, ok_on tn a _ h.2.1, ok_on tn b _ h.2.2⟩
  | .cst t, p, h => by simp only [Good] at h; simp only [onT, Ok]; exact ⟨h.1, ok_on tn t _ h.2⟩
  | .seq t, p, h => by simp only [Good] at h; simp only [onT, Ok]; exact ok_on tn t _ h
  | .assoc _ _ t, p, h => by simp only [Good] at h; simp only [onT, Ok]; exact ⟨ok_on tn t _ h.1, (plain_on tn t).2 h.2⟩
  | .smap t, p, h => by simp only [Good] at h; simp only [onT, Ok]; exact ok_on tn t _ h
  | .tuple ts, p, h => by simp only [Good] at h
  | .ptr t, .root, h => by simp only [Good] at h; simp only [onT, Ok]; exact ok_on tn t _ h
  | .ptr t, .slot, h => by simp only [Good] at h; simp only [onT, Ok]; exact ok_on tn t _ h
  | .ptr t, .held, h => by simp only [Good] at h; simp only [onT, Ok]; exact ok_on tn t _ h
  | .excl _, p, h => by simp only [Good] at h
  | .enum _ _, p, h => by simp only [Good] at h; simp only [onT, Ok]; exact h
  | .bool, p, _ | .int _, p, _ | .real, p, _ | .flt, p, _ | .char, p, _ | .str, p, _ => by simp only [onT, Ok]
private theorem okF_on (tn : JT → Str) : ∀ fs, GoodF tn fs → OkF (onF tn fs)
  | .nil, _ => by simp only [onF, OkF]
  | .mem k t r, h => by
    simp only [GoodF] at h
    simp only [onF, OkF, isExcl_on]
    exact ⟨h.1, h.2.1.imp id (ok_on tn t _), okF_on tn r h.2.2⟩
  | .base t r, h => by
    simp only [GoodF] at h
    simp only [onF, OkF]
    exact ⟨basename_ok _, .inr (ok_on tn t _ h.1), okF_on tn r h.2⟩
end

/-- C134: described with -onbase, an object is restored from JSON (excluded and const members apart), also if base classes have members of the
same names, provided that the names of the base classes differ as in `C134_name`. -/
theorem C134_roundtrip_partial (lib : Lib) (hl : ∀ r, lib.narrow (lib.widen r) = r) (tn : JT → Str)
    (t : JT) (hk : Good tn .root t) (v : JV) (hv : Rep lib t v) :
    ∃ o, packJ lib (onT tn t) (.mk' .null) [] v = .ok o ∧
      ∀ (toe tonf : Bool) (dst : JV), Typed t dst →
        unpackJ lib (onT tn t) ⟨o.v, toe, tonf⟩ [] dst = (.ok, restore t v dst) := by
  obtain ⟨o, h1, h2⟩ := C22_roundtrip_partial lib hl (onT tn t) (ok_on tn t _ hk) v ((rep_on lib tn t v).2 hv)
  refine ⟨o, h1, fun toe tonf dst hd => ?_⟩
  rw [h2 toe tonf dst ((typed_on tn t dst).2 hd), restore_on]

/-- The base classes of a class with what an object has for them. -/
def C134.baseOf : Fs → JV → JT → JV → Prop
  | .mem _ _ r, .pair _ y, t, x => baseOf r y t x
  | .base t' r, .pair x' y, t, x => (t = t' ∧ x = x') ∨ baseOf r y t x
  | _, _, _, _ => False

private theorem base_found (lib : Lib) (tn : JT → Str) : ∀ (fs : Fs) (v : JV) (m : List (Str × J)) (t : JT) (x : JV), GoodF tn fs →
    (names tn fs).Nodup → RepF lib fs v → baseOf fs v t x →
    basename (tn t) ∈ names tn fs ∧ mfind strLt (basename (tn t)) (encF lib (onF tn fs) v m) = some (enc lib (onT tn t) x) ∧ Good tn .slot t ∧ Rep lib t x
  | .nil, v, m, t, x, _, _, _, hb => by simp [baseOf] at hb
  | .mem k t' r, v, m, t, x, hg, hn, hr, hb => by
    simp only [RepF] at hr
    obtain ⟨a, y, rfl, _, hr⟩ := hr
    simp only [GoodF] at hg
    simp only [baseOf] at hb
    simp only [names] at hn
    have hn' : (names tn r).Nodup := by
      split at hn
      · exact hn
      · exact (List.nodup_cons.1 hn).2
    obtain ⟨h1, h2⟩ := base_found lib tn r y (if isExcl (onT tn t') then m else mput strLt k (enc lib (onT tn t') a) m) t x hg.2.2 hn' hr hb
    refine ⟨?_, h2⟩
    simp only [names]
    split
    · exact h1
    · exact List.mem_cons_of_mem _ h1
  | .base t' r, v, m, t, x, hg, hn, hr, hb => by
    simp only [RepF] at hr
    obtain ⟨a, y, rfl, ha, hr⟩ := hr
    simp only [GoodF] at hg
    simp only [baseOf] at hb
    simp only [names, List.nodup_cons] at hn
    rcases hb with ⟨rfl, rfl⟩ | hb
    · refine ⟨by simp [names], ?_, hg.1, ha⟩
      simp only [onF, encF]
      rw [encF_other _ _ _ _ _ (by rw [keys_on tn r hg.2]; exact hn.1), isExcl_on, not_excl hg.1]
      simp [mfind_mput strOrd]
    · obtain ⟨h1, h2⟩ := base_found lib tn r y (if isExcl (onT tn t') then m else mput strLt (basename (tn t')) (enc lib (onT tn t') a) m) t x
        hg.2 hn.2 hr hb
      exact ⟨by simp only [names]; exact List.mem_cons_of_mem _ h1, h2⟩

/-- C134: what each base class is written as alone is found in the document under the name of the class. -/
theorem C134_document_partial (lib : Lib) (tn : JT → Str) (fs : Fs) (hk : Good tn .root (.struct fs)) (v : JV) (hv : Rep lib (.struct fs) v) :
    ∃ o, packJ lib (onT tn (.struct fs)) (.mk' .null) [] v = .ok o ∧
      ∀ gs x, baseOf fs v (.struct gs) x → ∃ p, packJ lib (onT tn (.struct gs)) (.mk' .null) [] x = .ok p ∧
        find o.v (dot :: basename (tn (.struct gs))) = .ok p.v := by
  obtain ⟨o, h1, h2⟩ := pack_root lib (onT tn (.struct fs)) v (.mk' .null) (ok_on tn _ _ hk) ((rep_on lib tn _ v).2 hv) root_free
  refine ⟨o, h1, fun gs x hb => ?_⟩
  simp only [Good] at hk
  simp only [Rep] at hv
  obtain ⟨_, g1, g2, g3⟩ := base_found lib tn fs v [] (.struct gs) x hk.1 hk.2 hv hb
  have g2 : Good tn .root (.struct gs) := by simp only [Good] at g2 ⊢; exact g2
  obtain ⟨p, p1, p2⟩ := pack_root lib (onT tn (.struct gs)) x (.mk' .null) (ok_on tn _ _ g2) ((rep_on lib tn _ x).2 g3) root_free
  refine ⟨p, p1, ?_⟩
  have := find_render (cs := [basename (tn (.struct gs))]) (by intro c hc; simp at hc; subst hc; exact (basename_ok _).1) o.v
  simp only [render, List.append_nil] at this
  rw [this, h2, p2]
  simp only [onT, enc, walk]
  simp only [onT, enc] at g1
  rw [g1]

/-- Two classes, each with a member of the same name. -/
def C134.A : JT := .struct (.mem sa i32 .nil)
def C134.B : JT := .struct (.mem sa (.int ⟨.w64, true⟩) .nil)
/-- An object of a class derived from both. -/
def C134.obj (i j : Int) : JV := .pair (.pair (.int i) .unit) (.pair (.pair (.int j) .unit) .unit)

private theorem cast64 {j : Int} (h : InRange ⟨.w32, true⟩ j) : EnumKeys.cast ⟨.w64, true⟩ j = j := by
  apply cast_of_inRange
  simp only [InRange, Width.modulus] at h ⊢
  simp at h ⊢
  omega

/-- C134: without the option two base classes with members of the same name are not restored: the second is written over the first. -/
theorem C134_without (i j k l : Int) (hj : InRange ⟨.w32, true⟩ j) : ∃ o,
    packJ lib0 (.struct (.base A (.base B .nil))) (.mk' .null) [] (obj i j) = .ok o ∧
    unpackJ lib0 (.struct (.base A (.base B .nil))) o [] (obj k l) = (.ok, obj j j) := by
  refine ⟨⟨.obj [(sa, .int (EnumKeys.cast ⟨.w64, true⟩ j))], false, false⟩, rfl, ?_⟩
  rw [cast64 hj]
  show (Oc.ok, JV.pair (.pair (.int (EnumKeys.cast ⟨.w32, true⟩ (EnumKeys.cast ⟨.w32, true⟩ j))) .unit)
    (.pair (.pair (.int (EnumKeys.cast ⟨.w64, true⟩ (EnumKeys.cast ⟨.w64, true⟩ j))) .unit) .unit)) = _
  rw [cast64 hj, cast64 hj, cast_of_inRange hj, cast_of_inRange hj]
  rfl

/-- `N::A` and `N__A` as names of the two. -/
def C134.clash : JT → Str
  | .struct (.mem _ (.int ⟨.w32, _⟩) _) => [78, 58, 58, 65]
  | _ => [78, 95, 95, 65]

/-- C134: the base classes `N::A` and `N__A` get the same name, and the second is written over the first. -/
theorem C134_fails_clash (i j k l : Int) (hj : InRange ⟨.w32, true⟩ j) : clash A ≠ clash B ∧ ∃ o,
    packJ lib0 (onT clash (.struct (.base A (.base B .nil)))) (.mk' .null) [] (obj i j) = .ok o ∧
    unpackJ lib0 (onT clash (.struct (.base A (.base B .nil)))) o [] (obj k l) = (.ok, obj j j) := by
  refine ⟨by decide, ⟨.obj [(basename [78, 58, 58, 65], .obj [(sa, .int (EnumKeys.cast ⟨.w64, true⟩ j))])], false, false⟩, rfl, ?_⟩
  rw [cast64 hj]
  show (Oc.ok, JV.pair (.pair (.int (EnumKeys.cast ⟨.w32, true⟩ (EnumKeys.cast ⟨.w32, true⟩ j))) .unit)
    (.pair (.pair (.int (EnumKeys.cast ⟨.w64, true⟩ (EnumKeys.cast ⟨.w64, true⟩ j))) .unit) .unit)) = _
  rw [cast64 hj, cast64 hj, cast_of_inRange hj, cast_of_inRange hj]
  rfl

/-- C134: the same with a base class `A` and a member called `base_A`. -/
theorem C134_fails_member (i j k l : Int) (hj : InRange ⟨.w32, true⟩ j) : ∃ o,
    packJ lib0 (onT (fun _ => [65]) (.struct (.base A (.mem (basename [65]) B .nil)))) (.mk' .null) [] (obj i j) = .ok o ∧
    unpackJ lib0 (onT (fun _ => [65]) (.struct (.base A (.mem (basename [65]) B .nil)))) o [] (obj k l) = (.ok, obj j j) := by
  refine ⟨⟨.obj [(basename [65], .obj [(sa, .int (EnumKeys.cast ⟨.w64, true⟩ j))])], false, false⟩, rfl, ?_⟩
  rw [cast64 hj]
  show (Oc.ok, JV.pair (.pair (.int (EnumKeys.cast ⟨.w32, true⟩ (EnumKeys.cast ⟨.w32, true⟩ j))) .unit)
    (.pair (.pair (.int (EnumKeys.cast ⟨.w64, true⟩ (EnumKeys.cast ⟨.w64, true⟩ j))) .unit) .unit)) = _
  rw [cast64 hj, cast64 hj, cast_of_inRange hj, cast_of_inRange hj]
  rfl

/-- `A` and `B` as names of the two. -/
def C134.plain : JT → Str
  | .struct (.mem _ (.int ⟨.w32, _⟩) _) => [65]
  | _ => [66]

example : Good plain .root (.struct (.base A (.base B .nil))) := by
  simp [Good, GoodF, names, A, B, plain, basename, alnum, DotFree, dot, sa, i32, isExcl]

-- Both members are restored with the option.
example : ∃ o, packJ lib0 (onT plain (.struct (.base A (.base B .nil)))) (.mk' .null) [] (obj 1 2) = .ok o ∧
    unpackJ lib0 (onT plain (.struct (.base A (.base B .nil)))) ⟨o.v, false, false⟩ [] (obj 7 8) = (.ok, obj 1 2) := by
  obtain ⟨o, h1, h2⟩ := C134_roundtrip_partial lib0 (fun _ => rfl) plain (.struct (.base A (.base B .nil)))
    (by simp [Good, GoodF, names, A, B, plain, basename, alnum, DotFree, dot, sa, i32, isExcl]) (obj 1 2)
    ⟨_, _, rfl, ⟨_, _, rfl, ⟨1, rfl, by simp [InRange, Width.modulus]⟩, rfl⟩, _, _, rfl, ⟨_, _, rfl, ⟨2, rfl, by simp [InRange, Width.modulus]⟩, rfl⟩, rfl⟩
  exact ⟨o, h1, h2 false false (obj 7 8) ⟨_, _, rfl, ⟨_, _, rfl, ⟨7, rfl, by simp [InRange, Width.modulus]⟩, rfl⟩, _, _, rfl, ⟨_, _, rfl, ⟨8, rfl, by simp [InRange, Width.modulus]⟩, rfl⟩, rfl⟩⟩

example : basename [80, 60, 105, 62] = basename [80, 95, 105, 95] := by decide
/-- C134: the name is "base_" and the name of the type with "_" in place of every character that is neither a letter nor a digit. -/
theorem C134_spelled (n : List UInt8) : (basename n).map (fun c => Char.ofNat c.toNat) =
    "base_".toList ++ n.map fun c => if (Char.ofNat c.toNat).isAlphanum then Char.ofNat c.toNat else '_' := by
  have h : ∀ c : Fin 256, alnum (UInt8.ofNat c.1) = (Char.ofNat c.1).isAlphanum := by decide +kernel
  have h' : ∀ c : UInt8, alnum c = (Char.ofNat c.toNat).isAlphanum := fun c => by simpa using h ⟨c.toNat, c.toNat_lt⟩
  have e : ([98, 97, 115, 101, 95] : List UInt8).map (fun c => Char.ofNat c.toNat) = "base_".toList := by decide
  rw [basename, List.map_append, e, List.map_map]
  congr 1
  refine List.map_congr_left fun c _ => ?_
  simp only [Function.comp, h']
  split <;> rfl


end Verif.OnBase
