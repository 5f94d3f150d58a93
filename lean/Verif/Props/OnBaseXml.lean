import Verif.OnBaseXml
import Verif.Props.XmlWrite
/-
C134: the option -onbase with XML.
-/
namespace Verif.OnBaseXml
open Verif.Xml EnumKeys
open Verif.OnBase (basename alnum)
open Verif.Json (JV)

namespace C134

/-- The names written for a class: those of its members, and one for each base class. -/
def xnames (tn : XT → Str) : Fs → List Str
  | .nil => []
  | .mem n _ r => n :: xnames tn r
  | .base t r => basename (tn t) :: xnames tn r

mutual
/-- As for C27, but base classes may be anything a member may be, and only the names in the class itself are to be distinct. -/
def XGood (tn : XT → Str) : XT → Prop
  | .seq e t => XmlName e ∧ ElemType t ∧ XGood tn t
  | .assoc _ e t => XmlName e ∧ ElemType t ∧ XGood tn t
  | .struct fs => (xnames tn fs).Nodup ∧ XGoodF tn fs
  | .ptr t => isPtr t = false ∧ XGood tn t
  | .ref t => Comp t ∧ XGood tn t
  | .poly kt cls _ => isPtr kt = false ∧ XGood tn kt ∧ ∀ k, (sType :: xnames tn (cls k)).Nodup ∧ XGoodF tn (cls k)
  | .bool | .int _ | .chr | .byte | .str | .cdata => True
def XGoodF (tn : XT → Str) : Fs → Prop
  | .nil => True
  | .mem n t r => XmlName n ∧ XGood tn t ∧ XGoodF tn r
  | .base t r => XGood tn t ∧ XGoodF tn r
end

end C134
open C134

private theorem xmlName_base (n : Str) : XmlName (basename n) := by
  refine ⟨fun c hc => ?_, 98, _, rfl, by decide, by decide⟩
  have key : ∀ c : UInt8, (alnum c = true ∨ c = 95) → nameCh c = true := by
    have : ∀ n : Fin 256, (alnum (UInt8.ofNat n.val) = true ∨ UInt8.ofNat n.val = 95) → nameCh (UInt8.ofNat n.val) = true := by decide +kernel
    intro c
    simpa using this ⟨c.toNat, c.toNat_lt⟩
  rw [basename, List.mem_append] at hc
  rcases hc with hc | hc
  · revert c; decide
  · obtain ⟨d, _, rfl⟩ := List.mem_map.1 hc
    apply key
    split
    · next h => exact .inl h
    · exact .inr rfl

private theorem comp_on (tn : XT → Str) (t : XT) : Comp (onT tn t) ↔ Comp t := by cases t <;> simp [onT, Comp]
private theorem isPtr_on (tn : XT → Str) (t : XT) : isPtr (onT tn t) = isPtr t := by cases t <;> simp [onT, isPtr]
private theorem elem_on (tn : XT → Str) (t : XT) : ElemType (onT tn t) ↔ ElemType t := by cases t <;> simp [onT, ElemType, comp_on]
private theorem notNull_on (tn : XT → Str) (t : XT) (v : JV) : NotNull (onT tn t) v ↔ NotNull t v := by cases t <;> simp [onT, NotNull]

private theorem names_on (tn : XT → Str) : ∀ fs, namesF (onF tn fs) = xnames tn fs
  | .nil => rfl
  | .mem n t r => by simp only [onF, namesF, xnames, names_on tn r]
  | .base t r => by simp only [onF, namesF, xnames, names_on tn r]

mutual
private theorem dflt_on (tn : XT → Str) : ∀ t, dflt (onT tn t) = dflt t
  | .struct fs => by simp only [onT, dflt]; exact dfltF_on tn fs
  | .seq _ _ | .assoc _ _ _ | .ptr _ | .ref _ | .poly _ _ _ => by simp only [onT, dflt]
  | .bool | .int _ | .chr | .byte | .str | .cdata => by simp only [onT]
private theorem dfltF_on (tn : XT → Str) : ∀ fs, dfltF (onF tn fs) = dfltF fs
  | .nil => rfl
  | .mem n t r => by simp only [onF, dfltF, dflt_on tn t, dfltF_on tn r]
  | .base t r => by simp only [onF, dfltF, dflt_on tn t, dfltF_on tn r]
end

mutual
private theorem namesOK_on (tn : XT → Str) : ∀ t, XGood tn t → NamesOK (onT tn t)
  | .struct fs, h => by simp only [XGood] at h; simp only [onT, NamesOK]; exact namesOKF_on tn fs h.2
  | .seq e t, h => by simp only [XGood] at h; simp only [onT, NamesOK]; exact ⟨h.1, namesOK_on tn t h.2.2⟩
  | .assoc _ e t, h => by simp only [XGood] at h; simp only [onT, NamesOK]; exact ⟨h.1, namesOK_on tn t h.2.2⟩
  | .ptr t, h => by simp only [XGood] at h; simp only [onT, NamesOK]; exact namesOK_on tn t h.2
  | .ref t, h => by simp only [XGood] at h; simp only [onT, NamesOK]; exact namesOK_on tn t h.2
  | .poly kt cls _, h => by
    simp only [XGood] at h; simp only [onT, NamesOK]
    exact ⟨namesOK_on tn kt h.2.1, fun k => namesOKF_on tn (cls k) (h.2.2 k).2⟩
  | .bool, _ | .int _, _ | .chr, _ | .byte, _ | .str, _ | .cdata, _ => by simp only [onT, NamesOK]
private theorem namesOKF_on (tn : XT → Str) : ∀ fs, XGoodF tn fs → NamesOKF (onF tn fs)
  | .nil, _ => by simp only [onF, NamesOKF]
  | .mem n t r, h => by
    simp only [XGoodF] at h; simp only [onF, NamesOKF]
    exact ⟨h.1, namesOK_on tn t h.2.1, namesOKF_on tn r h.2.2⟩
  | .base t r, h => by
    simp only [XGoodF] at h; simp only [onF, NamesOKF]
    exact ⟨xmlName_base _, namesOK_on tn t h.1, namesOKF_on tn r h.2⟩
end

mutual
private theorem typeOK_on (tn : XT → Str) : ∀ t, XGood tn t → TypeOK (onT tn t)
  | .struct fs, h => by
    simp only [XGood] at h; simp only [onT, TypeOK, names_on]; exact ⟨h.1, typeOKF_on tn fs h.2⟩
  | .seq e t, h => by simp only [XGood] at h; simp only [onT, TypeOK]; exact ⟨(elem_on tn t).2 h.2.1, typeOK_on tn t h.2.2⟩
  | .assoc _ e t, h => by simp only [XGood] at h; simp only [onT, TypeOK]; exact ⟨(elem_on tn t).2 h.2.1, typeOK_on tn t h.2.2⟩
  | .ptr t, h => by simp only [XGood] at h; simp only [onT, TypeOK]; exact ⟨(isPtr_on tn t).trans h.1, typeOK_on tn t h.2⟩
  | .ref t, h => by simp only [XGood] at h; simp only [onT, TypeOK]; exact ⟨(comp_on tn t).2 h.1, typeOK_on tn t h.2⟩
  | .poly kt cls _, h => by
    simp only [XGood] at h; simp only [onT, TypeOK, names_on]
    exact ⟨(isPtr_on tn kt).trans h.1, typeOK_on tn kt h.2.1, fun k => ⟨(h.2.2 k).1, typeOKF_on tn (cls k) (h.2.2 k).2⟩⟩
  | .bool, _ | .int _, _ | .chr, _ | .byte, _ | .str, _ | .cdata, _ => by simp only [onT, TypeOK]
private theorem typeOKF_on (tn : XT → Str) : ∀ fs, XGoodF tn fs → TypeOKF (onF tn fs)
  | .nil, _ => by simp only [onF, TypeOKF]
  | .mem n t r, h => by
    simp only [XGoodF] at h; simp only [onF, TypeOKF]
    exact ⟨typeOK_on tn t h.2.1, typeOKF_on tn r h.2.2⟩
  | .base t r, h => by
    simp only [XGoodF] at h; simp only [onF, TypeOKF]
    exact ⟨typeOK_on tn t h.1, typeOKF_on tn r h.2⟩
end

mutual
private theorem val_on (g : Cfg) (tn : XT → Str) : ∀ t v, Val g (onT tn t) v ↔ Val g t v
  | .struct fs, v => by simp only [onT, Val]; exact valF_on g tn fs v
  | .seq _ t, v => by simp only [onT, Val, val_on g tn t, notNull_on]
  | .assoc _ _ t, v => by simp only [onT, Val, val_on g tn t, notNull_on]
  | .ptr t, v => by simp only [onT, Val, val_on g tn t]
  | .ref t, v => by simp only [onT, Val, val_on g tn t]
  | .poly kt cls _, v => by
    simp only [onT, Val, val_on g tn kt]
    have : ∀ k x, ValF g (onF tn (cls k)) x ↔ ValF g (cls k) x := fun k x => valF_on g tn (cls k) x
    simp only [this]
  | .bool, _ | .int _, _ | .chr, _ | .byte, _ | .str, _ | .cdata, _ => by simp only [onT]
private theorem valF_on (g : Cfg) (tn : XT → Str) : ∀ fs v, ValF g (onF tn fs) v ↔ ValF g fs v
  | .nil, _ => by simp only [onF]
  | .mem n t r, v => by simp only [onF, ValF, val_on g tn t, valF_on g tn r]
  | .base t r, v => by simp only [onF, ValF, val_on g tn t, valF_on g tn r]
end

mutual
private theorem wr_on (g : Cfg) (OK : Str → Prop) (tn : XT → Str) : ∀ t v, Wr g OK (onT tn t) v ↔ Wr g OK t v
  | .struct fs, v => by simp only [onT, Wr]; exact wrF_on g OK tn fs v
  | .seq _ t, v => by simp only [onT, Wr, wr_on g OK tn t]
  | .assoc _ _ t, v => by simp only [onT, Wr, wr_on g OK tn t]
  | .ptr t, v => by cases v <;> simp only [onT, Wr, wr_on g OK tn t]
  | .ref t, v => by cases v <;> simp only [onT, Wr, wr_on g OK tn t]
  | .poly kt cls _, v => by
    have : ∀ k x, WrF g OK (onF tn (cls k)) x ↔ WrF g OK (cls k) x := fun k x => wrF_on g OK tn (cls k) x
    cases v with
    | ptr x => cases x <;> simp only [onT, Wr, wr_on g OK tn kt, this]
    | _ => simp only [onT, Wr]
  | .bool, _ | .int _, _ | .chr, _ | .byte, _ | .str, _ | .cdata, _ => by simp only [onT]
private theorem wrF_on (g : Cfg) (OK : Str → Prop) (tn : XT → Str) : ∀ fs v, WrF g OK (onF tn fs) v ↔ WrF g OK fs v
  | .nil, _ => by simp only [onF]
  | .mem n t r, v => by simp only [onF, WrF, wr_on g OK tn t, wrF_on g OK tn r]
  | .base t r, v => by simp only [onF, WrF, wr_on g OK tn t, wrF_on g OK tn r]
end

mutual
private theorem fit_on (miss : Bool) (tn : XT → Str) : ∀ t v old, Fit miss (onT tn t) v old ↔ Fit miss t v old
  | .struct fs, v, old => by simp only [onT, Fit]; exact fitF_on miss tn fs v old
  | .seq _ t, v, _ => by simp only [onT, Fit, fit_on miss tn t, dflt_on]
  | .assoc _ _ t, v, _ => by simp only [onT, Fit, fit_on miss tn t, dflt_on]
  | .ptr t, v, _ => by cases v <;> simp only [onT, Fit, fit_on miss tn t, dflt_on]
  | .ref t, v, old => by cases v <;> cases old <;> simp only [onT, Fit, fit_on miss tn t, dflt_on]
  | .poly kt cls _, v, _ => by
    have : ∀ k x, FitF miss (onF tn (cls k)) x (dfltF (onF tn (cls k))) ↔ FitF miss (cls k) x (dfltF (cls k)) :=
      fun k x => by rw [dfltF_on]; exact fitF_on miss tn (cls k) x _
    cases v with
    | ptr x => cases x <;> simp only [onT, Fit, fit_on miss tn kt, dflt_on, this]
    | _ => simp only [onT, Fit]
  | .bool, _, _ | .int _, _, _ | .chr, _, _ | .byte, _, _ | .str, _, _ | .cdata, _, _ => by simp only [onT]
private theorem fitF_on (miss : Bool) (tn : XT → Str) : ∀ fs v old, FitF miss (onF tn fs) v old ↔ FitF miss fs v old
  | .nil, _, _ => by simp only [onF]
  | .mem n t r, v, old => by simp only [onF, FitF, fit_on miss tn t, fitF_on miss tn r]
  | .base t r, v, old => by simp only [onF, FitF, fit_on miss tn t, fitF_on miss tn r]
end

/-- C134: described with -onbase, an object is restored from XML under the conditions of C27 without those on base classes: these may have
members of the same names, and need not be classes with members, provided that their names differ as in `C134_name`. -/
theorem C134_xml_partial {g : Cfg} (tn : XT → Str) {t : XT} {n : Str} {v old : JV} {miss : Bool} (hs : SchemaOK g.schema) (hn : XmlName n)
    (ht : XGood tn t) (hv : Val g t v) (hnn : NotNull t v) (hw : Wr g okRun t v) (hf : Fit miss t v old) :
    ∃ m, parse g.sgn DB.empty (packDoc g (onT tn t) n v) = some m ∧ unpackX miss m (onT tn t) n old = some v :=
  C27_roundtrip_partial hs hn (namesOK_on tn t ht) (typeOK_on tn t ht) ((val_on g tn t v).2 hv) ((notNull_on tn t v).2 hnn)
    ((wr_on g okRun tn t v).2 hw) ((fit_on miss tn t v old).2 hf)

/-- Two classes, each with a member of the same name, and an object of a class derived from both. -/
def C134.XA : XT := .struct (.mem [97] (.int ⟨.w32, true⟩) .nil)
def C134.XB : XT := .struct (.mem [97] (.int ⟨.w64, true⟩) .nil)
def C134.XD : XT := .struct (.base XA (.base XB .nil))
def C134.xobj (i j : Int) : JV := .pair (.pair (.int i) .unit) (.pair (.pair (.int j) .unit) .unit)
def C134.xplain : XT → Str
  | .struct (.mem _ (.int ⟨.w32, _⟩) _) => [65]
  | _ => [66]
/-- `N::A` and `N__A` as names of the two. -/
def C134.xclash : XT → Str
  | .struct (.mem _ (.int ⟨.w32, _⟩) _) => [78, 58, 58, 65]
  | _ => [78, 95, 95, 65]

/-- C134: without the option two base classes with members of the same name are not restored from XML: both get what the first had; and so it
is with the option for `N::A` and `N__A`. -/
theorem C134_fails_xml : xclash XA ≠ xclash XB ∧
    ((parse true DB.empty (packDoc ⟨true, [], false⟩ XD [100] (xobj 1 2))).bind fun m => unpackX true m XD [100] (xobj 7 8)) = some (xobj 1 1) ∧
    ((parse true DB.empty (packDoc ⟨true, [], false⟩ (onT xclash XD) [100] (xobj 1 2))).bind fun m =>
      unpackX true m (onT xclash XD) [100] (xobj 7 8)) = some (xobj 1 1) := by
  refine ⟨by decide, ?_, ?_⟩ <;> rfl

private theorem ex_good : XGood xplain XD := by
  have hx : XmlName [97] := ⟨by decide, _, _, rfl, by decide, by decide⟩
  simp [XGood, XGoodF, xnames, XD, XA, XB, xplain, basename, alnum, hx]

-- Both members are restored with the option.
example : ∃ m, parse true DB.empty (packDoc ⟨true, [], false⟩ (onT xplain XD) [100] (xobj 1 2)) = some m ∧
    unpackX true m (onT xplain XD) [100] (xobj 7 8) = some (xobj 1 2) :=
  C134_xml_partial (g := ⟨true, [], false⟩) xplain (.inl rfl) ⟨by decide, _, _, rfl, by decide, by decide⟩ ex_good
    ⟨_, _, rfl, ⟨_, _, rfl, ⟨1, rfl, by simp [InRange, Width.modulus]⟩, rfl⟩, _, _, rfl, ⟨_, _, rfl, ⟨2, rfl, by simp [InRange, Width.modulus]⟩, rfl⟩, rfl⟩
    trivial (by simp [Wr, WrF, XD, XA, XB]) (by simp [Fit, FitF, XD, XA, XB])

end Verif.OnBaseXml
