import Verif.XmlUnpack
/-
Whole documents: what a fresh packer writes is one element, and reading it back restores the value.
-/
namespace Verif.Xml
open OMap EnumKeys
open Verif.Json (JV dot tail)

theorem AtsB.names {sgn : Bool} {a : List (Str × Str)} {w : Str} (h : AtsB sgn a w) :
    ∀ x ∈ a, KeyName x.1 := by
  induction h with
  | nil => simp
  | sp _ _ ih => exact ih
  | attr _ hk _ _ _ _ _ _ _ ih =>
    intro x hx
    rcases List.mem_cons.1 hx with rfl | hx
    · exact hk.key
    · exact ih x hx

theorem Con.vts {sgn : Bool} {OK : Str → Prop} {p t : Str} {ks : List Tree} {w : Str}
    (h : Con sgn OK p t ks w) : VTs ks := by
  induction h with
  | nil _ => simp [VTs]
  | chr _ _ ih => exact ih
  | sep _ _ _ ih => exact ih
  | cdata _ _ _ ih => exact ih
  | comment _ _ _ ih => exact ih
  | kid _ hn ha _ _ _ ih1 ih2 => simp only [VTs, VT]; exact ⟨⟨hn.key, ha.names, ih1⟩, ih2⟩
  | kidE _ hn ha _ ih => simp only [VTs, VT]; exact ⟨⟨hn.key, ha.names, trivial⟩, ih⟩

theorem ElemB.vt {sgn : Bool} {OK : Str → Prop} {t : Tree} {w : Str} (h : ElemB sgn OK t w) : VT t := by
  cases h with
  | full hn ha hc _ => simp only [VT]; exact ⟨hn.key, ha.names, hc.vts⟩
  | empty hn ha => simp only [VT, VTs]; exact ⟨hn.key, ha.names, trivial⟩

/-- The step `f` writes one element and white space around it. -/
def Writes1 (g : Cfg) (OK : Str → Prop) (f : PK → PK) (lvl : Int) (l : Nat) (U : Tree) : Prop :=
  ∀ p, p.lvl = lvl → ∃ e, (f p).out = p.out ++ (ws g l ++ e ++ post g) ∧ ElemB g.sgn OK U e

theorem elem_leaf {g : Cfg} {OK : Str → Prop} {d : Str} {l : Nat} {n : Str}
    (hd : DK d l n) (hn : XmlName n) {txt s : Str} (hc : Con g.sgn OK [] s [] txt) (lvl : Int) :
    Writes1 g OK (leaf g d txt) lvl l (.mk n [] s []) := by
  intro p _
  refine ⟨_, ?_, ElemB.full (sp := []) hn .nil hc (by intro c hc; cases hc)⟩
  simp only [leaf, pre_ws hd, hd.1]; simp

theorem elem_withTag {g : Cfg} {OK : Str → Prop} (h0 : OK []) (hs : SchemaOK g.schema) {d : Str}
    {l : Nat} {n : Str} (hd : DK d l n) (hn : XmlName n) {f : PK → PK} {x : Shape}
    (hf : Writes g OK (withTag g d f) l x) :
    Writes1 g OK (withTag g d f) ((l : Int) - 1) l
      (.mk n (atts g l) (post g ++ x.1 ++ ws g l) x.2) := by
  have hf' : Writes g OK f l x := by
    intro p hp
    have := hf p hp
    have hlt : ¬ p.lvl < level d := by rw [hp, hd.2]; omega
    simpa only [withTag, if_neg hlt] using this
  intro p hp
  have : p.lvl < level d := by rw [hp, hd.2]; omega
  simp only [withTag, if_pos this]
  obtain ⟨w, h1, h2, h3⟩ := hf' ⟨p.out ++ pre g d ++ [60] ++ tail d ++ xmlnsAttr g d ++ [62] ++ post g,
    level d⟩ (by simp [hd.2])
  have hin : Con g.sgn OK [] (post g ++ x.1 ++ ws g l) x.2 (post g ++ (w ++ ws g l)) := by
    have := ((Seg.spaces (sgn := g.sgn) h0 (post_spaces g)).add
      (h3.add (Seg.spaces h0 (ws_spaces g l)))).con h0
    simpa [Shape.add] using this
  refine ⟨_, ?_, ElemB.full (sp := []) hn (atts_bytes hs hd) hin (by intro c hc; cases hc)⟩
  rw [h1, pre_ws hd, hd.1]; simp

/-- `v` is a chain of pointers that ends in an object (pointers are followed, refs are not). -/
def Rooted : XT → JV → Prop
  | .ptr t, .ptr v => Rooted t v
  | .ptr _, _ => False
  | .poly _ _ _, .ptr (.pair _ _) => True
  | .poly _ _ _, _ => False
  | _, _ => True

theorem packX_elem {g : Cfg} {OK : Str → Prop} (h0 : RunOK OK) (hs : SchemaOK g.schema) :
    ∀ (t : XT) (d : Str) (l : Nat) (n : Str) (v : JV), DK d l n → XmlName n → 0 < l →
      NamesOK t → Wr g OK t v → Rooted t v →
      ∃ U, (shape g t false l n v).2 = [U] ∧ U.name = n ∧
        Writes1 g OK (packX g t d v) ((l : Int) - 1) l U
  | .bool, d, l, n, v, hd, hn, hl, _, _, _ => by
    simp only [packX, shape, leafS]
    exact ⟨_, rfl, rfl, elem_leaf hd hn (by
      have hp : ∀ c ∈ boolText (boolOf v), plain c = true := by
        cases boolOf v <;> decide
      simpa [boolText] using con_plain (sgn := g.sgn) hp [] (h0 _ (by simpa using hp))) _⟩
  | .int u, d, l, n, v, hd, hn, hl, _, _, _ => by
    simp only [packX, shape, leafS]
    exact ⟨_, rfl, rfl, elem_leaf hd hn (by
      simpa using con_plain (sgn := g.sgn) (decI_plain (intOf v)) []
        (h0 _ (by simpa using decI_plain (intOf v)))) _⟩
  | .chr, d, l, n, v, hd, hn, hl, _, hw, _ => by
    simp only [packX, shape, leafS, Wr] at hw ⊢
    exact ⟨_, rfl, rfl, elem_leaf hd hn (by simpa using con_quote [] hw) _⟩
  | .byte, d, l, n, v, hd, hn, hl, _, hw, _ => by
    simp only [packX, shape, leafS, Wr] at hw ⊢
    exact ⟨_, rfl, rfl, elem_leaf hd hn (by
      simpa using con_plain (sgn := g.sgn) hw [] (h0 _ (by simpa using hw))) _⟩
  | .str, d, l, n, v, hd, hn, hl, _, hw, _ => by
    simp only [packX, shape, leafS, Wr] at hw ⊢
    exact ⟨_, rfl, rfl, elem_leaf hd hn (by simpa using con_quote [] hw) _⟩
  | .cdata, d, l, n, v, hd, hn, hl, hN, hw, _ => by
    have := packX_writes h0 hs .cdata true d l n v hd hn hl hN hw
    simp only [packX, shape, wr_true, wr_false, if_true] at this ⊢
    exact ⟨_, rfl, rfl, elem_withTag (h0 [] (by simp)) hs hd hn this⟩
  | .seq e t, d, l, n, v, hd, hn, hl, hN, hw, _ => by
    have := packX_writes h0 hs (.seq e t) true d l n v hd hn hl hN hw
    simp only [packX, shape, if_true] at this ⊢
    rw [wr_true] at this
    rw [wr_false]
    exact ⟨_, rfl, rfl, elem_withTag (h0 [] (by simp)) hs hd hn this⟩
  | .assoc lt e t, d, l, n, v, hd, hn, hl, hN, hw, _ => by
    have := packX_writes h0 hs (.assoc lt e t) true d l n v hd hn hl hN hw
    simp only [packX, shape, if_true] at this ⊢
    rw [wr_true] at this
    rw [wr_false]
    exact ⟨_, rfl, rfl, elem_withTag (h0 [] (by simp)) hs hd hn this⟩
  | .struct fs, d, l, n, v, hd, hn, hl, hN, hw, _ => by
    have := packX_writes h0 hs (.struct fs) true d l n v hd hn hl hN hw
    simp only [packX, shape, if_true] at this ⊢
    rw [wr_true] at this
    rw [wr_false]
    exact ⟨_, rfl, rfl, elem_withTag (h0 [] (by simp)) hs hd hn this⟩
  | .ptr t, d, l, n, v, hd, hn, hl, hN, hw, hr => by
    cases v with
    | ptr v =>
      simp only [packX, shape, Wr, NamesOK, Rooted] at hw hN hr ⊢
      exact packX_elem h0 hs t d l n v hd hn hl hN hw hr
    | _ => simp [Rooted] at hr
  | .ref t, d, l, n, v, hd, hn, hl, hN, hw, _ => by
    have := packX_writes h0 hs (.ref t) true d l n v hd hn hl hN hw
    cases v with
    | ptr v =>
      simp only [packX, shape, if_true] at this ⊢
      rw [wr_true] at this
      rw [wr_false]
      exact ⟨_, rfl, rfl, elem_withTag (h0 [] (by simp)) hs hd hn this⟩
    | _ =>
      simp only [packX, shape, if_true] at this ⊢
      rw [wr_true] at this
      rw [wr_false]
      exact ⟨_, rfl, rfl, elem_withTag (h0 [] (by simp)) hs hd hn this⟩

  | .poly kt cls kn, d, l, n, v, hd, hn, hl, hN, hw, hr => by
    have := packX_writes h0 hs (.poly kt cls kn) true d l n v hd hn hl hN hw
    rcases v with _ | _ | _ | _ | _ | _ | _ | _ | (_ | _ | _ | _ | _ | _ | _ | _ | _ | _) | _
    case ptr.pair k x =>
      simp only [packX, shape, if_true] at this ⊢
      rw [wr_true] at this
      rw [wr_false]
      exact ⟨_, rfl, rfl, elem_withTag (h0 [] (by simp)) hs hd hn this⟩
    all_goals simp [Rooted] at hr

theorem prolog_spaces {s : Str} (h : Spaces s) : Prolog s := by
  induction s with
  | nil => exact .nil
  | cons c s ih => exact .sp (h c (by simp)) (ih fun x hx => h x (by simp [hx]))

/-- A fresh packer writes one element, with white space around it. -/
theorem packDoc_doc {g : Cfg} {OK : Str → Prop} (h0 : RunOK OK) (hs : SchemaOK g.schema) {t : XT}
    {n : Str} {v : JV} (hn : XmlName n) (hN : NamesOK t) (hw : Wr g OK t v) (hr : Rooted t v) :
    ∃ U d sp, packDoc g t n v = d ++ sp ∧ DocB g.sgn OK U d ∧ Spaces sp ∧ U.name = n ∧
      (shape g t false 1 n v).2 = [U] := by
  obtain ⟨U, h1, h2, h3⟩ := packX_elem h0 hs t n 1 n v (DK.name hn) hn (by omega) hN hw hr
  obtain ⟨e, h4, h5⟩ := h3 ⟨[], 0⟩ (by simp)
  refine ⟨U, ws g 1 ++ e, post g, ?_, ⟨_, e, prolog_spaces (ws_spaces g 1), h5, rfl⟩, post_spaces g,
    h2, h1⟩
  simp only [packDoc, h4]; simp

theorem count_root {t : Tree} (h : VT t) : countOf (walk t.name t DB.empty) t.name = 1 := by
  have hk : KeyName t.name := by cases t; simp only [VT] at h; exact h.1
  have := ((walk_loc t [] DB.empty h VP.nil (Loc_empty _)).2 [] VP.nil (by
    intro hh; have := hh.length_le; simp at this)).1 t.name hk
  simpa [keyS, countOf, DB.empty, mfind] using this

/-- Packing, parsing and unpacking. -/
theorem roundtrip {g : Cfg} {t : XT} {n : Str} {v old : JV} {miss : Bool} (hs : SchemaOK g.schema)
    (hn : XmlName n) (hN : NamesOK t) (ht : TypeOK t) (hv : Val g t v) (hnn : NotNull t v)
    (hw : Wr g okRun t v) (hf : Fit miss t v old) :
    ∃ m, parse g.sgn DB.empty (packDoc g t n v) = some m ∧ unpackX miss m t n old = some v := by
  by_cases hpn : v = .null ∧ ∃ kt cls kn, t = .poly kt cls kn
  · obtain ⟨rfl, kt, cls, kn, rfl⟩ := hpn
    refine ⟨DB.empty, by simp only [packDoc, packX]; rfl, ?_⟩
    rw [unpackX, show existsK DB.empty (n ++ dot :: sType) = false from rfl]
    rfl
  have hso : SolidPtr t v := by
    cases t with
    | ptr t => obtain ⟨x, rfl⟩ := hnn; simp [SolidPtr]
    | poly kt cls kn => exact fun h => hpn ⟨h, _, _, _, rfl⟩
    | _ => exact trivial
  have hr : Rooted t v := by
    cases t with
    | ptr t =>
      obtain ⟨x, rfl⟩ := hnn
      simp only [TypeOK] at ht
      simp only [Rooted]
      cases t <;> simp_all [Rooted, isPtr]
    | poly kt cls kn =>
      simp only [Val] at hv
      rcases hv with hv | ⟨k, x, rfl, -⟩
      · exact absurd hv hso
      · trivial
    | _ => simp [Rooted]
  obtain ⟨U, d, sp, h1, h2, -, h4, h5⟩ := packDoc_doc okRun_plain hs hn hN hw hr
  obtain ⟨U', h6, h7⟩ := shape_false_rep g t 1 n v ht hv hso
  have hU : U = U' := by rw [h5] at h6; simpa using h6
  subst hU
  have hvt : VT U := by obtain ⟨p, e, _, he, _⟩ := h2; exact he.vt
  refine ⟨_, by rw [h1]; exact parse_doc h2 DB.empty sp, ?_⟩
  have hk : Keys n [(U.name, 0)] := by rw [h4]; exact Keys.name hn.key
  refine unpack_rep (g := g) t v old [(U.name, 0)] U n ht hN hv hf h7 (walk_empty hvt) hk ?_
  have := hk.strip (q := [])
  have hc : count (walk U.name U DB.empty) n = 1 := by
    unfold count; rw [this]; exact count_root hvt
  simp [existsK, hc]

end Verif.Xml
