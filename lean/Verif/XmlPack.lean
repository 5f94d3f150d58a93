import Verif.XmlDoc
import Verif.JsonPath
/-
What the packer writes is a document of the grammar.
-/
namespace Verif.Xml
open OMap EnumKeys
open Verif.Json (JV dot tail)

/-! ### Quoting -/

/-- Characters whose code survives quoting. -/
def goodCh (sgn : Bool) (c : UInt8) : Bool := !sgn || c < 157

/-- What a character becomes: with a signed `char` the padding of the last negative codes goes
before the sign, and they are read as 0. -/
def dc (sgn : Bool) (c : UInt8) : UInt8 := if goodCh sgn c then c else 0

def dcd (sgn : Bool) (s : Str) : Str := s.map (dc sgn)

theorem dcd_good {sgn : Bool} {s : Str} (h : ∀ c ∈ s, goodCh sgn c = true) : dcd sgn s = s := by
  induction s with
  | nil => rfl
  | cons c s ih =>
    have := ih fun x hx => h x (by simp [hx])
    simp only [dcd, List.map_cons] at this ⊢
    rw [this]
    simp [dc, h c (by simp)]

theorem entity_quote : ∀ (sgn : Bool) (n : Fin 256),
    isGraph (UInt8.ofNat n.val) = false →
    entity sgn (35 :: pad4 (decI (charInt sgn (UInt8.ofNat n.val)))) =
      some (dc sgn (UInt8.ofNat n.val)) ∧
    59 ∉ (35 :: pad4 (decI (charInt sgn (UInt8.ofNat n.val))) : Str) := by decide +kernel

theorem plain_graph {c : UInt8} (hg : isGraph c = true) (h1 : c ≠ 38) (h2 : c ≠ 60) (h3 : c ≠ 62)
    (h4 : c ≠ 39) (h5 : c ≠ 34) (h6 : c ≠ 61) : plain c = true := by
  have hs : isSpace c = false := by
    simp only [isGraph, Bool.and_eq_true, decide_eq_true_eq, UInt8.le_iff_toNat_le] at hg
    have a : ¬ c = 32 := by intro e; subst e; revert hg; decide
    have b : ¬ c ≤ 13 := by
      rw [UInt8.le_iff_toNat_le]; intro h
      have h33 : (33 : UInt8).toNat = 33 := rfl
      have h13 : (13 : UInt8).toNat = 13 := rfl
      omega
    simp [isSpace, a, b]
  simp [plain, hs, h1, h2, h3, h4, h5, h6]

theorem forall_byte {P : UInt8 → Prop} (h : ∀ n : Fin 256, P (UInt8.ofNat n.val)) (c : UInt8) : P c := by
  have := h ⟨c.toNat, c.toNat_lt⟩
  simpa using this

theorem dc_graph : ∀ (sgn : Bool) (n : Fin 256), isGraph (UInt8.ofNat n.val) = true →
    dc sgn (UInt8.ofNat n.val) = UInt8.ofNat n.val := by decide +kernel

theorem dc_eq61 : ∀ (sgn : Bool) (n : Fin 256), dc sgn (UInt8.ofNat n.val) = 61 ↔
    UInt8.ofNat n.val = 61 := by decide +kernel

theorem dc_61 {sgn : Bool} {c : UInt8} : dc sgn c = 61 ↔ c = 61 :=
  forall_byte (P := fun c => dc sgn c = 61 ↔ c = 61) (dc_eq61 sgn) c

theorem enc_quote (sgn : Bool) {c : UInt8} (h61 : c ≠ 61) :
    Enc sgn (dc sgn c) (quote1 sgn c) := by
  unfold quote1
  split
  · subst_vars; exact .ent (name := [97, 109, 112]) (by cases sgn <;> decide) (by decide)
  split
  · subst_vars; exact .ent (name := [108, 116]) (by cases sgn <;> decide) (by decide)
  split
  · subst_vars; exact .ent (name := [103, 116]) (by cases sgn <;> decide) (by decide)
  split
  · subst_vars; exact .ent (name := [97, 112, 111, 115]) (by cases sgn <;> decide) (by decide)
  split
  · subst_vars; exact .ent (name := [113, 117, 111, 116]) (by cases sgn <;> decide) (by decide)
  rename_i h1 h2 h3 h4 h5
  split
  · rename_i hgr
    have := forall_byte (P := fun c => isGraph c = false →
      entity sgn (35 :: pad4 (decI (charInt sgn c))) = some (dc sgn c) ∧
      59 ∉ (35 :: pad4 (decI (charInt sgn c)) : Str)) (entity_quote sgn) c (by simpa using hgr)
    have := Enc.ent this.1 this.2
    simpa using this
  · rename_i hgr
    have hgr' : isGraph c = true := by simpa using hgr
    rw [forall_byte (P := fun c => isGraph c = true → dc sgn c = c) (dc_graph sgn) c hgr']
    exact .raw (plain_graph hgr' h1 h2 h3 h4 h5 h61)

theorem quote_eq (sgn : Bool) : quote1 sgn 61 = [61] := by cases sgn <;> rfl

/-- The runs of a string: what lies between equal signs. -/
def Runs (OK : Str → Prop) : Str → Str → Prop
  | p, [] => OK p
  | p, c :: s => if c = 61 then OK p ∧ Runs OK [] s else Runs OK (p ++ [c]) s

theorem con_quote {sgn : Bool} {OK : Str → Prop} {s : Str} (p : Str)
    (h : Runs OK p (dcd sgn s)) : Con sgn OK p (p ++ dcd sgn s) [] (quote sgn s) := by
  induction s generalizing p with
  | nil => have := Con.nil (sgn := sgn) (OK := OK) (p := p) h; simpa [quote, dcd] using this
  | cons c s ih =>
    have hq : quote sgn (c :: s) = quote1 sgn c ++ quote sgn s := by simp [quote]
    have hd : dcd sgn (c :: s) = dc sgn c :: dcd sgn s := rfl
    rw [hq, hd]
    rw [hd] at h
    simp only [Runs] at h
    by_cases hc : c = 61
    · rw [if_pos (dc_61.2 hc)] at h
      rw [dc_61.2 hc]
      subst hc
      rw [quote_eq]
      have := ih [] h.2
      exact .sep (.inr rfl) h.1 (by simpa using this)
    · rw [if_neg (fun e => hc (dc_61.1 e))] at h
      have := ih (p ++ [dc sgn c]) h
      exact .chr (enc_quote sgn hc) (by simpa using this)

theorem con_plain {sgn : Bool} {OK : Str → Prop} {s : Str} (hs : ∀ c ∈ s, plain c = true) (p : Str)
    (h : OK (p ++ s)) : Con sgn OK p (p ++ s) [] s := by
  induction s generalizing p with
  | nil => simpa using Con.nil h
  | cons c s ih =>
    have := ih (fun x hx => hs x (by simp [hx])) (p ++ [c]) (by simpa using h)
    exact .chr (w := [c]) (.raw (hs c (by simp))) (by simpa using this)

/-! ### What is written for a value -/

def ws (g : Cfg) (l : Nat) : Str := if g.pretty then List.replicate l 32 else []

def xmlns : Str := [120, 109, 108, 110, 115]

def atts (g : Cfg) (l : Nat) : List (Str × Str) :=
  if l = 1 ∧ g.schema ≠ [] then [(xmlns, g.schema)] else []

/-- Character data and elements. -/
abbrev Shape := Str × List Tree

def Shape.add (a b : Shape) : Shape := (a.1 ++ b.1, a.2 ++ b.2)

def joinS : List Shape → Shape
  | [] => ([], [])
  | a :: l => Shape.add a (joinS l)

/-- An element around something, unless its tag is already open. -/
def wr (g : Cfg) (opened : Bool) (l : Nat) (n : Str) (x : Shape) : Shape :=
  if opened then x
  else (ws g l ++ post g, [.mk n (atts g l) (post g ++ x.1 ++ ws g l) x.2])

def leafS (g : Cfg) (l : Nat) (n s : Str) : Shape := (ws g l ++ post g, [.mk n [] s []])

def boolText (b : Bool) : Str := if b then [116, 114, 117, 101] else [102, 97, 108, 115, 101]

mutual
/-- What is written for a value of type `t` at nesting level `l` under the name `n`, when the tag of
that name is open already or not. -/
def shape (g : Cfg) : XT → Bool → Nat → Str → JV → Shape
  | .bool, _, l, n, v => leafS g l n (boolText (boolOf v))
  | .int _, _, l, n, v => leafS g l n (decI (intOf v))
  | .chr, _, l, n, v => leafS g l n (dcd g.sgn (bytesOf v))
  | .byte, _, l, n, v => leafS g l n (bytesOf v)
  | .str, _, l, n, v => leafS g l n (dcd g.sgn (bytesOf v))
  | .cdata, b, l, n, v => wr g b l n (bytesOf v, [])
  | .seq e t, b, l, n, v => wr g b l n (joinS ((elemsOf v).map fun x =>
      if isPtr t then wr g false (l + 1) e (shape g t true (l + 1) e x)
      else shape g t false (l + 1) e x))
  | .assoc _ e t, b, l, n, v => wr g b l n (joinS ((elemsOf v).map fun x =>
      if isPtr t then wr g false (l + 1) e (shape g t true (l + 1) e x)
      else shape g t false (l + 1) e x))
  | .struct fs, b, l, n, v => wr g b l n (shapeF g fs l n v)
  | .ptr t, b, l, n, .ptr v => shape g t b l n v
  | .ptr _, _, _, _, _ => ([], [])
  | .ref t, b, l, n, .ptr v => wr g b l n (shape g t true l n v)
  | .ref _, b, l, n, _ => wr g b l n ([], [])
  | .poly kt cls _, b, l, n, .ptr (.pair k x) =>
      wr g b l n ((shape g kt false (l + 1) sType k).add (shapeF g (cls k) l n x))
  | .poly _ _ _, _, _, _, _ => ([], [])
def shapeF (g : Cfg) : Fs → Nat → Str → JV → Shape
  | .nil, _, _, _ => ([], [])
  | .mem m t fs, l, n, v => (shape g t false (l + 1) m (fstOf v)).add (shapeF g fs l n (sndOf v))
  | .base t fs, l, n, v => (shape g t true l n (fstOf v)).add (shapeF g fs l n (sndOf v))
end

mutual
/-- All names that occur in a type can be used as element names. -/
def NamesOK : XT → Prop
  | .seq e t | .assoc _ e t => XmlName e ∧ NamesOK t
  | .struct fs => NamesOKF fs
  | .ptr t | .ref t => NamesOK t
  | .poly kt cls _ => NamesOK kt ∧ ∀ k, NamesOKF (cls k)
  | _ => True
def NamesOKF : Fs → Prop
  | .nil => True
  | .mem n t fs => XmlName n ∧ NamesOK t ∧ NamesOKF fs
  | .base t fs => NamesOK t ∧ NamesOKF fs
end

mutual
/-- The strings of a value can be written: CDATA and unsigned characters contain no markup; `OK`
is required of runs. -/
def Wr (g : Cfg) (OK : Str → Prop) : XT → JV → Prop
  | .bool, _ | .int _, _ => True
  | .chr, v | .str, v => Runs OK [] (dcd g.sgn (bytesOf v))
  | .byte, v => ∀ c ∈ bytesOf v, plain c = true
  | .cdata, v => OK (bytesOf v) ∧ CdataOK (bytesOf v)
  | .seq _ t, v | .assoc _ _ t, v => ∀ x ∈ elemsOf v, Wr g OK t x
  | .struct fs, v => WrF g OK fs v
  | .ptr t, .ptr v => Wr g OK t v
  | .ref t, .ptr v => Wr g OK t v
  | .poly kt cls _, .ptr (.pair k x) => Wr g OK kt k ∧ WrF g OK (cls k) x
  | .ptr _, _ | .ref _, _ | .poly _ _ _, _ => True
def WrF (g : Cfg) (OK : Str → Prop) : Fs → JV → Prop
  | .nil, _ => True
  | .mem _ t fs, v | .base t fs, v => Wr g OK t (fstOf v) ∧ WrF g OK fs (sndOf v)
end

/-- The schema can be written in an attribute. -/
def SchemaOK (s : Str) : Prop := s = [] ∨ (34 ∉ s ∧ 38 ∉ s ∧ spaceTok s = false)

/-- `w` is content that may be followed by any content. -/
def Seg (sgn : Bool) (OK : Str → Prop) (x : Shape) (w : Str) : Prop :=
  ∀ t ks w', Con sgn OK [] t ks w' → Con sgn OK [] (x.1 ++ t) (x.2 ++ ks) (w ++ w')

theorem Seg.nil {sgn : Bool} {OK : Str → Prop} : Seg sgn OK ([], []) [] := fun _ _ _ h => h

theorem Seg.add {sgn : Bool} {OK : Str → Prop} {a b : Shape} {u w : Str} (ha : Seg sgn OK a u)
    (hb : Seg sgn OK b w) : Seg sgn OK (a.add b) (u ++ w) := by
  intro t ks w' h
  have := ha _ _ _ (hb _ _ _ h)
  simpa [Shape.add] using this

theorem Seg.spaces {sgn : Bool} {OK : Str → Prop} (h0 : OK []) {s : Str} (hs : Spaces s) :
    Seg sgn OK (s, []) s := by
  intro t ks w' h
  induction s with
  | nil => exact h
  | cons c s ih =>
    have := ih (fun x hx => hs x (by simp [hx]))
    have := Con.sep (p := []) (.inl (hs c (by simp))) h0 this
    simpa using this

theorem Seg.con {sgn : Bool} {OK : Str → Prop} (h0 : OK []) {x : Shape} {w : Str} (h : Seg sgn OK x w) :
    Con sgn OK [] x.1 x.2 w := by
  have := h _ _ _ (.nil h0); simpa using this

theorem ws_spaces (g : Cfg) (l : Nat) : Spaces (ws g l) := by
  intro c hc
  unfold ws at hc
  split at hc
  · rw [List.eq_of_mem_replicate hc]; decide
  · cases hc

theorem post_spaces (g : Cfg) : Spaces (post g) := by
  intro c hc
  unfold post at hc
  split at hc
  · simp only [List.mem_singleton] at hc; subst hc; decide
  · cases hc

theorem Seg.elem {sgn : Bool} {OK : Str → Prop} (h0 : OK []) {n : Str} (hn : XmlName n)
    {a : List (Str × Str)} {aw : Str} (ha : AtsB sgn a aw) {s : Str} {ks : List Tree} {w : Str}
    (hc : Con sgn OK [] s ks w) :
    Seg sgn OK ([], [.mk n a s ks]) ([60] ++ n ++ aw ++ [62] ++ w ++ [60, 47] ++ n ++ [62]) := by
  intro t ks' w' h
  have := Con.kid (p := []) h0 hn ha hc (sp := []) (by intro c hc; cases hc) h
  simpa using this

/-- The long name `d` has last component `n` and nesting level `l`. -/
def DK (d : Str) (l : Nat) (n : Str) : Prop := tail d = n ∧ level d = l

theorem tail_dot {d m : Str} (hm : dot ∉ m) : tail (d ++ dot :: m) = m := by
  unfold tail
  rw [List.reverse_append, List.reverse_cons, List.append_assoc, List.singleton_append,
    Verif.Json.takeWhile_comp (by simpa [Verif.Json.DotFree] using hm) (.inr ⟨_, rfl⟩)]
  simp

theorem DK.mem {d : Str} {l : Nat} {n m : Str} (h : DK d l n) (hl : 0 < l) (hm : XmlName m) :
    DK (d ++ dot :: m) (l + 1) m := by
  refine ⟨tail_dot hm.key.2.2, ?_⟩
  have h2 := h.2
  unfold level at h2 ⊢
  have hd : d ≠ [] := by intro e; subst e; simp at h2; omega
  rw [if_neg hd] at h2
  have : List.count dot m = 0 := List.count_eq_zero.2 hm.key.2.2
  simp only [List.append_eq_nil_iff, hd, reduceCtorEq, and_false, if_false, List.count_append,
    List.count_cons_self, this]
  omega

theorem DK.name {n : Str} (hn : XmlName n) : DK n 1 n := by
  constructor
  · unfold tail
    have := Verif.Json.takeWhile_comp (c := n.reverse) (r := []) (by
      simpa [Verif.Json.DotFree] using hn.key.2.2) (.inl rfl)
    rw [List.append_nil] at this
    rw [this]; simp
  · have : List.count dot n = 0 := List.count_eq_zero.2 hn.key.2.2
    simp [level, hn.key.1, this]

theorem pre_ws {g : Cfg} {d : Str} {l : Nat} {n : Str} (h : DK d l n) : pre g d = ws g l := by
  simp [pre, ws, h.2]

theorem xmlns_name : XmlName xmlns := by
  refine ⟨by decide, 120, _, rfl, by decide, by decide⟩

theorem valB_plain {sgn : Bool} {s : Str} (h1 : 34 ∉ s) (h2 : 38 ∉ s) : ValB sgn 34 s s := by
  induction s with
  | nil => exact .nil
  | cons c s ih =>
    simp only [List.mem_cons, not_or] at h1 h2
    exact .raw (Ne.symm h1.1) (Ne.symm h2.1) (ih h1.2 h2.2)

theorem atts_bytes {g : Cfg} (hs : SchemaOK g.schema) {d : Str} {l : Nat} {n : Str} (h : DK d l n) :
    AtsB g.sgn (atts g l) (xmlnsAttr g d) := by
  unfold atts xmlnsAttr
  rw [h.2]
  by_cases hc : l = 1 ∧ g.schema ≠ []
  · have hc' : (l : Int) = 1 ∧ g.schema ≠ [] := ⟨by omega, hc.2⟩
    rw [if_pos hc, if_pos hc']
    rcases hs with hs | ⟨h1, h2, h3⟩
    · exact absurd hs hc.2
    · have := AtsB.attr (sgn := g.sgn) (c := 32) (k := xmlns) (s1 := []) (s2 := []) (q := 34)
        (by decide) xmlns_name (by intro c hc; cases hc) (by intro c hc; cases hc) (.inr rfl)
        (valB_plain h1 h2) hc.2 h3 .nil
      simpa [xmlns] using this
  · have hc' : ¬ ((l : Int) = 1 ∧ g.schema ≠ []) := by
      intro h; exact hc ⟨by omega, h.2⟩
    rw [if_neg hc, if_neg hc']; exact .nil

/-- The packing step `f` writes `x` and leaves the nesting level alone. -/
def Writes (g : Cfg) (OK : Str → Prop) (f : PK → PK) (lvl : Int) (x : Shape) : Prop :=
  ∀ p, p.lvl = lvl → ∃ w, (f p).out = p.out ++ w ∧ (f p).lvl = lvl ∧ Seg g.sgn OK x w

theorem writes_withTag {g : Cfg} {OK : Str → Prop} (h0 : OK []) (hs : SchemaOK g.schema) {d : Str}
    {l : Nat} {n : Str} (hd : DK d l n) (hn : XmlName n) {f : PK → PK} {x : Shape}
    (hf : Writes g OK f l x) (b : Bool) :
    Writes g OK (withTag g d f) (if b then l else l - 1) (wr g b l n x) := by
  intro p hp
  cases b with
  | true =>
    simp only [if_true] at hp
    have : ¬ p.lvl < level d := by rw [hp, hd.2]; omega
    simp only [withTag, if_neg this, wr, if_true]
    exact hf p hp
  | false =>
    simp only [Bool.false_eq_true, if_false] at hp
    have : p.lvl < level d := by rw [hp, hd.2]; omega
    simp only [withTag, if_pos this, wr, Bool.false_eq_true, if_false]
    obtain ⟨w, h1, h2, h3⟩ := hf ⟨p.out ++ pre g d ++ [60] ++ tail d ++ xmlnsAttr g d ++ [62] ++ post g,
      level d⟩ (by simp [hd.2])
    refine ⟨ws g l ++ ([60] ++ n ++ xmlnsAttr g d ++ [62] ++ (post g ++ (w ++ ws g l)) ++ [60, 47] ++
      n ++ [62]) ++ post g, ?_, ?_, ?_⟩
    · rw [h1, pre_ws hd, hd.1]; simp
    · rw [h2]
    · have hin : Con g.sgn OK [] (post g ++ x.1 ++ ws g l) x.2 (post g ++ (w ++ ws g l)) := by
        have := ((Seg.spaces (sgn := g.sgn) h0 (post_spaces g)).add
          (h3.add (Seg.spaces h0 (ws_spaces g l)))).con h0
        simpa [Shape.add] using this
      have := ((Seg.spaces (sgn := g.sgn) h0 (ws_spaces g l)).add
        (Seg.elem h0 hn (atts_bytes hs hd) hin)).add (Seg.spaces h0 (post_spaces g))
      simpa [Shape.add] using this

theorem writes_leaf {g : Cfg} {OK : Str → Prop} (h0 : OK []) {d : Str} {l : Nat} {n : Str}
    (hd : DK d l n) (hn : XmlName n) {txt s : Str} (hc : Con g.sgn OK [] s [] txt) (lvl : Int) :
    Writes g OK (leaf g d txt) lvl (leafS g l n s) := by
  intro p hp
  refine ⟨ws g l ++ ([60] ++ n ++ [] ++ [62] ++ txt ++ [60, 47] ++ n ++ [62]) ++ post g, ?_, ?_, ?_⟩
  · simp only [leaf, pre_ws hd, hd.1]; simp
  · exact hp
  · have := ((Seg.spaces (sgn := g.sgn) h0 (ws_spaces g l)).add
      (Seg.elem h0 hn .nil hc)).add (Seg.spaces h0 (post_spaces g))
    simpa [Shape.add, leafS] using this

theorem writes_id {g : Cfg} {OK : Str → Prop} (lvl : Int) :
    Writes g OK (fun p => p) lvl ([], []) := fun p hp => ⟨[], by simp, hp, Seg.nil⟩

theorem writes_packL {g : Cfg} {OK : Str → Prop} {f : JV → PK → PK} {lvl : Int} {h : JV → Shape}
    {l : List JV} (hf : ∀ x ∈ l, Writes g OK (f x) lvl (h x)) :
    Writes g OK (packL f l) lvl (joinS (l.map h)) := by
  induction l with
  | nil => exact writes_id lvl
  | cons a l ih =>
    intro p hp
    obtain ⟨w1, h1, h2, h3⟩ := hf a (by simp) p hp
    obtain ⟨w2, g1, g2, g3⟩ := ih (fun x hx => hf x (by simp [hx])) (f a p) h2
    refine ⟨w1 ++ w2, ?_, g2, ?_⟩
    · simp only [packL]; rw [g1, h1]; simp
    · simp only [List.map_cons, joinS]; exact h3.add g3

theorem digit_plain : ∀ n : Fin 256, isDigit (UInt8.ofNat n.val) = true →
    plain (UInt8.ofNat n.val) = true := by decide +kernel

theorem isDigit_plain {c : UInt8} (h : isDigit c = true) : plain c = true :=
  forall_byte (P := fun c => isDigit c = true → plain c = true) digit_plain c h

theorem decI_plain (i : Int) : ∀ c ∈ decI i, plain c = true := by
  intro c hc
  cases i with
  | ofNat n => exact isDigit_plain (dec_digits hc)
  | negSucc n =>
    simp only [decI, List.mem_cons] at hc
    rcases hc with rfl | hc
    · decide
    · exact isDigit_plain (dec_digits hc)

/-- What is required of runs: nothing, or no more than the reader needs. -/
def RunOK (OK : Str → Prop) : Prop := ∀ p, (∀ c ∈ p, plain c = true) → OK p

theorem okRun_plain : RunOK okRun := by
  intro p h
  refine ⟨?_, ?_⟩ <;> rintro rfl <;> exact absurd (h 60 (by simp)) (by decide)

theorem sType_name : XmlName sType := by
  exact ⟨by decide, 116, _, rfl, by decide, by decide⟩

mutual
theorem packX_writes {g : Cfg} {OK : Str → Prop} (h0 : RunOK OK) (hs : SchemaOK g.schema) :
    ∀ (t : XT) (b : Bool) (d : Str) (l : Nat) (n : Str) (v : JV), DK d l n → XmlName n → 0 < l →
      NamesOK t → Wr g OK t v → Writes g OK (packX g t d v) (if b then l else l - 1) (shape g t b l n v)
  | .bool, b, d, l, n, v, hd, hn, hl, _, _ => by
    simp only [packX, shape]
    exact writes_leaf (h0 [] (by simp)) hd hn (by
      have hp : ∀ c ∈ boolText (boolOf v), plain c = true := by
        cases boolOf v <;> decide
      simpa [boolText] using con_plain (sgn := g.sgn) hp [] (h0 _ (by simpa using hp))) _
  | .int u, b, d, l, n, v, hd, hn, hl, _, _ => by
    simp only [packX, shape]
    exact writes_leaf (h0 [] (by simp)) hd hn (by
      simpa using con_plain (sgn := g.sgn) (decI_plain (intOf v)) []
        (h0 _ (by simpa using decI_plain (intOf v)))) _
  | .chr, b, d, l, n, v, hd, hn, hl, _, hw => by
    simp only [packX, shape, Wr] at hw ⊢
    exact writes_leaf (h0 [] (by simp)) hd hn (by simpa using con_quote [] hw) _
  | .byte, b, d, l, n, v, hd, hn, hl, _, hw => by
    simp only [packX, shape, Wr] at hw ⊢
    exact writes_leaf (h0 [] (by simp)) hd hn (by
      simpa using con_plain (sgn := g.sgn) hw [] (h0 _ (by simpa using hw))) _
  | .str, b, d, l, n, v, hd, hn, hl, _, hw => by
    simp only [packX, shape, Wr] at hw ⊢
    exact writes_leaf (h0 [] (by simp)) hd hn (by simpa using con_quote [] hw) _
  | .cdata, b, d, l, n, v, hd, hn, hl, _, hw => by
    simp only [packX, shape, Wr] at hw ⊢
    refine writes_withTag (h0 [] (by simp)) hs hd hn ?_ b
    intro p hp
    refine ⟨cdataText (bytesOf v), rfl, hp, ?_⟩
    intro t ks w' h
    have := Con.cdata (p := []) (by simpa using hw.1) hw.2 h
    simpa using this
  | .seq e t, b, d, l, n, v, hd, hn, hl, hN, hw => by
    simp only [packX, shape, Wr, NamesOK] at hw hN ⊢
    have hd' := hd.mem hl hN.1
    refine writes_withTag (h0 [] (by simp)) hs hd hn (writes_packL fun x hx => ?_) b
    cases hp : isPtr t with
    | true =>
      simp only [if_true]
      have := writes_withTag (h0 [] (by simp)) hs hd' hN.1
        (packX_writes h0 hs t true _ _ _ x hd' hN.1 (by omega) hN.2 (hw x hx)) false
      simpa using this
    | false =>
      simp only [Bool.false_eq_true, if_false]
      have := packX_writes h0 hs t false _ _ _ x hd' hN.1 (by omega) hN.2 (hw x hx)
      simpa using this
  | .assoc lt e t, b, d, l, n, v, hd, hn, hl, hN, hw => by
    simp only [packX, shape, Wr, NamesOK] at hw hN ⊢
    have hd' := hd.mem hl hN.1
    refine writes_withTag (h0 [] (by simp)) hs hd hn (writes_packL fun x hx => ?_) b
    cases hp : isPtr t with
    | true =>
      simp only [if_true]
      have := writes_withTag (h0 [] (by simp)) hs hd' hN.1
        (packX_writes h0 hs t true _ _ _ x hd' hN.1 (by omega) hN.2 (hw x hx)) false
      simpa using this
    | false =>
      simp only [Bool.false_eq_true, if_false]
      have := packX_writes h0 hs t false _ _ _ x hd' hN.1 (by omega) hN.2 (hw x hx)
      simpa using this
  | .struct fs, b, d, l, n, v, hd, hn, hl, hN, hw => by
    simp only [packX, shape, Wr, NamesOK] at hw hN ⊢
    exact writes_withTag (h0 [] (by simp)) hs hd hn (packF_writes h0 hs fs d l n v hd hn hl hN hw) b
  | .ptr t, b, d, l, n, v, hd, hn, hl, hN, hw => by
    cases v with
    | ptr v =>
      simp only [packX, shape, Wr, NamesOK] at hw hN ⊢
      exact packX_writes h0 hs t b d l n v hd hn hl hN hw
    | _ => simp only [packX, shape]; exact writes_id _
  | .ref t, b, d, l, n, v, hd, hn, hl, hN, hw => by
    cases v with
    | ptr v =>
      simp only [packX, shape, Wr, NamesOK] at hw hN ⊢
      have := packX_writes h0 hs t true d l n v hd hn hl hN hw
      exact writes_withTag (h0 [] (by simp)) hs hd hn (by simpa using this) b
    | _ => simp only [packX, shape]; exact writes_withTag (h0 [] (by simp)) hs hd hn (writes_id _) b
  | .poly kt cls kn, b, d, l, n, v, hd, hn, hl, hN, hw => by
    cases v with
    | ptr v =>
      cases v with
      | pair k x =>
        simp only [packX, shape, Wr, NamesOK] at hw hN ⊢
        refine writes_withTag (h0 [] (by simp)) hs hd hn ?_ b
        intro p hp
        obtain ⟨w1, a1, a2, a3⟩ := packX_writes h0 hs kt false (d ++ dot :: sType) (l + 1) sType k
          (hd.mem hl sType_name) sType_name (by omega) hN.1 hw.1 p (by simp [hp])
        obtain ⟨w2, b1, b2, b3⟩ := packF_writes h0 hs (cls k) d l n x hd hn hl (hN.2 k) hw.2 _
          (by rw [a2]; simp)
        exact ⟨w1 ++ w2, by rw [b1, a1]; simp, b2, a3.add b3⟩
      | _ => simp only [packX, shape]; exact writes_id _
    | _ => simp only [packX, shape]; exact writes_id _
theorem packF_writes {g : Cfg} {OK : Str → Prop} (h0 : RunOK OK) (hs : SchemaOK g.schema) :
    ∀ (fs : Fs) (d : Str) (l : Nat) (n : Str) (v : JV), DK d l n → XmlName n → 0 < l →
      NamesOKF fs → WrF g OK fs v → Writes g OK (packF g fs d v) l (shapeF g fs l n v)
  | .nil, d, l, n, v, hd, hn, hl, _, _ => by
    simp only [packF, shapeF]; exact writes_id _
  | .mem m t fs, d, l, n, v, hd, hn, hl, hN, hw => by
    simp only [NamesOKF, WrF] at hN hw
    intro p hp
    have h1 := packX_writes h0 hs t false (d ++ dot :: m) (l + 1) m (fstOf v) (hd.mem hl hN.1) hN.1
      (by omega) hN.2.1 hw.1 p (by simp [hp])
    obtain ⟨w1, a1, a2, a3⟩ := h1
    obtain ⟨w2, b1, b2, b3⟩ := packF_writes h0 hs fs d l n (sndOf v) hd hn hl hN.2.2 hw.2 _
      (by rw [a2]; simp)
    refine ⟨w1 ++ w2, ?_, b2, ?_⟩
    · simp only [packF]; rw [b1, a1]; simp
    · simp only [shapeF]; exact a3.add b3
  | .base t fs, d, l, n, v, hd, hn, hl, hN, hw => by
    simp only [NamesOKF, WrF] at hN hw
    intro p hp
    have h1 := packX_writes h0 hs t true d l n (fstOf v) hd hn hl hN.1 hw.1 p (by simp [hp])
    obtain ⟨w1, a1, a2, a3⟩ := h1
    obtain ⟨w2, b1, b2, b3⟩ := packF_writes h0 hs fs d l n (sndOf v) hd hn hl hN.2 hw.2 _
      (by rw [a2]; simp)
    refine ⟨w1 ++ w2, ?_, b2, ?_⟩
    · simp only [packF]; rw [b1, a1]; simp
    · simp only [shapeF]; exact a3.add b3
end

/-- What a fresh packer writes. -/
theorem packDoc_seg {g : Cfg} {OK : Str → Prop} (h0 : RunOK OK) (hs : SchemaOK g.schema) {t : XT}
    {n : Str} {v : JV} (hn : XmlName n) (hN : NamesOK t) (hw : Wr g OK t v) :
    Seg g.sgn OK (shape g t false 1 n v) (packDoc g t n v) := by
  obtain ⟨w, h1, -, h3⟩ := packX_writes h0 hs t false n 1 n v (DK.name hn) hn (by omega) hN hw
    ⟨[], 0⟩ (by simp)
  have : packDoc g t n v = w := by simpa [packDoc] using h1
  rw [this]; exact h3

end Verif.Xml
