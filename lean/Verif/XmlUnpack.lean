import Verif.XmlPack
/-
Unpacking what was packed.
-/
namespace Verif.Xml
open OMap EnumKeys
open Verif.Json (JV dot tail)

/-! ### Reading numbers and booleans back -/

theorem digit_facts : ∀ n : Fin 256, isDigit (UInt8.ofNat n.val) = true →
    isSpace (UInt8.ofNat n.val) = false ∧ UInt8.ofNat n.val ≠ 45 ∧ UInt8.ofNat n.val ≠ 43 := by
  decide +kernel

theorem takeWhile_all {p : UInt8 → Bool} {s : Str} (h : ∀ c ∈ s, p c = true) : s.takeWhile p = s := by
  induction s with
  | nil => rfl
  | cons c s ih => simp [h c (by simp), ih (fun x hx => h x (by simp [hx]))]

theorem signed_dec (n : Nat) : signed (dec n) = (false, dec n) := by
  have hne := dec_ne n
  have hd : ∀ c ∈ dec n, isDigit c = true := fun c hc => dec_digits hc
  generalize dec n = s at hne hd
  cases s with
  | nil => exact absurd rfl hne
  | cons c s =>
    have := forall_byte (P := fun c => isDigit c = true → isSpace c = false ∧ c ≠ 45 ∧ c ≠ 43)
      digit_facts c (hd c (by simp))
    unfold signed
    simp only [List.dropWhile_cons, this.1, Bool.false_eq_true, if_false]
    split
    · rename_i h; simp only [List.cons.injEq] at h; exact absurd h.1 this.2.1
    · rename_i h; simp only [List.cons.injEq] at h; exact absurd h.1 this.2.2
    · rfl

theorem strtol10_dec (n : Nat) : strtol10 (dec n) = n := by
  simp only [strtol10, signed_dec, takeWhile_all (fun c hc => dec_digits hc), valD_dec]
  simp

theorem strtol10_decI (i : Int) : strtol10 (decI i) = i := by
  cases i with
  | ofNat n => simpa [decI] using strtol10_dec n
  | negSucc n =>
    have : signed (45 :: dec (n + 1)) = (true, dec (n + 1)) := by
      simp [signed, isSpace]
    simp only [decI, strtol10, this, takeWhile_all (fun c hc => dec_digits hc), valD_dec]
    simp; omega

theorem readInt_decI {u : Under} {i : Int} (h : InRange u i) : readInt u (decI i) = i := by
  unfold readInt
  rw [strtol10_decI]
  unfold InRange at h
  unfold minOf maxOf
  simp only
  cases hs : u.signed <;> simp only [hs, Bool.false_eq_true, if_false, if_true] at h ⊢
  · rw [if_neg (by omega), if_neg (by omega)]
  · rw [if_neg (by omega), if_neg (by omega)]

theorem readBool_text (b : Bool) : readBool (boolText b) = b := by cases b <;> decide

theorem boolText_ne (b : Bool) : boolText b ≠ [] := by cases b <;> decide
theorem decI_ne (i : Int) : decI i ≠ [] := by
  cases i with
  | ofNat n => exact dec_ne n
  | negSucc n => simp [decI]

/-! ### Types and values -/

/-- A container or class. -/
def Comp : XT → Prop
  | .seq _ _ | .assoc _ _ _ | .struct _ => True
  | _ => False

def isStruct : XT → Prop
  | .struct _ => True
  | _ => False

mutual
/-- Names of the elements written inside the element of a class or container. -/
def names : XT → List Str
  | .seq e _ | .assoc _ e _ => [e]
  | .struct fs => namesF fs
  | _ => []
def namesF : Fs → List Str
  | .nil => []
  | .mem n _ fs => n :: namesF fs
  | .base t fs => names t ++ namesF fs
end

/-- Elements of a container: pointers must be to classes or containers. -/
def ElemType : XT → Prop
  | .ptr t => Comp t
  | _ => True

mutual
/-- Types for which reading back works: members and those of bases have different names, bases are
classes, no pointers to pointers, refs only to classes and containers; classes of objects that
polymorphic pointers refer to have no member `type`. -/
def TypeOK : XT → Prop
  | .seq _ t | .assoc _ _ t => ElemType t ∧ TypeOK t
  | .struct fs => (namesF fs).Nodup ∧ TypeOKF fs
  | .ptr t => isPtr t = false ∧ TypeOK t
  | .ref t => Comp t ∧ TypeOK t
  | .poly kt cls _ => isPtr kt = false ∧ TypeOK kt ∧
      ∀ k, (sType :: namesF (cls k)).Nodup ∧ TypeOKF (cls k)
  | _ => True
def TypeOKF : Fs → Prop
  | .nil => True
  | .mem _ t fs => TypeOK t ∧ TypeOKF fs
  | .base t fs => isStruct t ∧ TypeOK t ∧ TypeOKF fs
end

/-- A pointer among the elements of a container is not null. -/
def NotNull : XT → JV → Prop
  | .ptr _, v => ∃ x, v = .ptr x
  | _, _ => True

/-- A pointer is not null. -/
def SolidPtr : XT → JV → Prop
  | .ptr _, v | .poly _ _ _, v => v ≠ .null
  | _, _ => True

mutual
/-- `v` is a value of type `t` (with pointers in containers, and refs, not null; CDATA not with
pretty printing; codes of characters that survive quoting). -/
def Val (g : Cfg) : XT → JV → Prop
  | .bool, v => ∃ b, v = .bool b
  | .int u, v => ∃ i, v = .int i ∧ InRange u i
  | .chr, v => ∃ c, v = .str [c] ∧ goodCh g.sgn c = true
  | .byte, v => ∃ c, v = .str [c]
  | .str, v => ∃ s, v = .str s ∧ ∀ c ∈ s, goodCh g.sgn c = true
  | .cdata, v => g.pretty = false ∧ ∃ s, v = .str s
  | .seq _ t, v => ∃ l, v = .seq l ∧ ∀ x ∈ l, Val g t x ∧ NotNull t x
  | .assoc lt _ t, v => ∃ l, v = .seq l ∧ l.Pairwise (fun a b => lt a b = true ∧ lt b a = false) ∧
      ∀ x ∈ l, Val g t x ∧ NotNull t x
  | .struct fs, v => ValF g fs v
  | .ptr t, v => v = .null ∨ ∃ x, v = .ptr x ∧ Val g t x
  | .ref t, v => ∃ x, v = .ptr x ∧ Val g t x
  | .poly kt cls known, v => v = .null ∨
      ∃ k x, v = .ptr (.pair k x) ∧ known k = true ∧ Val g kt k ∧ ValF g (cls k) x
def ValF (g : Cfg) : Fs → JV → Prop
  | .nil, v => v = .unit
  | .mem _ t fs, v | .base t fs, v => ∃ x y, v = .pair x y ∧ Val g t x ∧ ValF g fs y
end

mutual
/-- The destination does not stand in the way: an empty string is only read back into one that is
empty (and not at all when missing data is an error); a character must not be white space. -/
def Fit (miss : Bool) : XT → JV → JV → Prop
  | .chr, v, _ | .byte, v, _ => ∀ c ∈ bytesOf v, isSpace c = false
  | .str, v, old | .cdata, v, old => bytesOf v ≠ [] ∨ (miss = false ∧ old = v)
  | .seq _ t, v, _ | .assoc _ _ t, v, _ => ∀ x ∈ elemsOf v, Fit miss t x (dflt t)
  | .struct fs, v, old => FitF miss fs v old
  | .ptr t, .ptr v, _ => Fit miss t v (dflt t)
  | .ref t, .ptr v, .ptr old => Fit miss t v old
  | .ref t, .ptr v, _ => Fit miss t v (dflt t)
  | .poly kt cls _, .ptr (.pair k x), _ =>
      Fit miss kt k (dflt kt) ∧ FitF miss (cls k) x (dfltF (cls k))
  | _, _, _ => True
def FitF (miss : Bool) : Fs → JV → JV → Prop
  | .nil, _, _ => True
  | .mem _ t fs, v, old | .base t fs, v, old =>
    Fit miss t (fstOf v) (fstOf old) ∧ FitF miss fs (sndOf v) (sndOf old)
end

/-! ### An element represents a value -/

def RepL (f : JV → Tree → Prop) : List JV → List Tree → Prop
  | [], [] => True
  | x :: xs, k :: ks => f x k ∧ RepL f xs ks
  | _, _ => False

theorem wr_true (g : Cfg) (l : Nat) (n : Str) (x : Shape) : wr g true l n x = x := rfl
theorem wr_false (g : Cfg) (l : Nat) (n : Str) (x : Shape) : wr g false l n x =
    (ws g l ++ post g, [.mk n (atts g l) (post g ++ x.1 ++ ws g l) x.2]) := rfl

def named (T : Tree) (n : Str) : List Tree := T.kids.filter fun k => k.name == n

mutual
def Rep : XT → JV → Tree → Prop
  | .bool, v, T => T.txt = boolText (boolOf v)
  | .int _, v, T => T.txt = decI (intOf v)
  | .chr, v, T | .byte, v, T | .str, v, T | .cdata, v, T => T.txt = bytesOf v
  | .seq e t, v, T | .assoc _ e t, v, T => RepL (fun x k => Rep t x k) (elemsOf v) (named T e)
  | .struct fs, v, T => RepF fs v T
  | .ptr t, v, T => ∃ x, v = .ptr x ∧ Rep t x T
  | .ref t, v, T => ∃ x, v = .ptr x ∧ Rep t x T
  | .poly kt cls _, v, T => (v = .null ∧ named T sType = []) ∨
      ∃ k x, v = .ptr (.pair k x) ∧ (∃ U, named T sType = [U] ∧ Rep kt k U) ∧ RepF (cls k) x T
def RepF : Fs → JV → Tree → Prop
  | .nil, _, _ => True
  | .mem n t fs, v, T =>
    ((isPtr t = true ∧ fstOf v = .null ∧ named T n = []) ∨
      ∃ U, named T n = [U] ∧ Rep t (fstOf v) U) ∧ RepF fs (sndOf v) T
  | .base t fs, v, T => Rep t (fstOf v) T ∧ RepF fs (sndOf v) T
end

theorem filter_none {l : List Tree} {n : Str} (h : ∀ k ∈ l, k.name ≠ n) :
    (l.filter fun k => k.name == n) = [] := by
  rw [List.filter_eq_nil_iff]; intro k hk; simp [h k hk]

theorem filter_all {l : List Tree} {n : Str} (h : ∀ k ∈ l, k.name = n) :
    (l.filter fun k => k.name == n) = l := by
  rw [List.filter_eq_self]; intro k hk; simp [h k hk]

theorem joinS_kids (l : List Shape) : (joinS l).2 = l.flatMap (·.2) := by
  induction l with
  | nil => rfl
  | cons a l ih => simp [joinS, Shape.add, ih]

mutual
theorem shape_false_name (g : Cfg) : ∀ (t : XT) (l : Nat) (n : Str) (v : JV),
    ∀ k ∈ (shape g t false l n v).2, k.name = n
  | .bool, l, n, v, k, hk | .int _, l, n, v, k, hk | .chr, l, n, v, k, hk | .byte, l, n, v, k, hk
  | .str, l, n, v, k, hk => by
    simp only [shape, leafS, List.mem_singleton] at hk; subst hk; rfl
  | .cdata, l, n, v, k, hk | .seq _ _, l, n, v, k, hk | .assoc _ _ _, l, n, v, k, hk
  | .struct _, l, n, v, k, hk => by
    simp only [shape, wr, Bool.false_eq_true, if_false, List.mem_singleton] at hk; subst hk; rfl
  | .ptr t, l, n, v, k, hk => by
    cases v with
    | ptr v => simp only [shape] at hk; exact shape_false_name g t l n v k hk
    | _ => simp [shape] at hk
  | .ref t, l, n, v, k, hk => by
    cases v <;> simp only [shape, wr, Bool.false_eq_true, if_false, List.mem_singleton] at hk <;>
      subst hk <;> rfl
  | .poly kt cls _, l, n, v, k, hk => by
    rcases v with _ | _ | _ | _ | _ | _ | _ | _ | (_ | _ | _ | _ | _ | _ | _ | _ | _ | _) | _ <;>
      simp only [shape, wr, Bool.false_eq_true, if_false, List.mem_singleton, List.not_mem_nil] at hk <;>
      subst hk <;> rfl
end

/-- All the elements of a container are written under the same name. -/
theorem elems_name (g : Cfg) (t : XT) (l : Nat) (e : Str) (xs : List JV) :
    ∀ k ∈ (joinS (xs.map fun x => if isPtr t then wr g false l e (shape g t true l e x)
      else shape g t false l e x)).2, k.name = e := by
  intro k hk
  rw [joinS_kids] at hk
  simp only [List.mem_flatMap, List.mem_map] at hk
  obtain ⟨s, ⟨x, _, rfl⟩, hk⟩ := hk
  split at hk
  · simp only [wr, Bool.false_eq_true, if_false, List.mem_singleton] at hk; subst hk; rfl
  · exact shape_false_name g t l e x k hk

mutual
theorem shape_true_names (g : Cfg) : ∀ (t : XT) (l : Nat) (n : Str) (v : JV), Comp t → TypeOK t →
    ∀ k ∈ (shape g t true l n v).2, k.name ∈ names t
  | .seq e t, l, n, v, _, _, k, hk | .assoc _ e t, l, n, v, _, _, k, hk => by
    simp only [shape, wr_true] at hk
    simp only [names, List.mem_singleton]
    exact elems_name g t (l + 1) e _ k hk
  | .struct fs, l, n, v, _, ht, k, hk => by
    simp only [shape, wr_true] at hk
    simp only [names]
    simp only [TypeOK] at ht
    exact shapeF_names g fs l n v ht.2 k hk
theorem shapeF_names (g : Cfg) : ∀ (fs : Fs) (l : Nat) (n : Str) (v : JV), TypeOKF fs →
    ∀ k ∈ (shapeF g fs l n v).2, k.name ∈ namesF fs
  | .nil, l, n, v, _, k, hk => by simp [shapeF] at hk
  | .mem m t fs, l, n, v, ht, k, hk => by
    simp only [shapeF, Shape.add, List.mem_append] at hk
    simp only [TypeOKF] at ht
    simp only [namesF, List.mem_cons]
    rcases hk with hk | hk
    · exact .inl (shape_false_name g t _ _ _ k hk)
    · exact .inr (shapeF_names g fs l n _ ht.2 k hk)
  | .base t fs, l, n, v, ht, k, hk => by
    simp only [shapeF, Shape.add, List.mem_append] at hk
    simp only [TypeOKF] at ht
    simp only [namesF, List.mem_append]
    rcases hk with hk | hk
    · exact .inl (shape_true_names g t l n _ (by cases t <;> simp_all [isStruct, Comp]) ht.2.1 k hk)
    · exact .inr (shapeF_names g fs l n _ ht.2.2 k hk)
end

theorem repL_join {g : Cfg} {t : XT} {l : Nat} {e : Str} {f : JV → Tree → Prop} (xs : List JV)
    (h : ∀ x ∈ xs, ∃ U, (if isPtr t then wr g false l e (shape g t true l e x)
      else shape g t false l e x).2 = [U] ∧ f x U) :
    RepL f xs (joinS (xs.map fun x => if isPtr t then wr g false l e (shape g t true l e x)
      else shape g t false l e x)).2 := by
  induction xs with
  | nil => exact trivial
  | cons x xs ih =>
    obtain ⟨U, h1, h2⟩ := h x (by simp)
    simp only [List.map_cons, joinS, Shape.add, h1, List.singleton_append, RepL]
    exact ⟨h2, ih fun y hy => h y (by simp [hy])⟩

/-- An element that holds what is written for the type and the members of an object. -/
theorem poly_rep {g : Cfg} {kt : XT} {fs : Fs} {k x : JV} {l : Nat} {n : Str}
    (hnd : (sType :: namesF fs).Nodup) (hok : TypeOKF fs)
    (hk : ∃ U, (shape g kt false (l + 1) sType k).2 = [U] ∧ Rep kt k U)
    (hx : ∀ T, (∀ f ∈ namesF fs, named T f =
      (shapeF g fs l n x).2.filter fun k => k.name == f) → RepF fs x T)
    (T : Tree) (hT : ∀ f, named T f =
      ((shape g kt false (l + 1) sType k).add (shapeF g fs l n x)).2.filter fun k => k.name == f) :
    (∃ U, named T sType = [U] ∧ Rep kt k U) ∧ RepF fs x T := by
  simp only [List.nodup_cons] at hnd
  simp only [Shape.add, List.filter_append] at hT
  constructor
  · have h1 := hT sType
    rw [filter_all (shape_false_name g kt (l + 1) sType k),
      filter_none (l := (shapeF g fs l n x).2) (by
        intro u hu e; exact hnd.1 (e ▸ shapeF_names g fs l n x hok u hu)),
      List.append_nil] at h1
    rw [h1]
    exact hk
  · refine hx T fun f hf => ?_
    rw [hT f, filter_none (l := (shape g kt false (l + 1) sType k).2) (by
      intro u hu e
      rw [shape_false_name g kt (l + 1) sType k u hu] at e
      subst e; exact hnd.1 hf), List.nil_append]

mutual
/-- A value that is not null is written as one element that represents it. -/
theorem shape_false_rep (g : Cfg) : ∀ (t : XT) (l : Nat) (n : Str) (v : JV), TypeOK t → Val g t v →
    SolidPtr t v → ∃ U, (shape g t false l n v).2 = [U] ∧ Rep t v U
  | .bool, l, n, v, _, _, _ | .int _, l, n, v, _, _, _ | .byte, l, n, v, _, _, _ => by
    simp only [shape, leafS, Rep]; exact ⟨_, rfl, rfl⟩
  | .chr, l, n, v, _, hv, _ => by
    simp only [Val] at hv
    obtain ⟨c, rfl, hc⟩ := hv
    simp only [shape, leafS, Rep]
    exact ⟨_, rfl, dcd_good (by simpa [bytesOf] using hc)⟩
  | .str, l, n, v, _, hv, _ => by
    simp only [Val] at hv
    obtain ⟨s, rfl, hc⟩ := hv
    simp only [shape, leafS, Rep]
    exact ⟨_, rfl, dcd_good (by simpa [bytesOf] using hc)⟩
  | .cdata, l, n, v, _, hv, _ => by
    simp only [Val] at hv
    simp only [shape, wr, Bool.false_eq_true, if_false, Rep]
    exact ⟨_, rfl, by simp [Tree.txt, post, ws, hv.1]⟩
  | .seq e t, l, n, v, ht, hv, _ => by
    refine ⟨_, by simp only [shape]; rw [wr_false], ?_⟩
    exact shape_true_rep g (.seq e t) l n v trivial ht hv _ (fun f _ => by
      simp only [named, Tree.kids, shape, wr_true])
  | .assoc lt e t, l, n, v, ht, hv, _ => by
    refine ⟨_, by simp only [shape]; rw [wr_false], ?_⟩
    exact shape_true_rep g (.assoc lt e t) l n v trivial ht hv _ (fun f _ => by
      simp only [named, Tree.kids, shape, wr_true])
  | .struct fs, l, n, v, ht, hv, _ => by
    refine ⟨_, by simp only [shape]; rw [wr_false], ?_⟩
    exact shape_true_rep g (.struct fs) l n v trivial ht hv _ (fun f _ => by
      simp only [named, Tree.kids, shape, wr_true])
  | .ptr t, l, n, v, ht, hv, hn => by
    simp only [TypeOK, Val] at ht hv
    rcases hv with hv | ⟨x, rfl, hv⟩
    · exact absurd hv hn
    · obtain ⟨U, h1, h2⟩ := shape_false_rep g t l n x ht.2 hv (by
        cases t <;> simp_all [SolidPtr, isPtr])
      exact ⟨U, by simp only [shape]; exact h1, by simp only [Rep]; exact ⟨x, rfl, h2⟩⟩
  | .ref t, l, n, v, ht, hv, _ => by
    simp only [TypeOK, Val] at ht hv
    obtain ⟨x, rfl, hv⟩ := hv
    refine ⟨_, by simp only [shape]; rw [wr_false], ?_⟩
    simp only [Rep]
    refine ⟨x, rfl, shape_true_rep g t l n x ht.1 ht.2 hv _ (fun f _ => ?_)⟩
    simp only [named, Tree.kids]
  | .poly kt cls kn, l, n, v, ht, hv, hn => by
    simp only [TypeOK, Val] at ht hv
    rcases hv with hv | ⟨k, x, rfl, -, hk, hx⟩
    · exact absurd hv hn
    refine ⟨_, by simp only [shape]; rw [wr_false], ?_⟩
    simp only [Rep]
    exact .inr ⟨k, x, rfl, poly_rep (ht.2.2 k).1 (ht.2.2 k).2
      (shape_false_rep g kt (l + 1) sType k ht.2.1 hk (by cases kt <;> simp_all [SolidPtr, isPtr]))
      (shapeF_rep g (cls k) l n x (List.nodup_cons.1 (ht.2.2 k).1).2 (ht.2.2 k).2 hx) _
      (fun f => by simp only [named, Tree.kids])⟩
/-- An element that holds, under the names of the members, what is written for a value represents
it. -/
theorem shape_true_rep (g : Cfg) : ∀ (t : XT) (l : Nat) (n : Str) (v : JV), Comp t → TypeOK t →
    Val g t v → ∀ T, (∀ f ∈ names t, named T f =
      (shape g t true l n v).2.filter fun k => k.name == f) → Rep t v T
  | .seq e t, l, n, v, _, ht, hv, T, hT => by
    simp only [TypeOK, Val] at ht hv
    obtain ⟨xs, rfl, hv⟩ := hv
    have := hT e (by simp [names])
    simp only [shape, wr_true, elemsOf] at this
    rw [filter_all (elems_name g t (l + 1) e xs)] at this
    simp only [Rep, elemsOf]
    rw [this]
    refine repL_join xs fun x hx => ?_
    obtain ⟨hvx, hnx⟩ := hv x hx
    cases hp : isPtr t with
    | false =>
      simp only [Bool.false_eq_true, if_false]
      exact shape_false_rep g t (l + 1) e x ht.2 hvx (by cases t <;> simp_all [SolidPtr, isPtr])
    | true =>
      simp only [if_true]
      exact elem_ptr g t (l + 1) e x hp ht.1 ht.2 hvx hnx
  | .assoc lt e t, l, n, v, _, ht, hv, T, hT => by
    simp only [TypeOK, Val] at ht hv
    obtain ⟨xs, rfl, -, hv⟩ := hv
    have := hT e (by simp [names])
    simp only [shape, wr_true, elemsOf] at this
    rw [filter_all (elems_name g t (l + 1) e xs)] at this
    simp only [Rep, elemsOf]
    rw [this]
    refine repL_join xs fun x hx => ?_
    obtain ⟨hvx, hnx⟩ := hv x hx
    cases hp : isPtr t with
    | false =>
      simp only [Bool.false_eq_true, if_false]
      exact shape_false_rep g t (l + 1) e x ht.2 hvx (by cases t <;> simp_all [SolidPtr, isPtr])
    | true =>
      simp only [if_true]
      exact elem_ptr g t (l + 1) e x hp ht.1 ht.2 hvx hnx
  | .struct fs, l, n, v, _, ht, hv, T, hT => by
    simp only [TypeOK, Val] at ht hv
    simp only [Rep]
    simp only [names, shape, wr_true] at hT
    exact shapeF_rep g fs l n v ht.1 ht.2 hv T hT
theorem shapeF_rep (g : Cfg) : ∀ (fs : Fs) (l : Nat) (n : Str) (v : JV), (namesF fs).Nodup →
    TypeOKF fs → ValF g fs v → ∀ T, (∀ f ∈ namesF fs, named T f =
      (shapeF g fs l n v).2.filter fun k => k.name == f) → RepF fs v T
  | .nil, l, n, v, _, _, _, T, _ => by simp only [RepF]
  | .mem m t fs, l, n, v, hnd, ht, hv, T, hT => by
    simp only [namesF, List.nodup_cons, TypeOKF, ValF] at hnd ht hv
    obtain ⟨x, y, rfl, hx, hy⟩ := hv
    simp only [RepF, fstOf, sndOf]
    simp only [shapeF, Shape.add, fstOf, sndOf, namesF, List.mem_cons, List.filter_append] at hT
    constructor
    · have h1 := hT m (.inl rfl)
      rw [filter_all (shape_false_name g t (l + 1) m x), filter_none (l := (shapeF g fs l n y).2) (by
        intro k hk e; subst e; exact hnd.1 (shapeF_names g fs l n y ht.2 k hk)),
        List.append_nil] at h1
      by_cases hnull : isPtr t = true ∧ x = .null
      · refine .inl ⟨hnull.1, hnull.2, ?_⟩
        rw [h1, hnull.2]
        cases t with
        | ptr t => simp [shape]
        | poly kt cls kn => simp [shape]
        | _ => simp [isPtr] at hnull
      · right
        have hnn : SolidPtr t x := by
          cases t with
          | ptr t => exact fun h => hnull ⟨rfl, h⟩
          | poly kt cls kn => exact fun h => hnull ⟨rfl, h⟩
          | _ => exact trivial
        rw [h1]
        exact shape_false_rep g t (l + 1) m x ht.1 hx hnn
    · refine shapeF_rep g fs l n y hnd.2 ht.2 hy T fun f hf => ?_
      rw [hT f (.inr hf), filter_none (l := (shape g t false (l + 1) m x).2) (by
        intro k hk e
        rw [shape_false_name g t (l + 1) m x k hk] at e
        subst e; exact hnd.1 hf), List.nil_append]
  | .base t fs, l, n, v, hnd, ht, hv, T, hT => by
    simp only [namesF, List.nodup_append, TypeOKF, ValF] at hnd ht hv
    obtain ⟨x, y, rfl, hx, hy⟩ := hv
    have hct : Comp t := by cases t <;> simp_all [isStruct, Comp]
    simp only [RepF, fstOf, sndOf]
    simp only [shapeF, Shape.add, fstOf, sndOf, namesF, List.mem_append, List.filter_append] at hT
    constructor
    · refine shape_true_rep g t l n x hct ht.2.1 hx T fun f hf => ?_
      rw [hT f (.inl hf), filter_none (l := (shapeF g fs l n y).2) (by
        intro k hk e; subst e
        exact hnd.2.2 _ hf _ (shapeF_names g fs l n y ht.2.2 k hk) rfl), List.append_nil]
    · refine shapeF_rep g fs l n y hnd.2.1 ht.2.2 hy T fun f hf => ?_
      rw [hT f (.inr hf), filter_none (l := (shape g t true l n x).2) (by
        intro k hk e; subst e
        exact hnd.2.2 _ (shape_true_names g t l n x hct ht.2.1 k hk) _ hf rfl), List.nil_append]
theorem elem_ptr (g : Cfg) : ∀ (t : XT) (l : Nat) (e : Str) (x : JV), isPtr t = true → ElemType t →
    TypeOK t → Val g t x → NotNull t x →
    ∃ U, (wr g false l e (shape g t true l e x)).2 = [U] ∧ Rep t x U
  | .ptr t, l, e, x, _, he, ht, hv, hn => by
    obtain ⟨y, rfl⟩ := hn
    simp only [TypeOK, Val, ElemType] at ht hv he
    rcases hv with hv | ⟨z, hz, hv⟩
    · cases hv
    cases hz
    refine ⟨_, by simp only [wr, Bool.false_eq_true, if_false]; rfl, ?_⟩
    simp only [Rep]
    refine ⟨y, rfl, shape_true_rep g t l e y he ht.2 hv _ fun f _ => ?_⟩
    simp only [named, Tree.kids, shape]
  | .poly kt cls kn, l, e, x, _, he, ht, hv, hn => by
    simp only [TypeOK, Val] at ht hv
    refine ⟨_, by simp only [wr, Bool.false_eq_true, if_false]; rfl, ?_⟩
    simp only [Rep]
    rcases hv with rfl | ⟨k, x, rfl, -, hk, hx⟩
    · exact .inl ⟨rfl, by simp [named, Tree.kids, shape]⟩
    · exact .inr ⟨k, x, rfl, poly_rep (ht.2.2 k).1 (ht.2.2 k).2
        (shape_false_rep g kt (l + 1) sType k ht.2.1 hk (by cases kt <;> simp_all [SolidPtr, isPtr]))
        (shapeF_rep g (cls k) l e x (List.nodup_cons.1 (ht.2.2 k).1).2 (ht.2.2 k).2 hx) _
        (fun f => by simp only [named, Tree.kids, shape, wr_true])⟩
end

/-! ### Unpacking -/

theorem eachN_spec {f : Nat → Option JV} : ∀ (l : List JV) (j : Nat),
    (∀ i x, l[i]? = some x → f (j + i) = some x) → eachN f l.length j = some l
  | [], _, _ => rfl
  | a :: l, j, h => by
    have h0 := h 0 a (by simp)
    rw [Nat.add_zero] at h0
    have ih := eachN_spec l (j + 1) (fun i x hx => by
      have := h (i + 1) x (by simpa using hx)
      rw [show j + 1 + i = j + (i + 1) from by omega]; exact this)
    simp [eachN, h0, ih]

theorem RepL.length {f : JV → Tree → Prop} : ∀ {xs : List JV} {ks : List Tree}, RepL f xs ks →
    ks.length = xs.length
  | [], [], _ => rfl
  | x :: xs, k :: ks, h => by simp [RepL.length h.2]
  | [], k :: ks, h => h.elim
  | x :: xs, [], h => h.elim

theorem RepL.get {f : JV → Tree → Prop} : ∀ {xs : List JV} {ks : List Tree}, RepL f xs ks →
    ∀ (i : Nat) (x : JV), xs[i]? = some x → ∃ k, ks[i]? = some k ∧ f x k
  | [], [], _, i, x, h => by simp at h
  | a :: xs, k :: ks, h, i, x, hx => by
    cases i with
    | zero => simp at hx; subst hx; exact ⟨k, by simp, h.1⟩
    | succ i => simpa using RepL.get h.2 i x (by simpa using hx)
  | [], k :: ks, h, _, _, _ => h.elim
  | x :: xs, [], h, _, _, _ => h.elim

theorem insertBy_last {lt : JV → JV → Bool} {x : JV} : ∀ {l : List JV},
    (∀ y ∈ l, lt y x = true ∧ lt x y = false) → insertBy lt x l = l ++ [x]
  | [], _ => rfl
  | y :: l, h => by
    have h1 := h y (by simp)
    simp only [insertBy, h1.1, h1.2, Bool.false_eq_true, if_false, if_true, List.cons_append]
    rw [insertBy_last fun z hz => h z (by simp [hz])]

theorem foldl_insertBy {lt : JV → JV → Bool} : ∀ (l acc : List JV),
    (acc ++ l).Pairwise (fun a b => lt a b = true ∧ lt b a = false) →
    l.foldl (fun s x => insertBy lt x s) acc = acc ++ l
  | [], acc, _ => by simp
  | x :: l, acc, h => by
    have h1 : insertBy lt x acc = acc ++ [x] := insertBy_last fun y hy =>
      (List.pairwise_append.1 h).2.2 y hy x (by simp)
    simp only [List.foldl_cons, h1]
    rw [foldl_insertBy l (acc ++ [x]) (by simpa using h)]
    simp

theorem getText_loc {miss : Bool} {m : DB} {q : Path} {T : Tree} {d : Str} (hl : Loc m q (some T))
    (hk : Keys d q) (hne : T.txt ≠ []) : getText miss m d = some (some T.txt) := by
  unfold getText
  rw [hk.noughts, hl.text]
  simp [text?, hne]

theorem getText_none {m : DB} {q : Path} {T : Tree} {d : Str} (hl : Loc m q (some T))
    (hk : Keys d q) (hne : T.txt = []) : getText false m d = some none := by
  unfold getText
  rw [hk.noughts, hl.text]
  simp [text?, hne]

theorem count_mem {m : DB} {q : Path} {T : Tree} {d n : Str} (hl : Loc m q (some T))
    (hk : Keys d q) (hn : KeyName n) : count m (d ++ dot :: n) = (named T n).length := by
  unfold count
  rw [(hk.mem hn).strip, hl.count hn]; rfl

theorem count_elem {m : DB} {q : Path} {T : Tree} {d n : Str} (hl : Loc m q (some T))
    (hk : Keys d q) (hn : KeyName n) (i : Nat) :
    count m (idx (d ++ dot :: n) i) = (named T n).length := by
  unfold count
  rw [(hk.elem hn i).strip, hl.count hn]; rfl

theorem sel_named {T : Tree} {n : Str} {i : Nat} {k : Tree} (h : (named T n)[i]? = some k) :
    sel T.kids n i = some k := h

theorem elems_unpack {miss : Bool} {m : DB} {q : Path} {T : Tree} {d e : Str} {t : XT}
    {xs : List JV} (hl : Loc m q (some T)) (hk : Keys d q) (he : KeyName e)
    (hr : RepL (fun x k => Rep t x k) xs (named T e))
    (ih : ∀ x ∈ xs, ∀ q T d, Rep t x T → Loc m q (some T) → Keys d q → existsK m d = true →
      unpackX miss m t d (dflt t) = some x) :
    eachN (fun i => unpackX miss m t (idx (d ++ dot :: e) i) (dflt t)) (count m (d ++ dot :: e)) 0 =
      some xs := by
  rw [count_mem hl hk he, hr.length]
  refine eachN_spec xs 0 fun i x hx => ?_
  obtain ⟨k, h1, h2⟩ := hr.get i x hx
  rw [Nat.zero_add]
  have hloc := hl.kid (n := e) (i := i) he
  rw [sel_named h1] at hloc
  refine ih x (List.mem_of_getElem? hx) _ k _ h2 hloc (hk.elem he i) ?_
  unfold existsK
  rw [count_elem hl hk he]
  have := List.getElem?_eq_some_iff.1 h1
  obtain ⟨hlt, -⟩ := this
  simp; omega

mutual
theorem unpack_rep {g : Cfg} {miss : Bool} {m : DB} : ∀ (t : XT) (v old : JV) (q : Path) (T : Tree)
    (d : Str), TypeOK t → NamesOK t → Val g t v → Fit miss t v old → Rep t v T →
    Loc m q (some T) → Keys d q → existsK m d = true → unpackX miss m t d old = some v
  | .bool, v, old, q, T, d, _, _, hv, _, hr, hl, hk, _ => by
    simp only [Val, Rep] at hv hr
    obtain ⟨b, rfl⟩ := hv
    simp only [boolOf] at hr
    rw [unpackX, getText_loc hl hk (by rw [hr]; exact boolText_ne b), hr]
    simp [readBool_text]
  | .int u, v, old, q, T, d, _, _, hv, _, hr, hl, hk, _ => by
    simp only [Val, Rep] at hv hr
    obtain ⟨i, rfl, hi⟩ := hv
    simp only [intOf] at hr
    rw [unpackX, getText_loc hl hk (by rw [hr]; exact decI_ne i), hr]
    simp [readInt_decI hi]
  | .chr, v, old, q, T, d, _, _, hv, hf, hr, hl, hk, _ => by
    simp only [Val, Rep, Fit] at hv hr hf
    obtain ⟨c, rfl, -⟩ := hv
    have hc := hf c (by simp [bytesOf])
    simp only [bytesOf] at hr
    rw [unpackX, getText_loc hl hk (by rw [hr]; simp), hr]
    simp [readChar, hc]
  | .byte, v, old, q, T, d, _, _, hv, hf, hr, hl, hk, _ => by
    simp only [Val, Rep, Fit] at hv hr hf
    obtain ⟨c, rfl⟩ := hv
    have hc := hf c (by simp [bytesOf])
    simp only [bytesOf] at hr
    rw [unpackX, getText_loc hl hk (by rw [hr]; simp), hr]
    simp [readChar, hc]
  | .str, v, old, q, T, d, _, _, hv, hf, hr, hl, hk, _ => by
    simp only [Val, Rep, Fit] at hv hr hf
    obtain ⟨s, rfl, -⟩ := hv
    simp only [bytesOf] at hr hf
    by_cases hs : s = []
    · obtain ⟨rfl, rfl⟩ := hf.resolve_left (fun h => h hs)
      rw [unpackX, getText_none hl hk (by rw [hr, hs])]; rfl
    · rw [unpackX, getText_loc hl hk (by rw [hr]; exact hs), hr]; rfl
  | .cdata, v, old, q, T, d, _, _, hv, hf, hr, hl, hk, _ => by
    simp only [Val, Rep, Fit] at hv hr hf
    obtain ⟨-, s, rfl⟩ := hv
    simp only [bytesOf] at hr hf
    by_cases hs : s = []
    · obtain ⟨rfl, rfl⟩ := hf.resolve_left (fun h => h hs)
      rw [unpackX, getText_none hl hk (by rw [hr, hs])]; rfl
    · rw [unpackX, getText_loc hl hk (by rw [hr]; exact hs), hr]; rfl
  | .seq e t, v, old, q, T, d, ht, hN, hv, hf, hr, hl, hk, _ => by
    simp only [TypeOK, NamesOK, Val, Rep, Fit] at ht hN hv hr hf
    obtain ⟨xs, rfl, hv⟩ := hv
    simp only [elemsOf] at hr hf
    rw [unpackX, elems_unpack hl hk hN.1.key hr (fun x hx q T d h1 h2 h3 h4 =>
      unpack_rep t x (dflt t) q T d ht.2 hN.2 (hv x hx).1 (hf x hx) h1 h2 h3 h4)]
    rfl
  | .assoc lt e t, v, old, q, T, d, ht, hN, hv, hf, hr, hl, hk, _ => by
    simp only [TypeOK, NamesOK, Val, Rep, Fit] at ht hN hv hr hf
    obtain ⟨xs, rfl, hs, hv⟩ := hv
    simp only [elemsOf] at hr hf
    rw [unpackX]
    simp only [if_neg hk.ne_nil]
    rw [elems_unpack hl hk hN.1.key hr (fun x hx q T d h1 h2 h3 h4 =>
      unpack_rep t x (dflt t) q T d ht.2 hN.2 (hv x hx).1 (hf x hx) h1 h2 h3 h4)]
    simp only [Option.map_some, Option.some.injEq, JV.seq.injEq]
    exact foldl_insertBy xs [] (by simpa using hs)
  | .struct fs, v, old, q, T, d, ht, hN, hv, hf, hr, hl, hk, hx => by
    simp only [TypeOK, NamesOK, Val, Rep, Fit] at ht hN hv hr hf
    rw [unpackX]
    exact unpackF_rep fs v old q T d ht.2 hN hv hf hr hl hk hx
  | .ptr t, v, old, q, T, d, ht, hN, hv, hf, hr, hl, hk, hx => by
    simp only [TypeOK, NamesOK, Val, Rep] at ht hN hv hr
    obtain ⟨x, rfl, hr⟩ := hr
    rcases hv with hv | ⟨y, hy, hv⟩
    · cases hv
    cases hy
    simp only [Fit] at hf
    rw [unpackX]
    simp only [hx, if_true]
    rw [unpack_rep t x (dflt t) q T d ht.2 hN hv hf hr hl hk hx]
    rfl
  | .ref t, v, old, q, T, d, ht, hN, hv, hf, hr, hl, hk, hx => by
    simp only [TypeOK, NamesOK, Val, Rep] at ht hN hv hr
    obtain ⟨x, rfl, hr⟩ := hr
    obtain ⟨y, hy, hv⟩ := hv
    cases hy
    cases old with
    | ptr o =>
      simp only [Fit] at hf
      rw [unpackX, unpack_rep t x o q T d ht.2 hN hv hf hr hl hk hx]
      simp [hx]
    | _ =>
      simp only [Fit] at hf
      rw [unpackX, unpack_rep t x (dflt t) q T d ht.2 hN hv hf hr hl hk hx]
      · simp [hx]
      · intro _ h; cases h
  | .poly kt cls kn, v, old, q, T, d, ht, hN, hv, hf, hr, hl, hk, hx => by
    simp only [TypeOK, NamesOK, Val, Rep] at ht hN hv hr
    rcases hr with ⟨rfl, hnil⟩ | ⟨k, x, rfl, ⟨U, hU, hrU⟩, hrx⟩
    · have : existsK m (d ++ dot :: sType) = false := by
        unfold existsK; rw [count_mem hl hk sType_name.key, hnil]; rfl
      rw [unpackX, this]; rfl
    · rcases hv with hv | ⟨k', x', he, hkn, hvk, hvx⟩
      · cases hv
      cases he
      simp only [Fit] at hf
      have hex : existsK m (d ++ dot :: sType) = true := by
        unfold existsK; rw [count_mem hl hk sType_name.key, hU]; rfl
      have hloc := hl.kid (n := sType) (i := 0) sType_name.key
      rw [sel_named (k := U) (by rw [hU]; rfl)] at hloc
      rw [unpackX, hex, unpack_rep kt k (dflt kt) _ U _ ht.2.1 hN.1 hvk hf.1 hrU hloc
        (hk.mem sType_name.key) hex]
      simp only [if_true, Option.bind_some, hkn]
      rw [unpackF_rep (cls k) x (dfltF (cls k)) q T d (ht.2.2 k).2 (hN.2 k) hvx hf.2 hrx hl hk hx]
      rfl
theorem unpackF_rep {g : Cfg} {miss : Bool} {m : DB} : ∀ (fs : Fs) (v old : JV) (q : Path) (T : Tree)
    (d : Str), TypeOKF fs → NamesOKF fs → ValF g fs v → FitF miss fs v old → RepF fs v T →
    Loc m q (some T) → Keys d q → existsK m d = true → unpackF miss m fs d old = some v
  | .nil, v, old, q, T, d, _, _, hv, _, _, _, _, _ => by
    simp only [ValF] at hv; subst hv; rfl
  | .mem n t fs, v, old, q, T, d, ht, hN, hv, hf, hr, hl, hk, hx => by
    simp only [TypeOKF, NamesOKF, ValF, RepF, FitF] at ht hN hv hr hf
    obtain ⟨x, y, rfl, hvx, hvy⟩ := hv
    simp only [fstOf, sndOf] at hr hf
    have hn := hN.1.key
    have h1 : unpackX miss m t (d ++ dot :: n) (fstOf old) = some x := by
      rcases hr.1 with ⟨hp, hnull, hnil⟩ | ⟨U, hU, hrU⟩
      · cases t with
        | ptr t =>
          have : existsK m (d ++ dot :: n) = false := by
            unfold existsK; rw [count_mem hl hk hn, hnil]; rfl
          rw [unpackX, hnull]; simp [this]
        | poly kt cls kn =>
          have hloc := hl.kid (n := n) (i := 0) hn
          rw [show sel T.kids n 0 = none from by rw [show sel T.kids n 0 = (named T n)[0]? from rfl, hnil]; rfl]
            at hloc
          have : existsK m ((d ++ dot :: n) ++ dot :: sType) = false := by
            unfold existsK count
            rw [((hk.mem hn).mem sType_name.key).strip]
            have := (hloc [] VP.nil).1 sType sType_name.key
            simp only [List.append_nil] at this
            rw [this]; rfl
          rw [unpackX, hnull, this]; rfl
        | _ => simp [isPtr] at hp
      · have hloc := hl.kid (n := n) (i := 0) hn
        rw [sel_named (k := U) (by rw [hU]; rfl)] at hloc
        refine unpack_rep t x (fstOf old) _ U _ ht.1 hN.2.1 hvx ?_ hrU hloc (hk.mem hn) ?_
        · cases old <;> exact hf.1
        · unfold existsK; rw [count_mem hl hk hn, hU]; rfl
    rw [unpackF, h1]
    simp only [Option.bind_some]
    rw [unpackF_rep fs y (sndOf old) q T d ht.2 hN.2.2 hvy (by cases old <;> exact hf.2) hr.2 hl hk hx]
    rfl
  | .base t fs, v, old, q, T, d, ht, hN, hv, hf, hr, hl, hk, hx => by
    simp only [TypeOKF, NamesOKF, ValF, RepF, FitF] at ht hN hv hr hf
    obtain ⟨x, y, rfl, hvx, hvy⟩ := hv
    simp only [fstOf, sndOf] at hr hf
    rw [unpackF, unpack_rep t x (fstOf old) q T d ht.2.1 hN.1 hvx (by cases old <;> exact hf.1) hr.1 hl
      hk hx]
    simp only [Option.bind_some]
    rw [unpackF_rep fs y (sndOf old) q T d ht.2.2 hN.2 hvy (by cases old <;> exact hf.2) hr.2 hl hk hx]
    rfl
end

end Verif.Xml
