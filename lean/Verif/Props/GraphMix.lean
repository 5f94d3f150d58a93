import Verif.GraphMix
/- C107 -/
namespace Verif.GraphMix

/-! ### Specification -/

/-- A member of a copy and of the original, `cls` being the classes of the objects of the copy and `φ` what they are copies of. -/
def C107.Same (cls φ : List Nat) : Fld → Fld → Prop
  | .data n, .data m => n = m
  | .ptr c none, .ptr d none => c = d
  | .ptr c (some i), .ptr d (some a) => c = d ∧ cls[i]? = some c ∧ φ[i]? = some a
  | _, _ => False

/-- Member by member. -/
def C107.Pair (R : Fld → Fld → Prop) (l m : List Fld) : Prop :=
  l.length = m.length ∧ ∀ (j : Nat) (f g : Fld), l[j]? = some f → m[j]? = some g → R f g

/-- Every object is a copy of one of the graph, pointers leading to copies of what they led to. -/
def C107.Copy (G : Nat → Nat → List Fld) (cls : List Nat) (cell : Nat → List Fld) (φ : List Nat) : Prop :=
  φ.length = cls.length ∧ ∀ (i c a : Nat), cls[i]? = some c → φ[i]? = some a → C107.Pair (C107.Same cls φ) (cell i) (G c a)

open C107

private theorem Pair.nil {R} : Pair R [] [] := ⟨rfl, by simp⟩

private theorem Pair.cons {R : Fld → Fld → Prop} {f g l m} (h : R f g) (h' : Pair R l m) : Pair R (f :: l) (g :: m) := by
  refine ⟨by simp [h'.1], fun j a b ha hb => ?_⟩
  cases j with
  | zero => simp at ha hb; subst ha hb; exact h
  | succ j => simp at ha hb; exact h'.2 j a b ha hb

private theorem get_app {l m : List Nat} {i a : Nat} (h : l[i]? = some a) : (l ++ m)[i]? = some a := by
  rw [List.getElem?_append_left]
  · exact h
  · exact (List.getElem?_eq_some_iff.1 h).1

private theorem Same.mono {cls φ cls' φ' : List Nat} (h1 : ∃ l, cls' = cls ++ l) (h2 : ∃ l, φ' = φ ++ l) {f g : Fld} (h : Same cls φ f g) :
    Same cls' φ' f g := by
  obtain ⟨l, rfl⟩ := h1
  obtain ⟨m, rfl⟩ := h2
  cases f with
  | data n => cases g <;> exact h
  | ptr c p =>
    cases g with
    | data => cases p <;> exact h
    | ptr d q =>
      cases p with
      | none => cases q <;> exact h
      | some i =>
        cases q with
        | none => exact h
        | some a => exact ⟨h.1, get_app h.2.1, get_app h.2.2⟩

private theorem Pair.mono {R S : Fld → Fld → Prop} (hr : ∀ f g, R f g → S f g) {l m} (h : Pair R l m) : Pair S l m :=
  ⟨h.1, fun j f g hf hg => hr f g (h.2 j f g hf hg)⟩

/-- The tables of the two sides. -/
private structure Rel (rmax : Nat) (lv : Levels) (st : PSt) (us : USt) (φ : List Nat) : Prop where
  len : φ.length = us.cls.length
  fwd : ∀ (c k a : Nat), (st.map c)[k]? = some a → ∃ n, us.map c (k + 1) = some n ∧ us.cls[n]? = some c ∧ φ[n]? = some a
  bwd : ∀ c id, us.map c id ≠ none → 1 ≤ id ∧ id ≤ (st.map c).length
  nodup : ∀ c, (st.map c).Nodup
  idle : ∀ c, lv c = 0 → st.map c = []
  rm : ∀ c, 0 < lv c → us.rmax = rmax

/-- What a call does. -/
private structure Ext (G : Nat → Nat → List Fld) (lv : Levels) (us us' : USt) (φ φ' : List Nat) : Prop where
  lab : ∃ l, φ' = φ ++ l
  cls : ∃ l, us'.cls = us.cls ++ l
  old : ∀ i, i < us.cls.length → us'.cell i = us.cell i
  good : ∀ (i c a : Nat), us.cls.length ≤ i → us'.cls[i]? = some c → φ'[i]? = some a → Pair (Same us'.cls φ') (us'.cell i) (G c a)
  kept : ∀ (i c : Nat), us.cls.length ≤ i → us'.cls[i]? = some c → 0 < lv c → ∃ id, us'.map c id = some i
  mono : ∀ c id n, 0 < lv c → us.map c id = some n → us'.map c id = some n

private theorem Ext.refl {G lv us φ} (_ : φ.length = us.cls.length) {us' : USt} (h1 : us'.cls = us.cls) (h2 : us'.cell = us.cell) (h3 : us'.map = us.map) :
    Ext G lv us us' φ φ where
  lab := ⟨[], by simp⟩
  cls := ⟨[], by simp [h1]⟩
  old := fun i _ => by rw [h2]
  good := fun i c a hi hc _ => by
    rw [h1] at hc
    have := (List.getElem?_eq_some_iff.1 hc).1
    omega
  kept := fun i c hi hc _ => by
    rw [h1] at hc
    have := (List.getElem?_eq_some_iff.1 hc).1
    omega
  mono := fun c id n _ h => by rw [h3]; exact h

private theorem Ext.trans {G lv us us1 us2 φ φ1 φ2} (h : Ext G lv us us1 φ φ1) (h' : Ext G lv us1 us2 φ1 φ2) (hl : φ1.length = us1.cls.length) :
    Ext G lv us us2 φ φ2 := by
  obtain ⟨l, el⟩ := h.lab
  obtain ⟨m, em⟩ := h'.lab
  obtain ⟨k, ek⟩ := h.cls
  obtain ⟨k', ek'⟩ := h'.cls
  refine ⟨⟨l ++ m, by rw [em, el, List.append_assoc]⟩, ⟨k ++ k', by rw [ek', ek, List.append_assoc]⟩, ?_, ?_, ?_, ?_⟩
  · intro i hi
    rw [h'.old i (by rw [ek]; simp; omega), h.old i hi]
  · intro i c a hi hc ha
    by_cases hlt : i < us1.cls.length
    · have hc1 : us1.cls[i]? = some c := by rw [ek', List.getElem?_append_left hlt] at hc; exact hc
      have ha1 : φ1[i]? = some a := by rw [em, List.getElem?_append_left (by omega)] at ha; exact ha
      rw [h'.old i hlt]
      exact Pair.mono (fun f g => Same.mono h'.cls h'.lab) (h.good i c a hi hc1 ha1)
    · exact h'.good i c a (by omega) hc ha
  · intro i c hi hc hv
    by_cases hlt : i < us1.cls.length
    · have hc1 : us1.cls[i]? = some c := by rw [ek', List.getElem?_append_left hlt] at hc; exact hc
      obtain ⟨id, e⟩ := h.kept i c hi hc1 hv
      exact ⟨id, h'.mono c id i hv e⟩
    · exact h'.kept i c (by omega) hc hv
  · intro c id n hv e
    exact h'.mono c id n hv (h.mono c id n hv e)

/-- Packing and unpacking a pointer correspond. -/
private def Sim (G : Nat → Nat → List Fld) (rmax : Nat) (lv : Levels) (f : Nat → Option Nat → PSt → Option PSt) (g : Nat → USt → Option (Option Nat × USt)) : Prop :=
  ∀ c p st st', f c p st = some st' → ∃ w, st'.out = st.out ++ w ∧ ∀ us φ rest, Rel rmax lv st us φ → us.inp = w ++ rest →
    ∃ v us' φ', g c us = some (v, us') ∧ Rel rmax lv st' us' φ' ∧ us'.inp = rest ∧ Ext G lv us us' φ φ' ∧ Same us'.cls φ' (.ptr c v) (.ptr c p)

private theorem Rel.inp {rmax lv st us φ} (h : Rel rmax lv st us φ) (st2 : PSt) (e : st2.map = st.map) (i : List Nat) :
    Rel rmax lv st2 { us with inp := i } φ :=
  ⟨h.len, by rw [e]; exact h.fwd, by rw [e]; exact h.bwd, by rw [e]; exact h.nodup, by rw [e]; exact h.idle, h.rm⟩

private theorem fields_sim {G rmax lv f g} (hs : Sim G rmax lv f g) : ∀ (fs : List Fld) (st st' : PSt), packFields f fs st = some st' →
    ∃ w, st'.out = st.out ++ w ∧ ∀ us φ rest, Rel rmax lv st us φ → us.inp = w ++ rest →
    ∃ l us' φ', unpackFields g (fs.map Fld.kind) us = some (l, us') ∧ Rel rmax lv st' us' φ' ∧ us'.inp = rest ∧ Ext G lv us us' φ φ' ∧
      Pair (Same us'.cls φ') l fs
  | [], st, st', h => by
    simp only [packFields, Option.some.injEq] at h
    subst h
    refine ⟨[], by simp, fun us φ rest hr hi => ⟨[], us, φ, rfl, hr, hi, Ext.refl hr.len rfl rfl rfl, Pair.nil⟩⟩
  | .data n :: fs, st, st', h => by
    simp only [packFields] at h
    obtain ⟨w, ew, hw⟩ := fields_sim hs fs _ _ h
    refine ⟨n :: w, by rw [ew]; simp [PSt.emit], fun us φ rest hr hi => ?_⟩
    obtain ⟨l, us', φ', e, hr', hi', he, hp⟩ := hw { us with inp := w ++ rest } φ rest (hr.inp (st.emit n) rfl _) rfl
    refine ⟨.data n :: l, us', φ', ?_, hr', hi', ?_, Pair.cons rfl hp⟩
    · simp [unpackFields, read, hi, Fld.kind, e]
    · exact Ext.trans (us1 := { us with inp := w ++ rest }) (Ext.refl hr.len rfl rfl rfl) he hr.len
  | .ptr c p :: fs, st, st', h => by
    simp only [packFields] at h
    cases e1 : f c p st with
    | none => rw [e1] at h; cases h
    | some st1 =>
      rw [e1] at h
      obtain ⟨w, ew, hw⟩ := hs c p st st1 e1
      obtain ⟨w', ew', hw'⟩ := fields_sim hs fs st1 st' h
      refine ⟨w ++ w', by rw [ew', ew, List.append_assoc], fun us φ rest hr hi => ?_⟩
      rw [List.append_assoc] at hi
      obtain ⟨v, us1, φ1, e2, hr1, hi1, he1, hv⟩ := hw us φ _ hr hi
      obtain ⟨l, us2, φ2, e3, hr2, hi2, he2, hp⟩ := hw' us1 φ1 rest hr1 hi1
      refine ⟨.ptr c v :: l, us2, φ2, ?_, hr2, hi2, he1.trans he2 hr1.len, Pair.cons (Same.mono he2.cls he2.lab hv) hp⟩
      simp [unpackFields, Fld.kind, e2, e3]

private theorem body_sim {G : Nat → Nat → List Fld} {K : Nat → List Kind} (hK : ∀ c a, (G c a).map Fld.kind = K c) {rmax lv f g} (hs : Sim G rmax lv f g)
    (c : Nat) (hc : 0 < lv c) (p : Option Nat) (st st' : PSt) (h : packBody G f c p st = some st') :
    ∃ w, st'.out = st.out ++ w ∧ ∀ us φ rest, Rel rmax lv st us φ → us.inp = w ++ rest →
    ∃ v us' φ', unpackBody K g c us = some (v, us') ∧ Rel rmax lv st' us' φ' ∧ us'.inp = rest ∧ Ext G lv us us' φ φ' ∧
      Same us'.cls φ' (.ptr c v) (.ptr c p) := by
  unfold packBody at h
  cases p with
  | none =>
    simp only [Option.some.injEq] at h
    subst h
    refine ⟨[0], rfl, fun us φ rest hr hi => ⟨none, { us with inp := rest }, φ, ?_, hr.inp (st.emit 0) rfl _, rfl, Ext.refl hr.len rfl rfl rfl, rfl⟩⟩
    simp [unpackBody, read, hi]
  | some a =>
    simp only at h
    cases e : (st.map c).idxOf? a with
    | some i =>
      rw [e] at h
      simp only [Option.some.injEq] at h
      subst h
      refine ⟨[i + 1], rfl, fun us φ rest hr hi => ?_⟩
      have ha : (st.map c)[i]? = some a := by
        rw [List.idxOf?, List.findIdx?_eq_some_iff_getElem] at e
        obtain ⟨hi, h1, _⟩ := e
        rw [List.getElem?_eq_getElem hi]
        simpa using h1
      obtain ⟨n, h1, h2, h3⟩ := hr.fwd c i a ha
      refine ⟨some n, { us with inp := rest }, φ, ?_, hr.inp (st.emit (i + 1)) rfl _, rfl, Ext.refl hr.len rfl rfl rfl, rfl, h2, h3⟩
      simp [unpackBody, read, hi, h1]
    | none =>
      rw [e] at h
      simp only at h
      have hna : a ∉ st.map c := by
        intro hm
        rw [List.idxOf?, List.findIdx?_eq_none_iff] at e
        simpa using e a hm
      obtain ⟨w, ew, hw⟩ := fields_sim hs _ _ _ h
      refine ⟨((st.map c).length + 1) :: w, by rw [ew]; simp [PSt.emit, PSt.add], fun us φ rest hr hi => ?_⟩
      have hno : us.map c ((st.map c).length + 1) = none := by
        cases e : us.map c ((st.map c).length + 1) with
        | none => rfl
        | some n =>
          have := (hr.bwd c _ (by rw [e]; simp)).2
          omega
      have us0e : ∃ us0, us0 = ({ us with inp := w ++ rest } : USt).alloc c ((st.map c).length + 1) := ⟨_, rfl⟩
      obtain ⟨us0, us0e⟩ := us0e
      have hr0 : Rel rmax lv ((st.add c a).emit ((st.map c).length + 1)) us0 (φ ++ [a]) := by
        subst us0e
        refine ⟨by simp [USt.alloc, hr.len], ?_, ?_, ?_, ?_, hr.rm⟩
        · intro d k x hx
          simp only [PSt.emit, PSt.add] at hx
          by_cases hd : d = c
          · subst hd
            simp only [if_true] at hx
            by_cases hk : k < (st.map d).length
            · rw [List.getElem?_append_left hk] at hx
              obtain ⟨n, h1, h2, h3⟩ := hr.fwd d k x hx
              refine ⟨n, ?_, get_app h2, get_app h3⟩
              simp only [USt.alloc]
              rw [if_neg (by omega)]
              exact h1
            · have hk' := (List.getElem?_eq_some_iff.1 hx).1
              simp at hk'
              have : k = (st.map d).length := by omega
              subst this
              simp at hx
              subst hx
              refine ⟨us.cls.length, by simp [USt.alloc], by simp [USt.alloc], ?_⟩
              rw [← hr.len]; simp
          · simp only [hd, if_false] at hx
            obtain ⟨n, h1, h2, h3⟩ := hr.fwd d k x hx
            refine ⟨n, ?_, get_app h2, get_app h3⟩
            simp [USt.alloc, hd, h1]
        · intro d id hid
          simp only [USt.alloc] at hid
          simp only [PSt.emit, PSt.add]
          by_cases hd : d = c
          · subst hd
            by_cases hi : id = (st.map d).length + 1
            · subst hi; simp
            · simp only [hi, and_false, if_false] at hid
              have := hr.bwd d id hid
              simp
              omega
          · simp only [hd, false_and, if_false] at hid ⊢
            exact hr.bwd d id hid
        · intro d
          simp only [PSt.emit, PSt.add]
          by_cases hd : d = c
          · subst hd
            simp only [if_true]
            rw [List.nodup_append]
            refine ⟨hr.nodup d, by simp, ?_⟩
            intro x hx y hy
            simp at hy
            subst hy
            rintro rfl
            exact hna hx
          · simp only [hd, if_false]; exact hr.nodup d
        · intro d hd
          have : d ≠ c := by rintro rfl; omega
          simp only [PSt.emit, PSt.add, this, if_false]
          exact hr.idle d hd
      obtain ⟨l, us1, φ1, e3, hr1, hi1, he1, hp⟩ := hw us0 (φ ++ [a]) rest hr0 (by rw [us0e]; rfl)
      have c0 : us0.cls = us.cls ++ [c] := by rw [us0e]; rfl
      obtain ⟨k, ek⟩ := he1.cls
      obtain ⟨m, em⟩ := he1.lab
      have hcn : us1.cls[us.cls.length]? = some c := by rw [ek, c0]; simp
      have hφn : φ1[us.cls.length]? = some a := by rw [em, ← hr.len]; simp
      refine ⟨some us.cls.length, us1.store us.cls.length l, φ1, ?_, ?_, hi1, ?_, rfl, hcn, hφn⟩
      · simp only [unpackBody, read, hi, List.cons_append, Option.bind_some]
        rw [if_neg (by simp)]
        simp only [hno]
        rw [← us0e, ← hK c a, e3]
        rfl
      · exact ⟨hr1.len, hr1.fwd, hr1.bwd, hr1.nodup, hr1.idle, hr1.rm⟩
      · refine ⟨⟨[a] ++ m, by rw [em, List.append_assoc]⟩, ⟨[c] ++ k, by show us1.cls = _; rw [ek, c0, List.append_assoc]⟩, ?_, ?_, ?_, ?_⟩
        · intro i hi
          simp only [USt.store]
          rw [if_neg (by omega), he1.old i (by rw [c0]; simp; omega), us0e]
          rfl
        · intro i d x hi hd hx
          simp only [USt.store] at hd ⊢
          by_cases hn : i = us.cls.length
          · subst hn
            rw [hcn] at hd; cases hd
            rw [hφn] at hx; cases hx
            simp only [if_true]
            exact hp
          · rw [if_neg hn]
            exact he1.good i d x (by rw [c0]; simp; omega) hd hx
        · intro i d hi hd hv
          by_cases hn : i = us.cls.length
          · subst hn
            have hd : us1.cls[us.cls.length]? = some d := hd
            rw [hcn] at hd; cases hd
            exact ⟨(st.map c).length + 1, he1.mono c _ _ hv (by rw [us0e]; simp [USt.alloc])⟩
          · exact he1.kept i d (by rw [c0]; simp; omega) hd hv
        · intro d id n hv hn
          refine he1.mono d id n hv ?_
          rw [us0e]
          simp only [USt.alloc]
          rw [if_neg]
          · exact hn
          · rintro ⟨rfl, rfl⟩
            rw [hno] at hn; cases hn

private theorem Rel.up {rmax lv st us φ} (h : Rel rmax lv st us φ) (c : Nat) (hr : us.rmax = rmax) : Rel rmax (lv.up c) st us φ := by
  refine ⟨h.len, h.fwd, h.bwd, h.nodup, ?_, fun _ _ => hr⟩
  intro d hd
  refine h.idle d ?_
  simp only [Levels.up] at hd
  split at hd <;> omega

/-- Before the table is cleared. -/
private theorem open_sim {G : Nat → Nat → List Fld} {K : Nat → List Kind} (hK : ∀ c a, (G c a).map Fld.kind = K c) {rmax lv f g c} (hs : Sim G rmax (lv.up c) f g)
    (p : Option Nat) (st st' : PSt) (h : packBody G f c p (if lv c = 0 then st.emit rmax else st) = some st') :
    ∃ w, st'.out = st.out ++ w ∧ ∀ us φ rest, Rel rmax lv st us φ → us.inp = w ++ rest →
    ∃ v us0 us' φ', (if lv c = 0 then (read us).map fun x => { x.2 with rmax := x.1 } else some us) = some us0 ∧ us0.rmax = rmax ∧
      unpackBody K g c us0 = some (v, us') ∧ Rel rmax (lv.up c) st' us' φ' ∧ us'.inp = rest ∧ Ext G (lv.up c) us us' φ φ' ∧
      Same us'.cls φ' (.ptr c v) (.ptr c p) := by
  obtain ⟨w, ew, hw⟩ := body_sim hK hs c (by simp [Levels.up]) p _ _ h
  by_cases h0 : lv c = 0
  · simp only [h0, if_true] at ew hw ⊢
    refine ⟨rmax :: w, by rw [ew]; simp [PSt.emit], fun us φ rest hr hi => ?_⟩
    have hr0 : Rel rmax lv (st.emit rmax) { us with inp := w ++ rest, rmax := rmax } φ :=
      ⟨hr.len, hr.fwd, hr.bwd, hr.nodup, hr.idle, fun _ _ => rfl⟩
    obtain ⟨v, us', φ', e, hr', hi', he, hv⟩ := hw { us with inp := w ++ rest, rmax := rmax } φ rest (hr0.up c rfl) rfl
    refine ⟨v, { us with inp := w ++ rest, rmax := rmax }, us', φ', by simp [read, hi], rfl, e, hr', hi', Ext.trans (us1 := { us with inp := w ++ rest, rmax := rmax }) (Ext.refl hr.len rfl rfl rfl) he hr.len, hv⟩
  · simp only [h0, if_false] at ew hw ⊢
    refine ⟨w, ew, fun us φ rest hr hi => ?_⟩
    have hm := hr.rm c (by omega)
    obtain ⟨v, us', φ', e, hr', hi', he, hv⟩ := hw us φ rest (hr.up c hm) hi
    exact ⟨v, us, us', φ', rfl, hm, e, hr', hi', he, hv⟩

private theorem ptr_sim {G : Nat → Nat → List Fld} {K : Nat → List Kind} (hK : ∀ c a, (G c a).map Fld.kind = K c) (rmax : Nat) :
    ∀ (fuel : Nat) (lv : Levels), Sim G rmax lv (packPtr G rmax fuel lv) (unpackPtr K fuel lv)
  | 0, lv => by intro c p st st' h; simp [packPtr] at h
  | fuel + 1, lv => by
    intro c p st st' h
    simp only [packPtr] at h
    split at h
    · cases h
    rename_i hlim
    rw [Option.map_eq_some_iff] at h
    obtain ⟨st1, h1, rfl⟩ := h
    obtain ⟨w, ew, hw⟩ := open_sim hK (ptr_sim hK rmax fuel (lv.up c)) p st st1 h1
    refine ⟨w, by split <;> exact ew, fun us φ rest hr hi => ?_⟩
    obtain ⟨v, us0, us', φ', e0, hm, e, hr', hi', he, hv⟩ := hw us φ rest hr hi
    refine ⟨v, if lv c = 0 then us'.clear c else us', φ', ?_, ?_, ?_, ?_, ?_⟩
    · simp only [unpackPtr, e0, Option.bind_some]
      rw [if_neg (by rw [hm]; exact hlim), e]
      rfl
    · by_cases h0 : lv c = 0
      · simp only [h0, if_true]
        refine ⟨hr'.len, ?_, ?_, ?_, ?_, fun d hd => hr'.rm d (by simp [Levels.up]; split <;> omega)⟩
        · intro d k a hk
          simp only [PSt.clear] at hk
          by_cases hd : d = c
          · simp [hd] at hk
          · simp only [hd, if_false] at hk
            obtain ⟨n, g1, g2, g3⟩ := hr'.fwd d k a hk
            exact ⟨n, by simp [USt.clear, hd, g1], g2, g3⟩
        · intro d id hid
          simp only [USt.clear] at hid
          simp only [PSt.clear]
          by_cases hd : d = c
          · simp [hd] at hid
          · simp only [hd, if_false] at hid ⊢
            exact hr'.bwd d id hid
        · intro d
          simp only [PSt.clear]
          split
          · simp
          · exact hr'.nodup d
        · intro d hd
          simp only [PSt.clear]
          split
          · rfl
          · rename_i hn
            exact hr'.idle d (by simp [Levels.up, hn, hd])
      · simp only [h0, if_false]
        refine ⟨hr'.len, hr'.fwd, hr'.bwd, hr'.nodup, ?_, fun d hd => hr'.rm d (by simp [Levels.up]; split <;> omega)⟩
        intro d hd
        have hn : d ≠ c := by rintro rfl; exact h0 hd
        exact hr'.idle d (by simp [Levels.up, hn, hd])
    · split <;> exact hi'
    · have lift : ∀ d, 0 < lv d → 0 < lv.up c d := by intro d hd; simp only [Levels.up]; split <;> omega
      by_cases h0 : lv c = 0
      · simp only [h0, if_true]
        refine ⟨he.lab, he.cls, he.old, he.good, ?_, ?_⟩
        · intro i d hi hd hv
          have hn : d ≠ c := by rintro rfl; omega
          obtain ⟨id, e⟩ := he.kept i d hi hd (lift d hv)
          exact ⟨id, by simp [USt.clear, hn, e]⟩
        · intro d id n hv hm
          have hn : d ≠ c := by rintro rfl; omega
          simp [USt.clear, hn, he.mono d id n (lift d hv) hm]
      · simp only [h0, if_false]
        exact ⟨he.lab, he.cls, he.old, he.good, fun i d hi hd hv => he.kept i d hi hd (lift d hv), fun d id n hv hm => he.mono d id n (lift d hv) hm⟩
    · by_cases h0 : lv c = 0
      · simp only [h0, if_true]; exact hv
      · simp only [h0, if_false]; exact hv

/-! ### Packing ends -/

private structure Ok (objs : List (Nat × Nat)) (lv : Levels) (st : PSt) : Prop where
  mem : ∀ c a, a ∈ st.map c → (c, a) ∈ objs
  nodup : ∀ c, (st.map c).Nodup
  lev : ∀ c, lv c ≤ (st.map c).length
  idle : ∀ c, lv c = 0 → st.map c = []

private def left (objs : List (Nat × Nat)) (st : PSt) : Nat := (objs.filter fun x => decide (x.2 ∉ st.map x.1)).length

private theorem left_le {objs : List (Nat × Nat)} {st st' : PSt} (h : ∀ c a, a ∈ st.map c → a ∈ st'.map c) : left objs st' ≤ left objs st := by
  unfold left
  induction objs with
  | nil => simp
  | cons x l ih =>
    simp only [List.filter_cons]
    by_cases h1 : x.2 ∈ st.map x.1
    · simp [h1, h _ _ h1]; simpa using ih
    · by_cases h2 : x.2 ∈ st'.map x.1
      · simp [h1, h2]; simp at ih; omega
      · simp [h1, h2]; simpa using ih

private theorem left_lt {objs : List (Nat × Nat)} {st st' : PSt} (h : ∀ c a, a ∈ st.map c → a ∈ st'.map c) {c a : Nat} (hm : (c, a) ∈ objs)
    (h1 : a ∉ st.map c) (h2 : a ∈ st'.map c) : left objs st' < left objs st := by
  induction objs with
  | nil => cases hm
  | cons x l ih =>
    have le := left_le (objs := l) h
    simp only [left, List.filter_cons] at ih le ⊢
    rcases List.mem_cons.1 hm with rfl | hm
    · simp [h1, h2]; simp at le; omega
    · have ih := ih hm
      by_cases g1 : x.2 ∈ st.map x.1
      · simp [g1, h _ _ g1]; simpa using ih
      · by_cases g2 : x.2 ∈ st'.map x.1
        · simp [g1, g2]; simp at ih; omega
        · simp [g1, g2]; simpa using ih

private theorem Ok.len {objs lv st} (h : Ok objs lv st) (c : Nat) : (st.map c).length ≤ objs.length := by
  have : ((st.map c).map fun a => (c, a)).length ≤ objs.length := by
    apply List.Nodup.length_le_of_subset
    · rw [List.nodup_iff_pairwise_ne, List.pairwise_map]
      exact (List.nodup_iff_pairwise_ne.1 (h.nodup c)).imp (fun hne e => hne (Prod.mk.inj e).2)
    · intro x hx
      obtain ⟨a, ha, rfl⟩ := List.mem_map.1 hx
      exact h.mem c a ha
  simpa using this

private theorem fields_ends {objs : List (Nat × Nat)} {lv : Levels} {f : Nat → Option Nat → PSt → Option PSt} {m : Nat}
    (hf : ∀ c p st, Ok objs lv st → left objs st < m → (∀ a, p = some a → (c, a) ∈ objs) →
      ∃ st', f c p st = some st' ∧ Ok objs lv st' ∧ ∀ c a, a ∈ st.map c → a ∈ st'.map c) :
    ∀ (fs : List Fld) (st : PSt), Ok objs lv st → left objs st < m → (∀ c a, .ptr c (some a) ∈ fs → (c, a) ∈ objs) →
      ∃ st', packFields f fs st = some st' ∧ Ok objs lv st' ∧ ∀ c a, a ∈ st.map c → a ∈ st'.map c
  | [], st, h, _, _ => ⟨st, rfl, h, fun _ _ h => h⟩
  | .data n :: fs, st, h, hl, hm =>
    fields_ends hf fs (st.emit n) ⟨h.mem, h.nodup, h.lev, h.idle⟩ hl fun c a hc => hm c a (.tail _ hc)
  | .ptr c p :: fs, st, h, hl, hm => by
    obtain ⟨st1, e1, h1, m1⟩ := hf c p st h hl (by rintro a rfl; exact hm c a (.head _))
    obtain ⟨st2, e2, h2, m2⟩ := fields_ends hf fs st1 h1 (Nat.lt_of_le_of_lt (left_le m1) hl) fun c a hc => hm c a (.tail _ hc)
    exact ⟨st2, by simp [packFields, e1, e2], h2, fun c a ha => m2 c a (m1 c a ha)⟩

private theorem ptr_ends {G : Nat → Nat → List Fld} {objs : List (Nat × Nat)} (hG : ∀ c a, (c, a) ∈ objs → ∀ d b, .ptr d (some b) ∈ G c a → (d, b) ∈ objs)
    {rmax : Nat} (hr : objs.length + 2 ≤ rmax) : ∀ (fuel : Nat) (lv : Levels) (c : Nat) (p : Option Nat) (st : PSt), Ok objs lv st → left objs st < fuel →
    (∀ a, p = some a → (c, a) ∈ objs) → ∃ st', packPtr G rmax fuel lv c p st = some st' ∧ Ok objs lv st' ∧ ∀ c a, a ∈ st.map c → a ∈ st'.map c
  | 0, _, _, _, _, _, h, _ => by omega
  | fuel + 1, lv, c, p, st, h, hl, hp => by
    have hlim : ¬ lv c + 1 = rmax := by
      have := h.len c
      have := h.lev c
      omega
    have same : ∀ st1 : PSt, st1.map = st.map → Ok objs lv (if lv c = 0 then st1.clear c else st1) ∧
        ∀ d a, a ∈ st.map d → a ∈ (if lv c = 0 then st1.clear c else st1).map d := by
      intro st1 e
      have em : (if lv c = 0 then st1.clear c else st1).map = st.map := by
        split
        · rename_i h0
          funext d
          simp only [PSt.clear, e]
          split
          · rename_i hd; rw [hd, h.idle c h0]
          · rfl
        · exact e
      exact ⟨⟨by rw [em]; exact h.mem, by rw [em]; exact h.nodup, by rw [em]; exact h.lev, by rw [em]; exact h.idle⟩, by rw [em]; exact fun _ _ h => h⟩
    have es : ∀ st0, st0 = (if lv c = 0 then st.emit rmax else st) → st0.map = st.map := by
      rintro _ rfl
      split <;> rfl
    simp only [packPtr, if_neg hlim]
    generalize e0 : (if lv c = 0 then st.emit rmax else st) = st0
    have em := es st0 e0.symm
    unfold packBody
    cases p with
    | none =>
      simp only [Option.map_some, Option.some.injEq, exists_eq_left']
      exact same (st0.emit 0) em
    | some a =>
      simp only
      cases ei : (st0.map c).idxOf? a with
      | some i =>
        simp only [Option.map_some, Option.some.injEq, exists_eq_left']
        exact same (st0.emit (i + 1)) em
      | none =>
        simp only
        have hna : a ∉ st.map c := by
          intro hm
          rw [em, List.idxOf?, List.findIdx?_eq_none_iff] at ei
          simpa using ei a hm
        have hobj := hp a rfl
        generalize e1 : (st0.add c a).emit ((st0.map c).length + 1) = st1
        have m1 : ∀ d, st1.map d = if d = c then st.map d ++ [a] else st.map d := by
          intro d; rw [← e1]; simp [PSt.emit, PSt.add, em]
        have ok1 : Ok objs (lv.up c) st1 := by
          refine ⟨?_, ?_, ?_, ?_⟩
          · intro d b hb
            rw [m1] at hb
            split at hb
            · rename_i hd
              subst hd
              rcases List.mem_append.1 hb with hb | hb
              · exact h.mem _ b hb
              · simp at hb; subst hb; exact hobj
            · exact h.mem d b hb
          · intro d
            rw [m1]
            split
            · rename_i hd
              subst hd
              rw [List.nodup_append]
              refine ⟨h.nodup _, by simp, ?_⟩
              intro x hx y hy
              simp at hy
              subst hy
              rintro rfl
              exact hna hx
            · exact h.nodup d
          · intro d
            rw [m1]
            have := h.lev d
            simp only [Levels.up]
            split
            · simp; omega
            · exact this
          · intro d hd
            rw [m1]
            simp only [Levels.up] at hd
            split at hd
            · omega
            · rename_i hn; rw [if_neg hn]; exact h.idle d hd
        have sub : ∀ d b, b ∈ st.map d → b ∈ st1.map d := by
          intro d b hb
          rw [m1]
          split
          · exact List.mem_append_left _ hb
          · exact hb
        have hlt : left objs st1 < fuel := by
          have := left_lt sub hobj hna (by rw [m1]; simp)
          omega
        obtain ⟨st2, e2, ok2, m2⟩ := fields_ends (fun d q s ho hs hq => ptr_ends hG hr fuel (lv.up c) d q s ho hs hq) (G c a) st1 ok1 hlt (hG c a hobj)
        rw [e2]
        simp only [Option.map_some, Option.some.injEq, exists_eq_left']
        by_cases h0 : lv c = 0
        · simp only [h0, if_true]
          refine ⟨⟨?_, ?_, ?_, ?_⟩, ?_⟩
          · intro d b hb
            simp only [PSt.clear] at hb
            split at hb
            · cases hb
            · exact ok2.mem d b hb
          · intro d
            simp only [PSt.clear]
            split
            · simp
            · exact ok2.nodup d
          · intro d
            simp only [PSt.clear]
            by_cases hd : d = c
            · subst hd; simp [h0]
            · have := ok2.lev d
              simp only [Levels.up, hd, if_false] at this ⊢
              exact this
          · intro d hd
            simp only [PSt.clear]
            split
            · rfl
            · rename_i hn
              exact ok2.idle d (by simp [Levels.up, hn, hd])
          · intro d b hb
            by_cases hd : d = c
            · subst hd; rw [h.idle d h0] at hb; cases hb
            · simp only [PSt.clear, hd, if_false]
              exact m2 d b (sub d b hb)
        · simp only [h0, if_false]
          refine ⟨⟨ok2.mem, ok2.nodup, ?_, ?_⟩, fun d b hb => m2 d b (sub d b hb)⟩
          · intro d
            have := ok2.lev d
            simp only [Levels.up] at this
            split at this <;> omega
          · intro d hd
            have hn : d ≠ c := by rintro rfl; exact h0 hd
            exact ok2.idle d (by simp [Levels.up, hn, hd])

/-! ### Theorems -/

/-- C107: packing a finite graph comes to an end, if the limit is not below the number of objects and two. -/
theorem C107_ends {G : Nat → Nat → List Fld} (objs : List (Nat × Nat)) (hG : ∀ c a, (c, a) ∈ objs → ∀ d b, .ptr d (some b) ∈ G c a → (d, b) ∈ objs)
    {rmax : Nat} (hr : objs.length + 2 ≤ rmax) (c : Nat) (p : Option Nat) (hp : ∀ a, p = some a → (c, a) ∈ objs) (fuel : Nat) (hf : objs.length < fuel) :
    ∃ out, pack G rmax fuel c p = some out := by
  obtain ⟨st, e, _⟩ := ptr_ends hG hr fuel (fun _ => 0) c p ⟨fun _ => [], []⟩ ⟨by simp, by simp, by simp, by simp⟩
    (Nat.lt_of_le_of_lt (List.length_filter_le _ _) hf) hp
  exact ⟨st.out, by simp [pack, e]⟩

/-- C107: what is unpacked is a copy of the graph, pointer for pointer, and the objects of the class of the pointer packed are copied once each.
Missing: that the others are, which is false. -/
theorem C107_copy_partial {G : Nat → Nat → List Fld} {K : Nat → List Kind} (hK : ∀ c a, (G c a).map Fld.kind = K c) {rmax fuel c : Nat} {p : Option Nat}
    {out : List Nat} (h : pack G rmax fuel c p = some out) (r0 : Nat) (rest : List Nat) :
    ∃ v us φ, unpack K r0 fuel c (out ++ rest) = some (v, us) ∧ us.inp = rest ∧ Copy G us.cls us.cell φ ∧ Same us.cls φ (.ptr c v) (.ptr c p) ∧
      ∀ (i j : Nat), us.cls[i]? = some c → us.cls[j]? = some c → φ[i]? = φ[j]? → i = j := by
  unfold pack at h
  rw [Option.map_eq_some_iff] at h
  obtain ⟨st', h, rfl⟩ := h
  cases fuel with
  | zero => simp [packPtr] at h
  | succ fuel =>
    simp only [packPtr] at h
    split at h
    · cases h
    rename_i hlim
    rw [Option.map_eq_some_iff] at h
    obtain ⟨st1, h1, rfl⟩ := h
    obtain ⟨w, ew, hw⟩ := open_sim hK (lv := fun _ => 0) (ptr_sim hK rmax fuel (Levels.up (fun _ => 0) c)) p _ st1 h1
    have hr : Rel rmax (fun _ => 0) ⟨fun _ => [], []⟩ ⟨w ++ rest, r0, [], fun _ => [], fun _ _ => none⟩ [] :=
      ⟨rfl, by simp, by simp, by simp, by simp, by simp⟩
    obtain ⟨v, us0, us', φ', e0, hm, e, hr', hi', he, hv⟩ := hw _ [] rest hr rfl
    have eo : (PSt.clear st1 c).out = w := by rw [List.nil_append] at ew; exact ew
    refine ⟨v, us'.clear c, φ', ?_, hi', ⟨hr'.len, fun i d a hd ha => he.good i d a (Nat.zero_le _) hd ha⟩, hv, ?_⟩
    · simp only [if_true, eo]
      have : ¬ 0 + 1 = us0.rmax := by rw [hm]; exact hlim
      unfold unpack unpackPtr
      simp only [if_true] at e0
      simp only [e0, if_true, Option.bind_some, if_neg this, e]
      rfl
    · intro i j hi hj hij
      have back : ∀ i : Nat, us'.cls[i]? = some c → ∃ k : Nat, us'.map c (k + 1) = some i ∧ (st1.map c)[k]? = φ'[i]? ∧ k < (st1.map c).length := by
        intro i hi
        obtain ⟨id, hid⟩ := he.kept i c (Nat.zero_le _) hi (by simp [Levels.up])
        obtain ⟨b1, b2⟩ := hr'.bwd c id (by rw [hid]; simp)
        obtain ⟨k, rfl⟩ : ∃ k, id = k + 1 := ⟨id - 1, by omega⟩
        obtain ⟨n, f1, f2, f3⟩ := hr'.fwd c k ((st1.map c)[k]'(by omega)) (List.getElem?_eq_getElem _)
        rw [hid] at f1
        cases f1
        exact ⟨k, hid, by rw [f3, List.getElem?_eq_getElem], by omega⟩
      obtain ⟨k, k1, k2, k3⟩ := back i hi
      obtain ⟨l, l1, l2, l3⟩ := back j hj
      have : k = l := by
        have e : (st1.map c)[k]? = (st1.map c)[l]? := by rw [k2, l2, hij]
        exact (List.getElem?_inj k3 (hr'.nodup c)).1 e
      subst this
      rw [k1] at l1
      exact Option.some.inj l1

private theorem pack_data (f : Nat → Option Nat → PSt → Option PSt) : ∀ (ds : List Nat) (st : PSt),
    packFields f (ds.map .data) st = some { st with out := st.out ++ ds }
  | [], st => by simp [packFields]
  | d :: ds, st => by
    rw [List.map_cons, packFields, pack_data f ds]
    simp [PSt.emit]

private theorem unpack_data (f : Nat → USt → Option (Option Nat × USt)) : ∀ (ds rest : List Nat) (st : USt), st.inp = ds ++ rest →
    unpackFields f (ds.map fun _ => .data) st = some (ds.map .data, { st with inp := rest })
  | [], rest, st, h => by
    rw [List.nil_append] at h
    subst h
    rfl
  | d :: ds, rest, st, h => by
    have := unpack_data f ds rest { st with inp := ds ++ rest } rfl
    simp [unpackFields, read, h, this]

private theorem unpack_one {K : Nat → List Kind} {d rmax : Nat} {ds : List Nat} (kd : K d = ds.map fun _ => .data) (hr : rmax ≠ 1) (fuel : Nat)
    {lv : Levels} (hlv : lv d = 0) (rest : List Nat) (st : USt) (hi : st.inp = rmax :: 1 :: (ds ++ rest)) (hm : st.map d 1 = none) :
    unpackPtr K (fuel + 1) lv d st = some (some st.cls.length, ⟨rest, rmax, st.cls ++ [d],
      fun b => if b = st.cls.length then ds.map .data else st.cell b, fun e i => if e = d then none else st.map e i⟩) := by
  have hr' : ¬ 1 = rmax := fun e => hr e.symm
  rw [unpackPtr]
  simp only [unpackBody, read, hi, hlv, if_true, Option.map_some, Option.bind_some, Nat.zero_add, hr', if_false, Nat.one_ne_zero, hm, kd]
  rw [unpack_data _ ds rest _ (by simp [USt.alloc])]
  simp only [Option.map_some, USt.alloc, USt.store, USt.clear]
  congr 3
  funext e i
  by_cases he : e = d <;> simp [he]

/-- C107 fails for an object of another class than the pointer packed: if there are two pointers to it, it is packed twice, and there are two
objects afterwards. -/
theorem C107_fails_shared {G : Nat → Nat → List Fld} {K : Nat → List Kind} {c d a x : Nat} (hcd : d ≠ c) (ds : List Nat)
    (hc : G c a = [.ptr d (some x), .ptr d (some x)]) (hd : G d x = ds.map .data) (kc : K c = [.ptr d, .ptr d]) (kd : K d = ds.map fun _ => .data)
    (rmax r0 : Nat) (hr : rmax ≠ 1) (fuel : Nat) :
    ∃ out us, pack G rmax (fuel + 2) c (some a) = some out ∧ unpack K r0 (fuel + 2) c out = some (some 0, us) ∧ us.cls = [c, d, d] ∧
      us.cell 0 = [.ptr d (some 1), .ptr d (some 2)] := by
  have hr' : 1 ≠ rmax := fun e => hr e.symm
  refine ⟨[rmax, 1] ++ ([rmax, 1] ++ ds ++ ([rmax, 1] ++ ds)), ?_⟩
  have hp : pack G rmax (fuel + 2) c (some a) = some ([rmax, 1] ++ ([rmax, 1] ++ ds ++ ([rmax, 1] ++ ds))) := by
    simp [pack, packPtr, packBody, hc, hd, hr', packFields, pack_data, Levels.up, hcd, PSt.emit, PSt.add, PSt.clear]
  have hu : ∃ us, unpack K r0 (fuel + 2) c ([rmax, 1] ++ ([rmax, 1] ++ ds ++ ([rmax, 1] ++ ds))) = some (some 0, us) ∧ us.cls = [c, d, d] ∧
      us.cell 0 = [.ptr d (some 1), .ptr d (some 2)] := by
    have h1 := fun st => unpack_one kd hr fuel (lv := Levels.up (fun _ => 0) c) (by simp [Levels.up, hcd]) ([rmax, 1] ++ ds) st
    have h2 := fun st => unpack_one kd hr fuel (lv := Levels.up (fun _ => 0) c) (by simp [Levels.up, hcd]) [] st
    rw [unpack, unpackPtr]
    simp only [unpackBody, kc, unpackFields, read, if_true, Option.map_some, Option.bind_some, List.cons_append, List.nil_append, Nat.zero_add, hr', if_false,
      Nat.one_ne_zero]
    rw [h1 _ (by simp [USt.alloc]) (by simp [USt.alloc, hcd])]
    simp only [Option.bind_some]
    rw [h2 _ (by simp) (by simp)]
    simp [USt.alloc, USt.store, USt.clear]
  obtain ⟨us, hu⟩ := hu
  exact ⟨us, hp, hu⟩

/-- A chain of `k + 1` objects, each of its own class and with two pointers to the next. -/
def C107.chain (k c _a : Nat) : List Fld := if c < k then [.ptr (c + 1) (some 0), .ptr (c + 1) (some 0)] else []

private theorem chain_len {k rmax : Nat} (hr : rmax ≠ 1) : ∀ (n fuel c : Nat) (lv : Levels) (st : PSt), c + n = k → n < fuel → (∀ d, c ≤ d → lv d = 0) →
    (∀ d, c ≤ d → st.map d = []) → ∃ st', packPtr (C107.chain k) rmax fuel lv c (some 0) st = some st' ∧ (∀ d, c ≤ d → st'.map d = []) ∧
      st'.out.length + 2 = st.out.length + 2 ^ (n + 2)
  | _, 0, _, _, _, _, h, _, _ => by omega
  | n, fuel + 1, c, lv, st, hc, hf, hl, hm => by
    have hr' : ¬ 1 = rmax := fun e => hr e.symm
    simp only [packPtr, hl c (Nat.le_refl c), if_true, Nat.zero_add, hr', if_false, packBody, PSt.emit, hm c (Nat.le_refl c)]
    simp only [List.idxOf?, List.findIdx?_nil, PSt.add]
    cases n with
    | zero =>
      simp only [C107.chain, show ¬ c < k by omega, if_false, packFields, Option.map_some, Option.some.injEq, exists_eq_left']
      refine ⟨?_, by simp [PSt.clear]⟩
      intro d hd
      simp only [PSt.clear]
      split
      · rfl
      · exact hm d hd
    | succ n =>
      have hl' : ∀ d, c + 1 ≤ d → lv.up c d = 0 := by
        intro d hd
        rw [Levels.up, if_neg (by omega)]
        exact hl d (by omega)
      simp only [C107.chain, show c < k by omega, if_true, packFields]
      obtain ⟨s1, e1, m1, o1⟩ := chain_len (k := k) hr n fuel (c + 1) (lv.up c)
        ⟨fun d => if d = c then st.map d ++ [0] else st.map d, st.out ++ [rmax] ++ [([] : List Nat).length + 1]⟩ (by omega) (by omega) hl'
        (by intro d hd; simp only [show ¬ d = c by omega, if_false]; exact hm d (by omega))
      obtain ⟨s2, e2, m2, o2⟩ := chain_len (k := k) hr n fuel (c + 1) (lv.up c) s1 (by omega) (by omega) hl' m1
      rw [e1]
      simp only [Option.bind_some]
      rw [e2]
      simp only [Option.bind_some, Option.map_some, Option.some.injEq, exists_eq_left']
      refine ⟨?_, ?_⟩
      · intro d hd
        simp only [PSt.clear]
        split
        · rfl
        · exact m2 d (by omega)
      · simp [PSt.clear] at o1 o2 ⊢
        have : 2 ^ (n + 1 + 2) = 2 * 2 ^ (n + 2) := by rw [Nat.pow_succ 2 (n + 2)]; omega
        omega

/-- C107 fails in the size of the stream: that of a chain of `k + 1` objects, each of its own class and with two pointers to the next, has
`2 ^ (k + 2) - 2` numbers. -/
theorem C107_fails_growth (k rmax : Nat) (hr : rmax ≠ 1) (fuel : Nat) (hf : k < fuel) :
    ∃ out, pack (C107.chain k) rmax fuel 0 (some 0) = some out ∧ out.length = 2 ^ (k + 2) - 2 := by
  obtain ⟨st, e, _, h⟩ := chain_len (k := k) hr k fuel 0 (fun _ => 0) ⟨fun _ => [], []⟩ (by omega) hf (fun _ _ => rfl) (fun _ _ => rfl)
  refine ⟨st.out, by simp [pack, e], ?_⟩
  simp at h
  omega

/-! ### Cases -/

/-- Class 0: a number, a pointer to the class and one to class 1; class 1: a number and a pointer back. -/
private def ring (c a : Nat) : List Fld :=
  if c = 0 then [.data a, .ptr 0 (some ((a + 1) % 3)), .ptr 1 (some (a / 2))] else [.data (a + 10), .ptr 0 (some 2)]

private def ringK (c : Nat) : List Kind := if c = 0 then [.data, .ptr 0, .ptr 1] else [.data, .ptr 0]

example (c a : Nat) : (ring c a).map Fld.kind = ringK c := by unfold ring ringK; split <;> rfl

example : pack ring 10 6 0 (some 0) =
    some [10, 1, 0, 2, 1, 3, 2, 1, 10, 1, 11, 3, 10, 1, 10, 3, 10, 1, 10, 3] := by decide +kernel

/-- Three objects of class 0, but three of class 1 for the two there were. -/
example : (unpack ringK 99 6 0 [10, 1, 0, 2, 1, 3, 2, 1, 10, 1, 11, 3, 10, 1, 10, 3, 10, 1, 10, 3]).map (fun x => (x.1, x.2.cls, x.2.inp)) =
    some (some 0, [0, 0, 0, 1, 1, 1], []) := by decide +kernel

example : ∃ out, pack ring 7 6 0 (some 0) = some out :=
  C107_ends [(0, 0), (0, 1), (0, 2), (1, 0), (1, 1)] (by
    intro c a h d b hb
    simp at h
    rcases h with ⟨rfl, rfl⟩ | ⟨rfl, rfl⟩ | ⟨rfl, rfl⟩ | ⟨rfl, rfl⟩ | ⟨rfl, rfl⟩ <;> simp [ring] at hb ⊢ <;> omega) (by simp) 0 (some 0) (by simp) 6 (by simp)

example : pack (C107.chain 1) 5 2 0 (some 0) = some [5, 1, 5, 1, 5, 1] := by decide +kernel

end Verif.GraphMix
