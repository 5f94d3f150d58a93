import Verif.Xml
/-
Keys of the XML database: decimal numbers are determined by their text, keys determine paths, and
`addHashNoughts` completes a key.
-/
namespace Verif.Xml
open OMap EnumKeys
open Verif.Json (JV dot tail)

/-! ### Decimal -/

theorem digit_toNat {k : Nat} (h : k < 10) : (UInt8.ofNat (48 + k)).toNat = 48 + k := by
  rw [UInt8.toNat_ofNat_of_lt']; simp [UInt8.size]; omega

theorem isDigit_ofNat {k : Nat} (h : k < 10) : isDigit (UInt8.ofNat (48 + k)) = true := by
  have : k = 0 ∨ k = 1 ∨ k = 2 ∨ k = 3 ∨ k = 4 ∨ k = 5 ∨ k = 6 ∨ k = 7 ∨ k = 8 ∨ k = 9 := by omega
  rcases this with h | h | h | h | h | h | h | h | h | h <;> subst h <;> decide

theorem decF_digits (f n : Nat) : ∀ c ∈ decF f n, isDigit c = true := by
  induction f generalizing n with
  | zero =>
    intro c hc
    simp only [decF, List.mem_singleton] at hc
    subst hc; exact isDigit_ofNat (Nat.mod_lt _ (by omega))
  | succ f ih =>
    intro c hc
    simp only [decF] at hc
    split at hc
    · simp only [List.mem_singleton] at hc
      subst hc; exact isDigit_ofNat (by assumption)
    · rcases List.mem_append.1 hc with hc | hc
      · exact ih _ c hc
      · simp only [List.mem_singleton] at hc
        subst hc; exact isDigit_ofNat (Nat.mod_lt _ (by omega))

theorem dec_digits {n : Nat} {c : UInt8} (h : c ∈ dec n) : isDigit c = true := decF_digits _ _ c h

theorem decF_ne (f n : Nat) : decF f n ≠ [] := by
  cases f with
  | zero => simp [decF]
  | succ f => simp only [decF]; split <;> simp

theorem dec_ne (n : Nat) : dec n ≠ [] := decF_ne _ _

theorem valD_snoc (s : Str) (c : UInt8) : valD (s ++ [c]) = 10 * valD s + (c.toNat - 48) := by
  simp [valD]

theorem valD_decF (f n : Nat) (h : n ≤ f) : valD (decF f n) = n := by
  induction f generalizing n with
  | zero =>
    have : n = 0 := by omega
    subst this; decide
  | succ f ih =>
    simp only [decF]
    split
    · rename_i hn
      simp only [valD, List.foldl_cons, List.foldl_nil]
      rw [digit_toNat hn]; omega
    · rw [valD_snoc, ih _ (by omega), digit_toNat (Nat.mod_lt _ (by omega))]; omega

theorem valD_dec (n : Nat) : valD (dec n) = n := valD_decF n n (Nat.le_refl _)

theorem dec_inj {a b : Nat} (h : dec a = dec b) : a = b := by
  rw [← valD_dec a, ← valD_dec b, h]

theorem isDigit_hash : isDigit hash = false := by decide
theorem isDigit_dot : isDigit dot = false := by decide

theorem hash_dec (n : Nat) : hash ∉ dec n := by
  intro h; have := dec_digits h; rw [isDigit_hash] at this; cases this
theorem dot_dec (n : Nat) : dot ∉ dec n := by
  intro h; have := dec_digits h; rw [isDigit_dot] at this; cases this

/-! ### Splitting -/

theorem split_left {c : UInt8} {a b x y : Str} (ha : c ∉ a) (hb : c ∉ b)
    (h : a ++ c :: x = b ++ c :: y) : a = b ∧ x = y := by
  induction a generalizing b with
  | nil =>
    cases b with
    | nil => simpa using h
    | cons b bs =>
      simp only [List.nil_append, List.cons_append, List.cons.injEq] at h
      exact absurd (by simp [h.1]) hb
  | cons a as ih =>
    cases b with
    | nil =>
      simp only [List.nil_append, List.cons_append, List.cons.injEq] at h
      exact absurd (by simp [h.1]) ha
    | cons b bs =>
      simp only [List.cons_append, List.cons.injEq] at h
      have := ih (fun q => ha (List.mem_cons_of_mem _ q)) (fun q => hb (List.mem_cons_of_mem _ q)) h.2
      exact ⟨by rw [h.1, this.1], this.2⟩

theorem split_right {c : UInt8} {a b x y : Str} (hx : c ∉ x) (hy : c ∉ y)
    (h : a ++ c :: x = b ++ c :: y) : a = b ∧ x = y := by
  have h' := congrArg List.reverse h
  simp only [List.reverse_append, List.reverse_cons, List.append_assoc, List.singleton_append] at h'
  have := split_left (a := x.reverse) (b := y.reverse) (by simpa using hx) (by simpa using hy) h'
  exact ⟨List.reverse_inj.1 this.2, List.reverse_inj.1 this.1⟩

/-! ### Paths -/

/-- A name usable in keys. -/
def KeyName (n : Str) : Prop := n ≠ [] ∧ hash ∉ n ∧ dot ∉ n

/-- The place of an element: names, and positions among siblings of the same name. -/
abbrev Path := List (Str × Nat)

def VP (p : Path) : Prop := ∀ x ∈ p, KeyName x.1

/-- Key of the element at a path. -/
def key : Path → Str
  | [] => []
  | (n, i) :: p => idx n i ++ (if p = [] then [] else dot :: key p)

/-- Key under which children (or attributes) called `n` of the element at a path are counted. -/
def keyS : Path → Str → Str
  | [], n => n
  | (m, i) :: p, n => idx m i ++ dot :: keyS p n

theorem keyS_ne {p : Path} (hp : p ≠ []) (n : Str) : keyS p n = key p ++ dot :: n := by
  induction p with
  | nil => exact absurd rfl hp
  | cons x p ih =>
    obtain ⟨m, i⟩ := x
    cases p with
    | nil => simp [keyS, key]
    | cons y p =>
      rw [show keyS ((m, i) :: y :: p) n = idx m i ++ dot :: keyS (y :: p) n from rfl, ih (by simp),
        show key ((m, i) :: y :: p) = idx m i ++ dot :: key (y :: p) from rfl]
      simp

theorem key_snoc (p : Path) (n : Str) (i : Nat) : key (p ++ [(n, i)]) = idx (keyS p n) i := by
  induction p with
  | nil => simp [key, keyS]
  | cons x p ih =>
    obtain ⟨m, j⟩ := x
    simp only [List.cons_append, key, keyS, ih]
    simp [idx]

theorem dot_idx {n : Str} (hn : dot ∉ n) (i : Nat) : dot ∉ idx n i := by
  simp only [idx, List.mem_append, List.mem_cons, not_or]
  exact ⟨hn, by decide, dot_dec i⟩

theorem idx_inj {a b : Str} {i j : Nat} (h : idx a i = idx b j) : a = b ∧ i = j := by
  have := split_right (hash_dec i) (hash_dec j) h
  exact ⟨this.1, dec_inj this.2⟩

theorem keyS_inj {p q : Path} {n m : Str} (hp : VP p) (hq : VP q) (hn : dot ∉ n) (hm : dot ∉ m)
    (h : keyS p n = keyS q m) : p = q ∧ n = m := by
  induction p generalizing q with
  | nil =>
    cases q with
    | nil => exact ⟨rfl, h⟩
    | cons y q =>
      obtain ⟨a, i⟩ := y
      simp only [keyS] at h
      exact absurd (by rw [h]; simp) hn
  | cons x p ih =>
    obtain ⟨a, i⟩ := x
    cases q with
    | nil =>
      simp only [keyS] at h
      exact absurd (by rw [← h]; simp) hm
    | cons y q =>
      obtain ⟨b, j⟩ := y
      simp only [keyS] at h
      have hs := split_left (dot_idx (hp (a, i) (by simp)).2.2 i) (dot_idx (hq (b, j) (by simp)).2.2 j) h
      have hi := idx_inj hs.1
      have := ih (fun x hx => hp x (by simp [hx])) (fun x hx => hq x (by simp [hx])) hs.2
      have ha : a = b := hi.1
      exact ⟨by rw [ha, hi.2, this.1], this.2⟩

theorem VP.append {p q : Path} (hp : VP p) (hq : VP q) : VP (p ++ q) := by
  intro x hx
  rcases List.mem_append.1 hx with h | h
  · exact hp x h
  · exact hq x h

theorem VP.left {p q : Path} (h : VP (p ++ q)) : VP p := fun x hx => h x (by simp [hx])
theorem VP.right {p q : Path} (h : VP (p ++ q)) : VP q := fun x hx => h x (by simp [hx])
theorem VP.single {n : Str} (h : KeyName n) (i : Nat) : VP [(n, i)] := by
  intro x hx; simp only [List.mem_singleton] at hx; subst hx; exact h
theorem VP.nil : VP [] := by intro x hx; cases hx

theorem snoc_cases {α : Type} (p : List α) : p = [] ∨ ∃ q x, p = q ++ [x] := by
  rcases List.eq_nil_or_concat p with h | ⟨q, x, h⟩
  · exact .inl h
  · exact .inr ⟨q, x, by simpa using h⟩

theorem key_inj {p q : Path} (hp : VP p) (hq : VP q) (h : key p = key q) : p = q := by
  rcases snoc_cases p with rfl | ⟨p, ⟨n, i⟩, rfl⟩ <;> rcases snoc_cases q with rfl | ⟨q, ⟨m, j⟩, rfl⟩
  · rfl
  · rw [key_snoc] at h; simp [key, idx] at h
  · rw [key_snoc] at h; simp [key, idx] at h
  · rw [key_snoc, key_snoc] at h
    have hi := idx_inj h
    have := keyS_inj hp.left hq.left (hp.right (n, i) (by simp)).2.2
      (hq.right (m, j) (by simp)).2.2 hi.1
    have hnm : n = m := this.2
    rw [this.1, hnm, hi.2]

theorem keyS_ne_key {p q : Path} {n : Str} (hp : VP p) (hq : VP q) (hn : KeyName n) :
    keyS p n ≠ key q := by
  intro h
  rcases snoc_cases q with rfl | ⟨q, ⟨m, j⟩, rfl⟩
  · cases p with
    | nil => exact hn.1 h
    | cons x p => simp [keyS, key] at h
  · rw [key_snoc] at h
    induction p generalizing q with
    | nil =>
      simp only [keyS, idx] at h
      exact hn.2.1 (by rw [h]; simp)
    | cons x p ih =>
      obtain ⟨a, i⟩ := x
      cases q with
      | nil =>
        simp only [keyS, idx] at h
        have hm := (hq (m, j) (by simp)).2.2
        have : dot ∈ m ++ hash :: dec j := by rw [← h]; simp
        exact dot_idx hm j this
      | cons y q =>
        obtain ⟨b, k⟩ := y
        simp only [keyS] at h
        rw [show idx (idx b k ++ dot :: keyS q m) j = idx b k ++ dot :: idx (keyS q m) j from by
          simp [idx]] at h
        have hs := split_left (dot_idx (hp (a, i) (by simp)).2.2 i)
          (dot_idx (hq (b, k) (by simp)).2.2 k) h
        exact ih (fun x hx => hp x (by simp [hx])) q (fun x hx => hq x (by simp [hx])) hs.2

/-! ### Keys given by the user -/

/-- A component of a key: the position may be left out. -/
abbrev UPath := List (Str × Option Nat)

def comp (n : Str) : Option Nat → Str
  | none => n
  | some i => idx n i

def ukey : UPath → Str
  | [] => []
  | (n, o) :: u => comp n o ++ (if u = [] then [] else dot :: ukey u)

/-- The place it stands for: no position is position 0. -/
def resolve (u : UPath) : Path := u.map fun x => (x.1, x.2.getD 0)

theorem ukey_snoc {u : UPath} (hu : u ≠ []) (n : Str) (o : Option Nat) :
    ukey (u ++ [(n, o)]) = ukey u ++ dot :: comp n o := by
  induction u with
  | nil => exact absurd rfl hu
  | cons x u ih =>
    obtain ⟨m, r⟩ := x
    cases u with
    | nil => simp [ukey]
    | cons y u =>
      have := ih (by simp)
      rw [show ukey ((m, r) :: y :: u ++ [(n, o)]) = comp m r ++ dot :: ukey (y :: u ++ [(n, o)])
        from rfl, this, show ukey ((m, r) :: y :: u) = comp m r ++ dot :: ukey (y :: u) from rfl]
      simp

theorem addHash_name {n : Str} (hh : hash ∉ n) (hd : dot ∉ n) (b : Bool) (r : Str) :
    addHash b (n ++ r) = n ++ addHash b r := by
  induction n with
  | nil => rfl
  | cons c n ih =>
    simp only [List.mem_cons, not_or] at hh hd
    simp only [List.cons_append, addHash, if_neg (Ne.symm hh.1), if_neg (Ne.symm hd.1), ih hh.2 hd.2]

theorem addHash_comp {n : Str} (hn : KeyName n) (o : Option Nat) {r : Str}
    (hr : r = [] ∨ ∃ r', r = dot :: r') :
    addHash false (comp n o ++ r) = idx n (o.getD 0) ++ (if r = [] then [] else addHash true r) := by
  cases o with
  | none =>
    simp only [comp, addHash_name hn.2.1 hn.2.2, Option.getD]
    rcases hr with rfl | ⟨r', rfl⟩
    · simp [addHash, idx, dec, decF]
    · simp [addHash, idx, dec, decF, hash, dot]
  | some i =>
    simp only [comp, Option.getD, idx, List.append_assoc, List.cons_append]
    rw [addHash_name hn.2.1 hn.2.2]
    congr 1
    simp only [addHash, if_true]
    rw [addHash_name (hash_dec i) (dot_dec i)]
    rcases hr with rfl | ⟨r', rfl⟩ <;> simp [addHash]

theorem addHash_true_dot (r : Str) : addHash true (dot :: r) = dot :: addHash false r := by
  simp [addHash, hash, dot]

theorem noughts_ukey {u : UPath} (hu : u ≠ []) (hv : VP (resolve u)) :
    noughts (ukey u) = key (resolve u) := by
  unfold noughts
  induction u with
  | nil => exact absurd rfl hu
  | cons x u ih =>
    obtain ⟨n, o⟩ := x
    have hn : KeyName n := hv (n, o.getD 0) (by simp [resolve])
    cases u with
    | nil =>
      have := addHash_comp hn o (r := []) (.inl rfl)
      simpa [ukey, resolve, key] using this
    | cons y u =>
      have hv' : VP (resolve (y :: u)) := fun z hz => hv z (by
        simp only [resolve, List.map_cons, List.mem_cons] at hz ⊢; exact .inr hz)
      have := ih (by simp) hv'
      rw [show ukey ((n, o) :: y :: u) = comp n o ++ dot :: ukey (y :: u) from rfl,
        addHash_comp hn o (.inr ⟨_, rfl⟩), addHash_true_dot, this]
      simp [resolve, key]

theorem stripHash_idx (s : Str) (i : Nat) : stripHash (idx s i) = s := by
  unfold stripHash idx
  simp only [List.reverse_append, List.reverse_cons, List.append_assoc, List.singleton_append]
  have h : ∀ (l r : Str), hash ∉ l → (l ++ hash :: r).dropWhile (· != hash) = hash :: r := by
    intro l r hl
    induction l with
    | nil => simp
    | cons c l ih =>
      simp only [List.mem_cons, not_or] at hl
      have : (c != hash) = true := by simp; exact Ne.symm hl.1
      simp [List.dropWhile_cons, this, ih hl.2]
  rw [h _ _ (by simpa using hash_dec i)]
  simp

/-- `d` is a way to write the key of the element at `q`. -/
def Keys (d : Str) (q : Path) : Prop := ∃ u : UPath, u ≠ [] ∧ VP (resolve u) ∧ d = ukey u ∧ q = resolve u

theorem Keys.vp {d : Str} {q : Path} (h : Keys d q) : VP q := by
  obtain ⟨u, _, hv, _, rfl⟩ := h; exact hv

theorem Keys.ne {d : Str} {q : Path} (h : Keys d q) : q ≠ [] := by
  obtain ⟨u, hu, hv, _, rfl⟩ := h; simpa [resolve] using hu

theorem Keys.noughts {d : Str} {q : Path} (h : Keys d q) : noughts d = key q := by
  obtain ⟨u, hu, hv, rfl, rfl⟩ := h; exact noughts_ukey hu hv

theorem Keys.name {n : Str} (h : KeyName n) : Keys n [(n, 0)] :=
  ⟨[(n, none)], by simp, VP.single h 0, by simp [ukey, comp], by simp [resolve]⟩

theorem Keys.mem {d : Str} {q : Path} (h : Keys d q) {n : Str} (hn : KeyName n) :
    Keys (d ++ dot :: n) (q ++ [(n, 0)]) := by
  obtain ⟨u, hu, hv, rfl, rfl⟩ := h
  refine ⟨u ++ [(n, none)], by simp, ?_, ?_, by simp [resolve]⟩
  · simp only [resolve, List.map_append]; exact hv.append (VP.single hn 0)
  · rw [ukey_snoc hu]; rfl

theorem Keys.elem {d : Str} {q : Path} (h : Keys d q) {n : Str} (hn : KeyName n) (i : Nat) :
    Keys (idx (d ++ dot :: n) i) (q ++ [(n, i)]) := by
  obtain ⟨u, hu, hv, rfl, rfl⟩ := h
  refine ⟨u ++ [(n, some i)], by simp, ?_, ?_, by simp [resolve]⟩
  · simp only [resolve, List.map_append]; exact hv.append (VP.single hn i)
  · rw [ukey_snoc hu]; simp [comp, idx]

theorem Keys.strip {d : Str} {q : Path} {n : Str} {i : Nat} (h : Keys d (q ++ [(n, i)])) :
    stripHash (Xml.noughts d) = keyS q n := by
  rw [h.noughts, key_snoc, stripHash_idx]

theorem Keys.ne_nil {d : Str} {q : Path} (h : Keys d q) : d ≠ [] := by
  obtain ⟨u, hu, hv, rfl, rfl⟩ := h
  cases u with
  | nil => exact absurd rfl hu
  | cons x u =>
    obtain ⟨n, o⟩ := x
    have hn : KeyName n := hv (n, o.getD 0) (by simp [resolve])
    have := hn.1
    cases o <;> simp [ukey, comp, idx, this]

end Verif.Xml
