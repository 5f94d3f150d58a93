import Verif.Codec
/-
Helper lemmas about packing and unpacking: sequencing of writes, reads and truncated reads.
-/
namespace Verif
open Buf

/-! ### little-endian integers -/

theorem leB_length (k n : Nat) : (leB k n).length = k := by
  induction k generalizing n with
  | zero => rfl
  | succ k ih => simp [leB, ih]

theorem leV_leB (k n : Nat) : leV (leB k n) = n % 256 ^ k := by
  induction k generalizing n with
  | zero => simp [leB, leV, Nat.mod_one]
  | succ k ih =>
    have h1 : (UInt8.ofNat (n % 256)).toNat = n % 256 := by simp
    rw [leB, leV, ih, h1, Nat.pow_succ, Nat.mul_comm (256 ^ k) 256, Nat.mod_mul]

theorem leV_lt (l : Bytes) : leV l < 256 ^ l.length := by
  induction l with
  | nil => simp [leV]
  | cons x xs ih =>
    have := x.toNat_lt
    simp only [leV, List.length_cons, Nat.pow_succ]
    omega

theorem leV_leB8 {n : Nat} (h : n < W64) : leV (leB 8 n) = n := by
  rw [leV_leB]; exact Nat.mod_eq_of_lt h

theorem leB8_inj {n m : Nat} (hn : n < W64) (hm : m < W64) (h : leB 8 n = leB 8 m) : n = m := by
  rw [← leV_leB8 hn, ← leV_leB8 hm, h]

/-! ### sequencing -/

theorem bind_ok {α β} {m : M α} {f : α → M β} {b b' : Buf} {a : α} (h : m b = (.ok a, b')) :
    M.bind m f b = f a b' := by simp [M.bind, h]

theorem bind_throw {α β} {m : M α} {f : α → M β} {b b' : Buf} {e : Err} (h : m b = (.throw e, b')) :
    M.bind m f b = (.throw e, b') := by simp [M.bind, h]

/-- `m` appends exactly `xs`, whatever the buffer, as long as sizes do not overflow. -/
def Appends (m : M Unit) (xs : Bytes) : Prop := ∀ b : Buf, b.Inv → b.size + xs.length < W64 →
  ∃ b', m b = (.ok (), b') ∧ b'.content = b.content ++ xs ∧ b'.pos = b.pos ∧ b'.size = b.size + xs.length ∧ b'.Inv

/-- A buffer in the middle of being read: consistent, cursor in range, no larger than an object can be. -/
structure Good (b : Buf) : Prop where
  inv : b.Inv
  small : b.size < 2 ^ 63
  pos : b.pos ≤ b.size

/-- On every buffer whose unread part begins with `xs`, `m` returns `a` and consumes exactly `xs`. -/
def Reads {α} (m : M α) (xs : Bytes) (a : α) : Prop := ∀ b : Buf, Good b → ∀ r, b.rest = xs ++ r →
  m b = (.ok a, b.adv xs.length)

/-- On every buffer whose unread part is a strict prefix of `xs`, `m` throws. -/
def Truncs {α} (m : M α) (xs : Bytes) : Prop := ∀ b : Buf, Good b → ∀ r, r ≠ [] → b.rest ++ r = xs →
  ∃ e b', m b = (.throw e, b')

theorem good_adv {b : Buf} (h : Good b) {xs r : Bytes} (hr : b.rest = xs ++ r) : Good (b.adv xs.length) := by
  have h1 := rest_length h.inv
  rw [hr, List.length_append] at h1
  have h2 := h.pos
  exact ⟨inv_adv h.inv _ (by omega), h.small, by simp; omega⟩

theorem rest_adv_of {b : Buf} {xs r : Bytes} (hr : b.rest = xs ++ r) : (b.adv xs.length).rest = r := by
  rw [rest_adv, hr, List.drop_left]

theorem Appends.pure : Appends (M.pure ()) [] := fun b h _ => ⟨b, rfl, by simp, rfl, by simp, h⟩

theorem Appends.bind {m : M Unit} {f : Unit → M Unit} {xs ys : Bytes} (h1 : Appends m xs) (h2 : Appends (f ()) ys) :
    Appends (M.bind m f) (xs ++ ys) := by
  intro b hb hs
  rw [List.length_append] at hs
  obtain ⟨b1, e1, c1, p1, s1, i1⟩ := h1 b hb (by omega)
  obtain ⟨b2, e2, c2, p2, s2, i2⟩ := h2 b1 i1 (by omega)
  refine ⟨b2, by rw [bind_ok e1, e2], ?_, by omega, ?_, i2⟩
  · rw [c2, c1, List.append_assoc]
  · rw [s2, s1, List.length_append]; omega

theorem appends_append (al : Alloc) (hok : al.ok = true) {xs : Bytes} (h : xs ≠ []) : Appends (Buf.append al xs) xs :=
  fun b hb hs => append_ok al hok b xs h hb hs

theorem appends_packraw (al : Alloc) (hok : al.ok = true) (xs : Bytes) : Appends (Buf.packraw al xs) xs :=
  fun b hb hs => packraw_ok al hok b xs hb hs

theorem appends_u64 (al : Alloc) (hok : al.ok = true) (n : Nat) : Appends (packU64 al n) (leB 8 n) :=
  appends_append al hok (by intro h; have := congrArg List.length h; simp [leB_length] at this)

theorem appends_list {f : Val → M Unit} {enc : Val → Bytes} : ∀ (l : List Val),
    (∀ v ∈ l, Appends (f v) (enc v)) → Appends (packList f l) (l.flatMap enc)
  | [], _ => Appends.pure
  | v :: vs, h => by
    rw [List.flatMap_cons]
    exact Appends.bind (h v (by simp)) (appends_list vs (fun w hw => h w (by simp [hw])))

theorem Reads.pure {α} (a : α) : Reads (M.pure a) [] a := fun b _ _ _ => by simp [M.pure]

theorem Reads.bind {α β} {m : M α} {f : α → M β} {xs ys : Bytes} {a : α} {c : β} (h1 : Reads m xs a)
    (h2 : Reads (f a) ys c) : Reads (M.bind m f) (xs ++ ys) c := by
  intro b hb r hr
  rw [List.append_assoc] at hr
  rw [bind_ok (h1 b hb _ hr), h2 _ (good_adv hb hr) r (rest_adv_of hr), adv_adv, List.length_append]

theorem Reads.bind' {α β} {m : M α} {f : α → M β} {xs : Bytes} {a : α} {c : β} (h1 : Reads m xs a)
    (h2 : f a = M.pure c) : Reads (M.bind m f) xs c := by
  have := Reads.bind h1 (h2 ▸ Reads.pure c); simpa using this

theorem Truncs.nil {α} (m : M α) : Truncs m [] := by
  intro b _ r hr h
  simp at h; exact absurd h.2 hr

theorem Truncs.bind {α β} {m : M α} {f : α → M β} {xs ys : Bytes} {a : α} (h0 : Reads m xs a) (h1 : Truncs m xs)
    (h2 : Truncs (f a) ys) : Truncs (M.bind m f) (xs ++ ys) := by
  intro b hb r hr h
  by_cases hl : b.rest.length < xs.length
  · -- cut inside xs
    have hpre : b.rest <+: xs := by
      apply List.prefix_of_prefix_length_le (l₃ := xs ++ ys) ⟨r, h⟩ ⟨ys, rfl⟩ (by omega)
    obtain ⟨r', hr'⟩ := hpre
    have hne : r' ≠ [] := by intro h0; subst h0; simp at hr'; rw [hr'] at hl; omega
    obtain ⟨e, b', he⟩ := h1 b hb r' hne hr'
    exact ⟨e, b', bind_throw he⟩
  · have hpre : xs <+: b.rest := by
      apply List.prefix_of_prefix_length_le (l₃ := xs ++ ys) ⟨ys, rfl⟩ ⟨r, h⟩ (by omega)
    obtain ⟨q, hq⟩ := hpre
    have hq' := hq.symm
    rw [← hq, List.append_assoc] at h
    have h' := List.append_cancel_left h
    obtain ⟨e, b', he⟩ := h2 _ (good_adv hb hq') r hr (by rw [rest_adv_of hq']; exact h')
    exact ⟨e, b', by rw [bind_ok (h0 b hb _ hq'), he]⟩

theorem Truncs.bind' {α β} {m : M α} {f : α → M β} {xs : Bytes} (h1 : Truncs m xs) : Truncs (M.bind m f) xs := by
  intro b hb r hr h
  obtain ⟨e, b', he⟩ := h1 b hb r hr h
  exact ⟨e, b', bind_throw he⟩

theorem reads_unpackraw {xs : Bytes} {n : Nat} (h : xs.length = n) : Reads (Buf.unpackraw n) xs xs := by
  intro b hb r hr
  have h1 := rest_length hb.inv
  rw [hr, List.length_append] at h1
  have h2 := hb.pos
  rw [unpackraw_ok hb.inv n (by omega), hr, ← h, List.take_left]

theorem reads_popoff {xs : Bytes} {n : Nat} (h : xs.length = n) : Reads (Buf.popoff n) xs xs := by
  rw [popoff_eq]; exact reads_unpackraw h

theorem truncs_unpackraw {xs : Bytes} {n : Nat} (h : xs.length = n) (hn : n < 2 ^ 63) : Truncs (Buf.unpackraw n) xs := by
  intro b hb r hr he
  have h1 := rest_length hb.inv
  have h2 := hb.pos
  have h3 := congrArg List.length he
  rw [List.length_append] at h3
  have h4 : 0 < r.length := List.length_pos_iff.mpr hr
  have h5 := hb.small
  exact ⟨.eof, b, unpackraw_throw n (by omega) (by omega)⟩

theorem truncs_popoff {xs : Bytes} {n : Nat} (h : xs.length = n) (hn : n < 2 ^ 63) : Truncs (Buf.popoff n) xs := by
  rw [popoff_eq]; exact truncs_unpackraw h hn

theorem reads_u64 {n : Nat} (h : n < W64) : Reads unpackU64 (leB 8 n) n := by
  have := Reads.bind' (f := fun bs => M.pure (leV bs)) (c := n) (reads_popoff (leB_length 8 n)) (by simp only [leV_leB8 h])
  exact this

theorem truncs_u64 (n : Nat) : Truncs unpackU64 (leB 8 n) :=
  Truncs.bind' (truncs_popoff (leB_length 8 n) (by decide))

theorem reads_bool_false : Reads decBool [0] false := by
  have := Reads.bind' (f := fun bs : Bytes => if bs = [0] then M.pure false else if bs = [1] then M.pure true else M.ub .badBool)
    (c := false) (reads_popoff (xs := [0]) (n := 1) rfl) (by simp)
  exact this

theorem reads_bool_true : Reads decBool [1] true := by
  have := Reads.bind' (f := fun bs : Bytes => if bs = [0] then M.pure false else if bs = [1] then M.pure true else M.ub .badBool)
    (c := true) (reads_popoff (xs := [1]) (n := 1) rfl) (by simp)
  exact this

theorem truncs_bool (x : UInt8) : Truncs decBool [x] :=
  Truncs.bind' (truncs_popoff (xs := [x]) rfl (by decide))

theorem reads_rawInto {xs : Bytes} {cap n : Nat} (h : xs.length = n) (hc : n ≤ cap) : Reads (unpackrawInto cap n) xs xs := by
  intro b hb r hr
  have h1 := rest_length hb.inv
  rw [hr, List.length_append] at h1
  have h2 := hb.pos
  have h3 := hb.small
  have e1 : (n + b.pos) % W64 = n + b.pos := Nat.mod_eq_of_lt (by omega)
  have e2 : ¬ (n + b.pos > b.size) := by omega
  have e3 : ¬ (cap < n) := by omega
  simp only [unpackrawInto, e1, e2, e3, if_false]
  exact reads_unpackraw h b hb r hr

theorem truncs_rawInto {xs : Bytes} {cap n : Nat} (h : xs.length = n) (hn : n < 2 ^ 63) : Truncs (unpackrawInto cap n) xs := by
  intro b hb r hr he
  have h1 := rest_length hb.inv
  have h2 := hb.pos
  have h3 := congrArg List.length he
  rw [List.length_append] at h3
  have h4 : 0 < r.length := List.length_pos_iff.mpr hr
  have h5 := hb.small
  have e1 : (n + b.pos) % W64 = n + b.pos := Nat.mod_eq_of_lt (by omega)
  have e2 : n + b.pos > b.size := by omega
  exact ⟨.eof, b, by simp only [unpackrawInto, e1, e2, if_true]⟩

theorem str_bounds {lim w n : Nat} (hw : 0 < w) (hlim : lim < 2 ^ 63) (h : w * (n + 1) ≤ lim) :
    n + 1 < W64 ∧ w * n < W64 ∧ w * n < 2 ^ 63 := by
  have h1 : n + 1 ≤ w * (n + 1) := Nat.le_mul_of_pos_left _ hw
  have h2 : w * n ≤ w * (n + 1) := Nat.mul_le_mul_left _ (by omega)
  omega

theorem reads_str {lim w n : Nat} (hw : 0 < w) (hlim : lim < 2 ^ 63) {l : Bytes} (hl : l.length = w * n)
    (hle : w * (n + 1) ≤ lim) : Reads (decStr lim w) (leB 8 n ++ l) (some l) := by
  obtain ⟨h1, h2, h3⟩ := str_bounds hw hlim hle
  apply Reads.bind (reads_u64 (by omega))
  have e1 : (n + 1) % W64 = n + 1 := Nat.mod_eq_of_lt h1
  have e2 : w * n % W64 = w * n := Nat.mod_eq_of_lt h2
  have e3 : ¬ (lim < w * (n + 1)) := by omega
  have e4 : n + 1 ≠ 0 := by omega
  simp only [e1, e2, e3, if_false, e4]
  exact Reads.bind' (f := fun bs => M.pure (some bs)) (reads_rawInto hl (Nat.mul_le_mul_left _ (by omega))) rfl

theorem truncs_str {lim w n : Nat} (hw : 0 < w) (hlim : lim < 2 ^ 63) {l : Bytes} (hl : l.length = w * n)
    (hle : w * (n + 1) ≤ lim) : Truncs (decStr lim w) (leB 8 n ++ l) := by
  obtain ⟨h1, h2, h3⟩ := str_bounds hw hlim hle
  apply Truncs.bind (reads_u64 (by omega)) (truncs_u64 n)
  have e1 : (n + 1) % W64 = n + 1 := Nat.mod_eq_of_lt h1
  have e2 : w * n % W64 = w * n := Nat.mod_eq_of_lt h2
  have e3 : ¬ (lim < w * (n + 1)) := by omega
  simp only [e1, e2, e3, if_false]
  exact Truncs.bind' (truncs_rawInto hl h3)

/-! ### loops -/

section loops
variable {enc : Val → Bytes}

theorem reads_decN {f : M Val} {g : Val → Val} : ∀ (l : List Val) (n : Nat), l.length = n →
    (∀ v ∈ l, Reads f (enc v) (g v)) → Reads (decN f n) (l.flatMap enc) (l.map g)
  | [], _, hn, _ => by subst hn; exact Reads.pure _
  | v :: vs, _, hn, h => by
    subst hn
    rw [List.flatMap_cons]
    exact Reads.bind (h v (by simp)) (Reads.bind' (reads_decN vs _ rfl (fun w hw => h w (by simp [hw]))) rfl)

theorem truncs_decN {f : M Val} {g : Val → Val} : ∀ (l : List Val) (n : Nat), l.length = n →
    (∀ v ∈ l, Reads f (enc v) (g v)) → (∀ v ∈ l, Truncs f (enc v)) → Truncs (decN f n) (l.flatMap enc)
  | [], _, hn, _, _ => by subst hn; exact Truncs.nil _
  | v :: vs, _, hn, h, k => by
    subst hn
    rw [List.flatMap_cons]
    exact Truncs.bind (h v (by simp)) (k v (by simp))
      (Truncs.bind' (truncs_decN vs _ rfl (fun w hw => h w (by simp [hw])) (fun w hw => k w (by simp [hw]))))

theorem reads_decIn {f : Val → M Val} {g : Val → Val → Val} {P : Val → Prop} : ∀ (ds l : List Val), ds.length = l.length →
    (∀ d ∈ ds, P d) → (∀ d v, P d → v ∈ l → Reads (f d) (enc v) (g d v)) →
    Reads (decIn f ds) (l.flatMap enc) (List.zipWith g ds l)
  | [], [], _, _, _ => Reads.pure _
  | d :: ds, v :: vs, hn, hp, h => by
    rw [List.flatMap_cons]
    exact Reads.bind (h d v (hp d (by simp)) (by simp)) (Reads.bind' (reads_decIn ds vs (by simpa using hn)
      (fun x hx => hp x (by simp [hx])) (fun d' w hd hw => h d' w hd (by simp [hw]))) rfl)
  | [], _ :: _, hn, _, _ => by simp at hn
  | _ :: _, [], hn, _, _ => by simp at hn

theorem truncs_decIn {f : Val → M Val} {g : Val → Val → Val} {P : Val → Prop} : ∀ (ds l : List Val), ds.length = l.length →
    (∀ d ∈ ds, P d) → (∀ d v, P d → v ∈ l → Reads (f d) (enc v) (g d v)) →
    (∀ d v, P d → v ∈ l → Truncs (f d) (enc v)) → Truncs (decIn f ds) (l.flatMap enc)
  | [], [], _, _, _, _ => Truncs.nil _
  | d :: ds, v :: vs, hn, hp, h, k => by
    rw [List.flatMap_cons]
    exact Truncs.bind (h d v (hp d (by simp)) (by simp)) (k d v (hp d (by simp)) (by simp))
      (Truncs.bind' (truncs_decIn ds vs (by simpa using hn)
      (fun x hx => hp x (by simp [hx])) (fun d' w hd hw => h d' w hd (by simp [hw]))
      (fun d' w hd hw => k d' w hd (by simp [hw]))))
  | [], _ :: _, hn, _, _, _ => by simp at hn
  | _ :: _, [], hn, _, _, _ => by simp at hn

theorem reads_decAssoc {f : M Val} {g : Val → Val} {put : Val → List Val → List Val} :
    ∀ (l : List Val) (n : Nat) (acc : List Val), l.length = n →
    (∀ v ∈ l, Reads f (enc v) (g v)) →
    Reads (decAssoc f put n acc) (l.flatMap enc) ((l.map g).foldl (fun a v => put v a) acc)
  | [], _, _, hn, _ => by subst hn; exact Reads.pure _
  | v :: vs, _, acc, hn, h => by
    subst hn
    rw [List.flatMap_cons]
    exact Reads.bind (h v (by simp)) (reads_decAssoc vs _ _ rfl (fun w hw => h w (by simp [hw])))

theorem truncs_decAssoc {f : M Val} {g : Val → Val} {put : Val → List Val → List Val} :
    ∀ (l : List Val) (n : Nat) (acc : List Val), l.length = n →
    (∀ v ∈ l, Reads f (enc v) (g v)) → (∀ v ∈ l, Truncs f (enc v)) →
    Truncs (decAssoc f put n acc) (l.flatMap enc)
  | [], _, _, hn, _, _ => by subst hn; exact Truncs.nil _
  | v :: vs, _, acc, hn, h, k => by
    subst hn
    rw [List.flatMap_cons]
    exact Truncs.bind (h v (by simp)) (k v (by simp)) (truncs_decAssoc vs _ _ rfl (fun w hw => h w (by simp [hw]))
      (fun w hw => k w (by simp [hw])))

theorem reads_thread {f : Val → M Val} {g : Val → Val → Val} {P : Val → Prop} : ∀ (l : List Val) (n : Nat) (x : Val),
    l.length = n → P x → (∀ d v, P d → v ∈ l → Reads (f d) (enc v) (g d v)) →
    (∀ d v, P d → v ∈ l → P (g d v)) → Reads (decThread f n x) (l.flatMap enc) ()
  | [], _, _, hn, _, _, _ => by subst hn; exact Reads.pure _
  | v :: vs, _, x, hn, hx, h, k => by
    subst hn
    rw [List.flatMap_cons]
    exact Reads.bind (h x v hx (by simp)) (reads_thread vs _ _ rfl (k x v hx (by simp))
      (fun d w hd hw => h d w hd (by simp [hw])) (fun d w hd hw => k d w hd (by simp [hw])))

theorem truncs_thread {f : Val → M Val} {g : Val → Val → Val} {P : Val → Prop} : ∀ (l : List Val) (n : Nat) (x : Val),
    l.length = n → P x → (∀ d v, P d → v ∈ l → Reads (f d) (enc v) (g d v)) →
    (∀ d v, P d → v ∈ l → P (g d v)) → (∀ d v, P d → v ∈ l → Truncs (f d) (enc v)) →
    Truncs (decThread f n x) (l.flatMap enc)
  | [], _, _, hn, _, _, _, _ => by subst hn; exact Truncs.nil _
  | v :: vs, _, x, hn, hx, h, k, q => by
    subst hn
    rw [List.flatMap_cons]
    exact Truncs.bind (h x v hx (by simp)) (q x v hx (by simp)) (truncs_thread vs _ _ rfl (k x v hx (by simp))
      (fun d w hd hw => h d w hd (by simp [hw])) (fun d w hd hw => k d w hd (by simp [hw]))
      (fun d w hd hw => q d w hd (by simp [hw])))

theorem reads_repM {f : M Unit} : ∀ (l : List Val) (n : Nat), l.length = n → (∀ v ∈ l, Reads f (enc v) ()) →
    Reads (repM f n) (l.flatMap enc) ()
  | [], _, hn, _ => by subst hn; exact Reads.pure _
  | v :: vs, _, hn, h => by
    subst hn
    rw [List.flatMap_cons]
    exact Reads.bind (h v (by simp)) (reads_repM vs _ rfl (fun w hw => h w (by simp [hw])))

theorem truncs_repM {f : M Unit} : ∀ (l : List Val) (n : Nat), l.length = n → (∀ v ∈ l, Reads f (enc v) ()) →
    (∀ v ∈ l, Truncs f (enc v)) → Truncs (repM f n) (l.flatMap enc)
  | [], _, hn, _, _ => by subst hn; exact Truncs.nil _
  | v :: vs, _, hn, h, k => by
    subst hn
    rw [List.flatMap_cons]
    exact Truncs.bind (h v (by simp)) (k v (by simp)) (truncs_repM vs _ rfl (fun w hw => h w (by simp [hw]))
      (fun w hw => k w (by simp [hw])))

end loops

/-- Reading single characters one at a time. -/
theorem reads_chars1 : ∀ (l : Bytes), Reads (repM (M.bind (Buf.popoff 1) fun _ => M.pure ()) l.length) l ()
  | [] => Reads.pure _
  | x :: xs => by
    have h : Reads (M.bind (Buf.popoff 1) fun _ => M.pure ()) [x] () :=
      Reads.bind' (reads_popoff (xs := [x]) rfl) rfl
    exact Reads.bind (xs := [x]) h (reads_chars1 xs)

theorem truncs_chars1 : ∀ (l : Bytes), Truncs (repM (M.bind (Buf.popoff 1) fun _ => M.pure ()) l.length) l
  | [] => Truncs.nil _
  | x :: xs => by
    have h : Reads (M.bind (Buf.popoff 1) fun _ => M.pure ()) [x] () :=
      Reads.bind' (reads_popoff (xs := [x]) rfl) rfl
    have h' : Truncs (M.bind (Buf.popoff 1) fun _ => M.pure ()) [x] :=
      Truncs.bind' (truncs_popoff (xs := [x]) rfl (by decide))
    exact Truncs.bind (xs := [x]) h h' (truncs_chars1 xs)

/-! ### ordered insertion -/

theorem insU_end {lt : Val → Val → Bool} {e : Val} : ∀ (l : List Val), (∀ x ∈ l, lt x e = true ∧ lt e x = false) →
    insU lt e l = l ++ [e]
  | [], _ => rfl
  | x :: xs, h => by
    obtain ⟨h1, h2⟩ := h x (by simp)
    simp only [insU, h1, h2, if_true, List.cons_append]
    rw [insU_end xs (fun y hy => h y (by simp [hy]))]
    simp

theorem insM_end {lt : Val → Val → Bool} {e : Val} : ∀ (l : List Val), (∀ x ∈ l, lt e x = false) →
    insM lt e l = l ++ [e]
  | [], _ => rfl
  | x :: xs, h => by
    have h2 := h x (by simp)
    simp only [insM, h2, List.cons_append]
    rw [insM_end xs (fun y hy => h y (by simp [hy]))]
    simp

theorem fold_insU {lt : Val → Val → Bool} : ∀ (l acc : List Val),
    (∀ x ∈ acc, ∀ y ∈ l, lt x y = true ∧ lt y x = false) → l.Pairwise (fun x y => lt x y = true ∧ lt y x = false) →
    l.foldl (fun a v => insU lt v a) acc = acc ++ l
  | [], acc, _, _ => by simp
  | e :: l, acc, h, hp => by
    rw [List.pairwise_cons] at hp
    simp only [List.foldl_cons]
    rw [insU_end acc (fun x hx => h x hx e (by simp)), fold_insU l (acc ++ [e]) _ hp.2]
    · simp
    · intro x hx y hy
      rw [List.mem_append, List.mem_singleton] at hx
      rcases hx with hx | rfl
      · exact h x hx y (by simp [hy])
      · exact hp.1 y hy

theorem fold_insM {lt : Val → Val → Bool} : ∀ (l acc : List Val),
    (∀ x ∈ acc, ∀ y ∈ l, lt y x = false) → l.Pairwise (fun x y => lt y x = false) →
    l.foldl (fun a v => insM lt v a) acc = acc ++ l
  | [], acc, _, _ => by simp
  | e :: l, acc, h, hp => by
    rw [List.pairwise_cons] at hp
    simp only [List.foldl_cons]
    rw [insM_end acc (fun x hx => h x hx e (by simp)), fold_insM l (acc ++ [e]) _ hp.2]
    · simp
    · intro x hx y hy
      rw [List.mem_append, List.mem_singleton] at hx
      rcases hx with hx | rfl
      · exact h x hx y (by simp [hy])
      · exact hp.1 y hy

/-! ### shapes -/

theorem shape_dflt : ∀ t, Shape t (dflt t)
  | .prim _ | .chars _ | .str _ | .seq _ | .assoc _ _ _ | .unit | .opt _ | .poly _ _ _ => by simp [Shape]
  | .carr n t => by
    simp only [dflt, Shape, List.length_replicate, true_and]
    intro v hv; rw [List.eq_of_mem_replicate hv]; exact shape_dflt t
  | .arr n t => by
    simp only [dflt, Shape, List.length_replicate, true_and]
    intro v hv; rw [List.eq_of_mem_replicate hv]; exact shape_dflt t
  | .pair a b => ⟨shape_dflt a, shape_dflt b⟩
  | .excl _ => by simp [Shape]
  | .cst _ => by simp [Shape]

theorem shape_elems {n : Nat} {t : Ty} {d : Val} (h : Shape (.carr n t) d) :
    ∃ l, d = .seq l ∧ l.length = n ∧ ∀ v ∈ l, Shape t v := by
  cases d <;> simp [Shape] at h
  exact ⟨_, rfl, h.1, h.2⟩

theorem shape_elems' {n : Nat} {t : Ty} {d : Val} (h : Shape (.arr n t) d) :
    ∃ l, d = .seq l ∧ l.length = n ∧ ∀ v ∈ l, Shape t v := by
  cases d <;> simp [Shape] at h
  exact ⟨_, rfl, h.1, h.2⟩

theorem shape_pair {a b : Ty} {d : Val} (h : Shape (.pair a b) d) : ∃ x y, d = .pair x y ∧ Shape a x ∧ Shape b y := by
  cases d <;> simp [Shape] at h
  exact ⟨_, _, rfl, h.1, h.2⟩

theorem mem_zipWith {f : Val → Val → Val} : ∀ {l m : List Val} {x : Val}, x ∈ List.zipWith f l m →
    ∃ a ∈ l, ∃ b ∈ m, x = f a b
  | [], _, _, h => by simp at h
  | _ :: _, [], _, h => by simp at h
  | a :: l, b :: m, x, h => by
    simp only [List.zipWith_cons_cons, List.mem_cons] at h
    rcases h with rfl | h
    · exact ⟨a, by simp, b, by simp, rfl⟩
    · obtain ⟨a', ha, b', hb, e⟩ := mem_zipWith h
      exact ⟨a', by simp [ha], b', by simp [hb], e⟩

theorem shape_restore (lim : Nat) : ∀ t d v, Shape t d → HasType lim t v → Shape t (restore t d v)
  | .prim _, _, _, _, _ | .chars _, _, _, _, _ | .str _, _, _, _, _ | .seq _, _, _, _, _ | .assoc _ _ _, _, _, _, _ 
  | .unit, _, _, _, _ | .opt _, _, _, _, _ | .poly _ _ _, _, _, _, _ | .excl _, _, _, _, _ | .cst _, _, _, _, _ => by
    simp [Shape]
  | .carr n t, d, .seq m, hd, hv => by
    obtain ⟨l, rfl, hl, hs⟩ := shape_elems hd
    simp only [HasType] at hv
    simp only [restore, Val.elems, Shape, List.length_zipWith]
    refine ⟨by omega, fun x hx => ?_⟩
    obtain ⟨a, ha, b, hb, rfl⟩ := mem_zipWith hx
    exact shape_restore lim t a b (hs a ha) (hv.2 b hb)
  | .arr n t, d, .seq m, hd, hv => by
    obtain ⟨l, rfl, hl, hs⟩ := shape_elems' hd
    simp only [HasType] at hv
    simp only [restore, Val.elems, Shape, List.length_zipWith]
    refine ⟨by omega, fun x hx => ?_⟩
    obtain ⟨a, ha, b, hb, rfl⟩ := mem_zipWith hx
    exact shape_restore lim t a b (hs a ha) (hv.2.2 b hb)
  | .pair a b, d, .pair x y, hd, hv => by
    obtain ⟨u, w, rfl, h1, h2⟩ := shape_pair hd
    exact ⟨shape_restore lim a u x h1 hv.1, shape_restore lim b w y h2 hv.2⟩

theorem shape_of_hasType (lim : Nat) : ∀ t v, HasType lim t v → Shape t v
  | .prim _, _, _ | .chars _, _, _ | .str _, _, _ | .seq _, _, _ | .assoc _ _ _, _, _ 
  | .unit, _, _ | .opt _, _, _ | .poly _ _ _, _, _ | .excl _, _, _ | .cst _, _, _ => by
    simp [Shape]
  | .carr n t, .seq m, hv => ⟨hv.1, fun x hx => shape_of_hasType lim t x (hv.2 x hx)⟩
  | .arr n t, .seq m, hv => ⟨hv.1, fun x hx => shape_of_hasType lim t x (hv.2.2 x hx)⟩
  | .pair a b, .pair x y, hv => ⟨shape_of_hasType lim a x hv.1, shape_of_hasType lim b y hv.2⟩

theorem zipWith_left {f : Val → Val → Val} : ∀ (l m : List Val), l.length = m.length →
    (∀ a b, a ∈ l → b ∈ m → f a b = b) → List.zipWith f l m = m
  | [], [], _, _ => rfl
  | a :: l, b :: m, h, hf => by
    rw [List.zipWith_cons_cons, hf a b (by simp) (by simp),
      zipWith_left l m (by simpa using h) (fun x y hx hy => hf x y (by simp [hx]) (by simp [hy]))]
  | [], _ :: _, h, _ => by simp at h
  | _ :: _, [], h, _ => by simp at h

/-- For types without excluded or const parts, `restore` is just the packed value. -/
theorem restore_plain (lim : Nat) : ∀ t d v, Plain t → Shape t d → HasType lim t v → restore t d v = v
  | .prim _, _, _, _, _, _ | .chars _, _, _, _, _, _ | .str _, _, _, _, _, _ | .unit, _, _, _, _, _ => rfl
  | .carr n t, d, .seq m, hp, hd, hv => by
    obtain ⟨l, rfl, hl, hs⟩ := shape_elems hd
    simp only [HasType] at hv
    simp only [restore, Val.elems]
    rw [zipWith_left l m (by omega) (fun a b ha hb => restore_plain lim t a b hp (hs a ha) (hv.2 b hb))]
  | .arr n t, d, .seq m, hp, hd, hv => by
    obtain ⟨l, rfl, hl, hs⟩ := shape_elems' hd
    simp only [HasType] at hv
    simp only [restore, Val.elems]
    rw [zipWith_left l m (by omega) (fun a b ha hb => restore_plain lim t a b hp (hs a ha) (hv.2.2 b hb))]
  | .seq t, d, .seq m, hp, hd, hv => by
    simp only [restore, Val.elems]
    congr 1
    conv => rhs; rw [← List.map_id m]
    apply List.map_congr_left
    intro x hx
    exact restore_plain lim t _ x hp (shape_dflt t) (hv.2 x hx)
  | .assoc lt mu t, d, .seq m, hp, hd, hv => by
    simp only [restore, Val.elems]
    congr 1
    conv => rhs; rw [← List.map_id m]
    apply List.map_congr_left
    intro x hx
    exact restore_plain lim t _ x hp (shape_dflt t) (hv.2.1 x hx)
  | .pair a b, d, .pair x y, hp, hd, hv => by
    obtain ⟨u, w, rfl, h1, h2⟩ := shape_pair hd
    simp only [restore, Val.fst, Val.snd]
    rw [restore_plain lim a u x hp.1 h1 hv.1, restore_plain lim b w y hp.2 h2 hv.2]
  | .opt t, _, .null, _, _, _ => rfl
  | .opt t, _, .ptr .unit v, hp, _, hv => by
    simp only [restore]; rw [restore_plain lim t _ v hp (shape_dflt t) hv]
  | .poly _ _ _, _, .null, _, _, _ => rfl
  | .poly kt kn f, _, .ptr k v, hp, _, hv => by
    simp only [restore]; rw [restore_plain lim (f k) _ v (hp.2 k) (shape_dflt _) hv.2.2]

end Verif
