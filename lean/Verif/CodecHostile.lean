import Verif.CodecMain
/-
Unpacking arbitrary bytes; equality of packings.
-/
namespace Verif
open Buf

/-! ### Arbitrary input -/

/-- No eight consecutive 0xFF bytes in the contents. -/
def NoFF8 (b : Buf) : Prop := ∀ p, (b.content.drop p).take 8 ≠ List.replicate 8 255

/-- No smart pointer anywhere in the type. -/
def NoPtr : Ty → Prop
  | .prim _ | .chars _ | .str _ | .unit | .excl _ => True
  | .carr _ t | .arr _ t | .seq t | .assoc _ _ t | .cst t => NoPtr t
  | .pair a b => NoPtr a ∧ NoPtr b
  | .opt _ | .poly _ _ _ => False

/-- `m` on any buffer only moves the cursor forward within the data, and has no undefined behaviour other than
(if `bad`) testing an invalid bool. -/
def Safe (bad : Prop) {α} (m : M α) : Prop := ∀ b : Buf, Good b → NoFF8 b →
  ∃ k, b.pos + k ≤ b.size ∧ (m b).2 = b.adv k ∧ ∀ u, (m b).1 = .ub u → u = .badBool ∧ bad

theorem Safe.mono {p q : Prop} (h : p → q) {α} {m : M α} (hm : Safe p m) : Safe q m := by
  intro b hb hf
  obtain ⟨k, h1, h2, h3⟩ := hm b hb hf
  exact ⟨k, h1, h2, fun u hu => ⟨(h3 u hu).1, h (h3 u hu).2⟩⟩

theorem Safe.pure {p : Prop} {α} (a : α) : Safe p (M.pure a) :=
  fun b hb _ => ⟨0, by have := hb.pos; omega, rfl, fun u hu => by simp [M.pure] at hu⟩

theorem Safe.throw {p : Prop} {α} (e : Err) : Safe p (M.throw e : M α) :=
  fun b hb _ => ⟨0, by have := hb.pos; omega, rfl, fun u hu => by simp [M.throw] at hu⟩

theorem good_adv' {b : Buf} (hb : Good b) {k : Nat} (h : b.pos + k ≤ b.size) : Good (b.adv k) :=
  ⟨inv_adv hb.inv k h, hb.small, h⟩

theorem Safe.bind {p : Prop} {α β} {m : M α} {f : α → M β} (h1 : Safe p m) (h2 : ∀ a, Safe p (f a)) :
    Safe p (M.bind m f) := by
  intro b hb hf
  obtain ⟨k, hk, he, hu⟩ := h1 b hb hf
  rcases hm : m b with ⟨r, b'⟩
  rw [hm] at he hu
  simp only at he hu
  subst he
  cases r with
  | ok a =>
    obtain ⟨j, hj, hje, hju⟩ := h2 a (b.adv k) (good_adv' hb hk) hf
    refine ⟨k + j, by simp only [adv_pos, adv_size] at hj; omega, ?_, ?_⟩
    · simp only [M.bind, hm]; rw [hje, adv_adv]
    · simp only [M.bind, hm]; exact hju
  | throw e => exact ⟨k, hk, by simp [M.bind, hm], by simp [M.bind, hm]⟩
  | ub u =>
    refine ⟨k, hk, by simp [M.bind, hm], ?_⟩
    simp only [M.bind, hm]; intro u' h; exact hu u' (by simpa using h)

theorem safe_unpackraw {p : Prop} {n : Nat} (hn : n < 2 ^ 63) : Safe p (Buf.unpackraw n) := by
  intro b hb _
  have h1 := hb.pos
  have h2 := hb.small
  by_cases h : b.pos + n ≤ b.size
  · rw [unpackraw_ok hb.inv n h]; exact ⟨n, h, rfl, by simp⟩
  · rw [unpackraw_throw n (by omega) (by omega)]; exact ⟨0, by omega, rfl, by simp⟩

theorem safe_popoff {p : Prop} {n : Nat} (hn : n < 2 ^ 63) : Safe p (Buf.popoff n) := by
  rw [popoff_eq]; exact safe_unpackraw hn

theorem safe_u64 {p : Prop} : Safe p unpackU64 := Safe.bind (safe_popoff (by decide)) fun _ => Safe.pure _

theorem leV_max : ∀ l : Bytes, leV l = 256 ^ l.length - 1 → l = List.replicate l.length 255
  | [], _ => rfl
  | x :: xs, h => by
    have h1 := x.toNat_lt
    have h2 := leV_lt xs
    simp only [leV, List.length_cons, Nat.pow_succ] at h
    have h3 : leV xs = 256 ^ xs.length - 1 := by omega
    have h4 : x.toNat = 255 := by omega
    have h5 : x = 255 := by
      rw [← UInt8.toNat_inj]; simpa using h4
    rw [List.length_cons, List.replicate_succ, ← leV_max xs h3, ← h5]

/-- The string reader: only the declared length 2^64-1 escapes its checks. -/
theorem safe_str {p : Prop} {lim w : Nat} (hw : 0 < w) (hlim : lim < 2 ^ 63) : Safe p (decStr lim w) := by
  intro b hb hf
  have hpos := hb.pos
  have hsm := hb.small
  by_cases h8 : ¬ (b.pos + 8 ≤ b.size)
  · refine ⟨0, by omega, ?_, ?_⟩ <;>
    simp [decStr, unpackU64, M.bind, popoff_eq, unpackraw_throw (b := b) 8 (by omega) (by omega)]
  have h8 : b.pos + 8 ≤ b.size := by omega
  have hr : unpackU64 b = (.ok (leV (b.rest.take 8)), b.adv 8) := by
    simp [unpackU64, M.bind, popoff_eq, unpackraw_ok hb.inv 8 h8, M.pure]
  have hlen : (b.rest.take 8).length = 8 := by
    have := rest_length hb.inv; rw [List.length_take]; omega
  generalize hs : leV (b.rest.take 8) = size at hr
  have hlt : size < W64 := by
    have := leV_lt (b.rest.take 8); rw [hlen, hs] at this; exact this
  have hne : size ≠ W64 - 1 := by
    intro he
    apply hf b.pos
    have := leV_max (b.rest.take 8) (by rw [hlen, hs, he])
    rw [hlen] at this; exact this
  have e1 : (size + 1) % W64 = size + 1 := Nat.mod_eq_of_lt (by omega)
  have hg := good_adv' hb h8
  rw [show decStr lim w b = _ from bind_ok hr]
  simp only [e1]
  by_cases hl : lim < w * (size + 1)
  · simp only [hl, if_true]
    exact ⟨8, h8, rfl, by simp [M.throw]⟩
  · simp only [hl, if_false]
    obtain ⟨-, h2, h3⟩ := str_bounds (n := size) hw hlim (by omega)
    have e2 : w * size % W64 = w * size := Nat.mod_eq_of_lt h2
    have e3 : w * size ≤ w * (size + 1) := Nat.mul_le_mul_left _ (by omega)
    have hsafe : Safe p (unpackrawInto (w * (size + 1)) (w * size)) := by
      intro c hc _
      have g1 := hc.pos
      have g2 := hc.small
      have e4 : (w * size + c.pos) % W64 = w * size + c.pos := Nat.mod_eq_of_lt (by omega)
      simp only [unpackrawInto, e4]
      by_cases hh : w * size + c.pos > c.size
      · simp only [hh, if_true]; exact ⟨0, by omega, rfl, by simp⟩
      · simp only [hh, if_false, show ¬ w * (size + 1) < w * size by omega]
        rw [unpackraw_ok hc.inv _ (by omega)]
        exact ⟨_, by omega, rfl, by simp⟩
    rw [e2]
    obtain ⟨j, hj, hje, hju⟩ := Safe.bind (β := Option Bytes) hsafe
      (fun bs => by
        have : size + 1 ≠ 0 := by omega
        simp only [this, if_false]
        exact Safe.pure (some bs) : ∀ bs, Safe p (if size + 1 = 0 then M.pure none else M.pure (some bs))) (b.adv 8) hg hf
    refine ⟨8 + j, by simp only [adv_pos, adv_size] at hj; omega, ?_, hju⟩
    rw [hje, adv_adv]

theorem safe_bool {p : Prop} (hp : p) : Safe p decBool := by
  apply Safe.bind (safe_popoff (by decide))
  intro bs
  split
  · exact Safe.pure _
  · split
    · exact Safe.pure _
    · exact fun b hb _ => ⟨0, by have := hb.pos; omega, rfl, fun u hu => ⟨by simp [M.ub] at hu; exact hu.symm, hp⟩⟩

theorem safe_decN {p : Prop} {f : M Val} (h : Safe p f) : ∀ n, Safe p (decN f n)
  | 0 => Safe.pure _
  | n + 1 => Safe.bind h fun _ => Safe.bind (safe_decN h n) fun _ => Safe.pure _

theorem safe_decIn {p : Prop} {f : Val → M Val} (h : ∀ d, Safe p (f d)) : ∀ l, Safe p (decIn f l)
  | [] => Safe.pure _
  | d :: ds => Safe.bind (h d) fun _ => Safe.bind (safe_decIn h ds) fun _ => Safe.pure _

theorem safe_decAssoc {p : Prop} {f : M Val} (h : Safe p f) (put : Val → List Val → List Val) :
    ∀ n acc, Safe p (decAssoc f put n acc)
  | 0, _ => Safe.pure _
  | n + 1, _ => Safe.bind h fun _ => safe_decAssoc h put n _

theorem safe_thread {p : Prop} {f : Val → M Val} (h : ∀ d, Safe p (f d)) : ∀ n x, Safe p (decThread f n x)
  | 0, _ => Safe.pure _
  | n + 1, x => Safe.bind (h x) fun _ => safe_thread h n _

theorem safe_repM {p : Prop} {f : M Unit} (h : Safe p f) : ∀ n, Safe p (repM f n)
  | 0 => Safe.pure _
  | n + 1 => Safe.bind h fun _ => safe_repM h n

theorem safe_both (lim : Nat) (hlim : lim < 2 ^ 63) (t : Ty) : WF lim t →
    (∀ d, Safe (¬ NoPtr t) (decM lim t d)) ∧ Safe (¬ NoPtr t) (skipM lim t) := by
  induction t with
  | prim n =>
    exact fun hw => ⟨fun d => Safe.bind (safe_popoff hw.2) fun _ => Safe.pure _,
      Safe.bind (safe_popoff hw.2) fun _ => Safe.pure _⟩
  | chars n =>
    exact fun hw => ⟨fun d => Safe.bind (safe_unpackraw hw) fun _ => Safe.pure _,
      safe_repM (Safe.bind (safe_popoff (by decide)) fun _ => Safe.pure _) n⟩
  | str w =>
    refine fun hw => ⟨fun d => Safe.bind (safe_str hw hlim) fun o => ?_, Safe.bind (safe_str hw hlim) fun _ => Safe.pure _⟩
    cases o <;> exact Safe.pure _
  | carr n t ih =>
    exact fun hw => ⟨fun d => Safe.bind (safe_decIn (ih hw).1 _) fun _ => Safe.pure _, safe_repM (ih hw).2 n⟩
  | arr n t ih =>
    exact fun hw => ⟨fun d => Safe.bind safe_u64 fun _ => Safe.bind (safe_decIn (ih hw).1 _) fun _ => Safe.pure _,
      Safe.bind safe_u64 fun _ => safe_thread (ih hw).1 _ _⟩
  | seq t ih =>
    exact fun hw => ⟨fun d => Safe.bind safe_u64 fun _ => Safe.bind (safe_decN ((ih hw).1 _) _) fun _ => Safe.pure _,
      Safe.bind safe_u64 fun _ => safe_thread (ih hw).1 _ _⟩
  | assoc lt mu t ih =>
    exact fun hw => ⟨fun d => Safe.bind safe_u64 fun _ => Safe.bind (safe_decAssoc ((ih hw.1).1 _) _ _ _) fun _ => Safe.pure _,
      Safe.bind safe_u64 fun _ => safe_repM (Safe.bind ((ih hw.1).1 _) fun _ => Safe.pure _) _⟩
  | pair a b iha ihb =>
    intro hw
    have m1 : ¬ NoPtr a → ¬ NoPtr (.pair a b) := fun h k => h k.1
    have m2 : ¬ NoPtr b → ¬ NoPtr (.pair a b) := fun h k => h k.2
    exact ⟨fun d => Safe.bind (((iha hw.1).1 _).mono m1) fun _ => Safe.bind (((ihb hw.2).1 _).mono m2) fun _ => Safe.pure _,
      Safe.bind ((iha hw.1).2.mono m1) fun _ => (ihb hw.2).2.mono m2⟩
  | unit => exact fun hw => ⟨fun d => Safe.pure _, Safe.pure _⟩
  | excl d => exact fun hw => ⟨fun d => Safe.pure _, Safe.pure _⟩
  | cst t ih =>
    exact fun hw => ⟨fun d => Safe.bind (ih hw.1).2 fun _ => Safe.pure _, (ih hw.1).2⟩
  | opt t ih =>
    refine fun hw => ⟨fun d => Safe.bind (safe_bool (by simp [NoPtr])) fun v => ?_, Safe.throw _⟩
    split
    · exact Safe.bind (((ih hw).1 _).mono (by simp [NoPtr])) fun _ => Safe.pure _
    · exact Safe.pure _
  | poly kt kn f ihk ihf =>
    refine fun hw => ⟨fun d => Safe.bind (safe_bool (by simp [NoPtr])) fun v => ?_, Safe.throw _⟩
    split
    · refine Safe.bind (((ihk hw.1).1 _).mono (by simp [NoPtr])) fun k => ?_
      split
      · rename_i hk
        exact Safe.bind (((ihf k (hw.2.2 k hk)).1 _).mono (by simp [NoPtr])) fun _ => Safe.pure _
      · exact Safe.throw _
    · exact Safe.pure _

/-! ### Equal packings -/

/-- Pairwise related lists of the same length. -/
def Rel2 (R : Val → Val → Prop) : List Val → List Val → Prop
  | [], [] => True
  | x :: xs, y :: ys => R x y ∧ Rel2 R xs ys
  | _, _ => False

/-- Equal as far as serialised members go. -/
def Agree : Ty → Val → Val → Prop
  | .carr _ t, x, y => Rel2 (Agree t) x.elems y.elems
  | .arr _ t, x, y => Rel2 (Agree t) x.elems y.elems
  | .seq t, x, y => Rel2 (Agree t) x.elems y.elems
  | .assoc _ _ t, x, y => Rel2 (Agree t) x.elems y.elems
  | .pair a b, x, y => Agree a x.fst y.fst ∧ Agree b x.snd y.snd
  | .excl _, _, _ => True
  | .cst t, x, y => Agree t x y
  | .opt t, .ptr _ x, .ptr _ y => Agree t x y
  | .opt _, x, y => x = y
  | .poly kt _ f, .ptr k x, .ptr l y => Agree kt k l ∧ k = l ∧ Agree (f k) x y
  | .poly _ _ _, x, y => x = y
  | _, x, y => x = y

/-- Equal packings of `t`, up to what follows. -/
def Inj (lim : Nat) (t : Ty) : Prop := ∀ x y, HasType lim t x → HasType lim t y → ∀ r s,
  (encode t x ++ r = encode t y ++ s ↔ Agree t x y ∧ r = s)

theorem inj_list {lim : Nat} {t : Ty} (hi : Inj lim t) : ∀ l m, l.length = m.length → (∀ v ∈ l, HasType lim t v) →
    (∀ v ∈ m, HasType lim t v) → ∀ r s,
    (l.flatMap (encode t) ++ r = m.flatMap (encode t) ++ s ↔ Rel2 (Agree t) l m ∧ r = s)
  | [], [], _, _, _, r, s => by simp [Rel2]
  | x :: l, y :: m, h, hl, hm, r, s => by
    simp only [List.flatMap_cons, List.append_assoc, Rel2]
    rw [hi x y (hl x (by simp)) (hm y (by simp)),
      inj_list hi l m (by simpa using h) (fun v hv => hl v (by simp [hv])) (fun v hv => hm v (by simp [hv])), and_assoc]
  | [], _ :: _, h, _, _, _, _ => by simp at h
  | _ :: _, [], h, _, _, _, _ => by simp at h

theorem rel2_length {R : Val → Val → Prop} : ∀ l m, Rel2 R l m → l.length = m.length
  | [], [], _ => rfl
  | _ :: l, _ :: m, h => by simp [rel2_length l m h.2]
  | [], _ :: _, h => h.elim
  | _ :: _, [], h => h.elim

theorem append_eq_of_length {a b r s : Bytes} (h : a.length = b.length) : a ++ r = b ++ s ↔ a = b ∧ r = s := by
  constructor
  · exact fun e => List.append_inj e h
  · rintro ⟨rfl, rfl⟩; rfl

theorem inj_counted {lim : Nat} {t : Ty} (hi : Inj lim t) (l m : List Val) (hl : ∀ v ∈ l, HasType lim t v)
    (hm : ∀ v ∈ m, HasType lim t v) (h1 : l.length < W64) (h2 : m.length < W64) (r s : Bytes) :
    ((leB 8 l.length ++ l.flatMap (encode t)) ++ r = (leB 8 m.length ++ m.flatMap (encode t)) ++ s ↔
      Rel2 (Agree t) l m ∧ r = s) := by
  rw [List.append_assoc, List.append_assoc, append_eq_of_length (by simp [leB_length])]
  constructor
  · rintro ⟨h, k⟩
    have e := leB8_inj h1 h2 h
    exact (inj_list hi l m e hl hm r s).1 k
  · rintro ⟨h, k⟩
    have e := rel2_length l m h
    exact ⟨by rw [e], (inj_list hi l m e hl hm r s).2 ⟨h, k⟩⟩

theorem agree_plain (lim : Nat) (t : Ty) : Plain t → ∀ x y, HasType lim t x → HasType lim t y → (Agree t x y ↔ x = y) := by
  have rel : ∀ (t : Ty), (∀ x y, HasType lim t x → HasType lim t y → (Agree t x y ↔ x = y)) → ∀ l m : List Val,
      (∀ v ∈ l, HasType lim t v) → (∀ v ∈ m, HasType lim t v) → (Rel2 (Agree t) l m ↔ l = m) := by
    intro t h l
    induction l with
    | nil => intro m _ _; cases m <;> simp [Rel2]
    | cons x l ih =>
      intro m hl hm
      cases m with
      | nil => simp [Rel2]
      | cons y m =>
        simp only [Rel2, List.cons.injEq]
        rw [h x y (hl x (by simp)) (hm y (by simp)), ih m (fun v hv => hl v (by simp [hv])) (fun v hv => hm v (by simp [hv]))]
  induction t with
  | prim n => intro _ x y _ _; simp [Agree]
  | chars n => intro _ x y _ _; simp [Agree]
  | str w => intro _ x y _ _; simp [Agree]
  | carr n t ih =>
    intro hp x y hx hy
    cases x <;> simp only [HasType] at hx
    cases y <;> simp only [HasType] at hy
    simp only [Agree, Val.elems, Val.seq.injEq]
    exact rel t (ih hp) _ _ hx.2 hy.2
  | arr n t ih =>
    intro hp x y hx hy
    cases x <;> simp only [HasType] at hx
    cases y <;> simp only [HasType] at hy
    simp only [Agree, Val.elems, Val.seq.injEq]
    exact rel t (ih hp) _ _ hx.2.2 hy.2.2
  | seq t ih =>
    intro hp x y hx hy
    cases x <;> simp only [HasType] at hx
    cases y <;> simp only [HasType] at hy
    simp only [Agree, Val.elems, Val.seq.injEq]
    exact rel t (ih hp) _ _ hx.2 hy.2
  | assoc lt mu t ih =>
    intro hp x y hx hy
    cases x <;> simp only [HasType] at hx
    cases y <;> simp only [HasType] at hy
    simp only [Agree, Val.elems, Val.seq.injEq]
    exact rel t (ih hp) _ _ hx.2.1 hy.2.1
  | pair a b iha ihb =>
    intro hp x y hx hy
    cases x <;> simp only [HasType] at hx
    cases y <;> simp only [HasType] at hy
    simp only [Agree, Val.fst, Val.snd, Val.pair.injEq]
    rw [iha hp.1 _ _ hx.1 hy.1, ihb hp.2 _ _ hx.2 hy.2]
  | unit => intro _ x y _ _; simp [Agree]
  | excl d => intro hp; exact hp.elim
  | cst t ih => intro hp; exact hp.elim
  | opt t ih =>
    intro hp x y hx hy
    cases x with
    | null => simp [Agree]
    | ptr k v =>
      cases k <;> simp only [HasType] at hx
      cases y with
      | null => simp [Agree]
      | ptr l w =>
        cases l <;> simp only [HasType] at hy
        simp only [Agree, Val.ptr.injEq, true_and]
        exact ih hp v w hx hy
      | _ => simp only [HasType] at hy
    | _ => simp only [HasType] at hx
  | poly kt kn f ihk ihf =>
    intro hp x y hx hy
    cases x with
    | null => simp [Agree]
    | ptr k v =>
      simp only [HasType] at hx
      cases y with
      | null => simp [Agree]
      | ptr l w =>
        simp only [HasType] at hy
        simp only [Agree, Val.ptr.injEq]
        rw [ihk hp.1 k l hx.1 hy.1]
        constructor
        · rintro ⟨h, -, h3⟩
          subst h
          exact ⟨rfl, (ihf k (hp.2 k) v w hx.2.2 hy.2.2).1 h3⟩
        · rintro ⟨h, h3⟩
          subst h
          exact ⟨rfl, rfl, (ihf k (hp.2 k) v w hx.2.2 hy.2.2).2 h3⟩
      | _ => simp only [HasType] at hy
    | _ => simp only [HasType] at hx

/-- Packings are prefix-injective: equal exactly for values that agree. -/
theorem inj (lim : Nat) (hlim : lim < 2 ^ 63) (t : Ty) : WF lim t → Inj lim t := by
  induction t with
  | prim n =>
    intro hw x y hx hy r s
    cases x <;> simp only [HasType] at hx
    cases y <;> simp only [HasType] at hy
    simp only [encode, Val.bytes, Agree, Val.raw.injEq]
    exact append_eq_of_length (by omega)
  | chars n =>
    intro hw x y hx hy r s
    cases x <;> simp only [HasType] at hx
    cases y <;> simp only [HasType] at hy
    simp only [encode, Val.bytes, Agree, Val.raw.injEq]
    exact append_eq_of_length (by omega)
  | str w =>
    intro hw x y hx hy r s
    simp only [WF] at hw
    cases x <;> simp only [HasType] at hx
    cases y <;> simp only [HasType] at hy
    obtain ⟨n, h1, h2⟩ := hx
    obtain ⟨m, h3, h4⟩ := hy
    have b1 := str_bounds hw hlim h2
    have b2 := str_bounds hw hlim h4
    simp only [encode, Val.bytes, Agree, Val.raw.injEq, List.append_assoc, h1, h3, Nat.mul_div_cancel_left _ hw]
    rw [append_eq_of_length (by simp [leB_length])]
    constructor
    · rintro ⟨h, k⟩
      have e := leB8_inj (by omega) (by omega) h
      subst e
      exact (append_eq_of_length (by omega)).1 k
    · rintro ⟨h, k⟩
      subst h k
      have : n = m := Nat.eq_of_mul_eq_mul_left hw (by omega)
      subst this
      exact ⟨rfl, rfl⟩
  | carr n t ih =>
    intro hw x y hx hy r s
    cases x <;> simp only [HasType] at hx
    cases y <;> simp only [HasType] at hy
    exact inj_list (ih hw) _ _ (by omega) hx.2 hy.2 r s
  | arr n t ih =>
    intro hw x y hx hy r s
    cases x <;> simp only [HasType] at hx
    cases y <;> simp only [HasType] at hy
    exact inj_counted (ih hw) _ _ hx.2.2 hy.2.2 (by omega) (by omega) r s
  | seq t ih =>
    intro hw x y hx hy r s
    cases x <;> simp only [HasType] at hx
    cases y <;> simp only [HasType] at hy
    exact inj_counted (ih hw) _ _ hx.2 hy.2 hx.1 hy.1 r s
  | assoc lt mu t ih =>
    intro hw x y hx hy r s
    cases x <;> simp only [HasType] at hx
    cases y <;> simp only [HasType] at hy
    exact inj_counted (ih hw.1) _ _ hx.2.1 hy.2.1 hx.1 hy.1 r s
  | pair a b iha ihb =>
    intro hw x y hx hy r s
    cases x <;> simp only [HasType] at hx
    cases y <;> simp only [HasType] at hy
    simp only [encode, Agree, Val.fst, Val.snd, List.append_assoc]
    rw [iha hw.1 _ _ hx.1 hy.1, ihb hw.2 _ _ hx.2 hy.2, and_assoc]
  | unit =>
    intro hw x y hx hy r s
    cases x <;> simp only [HasType] at hx
    cases y <;> simp only [HasType] at hy
    simp [encode, Agree]
  | excl d => intro hw x y hx hy r s; simp [encode, Agree]
  | cst t ih =>
    intro hw x y hx hy r s
    have hx' : HasType lim t x := by cases x <;> exact hx
    have hy' : HasType lim t y := by cases y <;> exact hy
    exact ih hw.1 x y hx' hy' r s
  | opt t ih =>
    intro hw x y hx hy r s
    cases x with
    | null =>
      cases y with
      | null => simp [encode, Agree]
      | ptr l w => simp [encode, Agree]
      | _ => simp only [HasType] at hy
    | ptr k v =>
      cases k <;> simp only [HasType] at hx
      cases y with
      | null => simp [encode, Agree]
      | ptr l w =>
        cases l <;> simp only [HasType] at hy
        simp only [encode, Agree, List.cons_append, List.cons.injEq, true_and]
        exact ih hw v w hx hy r s
      | _ => simp only [HasType] at hy
    | _ => simp only [HasType] at hx
  | poly kt kn f ihk ihf =>
    intro hw x y hx hy r s
    cases x with
    | null =>
      cases y with
      | null => simp [encode, Agree]
      | ptr l w => simp [encode, Agree]
      | _ => simp only [HasType] at hy
    | ptr k v =>
      simp only [HasType] at hx
      cases y with
      | null => simp [encode, Agree]
      | ptr l w =>
        simp only [HasType] at hy
        simp only [encode, Agree, List.cons_append, List.cons.injEq, true_and, List.append_assoc]
        rw [ihk hw.1 k l hx.1 hy.1]
        constructor
        · rintro ⟨h, h3⟩
          have e := (agree_plain lim kt hw.2.1 k l hx.1 hy.1).1 h
          subst e
          have := (ihf k (hw.2.2 k hx.2.1) v w hx.2.2 hy.2.2 r s).1 h3
          exact ⟨⟨h, rfl, this.1⟩, this.2⟩
        · rintro ⟨⟨h, e, h3⟩, rfl⟩
          subst e
          exact ⟨h, (ihf k (hw.2.2 k hx.2.1) v w hx.2.2 hy.2.2 r r).2 ⟨h3, rfl⟩⟩
      | _ => simp only [HasType] at hy
    | _ => simp only [HasType] at hx

end Verif
