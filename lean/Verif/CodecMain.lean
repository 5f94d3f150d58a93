import Verif.CodecLemmas
/-
Induction over the type universe: packing appends `encode`, unpacking reads it back, truncation throws,
arbitrary input is handled, `encode` is injective.
-/
namespace Verif
open Buf

theorem packs (al : Alloc) (hok : al.ok = true) (lim : Nat) : ∀ t v, WF lim t → HasType lim t v →
    Appends (packM al t v) (encode t v)
  | .prim n, .raw l, hw, hv => by
    apply appends_append al hok
    intro h; simp only [HasType] at hv; subst h; simp [WF] at *; omega
  | .chars n, .raw l, _, _ => appends_packraw al hok l
  | .str w, .raw l, _, _ => Appends.bind (appends_u64 al hok _) (appends_packraw al hok l)
  | .carr n t, .seq l, hw, hv => appends_list l (fun v h => packs al hok lim t v hw (hv.2 v h))
  | .arr n t, .seq l, hw, hv =>
    Appends.bind (appends_u64 al hok _) (appends_list l (fun v h => packs al hok lim t v hw (hv.2.2 v h)))
  | .seq t, .seq l, hw, hv =>
    Appends.bind (appends_u64 al hok _) (appends_list l (fun v h => packs al hok lim t v hw (hv.2 v h)))
  | .assoc lt mu t, .seq l, hw, hv =>
    Appends.bind (appends_u64 al hok _) (appends_list l (fun v h => packs al hok lim t v hw.1 (hv.2.1 v h)))
  | .pair a b, .pair x y, hw, hv => Appends.bind (packs al hok lim a x hw.1 hv.1) (packs al hok lim b y hw.2 hv.2)
  | .unit, .unit, _, _ => Appends.pure
  | .excl _, v, _, _ => by cases v <;> exact Appends.pure
  | .cst t, v, hw, hv => by
    have := packs al hok lim t v hw.1 (by cases v <;> exact hv)
    cases v <;> exact this
  | .opt t, .null, _, _ => appends_append al hok (by simp)
  | .opt t, .ptr .unit v, hw, hv =>
    Appends.bind (xs := [1]) (appends_append al hok (by simp)) (packs al hok lim t v hw hv)
  | .poly _ _ _, .null, _, _ => appends_append al hok (by simp)
  | .poly kt kn f, .ptr k v, hw, hv =>
    Appends.bind (xs := [1]) (appends_append al hok (by simp))
      (Appends.bind (packs al hok lim kt k hw.1 hv.1) (packs al hok lim (f k) v (hw.2.2 k hv.2.1) hv.2.2))

/-- Restoring the sorted elements of an ordered container by repeated insertion. -/
theorem fold_ins_restore {lim : Nat} {lt : Val → Val → Bool} {mu : Bool} {t : Ty} (hw : WF lim (.assoc lt mu t))
    {l : List Val} (hv : HasType lim (.assoc lt mu t) (.seq l)) :
    (l.map (restore t (dflt t))).foldl (fun a v => ins lt mu v a) [] = l.map (restore t (dflt t)) := by
  obtain ⟨-, htr, -, hir, hre⟩ := hw
  obtain ⟨-, hty, hp⟩ := hv
  cases mu with
  | true =>
    simp only [ins, if_true]
    rw [fold_insM _ [] (by simp), List.nil_append]
    rw [List.pairwise_map]
    simp only [if_true] at hp
    refine List.Pairwise.imp_of_mem ?_ hp
    intro x y hx hy h
    rw [hre y x (hty y hy) (hty x hx)]; exact h
  | false =>
    simp only [ins]
    have hp' : l.Pairwise (fun x y => lt x y = true) := hp
    show (l.map (restore t (dflt t))).foldl (fun a v => insU lt v a) [] = _
    rw [fold_insU _ [] (by simp), List.nil_append]
    rw [List.pairwise_map]
    refine List.Pairwise.imp_of_mem ?_ hp'
    intro x y hx hy h
    have tx := hty x hx
    have ty := hty y hy
    rw [hre x y tx ty, hre y x ty tx]
    refine ⟨h, ?_⟩
    cases h2 : lt y x with
    | false => rfl
    | true => have := htr x y x tx ty tx h h2; rw [hir x tx] at this; exact absurd this (by simp)

/-- Unpacking reads back exactly the encoding: mutable and const destinations. -/
theorem reads_both (lim : Nat) (hlim : lim < 2 ^ 63) (t : Ty) : WF lim t →
    (∀ d v, Shape t d → HasType lim t v → Reads (decM lim t d) (encode t v) (restore t d v)) ∧
    (ConstOK t → ∀ v, HasType lim t v → Reads (skipM lim t) (encode t v) ()) := by
  induction t with
  | prim n =>
    refine fun hw => ⟨?_, ?_⟩
    · intro d v _ hv
      cases v <;> simp only [HasType] at hv
      simp only [decM, encode, Val.bytes, restore]
      exact Reads.bind' (f := fun l => M.pure (Val.raw l)) (reads_popoff hv) rfl
    · intro _ v hv
      cases v <;> simp only [HasType] at hv
      simp only [skipM, encode, Val.bytes]
      exact Reads.bind' (reads_popoff hv) rfl
  | chars n =>
    refine fun hw => ⟨?_, ?_⟩
    · intro d v _ hv
      cases v <;> simp only [HasType] at hv
      simp only [decM, encode, Val.bytes, restore]
      exact Reads.bind' (f := fun l => M.pure (Val.raw l)) (reads_unpackraw hv) rfl
    · intro _ v hv
      cases v <;> simp only [HasType] at hv
      subst hv
      exact reads_chars1 _
  | str w =>
    refine fun hw => ⟨?_, ?_⟩
    · intro d v _ hv
      cases v <;> simp only [HasType] at hv
      obtain ⟨n, h1, h2⟩ := hv
      simp only [WF] at hw
      have e : w * n / w = n := Nat.mul_div_cancel_left n hw
      simp only [decM, encode, Val.bytes, restore, h1, e]
      exact Reads.bind' (reads_str hw hlim h1 h2) rfl
    · intro _ v hv
      cases v <;> simp only [HasType] at hv
      obtain ⟨n, h1, h2⟩ := hv
      simp only [WF] at hw
      have e : w * n / w = n := Nat.mul_div_cancel_left n hw
      simp only [skipM, encode, Val.bytes, h1, e]
      exact Reads.bind' (reads_str hw hlim h1 h2) rfl
  | carr n t ih =>
    refine fun hw => ⟨?_, ?_⟩
    · intro d v hd hv
      cases v <;> simp only [HasType] at hv
      obtain ⟨ds, rfl, hdl, hds⟩ := shape_elems hd
      simp only [decM, encode, restore, Val.elems]
      exact Reads.bind' (reads_decIn ds _ (by omega) hds
        (fun d v hd hm => (ih hw).1 d v hd (hv.2 v hm))) rfl
    · intro hc v hv
      cases v <;> simp only [HasType] at hv
      exact reads_repM _ n hv.1 (fun v hm => (ih hw).2 hc v (hv.2 v hm))
  | arr n t ih =>
    refine fun hw => ⟨?_, ?_⟩
    · intro d v hd hv
      cases v <;> simp only [HasType] at hv
      obtain ⟨ds, rfl, hdl, hds⟩ := shape_elems' hd
      simp only [decM, encode, restore, Val.elems]
      rename_i l
      have e : min l.length n = ds.length := by omega
      apply Reads.bind (reads_u64 (by omega))
      rw [e, List.take_length, List.drop_length]
      exact Reads.bind' (reads_decIn ds _ (by omega) hds
        (fun d v hd hm => (ih hw).1 d v hd (hv.2.2 v hm))) (by simp)
    · intro hc v hv
      cases v <;> simp only [HasType] at hv
      apply Reads.bind (reads_u64 (by simp only [Val.elems]; omega))
      exact reads_thread _ _ _ rfl (shape_dflt t) (fun d v hd hm => (ih hw).1 d v hd (hv.2.2 v hm))
        (fun d v hd hm => shape_restore lim t d v hd (hv.2.2 v hm))
  | seq t ih =>
    refine fun hw => ⟨?_, ?_⟩
    · intro d v hd hv
      cases v <;> simp only [HasType] at hv
      apply Reads.bind (reads_u64 hv.1)
      exact Reads.bind' (reads_decN _ _ rfl (fun v hm => (ih hw).1 _ v (shape_dflt t) (hv.2 v hm))) rfl
    · intro hc v hv
      cases v <;> simp only [HasType] at hv
      apply Reads.bind (reads_u64 hv.1)
      exact reads_thread _ _ _ rfl (shape_dflt t) (fun d v hd hm => (ih hw).1 d v hd (hv.2 v hm))
        (fun d v hd hm => shape_restore lim t d v hd (hv.2 v hm))
  | assoc lt mu t ih =>
    refine fun hw => ⟨?_, ?_⟩
    · intro d v hd hv
      cases v
      case seq l =>
        have hv' := hv
        simp only [HasType] at hv
        apply Reads.bind (reads_u64 hv.1)
        apply Reads.bind' (reads_decAssoc l _ [] rfl
          (fun v hm => (ih hw.1).1 _ v (shape_dflt t) (hv.2.1 v hm)))
        rw [fold_ins_restore hw hv']
        rfl
      all_goals simp only [HasType] at hv
    · intro hc v hv
      cases v <;> simp only [HasType] at hv
      apply Reads.bind (reads_u64 hv.1)
      exact reads_repM _ _ rfl (fun v hm => Reads.bind' ((ih hw.1).1 _ v (shape_dflt t) (hv.2.1 v hm)) rfl)
  | pair a b iha ihb =>
    refine fun hw => ⟨?_, ?_⟩
    · intro d v hd hv
      cases v <;> simp only [HasType] at hv
      obtain ⟨x, y, rfl, h1, h2⟩ := shape_pair hd
      exact Reads.bind ((iha hw.1).1 x _ h1 hv.1) (Reads.bind' ((ihb hw.2).1 y _ h2 hv.2) rfl)
    · intro hc v hv
      cases v <;> simp only [HasType] at hv
      exact Reads.bind ((iha hw.1).2 hc.1 _ hv.1) ((ihb hw.2).2 hc.2 _ hv.2)
  | unit =>
    refine fun hw => ⟨?_, ?_⟩
    · intro d v hd hv
      cases v <;> simp only [HasType] at hv
      exact Reads.pure _
    · intro hc v hv
      exact Reads.pure _
  | excl d =>
    refine fun hw => ⟨?_, ?_⟩
    · intro d' v hd hv
      exact Reads.pure _
    · intro hc v hv
      exact Reads.pure _
  | cst t ih =>
    refine fun hw => ⟨?_, ?_⟩
    · intro d v hd hv
      have hv' : HasType lim t v := by cases v <;> exact hv
      exact Reads.bind' ((ih hw.1).2 hw.2 v hv') rfl
    · intro hc v hv
      have hv' : HasType lim t v := by cases v <;> exact hv
      exact (ih hw.1).2 hw.2 v hv'
  | opt t ih =>
    refine fun hw => ⟨?_, ?_⟩
    · intro d v hd hv
      cases v with
      | null =>
        exact Reads.bind' reads_bool_false rfl
      | ptr k v =>
        cases k <;> simp only [HasType] at hv
        refine Reads.bind (xs := [1]) reads_bool_true ?_
        exact Reads.bind' ((ih hw).1 _ v (shape_dflt t) hv) rfl
      | _ => simp only [HasType] at hv
    · intro hc; exact hc.elim
  | poly kt kn f ihk ihf =>
    refine fun hw => ⟨?_, ?_⟩
    · intro d v hd hv
      cases v with
      | null =>
        exact Reads.bind' reads_bool_false rfl
      | ptr k v =>
        simp only [HasType] at hv
        refine Reads.bind (xs := [1]) reads_bool_true ?_
        have hk := (ihk hw.1).1 _ k (shape_dflt kt) hv.1
        rw [restore_plain lim kt _ k hw.2.1 (shape_dflt kt) hv.1] at hk
        simp only [if_true]
        refine Reads.bind hk ?_
        simp only [hv.2.1, if_true]
        exact Reads.bind' ((ihf k (hw.2.2 k hv.2.1)).1 _ v (shape_dflt _) hv.2.2) rfl
      | _ => simp only [HasType] at hv
    · intro hc; exact hc.elim

/-- Unpacking from a strict prefix throws: mutable and const destinations. -/
theorem truncs_both (lim : Nat) (hlim : lim < 2 ^ 63) (t : Ty) : WF lim t →
    (∀ d v, Shape t d → HasType lim t v → Truncs (decM lim t d) (encode t v)) ∧
    (ConstOK t → ∀ v, HasType lim t v → Truncs (skipM lim t) (encode t v)) := by
  induction t with
  | prim n =>
    refine fun hw => ⟨?_, ?_⟩
    · intro d v _ hv
      cases v <;> simp only [HasType] at hv
      exact Truncs.bind' (truncs_popoff hv hw.2)
    · intro _ v hv
      cases v <;> simp only [HasType] at hv
      exact Truncs.bind' (truncs_popoff hv hw.2)
  | chars n =>
    refine fun hw => ⟨?_, ?_⟩
    · intro d v _ hv
      cases v <;> simp only [HasType] at hv
      exact Truncs.bind' (truncs_unpackraw hv hw)
    · intro _ v hv
      cases v <;> simp only [HasType] at hv
      subst hv
      exact truncs_chars1 _
  | str w =>
    refine fun hw => ⟨?_, ?_⟩
    · intro d v _ hv
      cases v <;> simp only [HasType] at hv
      obtain ⟨n, h1, h2⟩ := hv
      simp only [WF] at hw
      have e : w * n / w = n := Nat.mul_div_cancel_left n hw
      simp only [decM, encode, Val.bytes, h1, e]
      exact Truncs.bind' (truncs_str hw hlim h1 h2)
    · intro _ v hv
      cases v <;> simp only [HasType] at hv
      obtain ⟨n, h1, h2⟩ := hv
      simp only [WF] at hw
      have e : w * n / w = n := Nat.mul_div_cancel_left n hw
      simp only [skipM, encode, Val.bytes, h1, e]
      exact Truncs.bind' (truncs_str hw hlim h1 h2)
  | carr n t ih =>
    refine fun hw => ⟨?_, ?_⟩
    · intro d v hd hv
      cases v <;> simp only [HasType] at hv
      obtain ⟨ds, rfl, hdl, hds⟩ := shape_elems hd
      simp only [decM, encode, Val.elems]
      exact Truncs.bind' (truncs_decIn ds _ (by omega) hds
        (fun d v hd hm => (reads_both lim hlim t hw).1 d v hd (hv.2 v hm))
        (fun d v hd hm => (ih hw).1 d v hd (hv.2 v hm)))
    · intro hc v hv
      cases v <;> simp only [HasType] at hv
      exact truncs_repM _ n hv.1 (fun v hm => (reads_both lim hlim t hw).2 hc v (hv.2 v hm))
        (fun v hm => (ih hw).2 hc v (hv.2 v hm))
  | arr n t ih =>
    refine fun hw => ⟨?_, ?_⟩
    · intro d v hd hv
      cases v <;> simp only [HasType] at hv
      obtain ⟨ds, rfl, hdl, hds⟩ := shape_elems' hd
      simp only [decM, encode, Val.elems]
      rename_i l
      have e : min l.length n = ds.length := by omega
      apply Truncs.bind (reads_u64 (by omega)) (truncs_u64 _)
      rw [e, List.take_length, List.drop_length]
      exact Truncs.bind' (truncs_decIn ds _ (by omega) hds
        (fun d v hd hm => (reads_both lim hlim t hw).1 d v hd (hv.2.2 v hm))
        (fun d v hd hm => (ih hw).1 d v hd (hv.2.2 v hm)))
    · intro hc v hv
      cases v <;> simp only [HasType] at hv
      apply Truncs.bind (reads_u64 (by simp only [Val.elems]; omega)) (truncs_u64 _)
      exact truncs_thread _ _ _ rfl (shape_dflt t)
        (fun d v hd hm => (reads_both lim hlim t hw).1 d v hd (hv.2.2 v hm))
        (fun d v hd hm => shape_restore lim t d v hd (hv.2.2 v hm))
        (fun d v hd hm => (ih hw).1 d v hd (hv.2.2 v hm))
  | seq t ih =>
    refine fun hw => ⟨?_, ?_⟩
    · intro d v hd hv
      cases v <;> simp only [HasType] at hv
      apply Truncs.bind (reads_u64 hv.1) (truncs_u64 _)
      exact Truncs.bind' (truncs_decN _ _ rfl
        (fun v hm => (reads_both lim hlim t hw).1 _ v (shape_dflt t) (hv.2 v hm))
        (fun v hm => (ih hw).1 _ v (shape_dflt t) (hv.2 v hm)))
    · intro hc v hv
      cases v <;> simp only [HasType] at hv
      apply Truncs.bind (reads_u64 hv.1) (truncs_u64 _)
      exact truncs_thread _ _ _ rfl (shape_dflt t)
        (fun d v hd hm => (reads_both lim hlim t hw).1 d v hd (hv.2 v hm))
        (fun d v hd hm => shape_restore lim t d v hd (hv.2 v hm))
        (fun d v hd hm => (ih hw).1 d v hd (hv.2 v hm))
  | assoc lt mu t ih =>
    refine fun hw => ⟨?_, ?_⟩
    · intro d v hd hv
      cases v <;> simp only [HasType] at hv
      apply Truncs.bind (reads_u64 hv.1) (truncs_u64 _)
      exact Truncs.bind' (truncs_decAssoc _ _ [] rfl
        (fun v hm => (reads_both lim hlim t hw.1).1 _ v (shape_dflt t) (hv.2.1 v hm))
        (fun v hm => (ih hw.1).1 _ v (shape_dflt t) (hv.2.1 v hm)))
    · intro hc v hv
      cases v <;> simp only [HasType] at hv
      apply Truncs.bind (reads_u64 hv.1) (truncs_u64 _)
      exact truncs_repM _ _ rfl
        (fun v hm => Reads.bind' ((reads_both lim hlim t hw.1).1 _ v (shape_dflt t) (hv.2.1 v hm)) rfl)
        (fun v hm => Truncs.bind' ((ih hw.1).1 _ v (shape_dflt t) (hv.2.1 v hm)))
  | pair a b iha ihb =>
    refine fun hw => ⟨?_, ?_⟩
    · intro d v hd hv
      cases v <;> simp only [HasType] at hv
      obtain ⟨x, y, rfl, h1, h2⟩ := shape_pair hd
      exact Truncs.bind ((reads_both lim hlim a hw.1).1 x _ h1 hv.1) ((iha hw.1).1 x _ h1 hv.1)
        (Truncs.bind' ((ihb hw.2).1 y _ h2 hv.2))
    · intro hc v hv
      cases v <;> simp only [HasType] at hv
      exact Truncs.bind ((reads_both lim hlim a hw.1).2 hc.1 _ hv.1) ((iha hw.1).2 hc.1 _ hv.1) ((ihb hw.2).2 hc.2 _ hv.2)
  | unit =>
    exact fun hw => ⟨fun d v hd hv => Truncs.nil _, fun _ v hv => Truncs.nil _⟩
  | excl d =>
    exact fun hw => ⟨fun d v hd hv => Truncs.nil _, fun _ v hv => Truncs.nil _⟩
  | cst t ih =>
    refine fun hw => ⟨?_, ?_⟩
    · intro d v hd hv
      have hv' : HasType lim t v := by cases v <;> exact hv
      exact Truncs.bind' ((ih hw.1).2 hw.2 v hv')
    · intro hc v hv
      have hv' : HasType lim t v := by cases v <;> exact hv
      exact (ih hw.1).2 hw.2 v hv'
  | opt t ih =>
    refine fun hw => ⟨?_, ?_⟩
    · intro d v hd hv
      cases v with
      | null => exact Truncs.bind' (truncs_bool 0)
      | ptr k v =>
        cases k <;> simp only [HasType] at hv
        refine Truncs.bind (xs := [1]) reads_bool_true (truncs_bool 1) ?_
        exact Truncs.bind' ((ih hw).1 _ v (shape_dflt t) hv)
      | _ => simp only [HasType] at hv
    · intro hc; exact hc.elim
  | poly kt kn f ihk ihf =>
    refine fun hw => ⟨?_, ?_⟩
    · intro d v hd hv
      cases v with
      | null => exact Truncs.bind' (truncs_bool 0)
      | ptr k v =>
        simp only [HasType] at hv
        refine Truncs.bind (xs := [1]) reads_bool_true (truncs_bool 1) ?_
        have hk := (reads_both lim hlim kt hw.1).1 _ k (shape_dflt kt) hv.1
        rw [restore_plain lim kt _ k hw.2.1 (shape_dflt kt) hv.1] at hk
        simp only [if_true]
        refine Truncs.bind hk ((ihk hw.1).1 _ k (shape_dflt kt) hv.1) ?_
        simp only [hv.2.1, if_true]
        exact Truncs.bind' ((ihf k (hw.2.2 k hv.2.1)).1 _ v (shape_dflt _) hv.2.2)
      | _ => simp only [HasType] at hv
    · intro hc; exact hc.elim

end Verif
