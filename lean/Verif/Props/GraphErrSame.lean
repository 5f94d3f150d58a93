import Verif.GraphErr
/- C102: where nothing is left behind, the model with static variables does what the model of C13 does. -/
namespace Verif.GraphErr
open Verif.Graph (Fld Kind Slot)

/-! ### Specification -/

/-- A state as it is seen by the model of C13, `Verif.Graph`. -/
def C102.seen (st : USt) : Graph.USt := ⟨st.inp, st.heap, st.map, st.restart, st.rootv⟩

/-- The same for packing; `deep` is a count that only C13 has. -/
def C102.SeenP (st : PSt) (u : Graph.PSt) : Prop := st.map = u.map ∧ st.restart = u.restart ∧ st.out = u.out

open C102

/-! ### Unpacking -/

private def Corr {α : Type} (l rm : Nat) (r : Res USt α) (o : Graph.Out (α × Graph.USt)) : Prop :=
  match o with
  | .ok (a, u) => ∃ st', r = .ok a st' ∧ seen st' = u ∧ st'.level = l ∧ st'.rmax = rm
  | .throw => ∃ st', r = .throw st'
  | .ub => r = .ub
  | .fuel => True

private theorem Corr.bind {α β : Type} {l rm l' rm' : Nat} {r : Res USt α} {o : Graph.Out (α × Graph.USt)}
    {f : α → USt → Res USt β} {g : α × Graph.USt → Graph.Out (β × Graph.USt)} (h : Corr l rm r o)
    (hf : ∀ a st', st'.level = l → st'.rmax = rm → Corr l' rm' (f a st') (g (a, seen st'))) : Corr l' rm' (r.bind f) (o.bind g) := by
  match o, h with
  | .ok (a, u), ⟨st', e, e1, e2, e3⟩ =>
    subst e e1
    exact hf a st' e2 e3
  | .throw, ⟨st', e⟩ => subst e; exact ⟨st', rfl⟩
  | .ub, e => rw [show r = .ub from e]; rfl
  | .fuel, _ => trivial

private theorem corr_read {l rm : Nat} (st : USt) (hl : st.level = l) (hr : st.rmax = rm) : Corr l rm (read st) (seen st).read := by
  unfold read Graph.USt.read
  cases h : st.inp with
  | nil => simp only [seen, h]; exact ⟨_, rfl⟩
  | cons n r => simp only [seen, h]; exact ⟨_, rfl, rfl, hl, hr⟩

private abbrev Fn := Slot → USt → Res USt (Option (Option Nat))
private abbrev Gn := Slot → Graph.USt → Graph.Out (Option (Option Nat) × Graph.USt)

private theorem corr_vec {junk : Option Nat} {f : Fn} {g : Gn} {l rm : Nat}
    (hf : ∀ s st, st.level = l → st.rmax = rm → Corr l rm (f s st) (g s (seen st))) : ∀ (n : Nat) (st : USt), st.level = l → st.rmax = rm →
    Corr l rm (unpackVec junk f n st) (Graph.unpackVec junk g n (seen st))
  | 0, st, hl, hr => ⟨st, rfl, rfl, hl, hr⟩
  | n + 1, st, hl, hr => (hf .loc st hl hr).bind fun _ st' hl hr => (corr_vec hf n st' hl hr).bind fun _ st' hl hr => ⟨st', rfl, rfl, hl, hr⟩

private theorem corr_fields {junk : Option Nat} {f : Fn} {g : Gn} {l rm : Nat}
    (hf : ∀ s st, st.level = l → st.rmax = rm → Corr l rm (f s st) (g s (seen st))) (a : Nat) :
    ∀ (ks : List Kind) (j : Nat) (st : USt), st.level = l → st.rmax = rm →
    Corr l rm (unpackFields junk f a j ks st) (Graph.unpackFields junk g a j ks (seen st))
  | [], j, st, hl, hr => ⟨st, by simp [unpackFields], rfl, hl, hr⟩
  | .data :: ks, j, st, hl, hr => (corr_read st hl hr).bind fun _ st hl hr =>
      (corr_fields hf a ks (j + 1) st hl hr).bind fun _ st hl hr => ⟨st, rfl, rfl, hl, hr⟩
  | .ptr :: ks, j, st, hl, hr => (hf _ st hl hr).bind fun _ st hl hr =>
      (corr_fields hf a ks (j + 1) st hl hr).bind fun _ st hl hr => ⟨st, rfl, rfl, hl, hr⟩
  | .vec :: ks, j, st, hl, hr => (corr_read st hl hr).bind fun n st hl hr => (corr_vec hf n st hl hr).bind fun _ st hl hr =>
      (corr_fields hf a ks (j + 1) st hl hr).bind fun _ st hl hr => ⟨st, rfl, rfl, hl, hr⟩

private def mid (sh : List Kind) (junk : Option Nat) (fuel : Nat) (slot : Slot) (st : USt) : Res USt (Option (Option Nat)) :=
  if st.level = st.rmax then .ok none { st with restart := slot :: st.restart }
  else (read st).bind fun id st =>
    if id = 0 then .ok (some none) st
    else
      match st.map.lookup id with
      | some a => .ok (some (some a)) st
      | none =>
        (unpackFields junk (unpackG sh junk fuel) st.heap.length 0 sh
          { st with heap := st.heap ++ [[]], map := (id, st.heap.length) :: st.map }).bind fun fs st' =>
            .ok (some (some st.heap.length)) { st' with heap := st'.heap.set st.heap.length fs }

private def fin (sh : List Kind) (junk : Option Nat) (fuel : Nat) (slot : Slot) (v : Option (Option Nat)) (st : USt) :
    Res USt (Option (Option Nat)) :=
  if st.level - 1 = 0 then
    (unpackLoop (unpackG sh junk fuel) fuel
      (leave slot v st)).bind fun _ st => .ok v { st with map := [] }
  else .ok v { st with level := st.level - 1 }

private theorem unpackG_eq (sh : List Kind) (junk : Option Nat) (fuel : Nat) (slot : Slot) (st : USt) :
    unpackG sh junk (fuel + 1) slot st =
      (enter st).bind fun _ st => (mid sh junk fuel slot st).bind fun v st => fin sh junk fuel slot v st := by
  rw [unpackG]; rfl

private theorem corr_mid {sh : List Kind} {junk : Option Nat} {rm F fuel l : Nat}
    (ih : ∀ s st, st.level = l + 1 → st.rmax = rm → Corr (l + 1) rm (unpackG sh junk fuel s st) (Graph.unpackPtr sh junk rm F (l + 1) s (seen st)))
    (s : Slot) (st : USt) (hl : st.level = l + 1) (hr : st.rmax = rm) :
    Corr (l + 1) rm (mid sh junk fuel s st) (Graph.unpackPtr sh junk rm (F + 1) l s (seen st)) := by
  rw [mid, Graph.unpackPtr, hl, hr]
  by_cases h : l + 1 = rm
  · rw [if_pos h, if_pos h]
    exact ⟨_, rfl, rfl, rfl, rfl⟩
  · rw [if_neg h, if_neg h]
    refine (corr_read st hl hr).bind fun id st hl hr => ?_
    by_cases h0 : id = 0
    · simp only [if_pos h0]
      exact ⟨_, rfl, rfl, hl, hr⟩
    · simp only [if_neg h0]
      have hm : (seen st).map.lookup id = st.map.lookup id := rfl
      simp only [hm]
      cases st.map.lookup id with
      | some a => exact ⟨_, rfl, rfl, hl, hr⟩
      | none =>
        exact (corr_fields ih st.heap.length sh 0 { st with heap := st.heap ++ [[]], map := (id, st.heap.length) :: st.map } hl hr).bind
          fun fs st' hl hr => ⟨_, rfl, rfl, hl, hr⟩

private theorem corr_ptr (sh : List Kind) (junk : Option Nat) (rm : Nat) : ∀ (F fuel : Nat), F ≤ fuel → ∀ (l : Nat), 1 ≤ l → ∀ (s : Slot) (st : USt),
    st.level = l → st.rmax = rm → Corr l rm (unpackG sh junk fuel s st) (Graph.unpackPtr sh junk rm F l s (seen st))
  | 0, _, _, _, _, _, _, _, _ => trivial
  | F + 1, 0, h, _, _, _, _, _, _ => by omega
  | F + 1, fuel + 1, h, l, h1, s, st, hl, hr => by
    have ih := corr_ptr sh junk rm F fuel (by omega) (l + 1) (by omega)
    have he : enter st = .ok () { st with level := st.level + 1 } := by
      unfold enter
      rw [if_neg (by omega)]
    rw [unpackG_eq, he]
    simp only [Res.bind]
    have hm := corr_mid ih s { st with level := st.level + 1 } (by simp [hl]) hr
    have hs : seen { st with level := st.level + 1 } = seen st := rfl
    rw [hs] at hm
    rw [show Graph.unpackPtr sh junk rm (F + 1) l s (seen st) = (Graph.unpackPtr sh junk rm (F + 1) l s (seen st)).bind .ok by
      cases Graph.unpackPtr sh junk rm (F + 1) l s (seen st) <;> rfl]
    refine hm.bind fun v st' hl' hr' => ?_
    rw [fin, if_neg (by omega)]
    exact ⟨_, rfl, rfl, by simp [hl'], hr'⟩

/-- A call from outside. -/
private def Corr0 {α : Type} (r : Res USt α) (o : Graph.Out Graph.USt) : Prop :=
  match o with
  | .ok u => ∃ a st', r = .ok a st' ∧ seen st' = u ∧ st'.level = 0
  | .throw => ∃ st', r = .throw st'
  | .ub => r = .ub
  | .fuel => True

private theorem Corr0.bind {α β : Type} {r : Res USt α} {o : Graph.Out Graph.USt}
    {f : α → USt → Res USt β} {g : Graph.USt → Graph.Out Graph.USt} (h : Corr0 r o)
    (hf : ∀ a st', st'.level = 0 → Corr0 (f a st') (g (seen st'))) : Corr0 (r.bind f) (o.bind g) := by
  match o, h with
  | .ok u, ⟨a, st', e, e1, e2⟩ =>
    subst e e1
    exact hf a st' e2
  | .throw, ⟨st', e⟩ => subst e; exact ⟨st', rfl⟩
  | .ub, e => rw [show r = .ub from e]; rfl
  | .fuel, _ => trivial

private theorem corr_loop {f : Fn} {g : Slot → Graph.USt → Graph.Out Graph.USt} (hf : ∀ s st, st.level = 0 → Corr0 (f s st) (g s (seen st))) :
    ∀ (k n : Nat), k ≤ n → ∀ (st : USt), st.level = 0 → Corr0 (unpackLoop f n st) (Graph.unpackLoop g k (seen st)) := by
  intro k
  induction k with
  | zero =>
    intro n hn st hl
    unfold Graph.unpackLoop unpackLoop
    have hs : (seen st).restart = st.restart := rfl
    rw [hs]
    cases hr : st.restart with
    | nil => exact ⟨(), st, rfl, rfl, hl⟩
    | cons s rs => trivial
  | succ k ih =>
    intro n hn st hl
    unfold Graph.unpackLoop unpackLoop
    have hs : (seen st).restart = st.restart := rfl
    rw [hs]
    cases hr : st.restart with
    | nil => exact ⟨(), st, rfl, rfl, hl⟩
    | cons s rs =>
      match n, hn with
      | n + 1, hn =>
        simp only
        by_cases h : s = .loc
        · simp only [if_pos h]; rfl
        · simp only [if_neg h]
          have h1 := hf s { st with restart := rs } hl
          have hs : seen { st with restart := rs } = { seen st with restart := rs } := rfl
          rw [hs] at h1
          generalize g s { seen st with restart := rs } = o at h1
          match o, h1 with
          | .ok u, ⟨a, st', e, e1, e2⟩ =>
            subst e1
            rw [e]
            exact ih n (by omega) st' e2
          | .throw, ⟨st', e⟩ => rw [e]; exact ⟨st', rfl⟩
          | .ub, e => rw [show f s _ = .ub from e]; rfl
          | .fuel, _ => trivial

private theorem corr_root (sh : List Kind) (junk : Option Nat) (F : Nat) : ∀ (k fuel : Nat), F + k ≤ fuel → ∀ (s : Slot) (st : USt),
    st.level = 0 → Corr0 (unpackG sh junk fuel s st) (Graph.unpackRoot sh junk F k s (seen st))
  | 0, _, _, _, _, _ => trivial
  | k + 1, 0, h, _, _, _ => by omega
  | k + 1, fuel + 1, h, s, st, hl => by
    have ih := corr_root sh junk F k fuel (by omega)
    rw [unpackG_eq, Graph.unpackRoot, enter, if_pos hl]
    unfold read Graph.USt.read
    cases hi : st.inp with
    | nil => simp only [seen, hi]; exact ⟨_, rfl⟩
    | cons rm r =>
      simp only [seen, hi, Res.bind, Graph.Out.bind, hl]
      have hm : Corr 1 rm (mid sh junk fuel s { st with inp := r, rmax := rm, level := 0 + 1 })
          (Graph.unpackPtr sh junk rm F 0 s (seen { st with inp := r, rmax := rm, level := 0 + 1 })) := by
        match F with
        | 0 => trivial
        | F + 1 => exact corr_mid (fun s st hl hr => corr_ptr sh junk rm F fuel (by omega) 1 (by omega) s st hl hr) s _ rfl rfl
      simp only [seen] at hm
      generalize Graph.unpackPtr sh junk rm F 0 s _ = o at hm
      match o, hm with
      | .ok (v, u), ⟨st', e, e1, e2, e3⟩ =>
        subst e1
        rw [e]
        simp only [fin, e2]
        have hv : seen (leave s v st') = (match v with
            | none => seen st'
            | some w => (seen st').assign s w) := by
          cases v with
          | none => rfl
          | some w => cases s <;> rfl
        have hlv : (leave s v st').level = 0 := by
          cases v with
          | none => simp [leave, e2]
          | some w => cases s <;> simp [leave, assign, e2]
        have hloop := corr_loop ih k fuel (by omega) (leave s v st') hlv
        simp only [if_pos]
        have key := hloop.bind (β := Option (Option Nat)) (f := fun _ st => .ok v { st with map := [] }) (g := fun st => .ok { st with map := [] })
          fun a st' hl => ⟨_, _, rfl, rfl, hl⟩
        rw [hv] at key
        cases v <;> exact key
      | .throw, ⟨st', e⟩ => rw [e]; exact ⟨st', rfl⟩
      | .ub, e => rw [show mid _ _ _ _ _ = .ub from e]; rfl
      | .fuel, _ => trivial

/-! ### Packing -/

private def CorrP (l : Nat) (r : Res PSt Unit) (o : Option Graph.PSt) : Prop :=
  ∀ u, o = some u → ∃ st', r = .ok () st' ∧ SeenP st' u ∧ st'.level = l

private abbrev ok : List Nat → Nat → Bool := fun _ _ => false

private theorem CorrP.bind {l l' : Nat} {r : Res PSt Unit} {o : Option Graph.PSt} {f : Unit → PSt → Res PSt Unit} {g : Graph.PSt → Option Graph.PSt}
    (h : CorrP l r o) (hf : ∀ st' u, SeenP st' u → st'.level = l → CorrP l' (f () st') (g u)) : CorrP l' (r.bind f) (o.bind g) := by
  intro u e
  cases o with
  | none => simp at e
  | some w =>
    obtain ⟨st', e1, e2, e3⟩ := h w rfl
    subst e1
    exact hf st' w e2 e3 u e

private theorem write_ok (n : Nat) (st : PSt) : write ok n st = .ok () { st with out := st.out ++ [n] } := by simp [write, ok]

private theorem emitS {st : PSt} {u : Graph.PSt} (h : SeenP st u) (n l : Nat) :
    SeenP { st with out := st.out ++ [n], level := l } (u.emit n) := ⟨h.1, h.2.1, by simp [Graph.PSt.emit, h.2.2]⟩

private theorem corrP_vec {f : Option Nat → PSt → Res PSt Unit} {g : Option Nat → Graph.PSt → Option Graph.PSt} {l : Nat}
    (hf : ∀ p st u, SeenP st u → st.level = l → CorrP l (f p st) (g p u)) : ∀ (ps : List (Option Nat)) (st : PSt) (u : Graph.PSt), SeenP st u →
    st.level = l → CorrP l (packVec f ps st) (Graph.packVec g ps u)
  | [], st, u, h, hl => fun w e => by cases e; exact ⟨st, rfl, h, hl⟩
  | p :: ps, st, u, h, hl => (hf p st u h hl).bind fun st' u' h' hl' => corrP_vec hf ps st' u' h' hl'

private theorem corrP_fields {f : Option Nat → PSt → Res PSt Unit} {g : Option Nat → Graph.PSt → Option Graph.PSt} {l : Nat}
    (hf : ∀ p st u, SeenP st u → st.level = l → CorrP l (f p st) (g p u)) : ∀ (fs : List Fld) (st : PSt) (u : Graph.PSt), SeenP st u →
    st.level = l → CorrP l (packFields ok f fs st) (Graph.packFields g fs u)
  | [], st, u, h, hl => fun w e => by cases e; exact ⟨st, rfl, h, hl⟩
  | .data n :: fs, st, u, h, hl => by
    rw [packFields, Graph.packFields, write_ok]
    exact corrP_fields hf fs _ _ (emitS h n st.level) hl
  | .ptr p :: fs, st, u, h, hl => (hf p st u h hl).bind fun st' u' h' hl' => corrP_fields hf fs st' u' h' hl'
  | .vec ps :: fs, st, u, h, hl => by
    rw [packFields, Graph.packFields, write_ok]
    exact (corrP_vec hf ps _ _ (emitS h ps.length st.level) hl).bind fun st' u' h' hl' => corrP_fields hf fs st' u' h' hl'

private def midP (G : Nat → List Fld) (rmax : Nat) (fuel : Nat) (p : Option Nat) (st : PSt) : Res PSt Unit :=
  if st.level + 1 = rmax then .ok () { st with level := st.level + 1, restart := p :: st.restart }
  else
    match p with
    | none => write ok 0 { st with level := st.level + 1 }
    | some a =>
      match st.map.idxOf? a with
      | some i => write ok (i + 1) { st with level := st.level + 1 }
      | none => (write ok (st.map.length + 1) { st with level := st.level + 1, map := st.map ++ [a] }).bind fun _ st =>
          packFields ok (packG G rmax ok fuel) (G a) st

private def finP (G : Nat → List Fld) (rmax : Nat) (fuel : Nat) (st : PSt) : Res PSt Unit :=
  if st.level - 1 = 0 then
    (packLoop (packG G rmax ok fuel) fuel { st with level := st.level - 1 }).bind fun _ st => .ok () { st with map := [] }
  else .ok () { st with level := st.level - 1 }

private theorem packG_eq (G : Nat → List Fld) (rmax : Nat) (fuel : Nat) (p : Option Nat) (st : PSt) :
    packG G rmax ok (fuel + 1) p st =
      (if st.level = 0 then write ok rmax st else .ok () st).bind fun _ st =>
        (midP G rmax fuel p st).bind fun _ st => finP G rmax fuel st := rfl

private theorem corrP_mid {G : Nat → List Fld} {rm F fuel l nd : Nat}
    (ih : ∀ p st u, SeenP st u → st.level = l + 1 → CorrP (l + 1) (packG G rm ok fuel p st) (Graph.packPtr G rm F (nd + 1) (l + 1) p u))
    (p : Option Nat) (st : PSt) (u : Graph.PSt) (h : SeenP st u) (hl : st.level = l) :
    CorrP (l + 1) (midP G rm fuel p st) (Graph.packPtr G rm (F + 1) nd l p u) := by
  unfold midP
  unfold Graph.packPtr
  rw [hl]
  by_cases hr : l + 1 = rm
  · simp only [if_pos hr]
    intro w e
    cases e
    exact ⟨_, rfl, ⟨h.1, by simp [h.2.1], h.2.2⟩, rfl⟩
  · simp only [if_neg hr]
    cases p with
    | none =>
      simp only [write_ok]
      intro w e; cases e
      exact ⟨_, rfl, ⟨h.1, h.2.1, by simp [h.2.2, Graph.PSt.emit]⟩, rfl⟩
    | some a =>
      simp only [← h.1]
      cases st.map.idxOf? a with
      | some i =>
        simp only [write_ok]
        intro w e; cases e
        exact ⟨_, rfl, ⟨rfl, h.2.1, by simp [h.2.2, Graph.PSt.emit]⟩, rfl⟩
      | none =>
        simp only [write_ok, Res.bind]
        exact corrP_fields ih (G a) _ _ ⟨by simp [Graph.PSt.emit], h.2.1, by simp [h.2.2, Graph.PSt.emit]⟩ rfl

private theorem corrP_ptr (G : Nat → List Fld) (rm : Nat) : ∀ (F fuel : Nat), F ≤ fuel → ∀ (nd l : Nat), 1 ≤ l → ∀ (p : Option Nat) (st : PSt)
    (u : Graph.PSt), SeenP st u → st.level = l → CorrP l (packG G rm ok fuel p st) (Graph.packPtr G rm F nd l p u)
  | 0, _, _, _, _, _, _, _, _, _, _ => fun _ e => by simp [Graph.packPtr] at e
  | F + 1, 0, h, _, _, _, _, _, _, _, _ => by omega
  | F + 1, fuel + 1, h, nd, l, h1, p, st, u, hs, hl => by
    have ih := corrP_ptr G rm F fuel (by omega) (nd + 1) (l + 1) (by omega)
    rw [packG_eq, if_neg (by omega)]
    simp only [Res.bind]
    have hm := corrP_mid ih p st u hs hl
    rw [show Graph.packPtr G rm (F + 1) nd l p u = (Graph.packPtr G rm (F + 1) nd l p u).bind some by simp]
    refine hm.bind fun st' u' hs' hl' => ?_
    rw [finP, if_neg (by omega)]
    intro w e; cases e
    exact ⟨_, rfl, hs', by simp [hl']⟩

private theorem corrP_loop {f : Option Nat → PSt → Res PSt Unit} {g : Option Nat → Graph.PSt → Option Graph.PSt}
    (hf : ∀ p st u, SeenP st u → st.level = 0 → CorrP 0 (f p st) (g p u)) :
    ∀ (k n : Nat), k ≤ n → ∀ (st : PSt) (u : Graph.PSt), SeenP st u → st.level = 0 → CorrP 0 (packLoop f n st) (Graph.packLoop g k u) := by
  intro k
  induction k with
  | zero =>
    intro n hn st u h hl
    unfold Graph.packLoop packLoop
    rw [h.2.1]
    cases hr : u.restart with
    | nil => intro w e; cases e; exact ⟨st, rfl, h, hl⟩
    | cons s rs => intro w e; cases e
  | succ k ih =>
    intro n hn st u h hl
    unfold Graph.packLoop packLoop
    rw [h.2.1]
    cases hr : u.restart with
    | nil => intro w e; cases e; exact ⟨st, rfl, h, hl⟩
    | cons s rs =>
      match n, hn with
      | n + 1, hn =>
        exact (hf s { st with restart := rs } { u with restart := rs } ⟨h.1, rfl, h.2.2⟩ hl).bind fun st' u' h' hl' =>
          ih n (by omega) st' u' h' hl'

private theorem corrP_root (G : Nat → List Fld) (rm F : Nat) : ∀ (k fuel : Nat), F + k ≤ fuel → ∀ (nd : Nat) (p : Option Nat) (st : PSt) (u : Graph.PSt),
    SeenP st u → st.level = 0 → CorrP 0 (packG G rm ok fuel p st) (Graph.packRoot G rm F k nd p u)
  | 0, _, _, _, _, _, _, _, _ => fun _ e => by simp [Graph.packRoot] at e
  | k + 1, 0, h, _, _, _, _, _, _ => by omega
  | k + 1, fuel + 1, h, nd, p, st, u, hs, hl => by
    have ih := corrP_root G rm F k fuel (by omega) (nd + 1)
    rw [packG_eq, Graph.packRoot, if_pos hl, write_ok]
    simp only [Res.bind]
    have hm : CorrP 1 (midP G rm fuel p { st with out := st.out ++ [rm] }) (Graph.packPtr G rm F nd 0 p (u.emit rm)) := by
      match F with
      | 0 => exact fun _ e => by simp [Graph.packPtr] at e
      | F + 1 => exact corrP_mid (fun p st u => corrP_ptr G rm F fuel (by omega) (nd + 1) 1 (by omega) p st u) p _ _ (emitS hs rm st.level) hl
    refine hm.bind fun st' u' hs' hl' => ?_
    rw [finP, if_pos (by omega)]
    refine (corrP_loop ih k fuel (by omega) { st' with level := st'.level - 1 } u' hs' (by simp [hl'])).bind fun st'' u'' hs'' hl'' => ?_
    intro w e; cases e
    exact ⟨_, rfl, ⟨rfl, hs''.2⟩, hl''⟩

/-! ### Theorems -/

/-- C102: at level zero, unpacking does what it does by C13: the same objects, the same input left, the same pointer of the user; it throws if
that throws, and is undefined if that is. -/
theorem C102_unpack_same (sh : List Kind) (junk : Option Nat) (F k fuel : Nat) (hf : F + k ≤ fuel) (slot : Slot) (st : USt) (hl : st.level = 0) :
    (∀ u, Graph.unpackRoot sh junk F k slot (seen st) = .ok u → ∃ v st', unpackG sh junk fuel slot st = .ok v st' ∧ seen st' = u) ∧
    (Graph.unpackRoot sh junk F k slot (seen st) = .throw → ∃ st', unpackG sh junk fuel slot st = .throw st') ∧
    (Graph.unpackRoot sh junk F k slot (seen st) = .ub → unpackG sh junk fuel slot st = .ub) := by
  have h := corr_root sh junk F k fuel hf slot st hl
  refine ⟨fun u e => ?_, fun e => ?_, fun e => ?_⟩
  · rw [e] at h
    obtain ⟨a, st', e1, e2, _⟩ := h
    exact ⟨a, st', e1, e2⟩
  · rw [e] at h; exact h
  · rw [e] at h; exact h

/-- C102: at level zero, and with nothing that throws, packing writes what it writes by C13. -/
theorem C102_pack_same (G : Nat → List Fld) (rmax F k fuel nd : Nat) (hf : F + k ≤ fuel) (p : Option Nat) (st : PSt) (u u' : Graph.PSt) (hl : st.level = 0)
    (hs : SeenP st u) (h : Graph.packRoot G rmax F k nd p u = some u') :
    ∃ st', packG G rmax (fun _ _ => false) fuel p st = .ok () st' ∧ SeenP st' u' := by
  obtain ⟨st', e, h1, _⟩ := corrP_root G rmax F k fuel hf nd p st u hs hl u' h
  exact ⟨st', e, h1⟩

/-- A chain of three objects with a limit of two: the restarts are part of it. -/
example : ∃ v st', unpackG [.data, .ptr] none 20 .root ⟨[2, 1, 70, 2, 2, 71, 2, 3, 72, 2, 0], 500, [], none, 0, [], []⟩ = .ok v st' ∧
    C102.seen st' = ⟨[], [[.data 70, .ptr (some 1)], [.data 71, .ptr (some 2)], [.data 72, .ptr none]], [], [], some 0⟩ :=
  (C102_unpack_same [.data, .ptr] none 10 10 20 (by decide) .root _ rfl).1 _ (by decide +kernel)

end Verif.GraphErr
