import Verif.Props.Graph
/-
C13 with the recursion limit there is unless the user says otherwise (500, pack_base.h:216-227).
-/
namespace Verif.Graph

/-! ### A limit out of reach makes no difference -/

private def PLim (rmax lvl : Nat) (f0 f : PSt → Option PSt) : Prop := ∀ st st', f0 st = some st' →
  st.map.length ≤ st'.map.length ∧ st'.restart = st.restart ∧
    (lvl ≤ st.map.length → st'.map.length + 1 < rmax → f st = some st')

private theorem PLim.bind {rmax lvl : Nat} {f0 f g0 g : PSt → Option PSt} (hf : PLim rmax lvl f0 f) (hg : PLim rmax lvl g0 g) :
    PLim rmax lvl (fun st => (f0 st).bind g0) (fun st => (f st).bind g) := by
  intro st st' h
  cases h1 : f0 st with
  | none => simp [h1] at h
  | some s =>
    simp only [h1, Option.bind_some] at h
    obtain ⟨a1, a2, a3⟩ := hf st s h1
    obtain ⟨b1, b2, b3⟩ := hg s st' h
    refine ⟨by omega, b2.trans a2, fun c1 c2 => ?_⟩
    simp only [a3 c1 (by omega), Option.bind_some]
    exact b3 (by omega) c2

private theorem plim_some (rmax lvl : Nat) (g : PSt → PSt) (h1 : ∀ s, (g s).map = s.map) (h2 : ∀ s, (g s).restart = s.restart) :
    PLim rmax lvl (fun st => some (g st)) (fun st => some (g st)) := by
  intro st st' h
  simp only [Option.some.injEq] at h
  subst h
  exact ⟨by rw [h1]; exact Nat.le_refl _, h2 st, fun _ _ => rfl⟩

private theorem plim_vec {rmax lvl : Nat} {f0 f : Option Nat → PSt → Option PSt} (hf : ∀ p, PLim rmax lvl (f0 p) (f p)) :
    ∀ ps, PLim rmax lvl (packVec f0 ps) (packVec f ps)
  | [] => plim_some rmax lvl id (fun _ => rfl) (fun _ => rfl)
  | p :: ps => (hf p).bind (plim_vec hf ps)

private theorem plim_fields {rmax lvl : Nat} {f0 f : Option Nat → PSt → Option PSt} (hf : ∀ p, PLim rmax lvl (f0 p) (f p)) :
    ∀ fs, PLim rmax lvl (packFields f0 fs) (packFields f fs)
  | [] => by
    have : ∀ g : Option Nat → PSt → Option PSt, packFields g [] = fun st => some (id st) := by
      intro g; funext st; simp [packFields]
    rw [this, this]
    exact plim_some rmax lvl id (fun _ => rfl) (fun _ => rfl)
  | .data n :: fs => by
    have : ∀ g : Option Nat → PSt → Option PSt, packFields g (.data n :: fs) = fun st => (some (st.emit n)).bind (packFields g fs) := by
      intro g; funext st; simp [packFields]
    rw [this, this]
    exact (plim_some rmax lvl (fun st => st.emit n) (fun _ => rfl) (fun _ => rfl)).bind (plim_fields hf fs)
  | .ptr p :: fs => by
    have : ∀ g : Option Nat → PSt → Option PSt, packFields g (.ptr p :: fs) = fun st => (g p st).bind (packFields g fs) := by
      intro g; funext st; simp [packFields]
    rw [this, this]
    exact (hf p).bind (plim_fields hf fs)
  | .vec ps :: fs => by
    have : ∀ g : Option Nat → PSt → Option PSt, packFields g (.vec ps :: fs) =
        fun st => ((some (st.emit ps.length)).bind (packVec g ps)).bind (packFields g fs) := by
      intro g; funext st; simp [packFields]
    rw [this, this]
    exact ((plim_some rmax lvl (fun st => st.emit ps.length) (fun _ => rfl) (fun _ => rfl)).bind (plim_vec hf ps)).bind (plim_fields hf fs)

private theorem plim (G : Nat → List Fld) (rmax : Nat) : ∀ fuel nd lvl p, PLim rmax lvl (packPtr G 0 fuel nd lvl p) (packPtr G rmax fuel nd lvl p)
  | 0, nd, lvl, p => fun st st' h => by simp [packPtr] at h
  | fuel + 1, nd, lvl, p => by
    intro st st' h
    unfold packPtr at h
    rw [if_neg (by omega)] at h
    cases p with
    | none =>
      simp only [Option.some.injEq] at h
      subst h
      refine ⟨Nat.le_refl _, rfl, fun c1 c2 => ?_⟩
      unfold packPtr
      have c2 : st.map.length + 1 < rmax := c2
      rw [if_neg (by omega)]
    | some a =>
      simp only at h
      cases hl : st.map.idxOf? a with
      | some i =>
        rw [hl] at h
        simp only [Option.some.injEq] at h
        subst h
        refine ⟨Nat.le_refl _, rfl, fun c1 c2 => ?_⟩
        have c2 : st.map.length + 1 < rmax := c2
        unfold packPtr
        rw [if_neg (by omega)]
        simp only [hl]
      | none =>
        rw [hl] at h
        simp only at h
        obtain ⟨a1, a2, a3⟩ := plim_fields (fun q => plim G rmax fuel (nd + 1) (lvl + 1) q) (G a) _ _ h
        simp only [PSt.emit, List.length_append, List.length_singleton] at a1 a2 a3
        refine ⟨by omega, a2, fun c1 c2 => ?_⟩
        unfold packPtr
        rw [if_neg (by omega)]
        simp only [hl]
        exact a3 (by omega) c2

private def ULim (rmax lvl : Nat) {α : Type} (f0 f : USt → Out (α × USt)) : Prop := ∀ u v u', f0 u = .ok (v, u') →
  u.heap.length ≤ u'.heap.length ∧ u'.restart = u.restart ∧
    (lvl ≤ u.heap.length → u'.heap.length + 1 < rmax → f u = .ok (v, u'))

private theorem ULim.bind {rmax lvl : Nat} {α β : Type} {f0 f : USt → Out (α × USt)} {g0 g : α × USt → Out (β × USt)}
    (hf : ULim rmax lvl f0 f) (hg : ∀ a, ULim rmax lvl (fun u => g0 (a, u)) (fun u => g (a, u))) :
    ULim rmax lvl (fun u => (f0 u).bind g0) (fun u => (f u).bind g) := by
  intro u v u' h
  cases h1 : f0 u with
  | ok x =>
    obtain ⟨a, s⟩ := x
    simp only [h1, Out.bind] at h
    obtain ⟨a1, a2, a3⟩ := hf u a s h1
    obtain ⟨b1, b2, b3⟩ := hg a s v u' h
    refine ⟨by omega, b2.trans a2, fun c1 c2 => ?_⟩
    simp only [a3 c1 (by omega), Out.bind]
    exact b3 (by omega) c2
  | throw => simp [h1, Out.bind] at h
  | ub => simp [h1, Out.bind] at h
  | fuel => simp [h1, Out.bind] at h

private theorem ulim_ok (rmax lvl : Nat) {α : Type} (a : α) : ULim rmax lvl (fun u => .ok (a, u)) (fun u => .ok (a, u)) := by
  intro u v u' h
  simp only [Out.ok.injEq, Prod.mk.injEq] at h
  obtain ⟨rfl, rfl⟩ := h
  exact ⟨Nat.le_refl _, rfl, fun _ _ => rfl⟩

private theorem ulim_read (rmax lvl : Nat) : ULim rmax lvl USt.read USt.read := by
  intro u v u' h
  refine ⟨?_, ?_, fun _ _ => h⟩ <;>
  · unfold USt.read at h
    cases hi : u.inp with
    | nil => simp [hi] at h
    | cons n r =>
      simp only [hi, Out.ok.injEq, Prod.mk.injEq] at h
      obtain ⟨rfl, rfl⟩ := h
      simp

private theorem ulim_vec {rmax lvl : Nat} {junk : Option Nat} {f0 f : Slot → USt → Out (Option (Option Nat) × USt)}
    (hf : ∀ s, ULim rmax lvl (f0 s) (f s)) : ∀ n, ULim rmax lvl (unpackVec junk f0 n) (unpackVec junk f n)
  | 0 => ulim_ok rmax lvl []
  | n + 1 => (hf .loc).bind fun v => (ulim_vec hf n).bind fun vs => ulim_ok rmax lvl (v.getD junk :: vs)

private theorem ulim_fields {rmax lvl : Nat} {junk : Option Nat} {f0 f : Slot → USt → Out (Option (Option Nat) × USt)}
    (hf : ∀ s, ULim rmax lvl (f0 s) (f s)) (a : Nat) : ∀ ks j, ULim rmax lvl (unpackFields junk f0 a j ks) (unpackFields junk f a j ks)
  | [], j => by
    have : ∀ g, unpackFields junk g a j [] = fun u => .ok ([], u) := by intro g; funext u; simp [unpackFields]
    rw [this, this]; exact ulim_ok rmax lvl []
  | .data :: ks, j => by
    intro u v u' h
    unfold unpackFields at h ⊢
    refine ULim.bind (ulim_read rmax lvl) (fun n => ?_) u v u' h
    exact ULim.bind (ulim_fields hf a ks (j + 1)) fun fs => ulim_ok rmax lvl (Fld.data n :: fs)
  | .ptr :: ks, j => by
    intro u v u' h
    unfold unpackFields at h ⊢
    refine ULim.bind (hf (.cell a j)) (fun w => ?_) u v u' h
    exact ULim.bind (ulim_fields hf a ks (j + 1)) fun fs => ulim_ok rmax lvl (Fld.ptr (w.getD junk) :: fs)
  | .vec :: ks, j => by
    intro u v u' h
    unfold unpackFields at h ⊢
    refine ULim.bind (ulim_read rmax lvl) (fun n => ?_) u v u' h
    refine ULim.bind (ulim_vec hf n) fun vs => ?_
    exact ULim.bind (ulim_fields hf a ks (j + 1)) fun fs => ulim_ok rmax lvl (Fld.vec vs :: fs)

private theorem ulim (sh : List Kind) (junk : Option Nat) (rmax : Nat) :
    ∀ fuel lvl s, ULim rmax lvl (unpackPtr sh junk 0 fuel lvl s) (unpackPtr sh junk rmax fuel lvl s)
  | 0, lvl, s => fun u v u' h => by simp [unpackPtr] at h
  | fuel + 1, lvl, s => by
    intro u v u' h
    unfold unpackPtr at h
    rw [if_neg (by omega)] at h
    have key : u.heap.length ≤ u'.heap.length ∧ u'.restart = u.restart ∧ (lvl ≤ u.heap.length → u'.heap.length + 1 < rmax →
        (u.read.bind fun (id, st) =>
          if id = 0 then .ok (some none, st)
          else match st.map.lookup id with
            | some a => .ok (some (some a), st)
            | none =>
              (unpackFields junk (unpackPtr sh junk rmax fuel (lvl + 1)) st.heap.length 0 sh
                { st with heap := st.heap ++ [[]], map := (id, st.heap.length) :: st.map }).bind fun (fs, st') =>
                  .ok (some (some st.heap.length), { st' with heap := st'.heap.set st.heap.length fs }) : Out _) = .ok (v, u')) := by
      refine (ulim_read rmax lvl).bind (fun id => ?_) u v u' h
      intro st v u' h
      simp only at h ⊢
      by_cases hid : id = 0
      · rw [if_pos hid] at h ⊢
        exact ulim_ok rmax lvl (some none) st v u' h
      · rw [if_neg hid] at h ⊢
        cases hl : st.map.lookup id with
        | some a =>
          rw [hl] at h
          exact ulim_ok rmax lvl (some (some a)) st v u' h
        | none =>
          rw [hl] at h
          simp only at h ⊢
          cases h1 : unpackFields junk (unpackPtr sh junk 0 fuel (lvl + 1)) st.heap.length 0 sh
              { st with heap := st.heap ++ [[]], map := (id, st.heap.length) :: st.map } with
          | throw => rw [h1] at h; simp [Out.bind] at h
          | ub => rw [h1] at h; simp [Out.bind] at h
          | fuel => rw [h1] at h; simp [Out.bind] at h
          | ok x =>
            obtain ⟨fs, s1⟩ := x
            rw [h1] at h
            simp only [Out.bind, Out.ok.injEq, Prod.mk.injEq] at h
            obtain ⟨a1, a2, a3⟩ := ulim_fields (fun q => ulim sh junk rmax fuel (lvl + 1) q) st.heap.length sh 0 _ _ _ h1
            simp only [List.length_append, List.length_singleton] at a1 a2 a3
            obtain ⟨rfl, rfl⟩ := h
            refine ⟨by simp; omega, a2, fun c1 c2 => ?_⟩
            simp only [List.length_set] at c2
            rw [a3 (by omega) c2]
            rfl
    refine ⟨key.1, key.2.1, fun c1 c2 => ?_⟩
    unfold unpackPtr
    have := key.1
    rw [if_neg (by omega)]
    exact key.2.2 c1 c2

/-- C13, with a limit (500 unless the user sets it): a graph of at most two objects fewer than the limit is copied, whatever its
members.  Missing: larger graphs, for which it is false if pointers are in containers (below); for pointers that are members, see
`C14_limit_partial`. -/
theorem C13_limit_partial {G : Nat → List Fld} {rp : Option Nat} {N : Nat} (hN : ∀ a, Reach G rp a → a < N) (sh : List Kind)
    (hsh : ∀ a, Reach G rp a → (G a).map Fld.kind = sh) (rmax : Nat) (L : List Nat) (hL : ∀ a, Reach G rp a → a ∈ L)
    (hrm : L.length + 2 ≤ rmax) (F k : Nat) (hF : N < F) (hk : pointerCount G N < k)
    (out : List Nat) (deep : Nat) (junk old : Option Nat) (rest : List Nat) :
    ∃ st' toks u' φ, packRoot G rmax F k 1 rp ⟨[], [], out, deep⟩ = some st' ∧ st'.out = out ++ toks ∧ st'.map = [] ∧ st'.restart = [] ∧
      unpackRoot sh junk F k .root ⟨toks ++ rest, [], [], [], old⟩ = .ok u' ∧ u'.inp = rest ∧ u'.map = [] ∧ u'.restart = [] ∧
      Copy G rp u'.heap u'.rootv φ := by
  obtain ⟨k, rfl⟩ : ∃ k', k = k' + 1 := ⟨k - 1, by omega⟩
  have hc := reach_closed hN
  obtain ⟨s1, e1, -, q1⟩ := pack_ptr_ok hc 0 F 1 0 rp ⟨[], [], out ++ [rmax], deep⟩ (fun a ha => .root ha) ⟨by simp, by simp, by simp⟩ (by
    have := remw_le ([] : List Nat) (List.range N); rw [List.length_range] at this
    exact Nat.lt_of_le_of_lt this hF)
  have q1 := q1 (by omega)
  obtain ⟨-, r1, a3⟩ := plim G rmax F 1 0 rp _ _ e1
  have hlen : s1.map.length ≤ L.length := q1.inv.nodup.length_le_of_subset fun a ha => hL a (q1.inv.inR a ha)
  have e2 := a3 (by simp) (by omega)
  have r1 : s1.restart = [] := r1
  obtain ⟨p1, t1, o1, k1⟩ := follows_ptr hc sh hsh junk 0 (.inl rfl) F 1 0 rp _ s1 (fun a ha => .root ha) e1
  have m0 : Match ⟨[], [], out ++ [rmax], deep⟩ ⟨t1 ++ rest, [], [], [], old⟩ [] := ⟨rfl, by intro id; simp; omega, rfl, rfl⟩
  obtain ⟨v, u1, new, b1, b2, b3, b4⟩ := k1 ⟨t1 ++ rest, [], [], [], old⟩ .root [] rest m0 rfl
  obtain rfl : new = [] := b2.unl rfl
  obtain ⟨w, rfl, hcw, -⟩ : ∃ w, v = some w ∧ Corr s1.map w rp ∧ ∀ x ∈ ([] : List (Slot × Option Nat)), Valid G s1.map x := by
    rcases b4 with ⟨-, h, -⟩ | h
    · omega
    · exact h
  obtain ⟨-, r2, u3⟩ := ulim sh junk rmax F 0 .root _ _ _ b1
  have hh : u1.heap.length = s1.map.length := b2.m.heap
  have e3 := u3 (by simp) (by omega)
  have g0 : GOK G rp [] [(.root, rp)] ⟨t1 ++ rest, [], [], [], old⟩ := ⟨rfl, by simp, .inr (by simp), by simp⟩
  have g1 := GOK.post g0 (pend := []) (by simp) b2 (by simp)
  have g2 := g1.assign (s := .root) (p := rp) (pend' := []) (by simp) hcw (by simp) (by simp)
  have r2 : u1.restart = [] := r2
  refine ⟨{ s1 with map := [] }, rmax :: t1, { u1.assign .root w with map := [] }, s1.map.idxOf, ?_, by simp [o1], rfl, r1, ?_, b2.inp, rfl, r2, ?_⟩
  · unfold packRoot
    simp only [PSt.emit, e2, Option.bind_some]
    rw [packLoop_nil _ _ _ r1]
    rfl
  · unfold unpackRoot
    simp only [USt.read, List.cons_append, Out.bind, e3]
    rw [unpackLoop_nil _ _ (u1.assign .root w) r2]
  · exact (GOK.copy (u := u1.assign .root w) g2 q1.inv.nodup q1.inv.inR)

/-! ### A limit within reach -/

/-- Pointer to the `i`-th of the `rmax - 1` objects of a chain; null after the last. -/
def C13.link (rmax i : Nat) : Option Nat := if i + 1 < rmax then some i else none

/-- A chain: each object has a container with the pointer to the next. -/
def C13.links (rmax a : Nat) : List Fld := [.vec [C13.link rmax (a + 1)]]

open C13

private def toks (lvl : Nat) : Nat → List Nat
  | 0 => []
  | m + 1 => (lvl + 1) :: 1 :: toks (lvl + 1) m

private theorem chain_pack (rmax : Nat) : ∀ m fuel nd lvl st, lvl + 1 + m = rmax → m < fuel → st.map = List.range lvl →
    ∃ st', packPtr (links rmax) rmax fuel nd lvl (link rmax lvl) st = some st' ∧ st'.restart = none :: st.restart ∧
      st'.out = st.out ++ toks lvl m
  | 0, fuel, nd, lvl, st, h, hf, hm => by
    obtain ⟨fuel, rfl⟩ : ∃ f, fuel = f + 1 := ⟨fuel - 1, by omega⟩
    unfold packPtr
    rw [if_pos (by omega)]
    refine ⟨_, rfl, ?_, by simp [toks]⟩
    simp [link]; omega
  | m + 1, fuel, nd, lvl, st, h, hf, hm => by
    obtain ⟨fuel, rfl⟩ : ∃ f, fuel = f + 1 := ⟨fuel - 1, by omega⟩
    unfold packPtr
    rw [if_neg (by omega)]
    have hl : link rmax lvl = some lvl := by unfold link; rw [if_pos (by omega)]
    have hi : st.map.idxOf? lvl = none := by simp [hm, List.idxOf?_eq_none_iff]
    simp only [hl, hi]
    obtain ⟨s2, e1, e2, e3⟩ := chain_pack rmax m fuel (nd + 1) (lvl + 1)
      ((({ ({ st with deep := max st.deep nd } : PSt) with map := st.map ++ [lvl] } : PSt).emit (st.map.length + 1)).emit 1) (by omega) (by omega)
      (by simp [PSt.emit, hm, List.range_succ])
    refine ⟨s2, ?_, by rw [e2]; rfl, by rw [e3]; simp [PSt.emit, toks, hm]⟩
    simp only [links, packFields, packVec, List.length_singleton]
    rw [e1]
    rfl

private theorem chain_unpack (rmax : Nat) (junk : Option Nat) (rest : List Nat) : ∀ m fuel lvl slot u, lvl + 1 + m = rmax → m < fuel →
    u.inp = toks lvl m ++ rest → (∀ id, lvl < id → u.map.lookup id = none) →
    ∃ v u', unpackPtr [.vec] junk rmax fuel lvl slot u = .ok (v, u') ∧ u'.restart = (if m = 0 then slot else .loc) :: u.restart
  | 0, fuel, lvl, slot, u, h, hf, hi, hm => by
    obtain ⟨fuel, rfl⟩ : ∃ f, fuel = f + 1 := ⟨fuel - 1, by omega⟩
    unfold unpackPtr
    rw [if_pos (by omega)]
    exact ⟨_, _, rfl, by simp⟩
  | m + 1, fuel, lvl, slot, u, h, hf, hi, hm => by
    obtain ⟨fuel, rfl⟩ : ∃ f, fuel = f + 1 := ⟨fuel - 1, by omega⟩
    unfold unpackPtr
    rw [if_neg (by omega)]
    have hi : u.inp = (lvl + 1) :: 1 :: (toks (lvl + 1) m ++ rest) := by rw [hi]; rfl
    have hlk := hm (lvl + 1) (by omega)
    obtain ⟨v, u2, e1, e2⟩ := chain_unpack rmax junk rest m fuel (lvl + 1) .loc
      { u with inp := toks (lvl + 1) m ++ rest, heap := u.heap ++ [[]], map := (lvl + 1, u.heap.length) :: u.map } (by omega) (by omega) rfl
      (fun id hid => by
        have : (id == lvl + 1) = false := by simp; omega
        simp [List.lookup_cons, this, hm id (by omega)])
    simp only [USt.read, hi, Out.bind]
    rw [if_neg (by omega)]
    simp only [hlk, unpackFields, USt.read, Out.bind, unpackVec, e1]
    exact ⟨_, _, rfl, by rw [e2]; simp⟩

/-- C13 fails, for every limit there is (500, unless the user sets another): a chain of one object fewer than the limit, with the
pointers in containers, is packed, but unpacking it is undefined: it writes to a local variable that no longer exists. -/
theorem C13_fails_limit (rmax : Nat) (hr : 2 ≤ rmax) (F k : Nat) (hF : rmax ≤ F) (hk : 2 ≤ k) (junk : Option Nat) :
    (∀ a, Reach (links rmax) (some 0) a → a + 1 < rmax) ∧
    ∃ st, packRoot (links rmax) rmax F k 1 (some 0) ⟨[], [], [], 0⟩ = some st ∧
      unpackRoot [.vec] junk F k .root ⟨st.out, [], [], [], none⟩ = .ub := by
  constructor
  · intro a h
    induction h with
    | root e => simp at e; omega
    | ptr _ hf ih => simp [links] at hf
    | vec _ hf hb ih =>
      simp only [links, List.mem_singleton, Fld.vec.injEq] at hf
      subst hf
      simp only [List.mem_singleton, link] at hb
      split at hb
      · simp at hb; omega
      · simp at hb
  · obtain ⟨m, rfl⟩ : ∃ m, rmax = m + 2 := ⟨rmax - 2, by omega⟩
    obtain ⟨k, rfl⟩ : ∃ k', k = k' + 2 := ⟨k - 2, by omega⟩
    obtain ⟨F, rfl⟩ : ∃ f, F = f + 1 := ⟨F - 1, by omega⟩
    have hl : link (m + 2) 0 = some 0 := by simp [link]
    obtain ⟨s1, e1, e2, e3⟩ := chain_pack (m + 2) (m + 1) (F + 1) 1 0 ⟨[], [], [m + 2], 0⟩ (by omega) (by omega) rfl
    rw [hl] at e1
    have e2 : s1.restart = [none] := e2
    have hp : packPtr (links (m + 2)) (m + 2) (F + 1) 2 0 none ({ s1 with restart := [] }.emit (m + 2)) =
        some (({ ({ s1 with restart := [] }.emit (m + 2) : PSt) with deep := max s1.deep 2 } : PSt).emit 0) := by
      unfold packPtr
      rw [if_neg (by omega)]
      rfl
    refine ⟨⟨[], [], s1.out ++ [m + 2, 0], max s1.deep 2⟩, ?_, ?_⟩
    · unfold packRoot
      simp only [PSt.emit, List.nil_append, e1, Option.bind_some]
      unfold packLoop
      simp only [e2]
      unfold packRoot
      rw [hp]
      simp only [Option.bind_some]
      rw [packLoop_nil _ _ _ rfl]
      simp only [Option.bind_some]
      rw [packLoop_nil _ _ _ rfl]
      simp [PSt.emit]
    · obtain ⟨v, u1, b1, b2⟩ := chain_unpack (m + 2) junk [m + 2, 0] (m + 1) (F + 1) 0 .root
        ⟨toks 0 (m + 1) ++ [m + 2, 0], [], [], [], none⟩ (by omega) (by omega) rfl (by simp)
      have b2 : u1.restart = [.loc] := b2
      unfold unpackRoot
      simp only [e3, USt.read, List.cons_append, List.nil_append, Out.bind, b1]
      have : ∀ u : USt, u.restart = [.loc] → unpackLoop (unpackRoot [.vec] junk (F + 1) (k + 1)) (k + 1) u = .ub := by
        intro u hu
        unfold unpackLoop
        simp [hu]
      cases v with
      | none => simp only; rw [this u1 b2]
      | some w => simp only; rw [this (u1.assign .root w) b2]

/-- With the default limit: a chain of 499 objects. -/
example : ∃ st, packRoot (links 500) 500 500 2 1 (some 0) ⟨[], [], [], 0⟩ = some st ∧
    unpackRoot [.vec] none 500 2 .root ⟨st.out, [], [], [], none⟩ = .ub :=
  (C13_fails_limit 500 (by decide) 500 2 (by decide) (by decide) none).2

/-- And one of two objects, in containers, is copied. -/
example : ∃ st' toks u' φ, packRoot (links 3) 500 3 3 1 (some 0) ⟨[], [], [], 0⟩ = some st' ∧ st'.out = [] ++ toks ∧
    st'.map = [] ∧ st'.restart = [] ∧ unpackRoot [.vec] none 3 3 .root ⟨toks ++ [42], [], [], [], none⟩ = .ok u' ∧ u'.inp = [42] ∧
    u'.map = [] ∧ u'.restart = [] ∧ Copy (links 3) (some 0) u'.heap u'.rootv φ :=
  C13_limit_partial (N := 2) (fun a h => by have := (C13_fails_limit 3 (by decide) 3 2 (by decide) (by decide) none).1 a h; omega) [.vec]
    (fun _ _ => rfl) 500 [0, 1]
    (fun a h => by have := (C13_fails_limit 3 (by decide) 3 2 (by decide) (by decide) none).1 a h; simp; omega)
    (by decide) 3 3 (by decide) (by decide) [] 0 none none [42]

end Verif.Graph
