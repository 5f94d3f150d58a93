import Verif.MpiFarm
/- C115 -/
namespace Verif.MpiFarm

variable {σ M : Type}

/-! ### Specification -/

/-- What the master asks for by a call: to whom, and what the buffer given holds. -/
def C115.said (np : Nat) (w : World σ) : Act M → List (Nat × Bytes)
  | .send b d _ => [(d, w.buf b)]
  | .exec b => w.idle.getLast?.toList.map fun q => (q, w.buf b)
  | .bcast b => ((List.range np).filter (0 < ·)).map fun q => (q, w.buf b)
  | _ => []

/-- What the master is told by a call: by whom, and what `get_returnv()` holds. -/
def C115.heard (w : World σ) : Act M → List (Nat × Bytes)
  | .getReturnv c => [(c, w.buf 0)]
  | _ => []

/-- The slaves that are asked exist; requests are sent with tag 0; what is broadcast is in the manager's own buffer; `slave <<` is followed by a
method. -/
def C115.Fine (np : Nat) : Act M → Prop
  | .send _ d t => 0 < d ∧ d < np ∧ t = 0
  | .bcast b => b = 0
  | .shl _ _ => False
  | .finalize => False
  | _ => True

/-- An execution, with all that was said and heard. -/
inductive C115.Exec (C : Cls σ M) (np : Nat) : World σ → List (Act M) → World σ → List (Nat × Bytes) → List (Nat × Bytes) → Prop
  | nil (w) : C115.Exec C np w [] w [] []
  | cons {w w1 w2 a as S H} : C115.Fine np a → step C np w a = .ok w1 → C115.Exec C np w1 as w2 S H →
      C115.Exec C np w (a :: as) w2 (C115.said np w a ++ S) (C115.heard w1 a ++ H)

/-- What concerns one slave. -/
def C115.of (p : Nat) (l : List (Nat × Bytes)) : List Bytes := l.filterMap fun x => if x.1 = p then some x.2 else none

/-- `meth` is what the methods do: with the arguments, to the object, and the answer if there is one (`args.reset() << result`). -/
def C115.Does (C : Cls σ M) (meth : M → σ → Bytes → σ × Option Bytes) : Prop :=
  ∀ m s b, b.tag = 0 → (C.call m s b).1 = (meth m s (b.data.drop b.pos)).1 ∧ (C.call m s b).2.proc = b.proc ∧
    match (meth m s (b.data.drop b.pos)).2 with
    | none => (C.call m s b).2.tag = 0
    | some x => (C.call m s b).2.tag ≠ 0 ∧ (C.call m s b).2.data = x

/-- The object once the methods have been called one after another, and their answers. -/
def C115.calls (meth : M → σ → Bytes → σ × Option Bytes) : σ → List (M × Bytes) → σ × List Bytes
  | s, [] => (s, [])
  | s, (m, a) :: l =>
    let r := meth m s a
    let t := C115.calls meth r.1 l
    (t.1, r.2.toList ++ t.2)

/-- A method and its arguments, packed. -/
def C115.raw (C : Cls σ M) (x : M × Bytes) : Bytes := C.enc x.1 ++ x.2

/-- All that was said are methods with arguments. -/
def C115.Requests (C : Cls σ M) (S : List (Nat × Bytes)) : Prop := ∀ x ∈ S, ∃ r, x.2 = C115.raw C r

open C115

/-! ### Proofs -/

private theorem calls_append (meth : M → σ → Bytes → σ × Option Bytes) (s : σ) (l k : List (M × Bytes)) :
    calls meth s (l ++ k) = ((calls meth (calls meth s l).1 k).1, (calls meth s l).2 ++ (calls meth (calls meth s l).1 k).2) := by
  induction l generalizing s with
  | nil => simp [calls]
  | cons x l ih => simp [calls, ih]

private theorem mem_slaves (np p : Nat) : p ∈ slaves np ↔ 0 < p ∧ p < np := by
  unfold slaves
  cases np with
  | zero => simp
  | succ n =>
    rw [List.range_succ_eq_map]
    simp only [List.drop_succ_cons, List.drop_zero, List.mem_map, List.mem_range]
    constructor
    · rintro ⟨a, ha, rfl⟩; omega
    · rintro ⟨h1, h2⟩; exact ⟨p - 1, by omega, by omega⟩

private theorem nodup_slaves (np : Nat) : (slaves np).Nodup := by
  unfold slaves
  exact List.Sublist.nodup (List.drop_sublist _ _) List.nodup_range

private theorem slaves_eq (np : Nat) : (List.range np).filter (0 < ·) = slaves np := by
  unfold slaves
  cases np with
  | zero => simp
  | succ n =>
    rw [List.range_succ_eq_map]
    simp

private theorem of_append (p : Nat) (a b : List (Nat × Bytes)) : of p (a ++ b) = of p a ++ of p b := by simp [of]

private theorem of_map (l : List Nat) (hn : l.Nodup) (x : Bytes) (p : Nat) :
    of p (l.map fun q => (q, x)) = if p ∈ l then [x] else [] := by
  induction l with
  | nil => simp [of]
  | cons q l ih =>
    have h := List.nodup_cons.mp hn
    have ih := ih h.2
    unfold of at ih ⊢
    simp only [List.map_cons, List.filterMap_cons]
    by_cases hq : q = p
    · subst hq
      rw [if_neg h.1] at ih
      simp only [if_true, ih]; simp
    · simp only [hq, if_false, ih, List.mem_cons]
      simp [Ne.symm hq]

/-- The state of slave `p`, which has done `done` and has `rest` to do. -/
private structure Inv1 (C : Cls σ M) (meth : M → σ → Bytes → σ × Option Bytes) (s : σ) (p : Nat) (w : World σ) (S H : List Bytes) (fin : Bool)
    (done rest : List (M × Bytes)) : Prop where
  said : S = (done ++ rest).map (raw C)
  obj : w.obj p = (calls meth s done).1
  heard : H ++ (w.chan p 0).map (·.2) = (calls meth s done).2
  others : ∀ c, c ≠ 0 → w.chan c p = []
  todo : (w.ended p = false ∧ ∃ tl, w.chan 0 p = rest.map (fun r => (0, raw C r)) ++ tl ∧
      (fin = false → tl = []) ∧ (fin = true → ∃ x, tl = [(1, x)])) ∨ (fin = true ∧ w.ended p = true ∧ rest = [] ∧ w.chan 0 p = [])

private def Inv (C : Cls σ M) (meth : M → σ → Bytes → σ × Option Bytes) (np : Nat) (s0 : Nat → σ) (w : World σ) (S H : List (Nat × Bytes))
    (fin : Bool) : Prop :=
  ∀ p, 0 < p → p < np → ∃ done rest, Inv1 C meth (s0 p) p w (of p S) (of p H) fin done rest

/-- What is asked of slave `p` is sent to it. -/
private theorem posted {C : Cls σ M} {meth : M → σ → Bytes → σ × Option Bytes} {np : Nat} {s0 : Nat → σ} {w w1 : World σ} {S H : List (Nat × Bytes)}
    (h : Inv C meth np s0 w S H false) (s : List (Nat × Bytes)) (hs : Requests C s)
    (hobj : w1.obj = w.obj) (hend : w1.ended = w.ended)
    (hch : ∀ c p, 0 < p → c ≠ 0 → w1.chan c p = w.chan c p) (hch' : ∀ p, 0 < p → w1.chan p 0 = w.chan p 0)
    (h0 : ∀ p, 0 < p → p < np → w1.chan 0 p = w.chan 0 p ++ (of p s).map fun x => (0, x)) :
    Inv C meth np s0 w1 (S ++ s) H false := by
  intro p hp hp'
  obtain ⟨done, rest, hi⟩ := h p hp hp'
  have hx : ∃ l : List (M × Bytes), of p s = l.map (raw C) := by
    clear h0
    induction s with
    | nil => exact ⟨[], rfl⟩
    | cons y s ih =>
      obtain ⟨l, hl⟩ := ih fun x hx => hs x (List.mem_cons_of_mem _ hx)
      obtain ⟨r, hr⟩ := hs y (List.mem_cons_self ..)
      unfold of at hl ⊢
      by_cases hy : y.1 = p
      · exact ⟨r :: l, by simp [hy, hl, hr]⟩
      · exact ⟨l, by simp [hy, hl]⟩
  obtain ⟨l, hl⟩ := hx
  refine ⟨done, rest ++ l, ?_, ?_, ?_, ?_, ?_⟩
  · rw [of_append, hi.said, hl]; simp
  · rw [hobj]; exact hi.obj
  · rw [hch' p hp]; exact hi.heard
  · intro c hc; rw [hch c p hp hc]; exact hi.others c hc
  · rcases hi.todo with ⟨he, tl, ht, hf, -⟩ | ⟨hf, -⟩
    · refine .inl ⟨by rw [hend]; exact he, [], ?_, fun _ => rfl, fun h => by cases h⟩
      rw [h0 p hp hp', ht, hf rfl, hl]
      simp
    · cases hf

private theorem foldl_post (x : Bytes) (l : List Nat) (hn : l.Nodup) (w : World σ) :
    let v := l.foldl (fun v p => post v 0 p 0 x) w
    v.obj = w.obj ∧ v.ended = w.ended ∧ v.buf = w.buf ∧ v.idle = w.idle ∧
    ∀ c p, v.chan c p = w.chan c p ++ if c = 0 ∧ p ∈ l then [(0, x)] else [] := by
  induction l generalizing w with
  | nil => simp
  | cons q l ih =>
    have h := List.nodup_cons.mp hn
    obtain ⟨h1, h2, h3, h4, h5⟩ := ih h.2 (post w 0 q 0 x)
    refine ⟨h1, h2, h3, h4, fun c p => ?_⟩
    rw [List.foldl_cons, h5 c p]
    simp only [post, setChan]
    by_cases hc : c = 0
    · by_cases hq : p = q
      · subst hq; simp [hc, h.1]
      · simp [hc, hq]
    · simp [hc]

private theorem sent_ok {np b d t : Nat} {w w1 : World σ} (hd : 0 < d) (h : send np b d t w = .ok w1) :
    d < np ∧ w1.obj = w.obj ∧ w1.ended = w.ended ∧ w1.idle = w.idle ∧
      ∀ c p, w1.chan c p = w.chan c p ++ if c = 0 ∧ p = d then [(t, w.buf b)] else [] := by
  unfold send at h
  rw [if_neg (by omega)] at h
  split at h
  · cases h
  · cases h
    refine ⟨by omega, rfl, rfl, rfl, fun c p => ?_⟩
    simp only [setBuf, post, setChan]
    by_cases hc : c = 0 ∧ p = d
    · obtain ⟨rfl, rfl⟩ := hc; simp
    · simp [hc]

private theorem method_eq (C : Cls σ M) (np p : Nat) (r : M × Bytes) (v : World σ) (o : σ) (ho : v.obj p = o) :
    method C np p ⟨raw C r, 0, 0, 0⟩ v =
      if (C.call r.1 o ⟨raw C r, 0 + C.width, 0, 0⟩).2.tag = 0 then .ok (setObj v p (C.call r.1 o ⟨raw C r, 0 + C.width, 0, 0⟩).1)
      else answer np p (C.call r.1 o ⟨raw C r, 0 + C.width, 0, 0⟩).2 (setObj v p (C.call r.1 o ⟨raw C r, 0 + C.width, 0, 0⟩).1) := by
  have hl : ¬ (raw C r).length < 0 + C.width := by simp [raw, C.enc_length]
  have hdec : C.dec (((raw C r).drop 0).take C.width) = some r.1 := by
    rw [List.drop_zero, raw, List.take_left' (C.enc_length _), C.dec_enc]
  subst ho
  unfold method
  rw [if_neg hl]
  show (match C.dec (((raw C r).drop 0).take C.width) with | none => _ | some m => _) = _
  rw [hdec]

/-- One turn of a slave that has something to do. -/
private theorem served {C : Cls σ M} {meth : M → σ → Bytes → σ × Option Bytes} (hd : Does C meth) {np : Nat} {w : World σ}
    {p : Nat} (hp : 0 < p) (hp' : p < np) (he : w.ended p = false) {r : M × Bytes} {l : List (Nat × Bytes)}
    (hc : w.chan 0 p = (0, raw C r) :: l) :
    ∃ w1, serve C np p 0 w = .ok w1 ∧ w1.idle = w.idle ∧ w1.ended = w.ended ∧
      (∀ q, w1.obj q = if q = p then (meth r.1 (w.obj p) r.2).1 else w.obj q) ∧
      ∀ c q, w1.chan c q = if c = 0 ∧ q = p then l
        else w.chan c q ++ if c = p ∧ q = 0 then (meth r.1 (w.obj p) r.2).2.toList.map (fun x => (0, x)) else [] := by
  have hdrop : (raw C r).drop (0 + C.width) = r.2 := by
    rw [raw, Nat.zero_add, List.drop_left' (C.enc_length _)]
  have hdo := hd r.1 (w.obj p) ⟨raw C r, 0 + C.width, 0, 0⟩ rfl
  simp only [hdrop] at hdo
  obtain ⟨h1, h2, h3⟩ := hdo
  unfold serve
  rw [if_neg (by simp [he]; omega), hc]
  simp only [if_true]
  rw [method_eq C np p r (setChan w 0 p l) (w.obj p) rfl]
  cases hm : (meth r.1 (w.obj p) r.2).2 with
  | none =>
    rw [hm] at h3
    simp only at h3
    rw [if_pos h3]
    refine ⟨_, rfl, rfl, rfl, fun q => ?_, fun c q => ?_⟩
    · simp only [setObj, setChan, h1]
    · simp only [setObj, setChan]
      by_cases hq : c = 0 ∧ q = p
      · simp [hq]
      · simp [hq]
  | some x =>
    rw [hm] at h3
    simp only at h3
    rw [if_neg h3.1]
    unfold answer
    rw [if_neg (by rw [h2]; omega), if_neg (by rw [h2]; omega)]
    refine ⟨_, rfl, rfl, rfl, fun q => ?_, fun c q => ?_⟩
    · simp only [post, setChan, setObj, h1]
    · simp only [post, setChan, setObj, h2, h3.2]
      by_cases hq : c = 0 ∧ q = p
      · obtain ⟨rfl, rfl⟩ := hq
        rw [if_neg (by omega)]; simp
      · by_cases hq' : c = p ∧ q = 0
        · obtain ⟨rfl, rfl⟩ := hq'
          rw [if_neg hq]; simp
          intro h0; omega
        · simp [hq, hq']

private theorem serve_inv {C : Cls σ M} {meth : M → σ → Bytes → σ × Option Bytes} (hd : Does C meth) {np : Nat} {s0 : Nat → σ} {w w1 : World σ}
    {S H : List (Nat × Bytes)} {fin : Bool} (h : Inv C meth np s0 w S H fin) {p c : Nat} (hs : serve C np p c w = .ok w1) :
    Inv C meth np s0 w1 S H fin := by
  have hs0 := hs
  unfold serve at hs
  split at hs
  · cases hs
  rename_i hn
  have hp : 0 < p := by omega
  have hp' : p < np := by omega
  have he : w.ended p = false := by
    cases hh : w.ended p with
    | false => rfl
    | true => exact absurd (Or.inr (Or.inr hh)) hn
  obtain ⟨done, rest, hi⟩ := h p hp hp'
  by_cases hc : c = 0
  · subst hc
    rcases hi.todo with ⟨-, tl, ht, hf, hf'⟩ | ⟨-, he', -⟩
    · cases rest with
      | cons r rest =>
        have hch : w.chan 0 p = (0, raw C r) :: (rest.map (fun r => (0, raw C r)) ++ tl) := by rw [ht]; simp
        obtain ⟨w2, hw2, -, a1, a2, a3⟩ := served hd hp hp' he hch
        rw [hs0] at hw2
        cases hw2
        intro q hq hq'
        by_cases hqp : q = p
        · subst hqp
          refine ⟨done ++ [r], rest, by rw [hi.said]; simp, ?_, ?_, ?_, .inl ⟨by rw [a1]; exact he, tl, ?_, hf, hf'⟩⟩
          · rw [a2, if_pos rfl, calls_append, hi.obj]; simp [calls]
          · rw [a3, if_neg (by omega), if_pos ⟨rfl, rfl⟩, calls_append, ← hi.heard, hi.obj]; simp [calls, Function.comp_def]
          · intro c hc
            rw [a3, if_neg (by omega), if_neg (by omega), hi.others c hc]; rfl
          · rw [a3, if_pos ⟨rfl, rfl⟩]
        · obtain ⟨done', rest', hj⟩ := h q hq hq'
          refine ⟨done', rest', hj.said, ?_, ?_, ?_, ?_⟩
          · rw [a2, if_neg hqp]; exact hj.obj
          · rw [a3, if_neg (by omega), if_neg (by omega), List.append_nil]; exact hj.heard
          · intro c hc; rw [a3, if_neg (by omega), if_neg (by omega), List.append_nil]; exact hj.others c hc
          · rw [a3, if_neg (by omega), if_neg (by omega), List.append_nil, a1]; exact hj.todo
      | nil =>
        cases hfin : fin with
        | false => rw [hf hfin] at ht; rw [ht] at hs; cases hs
        | true =>
          obtain ⟨x, hx⟩ := hf' hfin
          subst hx
          rw [ht] at hs
          simp only [List.map_nil, List.nil_append] at hs
          rw [if_neg (by omega)] at hs
          cases hs
          intro q hq hq'
          by_cases hqp : q = p
          · subst hqp
            refine ⟨done, [], hi.said, hi.obj, ?_, ?_, .inr ⟨rfl, by simp, rfl, by simp [setChan]⟩⟩
            · simp only [setChan]; rw [if_neg (by omega)]; exact hi.heard
            · intro c hc; simp only [setChan]; rw [if_neg (by omega)]; exact hi.others c hc
          · obtain ⟨done', rest', hj⟩ := h q hq hq'
            subst hfin
            refine ⟨done', rest', hj.said, hj.obj, ?_, ?_, ?_⟩
            · simp only [setChan]; rw [if_neg (by omega)]; exact hj.heard
            · intro c hc; simp only [setChan]; rw [if_neg (by omega)]; exact hj.others c hc
            · simpa [setChan, hqp] using hj.todo
    · rw [he] at he'; cases he'
  · rw [hi.others c hc] at hs; cases hs

private theorem getReturnv_inv {C : Cls σ M} {meth : M → σ → Bytes → σ × Option Bytes} {np : Nat} {s0 : Nat → σ} {w w1 : World σ}
    {S H : List (Nat × Bytes)} {fin : Bool} (h : Inv C meth np s0 w S H fin) {c : Nat} (hs : getReturnv c w = .ok w1) :
    Inv C meth np s0 w1 S (H ++ [(c, w1.buf 0)]) fin := by
  unfold getReturnv at hs
  split at hs
  · cases hs
  rename_i t x l hc
  cases hs
  intro q hq hq'
  obtain ⟨done, rest, hi⟩ := h q hq hq'
  refine ⟨done, rest, hi.said, hi.obj, ?_, ?_, ?_⟩
  · have hh := hi.heard
    show of q (H ++ [(c, if 0 = 0 then x else w.buf 0)]) ++ (if q = c ∧ 0 = 0 then l else w.chan q 0).map (·.2) = _
    rw [if_pos rfl, of_append]
    by_cases hqc : q = c
    · subst hqc
      rw [hc] at hh
      rw [if_pos ⟨rfl, rfl⟩]
      rw [← hh]
      simp [of]
    · rw [if_neg (by omega), ← hh]
      have : of q [(c, x)] = [] := by simp [of, Ne.symm hqc]
      simp [this]
  · intro d hd
    simp only [setBuf, setChan]
    rw [if_neg (by omega)]; exact hi.others d hd
  · simp only [setBuf, setChan]
    rw [if_neg (by omega)]; exact hi.todo

/-- Only slaves are idle, and only slaves send to the master. -/
private def Idl (np : Nat) (w : World σ) : Prop :=
  (∀ q ∈ w.idle, 0 < q ∧ q < np) ∧ ∀ c, ¬ (0 < c ∧ c < np) → w.chan c 0 = []

private theorem serve_idl {C : Cls σ M} {meth : M → σ → Bytes → σ × Option Bytes} (hd : Does C meth) {np : Nat} {s0 : Nat → σ} {w w1 : World σ}
    {S H : List (Nat × Bytes)} {fin : Bool} (h : Inv C meth np s0 w S H fin) (hi : Idl np w) {p c : Nat} (hs : serve C np p c w = .ok w1) :
    Idl np w1 := by
  have hs0 := hs
  unfold serve at hs
  split at hs
  · cases hs
  rename_i hn
  have hp : 0 < p := by omega
  have hp' : p < np := by omega
  have he : w.ended p = false := by
    cases hh : w.ended p with
    | false => rfl
    | true => exact absurd (Or.inr (Or.inr hh)) hn
  obtain ⟨done, rest, hj⟩ := h p hp hp'
  by_cases hc : c = 0
  · subst hc
    rcases hj.todo with ⟨-, tl, ht, hf, hf'⟩ | ⟨-, he', -⟩
    · cases rest with
      | cons r rest =>
        have hch : w.chan 0 p = (0, raw C r) :: (rest.map (fun r => (0, raw C r)) ++ tl) := by rw [ht]; simp
        obtain ⟨w2, hw2, a0, a1, a2, a3⟩ := served hd hp hp' he hch
        rw [hs0] at hw2
        cases hw2
        refine ⟨by rw [a0]; exact hi.1, fun c hc => ?_⟩
        rw [a3, if_neg (by omega), if_neg (by omega), hi.2 c hc]; rfl
      | nil =>
        cases hfin : fin with
        | false => rw [hf hfin] at ht; rw [ht] at hs; cases hs
        | true =>
          obtain ⟨x, hx⟩ := hf' hfin
          subst hx
          rw [ht] at hs
          simp only [List.map_nil, List.nil_append] at hs
          rw [if_neg (by omega)] at hs
          cases hs
          refine ⟨hi.1, fun c hc => ?_⟩
          simp only [setChan]; rw [if_neg (by omega)]; exact hi.2 c hc
    · rw [he] at he'; cases he'
  · rw [hj.others c hc] at hs; cases hs

private theorem getReturnv_idl {np : Nat} {w w1 : World σ} (hi : Idl np w) {c : Nat} (hs : getReturnv c w = .ok w1) : Idl np w1 := by
  unfold getReturnv at hs
  split at hs
  · cases hs
  rename_i t x l hc
  cases hs
  refine ⟨fun q hq => ?_, fun d hd => ?_⟩
  · simp only [List.mem_append, List.mem_singleton] at hq
    rcases hq with hq | rfl
    · exact hi.1 q hq
    · false_or_by_contra
      rename_i hcon
      rw [hi.2 q hcon] at hc; cases hc
  · simp only [setBuf, setChan]
    split
    · rename_i h; obtain ⟨rfl, -⟩ := h; rw [hi.2 d hd] at hc; cases hc
    · exact hi.2 d hd

private theorem step_inv {C : Cls σ M} {meth : M → σ → Bytes → σ × Option Bytes} (hd : Does C meth) {np : Nat} {s0 : Nat → σ} {w w1 : World σ}
    {S H : List (Nat × Bytes)} (h : Inv C meth np s0 w S H false) (hid : Idl np w) {a : Act M} (hf : Fine np a)
    (hr : Requests C (said np w a)) (hs : step C np w a = .ok w1) :
    Inv C meth np s0 w1 (S ++ said np w a) (H ++ heard w1 a) false := by
  cases a with
  | begin' m =>
    cases hs
    simp only [said, heard, List.append_nil]
    exact fun p hp hp' => let ⟨d, r, hi⟩ := h p hp hp'; ⟨d, r, hi.said, hi.obj, hi.heard, hi.others, hi.todo⟩
  | put b x =>
    cases hs
    simp only [said, heard, List.append_nil]
    exact fun p hp hp' => let ⟨d, r, hi⟩ := h p hp hp'; ⟨d, r, hi.said, hi.obj, hi.heard, hi.others, hi.todo⟩
  | shl n x => exact hf.elim
  | finalize => exact hf.elim
  | send b d t =>
    obtain ⟨hd0, -, rfl⟩ := hf
    obtain ⟨-, h1, h2, -, h3⟩ := sent_ok hd0 hs
    simp only [heard, List.append_nil]
    refine posted h _ hr h1 h2 (fun c p _ hc => by rw [h3]; simp [hc]) (fun p hp => by rw [h3, if_neg (by omega)]; simp) fun p _ _ => ?_
    rw [h3]
    by_cases hp : p = d
    · subst hp; simp [said, of]
    · simp [said, of, hp, Ne.symm hp]
  | exec b =>
    simp only [step, exec] at hs
    split at hs
    · cases hs
    rename_i q hq
    split at hs
    · rename_i w2 hw2
      have hq0 := (hid.1 q (List.mem_of_getLast? hq)).1
      cases hs
      obtain ⟨-, h1, h2, -, h3⟩ := sent_ok hq0 hw2
      simp only [heard, List.append_nil]
      refine posted h _ hr h1 h2 (fun c p _ hc => by simp only [h3]; simp [hc])
        (fun p hp => by simp only [h3]; rw [if_neg (by omega)]; simp) fun p _ _ => ?_
      simp only [h3]
      by_cases hp : p = q
      · subst hp; simp [said, of, hq]
      · simp [said, of, hp, Ne.symm hp, hq]
    · rename_i hw2; exact absurd hs (by intro h; exact hw2 _ h)
  | bcast b =>
    have hb : b = 0 := hf
    subst hb
    cases hs
    obtain ⟨h1, h2, h3, h4, h5⟩ := foldl_post (w.buf 0) (slaves np) (nodup_slaves np) w
    simp only [heard, List.append_nil]
    refine posted h _ hr h1 h2 (fun c p _ hc => by simp only [bcast, setBuf]; rw [h5]; simp [hc])
      (fun p hp => by simp only [bcast, setBuf]; rw [h5, if_neg (by omega)]; simp) fun p hp hp' => ?_
    simp only [bcast, setBuf]
    rw [h5]
    have hm := (mem_slaves np p).mpr ⟨hp, hp'⟩
    simp only [said]
    rw [slaves_eq, of_map _ (nodup_slaves np), if_pos hm]
    simp only [hm, and_self, if_true]
    simp
  | getReturnv c =>
    simp only [said, List.append_nil]
    exact getReturnv_inv h hs
  | serve p c =>
    simp only [said, heard, List.append_nil]
    exact serve_inv hd h hs

private theorem step_idl {C : Cls σ M} {meth : M → σ → Bytes → σ × Option Bytes} (hd : Does C meth) {np : Nat} {s0 : Nat → σ} {w w1 : World σ}
    {S H : List (Nat × Bytes)} (h : Inv C meth np s0 w S H false) (hi : Idl np w) {a : Act M} (hf : Fine np a)
    (hs : step C np w a = .ok w1) : Idl np w1 := by
  cases a with
  | begin' m => cases hs; exact hi
  | put b x => cases hs; exact hi
  | shl n x => exact hf.elim
  | finalize => exact hf.elim
  | send b d t =>
    obtain ⟨hd0, -, rfl⟩ := hf
    obtain ⟨-, -, -, h2, h3⟩ := sent_ok hd0 hs
    exact ⟨by rw [h2]; exact hi.1, fun c hc => by rw [h3, if_neg (by omega), hi.2 c hc]; rfl⟩
  | exec b =>
    simp only [step, exec] at hs
    split at hs
    · cases hs
    rename_i q hq
    split at hs
    · rename_i w2 hw2
      have hq0 := (hi.1 q (List.mem_of_getLast? hq)).1
      cases hs
      obtain ⟨-, -, -, h2, h3⟩ := sent_ok hq0 hw2
      refine ⟨fun x hx => ?_, fun c hc => ?_⟩
      · simp only [h2] at hx; exact hi.1 x ((List.dropLast_sublist _).subset hx)
      · simp only [h3]; rw [if_neg (by omega), hi.2 c hc]; rfl
    · rename_i hw2; exact absurd hs (by intro h; exact hw2 _ h)
  | bcast b =>
    cases hs
    obtain ⟨-, -, -, h4, h5⟩ := foldl_post (w.buf 0) (slaves np) (nodup_slaves np) w
    refine ⟨by simp only [bcast, setBuf]; rw [h4]; exact hi.1, fun c hc => ?_⟩
    simp only [bcast, setBuf]
    rw [h5, if_neg (by rw [mem_slaves]; omega), hi.2 c hc]; rfl
  | getReturnv c => exact getReturnv_idl hi hs
  | serve p c => exact serve_idl hd h hi hs

private theorem exec_inv {C : Cls σ M} {meth : M → σ → Bytes → σ × Option Bytes} (hd : Does C meth) {np : Nat} {s0 : Nat → σ} {w w1 : World σ}
    {as : List (Act M)} {S H : List (Nat × Bytes)} (he : Exec C np w as w1 S H) :
    ∀ {S0 H0 : List (Nat × Bytes)}, Requests C S → Inv C meth np s0 w S0 H0 false → Idl np w →
      Inv C meth np s0 w1 (S0 ++ S) (H0 ++ H) false ∧ Idl np w1 := by
  induction he with
  | nil w => intro S0 H0 _ h hi; simpa using ⟨h, hi⟩
  | cons hf hs _ ih =>
    intro S0 H0 hr h hi
    have hr1 : Requests C _ := fun x hx => hr x (List.mem_append_left _ hx)
    have hr2 : Requests C _ := fun x hx => hr x (List.mem_append_right _ hx)
    have := ih hr2 (step_inv hd h hi hf hr1 hs) (step_idl hd h hi hf hs)
    simpa [List.append_assoc] using this

private theorem init_inv (C : Cls σ M) (meth : M → σ → Bytes → σ × Option Bytes) (np : Nat) (s0 : Nat → σ) :
    Inv C meth np s0 (init np s0) [] [] false ∧ Idl np (init np s0) := by
  refine ⟨fun p hp hp' => ⟨[], [], rfl, rfl, rfl, fun _ _ => rfl, .inl ⟨rfl, [], rfl, fun _ => rfl, fun h => by cases h⟩⟩,
    fun q hq => (mem_slaves np q).mp hq, fun _ _ => rfl⟩

/-- A slave's turn waits only if there is nothing to do. -/
private theorem blocked_iff {C : Cls σ M} {meth : M → σ → Bytes → σ × Option Bytes} (hd : Does C meth) {s : σ} {np p : Nat}
    {w : World σ} {S H : List Bytes} {fin : Bool} {done rest : List (M × Bytes)} (hp : 0 < p) (hp' : p < np)
    (hi : Inv1 C meth s p w S H fin done rest) :
    (∀ c, serve C np p c w = .blocked) ↔ rest = [] ∧ w.ended p = fin := by
  constructor
  · intro hb
    have hb := hb 0
    rcases hi.todo with ⟨he, tl, ht, hf, hf'⟩ | ⟨hf, he, hr, -⟩
    · cases rest with
      | cons r rest =>
        have hch : w.chan 0 p = (0, raw C r) :: (rest.map (fun r => (0, raw C r)) ++ tl) := by rw [ht]; simp
        obtain ⟨w2, hw2, -⟩ := served hd hp hp' he hch
        rw [hb] at hw2; cases hw2
      | nil =>
        cases hfin : fin with
        | false => exact ⟨rfl, he⟩
        | true =>
          obtain ⟨x, rfl⟩ := hf' hfin
          unfold serve at hb
          rw [if_neg (by simp [he]; omega), ht] at hb
          cases hb
    · exact ⟨hr, by rw [he, hf]⟩
  · rintro ⟨hr, he⟩ c
    unfold serve
    split
    · rfl
    rename_i hn
    rcases hi.todo with ⟨he', tl, ht, hf, hf'⟩ | ⟨hf, he', -⟩
    · by_cases hc : c = 0
      · subst hc
        rw [ht, hr, hf (by rw [← he, he'])]; rfl
      · rw [hi.others c hc]
    · exact absurd (Or.inr (Or.inr he')) hn

/-- Each slave executes the requests sent to it, in the order in which they were sent, once each and with the arguments given, on its own object;
what its methods answer is what the master is told by it, complete and in order, but for what is still under way.  It waits only if it has
executed all of them. -/
theorem C115_executed_partial {C : Cls σ M} {meth : M → σ → Bytes → σ × Option Bytes} (hd : Does C meth) {np : Nat} {s0 : Nat → σ} {w : World σ}
    {as : List (Act M)} {S H : List (Nat × Bytes)} (he : Exec C np (init np s0) as w S H) (hr : Requests C S) {p : Nat} (hp : 0 < p)
    (hp' : p < np) :
    ∃ done rest, of p S = (done ++ rest).map (raw C) ∧ w.obj p = (calls meth (s0 p) done).1 ∧
      of p H ++ (w.chan p 0).map (·.2) = (calls meth (s0 p) done).2 ∧ w.ended p = false ∧
      ((∀ c, serve C np p c w = .blocked) ↔ rest = []) := by
  obtain ⟨h, -⟩ := exec_inv hd he hr (init_inv C meth np s0).1 (init_inv C meth np s0).2
  obtain ⟨done, rest, hi⟩ := h p hp hp'
  simp only [List.nil_append] at hi
  have hend : w.ended p = false := by
    rcases hi.todo with h | ⟨h, -⟩
    · exact h.1
    · cases h
  exact ⟨done, rest, hi.said, hi.obj, hi.heard, hend, by rw [blocked_iff hd hp hp' hi, hend]; simp⟩

/-- Nothing the master may do, and nothing the slaves do, ends the program. -/
theorem C115_safe_partial {C : Cls σ M} {meth : M → σ → Bytes → σ × Option Bytes} (hd : Does C meth) {np : Nat} {s0 : Nat → σ} {w : World σ}
    {as : List (Act M)} {S H : List (Nat × Bytes)} (he : Exec C np (init np s0) as w S H) (hr : Requests C S) {a : Act M} (hf : Fine np a)
    (hx : ∀ b, a = .exec b → w.idle ≠ []) : step C np w a ≠ .bad := by
  obtain ⟨h, hid⟩ := exec_inv hd he hr (init_inv C meth np s0).1 (init_inv C meth np s0).2
  cases a with
  | begin' m => intro h; cases h
  | put b x => intro h; cases h
  | shl n x => exact hf.elim
  | finalize => exact hf.elim
  | send b d t =>
    obtain ⟨h1, h2, -⟩ := hf
    simp only [step, send]
    rw [if_neg (by omega), if_neg (by omega)]
    intro h; cases h
  | exec b =>
    simp only [step, exec]
    cases hq : w.idle.getLast? with
    | none => exact absurd (by simpa using hq) (hx b rfl)
    | some q =>
      have := hid.1 q (List.mem_of_getLast? hq)
      simp only [send]
      rw [if_neg (by omega), if_neg (by omega)]
      intro h; cases h
  | bcast b => intro h; cases h
  | getReturnv c =>
    simp only [step, getReturnv]
    split <;> intro h <;> cases h
  | serve p c =>
    simp only [step]
    intro hb
    have hb0 := hb
    unfold serve at hb
    split at hb
    · cases hb
    rename_i hn
    obtain ⟨done, rest, hi⟩ := h p (by omega) (by omega)
    rcases hi.todo with ⟨hend, tl, ht, hff, -⟩ | ⟨hff, -⟩
    · by_cases hc : c = 0
      · subst hc
        cases rest with
        | nil => rw [ht, hff rfl] at hb; cases hb
        | cons r rest =>
          have hch : w.chan 0 p = (0, raw C r) :: (rest.map (fun r => (0, raw C r)) ++ tl) := by rw [ht]; simp
          obtain ⟨w2, hw2, -⟩ := served (np := np) (p := p) hd (by omega) (by omega) hend hch
          rw [hb0] at hw2; cases hw2
      · rw [hi.others c hc] at hb; cases hb
    · cases hff

private theorem finalized (np : Nat) (l : List Nat) (hl : ∀ q ∈ l, 0 < q ∧ q < np) (hn : l.Nodup) (w : World σ) :
    ∃ w1 : World σ, l.foldl (fun (r : Out σ) p => match r with | .ok v => send np 0 p 1 v | r => r) (.ok w) = .ok w1 ∧ w1.obj = w.obj ∧ w1.ended = w.ended ∧
      w1.idle = w.idle ∧ (∀ c p, ¬ (c = 0 ∧ p ∈ l) → w1.chan c p = w.chan c p) ∧ ∀ p ∈ l, ∃ x, w1.chan 0 p = w.chan 0 p ++ [(1, x)] := by
  induction l generalizing w with
  | nil => exact ⟨w, rfl, rfl, rfl, rfl, fun _ _ _ => rfl, by simp⟩
  | cons q l ih =>
    have hq := hl q (List.mem_cons_self ..)
    have hnn := List.nodup_cons.mp hn
    have hs : send np 0 q 1 w = .ok (setBuf (post w 0 q 1 (w.buf 0)) 0 []) := by
      unfold send; rw [if_neg (by omega), if_neg (by omega)]
    obtain ⟨-, b1, b2, b3, b4⟩ := sent_ok hq.1 hs
    obtain ⟨w1, hw1, a1, a2, a3, a4, a5⟩ := ih (fun x hx => hl x (List.mem_cons_of_mem _ hx)) hnn.2 (setBuf (post w 0 q 1 (w.buf 0)) 0 [])
    refine ⟨w1, ?_, a1.trans b1, a2.trans b2, a3.trans b3, fun c p h => ?_, fun p hp => ?_⟩
    · rw [List.foldl_cons]; simp only [hs]; exact hw1
    · rw [a4 c p (fun hh => h ⟨hh.1, List.mem_cons_of_mem _ hh.2⟩), b4, if_neg (by
        rintro ⟨rfl, rfl⟩; exact h ⟨rfl, List.mem_cons_self ..⟩)]; simp
    · by_cases hpq : p = q
      · subst hpq
        exact ⟨w.buf 0, by rw [a4 0 p (fun hh => hnn.1 hh.2), b4, if_pos ⟨rfl, rfl⟩]⟩
      · obtain ⟨x, hx⟩ := a5 p ((List.mem_cons.mp hp).resolve_left hpq)
        exact ⟨x, by rw [hx, b4, if_neg (by simp [hpq])]; simp⟩

private theorem rest_inv {C : Cls σ M} {meth : M → σ → Bytes → σ × Option Bytes} (hd : Does C meth) {np : Nat} {s0 : Nat → σ} {w w1 : World σ}
    {as : List (Act M)} {S S2 H H2 : List (Nat × Bytes)} (he : Exec C np w as w1 S2 H2)
    (hb : ∀ b ∈ as, ∃ p c, b = .serve p c ∨ b = .getReturnv c) (hv : Inv C meth np s0 w S H true) :
    Inv C meth np s0 w1 S (H ++ H2) true := by
  induction he generalizing H with
  | nil w => simpa using hv
  | cons hf hs _ ih =>
    obtain ⟨q, c, rfl | rfl⟩ := hb _ (List.mem_cons_self ..)
    · have := ih (fun b h => hb b (List.mem_cons_of_mem _ h)) (serve_inv hd hv hs)
      simpa [heard] using this
    · have := ih (fun b h => hb b (List.mem_cons_of_mem _ h)) (getReturnv_inv hv hs)
      simpa [heard, List.append_assoc] using this

/-- Once the manager is finalised, which can be done at any time, the slaves end: when all that can happen has happened, each of them has left its
loop, and has executed everything sent to it before. -/
theorem C115_ended_partial {C : Cls σ M} {meth : M → σ → Bytes → σ × Option Bytes} (hd : Does C meth) {np : Nat} {s0 : Nat → σ} {w : World σ}
    {as : List (Act M)} {S H : List (Nat × Bytes)} (he : Exec C np (init np s0) as w S H) (hr : Requests C S) :
    ∃ w1, step C np w .finalize = .ok w1 ∧ ∀ {bs : List (Act M)} {w2 : World σ} {H2 : List (Nat × Bytes)},
      Exec C np w1 bs w2 [] H2 → (∀ b ∈ bs, ∃ p c, b = .serve p c ∨ b = .getReturnv c) → (∀ p c, serve C np p c w2 = .blocked) →
      ∀ p, 0 < p → p < np → w2.ended p = true ∧ ∃ l, of p S = l.map (raw C) ∧ w2.obj p = (calls meth (s0 p) l).1 ∧
        of p (H ++ H2) ++ (w2.chan p 0).map (·.2) = (calls meth (s0 p) l).2 := by
  obtain ⟨h, -⟩ := exec_inv hd he hr (init_inv C meth np s0).1 (init_inv C meth np s0).2
  simp only [List.nil_append] at h
  obtain ⟨w1, hw1, a1, a2, a3, a4, a5⟩ := finalized np (slaves np) (fun q hq => (mem_slaves np q).mp hq) (nodup_slaves np) w
  refine ⟨w1, hw1, fun {bs w2 H2} hx hb hstop p hp hp' => ?_⟩
  have h1 : Inv C meth np s0 w1 S H true := by
    intro q hq hq'
    obtain ⟨done, rest, hi⟩ := h q hq hq'
    refine ⟨done, rest, hi.said, by rw [a1]; exact hi.obj, ?_, fun c hc => ?_, ?_⟩
    · rw [a4 q 0 (by omega)]; exact hi.heard
    · rw [a4 c q (fun hh => hc hh.1)]; exact hi.others c hc
    · rcases hi.todo with ⟨hend, tl, ht, hf, -⟩ | ⟨hf, -⟩
      · obtain ⟨x, hx⟩ := a5 q ((mem_slaves np q).mpr ⟨hq, hq'⟩)
        rw [hf rfl, List.append_nil] at ht
        exact .inl ⟨by rw [a2]; exact hend, [(1, x)], by rw [hx, ht], fun h => (by cases h), fun _ => ⟨x, rfl⟩⟩
      · cases hf
  obtain ⟨done, rest, hi⟩ := rest_inv hd hx hb h1 p hp hp'
  obtain ⟨hrest, hend⟩ := (blocked_iff hd hp hp' hi).mp (hstop p)
  subst hrest
  exact ⟨hend, done, by simpa using hi.said, hi.obj, hi.heard⟩

/-- `bcast(c)` sends what the manager's buffer holds, whatever is in `c`, and the contents of `c` are gone. -/
theorem C115_fails_bcast (C : Cls σ M) (np b : Nat) (w : World σ) (hb : w.buf b ≠ w.buf 0) :
    ∃ w1, step C np w (.bcast b) = .ok w1 ∧ w1.buf b = [] ∧
      ∀ p, 0 < p → p < np → w1.chan 0 p = w.chan 0 p ++ [(0, w.buf 0)] ∧ w1.chan 0 p ≠ w.chan 0 p ++ [(0, w.buf b)] := by
  obtain ⟨-, -, h3, -, h5⟩ := foldl_post (w.buf 0) (slaves np) (nodup_slaves np) w
  refine ⟨_, rfl, by simp [bcast, setBuf], fun p hp hp' => ?_⟩
  simp only [bcast, setBuf]
  rw [h5]
  simp [(mem_slaves np p).mpr ⟨hp, hp'⟩, Ne.symm hb]

/-- With nothing in the manager's buffer the slaves are then ended by an exception. -/
theorem C115_fails_bcast_bad (C : Cls σ M) (hC : 0 < C.width) (np b : Nat) (hb : b ≠ 0) (s0 : Nat → σ) (x : Bytes) (hnp : 1 < np) :
    run C np (init np s0) [.put b x, .bcast b, .serve 1 0] = .bad := by
  obtain ⟨h1, h2, h3, h4, h5⟩ := foldl_post [] (slaves np) (nodup_slaves np) (setBuf (init np s0) b ([] ++ x))
  have hm := (mem_slaves np 1).mpr ⟨by omega, hnp⟩
  have hb0 : (setBuf (init np s0) b ([] ++ x)).buf 0 = [] := by simp [setBuf, init, Ne.symm hb]
  have hc : (bcast np b (put b x (init np s0))).chan 0 1 = [(0, [])] := by
    simp only [bcast, put]
    show (List.foldl (fun v p => post v 0 p 0 ((setBuf (init np s0) b ([] ++ x)).buf 0)) _ _).chan 0 1 = _
    rw [hb0, show (init np s0).buf b = [] from rfl, h5]
    simp [hm, setBuf, init]
  have he : (bcast np b (put b x (init np s0))).ended 1 = false := by
    simp only [bcast, put]
    show (List.foldl (fun v p => post v 0 p 0 ((setBuf (init np s0) b ([] ++ x)).buf 0)) _ _).ended 1 = _
    rw [hb0, show (init np s0).buf b = [] from rfl, h2]
    rfl
  simp only [run, step]
  have : serve C np 1 0 (bcast np b (put b x (init np s0))) = .bad := by
    unfold serve
    rw [if_neg (by simp [he]; omega), hc]
    simp only [if_true]
    unfold method
    rw [if_pos (by simpa using hC)]
  rw [this]

/-- A request sent with a tag ends the slave instead of being executed. -/
theorem C115_fails_tag (C : Cls σ M) (np b p t : Nat) (w : World σ) (hp : 0 < p) (hp' : p < np) (ht : t ≠ 0) (he : w.ended p = false)
    (hc : w.chan 0 p = []) :
    ∃ w1, run C np w [.send b p t, .serve p 0] = .ok w1 ∧ w1.ended p = true ∧ w1.obj = w.obj ∧ ∀ c, serve C np p c w1 = .blocked := by
  simp only [run, step, send]
  rw [if_neg (by omega), if_neg (by omega)]
  simp only [serve]
  rw [if_neg (by simp [setBuf, post, setChan, he]; omega)]
  simp only [setBuf, post, setChan, hc, and_self, if_true, List.nil_append, if_neg ht]
  exact ⟨_, rfl, by simp, rfl, fun c => by simp⟩

/-- A request the master sends to itself is not executed, and stays in the buffer. -/
theorem C115_fails_self (C : Cls σ M) (np b t : Nat) (w : World σ) : step C np w (.send b 0 t) = .ok w := rfl

/-- `slave << x` with anything else than a method never returns. -/
theorem C115_fails_stream (C : Cls σ M) (np n : Nat) (x : Bytes) (w : World σ) : step C np w (.shl n x) = .bad := by
  simp only [step]
  induction n generalizing w with
  | zero => rfl
  | succ n ih => exact ih _

/-- Finalised a second time, as by the destructor after `finalize()`, the manager sends messages to slaves that are no longer there. -/
theorem C115_fails_twice (C : Cls σ M) (s0 : Nat → σ) :
    ∃ w1, run C 2 (init 2 s0) [.finalize, .serve 1 0, .finalize] = .ok w1 ∧ w1.ended 1 = true ∧ w1.chan 0 1 = [(1, [])] ∧
      ∀ c, serve C 2 1 c w1 = .blocked :=
  ⟨_, rfl, rfl, rfl, fun _ => rfl⟩

/-! ### Example: three processes; a method that adds its argument to the object and answers with the sum -/

private def add : Cls Nat Unit where
  width := 1
  enc _ := [7]
  dec _ := some ()
  call _ s b := let t := s + ((b.data.drop b.pos).headD 0).toNat; (t, { b with data := [UInt8.ofNat t], pos := 0, tag := 1 })
  enc_length _ := rfl
  dec_enc _ := rfl

private def addM : Unit → Nat → Bytes → Nat × Option Bytes := fun _ s a =>
  (s + (a.headD 0).toNat, some [UInt8.ofNat (s + (a.headD 0).toNat)])

private theorem does_add : Does add addM := fun _ _ _ _ => ⟨rfl, rfl, Nat.one_ne_zero, rfl⟩

private def acts : List (Act Unit) :=
  [.begin' (), .put 0 [3], .bcast 0, .begin' (), .put 0 [4], .exec 0, .serve 2 0, .serve 1 0, .getReturnv 1, .serve 2 0]

private def said3 : List (Nat × Bytes) := [(1, [7, 3]), (2, [7, 3]), (2, [7, 4])]

private def w3 : World Nat := match run add 3 (init 3 fun _ => 0) acts with | .ok w => w | _ => init 3 fun _ => 0

example : Exec add 3 (init 3 fun _ => 0) acts w3 said3 [(1, [3])] ∧ Requests add said3 ∧
    of 2 said3 = [((), [3]), ((), [4])].map (raw add) ∧ w3.obj 1 = 3 ∧ w3.obj 2 = 7 ∧ w3.chan 2 0 = [(0, [3]), (0, [7])] := by
  refine ⟨?_, ?_, rfl, rfl, rfl, rfl⟩
  · have h : ∃ w S H, Exec add 3 (init 3 fun _ => 0) acts w S H ∧ w = w3 ∧ S = said3 ∧ H = [(1, [3])] :=
      ⟨_, _, _, .cons trivial rfl (.cons trivial rfl (.cons rfl rfl (.cons trivial rfl (.cons trivial rfl (.cons trivial rfl (.cons trivial rfl
        (.cons trivial rfl (.cons trivial rfl (.cons trivial rfl (.nil _)))))))))), rfl, rfl, rfl⟩
    obtain ⟨_, _, _, h, rfl, rfl, rfl⟩ := h
    exact h
  · intro x hx
    simp only [said3, List.mem_cons, List.not_mem_nil, or_false] at hx
    rcases hx with rfl | rfl | rfl
    · exact ⟨((), [3]), rfl⟩
    · exact ⟨((), [3]), rfl⟩
    · exact ⟨((), [4]), rfl⟩

example : ∃ w, run add 3 (init 3 fun _ => 0) (acts ++ [.finalize, .serve 1 0, .serve 2 0, .getReturnv 2]) = .ok w ∧
    w.ended 1 = true ∧ w.ended 2 = true ∧ w.obj 2 = 7 ∧ ∀ p c, p < 3 → serve add 3 p c w = .blocked := by
  refine ⟨_, rfl, rfl, rfl, rfl, fun p c hp => ?_⟩
  have : p = 0 ∨ p = 1 ∨ p = 2 := by omega
  rcases this with rfl | rfl | rfl <;> rfl

example : Does add addM := does_add

end Verif.MpiFarm
