import Verif.BufferHist
/-
Property theorems about the in-memory buffer: C01, C02, C09, C10, C11, C50.
-/
namespace Verif

/-! ### C01: byte FIFO -/

/-- All bytes handed to writes, in order. -/
def writtenBytes : List Op → Bytes
  | [] => []
  | .write xs :: ops => xs ++ writtenBytes ops
  | _ :: ops => writtenBytes ops

/-- All bytes delivered by successful reads, in order. -/
def deliveredBytes : List Obs → Bytes
  | [] => []
  | .data xs :: os => xs ++ deliveredBytes os
  | _ :: os => deliveredBytes os

/-- Only writes and reads, and no read request so large that adding it to the total would exceed 2^64. -/
def RWOnly (total : Nat) : List Op → Prop
  | [] => True
  | .write _ :: ops => RWOnly total ops
  | .read n :: ops => total + n < W64 ∧ RWOnly total ops
  | _ => False

theorem legal_of_rw (total : Nat) : ∀ (ops : List Op) (s : SBuf), s.pos ≤ s.content.length →
    s.content.length + (writtenBytes ops).length ≤ total → total < W64 → RWOnly total ops → s.LegalHist ops
  | [], _, _, _, _, _ => trivial
  | .write xs :: ops, s, hp, ht, hw, hr => by
    simp only [writtenBytes, List.length_append] at ht
    refine ⟨by simp only [SBuf.Legal]; omega, ?_⟩
    apply legal_of_rw total ops _ _ _ hw hr
    · simp [SBuf.step]; omega
    · simp [SBuf.step]; omega
  | .read n :: ops, s, hp, ht, hw, hr => by
    simp only [writtenBytes] at ht
    refine ⟨by have := hr.1; simp only [SBuf.Legal]; omega, ?_⟩
    by_cases hn : s.pos + n ≤ s.content.length
    · have e : (s.step (.read n)).2 = { s with pos := s.pos + n } := by simp [SBuf.step, hn]
      rw [e]; exact legal_of_rw total ops _ hn ht hw hr.2
    · have e : (s.step (.read n)).2 = s := by simp [SBuf.step, hn]
      rw [e]; exact legal_of_rw total ops _ hp ht hw hr.2
  | .reseti :: _, _, _, _, _, hr => hr.elim
  | .reseto :: _, _, _, _, _, hr => hr.elim
  | .clear :: _, _, _, _, _, hr => hr.elim
  | .seekiBack _ :: _, _, _, _, _, hr => hr.elim
  | .seeko _ :: _, _, _, _, _, hr => hr.elim

theorem spec_fifo (total : Nat) : ∀ (ops : List Op) (s : SBuf), s.pos ≤ s.content.length → RWOnly total ops →
    (SBuf.run ops s).2.content = s.content ++ writtenBytes ops ∧
    (SBuf.run ops s).2.pos = s.pos + (deliveredBytes (SBuf.run ops s).1).length ∧
    (SBuf.run ops s).2.pos ≤ (SBuf.run ops s).2.content.length ∧
    deliveredBytes (SBuf.run ops s).1 =
      ((s.content ++ writtenBytes ops).drop s.pos).take (deliveredBytes (SBuf.run ops s).1).length
  | [], s, hp, _ => by simp [SBuf.run, writtenBytes, deliveredBytes, hp]
  | .write xs :: ops, s, hp, hr => by
    obtain ⟨h1, h2, h3, h4⟩ := spec_fifo total ops { s with content := s.content ++ xs }
      (by simp; omega) hr
    simp only [SBuf.run, SBuf.step, writtenBytes, deliveredBytes]
    refine ⟨by rw [h1]; simp, h2, h3, ?_⟩
    rw [← List.append_assoc]; exact h4
  | .read n :: ops, s, hp, hr => by
    by_cases hn : s.pos + n ≤ s.content.length
    · obtain ⟨h1, h2, h3, h4⟩ := spec_fifo total ops { s with pos := s.pos + n } hn hr.2
      have e : s.step (.read n) = (.data ((s.content.drop s.pos).take n), { s with pos := s.pos + n }) := by
        simp [SBuf.step, hn]
      simp only [SBuf.run, e, writtenBytes, deliveredBytes]
      have hl : ((s.content.drop s.pos).take n).length = n := by simp; omega
      refine ⟨h1, ?_, h3, ?_⟩
      · rw [h2, List.length_append, hl]; simp only; omega
      · rw [List.length_append, hl]
        have e2 : ((s.content.drop s.pos).take n) = ((s.content ++ writtenBytes ops).drop s.pos).take n := by
          rw [List.drop_append_of_le_length hp, List.take_append_of_le_length (by simp; omega)]
        rw [List.take_add, e2]
        congr 1
        rw [List.drop_drop]
        exact h4
    · obtain ⟨h1, h2, h3, h4⟩ := spec_fifo total ops s hp hr.2
      have e : s.step (.read n) = (.threw, s) := by simp [SBuf.step, hn]
      simp only [SBuf.run, e, writtenBytes, deliveredBytes]
      exact ⟨h1, h2, h3, h4⟩
  | .reseti :: _, _, _, hr => hr.elim
  | .reseto :: _, _, _, hr => hr.elim
  | .clear :: _, _, _, hr => hr.elim
  | .seekiBack _ :: _, _, _, hr => hr.elim
  | .seeko _ :: _, _, _, hr => hr.elim

/-- C01. Every interleaving of writes and reads on a fresh buffer is free of undefined behaviour; the bytes
delivered are a prefix of the bytes written; `size()`, `pos()` and `operator bool` count them. -/
theorem C01_fifo (al : Alloc) (hok : al.ok = true) (ops : List Op)
    (htot : (writtenBytes ops).length < W64) (hrw : RWOnly (writtenBytes ops).length ops) :
    ∃ obs b, Buf.run al ops Buf.fresh = some (obs, b) ∧
      deliveredBytes obs = (writtenBytes ops).take (deliveredBytes obs).length ∧
      b.content = writtenBytes ops ∧
      b.size = (writtenBytes ops).length ∧
      b.pos = (deliveredBytes obs).length ∧
      (b.toBool = true ↔ (deliveredBytes obs).length < (writtenBytes ops).length) := by
  have hl : SBuf.LegalHist ⟨[], 0⟩ ops :=
    legal_of_rw (writtenBytes ops).length ops ⟨[], 0⟩ (by simp) (by simp) htot hrw
  obtain ⟨b, h1, h2⟩ := Buf.run_abs al hok ops Buf.abs_fresh hl
  obtain ⟨s1, s2, s3, s4⟩ := spec_fifo (writtenBytes ops).length ops ⟨[], 0⟩ (by simp) hrw
  simp only [List.nil_append, List.drop_zero, Nat.zero_add] at s1 s2 s4
  refine ⟨_, b, h1, s4, by rw [h2.content, s1], by rw [h2.size, s1], by rw [h2.pos, s2], ?_⟩
  simp [Buf.toBool, h2.pos, h2.size, s1, s2]

/-- The interleaving in C01 also determines which reads succeed: exactly those that ask for no more than is
unread, as in the cursor specification. -/
theorem C01_reads_decided (al : Alloc) (hok : al.ok = true) (ops : List Op)
    (htot : (writtenBytes ops).length < W64) (hrw : RWOnly (writtenBytes ops).length ops) :
    ∃ b, Buf.run al ops Buf.fresh = some ((SBuf.run ops ⟨[], 0⟩).1, b) := by
  have hl : SBuf.LegalHist ⟨[], 0⟩ ops :=
    legal_of_rw (writtenBytes ops).length ops ⟨[], 0⟩ (by simp) (by simp) htot hrw
  obtain ⟨b, h1, -⟩ := Buf.run_abs al hok ops Buf.abs_fresh hl
  exact ⟨b, h1⟩

example : RWOnly 3 [.write [1, 2], .read 1, .write [3], .read 5, .read 2] := by simp [RWOnly]
example : Buf.run ⟨true, fun _ => 0⟩ [.write [1, 2], .read 1, .write [3], .read 5, .read 2] Buf.fresh =
    some ([.done, .data [1], .done, .threw, .data [2, 3]], ⟨some [1, 2, 3], 3, 3⟩) := by decide

/-! ### C02: reading past the end -/

/-- C02. On every buffer state reachable by legal histories (`Inv`), a request that does not overflow
`size_t` throws exactly when it exceeds what is unread, leaving the buffer as it was; otherwise it delivers
the next bytes and advances by exactly the length. It is never undefined. -/
theorem C02_read (b : Buf) (h : b.Inv) (n : Nat) (hw : b.pos + n < W64) :
    (b.size < b.pos + n → Buf.unpackraw n b = (.throw .eof, b)) ∧
    (b.pos + n ≤ b.size → ∃ xs b', Buf.unpackraw n b = (.ok xs, b') ∧ xs = (b.content.drop b.pos).take n ∧
      xs.length = n ∧ b'.pos = b.pos + n ∧ b'.content = b.content ∧ b'.size = b.size) := by
  refine ⟨Buf.unpackraw_throw n hw, fun hn => ⟨_, _, Buf.unpackraw_ok h n hn, rfl, ?_, rfl, rfl, rfl⟩⟩
  have := Buf.rest_length h
  simp only [List.length_take, this]; omega

/-- The two cases of C02 are exhaustive and the invariant holds after every legal history. -/
theorem C02_reachable (al : Alloc) (hok : al.ok = true) (ops : List Op) (hl : SBuf.LegalHist ⟨[], 0⟩ ops) :
    ∃ obs b, Buf.run al ops Buf.fresh = some (obs, b) ∧ b.Inv := by
  obtain ⟨b, h1, h2⟩ := Buf.run_abs al hok ops Buf.abs_fresh hl
  exact ⟨_, b, h1, h2.inv⟩

/-- Why C02 needs `pos + s < 2^64`: the check wraps, and the read runs off the end of the buffer. -/
theorem C02_wrap_ub : ∃ b : Buf, b.Inv ∧ ∃ n, n < W64 ∧ b.size < b.pos + n ∧
    (Buf.unpackraw n b).1 = .ub .oob :=
  ⟨⟨some [7], 1, 1⟩, ⟨by decide, by decide, by decide⟩, W64 - 1, by decide, by decide, by decide⟩

example : Buf.Inv ⟨some [7, 8, 9], 3, 1⟩ := ⟨by decide, by decide, by decide⟩
example : Buf.unpackraw 2 ⟨some [7, 8, 9], 3, 1⟩ = (.ok [8, 9], ⟨some [7, 8, 9], 3, 3⟩) := by decide
example : Buf.unpackraw 3 ⟨some [7, 8, 9], 3, 1⟩ = (.throw .eof, ⟨some [7, 8, 9], 3, 1⟩) := by decide

/-! ### C09: comparison -/

theorem cmp_eq_zero {m} (hm : MemcmpOK m) {a b : Buf} (ha : a.Inv) (hb : b.Inv) :
    Buf.cmp m a b = 0 ↔ a.content = b.content := by
  have la := Buf.content_length ha
  have lb := Buf.content_length hb
  unfold Buf.cmp
  split
  · exact hm.eq _ _ (by omega)
  · rename_i h
    constructor
    · split <;> simp
    · intro hc; rw [hc] at la; omega

/-- The order the sign of `cmp` realises: by length, then lexicographic. -/
def shortLex (x y : Bytes) : Prop := x.length < y.length ∨ (x.length = y.length ∧ lexLt x y)

theorem cmp_neg {m} (hm : MemcmpOK m) {a b : Buf} (ha : a.Inv) (hb : b.Inv) :
    Buf.cmp m a b < 0 ↔ shortLex a.content b.content := by
  have la := Buf.content_length ha
  have lb := Buf.content_length hb
  unfold Buf.cmp shortLex
  rw [la, lb]
  split
  · rename_i h
    rw [hm.neg _ _ (by omega)]
    constructor
    · intro h1; exact .inr ⟨h, h1⟩
    · rintro (h1 | h1)
      · omega
      · exact h1.2
  · rename_i h
    split
    · rename_i h'; simp [h']
    · rename_i h'; simp [h', h]

theorem shortLex_trans {x y z : Bytes} : shortLex x y → shortLex y z → shortLex x z := by
  rintro (h | ⟨h, h'⟩) (k | ⟨k, k'⟩)
  · exact .inl (by omega)
  · exact .inl (by omega)
  · exact .inl (by omega)
  · exact .inr ⟨by omega, lexLt_trans _ _ _ h' k'⟩

theorem shortLex_total (x y : Bytes) : shortLex x y ∨ x = y ∨ shortLex y x := by
  by_cases h : x.length = y.length
  · rcases lexLt_total x y h with h1 | h1 | h1
    · exact .inl (.inr ⟨h, h1⟩)
    · exact .inr (.inl h1)
    · exact .inr (.inr (.inr ⟨h.symm, h1⟩))
  · by_cases h' : x.length < y.length
    · exact .inl (.inl h')
    · exact .inr (.inr (.inl (by omega)))

theorem shortLex_irrefl (x : Bytes) : ¬ shortLex x x := by
  rintro (h | ⟨-, h⟩)
  · omega
  · exact lexLt_irrefl x h

/-- The full C09 claim about a given memcmp. -/
def C09_claim (m : Bytes → Bytes → Int) : Prop :=
  (∀ a b : Buf, a.Inv → b.Inv →
    (Buf.lt m a b ∧ ¬ Buf.eq m a b ∧ ¬ Buf.gt m a b) ∨
    (¬ Buf.lt m a b ∧ Buf.eq m a b ∧ ¬ Buf.gt m a b) ∨
    (¬ Buf.lt m a b ∧ ¬ Buf.eq m a b ∧ Buf.gt m a b)) ∧
  (∀ a b c : Buf, a.Inv → b.Inv → c.Inv → Buf.lt m a b → Buf.lt m b c → Buf.lt m a c) ∧
  (∀ a b : Buf, a.Inv → b.Inv → (Buf.eq m a b ↔ a.content = b.content))

/-- C09, the part that holds: `==`/`!=` are content equality for every conforming memcmp; if memcmp happens to
return only -1, 0, 1 then `<`, `==`, `>` are a total order. Missing: any other memcmp (see `C09_fails`). -/
theorem C09_partial (m : Bytes → Bytes → Int) (hm : MemcmpOK m) :
    (∀ a b : Buf, a.Inv → b.Inv → (Buf.eq m a b ↔ a.content = b.content) ∧ (Buf.ne m a b ↔ a.content ≠ b.content)) ∧
    ((∀ x y, m x y = -1 ∨ m x y = 0 ∨ m x y = 1) → C09_claim m) := by
  refine ⟨fun a b ha hb => ⟨cmp_eq_zero hm ha hb, not_congr (cmp_eq_zero hm ha hb)⟩, fun hr => ?_⟩
  have range : ∀ a b : Buf, Buf.cmp m a b = -1 ∨ Buf.cmp m a b = 0 ∨ Buf.cmp m a b = 1 := by
    intro a b; unfold Buf.cmp; split
    · exact hr _ _
    · split <;> simp
  have neg1 : ∀ a b : Buf, a.Inv → b.Inv → (Buf.lt m a b ↔ shortLex a.content b.content) := by
    intro a b ha hb
    rw [← cmp_neg hm ha hb]; unfold Buf.lt
    rcases range a b with h | h | h <;> simp [h]
  refine ⟨?_, ?_, fun a b ha hb => cmp_eq_zero hm ha hb⟩
  · intro a b _ _
    unfold Buf.lt Buf.eq Buf.gt
    rcases range a b with h | h | h <;> simp [h]
  · intro a b c ha hb hc h1 h2
    rw [neg1 _ _ ha hb] at h1; rw [neg1 _ _ hb hc] at h2; rw [neg1 _ _ ha hc]
    exact shortLex_trans h1 h2

/-- A conforming memcmp that returns ±2, as the C standard allows. -/
noncomputable def memcmp2 (x y : Bytes) : Int :=
  open Classical in if lexLt x y then -2 else if x = y then 0 else 2

theorem memcmp2_ok : MemcmpOK memcmp2 := by
  constructor
  · intro x y _
    unfold memcmp2
    split
    · rename_i h
      constructor
      · intro h'; omega
      · intro h'; subst h'; exact (lexLt_irrefl _ h).elim
    · split <;> simp_all
  · intro x y _
    unfold memcmp2
    split
    · simp_all
    · split <;> simp_all

/-- C09 fails for some conforming memcmp: two buffers for which none of <, ==, > holds. -/
theorem C09_fails : ∃ m, MemcmpOK m ∧ ¬ C09_claim m := by
  refine ⟨memcmp2, memcmp2_ok, fun h => ?_⟩
  have hi : ∀ x : UInt8, Buf.Inv ⟨some [x], 1, 0⟩ := fun x => ⟨by simp [Buf.mem], by simp, by simp⟩
  have hl : lexLt [1] [2] := .inl (by decide)
  have := h.1 ⟨some [1], 1, 0⟩ ⟨some [2], 1, 0⟩ (hi 1) (hi 2)
  simp [Buf.lt, Buf.eq, Buf.gt, Buf.cmp, Buf.content, Buf.mem, memcmp2, hl] at this

/-- The order is not the documented lexicographic one: [2] compares less than [1,1]. -/
theorem C09_not_lexicographic (m : Bytes → Bytes → Int) : ∃ a b : Buf, a.Inv ∧ b.Inv ∧
    lexLt b.content a.content ∧ Buf.lt m a b :=
  ⟨⟨some [2], 1, 0⟩, ⟨some [1, 1], 2, 0⟩, ⟨by simp [Buf.mem], by simp, by simp⟩, ⟨by simp [Buf.mem], by simp, by simp⟩,
    .inl (by decide), by simp [Buf.lt, Buf.cmp]⟩

/-! ### C10: rewinding -/

/-- Bytes written since the last `reseti()` or `clear()`, for histories without `seeki`. -/
def writtenSince : List Op → Bytes → Bytes
  | [], acc => acc
  | .write xs :: ops, acc => writtenSince ops (acc ++ xs)
  | .reseti :: ops, _ => writtenSince ops []
  | .clear :: ops, _ => writtenSince ops []
  | _ :: ops, acc => writtenSince ops acc

def NoSeeki (ops : List Op) : Prop := ∀ k, Op.seekiBack k ∉ ops

theorem spec_content : ∀ (ops : List Op) (s : SBuf), NoSeeki ops →
    (SBuf.run ops s).2.content = writtenSince ops s.content
  | [], _, _ => rfl
  | op :: ops, s, h => by
    have h' : NoSeeki ops := fun k hk => h k (List.mem_cons_of_mem _ hk)
    simp only [SBuf.run]
    rw [spec_content ops _ h']
    cases op with
    | write xs => rfl
    | read n => simp only [SBuf.step, writtenSince]; split <;> rfl
    | reseti => rfl
    | reseto => rfl
    | clear => rfl
    | seekiBack k => exact absurd List.mem_cons_self (h k)
    | seeko i => rfl

/-- C10 (replay). After any legal history without `seeki`, `reseto()` followed by reading `size()` bytes delivers
everything written since the last `reseti()`/`clear()`. -/
theorem C10_replay (al : Alloc) (hok : al.ok = true) (ops : List Op) (hl : SBuf.LegalHist ⟨[], 0⟩ ops)
    (hs : NoSeeki ops) :
    ∃ obs b, Buf.run al ops Buf.fresh = some (obs, b) ∧ b.size = (writtenSince ops []).length ∧
      ∃ b', Buf.run al [.reseto, .read b.size] b = some ([.done, .data (writtenSince ops [])], b') := by
  obtain ⟨b, h1, h2⟩ := Buf.run_abs al hok ops Buf.abs_fresh hl
  have hc := spec_content ops ⟨[], 0⟩ hs
  have hsz : b.size = (writtenSince ops []).length := by rw [h2.size, hc]
  refine ⟨_, b, h1, hsz, ?_⟩
  have hlt := h2.inv.lt
  obtain ⟨b', h3, -⟩ := Buf.run_abs al hok [.reseto, .read b.size] h2
    ⟨trivial, by simp only [SBuf.Legal, SBuf.step]; omega, trivial⟩
  refine ⟨b', ?_⟩
  rw [h3]
  simp [SBuf.run, SBuf.step, hc, hsz]

/-- C10 (fresh start). After any legal history, `reseti(); reseto()`, as well as `clear()`, leaves a buffer that
answers every further legal history as a fresh one does. -/
theorem C10_fresh_start (al : Alloc) (hok : al.ok = true) (ops : List Op) (hl : SBuf.LegalHist ⟨[], 0⟩ ops)
    (more : List Op) (hm : SBuf.LegalHist ⟨[], 0⟩ more) :
    ∃ obs b, Buf.run al ops Buf.fresh = some (obs, b) ∧
      ∃ o b1 b2 b3, Buf.run al more Buf.fresh = some (o, b1) ∧
        Buf.run al more b.reseti.reseto = some (o, b2) ∧ Buf.run al more b.clear = some (o, b3) := by
  obtain ⟨b, h1, h2⟩ := Buf.run_abs al hok ops Buf.abs_fresh hl
  have a1 : b.reseti.reseto.Abs ⟨[], 0⟩ :=
    ⟨⟨by simp [Buf.reseti, Buf.reseto], by simp [Buf.reseti, Buf.reseto], by simp [Buf.reseti, Buf.reseto]⟩,
      by simp [Buf.reseti, Buf.reseto, Buf.content], rfl⟩
  obtain ⟨b1, e1, -⟩ := Buf.run_abs al hok more Buf.abs_fresh hm
  obtain ⟨b2, e2, -⟩ := Buf.run_abs al hok more a1 hm
  exact ⟨_, b, h1, _, b1, b2, b1, e1, e2, e1⟩

/-- C10 (seek back). Seeking the output position back by the length of the last read replays that read. -/
theorem C10_seek_back (al : Alloc) (b : Buf) (h : b.Inv) (n : Nat) (hn : b.pos + n ≤ b.size) :
    ∃ xs b', xs.length = n ∧
      Buf.run al [.read n, .seeko (-(n : Int)), .read n] b = some ([.data xs, .done, .data xs], b') := by
  have hlt := h.lt
  have e1 := Buf.unpackraw_ok h n hn
  have e2 : Buf.seeko (-(n : Int)) (b.adv n) = b := by
    have : ((((b.pos + n : Nat) : Int) + -(n : Int)) % (W64 : Int)).toNat = b.pos := by omega
    simp only [Buf.seeko, Buf.adv, this]
  refine ⟨b.rest.take n, b.adv n, ?_, ?_⟩
  · have := Buf.rest_length h
    simp only [List.length_take, this]; omega
  · simp [Buf.run, Buf.step, e1, e2]

example : SBuf.LegalHist ⟨[], 0⟩ [.write [1, 2], .read 1, .reseti, .write [5, 6, 7], .seeko 1] := by
  simp [SBuf.LegalHist, SBuf.Legal, SBuf.step]
example : writtenSince [.write [1, 2], .read 1, .reseti, .write [5, 6, 7], .seeko 1] [] = [5, 6, 7] := rfl

/-! ### C11: swap and move -/

/-- C11 (ownership). Over every history of constructions, growth, swaps, move assignments, move constructions and
destructions naming existing buffers: nothing is freed twice, every live block has exactly one owner, and once
all buffers are destroyed no block is left allocated. -/
theorem C11_ownership (ops : List HOp) (hn : Heap.NamesHist [] ops) :
    ∃ h, Heap.run ops Heap.init = some h ∧
      (∀ p, p ∈ h.live ↔ ∃ i : Nat, h.bufs[i]? = some (some (some p))) ∧
      (∀ (i j : Nat) (p : Nat), h.bufs[i]? = some (some (some p)) → h.bufs[j]? = some (some (some p)) → i = j) ∧
      (h.bufs.map Option.isSome = ops.foldl Heap.alive []) ∧
      ((∀ a ∈ ops.foldl Heap.alive [], a = false) → h.live = []) := by
  obtain ⟨h, h1, h2, h3⟩ := Heap.run_inv ops Heap.inv_init (a := []) rfl hn
  refine ⟨h, h1, fun p => ⟨h2.cov p, fun ⟨i, hi⟩ => h2.own i p hi⟩, h2.inj, h3, fun hall => ?_⟩
  rw [List.eq_nil_iff_forall_not_mem]
  intro p hp
  obtain ⟨i, hi⟩ := h2.cov p hp
  have hm : (ops.foldl Heap.alive [])[i]? = some true := by
    rw [← h3, List.getElem?_map, hi]; rfl
  have := hall true (List.mem_of_getElem? hm)
  exact absurd this (by decide)

example : Heap.NamesHist [] [.construct, .construct, .grow 0, .grow 1, .moveAssign 0 1, .moveCtor 0, .swap 1 2,
    .destroy 0, .destroy 1, .destroy 2] := by
  simp [Heap.NamesHist, Heap.Names, Heap.alive]

/-- A buffer together with its recursion limit. -/
structure PackT where
  buf : Buf
  recurMax : Nat
deriving DecidableEq, Repr

/-- `swap_base`, pack_base.h:148-156: everything is exchanged except `recur_max`. (`f`, `mode`, `ptr_flag` and
`alloced` are exchanged too but not represented.) -/
def PackT.swap (a b : PackT) : PackT × PackT := (⟨b.buf, a.recurMax⟩, ⟨a.buf, b.recurMax⟩)

/-- Move construction, pack_base.h:233: only `f` and `m_data` are initialised before `swap_base`, so the source
receives indeterminate `m_size` and `m_pos` (`junk`). Returns (new object, moved-from object). -/
def Buf.moveCtor (junkSize junkPos : Nat) (x : Buf) : Buf × Buf := (x, ⟨none, junkSize, junkPos⟩)

/-- C11 (contents). After a swap each buffer answers every later history the way the other would have. Swapping twice
restores both. -/
theorem C11_swap (al : Alloc) (a b : PackT) (ops : List Op) :
    let s := PackT.swap a b
    (Buf.run al ops s.1.buf = Buf.run al ops b.buf) ∧ (Buf.run al ops s.2.buf = Buf.run al ops a.buf) ∧
    PackT.swap s.1 s.2 = (a, b) := by
  simp [PackT.swap]

/-- C11 (move construction) The new buffer answers as the source did; but the moved-from buffer is not a usable empty
buffer: for some indeterminate contents it claims unread data and reading it is undefined. -/
theorem C11_moved_from_unusable (x : Buf) :
    (∀ js jp al ops, Buf.run al ops (Buf.moveCtor js jp x).1 = Buf.run al ops x) ∧
    ∃ js jp, (Buf.moveCtor js jp x).2.toBool = true ∧ (Buf.unpackraw 1 (Buf.moveCtor js jp x).2).1 = .ub .nullDeref :=
  ⟨fun _ _ _ _ => rfl, 5, 0, rfl, rfl⟩

/-! ### C50: allocation failure -/

/-- The full C50 claim for one way of writing: after a refused allocation the caller gets an exception, and
the earlier contents can still be read. -/
def C50_claim (w : Alloc → Bytes → M Unit) : Prop :=
  ∀ (al : Alloc) (b : Buf) (xs : Bytes), al.ok = false → b.Inv → xs ≠ [] → b.size + xs.length < W64 →
    ∃ e b', w al xs b = (.throw e, b') ∧ b'.content = b.content ∧
      ∀ n, b.pos + n ≤ b.size → (Buf.unpackraw n b').1 = .ok (b.rest.take n)

/-- C50, the part that holds: writing a fundamental value when memory is refused throws `bad_alloc` and keeps the
recorded size and position. Missing: contents are lost, and raw writes are undefined (below). -/
theorem C50_append_throws_partial (al : Alloc) (b : Buf) (xs : Bytes) (hf : al.ok = false) :
    ∃ b', Buf.append al xs b = (.throw .badAlloc, b') ∧ b'.size = b.size ∧ b'.pos = b.pos := by
  have : crealloc al b.blk ((b.size + xs.length) % W64) = none := by simp [crealloc, hf]
  exact ⟨{ b with blk := none }, by simp only [Buf.append, this], rfl, rfl⟩

/-- C50 fails for `append` (fundamental types): after the throw the data are gone and reading is undefined. -/
theorem C50_append_fails : ¬ C50_claim Buf.append := by
  intro h
  obtain ⟨e, b', h1, -, h3⟩ := h ⟨false, fun _ => 0⟩ ⟨some [1], 1, 0⟩ [2] rfl ⟨by decide, by decide, by decide⟩
    (by decide) (by decide)
  have e1 : b' = ⟨none, 1, 0⟩ := by
    have : Buf.append ⟨false, fun _ => 0⟩ [2] ⟨some [1], 1, 0⟩ = (.throw .badAlloc, ⟨none, 1, 0⟩) := by decide
    rw [this] at h1; simp at h1; exact h1.2.symm
  have := h3 1 (by decide)
  rw [e1] at this
  revert this
  decide

/-- C50 fails for `packraw` (strings, character arrays): no exception, the copy goes through a null pointer. -/
theorem C50_packraw_fails : ¬ C50_claim Buf.packraw := by
  intro h
  obtain ⟨e, b', h1, -⟩ := h ⟨false, fun _ => 0⟩ ⟨some [1], 1, 0⟩ [2] rfl ⟨by decide, by decide, by decide⟩
    (by decide) (by decide)
  have : (Buf.packraw ⟨false, fun _ => 0⟩ [2] ⟨some [1], 1, 0⟩).1 = .ub .nullDeref := by decide
  rw [h1] at this
  simp at this

end Verif
