import Verif.XdrFile
import Verif.Props.XdrNum
/-
C129: machine independent buffers on files.
-/
namespace Verif.XdrFile
open XdrNum (Bytes Machine T F Out)
open File (FS)
open XdrNum.C112 (Has object Good Short bytes)

/-! ### Specification -/

/-- A value: a number of a type, or bytes. -/
inductive C129.Val
  | num (t : T) (v : Int)
  | raw (bs : Bytes)

/-- What a program has in memory for it, on a machine. -/
def C129.mem (m : Machine) : C129.Val → Bytes
  | .num t v => object m t v
  | .raw bs => bs

/-- Both machines have the number. -/
def C129.Both (m m' : Machine) : C129.Val → Prop
  | .num t v => Good m m' (t, v)
  | .raw _ => True

def C129.toWr (m : Machine) : C129.Val → Wr
  | .num t v => .num t (object m t v)
  | .raw bs => .raw bs

/-- A program that reads some values, into objects with anything in them. -/
def C129.reads {α : Type} (m : Machine) (old : Nat → UInt8) : List C129.Val → (List Bytes → Client α) → Client α
  | [], k => k []
  | .num t _ :: l, k => .num t ((List.range (XdrNum.size m t)).map old) fun b => C129.reads m old l fun bs => k (b :: bs)
  | .raw bs :: l, k => .raw bs.length fun b => C129.reads m old l fun bs => k (b :: bs)

/-- The data by the standard (RFC 4506). -/
def C129.data : C129.Val → Bytes
  | .num t v => bytes true (if t = .llong ∨ t = .ullong ∨ t = .double then 8 else 4) v
  | .raw bs => bs ++ List.replicate ((bs.length + 3) / 4 * 4 - bs.length) 0

open C129

/-! ### Proof -/

private theorem le_len : ∀ n k, (XdrNum.le n k).length = n
  | 0, _ => rfl
  | n + 1, k => by simp [XdrNum.le, le_len n]

private theorem encode_len {strict : Bool} {m : Machine} {f : F} {obj w : Bytes} (h : XdrNum.encode strict m f obj = .ok w) :
    w.length = XdrNum.wire f := by
  unfold XdrNum.encode at h
  split at h
  · cases h
  · simp only at h
    split at h
    · cases h
    · injection h with h
      rw [← h]
      simp only [XdrNum.rep, if_true, List.length_reverse, le_len]

private theorem wire_pos (f : F) : XdrNum.wire f ≠ 0 := by cases f <;> simp [XdrNum.wire]

/-- Writing at the end. -/
private theorem put_end (w c : Bytes) (s p : Nat) :
    ∃ s', put w ⟨⟨c, c.length⟩, true, s, p⟩ = ⟨⟨c ++ w, (c ++ w).length⟩, true, s', p⟩ := by
  unfold put File.fwrite
  by_cases h : w = []
  · subst h; exact ⟨getpos ⟨c, c.length⟩, by simp⟩
  · refine ⟨getpos ⟨[], c.length + w.length⟩, ?_⟩
    rw [if_neg h]
    simp [getpos]

/-- The bytes for a value. -/
private def enc (strict : Bool) (m : Machine) (v : Val) (w : Bytes) : Prop :=
  match v with
  | .num t v => ∃ f, XdrNum.filter t = some f ∧ XdrNum.encode strict m f (object m t v) = .ok w
  | .raw bs => w = bs ++ List.replicate (pad bs.length) 0

private def Encs (strict : Bool) (m : Machine) : List Val → List Bytes → Prop
  | [], [] => True
  | v :: vs, w :: ws => enc strict m v w ∧ Encs strict m vs ws
  | _, _ => False

private theorem good_enc (strict : Bool) {m m' : Machine} {t : T} {v : Int} (h : Good m m' (t, v)) :
    ∃ f w, XdrNum.filter t = some f ∧ XdrNum.encode strict m f (object m t v) = .ok w ∧
      ∀ old : Bytes, old.length = XdrNum.size m' t → XdrNum.decode m' f w old = .ok (object m' t v) := by
  obtain ⟨h1, h2, h3, h4, h5⟩ := h
  obtain ⟨w, w1, _, _⟩ := XdrNum.C112_portable_partial strict m m' t v h1 h2 h3 h4 h5 (List.replicate (XdrNum.size m' t) 0) (by simp)
  cases hf : XdrNum.filter t with
  | none => rw [XdrNum.put, hf] at w1; cases w1
  | some f =>
    rw [XdrNum.put, hf] at w1
    refine ⟨f, w, rfl, w1, fun old ho => ?_⟩
    obtain ⟨w', a1, _, a3⟩ := XdrNum.C112_portable_partial strict m m' t v h1 h2 h3 h4 h5 old ho
    rw [XdrNum.put, hf] at a1
    rw [XdrNum.get, hf] at a3
    have : w = w' := by
      have := w1.symm.trans a1
      injection this
    subst this
    exact a3

private theorem encs_exist (strict : Bool) (m m' : Machine) : ∀ vs : List Val, (∀ v ∈ vs, Both m m' v) → ∃ ws, Encs strict m vs ws
  | [], _ => ⟨[], trivial⟩
  | v :: vs, h => by
    obtain ⟨ws, hw⟩ := encs_exist strict m m' vs fun x hx => h x (by simp [hx])
    have hv := h v (by simp)
    cases v with
    | raw bs => exact ⟨_ :: ws, rfl, hw⟩
    | num t v =>
      obtain ⟨f, w, h1, h2, _⟩ := good_enc strict hv
      exact ⟨w :: ws, ⟨f, h1, h2⟩, hw⟩

private theorem write_encs (strict : Bool) (m : Machine) : ∀ (vs : List Val) (ws : List Bytes), Encs strict m vs ws → ∀ (c : Bytes) (s p : Nat),
    ∃ s', writeAll strict m (vs.map (toWr m)) ⟨⟨c, c.length⟩, true, s, p⟩ = .ok ⟨⟨c ++ ws.flatten, (c ++ ws.flatten).length⟩, true, s', p⟩
  | [], [], _, c, s, p => ⟨s, by simp [writeAll]⟩
  | [], _ :: _, h, _, _, _ => h.elim
  | _ :: _, [], h, _, _, _ => h.elim
  | v :: vs, w :: ws, h, c, s, p => by
    obtain ⟨s1, e1⟩ := put_end w c s p
    obtain ⟨s2, e2⟩ := write_encs strict m vs ws h.2 (c ++ w) s1 p
    refine ⟨s2, ?_⟩
    rw [List.map_cons, List.flatten_cons, ← List.append_assoc]
    cases v with
    | raw bs =>
      have hw : w = bs ++ List.replicate (pad bs.length) 0 := h.1
      simp only [toWr, writeAll, packraw, Bool.true_eq_false, if_false, ← hw, e1, e2]
    | num t v =>
      obtain ⟨f, h1, h2⟩ := h.1
      simp only [toWr, writeAll, append, h1, h2, Bool.true_eq_false, if_false, e1, e2]

private theorem take_at (a w b : Bytes) (n : Nat) (hn : w.length = n) :
    take n ⟨a ++ (w ++ b), a.length⟩ = some (w, ⟨a ++ (w ++ b), (a ++ w).length⟩) := by
  unfold take
  rw [if_pos (.inr (by simp; omega))]
  simp [hn]

private theorem take_short (c : Bytes) (o n : Nat) (hn : n ≠ 0) (h : c.length < o + n) : take n ⟨c, o⟩ = none := by
  unfold take
  rw [if_neg (by simp only; omega)]

private theorem pad_len (bs : Bytes) : (bs ++ List.replicate (pad bs.length) 0).length = bs.length + pad bs.length := by simp

private theorem num_run {α : Type} {m' : Machine} {t : T} {f : F} (hf : XdrNum.filter t = some f) {old w r : Bytes} {fs fs' : FS} {s p : Nat}
    (k : Bytes → Client α) (ht : take (XdrNum.wire f) fs = some (w, fs')) (hd : XdrNum.decode m' f w old = .ok r) :
    (Client.num t old k).run m' ⟨fs, false, s, p⟩ = (k r).run m' ⟨fs', false, s, getpos fs'⟩ := by
  simp only [Client.run, popoff, hf, Bool.false_eq_true, if_false, ht, hd]

private theorem raw_run {α : Type} {m' : Machine} {n : Nat} {w : Bytes} {fs fs' : FS} {s p : Nat}
    (k : Bytes → Client α) (ht : take (n + pad n) fs = some (w, fs')) :
    (Client.raw n k).run m' ⟨fs, false, s, p⟩ = (k (w.take n)).run m' ⟨fs', false, s, getpos fs'⟩ := by
  simp only [Client.run, unpackraw, Bool.false_eq_true, if_false, ht]

private theorem read_encs {α : Type} (strict : Bool) (m m' : Machine) (old : Nat → UInt8) (b : Bytes) : ∀ (vs : List Val) (ws : List Bytes),
    (∀ v ∈ vs, Both m m' v) → Encs strict m vs ws → ∀ (k : List Bytes → Client α) (a : Bytes) (s p : Nat),
    ∃ p', (reads m' old vs k).run m' ⟨⟨a ++ (ws.flatten ++ b), a.length⟩, false, s, p⟩
      = (k (vs.map (mem m'))).run m' ⟨⟨a ++ (ws.flatten ++ b), (a ++ ws.flatten).length⟩, false, s, p'⟩
  | [], [], _, _, k, a, s, p => ⟨p, by simp [reads]⟩
  | [], _ :: _, _, h, _, _, _, _ => h.elim
  | _ :: _, [], _, h, _, _, _, _ => h.elim
  | v :: vs, w :: ws, hb, h, k, a, s, p => by
    have ih := fun k p => read_encs (α := α) strict m m' old b vs ws (fun x hx => hb x (by simp [hx])) h.2 k (a ++ w) s p
    have hv := hb v (by simp)
    rw [List.flatten_cons, List.append_assoc, List.map_cons, ← List.append_assoc a w ws.flatten]
    cases v with
    | raw bs =>
      have hw : w = bs ++ List.replicate (pad bs.length) 0 := h.1
      have ht := take_at a w (ws.flatten ++ b) (bs.length + pad bs.length) (by rw [hw, pad_len])
      obtain ⟨p', e⟩ := ih (fun l => k (bs :: l)) (getpos ⟨a ++ (w ++ (ws.flatten ++ b)), (a ++ w).length⟩)
      rw [List.append_assoc a w] at e
      refine ⟨p', ?_⟩
      rw [reads, raw_run _ ht]
      have : w.take bs.length = bs := by rw [hw]; simp
      rw [this, e]
      rfl
    | num t v =>
      obtain ⟨f, w', h1, h2, h3⟩ := good_enc strict hv
      obtain ⟨f', h1', h2'⟩ := h.1
      obtain rfl : f = f' := by rw [h1] at h1'; exact Option.some.inj h1'
      obtain rfl : w' = w := by
        have := h2.symm.trans h2'
        injection this
      have ht := take_at a w' (ws.flatten ++ b) _ (encode_len h2)
      obtain ⟨p', e⟩ := ih (fun l => k (object m' t v :: l)) (getpos ⟨a ++ (w' ++ (ws.flatten ++ b)), (a ++ w').length⟩)
      rw [List.append_assoc a w'] at e
      refine ⟨p', ?_⟩
      rw [reads, num_run h1 _ ht (h3 _ (by simp)), e]
      rfl

/-- **C129**: what is written to a file on one machine is read from it on another, whatever the program does then; any number of values of any size. -/
theorem C129_roundtrip_partial {α : Type} (strict : Bool) (m m' : Machine) (vs : List Val) (h : ∀ v ∈ vs, Both m m' v) (old : Nat → UInt8)
    (k : List Bytes → Client α) : ∃ x, writeAll strict m (vs.map (toWr m)) openW = .ok x ∧
      ∃ p, (reads m' old vs k).run m' (openR x.fs.data) = (k (vs.map (mem m'))).run m' ⟨⟨x.fs.data, x.fs.data.length⟩, false, 0, p⟩ := by
  obtain ⟨ws, hw⟩ := encs_exist strict m m' vs h
  obtain ⟨s, e⟩ := write_encs strict m vs ws hw [] 0 0
  obtain ⟨p, r⟩ := read_encs (α := α) strict m m' old [] vs ws h hw k [] 0 0
  refine ⟨_, e, p, ?_⟩
  simpa [openR] using r

/-- The file is that of the standard. -/
theorem C129_data_partial (strict : Bool) (m : Machine) (vs : List Val) (h : ∀ v ∈ vs, Both m m v)
    (h0 : ∀ t v, C129.Val.num t v ∈ vs → 0 ≤ v) : ∃ x, writeAll strict m (vs.map (toWr m)) openW = .ok x ∧ x.fs.data = (vs.map data).flatten := by
  obtain ⟨ws, hw⟩ := encs_exist strict m m vs h
  obtain ⟨s, e⟩ := write_encs strict m vs ws hw [] 0 0
  refine ⟨_, e, ?_⟩
  simp only [List.nil_append]
  clear e
  congr 1
  induction vs generalizing ws with
  | nil => cases ws with
    | nil => rfl
    | cons _ _ => exact hw.elim
  | cons v vs ih =>
    cases ws with
    | nil => exact hw.elim
    | cons w ws =>
      rw [List.map_cons, ← ih (fun x hx => h x (by simp [hx])) (fun t v hv => h0 t v (by simp [hv])) ws hw.2]
      congr 1
      have hv := h v (by simp)
      cases v with
      | raw bs =>
        have e : w = bs ++ List.replicate (pad bs.length) 0 := hw.1
        rw [e, data]
        congr 2
        simp only [pad]
        omega
      | num t v =>
        obtain ⟨f, h1, h2⟩ := hw.1
        obtain ⟨g1, _, g3, g4, g5⟩ := hv
        have := XdrNum.C112_data strict m t v g1 g3 (fun e => (g4 e).1) g5 (h0 t v (by simp))
        rw [XdrNum.put, h1] at this
        have := h2.symm.trans this
        injection this

/-- A file that has been cut short is noticed: the program ends with an exception. -/
theorem C129_truncated_partial {α : Type} (strict : Bool) (m m' : Machine) (vs : List Val) (h : ∀ v ∈ vs, Both m m' v) (old : Nat → UInt8)
    (k : List Bytes → Client α) : ∃ x, writeAll strict m (vs.map (toWr m)) openW = .ok x ∧
      ∀ n, n < x.fs.data.length → (reads m' old vs k).run m' (openR (x.fs.data.take n)) = .throw := by
  obtain ⟨ws, hw⟩ := encs_exist strict m m' vs h
  obtain ⟨s, e⟩ := write_encs strict m vs ws hw [] 0 0
  refine ⟨_, e, fun n hn => ?_⟩
  simp only [List.nil_append] at hn ⊢
  clear e
  suffices hs : ∀ (vs : List Val) (ws : List Bytes), (∀ v ∈ vs, Both m m' v) → Encs strict m vs ws → ∀ (k : List Bytes → Client α) (a : Bytes) (n s p : Nat),
      n < ws.flatten.length → (reads m' old vs k).run m' ⟨⟨a ++ ws.flatten.take n, a.length⟩, false, s, p⟩ = .throw by
    simpa [openR] using hs vs ws h hw k [] n 0 0 hn
  clear hn hw h k n ws vs
  intro vs
  induction vs with
  | nil =>
    intro ws _ hw k a n s p hn
    cases ws with
    | nil => simp at hn
    | cons _ _ => exact hw.elim
  | cons v vs ih =>
    intro ws hb hw k a n s p hn
    cases ws with
    | nil => exact hw.elim
    | cons w ws =>
      have hv := hb v (by simp)
      have ih := ih ws (fun x hx => hb x (by simp [hx])) hw.2
      rw [List.flatten_cons] at hn ⊢
      rw [List.length_append] at hn
      by_cases hl : n < w.length
      · rw [List.take_append_of_le_length (by omega)]
        cases v with
        | raw bs =>
          have e : w = bs ++ List.replicate (pad bs.length) 0 := hw.1
          have hl' : w.length = bs.length + pad bs.length := by rw [e, pad_len]
          have ht := take_short (a ++ w.take n) a.length (bs.length + pad bs.length) (by omega) (by simp; omega)
          simp only [reads, Client.run, unpackraw, Bool.false_eq_true, if_false, ht]
        | num t v =>
          obtain ⟨f, h1, h2⟩ := hw.1
          have hl' := encode_len h2
          have ht := take_short (a ++ w.take n) a.length (XdrNum.wire f) (wire_pos f) (by simp; omega)
          simp only [reads, Client.run, popoff, h1, Bool.false_eq_true, if_false, ht]
      · have e : (w ++ ws.flatten).take n = w ++ ws.flatten.take (n - w.length) := by
          rw [List.take_append, List.take_of_length_le (by omega)]
        rw [e]
        cases v with
        | raw bs =>
          have hw' : w = bs ++ List.replicate (pad bs.length) 0 := hw.1
          have ht := take_at a w (ws.flatten.take (n - w.length)) (bs.length + pad bs.length) (by rw [hw', pad_len])
          rw [reads, raw_run _ ht, ← List.append_assoc]
          exact ih _ _ _ _ _ (by omega)
        | num t v =>
          obtain ⟨f, w', h1, h2, h3⟩ := good_enc strict hv
          obtain ⟨f', h1', h2'⟩ := hw.1
          obtain rfl : f = f' := by rw [h1] at h1'; exact Option.some.inj h1'
          obtain rfl : w' = w := by
            have := h2.symm.trans h2'
            injection this
          have ht := take_at a w' (ws.flatten.take (n - w'.length)) _ (encode_len h2)
          rw [reads, num_run h1 _ ht (h3 _ (by simp)), ← List.append_assoc]
          exact ih _ _ _ _ _ (by omega)

/-- The objects a program reads into have the size of their type, which is that of the filter. -/
inductive C129.Sound {α : Type} (m : Machine) : Client α → Prop
  | done (a : α) : C129.Sound m (.done a)
  | num (t : T) (old : Bytes) (k : Bytes → Client α) (h : old.length = XdrNum.size m t) (hw : t = .wchar → m.wchar4 = true)
      (hk : ∀ b, C129.Sound m (k b)) : C129.Sound m (.num t old k)
  | raw (n : Nat) (k : Bytes → Client α) (hk : ∀ b, C129.Sound m (k b)) : C129.Sound m (.raw n k)

/-- Files with anything in them do no harm: whatever is read, there is a result or an exception. -/
theorem C129_hostile_partial {α : Type} (m : Machine) (c : Client α) (h : Sound m c) (x : XF) (hx : x.write = false) : c.run m x ≠ .ub := by
  induction h generalizing x with
  | done a => simp [Client.run]
  | num t old k ho hw hk ih =>
    have hs : ∀ f, XdrNum.filter t = some f → ¬old.length < XdrNum.csize m f := by
      intro f hf
      rw [ho]
      cases t <;> simp only [XdrNum.filter, Option.some.injEq, reduceCtorEq] at hf <;> subst hf <;> simp [XdrNum.size, XdrNum.csize]
      have := hw rfl
      simp [this]
    simp only [Client.run, popoff]
    cases hf : XdrNum.filter t with
    | none => simp
    | some f =>
      simp only [hx, Bool.false_eq_true, if_false]
      cases take (XdrNum.wire f) x.fs with
      | none => simp
      | some r =>
        have hs := hs f hf
        simp only [XdrNum.decode, if_neg hs]
        exact ih _ _ rfl
  | raw n k hk ih =>
    simp only [Client.run, unpackraw, hx, Bool.false_eq_true, if_false]
    cases take (n + pad n) x.fs with
    | none => simp
    | some r => exact ih _ _ rfl

/-- Going back and forth in a file, in the first four gigabytes of it. -/
theorem C129_seek_partial (c : Bytes) (o s p : Nat) (d : Int) (h0 : 0 ≤ (o : Int) + d) (h1 : (o : Int) + d < 2 ^ 32) (ho : o < 2 ^ 32) :
    seeko d ⟨⟨c, o⟩, false, s, p⟩ = .ok ⟨⟨c, ((o : Int) + d).toNat⟩, false, s, p⟩ ∧
    reseto ⟨⟨c, o⟩, false, s, p⟩ = .ok ⟨⟨c, 0⟩, false, s, p⟩ := by
  constructor
  · simp only [seeko, Bool.false_eq_true, if_false, setpos, getpos]
    rw [Nat.mod_eq_of_lt ho, Int.emod_eq_of_lt h0 h1]
  · simp [reseto, setpos]

/-- What has been written can be replaced from any place on. -/
theorem C129_back_partial (c w : Bytes) (k s p : Nat) (hk : k ≤ c.length) (hc : c.length < 2 ^ 32) (hw : k ≤ w.length) :
    ∃ s', seeki k ⟨⟨c, c.length⟩, true, s, p⟩ = .ok ⟨⟨c, c.length - k⟩, true, c.length - k, p⟩ ∧
      put w ⟨⟨c, c.length - k⟩, true, c.length - k, p⟩ = ⟨⟨c.take (c.length - k) ++ w, (c.take (c.length - k) ++ w).length⟩, true, s', p⟩ := by
  refine ⟨getpos ⟨[], c.length - k + w.length⟩, ?_, ?_⟩
  · simp only [seeki, Bool.true_eq_false, if_false, setpos, getpos]
    rw [Nat.mod_eq_of_lt hc, Int.emod_eq_of_lt (by omega) (by omega), Int.emod_eq_of_lt (by omega) (by omega)]
    congr 2
    · congr 1; omega
    · omega
  · unfold put File.fwrite
    by_cases h : w = []
    · subst h
      simp only [List.length_nil] at hw
      simp [show k = 0 by omega, getpos]
    · rw [if_neg h]
      have e1 : c.length - k - c.length = 0 := by omega
      have e2 : c.drop (c.length - k + w.length) = [] := List.drop_of_length_le (by omega)
      have e3 : (c.take (c.length - k) ++ w).length = c.length - k + w.length := by simp
      simp only [e1, e2, e3, List.replicate_zero, List.append_nil]
      rfl

/-! ### Where it fails -/

/-- Using a file the other way round is no exception, as it is with `pack_t` (C109_readonly), but undefined. -/
theorem C129_fails_direction (strict : Bool) (m : Machine) (t : T) (ht : t ≠ .ldouble) (obj bs : Bytes) (n : Nat) (x : XF) :
    (x.write = false → append strict m t obj x = .ub ∧ packraw bs x = .ub ∧ reseti x = .ub ∧ seeki n x = .ub) ∧
    (x.write = true → popoff m t obj x = .ub ∧ unpackraw n x = .ub ∧ reseto x = .ub ∧ seeko n x = .ub) := by
  have : ∃ f, XdrNum.filter t = some f := by cases t <;> first | exact absurd rfl ht | exact ⟨_, rfl⟩
  obtain ⟨f, hf⟩ := this
  constructor
  · intro h
    simp [append, packraw, reseti, seeki, h, hf]
  · intro h
    simp [popoff, unpackraw, reseto, seeko, h, hf]

/-- A file being read never says that there is more. -/
theorem C129_fails_more (c : Bytes) : toBool (openR c) = false := rfl

/-- Moving by nothing beyond the first four gigabytes is moving to their beginning. -/
theorem C129_fails_large (c : Bytes) (o s p : Nat) (h1 : 2 ^ 32 ≤ o) : ∃ q, q < o ∧ seeko 0 ⟨⟨c, o⟩, false, s, p⟩ = .ok ⟨⟨c, q⟩, false, s, p⟩ := by
  refine ⟨o % 2 ^ 32, by omega, ?_⟩
  simp only [seeko, Bool.false_eq_true, if_false, setpos, getpos]
  congr 3
  omega

/-- Moving to a place in front of the file is moving far behind it. -/
theorem C129_fails_front (c : Bytes) (o k s p : Nat) (ho : o < k) (hk : k < 2 ^ 32) :
    seeko (-(k : Int)) ⟨⟨c, o⟩, false, s, p⟩ = .ok ⟨⟨c, 2 ^ 32 - (k - o)⟩, false, s, p⟩ := by
  simp only [seeko, Bool.false_eq_true, if_false, setpos, getpos]
  congr 3
  omega

/-! ### Instances -/

/-- A little endian machine with long of eight bytes, and a big endian one with long of four. -/
def C129.le : Machine := ⟨false, true, true, true, true⟩
def C129.be : Machine := ⟨true, false, false, true, false⟩

example : ∀ v ∈ [C129.Val.num .int (-5), .raw [1, 2, 3], .num .double 4614253070214989087, .num .long 70000], Both C129.le C129.be v := by
  intro v hv
  simp only [List.mem_cons, List.not_mem_nil, or_false] at hv
  rcases hv with rfl | rfl | rfl | rfl <;> simp [Both, Good, Has, Short, C129.le, C129.be]

example : ∃ x, writeAll true C129.le [.num .int (object C129.le .int 258), .raw [7]] openW = .ok x ∧ x.fs.data = [0, 0, 1, 2, 7, 0, 0, 0] :=
  ⟨_, rfl, by decide⟩

/-! ### Refusals -/

/-- Going back to the beginning of what is written and writing at least as much replaces all of it. -/
theorem C129_reset_partial (c w : Bytes) (o s p : Nat) (hw : c.length ≤ w.length) (h0 : w ≠ []) :
    ∃ x, reseti ⟨⟨c, o⟩, true, s, p⟩ = .ok x ∧ (put w x).fs.data = w ∧ (put w x).fs.off = w.length := by
  refine ⟨_, rfl, ?_, ?_⟩ <;> simp [put, File.fwrite, setpos, h0, List.drop_of_length_le hw]

/-- A number that has no place in the file is an exception where the library refuses it, and so is a `long double`; what was to be written
after it is not.  (`strict` is such a library.) -/
theorem C129_refused_partial (m : Machine) (t : T) (obj : Bytes) (x : XF) (hx : x.write = true) (l : List Wr)
    (h : t = .ldouble ∨ ∃ f, XdrNum.filter t = some f ∧ obj.length = XdrNum.csize m f ∧ XdrNum.wire f < obj.length ∧
      XdrNum.fits (XdrNum.wsigned f) (XdrNum.wire f) (XdrNum.num m.big (XdrNum.csigned m f) obj) = false) :
    writeAll true m (.num t obj :: l) x = .throw := by
  have : append true m t obj x = .throw := by
    rcases h with rfl | ⟨f, hf, hl, hw, hn⟩
    · rfl
    · simp only [append, hf, hx, Bool.true_eq_false, if_false, XdrNum.encode, hl, Nat.lt_irrefl, List.take_of_length_le (Nat.le_of_eq hl)]
      rw [← hl, if_pos ⟨hw, by simp, hn⟩]
  simp only [writeAll, this]

/-- A program that writes to a file opened to be read, or reads from one opened to be written, has no defined behaviour from there on. -/
theorem C129_fails_programs {α : Type} (strict : Bool) (m : Machine) (t : T) (ht : t ≠ .ldouble) (obj bs : Bytes) (n : Nat) (l : List Wr)
    (k : Bytes → Client α) (x : XF) :
    (x.write = false → writeAll strict m (.num t obj :: l) x = .ub ∧ writeAll strict m (.raw bs :: l) x = .ub) ∧
    (x.write = true → (Client.num t obj k).run m x = .ub ∧ (Client.raw n k).run m x = .ub) := by
  have h := C129_fails_direction strict m t ht obj bs n x
  constructor
  · intro hx
    simp only [writeAll, (h.1 hx).1, (h.1 hx).2.1, and_self]
  · intro hx
    simp only [Client.run, (h.2 hx).1, (h.2 hx).2.1, and_self]

/-- Going back further than the beginning while writing is going far behind the end, and the number of bytes written is then said to be
nearly two to the power of 64. -/
theorem C129_fails_front_write (c : Bytes) (o k s p : Nat) (ho : o < k) (hk : k < 2 ^ 32) :
    seeki k ⟨⟨c, o⟩, true, s, p⟩ = .ok ⟨⟨c, 2 ^ 32 - (k - o)⟩, true, 2 ^ 64 - (k - o), p⟩ := by
  simp only [seeki, Bool.true_eq_false, if_false, setpos, getpos]
  congr 2
  · congr 1; omega
  · omega

/-- A `long` of eight bytes that needs them. -/
example : writeAll true C129.le [.num .long (object C129.le .long (2 ^ 40)), .raw [1]] openW = .throw :=
  C129_refused_partial C129.le .long _ openW rfl _ (.inr ⟨.long, rfl, by decide, by decide, by decide⟩)

/-- A `wchar_t` of two bytes is written with what is behind it, and read over what is behind it, in files as elsewhere (C112). -/
theorem C129_fails_wchar {α : Type} (strict : Bool) (m : Machine) (obj : Bytes) (ho : obj.length = 2) (l : List Wr) (x : XF) (hx : x.write = true)
    (k : Bytes → Client α) (c : Bytes) (o s p : Nat) (hc : o + 4 ≤ c.length) :
    writeAll strict m (.num .wchar obj :: l) x = .ub ∧ (Client.num .wchar obj k).run m ⟨⟨c, o⟩, false, s, p⟩ = .ub := by
  have e : XdrNum.encode strict m .uint obj = .ub := by simp [XdrNum.encode, XdrNum.csize, ho]
  have d : ∀ w, XdrNum.decode m .uint w obj = .ub := by intro w; simp [XdrNum.decode, XdrNum.csize, ho]
  constructor
  · simp [writeAll, append, XdrNum.filter, hx, e]
  · simp [Client.run, popoff, XdrNum.filter, take, XdrNum.wire, hc, d]

end Verif.XdrFile
