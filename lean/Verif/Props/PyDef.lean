import Verif.PyDef

/-!
C99: a class given to Python has all its members there, and so have the classes it uses.
-/

namespace Verif.PyDef

/-- `d` has an attribute `n` that is not a constructor of a class, of its own or inherited. -/
inductive C99.Has (env : Env) : Nat → Str → Prop
  | obj {d a bs ms n t} : env.at d = .cls a bs ms → .obj n t ∈ ms → Has env d n
  | arr {d a bs ms n t} : env.at d = .cls a bs ms → .arr n t ∈ ms → Has env d n
  | fn {d a bs ms n args ret} : env.at d = .cls a bs ms → .fn n args ret ∈ ms → Has env d n
  | static {d a bs ms n ts} : env.at d = .cls a bs ms → .static n ts ∈ ms → Has env d n
  | base {d a bs ms n b} : env.at d = .cls a bs ms → b ∈ bs → Has env b n → Has env d n
  | seq {d v n} : env.at d = .seq v → n ∈ [b "__len__", b "__getitem__", b "__setitem__", b "assign", b "__init__"] →
      Has env d n
  | map {d k v n} : env.at d = .map k v → n ∈ [b "__len__", b "__getitem__", b "__setitem__", b "__iter__"] → Has env d n

/-- What a class, container or pointer is expected to have as attributes in Python. -/
inductive C99.Attr (env : Env) : Nat → Str → Prop
  | mem {c n} : C99.Has env c n → Attr env c n
  | ctor {c bs ms args} : env.at c = .cls false bs ms → .ctor args ∈ ms → Attr env c (b "__init__")
  | ptr {c v} : env.at c = .ptr v → Attr env c (b "target")

/-- `m` has, takes or returns values of type `t`. -/
inductive C99.Of : Mem → Nat → Prop
  | obj {n t} : Of (.obj n t) t
  | arr {n t} : Of (.arr n t) t
  | arg {n args ret t} : t ∈ args → Of (.fn n args ret) t
  | ret {n args ret} : Of (.fn n args ret) ret

/-- `c` has a member, of its own or inherited, that is not static and has, takes or returns values of type `t`. -/
inductive C99.Uses (env : Env) : Nat → Nat → Prop
  | mem {c a bs ms m t} : env.at c = .cls a bs ms → m ∈ ms → C99.Of m t → Uses env c t
  | base {c a bs ms d t} : env.at c = .cls a bs ms → d ∈ bs → Uses env d t → Uses env c t
  | seq {c v} : env.at c = .seq v → Uses env c v
  | key {c k v} : env.at c = .map k v → Uses env c k
  | mapped {c k v} : env.at c = .map k v → Uses env c v
  | ptr {c v} : env.at c = .ptr v → Uses env c v

/-- What can be had from values of type `t`. -/
inductive C99.Reach (env : Env) (t : Nat) : Nat → Prop
  | here : Reach env t t
  | step {u v} : Reach env t u → C99.Uses env u v → env.abs v = false → Reach env t v

/-- There is no way from a class back to it by bases, elements of arrays that are members, elements of containers and
pointers alone. -/
structure C99.Ranked (env : Env) (r : Nat → Nat) : Prop where
  base : ∀ {d a bs ms b}, env.at d = .cls a bs ms → b ∈ bs → r b < r d
  arr : ∀ {d a bs ms n t}, env.at d = .cls a bs ms → .arr n t ∈ ms → r t < r d
  seq : ∀ {c v}, env.at c = .seq v → r v < r c
  key : ∀ {c k v}, env.at c = .map k v → r k < r c
  mapped : ∀ {c k v}, env.at c = .map k v → r v < r c
  ptr : ∀ {c v}, env.at c = .ptr v → r v < r c

/-- Python knows `u`, with all it should have. -/
def C99.Known (env : Env) (s : St) (u : Nat) : Prop :=
  (∀ n, C99.Attr env u n → (u, n) ∈ s.defs) ∧ (env.at u = .enum → u ∈ s.enums) ∧
    ∀ a bs ms, env.at u = .cls a bs ms → u ∈ s.regs

open C99

/-! ### What is added stays -/

private structure Le (s s' : St) : Prop where
  started : ∀ x, x ∈ s.started → x ∈ s'.started
  regs : ∀ x, x ∈ s.regs → x ∈ s'.regs
  defs : ∀ x, x ∈ s.defs → x ∈ s'.defs
  done : ∀ x, x ∈ s.done → x ∈ s'.done
  enums : ∀ x, x ∈ s.enums → x ∈ s'.enums

private theorem Le.rfl (s : St) : Le s s := ⟨by simp, by simp, by simp, by simp, by simp⟩

private theorem Le.trans {a b c : St} (h : Le a b) (g : Le b c) : Le a c :=
  ⟨fun x hx => g.1 x (h.1 x hx), fun x hx => g.2 x (h.2 x hx), fun x hx => g.3 x (h.3 x hx),
   fun x hx => g.4 x (h.4 x hx), fun x hx => g.5 x (h.5 x hx)⟩

private theorem le_add (s : St) (c : Nat) (n : Str) : Le s (s.add c n) := by
  refine ⟨by simp [St.add], fun x hx => by simp [St.add, hx], fun x hx => ?_, by simp [St.add], by simp [St.add]⟩
  simp only [St.add]
  split
  · exact hx
  · simp [hx]

private theorem le_adds (ns : List Str) : ∀ (s : St) (c : Nat), Le s (s.adds c ns) := by
  induction ns with
  | nil => exact fun s c => Le.rfl s
  | cons n ns ih => exact fun s c => (le_add s c n).trans (ih (s.add c n) c)

private theorem le_step (env : Env) (k : Task) (s : St) : Le s (step env k s).2 := by
  cases k with
  | ty t =>
    simp only [step]
    split
    · exact Le.rfl s
    · exact ⟨by simp, by simp, by simp, by simp, fun x hx => by simp [hx]⟩
    all_goals exact Le.rfl s
  | one t =>
    simp only [step]
    split
    · exact Le.rfl s
    · exact ⟨fun x hx => by simp [hx], by simp, by simp, by simp, by simp⟩
  | into c d =>
    simp only [step]
    split
    · exact Le.rfl s
    · exact le_adds _ _ _
    · exact le_adds _ _ _
    · exact le_add _ _ _
    · exact Le.rfl s
  | mem c d m =>
    cases m with
    | obj n t => exact le_add _ _ _
    | arr n t => exact le_add _ _ _
    | fn n args ret => exact le_add _ _ _
    | ctor args =>
      simp only [step]
      split
      · exact Le.rfl s
      · exact le_add _ _ _
    | static n ts => exact le_add _ _ _
    | skipped => exact Le.rfl s
  | finish t => exact ⟨by simp [step], fun x hx => by simp [step, hx], by simp [step], fun x hx => by simp [step, hx], by simp [step]⟩

private theorem done_add (s : St) (c : Nat) (n : Str) : (s.add c n).done = s.done := rfl

private theorem adds_done (ns : List Str) : ∀ (s : St) (c : Nat), (s.adds c ns).done = s.done := by
  induction ns with
  | nil => exact fun s c => rfl
  | cons n ns ih => exact fun s c => ih (s.add c n) c

private theorem adds_started (ns : List Str) : ∀ (s : St) (c : Nat), (s.adds c ns).started = s.started := by
  induction ns with
  | nil => exact fun s c => rfl
  | cons n ns ih => exact fun s c => ih (s.add c n) c

/-! ### Members -/

/-- The name a member puts into the class `c`, in the descriptor of `d`. -/
private inductive Puts (env : Env) (c : Nat) : Nat → Mem → Str → Prop
  | obj {d n t} : Puts env c d (.obj n t) n
  | arr {d n t} : Puts env c d (.arr n t) n
  | fn {d n args ret} : Puts env c d (.fn n args ret) n
  | static {d n ts} : Puts env c d (.static n ts) n
  | ctor {bs ms args} : env.at c = .cls false bs ms → Puts env c c (.ctor args) (b "__init__")

/-- What the descriptor of `d` puts into `c`. -/
private inductive Gives (env : Env) (c : Nat) : Nat → Str → Prop
  | mem {d a bs ms m n} : env.at d = .cls a bs ms → m ∈ ms → Puts env c d m n → Gives env c d n
  | base {d a bs ms b n} : env.at d = .cls a bs ms → b ∈ bs → Gives env c b n → Gives env c d n
  | seq {d v n} : env.at d = .seq v → n ∈ seqNames → Gives env c d n
  | map {d k v n} : env.at d = .map k v → n ∈ mapNames → Gives env c d n
  | ptr {v} : env.at c = .ptr v → Gives env c c (b "target")

private theorem has_gives {env : Env} (c : Nat) {d : Nat} {n : Str} (h : Has env d n) : Gives env c d n := by
  induction h with
  | obj h1 h2 => exact .mem h1 h2 .obj
  | arr h1 h2 => exact .mem h1 h2 .arr
  | fn h1 h2 => exact .mem h1 h2 .fn
  | static h1 h2 => exact .mem h1 h2 .static
  | base h1 h2 _ ih => exact .base h1 h2 ih
  | seq h1 h2 => exact .seq h1 (by simp only [seqNames]; simp at h2 ⊢; grind)
  | map h1 h2 => exact .map h1 h2

private theorem attr_gives {env : Env} {c : Nat} {n : Str} (h : Attr env c n) : Gives env c c n := by
  cases h with
  | mem h => exact has_gives c h
  | ctor h1 h2 => exact .mem h1 h2 (.ctor h1)
  | ptr h => exact .ptr h

/-- A task that will see to it that `c` has the attribute `n`, unless `c` is completed. -/
private inductive Prom (env : Env) (c : Nat) (n : Str) : Task → Prop
  | into {d} : Gives env c d n → Prom env c n (.into c d)
  | mem {d m} : Puts env c d m n → Prom env c n (.mem c d m)

/-- The invariant: what is completed has everything, and what will be has what is not promised. -/
private structure Inv (env : Env) (ks : List Task) (s : St) : Prop where
  done : ∀ c, c ∈ s.done → ∀ n, Gives env c c n → (c, n) ∈ s.defs
  fin : ∀ c pre post, ks = pre ++ .finish c :: post → ∀ n, Gives env c c n →
    (c, n) ∈ s.defs ∨ ∃ k ∈ pre, Prom env c n k

private theorem add_has (s : St) (c : Nat) (n : Str) (h : c ∈ s.done → (c, n) ∈ s.defs) : (c, n) ∈ (s.add c n).defs := by
  simp only [St.add]
  split
  · rename_i hd; exact h hd
  · simp

private theorem adds_has (c : Nat) (n : Str) : ∀ (ns : List Str) (s : St), n ∈ ns → (c ∈ s.done → (c, n) ∈ s.defs) →
    (c, n) ∈ (s.adds c ns).defs
  | m :: ns, s, hn, h => by
    by_cases hm : n = m
    · subst hm
      exact (le_adds ns _ c).defs _ (add_has s c n h)
    · exact adds_has c n ns (s.add c m) (by simpa [hm] using hn) fun hd => (le_add s c m).defs _ (h hd)

/-- A promise is kept or passed on. -/
private theorem keep {env : Env} {s : St} {k : Task} {c : Nat} {n : Str}
    (hd : c ∈ s.done → (c, n) ∈ s.defs) (hp : Prom env c n k) :
    (c, n) ∈ (step env k s).2.defs ∨ ∃ k' ∈ (step env k s).1, Prom env c n k' := by
  cases hp with
  | into hg =>
    cases hg with
    | mem h1 h2 h3 =>
      right
      refine ⟨.mem c _ _, ?_, .mem h3⟩
      simp only [step, h1]
      simp [h2]
    | base h1 h2 h3 =>
      right
      refine ⟨.into c _, ?_, .into h3⟩
      simp only [step, h1]
      simp [h2]
    | seq h1 h2 => left; simp only [step, h1]; exact adds_has c n _ _ h2 hd
    | map h1 h2 => left; simp only [step, h1]; exact adds_has c n _ _ h2 hd
    | ptr h1 => left; simp only [step, h1]; exact add_has _ _ _ hd
  | mem hp =>
    left
    cases hp with
    | obj => exact add_has _ _ _ hd
    | arr => exact add_has _ _ _ hd
    | fn => exact add_has _ _ _ hd
    | static => exact add_has _ _ _ hd
    | ctor h =>
      simp only [step, Env.abs, h]
      exact add_has _ _ _ hd

private theorem finish_in {env : Env} {k : Task} {s : St} {c : Nat} {pre post : List Task}
    (h : (step env k s).1 = pre ++ .finish c :: post) : k = .ty c ∧ .into c c ∈ pre := by
  have hm : Task.finish c ∈ (step env k s).1 := by rw [h]; simp
  have two : ∀ t, [Task.into t t, .finish t] = pre ++ .finish c :: post → t = c ∧ .into c c ∈ pre := by
    intro t h
    cases pre with
    | nil => simp at h
    | cons p pre =>
      cases pre with
      | nil => simp at h; obtain ⟨rfl, rfl, _⟩ := h; simp
      | cons q pre => simp at h
  cases k with
  | ty t =>
    simp only [step] at hm h
    split at hm <;> rename_i hc <;> rw [hc] at h
    · simp at hm
    · simp at hm
    · obtain ⟨rfl, h2⟩ := two t h; exact ⟨rfl, h2⟩
    · simp at hm
    · simp at hm
    · obtain ⟨rfl, h2⟩ := two t h; exact ⟨rfl, h2⟩
  | one t =>
    simp only [step] at hm
    split at hm
    · simp at hm
    · split at hm <;> simp at hm
  | into c d =>
    simp only [step] at hm
    split at hm <;> simp at hm
  | mem c d m =>
    cases m <;> simp only [step] at hm <;> try (simp at hm; done)
    split at hm <;> simp at hm
  | finish t => simp [step] at hm

/-- Only the end of a description completes a class. -/
private theorem completes {env : Env} {k : Task} {s : St} {c : Nat} (hc : c ∈ (step env k s).2.done) (h : c ∉ s.done) :
    k = .finish c := by
  cases k with
  | ty t =>
    simp only [step] at hc
    split at hc <;> simp_all
  | one t =>
    simp only [step] at hc
    split at hc <;> simp_all
  | into _ d =>
    simp only [step] at hc
    split at hc <;> simp_all [adds_done, done_add]
  | mem _ d m =>
    cases m <;> simp only [step] at hc <;> try (simp_all [done_add]; done)
    split at hc <;> simp_all [done_add]
  | finish t => simp [step, h] at hc; simp [hc]

private theorem inv_step {env : Env} {k : Task} {ks : List Task} {s : St} (hi : Inv env (k :: ks) s) :
    Inv env ((step env k s).1 ++ ks) (step env k s).2 := by
  have hle := le_step env k s
  refine ⟨fun c hc n hw => ?_, fun c pre post he n hw => ?_⟩
  · by_cases h : c ∈ s.done
    · exact hle.defs _ (hi.done c h n hw)
    · have := completes hc h
      subst this
      rcases hi.fin c [] ks rfl n hw with h1 | ⟨k, h1, _⟩
      · exact hle.defs _ h1
      · simp at h1
  · rcases List.append_eq_append_iff.1 he with ⟨as, h1, h2⟩ | ⟨bs, h1, h2⟩
    · rcases hi.fin c (k :: as) post (by rw [h2]; rfl) n hw with h3 | ⟨k', h3, h4⟩
      · exact .inl (hle.defs _ h3)
      · rcases List.mem_cons.1 h3 with rfl | h3
        · rcases keep (fun h => hi.done c h n hw) h4 with h5 | ⟨k'', h5, h6⟩
          · exact .inl h5
          · exact .inr ⟨k'', by rw [h1]; simp [h5], h6⟩
        · exact .inr ⟨k', by rw [h1]; simp [h3], h4⟩
    · cases bs with
      | nil =>
        simp only [List.nil_append, List.append_nil] at h1 h2
        rcases hi.fin c [k] post (by rw [← h2]; rfl) n hw with h3 | ⟨k', h3, h4⟩
        · exact .inl (hle.defs _ h3)
        · simp only [List.mem_singleton] at h3
          subst h3
          rcases keep (fun h => hi.done c h n hw) h4 with h5 | ⟨k'', h5, h6⟩
          · exact .inl h5
          · exact .inr ⟨k'', by rw [← h1]; exact h5, h6⟩
      | cons x bs =>
        simp only [List.cons_append, List.cons.injEq] at h2
        obtain ⟨rfl, h2⟩ := h2
        obtain ⟨rfl, h3⟩ := finish_in h1
        exact .inr ⟨_, h3, .into hw⟩

/-! ### What is used -/

/-- `V` are the types that have been described, or are being described. -/
private structure Cov (env : Env) (V : Nat → Prop) (ks : List Task) (s : St) : Prop where
  started : ∀ u, u ∈ s.started → env.abs u = false → .ty u ∈ ks ∨ V u
  enums : ∀ u, V u → env.at u = .enum → u ∈ s.enums
  regs : ∀ u, V u → ∀ a bs ms, env.at u = .cls a bs ms → u ∈ s.regs ∨ .finish u ∈ ks
  attrs : ∀ u, V u → ∀ n, Gives env u u n → (u, n) ∈ s.defs ∨ ∃ k ∈ ks, Prom env u n k
  uses : ∀ u, V u → ∀ w, Uses env u w → (w ∈ s.started ∨ .one w ∈ ks ∨ .ty w ∈ ks ∨ V w) ∨
    (∃ d, .into u d ∈ ks ∧ Uses env d w) ∨ ∃ d m, .mem u d m ∈ ks ∧ Of m w

private theorem uses_ty {env : Env} {t w : Nat} (h : Uses env t w) (s : St) : .into t t ∈ (step env (.ty t) s).1 := by
  cases h with
  | mem h _ _ => simp [step, h]
  | base h _ _ => simp [step, h]
  | seq h => simp [step, h]
  | key h => simp [step, h]
  | mapped h => simp [step, h]
  | ptr h => simp [step, h]

private theorem cov_step {env : Env} {V : Nat → Prop} {k : Task} {ks : List Task} {s : St} (hi : Inv env (k :: ks) s)
    (hc : Cov env V (k :: ks) s) :
    Cov env (fun u => V u ∨ k = .ty u) ((step env k s).1 ++ ks) (step env k s).2 := by
  have hle := le_step env k s
  refine ⟨fun u hu ha => ?_, fun u hu he => ?_, fun u hu a bs ms he => ?_, fun u hu n hg => ?_, fun u hu w hw => ?_⟩
  · by_cases h : u ∈ s.started
    · rcases hc.started u h ha with h1 | h1
      · rcases List.mem_cons.1 h1 with rfl | h1
        · exact .inr (.inr rfl)
        · exact .inl (by simp [h1])
      · exact .inr (.inl h1)
    · have : k = .one u := by
        cases k with
        | ty t =>
          simp only [step] at hu
          split at hu <;> simp_all
        | one t =>
          simp only [step] at hu
          split at hu <;> simp_all
        | into _ d =>
          simp only [step] at hu
          split at hu <;> simp_all [adds_started, St.add]
        | mem _ d m =>
          cases m <;> simp only [step] at hu <;> try (simp_all [St.add]; done)
          split at hu <;> simp_all [St.add]
        | finish t => simp [step, h] at hu
      subst this
      left
      simp [step, h, ha]
  · rcases hu with hu | rfl
    · exact hle.enums _ (hc.enums u hu he)
    · simp [step, he]
  · rcases hu with hu | rfl
    · rcases hc.regs u hu a bs ms he with h | h
      · exact .inl (hle.regs _ h)
      · rcases List.mem_cons.1 h with rfl | h
        · left; simp [step]
        · exact .inr (by simp [h])
    · right; simp [step, he]
  · rcases hu with hu | rfl
    · rcases hc.attrs u hu n hg with h | ⟨k', h, h2⟩
      · exact .inl (hle.defs _ h)
      · rcases List.mem_cons.1 h with rfl | h
        · rcases keep (fun h => hi.done u h n hg) h2 with h3 | ⟨k'', h3, h4⟩
          · exact .inl h3
          · exact .inr ⟨k'', by simp [h3], h4⟩
        · exact .inr ⟨k', by simp [h], h2⟩
    · right
      refine ⟨.into u u, ?_, .into hg⟩
      cases hg with
      | mem h _ _ => simp [step, h]
      | base h _ _ => simp [step, h]
      | seq h => simp [step, h]
      | map h => simp [step, h]
      | ptr h => simp [step, h]
  · rcases hu with hu | rfl
    · rcases hc.uses u hu w hw with (h | h | h | h) | ⟨d, h, h2⟩ | ⟨d, m, h, h2⟩
      · exact .inl (.inl (hle.started _ h))
      · rcases List.mem_cons.1 h with rfl | h
        · left; left
          by_cases hs : w ∈ s.started <;> simp [step, hs]
        · exact .inl (.inr (.inl (by simp [h])))
      · rcases List.mem_cons.1 h with rfl | h
        · exact .inl (.inr (.inr (.inr (.inr rfl))))
        · exact .inl (.inr (.inr (.inl (by simp [h]))))
      · exact .inl (.inr (.inr (.inr (.inl h))))
      · rcases List.mem_cons.1 h with rfl | h
        · cases h2 with
          | mem h3 h4 h5 => exact .inr (.inr ⟨d, _, by simp only [step, h3]; simp [h4], h5⟩)
          | base h3 h4 h5 => exact .inr (.inl ⟨_, by simp only [step, h3]; simp [h4], h5⟩)
          | seq h3 => exact .inl (.inr (.inr (.inl (by simp [step, h3]))))
          | key h3 => exact .inl (.inr (.inr (.inl (by simp [step, h3]))))
          | mapped h3 => exact .inl (.inr (.inr (.inl (by simp [step, h3]))))
          | ptr h3 => exact .inl (.inr (.inr (.inl (by simp [step, h3]))))
        · exact .inr (.inl ⟨d, by simp [h], h2⟩)
      · rcases List.mem_cons.1 h with rfl | h
        · left
          cases h2 with
          | obj => exact .inr (.inl (by simp [step]))
          | arr => exact .inr (.inr (.inl (by simp [step])))
          | arg h3 => exact .inr (.inl (by simp [step, h3]))
          | ret => exact .inr (.inl (by simp [step]))
        · exact .inr (.inr ⟨d, m, by simp [h], h2⟩)
    · right; left
      exact ⟨u, by simp [uses_ty hw s], hw⟩

private theorem run_all {env : Env} : ∀ (n : Nat) (ks : List Task) (V : Nat → Prop) (s s' : St), Inv env ks s → Cov env V ks s →
    run env n ks s = some s' → ∃ V', Inv env [] s' ∧ Cov env V' [] s' ∧ (∀ u, V u → V' u) ∧ ∀ t, .ty t ∈ ks → V' t
  | n, [], V, s, s', hi, hc, h => by
    cases n <;> (simp only [run, Option.some.injEq] at h; subst h; exact ⟨V, hi, hc, fun _ h => h, by simp⟩)
  | 0, _ :: _, _, _, _, _, _, h => by simp [run] at h
  | n + 1, k :: ks, V, s, s', hi, hc, h => by
    obtain ⟨V', h1, h2, h3, h4⟩ := run_all n _ _ _ s' (inv_step hi) (cov_step hi hc) h
    refine ⟨V', h1, h2, fun u hu => h3 u (.inl hu), fun t ht => ?_⟩
    rcases List.mem_cons.1 ht with rfl | ht
    · exact h3 t (.inr rfl)
    · exact h4 t (by simp [ht])

/-- C99: after any number of classes, containers and so on have been given to Python, one after the other, each of them
and everything that can be had from it is there with all its attributes: all members, inherited ones too, the methods of
containers, the targets of pointers, constructors; provided that describing them comes to an end (`C99_ends_partial`).
What static members have, and abstract classes, do not count. -/
theorem C99_known_partial (env : Env) (ts : List Nat) (n : Nat) (s : St) (h : run env n (ts.map .ty) .init = some s)
    (t : Nat) (ht : t ∈ ts) (u : Nat) (hu : Reach env t u) : Known env s u := by
  have hi : Inv env (ts.map .ty) .init := by
    refine ⟨by simp [St.init], fun c pre post he => ?_⟩
    have : Task.finish c ∈ ts.map Task.ty := by rw [he]; simp
    simp at this
  have hc : Cov env (fun _ => False) (ts.map .ty) .init :=
    ⟨by simp [St.init], by simp, by simp, by simp, by simp⟩
  obtain ⟨V, h1, h2, _, h4⟩ := run_all n _ _ _ _ hi hc h
  have hv : V u := by
    induction hu with
    | here => exact h4 t (by simp [ht])
    | step _ hs ha ih =>
      rcases h2.uses _ ih _ hs with (h | h | h | h) | ⟨d, h, _⟩ | ⟨d, m, h, _⟩
      · rcases h2.started _ h ha with h | h
        · simp at h
        · exact h
      · simp at h
      · simp at h
      · exact h
      · simp at h
      · simp at h
  refine ⟨fun n hn => ?_, fun he => h2.enums u hv he, fun a bs ms he => ?_⟩
  · rcases h2.attrs u hv n (attr_gives hn) with h | ⟨k, h, _⟩
    · exact h
    · simp at h
  · rcases h2.regs u hv a bs ms he with h | h
    · exact h
    · simp at h

/-! ### When describing ends -/

private theorem run_append {env : Env} : ∀ (n : Nat) (ks ls : List Task) (s s' s'' : St) (m : Nat),
    run env n ks s = some s' → run env m ls s' = some s'' → run env (n + m) (ks ++ ls) s = some s''
  | n, [], ls, s, s', s'', m, h, g => by
    have : s' = s := by cases n <;> simpa [run] using h.symm
    subst this
    exact run_more n m ls s' s'' g
  | 0, _ :: _, _, _, _, _, _, h, _ => by simp [run] at h
  | n + 1, k :: ks, ls, s, s', s'', m, h, g => by
    have : n + 1 + m = (n + m) + 1 := by omega
    rw [this]
    simp only [run, List.cons_append] at h ⊢
    rw [← List.append_assoc]
    exact run_append n _ ls _ s' s'' m h g
where
  run_more (n m : Nat) (ls : List Task) (s s'' : St) (g : run env m ls s = some s'') : run env (n + m) ls s = some s'' := by
    induction m generalizing ls s with
    | zero =>
      cases ls with
      | nil => cases n <;> simpa [run] using g
      | cons k ls => simp [run] at g
    | succ m ih =>
      cases ls with
      | nil => simpa [run] using g
      | cons k ls => exact ih _ _ g

/-- How many types have not been started. -/
private def left (env : Env) (s : St) : Nat := ((List.range env.length).filter (· ∉ s.started)).length

private def weight (r : Nat → Nat) : Task → Nat
  | .ty t => 3 * r t + 2
  | .into _ d => 3 * r d + 1
  | .mem _ d _ => 3 * r d
  | _ => 0

private theorem left_le {env : Env} {s s' : St} (h : Le s s') : left env s' ≤ left env s := by
  simp only [left]
  refine (List.Sublist.length_le ?_)
  have : (List.range env.length).filter (· ∉ s'.started) =
      ((List.range env.length).filter (· ∉ s.started)).filter (· ∉ s'.started) := by
    rw [List.filter_filter]
    refine List.filter_congr fun x _ => ?_
    by_cases h1 : x ∈ s'.started
    · simp [h1]
    · have : x ∉ s.started := fun h2 => h1 (h.started x h2)
      simp [h1, this]
  rw [this]
  exact List.filter_sublist

private theorem left_lt {env : Env} {s : St} {t : Nat} (ht : t < env.length) (h : t ∉ s.started) :
    left env { s with started := t :: s.started } < left env s := by
  simp only [left]
  have : (List.range env.length).filter (· ∉ t :: s.started) =
      ((List.range env.length).filter (· ∉ s.started)).filter (· ≠ t) := by
    rw [List.filter_filter]
    refine List.filter_congr fun x _ => ?_
    by_cases h1 : x = t <;> simp [h1]
  rw [this]
  have hm : t ∈ (List.range env.length).filter (· ∉ s.started) := by simp [ht, h]
  generalize (List.range env.length).filter (· ∉ s.started) = l at hm
  clear this h ht
  induction l with
  | nil => simp at hm
  | cons x l ih =>
    have hl : (List.filter (· ≠ t) l).length ≤ l.length := List.length_filter_le _ _
    by_cases h : x = t
    · simp [h]; simp at hl; omega
    · have := ih (by simpa [Ne.symm h, h] using hm)
      simp only [List.filter_cons, h, ne_eq, not_false_eq_true, decide_true, ite_true, List.length_cons] at this ⊢
      omega

private def Ends (env : Env) (L : Nat) (k : Task) : Prop :=
  ∀ s, left env s ≤ L → ∃ n s', run env n [k] s = some s'

private theorem le_run' {env : Env} : ∀ (n : Nat) (ks : List Task) (s s' : St), run env n ks s = some s' → Le s s'
  | n, [], s, s', h => by cases n <;> (simp only [run, Option.some.injEq] at h; subst h; exact Le.rfl _)
  | 0, _ :: _, _, _, h => by simp [run] at h
  | n + 1, k :: ks, s, s', h => (le_step env k s).trans (le_run' n _ _ _ h)

private theorem ends_list {env : Env} {L : Nat} : ∀ (ks : List Task) (s : St), (∀ k ∈ ks, Ends env L k) → left env s ≤ L →
    ∃ n s', run env n ks s = some s'
  | [], s, _, _ => ⟨0, s, by simp [run]⟩
  | k :: ks, s, hk, hs => by
    obtain ⟨n, s1, h1⟩ := hk k (by simp) s hs
    obtain ⟨m, s2, h2⟩ := ends_list ks s1 (fun k h => hk k (by simp [h])) (Nat.le_trans (left_le (le_run' _ _ _ _ h1)) hs)
    exact ⟨n + m, s2, by simpa using run_append n [k] ks s s1 s2 m h1 h2⟩

/-- A step and the calls it makes. -/
private theorem ends_step {env : Env} {k : Task} {s : St} {L : Nat} (hl : left env (step env k s).2 ≤ L)
    (h : ∀ k' ∈ (step env k s).1, Ends env L k') : ∃ n s', run env n [k] s = some s' := by
  obtain ⟨n, s', h1⟩ := ends_list _ _ h hl
  exact ⟨n + 1, s', by simpa [run] using h1⟩

private def Ok (env : Env) : Task → Prop
  | .mem _ d m => ∃ a bs ms, env.at d = .cls a bs ms ∧ m ∈ ms
  | _ => True

private theorem ends {env : Env} {r : Nat → Nat} (hr : Ranked env r) (L w : Nat) :
    ∀ k, weight r k ≤ w → Ok env k → Ends env L k := by
  induction L using Nat.strongRecOn generalizing w with
  | _ L ihL =>
  have one : ∀ t, Ends env L (.one t) := by
    intro t s hs
    by_cases h : t ∈ s.started
    · exact ⟨1, s, by simp [run, step, h]⟩
    by_cases ht : t < env.length
    · refine ends_step (L := L - 1) ?_ fun k' hk' => ?_
      · have := left_lt ht h
        simp only [step, h, if_false]
        omega
      · have hlt := left_lt ht h
        simp only [step, h, if_false] at hk'
        split at hk'
        · simp at hk'
        · simp only [List.mem_singleton] at hk'
          subst hk'
          exact ihL (L - 1) (by omega) _ _ (Nat.le_refl _) trivial
    · have hp : env.at t = .prim := by simp [Env.at, List.getElem?_eq_none (Nat.le_of_not_lt ht)]
      exact ⟨2, _, by simp [run, step, h, Env.abs, hp]; rfl⟩
  induction w using Nat.strongRecOn with
  | _ w ihw =>
  intro k hk ok s hs
  have hl : left env (step env k s).2 ≤ L := Nat.le_trans (left_le (le_step env k s)) hs
  have less : ∀ k', weight r k' < weight r k → Ok env k' → Ends env L k' := fun k' h1 h2 =>
    ihw (weight r k') (by omega) k' (Nat.le_refl _) h2
  by_cases h1 : ∃ t, k = .one t
  · obtain ⟨t, rfl⟩ := h1
    exact one t s hs
  refine ends_step hl fun k' hk' => ?_
  cases k with
  | ty t =>
    have hf : Ends env L (.finish t) := fun s _ => ⟨1, _, by simp [run]; rfl⟩
    have hn : Ends env L (.into t t) := less _ (by simp [weight]) trivial
    simp only [step] at hk'
    split at hk'
    · simp at hk'
    · simp at hk'
    · simp at hk'; rcases hk' with rfl | rfl <;> assumption
    · simp at hk'; subst hk'; exact hn
    · simp at hk'; subst hk'; exact hn
    · simp at hk'; rcases hk' with rfl | rfl <;> assumption
  | one t => exact absurd ⟨t, rfl⟩ h1
  | into c d =>
    simp only [step] at hk'
    split at hk'
    · rename_i a bs ms he
      simp only [List.mem_append, List.mem_map] at hk'
      rcases hk' with ⟨x, hx, rfl⟩ | ⟨m, hm, rfl⟩
      · have := hr.base he hx
        exact less _ (by simp only [weight]; omega) trivial
      · exact less _ (by simp only [weight]; omega) ⟨a, bs, ms, he, hm⟩
    · rename_i v he
      have := hr.seq he
      simp at hk'
      subst hk'
      exact less _ (by simp only [weight]; omega) trivial
    · rename_i q v he
      have := hr.key he
      have := hr.mapped he
      simp at hk'
      rcases hk' with rfl | rfl <;> exact less _ (by simp only [weight]; omega) trivial
    · rename_i v he
      have := hr.ptr he
      simp at hk'
      subst hk'
      exact less _ (by simp only [weight]; omega) trivial
    · simp at hk'
  | mem c d m =>
    obtain ⟨a, bs, ms, he, hm⟩ := ok
    cases m with
    | obj n t =>
      simp [step] at hk'
      subst hk'
      exact one t
    | arr n t =>
      have := hr.arr he hm
      simp [step] at hk'
      subst hk'
      exact less _ (by simp only [weight]; omega) trivial
    | fn n args ret =>
      simp only [step, List.mem_map] at hk'
      obtain ⟨t, _, rfl⟩ := hk'
      exact one t
    | ctor args =>
      simp only [step] at hk'
      split at hk'
      · simp at hk'
      · simp only [List.mem_map] at hk'
        obtain ⟨t, _, rfl⟩ := hk'
        exact one t
    | static n ts => simp [step] at hk'
    | skipped => simp [step] at hk'
  | finish t => simp [step] at hk'

/-- C99: describing classes to Python comes to an end, however they refer to each other through members, arguments and
results, unless there is a way back to a class by bases, arrays, containers and pointers alone. -/
theorem C99_ends_partial (env : Env) (r : Nat → Nat) (hr : Ranked env r) (ts : List Nat) :
    ∃ n s, run env n (ts.map .ty) .init = some s := by
  refine ends_list (L := left env .init) _ _ (fun k hk => ?_) (Nat.le_refl _)
  simp only [List.mem_map] at hk
  obtain ⟨t, _, rfl⟩ := hk
  exact ends hr _ _ _ (Nat.le_refl _) trivial

/-- A program: 0 `int`; 1 an abstract class with a member `id` and a function that returns an object of class 3; 2 an
enumeration; 3 a class derived from 1 with an array `grid` of vectors 5, a member `kind` of type 2, a constructor and a
function `next(Node)` that returns a shared pointer 4 to 3; 5 `vector<Leaf>`; 6 `Leaf`, with a member of type 3. -/
def C99.exEnv : Env :=
  [.prim,
   .cls true [] [.obj (b "id") 0, .fn (b "whole") [] 3, .ctor [0]],
   .enum,
   .cls false [1] [.arr (b "grid") 5, .obj (b "kind") 2, .ctor [0], .fn (b "next") [3] 4],
   .ptr 3,
   .seq 6,
   .cls false [] [.obj (b "node") 3]]

def C99.exRank : Nat → Nat
  | 3 => 2
  | 4 => 3
  | 5 => 1
  | _ => 0

private theorem ex_at {d : Nat} {t : Ty} (h : exEnv.at d = t) : t = .prim ∨ (d, t) ∈ exEnv.mapIdx fun i x => (i, x) := by
  by_cases hd : d < 7
  · right
    rcases d with _ | _ | _ | _ | _ | _ | _ | d <;> first | omega | (subst h; simp [exEnv, Env.at])
  · left
    rw [← h, Env.at, List.getElem?_eq_none (by simp [exEnv]; omega)]
    rfl

private theorem exRanked : Ranked exEnv exRank := by
  constructor
  · intro d a bs ms x h hx
    rcases ex_at h with h1 | h1 <;> simp [exEnv] at h1
    rcases h1 with ⟨rfl, rfl, rfl, rfl⟩ | ⟨rfl, rfl, rfl, rfl⟩ | ⟨rfl, rfl, rfl, rfl⟩ <;> simp at hx
    subst hx; decide
  · intro d a bs ms n t h hx
    rcases ex_at h with h1 | h1 <;> simp [exEnv] at h1
    rcases h1 with ⟨rfl, rfl, rfl, rfl⟩ | ⟨rfl, rfl, rfl, rfl⟩ | ⟨rfl, rfl, rfl, rfl⟩ <;> simp at hx
    obtain ⟨_, rfl⟩ := hx; decide
  · intro c v h
    rcases ex_at h with h1 | h1 <;> simp [exEnv] at h1
    obtain ⟨rfl, rfl⟩ := h1; decide
  · intro c k v h
    rcases ex_at h with h1 | h1 <;> simp [exEnv] at h1
  · intro c k v h
    rcases ex_at h with h1 | h1 <;> simp [exEnv] at h1
  · intro c v h
    rcases ex_at h with h1 | h1 <;> simp [exEnv] at h1
    obtain ⟨rfl, rfl⟩ := h1; decide

/-- The program is one of those, though classes 3 and 6 refer to each other; describing 6 describes 3, the pointers to it,
the vectors in its array and the enumeration. -/
example : ∃ n s, run exEnv n ([6].map .ty) .init = some s ∧ Known exEnv s 3 ∧ Known exEnv s 4 ∧ Known exEnv s 5 ∧
    Known exEnv s 2 ∧ (3, b "id") ∈ s.defs ∧ (4, b "target") ∈ s.defs := by
  obtain ⟨n, s, h⟩ := C99_ends_partial exEnv exRank exRanked [6]
  have u63 : Uses exEnv 6 3 := .mem (a := false) (bs := []) rfl (List.mem_cons_self ..) .obj
  have r3 : Reach exEnv 6 3 := .step .here u63 rfl
  have u34 : Uses exEnv 3 4 := .mem (a := false) (bs := [1])
    (m := .fn (b "next") [3] 4) rfl (by simp) .ret
  have u35 : Uses exEnv 3 5 := .mem (a := false) (bs := [1]) rfl (List.mem_cons_self ..) .arr
  have u32 : Uses exEnv 3 2 := .mem (a := false) (bs := [1])
    (m := .obj (b "kind") 2) rfl (by simp) .obj
  have k := fun u hu => C99_known_partial exEnv [6] n s h 6 (by simp) u hu
  refine ⟨n, s, h, k 3 r3, k 4 (r3.step u34 rfl), k 5 (r3.step u35 rfl), k 2 (r3.step u32 rfl),
    (k 3 r3).1 _ (.mem (.base (b := 1) (a := false) (bs := [1]) rfl (by simp) (.obj (a := true) (bs := []) rfl
      (List.mem_cons_self ..)))), (k 4 (r3.step u34 rfl)).1 _ (.ptr rfl)⟩

/-! ### What goes wrong -/

/-- `t` leads to `u` by elements of an array that is a member (perhaps inherited), of a container, or by a pointer. -/
inductive C99.Direct (env : Env) : Nat → Nat → Prop
  | arr {t a bs ms n u} : env.at t = .cls a bs ms → .arr n u ∈ ms → Direct env t u
  | base {t a bs ms d u} : env.at t = .cls a bs ms → d ∈ bs → Direct env d u → Direct env t u
  | seq {t v} : env.at t = .seq v → Direct env t v
  | key {t k v} : env.at t = .map k v → Direct env t k
  | mapped {t k v} : env.at t = .map k v → Direct env t v
  | ptr {t v} : env.at t = .ptr v → Direct env t v

private inductive Bad (env : Env) (B : Nat → Prop) : Task → Prop
  | ty {t} : B t → Bad env B (.ty t)
  | into {c d u} : Direct env d u → B u → Bad env B (.into c d)
  | mem {c d n u} : B u → Bad env B (.mem c d (.arr n u))

private theorem bad_step {env : Env} {B : Nat → Prop} (hB : ∀ t, B t → ∃ u, Direct env t u ∧ B u) {k : Task} (s : St)
    (h : Bad env B k) : ∃ k' ∈ (step env k s).1, Bad env B k' := by
  cases h with
  | @ty t ht =>
    obtain ⟨u, hd, hu⟩ := hB _ ht
    refine ⟨.into t t, ?_, .into hd hu⟩
    cases hd with
    | arr h _ => simp [step, h]
    | base h _ _ => simp [step, h]
    | seq h => simp [step, h]
    | key h => simp [step, h]
    | mapped h => simp [step, h]
    | ptr h => simp [step, h]
  | into hd hu =>
    cases hd with
    | arr h h2 => 
      rename_i c d _ _ _ _ n
      refine ⟨.mem c d (.arr n _), ?_, .mem hu⟩
      simp only [step, h]
      exact List.mem_append_right _ (List.mem_map.2 ⟨_, h2, rfl⟩)
    | base h h2 h3 => 
      rename_i c d _ _ _ _ d'
      refine ⟨.into c d', ?_, .into h3 hu⟩
      simp only [step, h]
      exact List.mem_append_left _ (List.mem_map.2 ⟨_, h2, rfl⟩)
    | seq h => exact ⟨.ty _, by simp only [step, h]; simp, .ty hu⟩
    | key h => exact ⟨.ty _, by simp only [step, h]; simp, .ty hu⟩
    | mapped h => exact ⟨.ty _, by simp only [step, h]; simp, .ty hu⟩
    | ptr h => exact ⟨.ty _, by simp only [step, h]; simp, .ty hu⟩
  | mem hu => exact ⟨.ty _, by simp [step], .ty hu⟩

private theorem bad_run {env : Env} {B : Nat → Prop} (hB : ∀ t, B t → ∃ u, Direct env t u ∧ B u) :
    ∀ (n : Nat) (ks : List Task) (s : St), (∃ k ∈ ks, Bad env B k) → run env n ks s = none
  | _, [], _, h => by simp at h
  | 0, _ :: _, _, _ => by simp [run]
  | n + 1, k :: ks, s, ⟨k', h1, h2⟩ => by
    refine bad_run hB n _ _ ?_
    rcases List.mem_cons.1 h1 with rfl | h1
    · obtain ⟨k'', h3, h4⟩ := bad_step hB s h2
      exact ⟨k'', by simp [h3], h4⟩
    · exact ⟨k', by simp [h1], h2⟩

/-- C99 fails: if arrays, containers and pointers lead from a class back to it, describing it never ends, whatever has been
described before; members that are not arrays may lead back. -/
theorem C99_fails_cycle (env : Env) (B : Nat → Prop) (hB : ∀ t, B t → ∃ u, Direct env t u ∧ B u) (t : Nat) (ht : B t)
    (ks : List Task) (s : St) (n : Nat) : run env n (ks ++ [.ty t]) s = none :=
  bad_run hB n _ s ⟨.ty t, by simp, .ty ht⟩

/-- `struct Node {std::shared_ptr<Node> children[2];};` cannot be described; `struct Node {std::shared_ptr<Node> child;};`
can. -/
example : (∀ n, run [.cls false [] [.arr (b "children") 1], .ptr 0] n [.ty 0] .init = none) ∧
    (run [.cls false [] [.obj (b "child") 1], .ptr 0] 20 [.ty 0] .init).isSome = true := by
  refine ⟨fun n => ?_, by decide +kernel⟩
  refine C99_fails_cycle _ (fun t => t = 0 ∨ t = 1) (fun t ht => ?_) 0 (.inl rfl) [] .init n
  rcases ht with rfl | rfl
  · exact ⟨1, .arr (a := false) (bs := []) rfl (List.mem_cons_self ..), .inr rfl⟩
  · exact ⟨0, .ptr rfl, .inl rfl⟩

/-- C99 fails for what static members and functions have, take and return: nothing is described for them. -/
theorem C99_fails_static : ∃ (env : Env) (s : St), run env 9 [.ty 0] .init = some s ∧
    env.at 0 = .cls false [] [.static (b "get") [1]] ∧ (0, b "get") ∈ s.defs ∧ 1 ∉ s.regs ∧
    env.at 1 = .cls false [] [.obj (b "x") 2] ∧ (1, b "x") ∉ s.defs :=
  ⟨[.cls false [] [.static (b "get") [1]], .cls false [] [.obj (b "x") 2], .prim], _, rfl, rfl, by decide +kernel,
    by decide +kernel, rfl, by decide +kernel⟩

/-- C99 fails for abstract classes: a function returns one, and it is not described. -/
theorem C99_fails_abstract : ∃ (env : Env) (s : St), run env 9 [.ty 0] .init = some s ∧
    env.at 0 = .cls false [] [.fn (b "get") [] 1] ∧ (0, b "get") ∈ s.defs ∧ 1 ∉ s.regs ∧
    env.at 1 = .cls true [] [.obj (b "x") 2] ∧ (1, b "x") ∉ s.defs :=
  ⟨[.cls false [] [.fn (b "get") [] 1], .cls true [] [.obj (b "x") 2], .prim], _, rfl, rfl, by decide +kernel,
    by decide +kernel, rfl, by decide +kernel⟩

/-- C99 fails for bases: a base with a constructor is there when a class derived from it has been described, and objects
of it can be made, but it has none of its members. -/
theorem C99_fails_base : ∃ (env : Env) (s : St), run env 9 [.ty 0] .init = some s ∧ env.at 0 = .cls false [1] [] ∧
    env.at 1 = .cls false [] [.obj (b "x") 2, .ctor []] ∧ 1 ∈ s.regs ∧ (1, b "__init__") ∈ s.defs ∧
    (0, b "x") ∈ s.defs ∧ (1, b "x") ∉ s.defs :=
  ⟨[.cls false [1] [], .cls false [] [.obj (b "x") 2, .ctor []], .prim], _, rfl, rfl, rfl, by decide +kernel,
    by decide +kernel, by decide +kernel, by decide +kernel⟩

end Verif.PyDef
