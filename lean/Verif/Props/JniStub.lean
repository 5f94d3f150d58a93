import Verif.JniStub
import Verif.Props.JavaObj
/-
C125: native methods of Java objects.
-/
namespace Verif.JniStub
open Verif.JavaObj C118

/-! ### Specification -/

/-- The objects made by a program, by their names. -/
def C125.news : List Op → List (Str × List Mem)
  | [] => []
  | .new o ms :: l => (o, ms) :: news l
  | .call .. :: l => news l

/-- What a method called on an object with the members `ms` has to do: the result, and the variables after. -/
inductive C125.Does (ms : List Mem) : Str → List Int → Store → Int → Store → Prop
  | put (n t p v s) : .data n t p ∈ ms → Does ms n [v] s v (fun q => if q = p then v else s q)
  | get (n t p s) : .data n t p ∈ ms → Does ms ("get".toList ++ cap n) [] s (s p) s
  | set (n t p v s) : .data n t p ∈ ms → Does ms ("set".toList ++ cap n) [v] s v (fun q => if q = p then v else s q)
  | fn (n f args s) : .meth n f ∈ ms → args.length = f.args.length → Does ms n args s (f.run args s).1 (f.run args s).2

/-- The source compiles: no function is defined twice. -/
def C125.Compiles (classes : List (Str × List Mem)) : Prop := ((genAll classes).map (·.sym)).Nodup

open C125

/-! ### Lemmas -/

mutual
private theorem regMem_more (d : Str) : ∀ (m : Mem) (j : Java), ∃ l, (regMem d m j).reg = j.reg ++ l
  | .data n t p, j => regData_more _ _ _ _
  | .cst n t, j => regData_more _ _ _ _
  | .meth n f, j => by simp only [regMem]; exact addFunctor_more _ _ _
  | .nest n ms, j => by simp only [regMem]; exact regMems_more _ ms j
private theorem regMems_more (d : Str) : ∀ (ms : List Mem) (j : Java), ∃ l, (regMems d ms j).reg = j.reg ++ l
  | [], j => ⟨[], by simp [regMems]⟩
  | m :: ms, j => by
    obtain ⟨l, h⟩ := regMem_more d m j
    obtain ⟨l', h'⟩ := regMems_more d ms (regMem d m j)
    exact ⟨l ++ l', by simp only [regMems]; rw [h', h, List.append_assoc]⟩
private theorem addFunctor_more (j : Java) (k : Str) (f : Func) : ∃ l, (addFunctor j k f).reg = j.reg ++ l := by
  unfold addFunctor
  split
  · exact ⟨[], by simp⟩
  · exact ⟨_, rfl⟩
private theorem regData_more (d : Str) (t : Ty) (f : Func) (j : Java) : ∃ l, (regData d t f j).reg = j.reg ++ l := by
  unfold regData
  simp only
  obtain ⟨a, ha⟩ := addFunctor_more (addMethod j (lastPart d) ('(' :: t.sig ++ ')' :: t.sig)) d f
  obtain ⟨b, hb⟩ := addFunctor_more (addMethod (addFunctor (addMethod j (lastPart d) ('(' :: t.sig ++ ')' :: t.sig)) d f)
    (sGet ++ cap (lastPart d)) ('(' :: ')' :: t.sig)) (firstPart d ++ '.' :: (sGet ++ cap (lastPart d))) f
  obtain ⟨c, hc⟩ := addFunctor_more (addMethod (addFunctor (addMethod (addFunctor (addMethod j (lastPart d) ('(' :: t.sig ++ ')' :: t.sig)) d f)
    (sGet ++ cap (lastPart d)) ('(' :: ')' :: t.sig)) (firstPart d ++ '.' :: (sGet ++ cap (lastPart d))) f)
    (sSet ++ cap (lastPart d)) ('(' :: t.sig ++ [')', 'V'])) (firstPart d ++ '.' :: (sSet ++ cap (lastPart d))) f
  refine ⟨a ++ b ++ c, ?_⟩
  rw [hc]
  simp only [addMethod] at hb ha ⊢
  rw [hb, ha]
  simp
end

private theorem addFunctor_cong (j j' : Java) (k : Str) (f : Func) (h : j.reg = j'.reg) :
    (addFunctor j k f).reg = (addFunctor j' k f).reg := by
  unfold addFunctor; rw [h]; split
  · exact h
  · rfl

private theorem regData_cong (d : Str) (t : Ty) (f : Func) (j j' : Java) (h : j.reg = j'.reg) :
    (regData d t f j).reg = (regData d t f j').reg := by
  unfold regData
  simp only
  refine addFunctor_cong _ _ _ _ ?_
  simp only [addMethod]
  refine addFunctor_cong _ _ _ _ ?_
  simp only
  refine addFunctor_cong _ _ _ _ ?_
  exact h

mutual
private theorem regMem_cong (d : Str) : ∀ (m : Mem) (j j' : Java), j.reg = j'.reg → (regMem d m j).reg = (regMem d m j').reg
  | .data n t p, j, j', h => regData_cong _ _ _ _ _ h
  | .cst n t, j, j', h => regData_cong _ _ _ _ _ h
  | .meth n f, j, j', h => by simp only [regMem]; exact addFunctor_cong _ _ _ _ h
  | .nest n ms, j, j', h => by simp only [regMem]; exact regMems_cong _ ms j j' h
private theorem regMems_cong (d : Str) : ∀ (ms : List Mem) (j j' : Java), j.reg = j'.reg → (regMems d ms j).reg = (regMems d ms j').reg
  | [], j, j', h => by simpa [regMems] using h
  | m :: ms, j, j', h => by
    simp only [regMems]
    exact regMems_cong d ms _ _ (regMem_cong d m j j' h)
end

private theorem regObjs_append : ∀ (a b : List (Str × List Mem)) (j : Java), regObjs (a ++ b) j = regObjs b (regObjs a j)
  | [], _, _ => rfl
  | (o, ms) :: a, b, j => by simp only [List.cons_append, regObjs]; exact regObjs_append a b _

private theorem news_append : ∀ (a b : List Op), news (a ++ b) = news a ++ news b
  | [], _ => rfl
  | .new o ms :: a, b => by simp [news, news_append a b]
  | .call .. :: a, b => by simp [news, news_append a b]

private theorem find_more {l r : List (Str × Func)} {k : Str} {f : Func}
    (h : (l.find? (fun e => e.1 == k)).map (·.2) = some f) : ((l ++ r).find? (fun e => e.1 == k)).map (·.2) = some f := by
  rw [List.find?_append]
  cases hf : l.find? (fun e => e.1 == k) with
  | none => rw [hf] at h; simp at h
  | some e => rw [hf] at h; simpa using h

/-- What is known of the program after `h`. -/
private structure Inv (S : List Stub) (h : List Op) (vm : VM) : Prop where
  stubs : vm.stubs = S
  reg : vm.reg = (regObjs (news h) ⟨[], []⟩).reg
  cache : ∀ e ∈ vm.cache, ∃ cls o n args, .call cls o n args ∈ h ∧ e.1 = jvmSym cls n ∧ ∃ st ∈ S, st.sym = e.1 ∧
    (vm.reg.find? (fun x => x.1 == o ++ '.' :: st.nm)).map (·.2) = some e.2

private theorem inv_new {S : List Stub} {h : List Op} {vm : VM} (i : Inv S h vm) (o : Str) (ms : List Mem) :
    Inv S (h ++ [.new o ms]) (newObj o ms vm) := by
  have hr : (newObj o ms vm).reg = (regMems o ms ⟨[], vm.reg⟩).reg := rfl
  refine ⟨i.stubs, ?_, ?_⟩
  · rw [hr, news_append, regObjs_append]
    simp only [news, regObjs]
    exact regMems_cong _ _ _ _ i.reg
  · intro e he
    obtain ⟨cls, o', n, args, h1, h2, st, h3, h4, h5⟩ := i.cache e he
    refine ⟨cls, o', n, args, List.mem_append_left _ h1, h2, st, h3, h4, ?_⟩
    obtain ⟨l, hl⟩ := regMems_more o ms ⟨[], vm.reg⟩
    rw [hr, hl]
    exact find_more h5

private theorem invoke_ok {vm vm' : VM} {cls o n : Str} {args : List Int} {v : Int} (h : invoke vm cls o n args = .ok v vm') :
    ∃ st f s, vm.stubs.find? (fun s => s.sym == jvmSym cls n) = some st ∧ target vm st o = some f ∧
      runF f (args.take st.nargs) vm.store = .ok v s ∧ vm' = { vm with cache := remember vm st.sym f, store := s } := by
  unfold invoke at h
  split at h
  · simp at h
  · rename_i st hst
    split at h
    · simp at h
    · rename_i f hf
      split at h
      · rename_i v' s hs
        simp only [Out.ok.injEq] at h
        exact ⟨st, f, s, hst, hf, by rw [hs, h.1], h.2.symm⟩
      · simp at h

private theorem inv_call {S : List Stub} {h : List Op} {vm vm' : VM} (i : Inv S h vm) {cls o n : Str} {args : List Int} {v : Int}
    (hi : invoke vm cls o n args = .ok v vm') : Inv S (h ++ [.call cls o n args]) vm' := by
  obtain ⟨st, f, s, h1, h2, h3, rfl⟩ := invoke_ok hi
  refine ⟨i.stubs, ?_, ?_⟩
  · rw [news_append]; simpa [news] using i.reg
  · intro e he
    have old : e ∈ vm.cache → ∃ cls' o' n' args', .call cls' o' n' args' ∈ h ++ [.call cls o n args]
        ∧ e.1 = jvmSym cls' n' ∧ ∃ st ∈ S, st.sym = e.1 ∧ (vm.reg.find? (fun x => x.1 == o' ++ '.' :: st.nm)).map (·.2) = some e.2 := by
      intro he
      obtain ⟨cls, o', n, args, h1, h2, st, h3, h4, h5⟩ := i.cache e he
      exact ⟨cls, o', n, args, List.mem_append_left _ h1, h2, st, h3, h4, h5⟩
    unfold remember at he
    cases hc : vm.cache.find? (fun e => e.1 == st.sym) with
    | some x =>
      simp only [hc] at he
      exact old he
    | none =>
      simp only [hc, List.mem_append, List.mem_singleton] at he
      rcases he with he | rfl
      · exact old he
      · have hs : st.sym = jvmSym cls n := by simpa using List.find?_some h1
        refine ⟨cls, o, n, args, by simp, hs, st, i.stubs ▸ List.mem_of_find?_eq_some h1, rfl, ?_⟩
        unfold target at h2
        rw [hc] at h2
        exact h2

private theorem inv_exec {S : List Stub} : ∀ (l h : List Op) (vm vm' : VM), Inv S h vm → exec l vm = some vm' → Inv S (h ++ l) vm'
  | [], h, vm, vm', i, e => by simp [exec] at e; subst e; simpa using i
  | .new o ms :: l, h, vm, vm', i, e => by
    have := inv_exec l _ _ vm' (inv_new i o ms) (by simpa [exec] using e)
    simpa using this
  | .call cls o n args :: l, h, vm, vm', i, e => by
    simp only [exec] at e
    split at e
    · rename_i v vm1 hi
      have := inv_exec l _ _ vm' (inv_call i hi) e
      simpa using this
    · simp at e

private theorem mangle_id : ∀ {n : Str}, '_' ∉ n → mangle n = n
  | [], _ => rfl
  | c :: n, h => by
    simp only [List.mem_cons, not_or] at h
    simp [mangle, Ne.symm h.1, mangle_id h.2]

private theorem split_ : ∀ {x y a c : Str}, '_' ∉ x → '_' ∉ y → x ++ '_' :: a = y ++ '_' :: c → x = y ∧ a = c
  | [], [], _, _, _, _, h => ⟨rfl, by simpa using h⟩
  | [], d :: y, _, _, _, hy, h => by
    simp at h; exact absurd h.1 (by simp at hy; exact hy.1)
  | d :: x, [], _, _, hx, _, h => by
    simp at h; exact absurd h.1.symm (by simp at hx; exact hx.1)
  | d :: x, e :: y, _, _, hx, hy, h => by
    simp at h hx hy
    obtain ⟨h1, h2⟩ := split_ hx.2 hy.2 h.2
    exact ⟨by rw [h.1, h1], h2⟩

private theorem sym_inj {cls n cls' n' : Str} (h1 : '_' ∉ cls ∧ '_' ∉ n) (h2 : '_' ∉ cls' ∧ '_' ∉ n') (h : jvmSym cls n = jvmSym cls' n') :
    cls = cls' ∧ n = n' := by
  unfold jvmSym at h
  rw [mangle_id h1.1, mangle_id h1.2, mangle_id h2.1, mangle_id h2.2, List.append_assoc, List.append_assoc] at h
  exact split_ h1.1 h2.1 (List.append_cancel_left h)

private theorem call_runF (j : Java) (k : Str) (args : List Int) (s : Store) :
    call j k args s = match j.reg.find? (fun e => e.1 == k) with
      | none => .ub
      | some e => runF e.2 args s := by
  unfold call
  cases j.reg.find? (fun e => e.1 == k) with
  | none => rfl
  | some e =>
    obtain ⟨k', f⟩ := e
    cases f <;> rfl

private theorem nargs_fn (f : Fn) : ((f.sig.drop 1).takeWhile (· != ')')).length = f.args.length := by
  have h1 : ∀ l : List Ty, ((l.map Ty.sig).flatten).length = l.length ∧ ∀ c ∈ (l.map Ty.sig).flatten, (c != ')') = true := by
    intro l
    induction l with
    | nil => simp
    | cons t l ih =>
      cases t <;> simp only [List.map_cons, List.flatten_cons, Ty.sig, List.length_append, List.length_cons, List.length_nil, ih.1,
        List.mem_append, List.mem_singleton] <;> refine ⟨by omega, ?_⟩ <;> rintro c (rfl | h)
      · decide
      · exact ih.2 c h
      · decide
      · exact ih.2 c h
  have h2 := h1 f.args
  simp only [Fn.sig, List.cons_append, List.drop_succ_cons, List.drop_zero]
  rw [List.takeWhile_append_of_pos h2.2]
  simpa using h2.1

private theorem gen_mem {cls d : Str} {ms : List Mem} {m : Mem} (hm : m ∈ ms) (hd : '.' ∉ nameOf m) {n sig : Str}
    (h : (n, sig) ∈ declares m) : ⟨sJava ++ cls ++ '_' :: n, n, ((sig.drop 1).takeWhile (· != ')')).length⟩ ∈ genMems cls d ms := by
  induction ms with
  | nil => simp at hm
  | cons a ms ih =>
    simp only [genMems, List.mem_append]
    rcases List.mem_cons.1 hm with rfl | hm
    · left
      cases m with
      | data x t p =>
        have hd' : '.' ∉ x := hd
        have hg : '.' ∉ sGet ++ cap x := by simp [sGet, cap_dot hd']
        have hs : '.' ∉ sSet ++ cap x := by simp [sSet, cap_dot hd']
        simp only [declares, List.mem_cons, List.not_mem_nil, or_false, Prod.mk.injEq] at h
        simp only [genMem, genData, genStub, lastPart_dot hd', firstPart_dot hd', lastPart_dot hg, lastPart_dot hs, List.mem_cons,
          List.not_mem_nil, or_false]
        rcases h with ⟨rfl, rfl⟩ | ⟨rfl, rfl⟩ | ⟨rfl, rfl⟩
        · left; cases t <;> rfl
        · right; left; cases t <;> rfl
        · right; right; cases t <;> rfl
      | cst x t =>
        have hd' : '.' ∉ x := hd
        have hg : '.' ∉ sGet ++ cap x := by simp [sGet, cap_dot hd']
        have hs : '.' ∉ sSet ++ cap x := by simp [sSet, cap_dot hd']
        simp only [declares, List.mem_cons, List.not_mem_nil, or_false, Prod.mk.injEq] at h
        simp only [genMem, genData, genStub, lastPart_dot hd', firstPart_dot hd', lastPart_dot hg, lastPart_dot hs, List.mem_cons,
          List.not_mem_nil, or_false]
        rcases h with ⟨rfl, rfl⟩ | ⟨rfl, rfl⟩ | ⟨rfl, rfl⟩
        · left; cases t <;> rfl
        · right; left; cases t <;> rfl
        · right; right; cases t <;> rfl
      | meth x f =>
        have hd' : '.' ∉ x := hd
        simp only [declares, descr_sig, List.mem_singleton, Prod.mk.injEq] at h
        obtain ⟨rfl, rfl⟩ := h
        simp only [genMem, genStub, lastPart_dot hd', List.mem_singleton]
      | nest x ms' => simp [declares] at h
    · exact .inr (ih hm)

/-- Each thing done is by a method declared with as many arguments, and done by the functor registered. -/
private theorem does_call {objs : List (Str × List Mem)} (hn : (objs.map (·.1)).Nodup)
    (ho : ∀ e ∈ objs, '.' ∉ e.1 ∧ Good e.2) {o : Str} {ms : List Mem} (h : (o, ms) ∈ objs) {n : Str} {args : List Int} {s s' : Store}
    {v : Int} (hd : Does ms n args s v s') :
    (∃ m ∈ ms, ∃ sig, (n, sig) ∈ declares m ∧ ((sig.drop 1).takeWhile (· != ')')).length = args.length)
    ∧ call (regObjs objs ⟨[], []⟩) (o ++ '.' :: n) args s = .ok v s' := by
  cases hd
  · rename_i t p hm
    exact ⟨⟨_, hm, descr [t] (some t), by simp [declares], by cases t <;> rfl⟩,
      (C118_variables_partial hn ho h (.here _ _ _ hm) [] s v).2.1⟩
  · rename_i n t p hm
    exact ⟨⟨_, hm, descr [] (some t), by simp [declares], by cases t <;> rfl⟩,
      (C118_variables_partial hn ho h (.here _ _ _ hm) [] s 0).2.2.1⟩
  · rename_i n t p hm
    exact ⟨⟨_, hm, descr [t] none, by simp [declares], by cases t <;> rfl⟩,
      (C118_variables_partial hn ho h (.here _ _ _ hm) [] s v).2.2.2⟩
  · rename_i f hm hl
    refine ⟨⟨_, hm, f.sig, by simp [declares, descr_sig], by rw [nargs_fn, hl]⟩, ?_⟩
    have := C118_functions_partial hn ho h (.here _ _ _ hm) [] s args [] hl
    simpa using this

private theorem find_stub {S : List Stub} (hn : (S.map (·.sym)).Nodup) {st : Stub} (h : st ∈ S) :
    S.find? (fun s => s.sym == st.sym) = some st := by
  induction S with
  | nil => simp at h
  | cons a S ih =>
    simp only [List.map_cons, List.nodup_cons] at hn
    rcases List.mem_cons.1 h with rfl | h
    · simp
    · have : a.sym ≠ st.sym := fun e => hn.1 (e ▸ List.mem_map.2 ⟨st, h, rfl⟩)
      rw [List.find?_cons_of_neg (by simpa using this)]
      exact ih hn.2 h

/-! ### C125 -/

/-- C125, partial: whatever a program has done before, a native method called on an object does to that object what the C++ member
does, with the arguments given.  Partial: names without underscores, and the method has been called on no other object before; see
below for both. -/
theorem C125_call_partial {classes : List (Str × List Mem)} (hc : Compiles classes) {h : List Op} {s0 : Store} {vm : VM}
    (hr : exec h ⟨genAll classes, [], [], s0⟩ = some vm) (hn : ((news h).map (·.1)).Nodup)
    (ho : ∀ e ∈ news h, '.' ∉ e.1 ∧ Good e.2) (hp : ∀ cls o n args, .call cls o n args ∈ h → '_' ∉ cls ∧ '_' ∉ n)
    {cls o n : Str} {ms ms0 : List Mem} (hcls : (cls, ms0) ∈ classes) (hg : Good ms0) (hobj : (o, ms) ∈ news h)
    (hsame : ms.map declares = ms0.map declares) (hu : '_' ∉ cls ∧ '_' ∉ n)
    (hfirst : ∀ o' args, .call cls o' n args ∈ h → o' = o) {args : List Int} {v : Int} {s' : Store} (hd : Does ms n args vm.store v s') :
    ∃ vm', invoke vm cls o n args = .ok v vm' ∧ vm'.store = s' := by
  have i : Inv (genAll classes) h vm := by
    have := inv_exec (S := genAll classes) h [] ⟨genAll classes, [], [], s0⟩ vm ⟨rfl, rfl, by simp⟩ hr
    simpa using this
  obtain ⟨⟨m, hm, sig, hsig, hlen⟩, hcall⟩ := does_call hn ho hobj hd
  obtain ⟨m0, hm0, he0⟩ : ∃ m0 ∈ ms0, declares m0 = declares m := by
    have : declares m ∈ ms0.map declares := hsame ▸ List.mem_map.2 ⟨m, hm, rfl⟩
    simpa using this
  have hd0 : '.' ∉ nameOf m0 := by cases hg with | mk _ _ h _ => exact h m0 hm0
  have hst := gen_mem (cls := cls) (d := cls) hm0 hd0 (he0 ▸ hsig)
  have hstS : (⟨sJava ++ cls ++ '_' :: n, n, ((sig.drop 1).takeWhile (· != ')')).length⟩ : Stub) ∈ genAll classes :=
    List.mem_flatMap.2 ⟨_, hcls, hst⟩
  generalize hste : (⟨sJava ++ cls ++ '_' :: n, n, ((sig.drop 1).takeWhile (· != ')')).length⟩ : Stub) = st at hstS
  have hsym : st.sym = jvmSym cls n := by rw [← hste, jvmSym, mangle_id hu.1, mangle_id hu.2]
  have hnm : st.nm = n := by rw [← hste]
  have hna : st.nargs = args.length := by rw [← hste]; exact hlen
  have hfind : vm.stubs.find? (fun s => s.sym == jvmSym cls n) = some st := by
    rw [i.stubs, ← hsym]; exact find_stub hc hstS
  rw [call_runF, ← i.reg] at hcall
  cases hf : vm.reg.find? (fun e => e.1 == o ++ '.' :: n) with
  | none => rw [hf] at hcall; simp at hcall
  | some e =>
    rw [hf] at hcall
    simp only at hcall
    have ht : target vm st o = some e.2 := by
      unfold target
      cases hcache : vm.cache.find? (fun e => e.1 == st.sym) with
      | none => rw [hnm, hf]; rfl
      | some x =>
        obtain ⟨cls', o', n', args', h1, h2, st', h3, h4, h5⟩ := i.cache x (List.mem_of_find?_eq_some hcache)
        have hx : x.1 = st.sym := by simpa using List.find?_some hcache
        obtain ⟨rfl, rfl⟩ := sym_inj hu (hp _ _ _ _ h1) (by rw [← hsym, ← hx, h2])
        have := hfirst _ _ h1
        subst this
        have e1 := find_stub hc h3
        rw [h4, hx, find_stub hc hstS] at e1
        simp only [Option.some.injEq] at e1
        subst e1
        rw [hnm, hf] at h5
        simpa using h5.symm
    refine ⟨{ vm with cache := remember vm st.sym e.2, store := s' }, ?_, rfl⟩
    unfold invoke
    rw [hfind]
    simp only [ht, hna, List.take_length]
    rw [hcall]

/-- C125 fails with two objects of a class: once a method has been called on one, calling it on any other is calling it on the
first. -/
theorem C125_fails_second {vm vm1 : VM} {cls o1 n : Str} {args : List Int} {v : Int} (h : invoke vm cls o1 n args = .ok v vm1)
    (o2 : Str) (args2 : List Int) : invoke vm1 cls o2 n args2 = invoke vm1 cls o1 n args2 := by
  obtain ⟨st, f, s, h1, h2, h3, rfl⟩ := invoke_ok h
  have hc : ∃ e, (remember vm st.sym f).find? (fun e => e.1 == st.sym) = some e := by
    unfold remember
    cases hc : vm.cache.find? (fun e => e.1 == st.sym) with
    | some e => exact ⟨e, hc⟩
    | none => exact ⟨(st.sym, f), by simp only [List.find?_append, hc]; simp⟩
  obtain ⟨e, hc⟩ := hc
  unfold invoke
  simp only [h1, target, hc]

/-- C125 fails for names with underscores: Java does not look for the function written for it. -/
theorem C125_fails_underscore (cls n d sig : Str) (h1 : '_' ∉ cls) (h2 : '_' ∈ n) (h3 : '.' ∉ n) :
    (genStub cls (d ++ '.' :: n) sig).sym ≠ jvmSym cls n := by
  have hl : ∀ x : Str, x.length ≤ (mangle x).length := by
    intro x
    induction x with
    | nil => simp [mangle]
    | cons c x ih => simp only [mangle]; split <;> simp <;> omega
  have hlt : ∀ x : Str, '_' ∈ x → x.length < (mangle x).length := by
    intro x
    induction x with
    | nil => simp
    | cons c x ih =>
      intro hx
      have := hl x
      simp only [mangle]
      split
      · simp; omega
      · rename_i hne
        have : '_' ∈ x := by simpa [Ne.symm hne] using hx
        have := ih this
        simp; omega
  intro e
  simp only [genStub, lastPart_dot h3, jvmSym, mangle_id h1] at e
  have := congrArg List.length e
  have := hlt n h2
  simp at *
  omega

/-- The function called may then be another's: with `f_1x` also a method, Java's `f_x` is C++'s `f_1x`. -/
theorem C125_fails_confused (cls d n m sig : Str) (h1 : '_' ∉ cls) (h2 : '_' ∉ n) (h3 : '_' ∉ m) (h4 : '.' ∉ n) (h5 : '.' ∉ m) :
    (genStub cls (d ++ '.' :: (n ++ '_' :: '1' :: m)) sig).sym = jvmSym cls (n ++ '_' :: m) := by
  have hd : '.' ∉ n ++ '_' :: '1' :: m := by simp [h4, h5]
  have : mangle (n ++ '_' :: m) = n ++ '_' :: '1' :: m := by
    clear hd h4 h5 h1
    induction n with
    | nil => simp [mangle, mangle_id h3]
    | cons c n ih =>
      simp only [List.mem_cons, not_or] at h2
      simp [mangle, Ne.symm h2.1, ih h2.2]
  simp only [genStub, lastPart_dot hd, jvmSym, mangle_id h1, this]

private theorem gen_syms {cls d : Str} : ∀ {ms : List Mem}, (∀ m ∈ ms, '.' ∉ nameOf m) → (∀ n ms', .nest n ms' ∉ ms) →
    (genMems cls d ms).map (·.sym) = (ms.flatMap offers).map fun n => sJava ++ cls ++ '_' :: n
  | [], _, _ => by simp [genMems]
  | m :: ms, hd, hn => by
    simp only [genMems, List.map_append, List.flatMap_cons]
    rw [gen_syms (fun x hx => hd x (by simp [hx])) fun n ms' hx => hn n ms' (by simp [hx])]
    congr 1
    cases m with
    | data x t p =>
      have hd' : '.' ∉ x := hd (.data x t p) (by simp)
      have hg : '.' ∉ sGet ++ cap x := by simp [sGet, cap_dot hd']
      have hs : '.' ∉ sSet ++ cap x := by simp [sSet, cap_dot hd']
      simp only [genMem, genData, genStub, lastPart_dot hd', firstPart_dot hd', lastPart_dot hg, lastPart_dot hs, offers, List.map]
      rfl
    | cst x t =>
      have hd' : '.' ∉ x := hd (.cst x t) (by simp)
      have hg : '.' ∉ sGet ++ cap x := by simp [sGet, cap_dot hd']
      have hs : '.' ∉ sSet ++ cap x := by simp [sSet, cap_dot hd']
      simp only [genMem, genData, genStub, lastPart_dot hd', firstPart_dot hd', lastPart_dot hg, lastPart_dot hs, offers, List.map]
      rfl
    | meth x f =>
      have hd' : '.' ∉ x := hd (.meth x f) (by simp)
      simp only [genMem, genStub, lastPart_dot hd', offers, List.map]
    | nest n ms' => exact absurd (by simp) (hn n ms')

private theorem nodup_map {α β : Type} {f : α → β} (hf : ∀ a b, f a = f b → a = b) : ∀ {l : List α}, l.Nodup → (l.map f).Nodup
  | [], _ => by simp
  | a :: l, h => by
    simp only [List.nodup_cons, List.map_cons] at h ⊢
    refine ⟨?_, nodup_map hf h.2⟩
    intro hm
    obtain ⟨b, hb, e⟩ := List.mem_map.1 hm
    exact h.1 (hf _ _ e ▸ hb)

/-- C125, partial: the functions written for any number of classes compile, where no two members of a class are to be found under the
same name, class names have no underscores and members are not of class type. -/
theorem C125_compiles_partial : ∀ {classes : List (Str × List Mem)}, (classes.map (·.1)).Nodup →
    (∀ e ∈ classes, '_' ∉ e.1 ∧ Good e.2 ∧ ∀ n ms', .nest n ms' ∉ e.2) → Compiles classes
  | [], _, _ => by simp [Compiles, genAll]
  | e :: l, hn, h => by
    simp only [List.map_cons, List.nodup_cons] at hn
    have ih := C125_compiles_partial hn.2 fun x hx => h x (by simp [hx])
    have syms : ∀ x ∈ e :: l, (genMems x.1 x.1 x.2).map (·.sym) = (x.2.flatMap offers).map fun n => sJava ++ x.1 ++ '_' :: n := by
      intro x hx
      have := (h x hx).2
      exact gen_syms (by cases this.1 with | mk _ _ h _ => exact h) this.2
    unfold Compiles at ih ⊢
    simp only [genAll, List.flatMap_cons, List.map_append] at ih ⊢
    rw [List.nodup_append]
    refine ⟨?_, ih, ?_⟩
    · rw [syms e (by simp)]
      refine nodup_map (fun a b hab => by simpa using hab) ?_
      cases (h e (by simp)).2.1 with | mk _ h _ _ => exact h
    · intro a ha b hb hab
      subst hab
      rw [syms e (by simp)] at ha
      obtain ⟨n, -, rfl⟩ := List.mem_map.1 ha
      obtain ⟨st, hst, he⟩ := List.mem_map.1 hb
      obtain ⟨x, hx, hst⟩ := List.mem_flatMap.1 hst
      have : st.sym ∈ (genMems x.1 x.1 x.2).map (·.sym) := List.mem_map.2 ⟨st, hst, rfl⟩
      rw [syms x (by simp [hx]), he] at this
      obtain ⟨n', -, e'⟩ := List.mem_map.1 this
      rw [List.append_assoc, List.append_assoc] at e'
      have := (split_ (h x (by simp [hx])).1 (h e (by simp)).1 (List.append_cancel_left e')).1
      exact hn.1 (List.mem_map.2 ⟨x, hx, this⟩)

private theorem addFunctor_mem {j : Java} {k : Str} {f : Func} {e : Str × Func} (h : e ∈ (addFunctor j k f).reg) :
    e ∈ j.reg ∨ e = (k, f) := by
  unfold addFunctor at h
  split at h
  · exact .inl h
  · simpa using h

private theorem regData_mem {d n : Str} (hn : '.' ∉ n) {t : Ty} {f : Func} {j : Java} {e : Str × Func}
    (h : e ∈ (regData (d ++ '.' :: n) t f j).reg) : e ∈ j.reg ∨ ∃ y, e.1 = d ++ '.' :: y := by
  simp only [regData, lastPart_dot hn, firstPart_dot hn] at h
  rcases addFunctor_mem h with h | rfl
  · rcases addFunctor_mem h with h | rfl
    · rcases addFunctor_mem h with h | rfl
      · exact .inl h
      · exact .inr ⟨_, rfl⟩
    · exact .inr ⟨_, rfl⟩
  · exact .inr ⟨_, rfl⟩

/-- C125 fails for members of class type: a method for a variable `x` inside of a member `b`, which Java is offered, is undefined when
called on any object. -/
theorem C125_fails_nested (cls o b x : Str) (t : Ty) (p : Nat) (s : Store) (args : List Int) (hx : '.' ∉ x) (hu : '_' ∉ cls ∧ '_' ∉ x) :
    invoke (newObj o [.nest b [.data x t p]] ⟨genAll [(cls, [.nest b [.data x t p]])], [], [], s⟩) cls o x args = .ub := by
  have hsym : jvmSym cls x = sJava ++ cls ++ '_' :: x := by rw [jvmSym, mangle_id hu.1, mangle_id hu.2]
  have hreg : ∀ e ∈ (newObj o [.nest b [.data x t p]] ⟨genAll [(cls, [.nest b [.data x t p]])], [], [], s⟩).reg,
      ∃ y, e.1 = (o ++ '.' :: b) ++ '.' :: y := by
    intro e he
    simp only [newObj, regMems, regMem] at he
    rcases regData_mem hx he with he | h
    · simp at he
    · exact h
  unfold invoke
  rw [hsym]
  have hstub : (newObj o [.nest b [.data x t p]] ⟨genAll [(cls, [.nest b [.data x t p]])], [], [], s⟩).stubs.find?
      (fun st => st.sym == sJava ++ cls ++ '_' :: x) = some (genStub cls ((cls ++ '.' :: b) ++ '.' :: x) ('(' :: t.sig ++ ')' :: t.sig)) := by
    simp only [newObj, genAll, List.flatMap_cons, List.flatMap_nil, genMems, genMem, genData, List.append_nil]
    rw [List.find?_cons_of_pos]
    have := lastPart_dot hx (cls ++ '.' :: b)
    simp only [genStub, this, beq_self_eq_true]
  rw [hstub]
  simp only [target]
  have hnm : (genStub cls ((cls ++ '.' :: b) ++ '.' :: x) ('(' :: t.sig ++ ')' :: t.sig)).nm = x := lastPart_dot hx _
  rw [hnm]
  have hnone : (newObj o [.nest b [.data x t p]] ⟨genAll [(cls, [.nest b [.data x t p]])], [], [], s⟩).reg.find?
      (fun e => e.1 == o ++ '.' :: x) = none := by
    rw [List.find?_eq_none]
    intro e he
    obtain ⟨y, hy⟩ := hreg e he
    rw [hy]
    simp only [beq_iff_eq, List.append_assoc, List.cons_append]
    intro h
    have := List.append_cancel_left h
    simp only [List.cons.injEq, true_and] at this
    exact hx (this ▸ (by simp))
  rw [hnone]
  rfl

/-! A class `F` with a variable `x` and a method adding to it; two objects. -/

private def foo (p : Nat) : List Mem := [.data ['x'] .int p, .meth ['f'] ⟨[.int], some .int, fun a s => (s p + a.headD 0, s)⟩]

private theorem fooGood (p : Nat) : Good (foo p) :=
  .mk _ (by simp [foo, offers]) (by simp [foo, nameOf]) (by simp [foo])

private theorem fooCompiles : Compiles [(['F'], foo 0)] :=
  C125_compiles_partial (by simp) (by
    intro e he
    simp at he
    subst he
    exact ⟨by decide, fooGood 0, by simp [foo]⟩)

/-- After `x` has been set in one object, `f` is called on the other. -/
example (s : Store) : ∃ vm vm', exec [.new ['a'] (foo 0), .new ['b'] (foo 1), .call ['F'] ['a'] ['x'] [7]] ⟨genAll [(['F'], foo 0)], [], [], s⟩ = some vm
    ∧ invoke vm ['F'] ['b'] ['f'] [3] = .ok (s 1 + 3) vm' := by
  let h : List Op := [.new ['a'] (foo 0), .new ['b'] (foo 1), .call ['F'] ['a'] ['x'] [7]]
  obtain ⟨vm, hvm, hst⟩ : ∃ vm, exec h ⟨genAll [(['F'], foo 0)], [], [], s⟩ = some vm ∧ vm.store 1 = s 1 := ⟨_, rfl, rfl⟩
  obtain ⟨vm', h1, -⟩ := C125_call_partial fooCompiles hvm (by decide) (by
      intro e he
      simp [h, news] at he
      rcases he with rfl | rfl
      · exact ⟨by decide, fooGood 0⟩
      · exact ⟨by decide, fooGood 1⟩)
    (by intro cls o n args hm; simp [h] at hm; obtain ⟨rfl, rfl, rfl, rfl⟩ := hm; decide)
    (cls := ['F']) (o := ['b']) (n := ['f']) (ms := foo 1) (ms0 := foo 0) (by simp) (fooGood 0) (by simp [h, news]) rfl (by decide)
    (by intro o' args hm; simp [h] at hm) (.fn ['f'] ⟨[.int], some .int, fun a s => (s 1 + a.headD 0, s)⟩ [3] vm.store
      (by simp [foo]) rfl)
  refine ⟨vm, vm', hvm, ?_⟩
  rw [h1]
  simp [hst]

/-- Reading `x` of the first object and then of the second gives that of the first twice. -/
example (s : Store) : ∃ vm vm', exec [.new ['a'] (foo 0), .new ['b'] (foo 1), .call ['F'] ['a'] ['g', 'e', 't', 'X'] []]
      ⟨genAll [(['F'], foo 0)], [], [], s⟩ = some vm
    ∧ invoke vm ['F'] ['b'] ['g', 'e', 't', 'X'] [] = .ok (s 0) vm' := ⟨_, _, rfl, rfl⟩

/-- C125 fails for names with an underscore: Java does not find the function written for the only member of a class, whatever the object. -/
theorem C125_fails_unlinked (cls x o : Str) (f : Fn) (s : Store) (args : List Int) (h1 : '_' ∉ cls) (h2 : '_' ∈ x) (h3 : '.' ∉ x) :
    invoke (newObj o [.meth x f] ⟨genAll [(cls, [.meth x f])], [], [], s⟩) cls o x args = .unlinked := by
  have := C125_fails_underscore cls x cls f.sig h1 h2 h3
  simp [invoke, newObj, genAll, genMems, genMem, this]

end Verif.JniStub
