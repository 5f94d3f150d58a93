import Verif.Props.RestObj
import Verif.Props.RestList
/-
C88, continued: what arguments of other types do to a variable.
-/
namespace Verif.Rest
open OMap
open Verif.Json (J dot Oc Lib Err)
open EnumKeys
open C88

/-- A number: an integer, or a truth value. -/
inductive C88.Num : J → Int → Prop
  | int {i} : InRange int64 i → C88.Num (.int i) i
  | true : C88.Num (.bool true) 1
  | false : C88.Num (.bool false) 0

/-- What C++ makes of a number that is assigned to a variable of another arithmetic type. -/
inductive C88.Becomes (env : Env) : VK → J → VV → Prop
  | toInt {u j n} : Num j n → InRange u n → C88.Becomes env (.int u) j (.int n)
  | toBool {j n} : Num j n → n ≠ 0 → C88.Becomes env .bool j (.bool true)
  | toFalse {j} : Num j 0 → C88.Becomes env .bool j (.bool false)
  | toReal {j n} : Num j n → C88.Becomes env .real j (.real (env.lib.ofInt n))
  | trunc {u r i} : env.trunc u r = some i → C88.Becomes env (.int u) (.real r) (.int i)
  | realBool {r} : r ≠ env.lib.ofInt 0 → C88.Becomes env .bool (.real r) (.bool true)
  | realFalse : C88.Becomes env .bool (.real (env.lib.ofInt 0)) (.bool false)

private theorem conv_becomes {env : Env} {k : VK} {j : J} {v : VV} (h : Becomes env k j v) (w : VV) :
    convVar env.lib env.trunc k j w = (.ok, v) ∧ j ≠ .null ∧ ∀ l, j ≠ .arr l := by
  cases h with
  | toInt hn hr => cases hn <;> simp_all [convVar, cast_of_inRange]
  | toBool hn hr => cases hn <;> simp_all [convVar, cast_of_inRange]
  | toFalse hn =>
    cases hn with
    | int h => exact ⟨by simp [convVar, cast_of_inRange h], by simp, by simp⟩
    | false => simp [convVar]
  | toReal hn => cases hn <;> simp_all [convVar, cast_of_inRange]
  | trunc ht => simp [convVar, ht]
  | realBool hr => simp [convVar, hr]
  | realFalse => simp [convVar]

/-- A path to an arithmetic variable, and a number or truth value (or a list beginning with one): the variable, and nothing else,
has the value C++ converts it to, and is returned. -/
theorem C88_convert_partial {env : Env} {objs : List (Str × O)} (h : Repo env objs) {d : Str} {o : O} {ns : List Str}
    (hm : (d, o) ∈ objs) {k : VK} {a : Nat} (hr : Reach env o ns (.var k a)) {j : J} {v : VV} (hf : Becomes env k j v) (l : List J) :
    ∃ n0, ∀ n, n0 ≤ n → ∀ m, ∃ m', m' a = v ∧ (∀ x, x ≠ a → m' x = m x) ∧
      query env n objs (d ++ rd ns) j m = (.ref (.var k a), m') ∧
      query env n objs (d ++ rd ns) (.arr (j :: l)) m = (.ref (.var k a), m') := by
  obtain ⟨n0, h0⟩ := arrive h hm hr 3
  refine ⟨n0, fun n hn m => ⟨m.put a v, by simp [Mem.put], fun x hx => by simp [Mem.put, hx], ?_, ?_⟩⟩
  · obtain ⟨n', h1, h2⟩ := h0 n hn j m
    obtain ⟨n', rfl⟩ : ∃ j, n' = j + 3 := ⟨n' - 3, by omega⟩
    rw [h2]
    obtain ⟨c1, c2, c3⟩ := conv_becomes hf (m a)
    simp only [nodeProc, objProc, if_true]
    cases j with
    | null => exact absurd rfl c2
    | arr l => exact absurd rfl (c3 l)
    | _ => simp [convO, c1, after']
  · obtain ⟨n', h1, h2⟩ := h0 n hn (.arr (j :: l)) m
    obtain ⟨n', rfl⟩ : ∃ j, n' = j + 3 := ⟨n' - 3, by omega⟩
    rw [h2]
    obtain ⟨c1, c2, c3⟩ := conv_becomes hf (m a)
    simp [nodeProc, objProc, convO, c1, after']

/-- A string given to an arithmetic variable (or a list beginning with one) is refused: an exception, and nothing changed. -/
theorem C88_refused {env : Env} {objs : List (Str × O)} (h : Repo env objs) {d : Str} {o : O} {ns : List Str}
    (hm : (d, o) ∈ objs) {k : VK} {a : Nat} (hr : Reach env o ns (.var k a)) (hk : k ≠ .str) (s : Str) (l : List J) :
    ∃ n0, ∀ n, n0 ≤ n → ∀ m, query env n objs (d ++ rd ns) (.str s) m = (.throw, m) ∧
      query env n objs (d ++ rd ns) (.arr (.str s :: l)) m = (.throw, m) := by
  obtain ⟨n0, h0⟩ := arrive h hm hr 3
  have hp : ∀ m : Mem, m.put a (m a) = m := by intro m; funext x; by_cases hx : x = a <;> simp [Mem.put, hx]
  refine ⟨n0, fun n hn m => ⟨?_, ?_⟩⟩
  · obtain ⟨n', h1, h2⟩ := h0 n hn (.str s) m
    obtain ⟨n', rfl⟩ : ∃ j, n' = j + 3 := ⟨n' - 3, by omega⟩
    rw [h2]
    cases k <;> first | exact absurd rfl hk | simp [nodeProc, objProc, convO, convVar, after', hp]
  · obtain ⟨n', h1, h2⟩ := h0 n hn (.arr (.str s :: l)) m
    obtain ⟨n', rfl⟩ : ∃ j, n' = j + 3 := ⟨n' - 3, by omega⟩
    rw [h2]
    cases k <;> first | exact absurd rfl hk | simp [nodeProc, objProc, convO, convVar, after', hp]

/-- An empty list of arguments is no argument; None among the arguments changes nothing. -/
theorem C88_no_argument {env : Env} {objs : List (Str × O)} (h : Repo env objs) {d : Str} {o : O} {ns : List Str}
    (hm : (d, o) ∈ objs) {k : VK} {a : Nat} (hr : Reach env o ns (.var k a)) (l : List J) :
    ∃ n0, ∀ n, n0 ≤ n → ∀ m, query env n objs (d ++ rd ns) (.arr []) m = (.ref (.var k a), m) ∧
      query env n objs (d ++ rd ns) (.arr (.null :: l)) m = (.ref (.var k a), m) ∧
      query env n objs (d ++ rd ns) (.arr (.arr [] :: l)) m = (.ref (.var k a), m) := by
  obtain ⟨n0, h0⟩ := arrive h hm hr 3
  have hp : ∀ m : Mem, m.put a (m a) = m := by intro m; funext x; by_cases hx : x = a <;> simp [Mem.put, hx]
  refine ⟨n0, fun n hn m => ⟨?_, ?_, ?_⟩⟩
  · obtain ⟨n', h1, h2⟩ := h0 n hn (.arr []) m
    obtain ⟨n', rfl⟩ : ∃ j, n' = j + 3 := ⟨n' - 3, by omega⟩
    rw [h2]
    simp [nodeProc, objProc]
  · obtain ⟨n', h1, h2⟩ := h0 n hn (.arr (.null :: l)) m
    obtain ⟨n', rfl⟩ : ∃ j, n' = j + 3 := ⟨n' - 3, by omega⟩
    rw [h2]
    simp [nodeProc, objProc, convO, convVar, after', hp]
  · obtain ⟨n', h1, h2⟩ := h0 n hn (.arr (.arr [] :: l)) m
    obtain ⟨n', rfl⟩ : ∃ j, n' = j + 3 := ⟨n' - 3, by omega⟩
    rw [h2]
    simp [nodeProc, objProc, convO, convVar, after', hp]

/-- Any number or truth value given to a string variable makes it one character. -/
theorem C88_fails_char (env : Env) (a : Nat) (j : J) (i : Int) (hj : Num j i ∨ ∃ r, j = .real r ∧ env.trunc ⟨.w8, .true⟩ r = some i)
    (hi : 0 ≤ i ∧ i < 256) (n : Nat) (m : Mem) : nodeProc env (n + 3) (.obj (.var .str a)) [] j m =
      (.ref (.var .str a), m.put a (.str [UInt8.ofNat i.toNat])) := by
  have h2 : i % 256 = i := by omega
  rcases hj with hj | ⟨r, rfl, hr⟩
  · cases hj with
    | int h => simp [nodeProc, objProc, convO, convVar, after', charOf, cast_of_inRange h, h2]
    | true => simp [nodeProc, objProc, convO, convVar, after', charOf]
    | false => simp [nodeProc, objProc, convO, convVar, after', charOf]
  · simp [nodeProc, objProc, convO, convVar, after', charOf, hr, h2]

/-- A number with a fraction that is out of the range of an integral variable, or of `char` for a string: undefined. -/
theorem C88_fails_real (env : Env) (a : Nat) (r : Nat) (k : VK) (u : Under) (hk : k = .int u ∨ k = .str ∧ u = ⟨.w8, .true⟩)
    (hr : env.trunc u r = none) (n : Nat) (m : Mem) : (nodeProc env (n + 3) (.obj (.var k a)) [] (.real r) m).1 = .ub := by
  rcases hk with rfl | ⟨rfl, rfl⟩ <;> simp [nodeProc, objProc, convO, convVar, after', hr]

/-- A pointer to an enumeration: unlike the enumeration itself it refuses what is not a string, if the JSON library reports that by
an exception the buffer passes on; a label gives it the value of that label. -/
theorem C88_pointer_enum (env : Env) (p a : Nat) (tn : Str) (u : Under) (k : Keys) (ht : env.target p = some (.enum tn u k a)) (n : Nat) (m : Mem) :
    (∀ s i, mfind strLt s k.s2v = some i → nodeProc env (n + 3) (.obj (.ptr p)) [] (.str s) m =
      (.ref (.enum tn u k a), m.put a (.int (cast u i)))) ∧
    (env.lib.mm.isPack = false → ∀ j, (∃ x, j = .int x) ∨ (∃ x, j = .real x) ∨ (∃ x, j = .bool x) ∨ (∃ x, j = .obj x) →
      nodeProc env (n + 3) (.obj (.ptr p)) [] j m = (.throw, m)) := by
  have hp : ∀ m : Mem, m.put a (m a) = m := by intro m; funext x; by_cases hx : x = a <;> simp [Mem.put, hx]
  refine ⟨fun s i hs => ?_, fun hmm j hj => ?_⟩
  · simp [nodeProc, ht, objProc, convO, convEnum, readStr, Json.getStr, after', ofName, hs]
  · rcases hj with ⟨x, rfl⟩ | ⟨x, rfl⟩ | ⟨x, rfl⟩ | ⟨x, rfl⟩ <;>
      simp [nodeProc, ht, objProc, convO, convEnum, readStr, Json.getStr, after', hmm, hp]

/-- What is shown of a variable is the value of its type that it has, or null for a double that is not a number. -/
theorem C88_shown (lib : Lib) {k : VK} {j : J} {v : VV} (h : Fits k j v) :
    (v ≠ .real lib.nan → showVar lib v = j) ∧ (v = .real lib.nan → showVar lib v = .null) := by
  cases h with
  | real => exact ⟨fun h => by simp_all [showVar], fun h => by simp_all [showVar]⟩
  | _ => exact ⟨fun _ => rfl, fun h => by cases h⟩

/-- Asking for the type or the signature of anything that can be reached changes nothing, whatever the argument. -/
theorem C88_about {env : Env} {objs : List (Str × O)} (h : Repo env objs) {d : Str} {o o' : O} {ns : List Str}
    (hm : (d, o) ∈ objs) (hr : Reach env o ns o') (w : Str) (hw : w = b "@type" ∨ w = b "@signature") : ∃ n0, ∀ n, n0 ≤ n → ∀ args m,
      query env n objs (d ++ rd ns ++ dot :: w) args m = (.about, m) := by
  have hx : ∀ n ∈ [w], dot ∉ n := by
    intro n hn; rw [List.mem_singleton.1 hn]; rcases hw with rfl | rfl <;> decide
  obtain ⟨n0, h0⟩ := follow_x h.targets hr hx 1 _ d o [] (repo_root h hm) .here (by
    intro e
    exact (h.ident _ hm).ne (List.append_eq_nil_iff.1 e).1)
  refine ⟨n0, fun n hn args m => ?_⟩
  obtain ⟨n', h1, rs', d', root', ks', g1, g2, g3, g4⟩ := h0 n hn
  obtain ⟨n', rfl⟩ : ∃ k, n' = k + 1 := ⟨n' - 1, by omega⟩
  have hq : d ++ rd ns ++ dot :: w = d ++ rd ([] ++ ns ++ [w]) := by
    rw [rd_append]; simp [rd]
  rw [query, hq, g4]
  obtain ⟨i, e1, e2⟩ := dispatch_any g1 g2 (ts := [w]) hx g3 (by
    intro t ts' ht
    cases ht
    intro hc
    have hok := (sr_ok g2 g1.ok).2
    cases o' with
    | cls a ms =>
      simp only [namesO] at hc
      simp only [Ok] at hok
      obtain ⟨x, hx⟩ := names_has hc
      exact (has_ok hx hok.2).1.noat (by rcases hw with rfl | rfl <;> decide)
    | _ => simp [namesO] at hc)
  rcases hw with rfl | rfl
  · have hl : C33.answer (.obj i (wrap o')) (rd [b "@type"]) = .type (.obj i (wrap o')) := by rfl
    rw [hl] at e1
    simp only [regProc, e1]
  · have hl : C33.answer (.obj i (wrap o')) (rd [b "@signature"]) = .signature (.obj i (wrap o')) := by rfl
    rw [hl] at e1
    simp only [regProc, e1]

example : ∃ env : Env, Becomes env (.int ⟨.w8, true⟩) (.real 7) (.int 7) ∧ Becomes env .bool (.int 2) (.bool true) ∧
    Becomes env .real (.bool true) (.real 1) ∧ env.trunc int32 200 = none ∧
    (∃ s i, mfind strLt s (table [(b "red", 0), (b "green", 1)]).s2v = some i) ∧ env.lib.mm.isPack = false :=
  ⟨⟨⟨.lib, 0, fun i => i.toNat, id, id⟩, fun _ r => if r < 100 then some r else none, fun _ => none, fun _ _ m => (.ok, m)⟩,
    .trunc rfl, .toBool (.int (by simp [InRange, int64, Width.modulus])) (by decide), .toReal .true, by decide, ⟨b "green", 1, by decide⟩, by decide⟩

end Verif.Rest
