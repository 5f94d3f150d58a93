import Verif.Props.PyCon
import Verif.Props.RestSet
import Verif.Props.RestArr
import Verif.Props.PyMod
import Verif.Props.PyCont
import Verif.Props.RestConv

/-! What is wrong is refused, and what is refused changes nothing: indices, keys and values given to containers and
members by Python and by requests. -/

namespace Verif.PyCon
open Verif.Rest Verif.OMap
open Verif.Json (J dot Oc Lib Err R)

/-- C91: an index that is no number is an exception for every operation that takes one, and the list stays as it was.
If the error of the JSON library is a pack_error, which is taken for a missing value, the index is a variable that was
never initialised. -/
theorem C91_index (lib : Lib) (trunc : EnumKeys.Under → Nat → Option Int) (ty : Ty) (k : VK) (xs : List VV) (j v : J)
    (hj : ∀ i, j ≠ .int i) (o : Op) (ho : o = .get j ∨ o = .set j v ∨ o = .del j ∨ o = .erase j) :
    seqStep lib trunc ty k xs o = (if lib.mm.isPack = true then .ub else .error, xs) := by
  have h : readIdx lib j = if lib.mm.isPack = true then .ub else .throw lib.mm := by
    cases j <;> first | exact absurd rfl (hj _) | rfl
  cases hp : lib.mm.isPack <;> rcases ho with rfl | rfl | rfl | rfl <;> simp [seqStep, seqSet, h, hp]

example (trunc : EnumKeys.Under → Nat → Option Int) :
    seqStep ⟨.lib, 0, fun i => i.toNat, id, id⟩ trunc ⟨true, true⟩ .str [.str [1]] (.erase (.str [49])) =
      (.error, [.str [1]]) :=
  C91_index _ trunc ⟨true, true⟩ .str [.str [1]] (.str [49]) .null (by simp) _ (by simp)

/-- An index past the end is an exception as well, and so is what cannot be stored; the list stays as it was. -/
theorem C91_past (lib : Lib) (trunc : EnumKeys.Under → Nat → Option Int) (ty : Ty) (k : VK) (xs : List VV) (v : J)
    (i : Nat) (hi : xs.length ≤ i ∧ i < 2 ^ 63) (o : Op) (ho : o = .get (.int i) ∨ o = .set (.int i) v ∨ o = .del (.int i)) :
    seqStep lib trunc ty k xs o = (.error, xs) := by
  have h : readIdx lib (.int i) = .ok i := by
    rw [C43.readIdx_int lib i (by omega)]; congr 1; omega
  have hx : xs[i]? = none := by simp; omega
  rcases ho with rfl | rfl | rfl <;> simp [seqStep, seqSet, h, hx]

example (lib : Lib) (trunc : EnumKeys.Under → Nat → Option Int) :
    seqStep lib trunc ⟨true, true⟩ .str [.str [1]] (.get (.int 1)) = (.error, [.str [1]]) :=
  C91_past lib trunc ⟨true, true⟩ .str [.str [1]] .null 1 (by simp) _ (.inl rfl)

/-- A key that is no string, or no number, is an exception for reading and for storing, and the map stays as it was;
with pack_errors taken for missing values it is the empty string, or undefined. -/
theorem C91_key (lib : Lib) (trunc : EnumKeys.Under → Nat → Option Int) (k : VK) (j v : J) (o : Op)
    (ho : o = .get j ∨ o = .set j v ∨ o = .del j) :
    (∀ (shk : Str → J) (pair : J → R (Str × VV)) (m : List (Str × VV)), (∀ s, j ≠ .str s) → lib.mm.isPack = false →
      mapStep (strKey lib trunc) shk pair lib k m o = (.error, m)) ∧
    (∀ (u : EnumKeys.Under) (shk : Int → J) (pair : J → R (Int × VV)) (m : List (Int × VV)), (∀ i, j ≠ .int i) →
      mapStep (intKey lib trunc u) shk pair lib k m o = (if lib.mm.isPack = true then .ub else .error, m)) := by
  refine ⟨fun shk pair m hj hp => ?_, fun u shk pair m hj => ?_⟩
  · have h : (strKey lib trunc).read j = .throw lib.mm := by
      cases j <;> first | exact absurd rfl (hj _) | simp [strKey, readStr, Json.getStr, hp]
    rcases ho with rfl | rfl | rfl <;> simp [mapStep, mapSetElem, h]
  · have h : (intKey lib trunc u).read j = if lib.mm.isPack = true then .ub else .throw lib.mm := by
      cases j <;> first | exact absurd rfl (hj _) | rfl
    cases hp : lib.mm.isPack <;> rcases ho with rfl | rfl | rfl <;> simp [mapStep, mapSetElem, h, hp]

example (trunc : EnumKeys.Under → Nat → Option Int) (pair : J → R (Str × VV)) :
    mapStep (strKey ⟨.lib, 0, fun i => i.toNat, id, id⟩ trunc) .str pair ⟨.lib, 0, fun i => i.toNat, id, id⟩ .bool
      [([1], .bool true)] (.get (.int 4)) = (.error, [([1], .bool true)]) :=
  (C91_key _ trunc .bool (.int 4) .null _ (.inl rfl)).1 .str pair _ (by simp) rfl

/-- Keys of maps of numbers: a number in the range of the type is itself, for all operations; a string is refused by
`contains` and `erase`, whatever the JSON library throws; an array is its first element. -/
theorem C91_number_key (lib : Lib) (trunc : EnumKeys.Under → Nat → Option Int) (u : EnumKeys.Under) :
    (∀ i : Int, EnumKeys.InRange int64 i → EnumKeys.InRange u i →
      (intKey lib trunc u).conv (.int i) = .ok i) ∧
    (∀ (shk : Int → J) (pair : J → R (Int × VV)) (k : VK) (m : List (Int × VV)) (s : Str) (o : Op),
      o = .contains (.str s) ∨ o = .erase (.str s) →
        mapStep (intKey lib trunc u) shk pair lib k m o = (.error, m)) ∧
    (∀ i : Int, (intKey lib trunc u).conv (.arr [.int i]) = (intKey lib trunc u).read (.int i)) := by
  refine ⟨fun i h1 h2 => ?_, fun shk pair k m s o ho => ?_, fun i => ?_⟩
  · simp [intKey, convVar, C88.cast_of_inRange h1, C88.cast_of_inRange h2]
  · rcases ho with rfl | rfl <;> simp [mapStep, intKey, convVar]
  · simp [intKey, convVar, unpackVar, Json.getInt, R.bind]

/-- Keys of maps of strings: `contains` and `erase` refuse an array whose first element is no string, unless
pack_errors are taken for missing values, and the map stays as it was. -/
theorem C91_string_key (lib : Lib) (hl : lib.mm.isPack = false) (trunc : EnumKeys.Under → Nat → Option Int) (shk : Str → J)
    (pair : J → R (Str × VV)) (k : VK) (m : List (Str × VV)) (j : J) (js : List J) (hj : ∀ s, j ≠ .str s) (o : Op)
    (ho : o = .contains (.arr (j :: js)) ∨ o = .erase (.arr (j :: js))) :
    mapStep (strKey lib trunc) shk pair lib k m o = (.error, m) := by
  have h : (strKey lib trunc).conv (.arr (j :: js)) = .throw lib.mm := by
    cases j <;> first | exact absurd rfl (hj _) | simp [strKey, convVar, unpackVar, Json.getStr, R.bind, hl]
  rcases ho with rfl | rfl <;> simp [mapStep, h]

/-- A pair that cannot be read is an exception, and nothing is inserted; if what is read is undefined, so is what
happens. -/
theorem C91_pair {K : Type} (ky : Key K) (shk : K → J) (pair : J → R (K × VV)) (lib : Lib) (k : VK) (m : List (K × VV))
    (v : J) :
    (∀ e, pair v = .throw e → mapStep ky shk pair lib k m (.insert v) = (.error, m)) ∧
    (pair v = .ub → mapStep ky shk pair lib k m (.insert v) = (.ub, m)) :=
  ⟨fun e h => by simp [mapStep, h], fun h => by simp [mapStep, h]⟩

/-- What is read under a key that is not there: zero, False, or the empty string. -/
theorem C91_fails_default {K : Type} [DecidableEq K] (ky : Key K) (ho : StrictOrd ky.lt) (shk : K → J)
    (pair : J → R (K × VV)) (lib : Lib) (m : List (K × VV)) (j : J) (q : K) (hq : ky.read j = .ok q)
    (hm : mfind ky.lt q m = none) :
    (∀ u, (mapStep ky shk pair lib (.int u) m (.get j)).1 = .value (.int 0)) ∧
    (mapStep ky shk pair lib .bool m (.get j)).1 = .value (.bool false) ∧
    (mapStep ky shk pair lib .real m (.get j)).1 = .value (showVar lib (.real (lib.ofInt 0))) ∧
    (mapStep ky shk pair lib .str m (.get j)).1 = .value (.str []) := by
  have h := fun k => (C91_fails_missing ky ho shk pair lib k m j q hq hm).1
  exact ⟨fun u => h (.int u), h .bool, h .real, h .str⟩

/-- Keys of maps of numbers and of strings are in the order of numbers and of `std::string`, so that what is said of
dictionaries holds of both. -/
theorem C91_orders (lib : Lib) (trunc : EnumKeys.Under → Nat → Option Int) (u : EnumKeys.Under) :
    StrictOrd (intKey lib trunc u).lt ∧ StrictOrd (strKey lib trunc).lt ∧
    (∀ i j, (intKey lib trunc u).lt i j = true ↔ i < j) :=
  ⟨intOrd, strOrd, fun i j => by simp [intKey]⟩

/-- Erasing None from a map of numbers is undefined. -/
theorem C91_fails_none_erase (lib : Lib) (trunc : EnumKeys.Under → Nat → Option Int) (u : EnumKeys.Under) (shk : Int → J)
    (pair : J → R (Int × VV)) (k : VK) (m : List (Int × VV)) :
    mapStep (intKey lib trunc u) shk pair lib k m (.erase .null) = (.ub, m) := rfl

end Verif.PyCon

namespace Verif.Rest
open Verif.OMap
open Verif.Json (J dot Oc Lib Err R)

/-- C94: a key that is refused is an exception and one that is undefined is undefined, by requests and from Python;
the set stays as it was. -/
theorem C94_refused {K : Type} (lib : Lib) (ky : Key K) (dflt : K) (m : S K) (j v : J) :
    (∀ e, ky.conv j = .throw e →
      setReq lib ky dflt m (b ".@insert") j = (.throw, m) ∧ setReq lib ky dflt m (b ".@erase") j = (.throw, m) ∧
      setPy ky m (.insert j) = (.error, m) ∧ setPy ky m (.erase j) = (.error, m) ∧
      setPy ky m (.contains j) = (.error, m)) ∧
    (ky.conv j = .ub →
      setReq lib ky dflt m (b ".@insert") j = (.ub, m) ∧ setReq lib ky dflt m (b ".@erase") j = (.ub, m) ∧
      setPy ky m (.insert j) = (.ub, m) ∧ setPy ky m (.erase j) = (.ub, m) ∧ setPy ky m (.contains j) = (.ub, m)) ∧
    (∀ e, ky.read j = .throw e → setPy ky m (.get j) = (.error, m) ∧ setPy ky m (.set j v) = (.error, m)) ∧
    (ky.read j = .ub → setPy ky m (.get j) = (.ub, m) ∧ setPy ky m (.set j v) = (.ub, m)) := by
  have h1 : setReq lib ky dflt m (b ".@insert") j = setInsert ky m j := by
    unfold setReq; rw [if_neg (by decide), if_neg (by decide), if_pos (by decide)]
  have h2 : setReq lib ky dflt m (b ".@erase") j = setErase ky m j := by
    unfold setReq; rw [if_neg (by decide), if_neg (by decide), if_neg (by decide), if_pos (by decide)]
  refine ⟨fun e h => ?_, fun h => ?_, fun e h => ?_, fun h => ?_⟩
  · rw [h1, h2]; simp [setPy, setInsert, setErase, h, SO.py]
  · rw [h1, h2]; simp [setPy, setInsert, setErase, h, SO.py]
  · simp [setPy, h]
  · simp [setPy, h]

example (lib : Lib) (trunc : EnumKeys.Under → Nat → Option Int) (u : EnumKeys.Under) (s : Str) :
    setPy (PyCon.intKey lib trunc u) [(3, ())] (.contains (.str s)) = (.error, [(3, ())]) :=
  ((C94_refused lib (PyCon.intKey lib trunc u) 0 [(3, ())] (.str s) .null).1 .lib rfl).2.2.2.2

/-- So is a path with a key that cannot be read. -/
theorem C94_refused_path {K : Type} (lib : Lib) (ky : Key K) (dflt : K) (m : S K) (w : Str) (hw : C62.Plain w) (e : Err)
    (hk : ky.raw w = .throw e) (args : J) : setReq lib ky dflt m (b ".@elem." ++ w) args = (.throw, m) := by
  have h := C62.pathKey_plain ky w [] hw (.inl rfl)
  rw [List.append_nil, hk] at h
  simp only [R.map] at h
  unfold setReq
  have hp : b ".@elem" <+: b ".@elem." ++ w := List.IsPrefix.trans ⟨[46], rfl⟩ (List.prefix_append ..)
  rw [if_neg (by simp [b]), if_pos hp, h]

example (lib : Lib) (trunc : EnumKeys.Under → Nat → Option Int) (u : EnumKeys.Under) (args : J) :
    setReq lib (PyCon.intKey lib trunc u) 0 [(3, ())] (b ".@elem." ++ b "k") args = (.throw, [(3, ())]) :=
  C94_refused_path lib (PyCon.intKey lib trunc u) 0 [(3, ())] (b "k") ⟨by decide, by decide, by decide⟩ .lib rfl args

/-- C95: a request on a whole map without an argument changes nothing and is no error. -/
theorem C95_no_argument {K V : Type} (lib : Lib) (ky : Key K) (dk : K) (el : El V) (m : List (K × V)) (s : S K) (j : J)
    (hj : j = .null ∨ j = .arr []) : mapWhole ky dk el m j = (true, m) ∧ setReq lib ky dk s [] j = (.self, s) := by
  rcases hj with rfl | rfl <;> exact ⟨rfl, by simp [setReq]⟩

/-- What is given for an item of a map need not have a value, and a value that cannot be read is an exception that
leaves the map with the items before it, only the first of which is there. -/
theorem C95_fails_item {K V : Type} (ky : Key K) (dk : K) (el : El V) (m : List (K × V)) (j : J) :
    ((∀ x, Json.find j (b ".second") ≠ .ok x) → mapWhole ky dk el m (.arr [.arr [j]]) = (true, [(dk, el.dflt)])) ∧
    (∀ x v, Json.find j (b ".second") = .ok x → el.dec x el.dflt = (false, v) →
      mapWhole ky dk el m (.arr [.arr [j]]) = (false, [])) := by
  constructor
  · intro h
    have : readPair dk el j = (true, dk, el.dflt) := by
      rw [readPair]; split
      · rename_i x hx; exact absurd hx (h x)
      · rfl
    simp [mapWhole, convMap, fillMap, this, minsert]
  · intro x v h1 h2
    have : readPair dk el j = (false, dk, v) := by simp [readPair, h1, h2]
    simp [mapWhole, convMap, fillMap, this]

example : mapWhole ⟨strLt, fun _ => .throw .lib, fun _ => .throw .lib, .ok, fun _ => .throw .lib⟩ [] C93.el
    [([1], 5)] (.arr [.arr [.obj []]]) = (true, [([], 0)]) :=
  (C95_fails_item _ [] C93.el [([1], 5)] (.obj [])).1 (by intro x h; exact nomatch h)

end Verif.Rest

namespace Verif.PyMod
open Verif.Rest Verif.OMap
open Verif.Json (J dot)
open Verif.Rest.C88 (Reach Repo rd)

/-- C90: calling a numerical or logical member with a string is an exception, and all variables are as before. -/
theorem C90_refused {env : Env} (shw : O → Mem → J) (write : J → Str) {objs : List (Str × O)}
    (h : Repo env objs) (ht : ∀ a o, env.target a = some o → ∀ a', o ≠ .ptr a') {d : Str} {o : O}
    (hm : (d, o) ∈ objs) {ns : List Str} {k : VK} {x : Nat} (hr : Reach env o ns (.var k x)) (hk : k ≠ .str) (s : Str)
    (js : List J) (N : Nat) (m : Mem) :
    ∃ n, N ≤ n ∧ ∃ a, expr (iface env shw n) m (moduleOf objs) (d :: ns) = some a ∧
      callA (iface env shw n) write a (.str s :: js) m = (.error, m) := by
  obtain ⟨n0, h0⟩ := C90_call_partial shw write h ht hm hr (.str s) js N
  obtain ⟨n1, h1⟩ := C88_refused h hm hr hk s js
  obtain ⟨n', hn, a, ha, hc⟩ := h0 (max n0 n1) (by omega) m
  refine ⟨n', hn, a, ha, ?_⟩
  rw [hc, (h1 (max n0 n1) (by omega) m).2]
  rfl

example (shw : O → Mem → J) (write : J → Str) (m : Mem) := C90_refused shw write C90.exRepo C90.exTargets (d := b "o")
  (by simp [C90.exObjs]) C90.reachY (by simp) (b "hello") [] 0 m

/-- Calling a smart pointer to an enumeration with a label assigns it, and gives the label. -/
theorem C90_pointer_enum {env : Env} (shw : O → Mem → J) (write : J → Str) (n : Nat) (m : Mem) {objs : List (Str × O)}
    (h : Repo env objs) (ht : ∀ a o, env.target a = some o → ∀ a', o ≠ .ptr a') {d : Str} {o : O}
    (hm : (d, o) ∈ objs) {ns : List Str} {p : Nat} (hr : Reach env o ns (.ptr p)) {tn : Str} {u : EnumKeys.Under}
    {k : EnumKeys.Keys} {x : Nat} (hp : env.target p = some (.enum tn u k x)) {s : Str} {i : Int}
    (hs : mfind strLt s k.s2v = some i) (js : List J) :
    ∃ a, expr (iface env shw (n + 3)) m (moduleOf objs) (d :: ns) = some a ∧
      callA (iface env shw (n + 3)) write a (.str s :: js) m =
        (.value (.str (EnumKeys.nameOf k (EnumKeys.cast u i))), m.put x (.int (EnumKeys.cast u i))) := by
  obtain ⟨ms, h3⟩ := C90_member_partial shw (n + 3) m h ht hm hr
  refine ⟨_, h3, ?_⟩
  have h4 : nodeProc env (n + 3) (.obj (.ptr p)) [] (.arr (.str s :: js)) m =
      (.ref (.enum tn u k x), m.put x (.int (EnumKeys.cast u i))) := by
    simp [nodeProc, hp, objProc, convO, convEnum, readStr, Json.getStr, after', EnumKeys.ofName, hs]
  simp only [callA, call]
  rw [if_neg (by simp)]
  simp only [iface, h4, ofRO, returnResult, bufO, Mem.put, if_true, Bool.false_eq_true, if_false]

private def keys : EnumKeys.Keys := ⟨[(b "red", 1)], [(1, b "red")]⟩

private def enumEnv : Env where
  lib := ⟨.lib, 0, fun i => i.toNat, id, id⟩
  trunc := fun _ _ => none
  target := fun a => if a = 9 then some (.enum (b "E") EnumKeys.int32 keys 20) else none
  assign := fun _ _ m => (.ok, m)

private theorem enumRepo : Repo enumEnv [(b "p", .ptr 9)] := by
  refine ⟨by simp, ?_, ?_, ?_⟩
  · intro e he
    simp only [List.mem_singleton] at he
    subst he
    exact ⟨by decide, by decide, by decide⟩
  · intro e he
    simp only [List.mem_singleton] at he
    subst he
    trivial
  · intro a o h
    simp only [enumEnv] at h
    split at h
    · cases h; trivial
    · cases h

example (shw : O → Mem → J) (write : J → Str) (m : Mem) :
    ∃ a, expr (iface enumEnv shw 3) m (moduleOf [(b "p", .ptr 9)]) [b "p"] = some a ∧
      callA (iface enumEnv shw 3) write a [.str (b "red")] m = (.value (.str (b "red")), m.put 20 (.int 1)) :=
  C90_pointer_enum shw write 0 m enumRepo (by
    intro a o h a'
    simp only [enumEnv] at h
    split at h
    · cases h; simp
    · cases h) (d := b "p") (o := .ptr 9) (by simp) .here (tn := b "E") (u := EnumKeys.int32) (k := keys) (x := 20) rfl
    (s := b "red") (i := 1) (by decide +kernel) []

/-- Behind a smart pointer an assignment to an attribute succeeds if the name before it is that of a member, and is an
AttributeError otherwise; in both cases nothing has changed. -/
theorem C90_fails_lost_both {P S : Type} (I : Iface P S) (s : S) (sp : Bool) (cmd : P) (ms : Ms P) (x n : Str)
    (v : Option (A P)) (h : ms x = none) :
    setPath I s (.wrap sp cmd ms) [x] n v =
      if (mfind strLt (dot :: x) (I.list cmd s)).isSome = true then some (.wrap sp cmd ms) else none := by
  simp only [setPath, h]
  cases mfind strLt (dot :: x) (I.list cmd s) <;> simp

/-- Calling an enumeration without arguments gives the label of its value. -/
theorem C90_get_enum {env : Env} (shw : O → Mem → J) (write : J → Str) (n : Nat) (m : Mem) {objs : List (Str × O)}
    (h : Repo env objs) (ht : ∀ a o, env.target a = some o → ∀ a', o ≠ .ptr a') {d : Str} {o : O}
    (hm : (d, o) ∈ objs) {ns : List Str} {tn : Str} {u : EnumKeys.Under} {k : EnumKeys.Keys} {x : Nat}
    (hr : Reach env o ns (.enum tn u k x)) {i : Int} (hi : m x = .int i) :
    ∃ a, expr (iface env shw (n + 3)) m (moduleOf objs) (d :: ns) = some a ∧
      callA (iface env shw (n + 3)) write a [] m = (.value (.str (EnumKeys.nameOf k i)), m) := by
  obtain ⟨ms, h3⟩ := C90_member_partial shw (n + 3) m h ht hm hr
  refine ⟨_, h3, ?_⟩
  have h4 : nodeProc env (n + 3) (.obj (.enum tn u k x)) [] .null m = (.text (EnumKeys.nameOf k i), m) := by
    have h1 : ¬ (b "@type" = [] ∨ b "@signature" = []) := by decide
    simp [nodeProc, objProc, enumProc, hi, h1]
  simp only [callA, call]
  rw [if_neg (by simp [iface])]
  simp only [iface, h4, ofRO, returnResult]

/-- Calling a sequence without arguments gives the list of its elements. -/
theorem C90_get_seq {E : Type} (shw : E → J) (write : J → Str) (xs : List E) (ws : Ms SCmd) :
    callA (seqIface shw) write (.wrap false .seq ws) [] xs = (.value (.arr (xs.map shw)), xs) := by
  simp [callA, call, seqIface]

/-- `_size` of a sequence that a call returned, called without arguments, is the number of elements. -/
theorem C90_size {E : Type} (shw : E → J) (write : J → Str) (xs : List E) :
    ∃ w a, returnResult (seqIface shw) .seq xs = .wrap w ∧ getAttr (seqIface shw) xs w (b "_size") = some a ∧
      callA (seqIface shw) write a [] xs = (.value (.int xs.length), xs) := by
  have key : ∀ r : Rg SCmd, r = (seqIface shw).list .seq xs →
      ∃ sp ms, attach r (depth r) [dot] (b "_size") = some (.wrap sp .size ms) := by
    intro r hr
    subst hr
    exact ⟨_, _, rfl⟩
  obtain ⟨sp, ms, h⟩ := key _ rfl
  refine ⟨_, .wrap sp .size ms, rfl, by simp only [getAttr, h], ?_⟩
  simp [callA, call, seqIface, returnResult]

end Verif.PyMod

namespace Verif.PyCont

/-- C85: an index that does not fit is an OverflowError for reading and for storing, and the container is unchanged. -/
theorem C85_overflow {α} (basic : Bool) (c : List α) (i : Int) (v : α) (h : i < 0 ∨ 2 ^ 64 ≤ i) :
    getItem c i = .overflow ∧ setItem basic c i (some v) = (.overflow, c) ∧ setItem basic c i none = (.typeError, c) := by
  have hi : index i = none := by
    unfold index
    rw [if_neg (by omega)]
  simp [getItem, setItem, hi]

/-- With as many indices as dimensions, or fewer, arrays have elements and rows; one index more is a TypeError, as for
any number. -/
theorem C85_too_many {α} (mem : List α) (n : Nat) (i : Nat) (j : Int) (hi : i < n) (hn : n ≤ 2 ^ 64) (is : List Int) (v : α) :
    arrayGet mem 0 [n] (i :: j :: is) = .typeError ∧ arraySet mem 0 v [n] (i :: j :: is) = (.typeError, mem) := by
  have h : index i = some i := by
    unfold index
    rw [if_pos (by omega)]
    simp
  simp [arrayGet, arraySet, h, hi]

/-- A modification of an element that is not there is as reading it. -/
theorem C85_modify_out {α} (mem : List α) (n : Nat) (i : Int) (f : α → α) (h : i < 0) :
    modifyArr mem n i f = (.overflow, mem) := by
  have hi : index i = none := by
    unfold index
    rw [if_neg (by omega)]
  simp [modifyArr, arrayGet, hi]

example : setItem true [1, 2, 3] (-1) (some 5) = (.overflow, [1, 2, 3]) := (C85_overflow true [1, 2, 3] (-1) 5 (by decide)).2.1

end Verif.PyCont
