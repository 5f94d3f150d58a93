import Verif.Graph
/-
Model of the reference counted pointer `classdesc::ref<T>`, ref.h:26-86, for a class `T` that itself has `K` members of type `ref<T>` (so
destroying an object destroys references, which may destroy further objects).

A reference is a location (numbered in order of construction). User variables have `own = none`, members of an object have the
object as owner. Simplifications: the counter (an `int`) does not overflow; the members of a dying object are taken off the live
list, and the object itself out of the store, before the references they held are released (nothing can look at them in between).
-/
namespace Verif.Ref
open Verif.Graph (Out)

/-- ref<T>::Payload, ref.h:29-34: the counter, and the locations of the members of the T part. -/
structure Obj where
  count : Int
  mem : List Nat
deriving DecidableEq, Repr

structure St where
  live : List Nat             -- constructed references
  nloc : Nat                  -- next location
  item : Nat → Option Nat     -- `item` of each reference
  own : Nat → Option Nat      -- the object a reference is a member of
  obj : Nat → Option Obj      -- objects that exist
  next : Nat                  -- next object
  log : List Nat              -- objects destroyed, in order

def St.init : St := ⟨[], 0, fun _ => none, fun _ => none, fun _ => none, 0, []⟩

def upd {α : Type} (f : Nat → α) (i : Nat) (x : α) (j : Nat) : α := if j = i then x else f j

/-- refdec(), ref.h:36, on each of a list of `item`s; a destroyed object adds those of its members (destroyed last to first). -/
def drain : Nat → List (Option Nat) → St → Out St
  | _, [], st => .ok st
  | 0, _ :: _, _ => .fuel
  | f + 1, none :: w, st => drain f w st
  | f + 1, some o :: w, st => match st.obj o with
    | none => .ub
    | some ob =>
      if ob.count - 1 = 0 then
        drain f (ob.mem.reverse.map st.item ++ w)
          { st with live := st.live.filter (fun l => decide (l ∉ ob.mem)), obj := upd st.obj o none, log := st.log ++ [o] }
      else drain f w { st with obj := upd st.obj o (some { ob with count := ob.count - 1 }) }

def refdec (st : St) (x : Option Nat) : Out St := drain (1 + st.live.length) [x] st

/-- `item->count++` -/
def inc (x : Option Nat) (st : St) : Out St := match x with
  | none => .ok st
  | some o => match st.obj o with
    | none => .ub
    | some ob => .ok { st with obj := upd st.obj o (some { ob with count := ob.count + 1 }) }

/-- A new location holding `x`. -/
def addLoc (owner : Option Nat) (x : Option Nat) (st : St) : St :=
  { st with live := st.nloc :: st.live, nloc := st.nloc + 1, item := upd st.item st.nloc x, own := upd st.own st.nloc owner }

/-- Copy constructing members from a list of `item`s: ref(const ref&), ref.h:49 and 37-43, for each. -/
def copyMems (owner : Nat) : List (Option Nat) → St → Out (List Nat × St)
  | [], st => .ok ([], st)
  | x :: xs, st => (inc x st).bind fun st1 => (copyMems owner xs (addLoc (some owner) x st1)).bind fun (ls, st2) => .ok (st.nloc :: ls, st2)

/-- newitem, ref.h:44-45: a new object, with members holding copies of `xs`, and count 1. Returns its address. -/
def newItem (xs : List (Option Nat)) (st : St) : Out (Nat × St) :=
  (copyMems st.next xs { st with next := st.next + 1 }).bind fun (ls, st2) =>
    .ok (st.next, { st2 with obj := upd st2.obj st.next (some ⟨1, ls⟩) })

/-- Operations of a program using references. `K` is the number of members of T. -/
inductive Op
  | new                    -- ref r;
  | copy (s : Nat)         -- ref r(s);
  | make                   -- ref r(T());
  | makeOf (s : Nat)       -- ref r(*s);
  | assign (l s : Nat)     -- l = s;
  | assignVal (l : Nat)    -- l = T();
  | assignOf (l s : Nat)   -- l = *s;
  | deref (l : Nat)        -- *l;
  | nullify (l : Nat)      -- l.nullify();
  | swap (a b : Nat)       -- swap(a,b);
  | destroy (l : Nat)      -- end of life of a variable
deriving DecidableEq, Repr

/-- `operator*`, ref.h:65: creates a default object if null. -/
def deref (K : Nat) (l : Nat) (st : St) : Out St :=
  if l ∉ st.live then .ub else match st.item l with
  | some _ => .ok st
  | none => (newItem (List.replicate K none) st).bind fun (o, st) => .ok { st with item := upd st.item l (some o) }

/-- The members of the object `o`; undefined if it is gone. -/
def membersOf (o : Nat) (st : St) : Out (List (Option Nat)) := match st.obj o with
  | none => .ub
  | some ob => .ok (ob.mem.map st.item)

/-- The members of `*s`. -/
def members (s : Nat) (st : St) : Out (List (Option Nat)) := match st.item s with
  | none => .ub
  | some o => membersOf o st

/-- refdec(); newitem(x), ref.h:52, where the members of `x` are only read when it is copied. -/
def assignItem (l : Nat) (rd : St → Out (List (Option Nat))) (st : St) : Out St :=
  (refdec st (st.item l)).bind fun st => (rd st).bind fun xs => (newItem xs st).bind fun (o, st) =>
    if l ∉ st.live then .ub else .ok { st with item := upd st.item l (some o) }

/-- One operation. Using a location that is not alive is undefined. -/
def step (K : Nat) (op : Op) (st : St) : Out St := match op with
  | .new => .ok (addLoc none none st)
  | .copy s => if s ∉ st.live then .ub else (inc (st.item s) st).bind fun st => .ok (addLoc none (st.item s) st)
  | .make => (newItem (List.replicate K none) st).bind fun (o, st) => .ok (addLoc none (some o) st)
  | .makeOf s => (deref K s st).bind fun st => (members s st).bind fun xs => (newItem xs st).bind fun (o, st) =>
      .ok (addLoc none (some o) st)
  | .assign l s => if l ∉ st.live ∨ s ∉ st.live then .ub
      else if st.item s = st.item l then .ok st
      else (refdec st (st.item l)).bind fun st =>
        if l ∉ st.live ∨ s ∉ st.live then .ub
        else (inc (st.item s) st).bind fun st => .ok { st with item := upd st.item l (st.item s) }
  | .assignVal l => if l ∉ st.live then .ub else assignItem l (fun _ => .ok (List.replicate K none)) st
  | .assignOf l s => if l ∉ st.live ∨ s ∉ st.live then .ub
      else (deref K s st).bind fun st => match st.item s with
        | none => .ub
        | some o => assignItem l (membersOf o) st
  | .deref l => deref K l st
  | .nullify l => if l ∉ st.live then .ub
      else (refdec st (st.item l)).bind fun st => if l ∉ st.live then .ub else .ok { st with item := upd st.item l none }
  | .swap a b => if a ∉ st.live ∨ b ∉ st.live then .ub
      else .ok { st with item := upd (upd st.item b (st.item a)) a (st.item b) }
  | .destroy l => if l ∉ st.live ∨ st.own l ≠ none then .ub
      else refdec { st with live := st.live.filter (· ≠ l) } (st.item l)

def run (K : Nat) : List Op → St → Out St
  | [], st => .ok st
  | op :: ops, st => (step K op st).bind (run K ops)

end Verif.Ref
