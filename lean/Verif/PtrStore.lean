import Verif.Ref
/-
Model of PtrStoreRef, pack_base.h:99-132: shared ownership of the objects allocated by the graphnode and treenode unpackers.
-/
namespace Verif.PtrStore
open Verif.Graph (Out)
open Verif.Ref (upd)

structure St where
  live : List Nat              -- owners that exist
  nown : Nat                   -- next owner
  d : Nat → Option Nat         -- PtrStoreRef::d
  cnt : Nat → Option Int       -- PtrStoreBase::cnt of the stores that exist
  next : Nat                   -- next store
  log : List Nat               -- stores deleted, in order

def St.init : St := ⟨[], 0, fun _ => none, fun _ => none, 0, []⟩

inductive Op
  | null               -- PtrStoreRef()
  | make               -- PtrStoreRef(new PtrStore<T>)
  | copy (s : Nat)     -- PtrStoreRef(s)
  | assign (l s : Nat) -- l = s
  | destroy (l : Nat)  -- ~PtrStoreRef()
deriving DecidableEq, Repr

/-- `d && d->cnt++` -/
def inc (x : Option Nat) (st : St) : Out St := match x with
  | none => .ok st
  | some a => match st.cnt a with
    | none => .ub
    | some c => .ok { st with cnt := upd st.cnt a (some (c + 1)) }

/-- `if (d && d->cnt-- == 0) delete d;` pack_base.h:131 -/
def dec (x : Option Nat) (st : St) : Out St := match x with
  | none => .ok st
  | some a => match st.cnt a with
    | none => .ub
    | some c => if c = 0 then .ok { st with cnt := upd st.cnt a none, log := st.log ++ [a] }
      else .ok { st with cnt := upd st.cnt a (some (c - 1)) }

def addOwner (x : Option Nat) (st : St) : St :=
  { st with live := st.nown :: st.live, nown := st.nown + 1, d := upd st.d st.nown x }

/-- Constructors 128-129 and copy 129, assignment 130 (the old store is not released), destructor 131. -/
def step (op : Op) (st : St) : Out St := match op with
  | .null => .ok (addOwner none st)
  | .make => .ok (addOwner (some st.next) { st with next := st.next + 1, cnt := upd st.cnt st.next (some 0) })
  | .copy s => if s ∉ st.live then .ub else (inc (st.d s) st).bind fun st => .ok (addOwner (st.d s) st)
  | .assign l s => if l ∉ st.live ∨ s ∉ st.live then .ub
      else inc (st.d s) { st with d := upd st.d l (st.d s) }
  | .destroy l => if l ∉ st.live then .ub
      else dec (st.d l) { st with live := st.live.filter (· ≠ l) }

def run : List Op → St → Out St
  | [], st => .ok st
  | op :: ops, st => (step op st).bind (run ops)

end Verif.PtrStore
