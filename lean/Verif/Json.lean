import Verif.EnumKeys
/-
JSON serialisation: json_pack_base.h:227-600, json_pack_epilogue.h:20-215,
stringKeyMap_epilogue.h:9-57, polyAccessJsonPack.h:47-120, and `head`/`tail` of
classdesc.h:946-957.

The JSON library (json5_parser) is not in /repo: a JSON value is modelled as the tree its
`mValue` documents, an object being a `std::map` from names; reading a value as another type
throws an exception that is not a `json_pack_error` (`Lib.mm` says which).  Text output and
parsing are the library's and not modelled.
-/
namespace Verif.Json
open OMap EnumKeys

/-- `json5_parser::mValue`.  Reals are kept as codes of doubles. -/
inductive J
  | null
  | bool (b : Bool)
  | int (i : Int)
  | real (r : Nat)
  | str (s : Str)
  | arr (l : List J)
  | obj (m : List (Str × J))

/-- Exceptions: `json_object_not_found` and `json_pack_error` (json_pack_base.h:35-54; the first
derives from the second), anything thrown by the JSON library. -/
inductive Err | notFound | packErr | lib
  deriving DecidableEq, Repr

/-- Is it caught by `catch (json_pack_error&)`? -/
def Err.isPack : Err → Bool
  | .notFound | .packErr => true
  | .lib => false

/-- What the model assumes of the outside: the exception thrown by the JSON library when a value
is read as another type, not-a-number, and the conversions int to double, float to double and
back. -/
structure Lib where
  mm : Err
  nan : Nat
  ofInt : Int → Nat
  widen : Nat → Nat
  narrow : Nat → Nat

inductive R (α : Type)
  | ok (a : α)
  | throw (e : Err)
  | ub

def R.bind {α β : Type} : R α → (α → R β) → R β
  | .ok a, f => f a
  | .throw e, _ => .throw e
  | .ub, _ => .ub

def R.map {α β : Type} (f : α → β) : R α → R β
  | .ok a => .ok (f a)
  | .throw e => .throw e
  | .ub => .ub

/-! ### Paths -/

def dot : UInt8 := 46

/-- `tail(x)`: classdesc.h:946-950, everything after the last dot, or the whole string. -/
def tail (x : Str) : Str := (x.reverse.takeWhile (· != dot)).reverse

/-- `head(x)`: classdesc.h:953-957, everything before the last dot, or the whole string. -/
def head (x : Str) : Str :=
  if x.contains dot then ((x.reverse.dropWhile (· != dot)).drop 1).reverse else x

/-- `json_find(x,name)`: json_pack_base.h:227-246.  The first argument bounds the recursion; each
call consumes at least a character of the name. -/
def findN : Nat → J → Str → R J
  | 0, x, name => if name = [] then .ok x else .throw .packErr
  | n + 1, x, name =>
    if name = [] then .ok x
    else
      let name := if name.head? = some dot then name.drop 1 else name
      match x with
      | .obj m =>
        match mfind strLt (name.takeWhile (· != dot)) m with
        | none => .throw .notFound
        | some y =>
          if name.contains dot then findN n y (name.dropWhile (· != dot)) else .ok y
      | _ => .throw .packErr

def find (x : J) (name : Str) : R J := findN name.length x name

/-- Assigning through the reference `json_find` returns. -/
def storeN : Nat → J → Str → J → J
  | 0, x, name, v => if name = [] then v else x
  | n + 1, x, name, v =>
    if name = [] then v
    else
      let name := if name.head? = some dot then name.drop 1 else name
      match x with
      | .obj m =>
        let k := name.takeWhile (· != dot)
        match mfind strLt k m with
        | none => x
        | some y =>
          if name.contains dot then .obj (mput strLt k (storeN n y (name.dropWhile (· != dot)) v) m)
          else .obj (mput strLt k v m)
      | _ => x

def store (x : J) (name : Str) (v : J) : J := storeN name.length x name v

/-! ### The buffer -/

/-- `json_pack_t`: json_pack_base.h:98-160. -/
structure JP where
  v : J
  throwOnError : Bool
  throwOnNotFound : Bool

/-- `json_pack_t()` : json_pack_base.h:105, and `json_pack_t(mValue)`: 107-110. -/
def JP.mk' (v : J) : JP := ⟨v, false, false⟩

/-- `objectify()`: json_pack_base.h:158; the new object's flags are unset. -/
def JP.objectify (o : JP) : JP :=
  match o.v with
  | .obj _ => o
  | _ => .mk' (.obj [])

/-! ### Types and values -/

inductive JV
  | bool (b : Bool)
  | int (i : Int)
  | real (r : Nat)
  | str (s : Str)
  | seq (l : List JV)
  | pair (a b : JV)
  | unit
  | null
  | ptr (v : JV)
  | kv (l : List (Str × JV))

namespace JV
def elems : JV → List JV | seq l => l | _ => []
def fst : JV → JV | pair a _ => a | _ => unit
def snd : JV → JV | pair _ b => b | _ => unit
end JV

mutual
/-- Types.
* `int u`: integral types; `real`, `flt`: double, float
* `enum u decl`: enum serialised by name (descriptor made with -typeName)
* `struct fs`: class with a generated descriptor
* `seq t`: vector, list, deque; `arr n t`: std::array; `carr dims t`: C array, outermost dimension first
* `assoc lt multi t`: set, map and multi versions, elements compared with `lt`
* `smap t`: StringKeyMap; `pair`, `tuple`; `ptr t`: smart pointer to a default constructible, non-polymorphic t
* `excl`: Exclude, static const; `cst t`: const member -/
inductive JT
  | bool
  | int (u : Under)
  | real
  | flt
  | char
  | str
  | enum (u : Under) (decl : List (Str × Int))
  | struct (fs : Fs)
  | seq (t : JT)
  | arr (n : Nat) (t : JT)
  | carr (dims : List Nat) (t : JT)
  | assoc (lt : JV → JV → Bool) (multi : Bool) (t : JT)
  | smap (t : JT)
  | pair (a b : JT)
  | tuple (ts : Fs)
  | ptr (t : JT)
  | excl (d : JV)
  | cst (t : JT)
/-- Members and base classes of a class in declaration order (for tuples: the elements; the
names are not used). A base is described with the same path as the class (without -onbase). -/
inductive Fs
  | nil
  | mem (k : Str) (t : JT) (r : Fs)
  | base (t : JT) (r : Fs)
end

mutual
/-- Default constructed objects. -/
def dflt : JT → JV
  | .bool => .bool false
  | .int _ => .int 0
  | .real => .real 0
  | .flt => .real 0
  | .char => .str [0]
  | .str => .str []
  | .enum _ _ => .int 0
  | .struct fs => dfltF fs
  | .seq _ => .seq []
  | .arr n t => .seq (List.replicate n (dflt t))
  | .carr dims t => .seq (List.replicate (dims.foldr (· * ·) 1) (dflt t))
  | .assoc _ _ _ => .seq []
  | .smap _ => .kv []
  | .pair a b => .pair (dflt a) (dflt b)
  | .tuple ts => dfltF ts
  | .ptr _ => .null
  | .excl d => d
  | .cst t => dflt t
def dfltF : Fs → JV
  | .nil => .unit
  | .mem _ t r => .pair (dflt t) (dfltF r)
  | .base t r => .pair (dflt t) (dfltF r)
end

/-! ### Packing -/

/-- The intermediate integral type a value of an integral type passes through in `valueof` and
`getValue`: json_pack_base.h:254-303. -/
def via : Under → Under
  | ⟨.w64, s⟩ => ⟨.w64, s⟩
  | ⟨.w32, false⟩ => ⟨.w64, false⟩
  | _ => ⟨.w32, true⟩

/-- json_packp for basic types and strings: json_pack_base.h:324-356. -/
def packLeaf (o : JP) (d : Str) (j : J) : R JP :=
  if d = [] then .ok (.mk' j)
  else
    let o := o.objectify
    match find o.v (head d) with
    | .ok (.obj m) => .ok { o with v := store o.v (head d) (.obj (mput strLt (tail d) j m)) }
    | .ok _ => if o.throwOnError then .throw .packErr else .ok o
    | .throw .notFound => if o.throwOnNotFound then .throw .notFound else .ok o
    | .throw .packErr => if o.throwOnError then .throw .packErr else .ok o
    | .throw .lib => .throw .lib
    | .ub => .ub

/-- `try { ... } catch (json_pack_error&) { if (throw_on_error) throw; }` around a statement that
leaves the buffer alone when it throws. -/
def catchP (o : JP) : R JP → R JP
  | .throw e => if e.isPack && !o.throwOnError then .ok o else .throw e
  | r => r

/-- The same, saying whether the rest of the statement is executed. -/
def catchP' {α : Type} (o : JP) : R α → R Bool
  | .ok _ => .ok true
  | .throw e => if e.isPack && !o.throwOnError then .ok false else .throw e
  | .ub => .ub

/-- Finding the parent of a member and checking that it is an object. -/
def parentOf (o : JP) (d : Str) : R (List (Str × J)) :=
  (find o.v (head d)).bind fun
    | .obj m => .ok m
    | _ => .throw .packErr

/-- First half of json_packp for classes: json_pack_epilogue.h:43-62. -/
def createObj (o : JP) (d : Str) : R JP :=
  let o := o.objectify
  if tail d = [] then .ok o
  else
    catchP o ((parentOf o d).bind fun m =>
      .ok { o with v := store o.v (head d) (.obj (minsert strLt (tail d) (.obj []) m)) })

/-- Collecting elements. -/
def mapR (f : JV → R J) : List JV → R (List J)
  | [] => .ok []
  | v :: r => (f v).bind fun j => (mapR f r).bind fun js => .ok (j :: js)

def prod (dims : List Nat) : Nat := dims.foldr (· * ·) 1

/-- Cutting a flat array into `s` parts of `stride` elements: `(&val)[i*stride]`. -/
def chunks (s stride : Nat) (l : List JV) : List (List JV) :=
  match s with
  | 0 => []
  | s + 1 => l.take stride :: chunks s stride (l.drop stride)

/-- `json_pack_isarray`: json_pack_base.h:374-391; `dims` outermost first. -/
def packArr (f : JV → R J) : List Nat → List JV → R J
  | [], v :: _ => f v
  | [], [] => .ub
  | s :: ds, l =>
    let rec go : List (List JV) → R (List J)
      | [] => .ok []
      | c :: cs => (packArr f ds c).bind fun j => (go cs).bind fun js => .ok (j :: js)
    (go (chunks s (prod ds) l)).map .arr

/-- json_packp for containers: json_pack_base.h:535-567; `js` packs the elements. -/
def packCont (o : JP) (d : Str) (js : R (List J)) : R JP :=
  let o := o.objectify
  catchP o ((parentOf o d).bind fun m =>
    js.bind fun js =>
      if d = [] then .ok { o with v := .arr js }
      else .ok { o with v := store o.v (head d) (.obj (mput strLt (tail d) (.arr js) m)) })

/-- Packing a StringKeyMap's entries inside `try ... catch (json_pack_error&)`:
stringKeyMap_epilogue.h:13-28.  Simplified: when an entry of class type throws (possible only
with throw_on_not_found set), what it had already written is not kept. -/
def packKV (f : JP → Str → JV → R JP) (d : Str) : List (Str × JV) → JP → R JP
  | [], o => .ok o
  | (k, v) :: r, o =>
    match f o (d ++ dot :: k) v with
    | .ok o => packKV f d r o
    | e => catchP o e

mutual
/-- `json_pack(o,d,v)`. -/
def packJ (lib : Lib) : JT → JP → Str → JV → R JP
  | .bool, o, d, .bool b => packLeaf o d (.bool b)
  | .int u, o, d, .int i => packLeaf o d (.int (cast (via u) i))
  | .real, o, d, .real r => packLeaf o d (.real r)
  | .flt, o, d, .real r => packLeaf o d (.real (lib.widen r))
  | .char, o, d, .str s => packLeaf o d (.str s)
  | .str, o, d, .str s => packLeaf o d (.str s)
  -- the class version first, then the name: json_pack_epilogue.h:37-64, json_pack_base.h:470-475
  | .enum _ decl, o, d, .int i =>
    (createObj o d).bind fun o => packLeaf o d (.str (textWrite (table decl) i))
  | .struct fs, o, d, v => (createObj o d).bind fun o => packF lib fs o d v
  | .seq t, o, d, .seq l => packCont o d (mapR (fun v => (packJ lib t (.mk' .null) [] v).map JP.v) l)
  | .arr _ t, o, d, .seq l => packCont o d (mapR (fun v => (packJ lib t (.mk' .null) [] v).map JP.v) l)
  | .assoc _ _ t, o, d, .seq l =>
    packCont o d (mapR (fun v => (packJ lib t (.mk' .null) [] v).map JP.v) l)
  -- arrays: json_pack_base.h:394-418
  | .carr dims t, o, d, .seq l =>
    catchP o ((parentOf o d).bind fun m =>
      (packArr (fun v => (packJ lib t (.mk' .null) [] v).map JP.v) dims l).bind fun j =>
        .ok { o with v := store o.v (head d) (.obj (mput strLt (tail d) j m)) })
  -- stringKeyMap_epilogue.h:9-29
  | .smap t, o, d, .kv l =>
    (createObj o d).bind fun o =>
      (catchP' o (parentOf o d)).bind fun p =>
        if p then packKV (packJ lib t) d l o else .ok o
  -- pair: json_pack_base.h:519-525
  | .pair a b, o, d, .pair x y =>
    (packJ lib a o.objectify (d ++ [46, 102, 105, 114, 115, 116]) x).bind fun o =>
      packJ lib b o (d ++ [46, 115, 101, 99, 111, 110, 100]) y
  | .tuple ts, o, d, v => packT lib ts o d v
  -- polyAccessJsonPack.h:47-54, 98-104
  | .ptr _, o, d, .null => createObj o d
  | .ptr t, o, d, .ptr v => (createObj o d).bind fun o => packJ lib t o d v
  | .excl _, o, _, _ => .ok o
  | .cst t, o, d, v => packJ lib t o d v
  | _, _, _, _ => .throw .lib

/-- The generated descriptor of a class: one json_pack per base and member in order. -/
def packF (lib : Lib) : Fs → JP → Str → JV → R JP
  | .nil, o, _, _ => .ok o
  | .mem k t r, o, d, .pair x y => (packJ lib t o (d ++ dot :: k) x).bind fun o => packF lib r o d y
  | .base t r, o, d, .pair x y => (packJ lib t o d x).bind fun o => packF lib r o d y
  | _, _, _, _ => .throw .lib

/-- Tuples: json_pack_epilogue.h:176-195. -/
def packT (lib : Lib) : Fs → JP → Str → JV → R JP
  | .nil, o, _, _ =>
    match o.v with
    | .arr _ => .ok o
    | _ => .ok (.mk' (.arr []))
  | .mem _ t r, o, d, .pair x y =>
    (packJ lib t (.mk' .null) d x).bind fun j =>
      match o.v with
      | .arr l => packT lib r { o with v := .arr (l ++ [j.v]) } d y
      | _ => packT lib r (.mk' (.arr [j.v])) d y
  | .base t r, o, d, .pair x y =>
    (packJ lib t (.mk' .null) d x).bind fun j =>
      match o.v with
      | .arr l => packT lib r { o with v := .arr (l ++ [j.v]) } d y
      | _ => packT lib r (.mk' (.arr [j.v])) d y
  | _, _, _, _ => .throw .lib
end

/-! ### Unpacking -/

/-- How an unpack ends; the destination is returned beside it. -/
inductive Oc
  | ok
  | throw (e : Err)
  | ub
  deriving DecidableEq, Repr

/-- `try { ... } catch (json_pack_error&) { if (throw_on_error) throw; }`. -/
def catchU {α : Type} (toe : Bool) : Oc × α → Oc × α
  | (.throw e, a) => if e.isPack && !toe then (.ok, a) else (.throw e, a)
  | r => r

/-- Reading a value, json_pack_base.h:251-320. -/
def getBool (lib : Lib) : J → R JV
  | .bool b => .ok (.bool b)
  | _ => .throw lib.mm
def getInt (lib : Lib) (u : Under) : J → R JV
  | .int i => .ok (.int (cast u (cast (via u) i)))
  | _ => .throw lib.mm
def getReal (lib : Lib) : J → R JV
  | .null => .ok (.real lib.nan)
  | .int i => .ok (.real (lib.ofInt i))
  | .real r => .ok (.real r)
  | _ => .throw lib.mm
def getFlt (lib : Lib) : J → R JV
  | .null => .ok (.real (lib.narrow lib.nan))
  | .int i => .ok (.real (lib.narrow (lib.ofInt i)))
  | .real r => .ok (.real (lib.narrow r))
  | _ => .throw lib.mm
def getChar (lib : Lib) : J → R JV
  | .str s => .ok (.str [s.head?.getD 0])
  | _ => .throw lib.mm
def getStr (lib : Lib) : J → R JV
  | .str s => .ok (.str s)
  | _ => .throw lib.mm

/-- json_unpackp for basic types and strings: json_pack_base.h:359-372. -/
def unpackLeaf (o : JP) (d : Str) (get : J → R JV) (dst : JV) : Oc × JV :=
  catchU o.throwOnError
    (match (find o.v d).bind get with
     | .ok v => (.ok, v)
     | .throw e => (.throw e, dst)
     | .ub => (.ub, dst))

/-- Unpacking array elements into successive objects, stopping at the shorter end or at an
exception: json_pack_base.h:505-511. -/
def each (f : J → JV → Oc × JV) : List J → List JV → Oc × List JV
  | j :: js, x :: xs =>
    match f j x with
    | (.ok, y) => let r := each f js xs; (r.1, y :: r.2)
    | (oc, y) => (oc, y :: xs)
  | _, xs => (.ok, xs)

/-- `resize(a,n)` : existing elements are kept, new ones default constructed. -/
def resize (n : Nat) (d : JV) (l : List JV) : List JV :=
  l.take n ++ List.replicate (n - l.length) d

/-- Filling a set or map: json_pack_base.h:580-592. -/
def fill (f : J → Oc × JV) (put : JV → List JV → List JV) : List J → List JV → Oc × List JV
  | [], acc => (.ok, acc)
  | j :: js, acc =>
    match f j with
    | (.ok, v) => fill f put js (put v acc)
    | (oc, _) => (oc, acc)

/-- `std::set/map::insert`: equivalent elements are not inserted again. -/
def insU (lt : JV → JV → Bool) (e : JV) : List JV → List JV
  | [] => [e]
  | x :: xs => if lt e x then e :: x :: xs else if lt x e then x :: insU lt e xs else x :: xs

/-- `std::multiset/multimap::insert`: after all equivalent elements. -/
def insM (lt : JV → JV → Bool) (e : JV) : List JV → List JV
  | [] => [e]
  | x :: xs => if lt e x then e :: x :: xs else x :: insM lt e xs

def ins (lt : JV → JV → Bool) (multi : Bool) (e : JV) (l : List JV) : List JV :=
  if multi then insM lt e l else insU lt e l

/-- `json_unpack_isarray`: json_pack_base.h:421-439.  The elements of the JSON array are accessed
without looking at its size. -/
def unArr (lib : Lib) (f : J → JV → Oc × JV) : List Nat → J → List JV → Oc × List JV
  | [], j, x :: xs => let r := f j x; (r.1, r.2 :: xs)
  | [], _, [] => (.ub, [])
  | s :: ds, j, l =>
    let rec go : Nat → List J → List JV → Oc × List JV
      | 0, _, l => (.ok, l)
      | _ + 1, [], l => (.ub, l)
      | n + 1, j :: js, l =>
        match unArr lib f ds j (l.take (prod ds)) with
        | (.ok, c) => let r := go n js (l.drop (prod ds)); (r.1, c ++ r.2)
        | (oc, c) => (oc, c ++ l.drop (prod ds))
    match j with
    | .arr js => go s js l
    | _ => (.throw lib.mm, l)

/-- Filling a StringKeyMap: stringKeyMap_epilogue.h:42-44. -/
def fillKV (f : Str → JV → Oc × JV) (d : Str) (dv : JV) : List (Str × J) → List (Str × JV) →
    Oc × List (Str × JV)
  | [], acc => (.ok, acc)
  | (k, _) :: r, acc =>
    match f (d ++ dot :: k) ((mfind strLt k acc).getD dv) with
    | (.ok, v) => fillKV f d dv r (mput strLt k v acc)
    | (oc, v) => (oc, mput strLt k v acc)

/-- json_unpackp for sequences: json_pack_base.h:492-517; `rs` resizes. -/
def unSeq (o : JP) (d : Str) (f : J → JV → Oc × JV) (rs : Nat → List JV → List JV) (dst : JV) :
    Oc × JV :=
  catchU o.throwOnError
    (match find o.v d with
     | .ok (.arr js) => let r := each f js (rs js.length dst.elems); (r.1, .seq r.2)
     | .ok _ => (.throw .packErr, dst)
     | .throw e => (.throw e, dst)
     | .ub => (.ub, dst))

mutual
/-- `json_unpack(o,d,dst)`: how it ends and the new value of the destination. -/
def unpackJ (lib : Lib) : JT → JP → Str → JV → Oc × JV
  | .bool, o, d, x => unpackLeaf o d (getBool lib) x
  | .int u, o, d, x => unpackLeaf o d (getInt lib u) x
  | .real, o, d, x => unpackLeaf o d (getReal lib) x
  | .flt, o, d, x => unpackLeaf o d (getFlt lib) x
  | .char, o, d, x => unpackLeaf o d (getChar lib) x
  | .str, o, d, x => unpackLeaf o d (getStr lib) x
  -- json_pack_base.h:478-489: a local string, initially empty
  | .enum u decl, o, d, x =>
    match unpackLeaf o d (getStr lib) (.str []) with
    | (.ok, .str s) => (.ok, .int (textRead u (table decl) s))
    | (.ok, _) => (.ok, x)
    | (oc, _) => (oc, x)
  | .struct fs, o, d, x => unpackF lib fs o d x
  | .seq t, o, d, x =>
    unSeq o d (fun j y => unpackJ lib t (.mk' j) [] y) (fun n l => resize n (dflt t) l) x
  | .arr _ t, o, d, x => unSeq o d (fun j y => unpackJ lib t (.mk' j) [] y) (fun _ l => l) x
  -- json_pack_base.h:569-601
  | .assoc lt multi t, o, d, x =>
    catchU o.throwOnError
      (match find o.v d with
       | .ok (.arr js) =>
         let r := fill (fun j => unpackJ lib t (.mk' j) [] (dflt t)) (ins lt multi) js []
         (r.1, .seq r.2)
       | .ok _ => (.throw .packErr, x)
       | .throw e => (.throw e, x)
       | .ub => (.ub, x))
  -- json_pack_base.h:441-465
  | .carr dims t, o, d, x =>
    catchU o.throwOnError
      (match find o.v d with
       | .ok (.arr js) =>
         let r := unArr lib (fun j y => unpackJ lib t (.mk' j) [] y) dims (.arr js) x.elems
         (r.1, .seq r.2)
       | .ok _ => (.throw .packErr, x)
       | .throw e => (.throw e, x)
       | .ub => (.ub, x))
  -- stringKeyMap_epilogue.h:32-57
  | .smap t, o, d, x =>
    catchU o.throwOnError
      (match find o.v d with
       | .ok (.obj m) => let r := fillKV (unpackJ lib t o) d (dflt t) m []; (r.1, .kv r.2)
       | .ok .null => (.ok, .kv [])
       | .ok _ => (.throw .packErr, x)
       | .throw e => (.throw e, x)
       | .ub => (.ub, x))
  -- json_pack_base.h:527-532
  | .pair a b, o, d, x =>
    match unpackJ lib a o (d ++ [46, 102, 105, 114, 115, 116]) x.fst with
    | (.ok, y) =>
      let r := unpackJ lib b o (d ++ [46, 115, 101, 99, 111, 110, 100]) x.snd
      (r.1, .pair y r.2)
    | (oc, y) => (oc, .pair y x.snd)
  | .tuple ts, o, d, x => unpackT lib ts o d x
  -- polyAccessJsonPack.h:78-92
  | .ptr t, o, d, _ =>
    match unpackJ lib t o d (dflt t) with
    | (.ok, v) => (.ok, .ptr v)
    | (.throw _, _) => (.ok, .null)
    | (.ub, _) => (.ub, .null)
  | .excl _, _, _, x => (.ok, x)
  | .cst _, _, _, x => (.ok, x)

def unpackF (lib : Lib) : Fs → JP → Str → JV → Oc × JV
  | .nil, _, _, x => (.ok, x)
  | .mem k t r, o, d, x =>
    match unpackJ lib t o (d ++ dot :: k) x.fst with
    | (.ok, y) => let s := unpackF lib r o d x.snd; (s.1, .pair y s.2)
    | (oc, y) => (oc, .pair y x.snd)
  | .base t r, o, d, x =>
    match unpackJ lib t o d x.fst with
    | (.ok, y) => let s := unpackF lib r o d x.snd; (s.1, .pair y s.2)
    | (oc, y) => (oc, .pair y x.snd)

/-- Tuples: json_pack_epilogue.h:197-214.  The tail is unpacked into a copy. -/
def unpackT (lib : Lib) : Fs → JP → Str → JV → Oc × JV
  | .nil, _, _, x => (.ok, x)
  | .mem _ t r, o, d, x =>
    match o.v with
    | .arr (j :: js) =>
      match unpackJ lib t (.mk' j) d x.fst with
      | (.ok, y) => ((unpackT lib r { o with v := .arr js } d x.snd).1, .pair y x.snd)
      | (oc, y) => (oc, .pair y x.snd)
    | .arr [] => (.ub, x)
    | _ => (.throw lib.mm, x)
  | .base t r, o, d, x =>
    match o.v with
    | .arr (j :: js) =>
      match unpackJ lib t (.mk' j) d x.fst with
      | (.ok, y) => ((unpackT lib r { o with v := .arr js } d x.snd).1, .pair y x.snd)
      | (oc, y) => (oc, .pair y x.snd)
    | .arr [] => (.ub, x)
    | _ => (.throw lib.mm, x)
end

end Verif.Json
