import Verif.JsonUnpackMain
/-
Smart pointers to polymorphic objects in JSON: polyAccessJsonPack.h:22-72, polyJsonBase.h:16-32.

The JSON model of the other types is Json.lean.  A pointer is modelled where it is packed and
unpacked: as the whole document or an element of an array (path empty) or as a member (any path).
-/
namespace Verif.Poly
open OMap EnumKeys Verif.Json

/-- `type` -/
def sType : Str := [116, 121, 112, 101]

/-- An object of the hierarchy: what `type()` returns, the members of its class, their values. -/
structure Obj where
  k : JV
  fs : Fs
  v : JV

/-- The factory `T::element_type::create(type)`: a new object's class and state, or an exception. -/
abbrev Create := JV → Option (Fs × JV)

/-- Packing a smart pointer: `json_packp` for classes creates the object at the path
(json_pack_epilogue.h:43-62), then polyAccessJsonPack.h:27-33. -/
def pack (lib : Lib) (kt : JT) (o : JP) (d : Str) : Option Obj → R JP
  | none => createObj o d
  | some a =>
    (createObj o d).bind fun o =>
      (packJ lib kt o (d ++ dot :: sType) a.k).bind fun o => packJ lib (.struct a.fs) o d a.v

/-- Unpacking a smart pointer: polyAccessJsonPack.h:60-72.  `x` in the test is the whole document,
whatever the path `d`.  `junk` is what the local variable `type` holds before it is read into,
`old` where the pointer points to before. -/
def unpack (lib : Lib) (kt : JT) (create : Create) (junk : JV) (o : JP) (d : Str)
    (old : Option Obj) : Oc × Option Obj :=
  match o.v with
  | .obj m =>
    match mfind strLt sType m with
    | some _ =>
      match unpackJ lib kt o (d ++ dot :: sType) junk with
      | (.ok, k) =>
        match create k with
        | some (fs, init) => let r := unpackJ lib (.struct fs) o d init; (r.1, some ⟨k, fs, r.2⟩)
        | none => (.throw .lib, old)
      | (oc, _) => (oc, old)
    | none => (.ok, none)
  | _ => (.ok, none)

/-- The descriptor of a class whose first member is such a pointer, named `n`, followed by members
`fs`. -/
def packC (lib : Lib) (kt : JT) (n : Str) (fs : Fs) (o : JP) (d : Str) (p : Option Obj) (v : JV) :
    R JP :=
  (createObj o d).bind fun o =>
    (pack lib kt o (d ++ dot :: n) p).bind fun o => packF lib fs o d v

def unpackC (lib : Lib) (kt : JT) (create : Create) (junk : JV) (n : Str) (fs : Fs) (o : JP)
    (d : Str) (p : Option Obj) (v : JV) : Oc × Option Obj × JV :=
  match unpack lib kt create junk o (d ++ dot :: n) p with
  | (.ok, p) => let r := unpackF lib fs o d v; (r.1, p, r.2)
  | (oc, p) => (oc, p, v)

/-- A vector of such pointers: json_pack_base.h:535-567, 492-517; each element is a document. -/
def packV (lib : Lib) (kt : JT) (o : JP) (d : Str) (l : List (Option Obj)) : R JP :=
  let rec go : List (Option Obj) → R (List J)
    | [] => .ok []
    | p :: r => (pack lib kt (.mk' .null) [] p).bind fun j => (go r).bind fun js => .ok (j.v :: js)
  packCont o d (go l)

/-- The elements of the vector are unpacked one after the other, until one throws. -/
def unpackV (lib : Lib) (kt : JT) (create : Create) (junk : JV) :
    List J → List (Option Obj) → Oc × List (Option Obj)
  | j :: js, p :: ps =>
    match unpack lib kt create junk (.mk' j) [] p with
    | (.ok, q) => let r := unpackV lib kt create junk js ps; (r.1, q :: r.2)
    | (oc, q) => (oc, q :: ps)
  | _, ps => (.ok, ps)

/-- `json_unpackp` for a vector of such pointers: json_pack_base.h:492-517 (new elements are null). -/
def unpackVec (lib : Lib) (kt : JT) (create : Create) (junk : JV) (o : JP) (d : Str)
    (dst : List (Option Obj)) : Oc × List (Option Obj) :=
  catchU o.throwOnError
    (match find o.v d with
     | .ok (.arr js) => unpackV lib kt create junk js
         (dst.take js.length ++ List.replicate (js.length - dst.length) none)
     | .ok _ => (.throw .packErr, dst)
     | .throw e => (.throw e, dst)
     | .ub => (.ub, dst))

end Verif.Poly
