/-
Java class files: javaClass.h, javaClass_serialisation.h, and the signature reader of
java/compileClass.cc.  Buffers are the byte sequences of the buffer model (allocation succeeds).
-/
namespace Verif.Java

abbrev Bytes := List UInt8

inductive R (α : Type)
  | ok (a : α)
  | throw
  | ub
  deriving DecidableEq, Repr

def R.bind {α β : Type} : R α → (α → R β) → R β
  | .ok a, f => f a
  | .throw, _ => .throw
  | .ub, _ => .ub

/-- A reader: what is read, and what is left. -/
abbrev Get (α : Type) := Bytes → R (α × Bytes)

/-- A u1, or one byte by unpackraw: throws at the end of the data. -/
def getByte : Get UInt8
  | [] => .throw
  | b :: s => .ok (b, s)

/-- The packing loops of u8, u4 and u2: javaClass_serialisation.h:88-92, 121-125, 145-147;
`u1 b = a.v >> 8*i` for i = n-1, ..., 0. -/
def putBE : Nat → Nat → Bytes
  | 0, _ => []
  | n + 1, v => UInt8.ofNat (v >>> (8 * n)) :: putBE n v

/-- The unpacking loops: javaClass_serialisation.h:74-80, 106-112, 132-136;
`a.v=(a.v<<8) | (0xFF&b)` in a variable of `w` bits. -/
def getBE (w : Nat) : Nat → Nat → Get Nat
  | 0, acc => fun s => .ok (acc, s)
  | n + 1, acc => fun s =>
    (getByte s).bind fun (b, s) => getBE w n (((acc <<< 8) ||| (255 &&& b.toNat)) % 2 ^ w) s

def putU2 (v : Nat) : Bytes := putBE 2 v
def getU2 : Get Nat := getBE 16 2 0
def putU4 (v : Nat) : Bytes := putBE 4 v
def getU4 : Get Nat := getBE 32 4 0
def putU8 (v : Nat) : Bytes := putBE 8 v
def getU8 : Get Nat := getBE 64 8 0

/-- Converting a size to u2: javaClass.h:53, by way of short. -/
def toU2 (n : Nat) : Nat := n % 65536

/-- Converting a u2 back: javaClass.h:51, `operator short`: the value is negative from 32768 on. -/
def ofU2 (v : Nat) : Int := if v < 32768 then v else (v : Int) - 65536

/-- `u8::u8(unsigned)` and `operator=(unsigned)`: javaClass.h:75-77. -/
def u8Assign (n : Nat) : Nat := n % 2 ^ 32

/-- Reading `n` bytes. -/
def getRaw (n : Nat) : Get Bytes := fun s =>
  if n ≤ s.length then .ok (s.take n, s.drop n) else .throw

/-- Strings: javaClass_serialisation.h:42-50. The length converts to a size by way of short; a
negative one becomes almost 2^64 bytes to be copied. -/
def putStr (s : Bytes) : R Bytes :=
  match ofU2 (toU2 s.length) with
  | .ofNat n => .ok (putU2 (toU2 s.length) ++ s.take n)
  | .negSucc _ => .ub

/-- Strings: javaClass_serialisation.h:55-66. `new char[length]` throws for a negative length. -/
def getStr : Get Bytes := fun s =>
  (getU2 s).bind fun (l, s) =>
    match ofU2 l with
    | .ofNat n => getRaw n s
    | .negSucc _ => .throw

/-- What a constant pool entry points to: javaClass.h:594-625 (`shared_ptr<void>`). -/
inductive Info
  | null
  | u2 (v : Nat)
  | ref (a b : Nat)
  | u4 (v : Nat)
  | u8 (v : Nat)
  | nameType (a b : Nat)
  | utf8 (s : Bytes)
  deriving DecidableEq, Repr

/-- `cp_info`: javaClass.h:616-655. -/
structure Entry where
  tag : UInt8
  info : Info
  deriving DecidableEq, Repr

/-- `cp_info()`. -/
def Entry.null : Entry := ⟨0, .null⟩

/-- The cases of the two switches: javaClass_serialisation.h:156-176 and 187-208. -/
inductive Kind
  | index | ref | int | long | nameType | utf8 | none
  deriving DecidableEq, Repr

def kind (t : UInt8) : Kind :=
  if t == 7 || t == 8 then .index
  else if t == 9 || t == 10 || t == 11 then .ref
  else if t == 3 || t == 4 then .int
  else if t == 5 || t == 6 then .long
  else if t == 12 then .nameType
  else if t == 1 then .utf8
  else .none

/-- Packing an entry: javaClass_serialisation.h:150-178. `get<T>` of a value of another type is
undefined. -/
def putEntry (e : Entry) : R Bytes :=
  match kind e.tag, e.info with
  | .index, .u2 v => .ok (e.tag :: putU2 v)
  | .ref, .ref a b => .ok (e.tag :: (putU2 a ++ putU2 b))
  | .int, .u4 v => .ok (e.tag :: putU4 v)
  | .long, .u8 v => .ok (e.tag :: putU8 v)
  | .nameType, .nameType a b => .ok (e.tag :: (putU2 a ++ putU2 b))
  | .utf8, .utf8 s => (putStr s).bind fun b => .ok (e.tag :: b)
  | .none, _ => .ok [e.tag]
  | _, _ => .ub

/-- Unpacking an entry over an existing one: javaClass_serialisation.h:180-211. -/
def getEntry (old : Entry) : Get Entry := fun s =>
  (getByte s).bind fun (t, s) =>
    match kind t with
    | .index => (getU2 s).bind fun (v, s) => .ok (⟨t, .u2 v⟩, s)
    | .ref => (getU2 s).bind fun (a, s) => (getU2 s).bind fun (b, s) => .ok (⟨t, .ref a b⟩, s)
    | .int => (getU4 s).bind fun (v, s) => .ok (⟨t, .u4 v⟩, s)
    | .long => (getU8 s).bind fun (v, s) => .ok (⟨t, .u8 v⟩, s)
    | .nameType =>
      (getU2 s).bind fun (a, s) => (getU2 s).bind fun (b, s) => .ok (⟨t, .nameType a b⟩, s)
    | .utf8 => (getStr s).bind fun (v, s) => .ok (⟨t, .utf8 v⟩, s)
    | .none => .ok (old, s)

/-- Packing one after the other. -/
def putAll {α : Type} (put : α → R Bytes) : List α → R Bytes
  | [] => .ok []
  | a :: l => (put a).bind fun x => (putAll put l).bind fun y => .ok (x ++ y)

/-- Unpacking `n` values one after the other. -/
def getAll {α : Type} (get : Get α) : Nat → Get (List α)
  | 0 => fun s => .ok ([], s)
  | n + 1 => fun s => (get s).bind fun (a, s) => (getAll get n s).bind fun (l, s) => .ok (a :: l, s)

/-- The constant pool: javaClass_serialisation.h:213-225: `for (int i=1; i<size; i++)` with size a
u2 that converts by way of short. -/
def putPool (p : List Entry) : R Bytes :=
  (putAll putEntry ((p.take (ofU2 (toU2 p.length)).toNat).drop 1)).bind fun b =>
    .ok (putU2 (toU2 p.length) ++ b)

/-- Reading a constant pool over a fresh one (one null entry): javaClass_serialisation.h:228-238.
`resize` with a negative size throws. -/
def getPool : Get (List Entry) := fun s =>
  (getU2 s).bind fun (n, s) =>
    match ofU2 n with
    | .ofNat 0 => .ok ([], s)
    | .ofNat (n + 1) => (getAll (getEntry .null) n s).bind fun (l, s) => .ok (.null :: l, s)
    | .negSucc _ => .throw

/-- The 8 bytes of a uint64 in the machine's (little endian) order: pack_base.h, packraw of a basic
type. -/
def putLE : Nat → Nat → Bytes
  | 0, _ => []
  | n + 1, v => UInt8.ofNat v :: putLE n (v / 256)

def getLE : Nat → Get Nat
  | 0 => fun s => .ok (0, s)
  | n + 1 => fun s => (getByte s).bind fun (b, s) => (getLE n s).bind fun (v, s) => .ok (b.toNat + 256 * v, s)

/-- A JavaClassVector is a sequence like any other for pack: pack_stl.h:102-110
`b << uint64(a.size())`, where size() is a u2 (javaClass.h:86). -/
def putSeq {α : Type} (put : α → R Bytes) (l : List α) : R Bytes :=
  (putAll put l).bind fun b => .ok (putLE 8 ((ofU2 (toU2 l.length)) % 2 ^ 64).toNat ++ b)

/-- Reading until the count is reached: pack_stl.h:116-130. (With fuel: a count larger than the
data ends in an exception, since every element takes at least one byte.) -/
def getSeq {α : Type} (get : Get α) : Get (List α) := fun s =>
  (getLE 8 s).bind fun (n, s) => if n ≤ s.length then getAll get n s else .throw

/-- `attribute_info`: javaClass.h:665-672. -/
structure Attr where
  name : Nat
  info : Bytes
  deriving DecidableEq, Repr

/-- `method_info` and `field_info`: javaClass.h:674-696. -/
structure Member where
  flags : Nat
  name : Nat
  descr : Nat
  attrs : List Attr
  deriving DecidableEq, Repr

/-- `ClassFile`: javaClass.h:698-719. -/
structure ClassFile where
  magic : Nat
  minor : Nat
  major : Nat
  pool : List Entry
  flags : Nat
  this : Nat
  super : Nat
  interfaces : List Nat
  fields : List Member
  methods : List Member
  attrs : List Attr
  deriving DecidableEq, Repr

/-- `attribute_info`: javaClass_serialisation.h:240-253. -/
def putAttr (a : Attr) : R Bytes := .ok (putU2 a.name ++ putU4 (a.info.length % 2 ^ 32) ++ a.info)

/-- javaClass_serialisation.h:255-268. -/
def getAttr : Get Attr := fun s =>
  (getU2 s).bind fun (n, s) => (getU4 s).bind fun (l, s) => (getRaw l s).bind fun (i, s) =>
    .ok (⟨n, i⟩, s)

/-- The generated descriptor: members in order. -/
def putMember (m : Member) : R Bytes :=
  (putSeq putAttr m.attrs).bind fun b => .ok (putU2 m.flags ++ putU2 m.name ++ putU2 m.descr ++ b)

def getMember : Get Member := fun s =>
  (getU2 s).bind fun (f, s) => (getU2 s).bind fun (n, s) => (getU2 s).bind fun (d, s) =>
    (getSeq getAttr s).bind fun (a, s) => .ok (⟨f, n, d, a⟩, s)

/-- The generated descriptor of ClassFile: members in the order of javaClass.h:700-710. -/
def putClass (c : ClassFile) : R Bytes :=
  (putPool c.pool).bind fun pool =>
  (putSeq (fun v => .ok (putU2 v)) c.interfaces).bind fun ifs =>
  (putSeq putMember c.fields).bind fun fs =>
  (putSeq putMember c.methods).bind fun ms =>
  (putSeq putAttr c.attrs).bind fun as =>
  .ok (putU4 c.magic ++ putU2 c.minor ++ putU2 c.major ++ pool ++ putU2 c.flags ++ putU2 c.this
    ++ putU2 c.super ++ ifs ++ fs ++ ms ++ as)

/-- Reading into a fresh ClassFile. -/
def getClass : Get ClassFile := fun s =>
  (getU4 s).bind fun (magic, s) =>
  (getU2 s).bind fun (minor, s) =>
  (getU2 s).bind fun (major, s) =>
  (getPool s).bind fun (pool, s) =>
  (getU2 s).bind fun (flags, s) =>
  (getU2 s).bind fun (this, s) =>
  (getU2 s).bind fun (super, s) =>
  (getSeq getU2 s).bind fun (ifs, s) =>
  (getSeq getMember s).bind fun (fs, s) =>
  (getSeq getMember s).bind fun (ms, s) =>
  (getSeq getAttr s).bind fun (as, s) =>
  .ok (⟨magic, minor, major, pool, flags, this, super, ifs, fs, ms, as⟩, s)

/-- `addMethod`: javaClass.h:722-731: both indices are sizes of the pool converted to u2. -/
def addMethod (c : ClassFile) (name descr : Bytes) : ClassFile :=
  { c with
    pool := c.pool ++ [⟨1, .utf8 name⟩, ⟨1, .utf8 descr⟩]
    methods := c.methods ++ [⟨0, toU2 c.pool.length, toU2 (c.pool.length + 1), []⟩] }

/-- `makeNative`: javaClass.h:733-738. -/
def makeNative (c : ClassFile) : ClassFile :=
  { c with methods := c.methods.map (fun m => { m with flags := 0x101 }), flags := 1 }

/-- `makeInterface`: javaClass.h:740-745. -/
def makeInterface (c : ClassFile) : ClassFile :=
  { c with methods := c.methods.map (fun m => { m with flags := 0x401 }), flags := 0x601 }

/-- `ClassFile()`: javaClass.h:711. -/
def ClassFile.empty : ClassFile := ⟨0, 0, 0, [.null], 0, 0, 0, [], [], [], []⟩

/-! ### Signatures -/

/-- The types with a `Descriptor`: javaClassDescriptor.h:34-59 (long is 64 bits). -/
inductive Ty
  | void | bool | char | short | int | long | float | double | string
  deriving DecidableEq, Repr

/-- `Descriptor<T>::d()`: javaClassDescriptor.h:34-59. -/
def Ty.sig : Ty → List Char
  | .void => ['V']
  | .bool => ['Z']
  | .char => ['C']
  | .short => ['S']
  | .int => ['I']
  | .long => ['J']
  | .float => ['F']
  | .double => ['D']
  | .string => "Ljava/lang/String;".toList

/-- `descriptor<M>()`: javaClassDescriptor.h:94-101, `arg_desc`: 75-92. -/
def signature (args : List Ty) (ret : Ty) : List Char :=
  '(' :: ((args.map Ty.sig).flatten ++ ')' :: ret.sig)

/-- `while (*c!=';') ++c;` followed by the loop's c++: beyond the end is undefined. -/
def skipClass : List Char → R (List Char)
  | [] => .ub
  | c :: r => if c == ';' then .ok r else skipClass r

inductive J
  | jboolean | jbyte | jchar | jshort | jint | jlong | jfloat | jdouble | void | jstring | jobject
  | array (c : Char)
  deriving DecidableEq, Repr

/-- `JNI_arglist`: java/compileClass.cc:42-88, with fuel for the length of the signature. -/
def arglist : Nat → List Char → R (List J)
  | 0, [] => .ok []
  | 0, _ => .ub
  | _ + 1, [] => .ok []
  | n + 1, c :: r =>
    let push (j : J) := (arglist n r).bind fun l => .ok (j :: l)
    match c with
    | 'Z' => push .jboolean
    | 'B' => push .jbyte
    | 'C' => push .jchar
    | 'S' => push .jshort
    | 'I' => push .jint
    | 'J' => push .jlong
    | 'F' => push .jfloat
    | 'D' => push .jdouble
    | 'V' => push .void
    | 'L' =>
      let j := if (c :: r).take 18 == "Ljava/lang/String;".toList then J.jstring else .jobject
      (skipClass r).bind fun r => (arglist n r).bind fun l => .ok (j :: l)
    | '[' =>
      match r with
      | [] => .ub
      | d :: r' =>
        if d ∈ ['Z', 'B', 'C', 'S', 'I', 'J', 'F', 'D'] then
          (arglist n r').bind fun l => .ok (.array d :: l)
        else if d == 'L' then
          (skipClass r').bind fun r => (arglist n r).bind fun l => .ok (.array 'L' :: l)
        else arglist n r'
    | ')' => arglist n r
    | '(' => arglist n r
    | _ => .throw

end Verif.Java
