import Verif.TopLevel
import Verif.Props.Members
import Verif.Props.Bases
/-
C78: the types of a file are registered, each under its qualified name.
-/
namespace Verif.Top
open Verif.Tok (Str b)
open Verif.Decl (Rd St Act Kind Opts starts identStart Bal Reach)
open Verif.Decl.C66 (Item expected kept actions keptActs Tidy)
open Verif.Decl.C65 (Enumerator underToks)
open Verif.Bases (Base heads Ident)

/-! ### Specification -/

/-- Spec: the members of a class. -/
inductive Body
  | nil
  | item (i : Item) (r : Body)                                             -- a data member, function, label, enumeration, …
  | cls (key name : Str) (bases : List Base) (body r : Body)               -- key name : bases { body }
  | decl (key name : Str) (r : Body)                                       -- key name ;
  | var (key name v : Str) (r : Body)                                      -- key name v ;
  | alias (l : List Str) (r : Body)                                        -- typedef l ;
  | tdef (key : Str) (tag : Option Str) (bases : List Base) (body : Body) (post : List Str) (r : Body)
                                                                           -- typedef key tag : bases { body } post ;
  | tunion (tag : Option Str) (l : List Str) (name : Str) (r : Body)       -- typedef union tag { l } name ;

def Body.toks : Body → List Str
  | .nil => []
  | .item i r => i.toks ++ r.toks
  | .cls key name bs body r => key :: name :: (heads bs ++ b "{" :: (body.toks ++ b "}" :: r.toks))
  | .decl key name r => key :: name :: b ";" :: r.toks
  | .var key name v r => key :: name :: v :: b ";" :: r.toks
  | .alias l r => b "typedef" :: (l ++ b ";" :: r.toks)
  | .tdef key tag bs body post r => b "typedef" :: key :: (tag.toList ++ (heads bs ++ b "{" :: (body.toks ++ b "}" :: (post ++ b ";" :: r.toks))))
  | .tunion tag l name r => b "typedef" :: b "union" :: (tag.toList ++ b "{" :: (l ++ b "}" :: name :: b ";" :: r.toks))

/-- The members proper: nested classes are none. -/
def Body.own : Body → List Item
  | .nil => []
  | .item i r => i :: r.own
  | .cls _ _ _ _ r => r.own
  | .decl _ _ r => r.own
  | .var _ _ v r => .data [⟨[], v, .plain⟩] :: r.own
  | .alias _ r => r.own
  | .tdef _ _ _ _ _ r => r.own
  | .tunion _ _ _ r => r.own

/-- Accessibility after a member. -/
def access (p : Bool) : Item → Bool
  | .label kw => decide (kw ≠ b "public")
  | _ => p

/-- Does the class have nested types anyone may use?  `p`: the section is private. -/
def Body.types : Bool → Body → Bool
  | _, .nil => false
  | p, .item i r => (!p && !i.enums.isEmpty) || r.types (access p i)
  | p, .cls key _ _ body r => !p || body.types (decide (key = b "class")) || r.types p
  | p, .decl _ _ r => r.types p
  | p, .var _ _ _ r => r.types p
  | p, .alias _ r => r.types p
  | p, .tdef key _ _ body _ r => !p || body.types (decide (key = b "class")) || r.types p
  | p, .tunion _ _ _ r => !p || r.types p

/-- Typedefs of other types. -/
def AliasOk (l : List Str) : Prop :=
  l ≠ [] ∧ l.head? ≠ some (b "struct") ∧ l.head? ≠ some (b "class") ∧ l.head? ≠ some (b "union") ∧ ∀ t ∈ l, t ≠ b ";" ∧ t ≠ b "{"

/-- `typedef key tag : bases { body } post ;` where there is a tag, or `post` is a name. -/
def TdefOk (key : Str) (tag : Option Str) (bs : List Base) (body post : List Str) : Prop :=
  (key = b "class" ∨ key = b "struct") ∧ (∀ t, tag = some t → Ident t) ∧ (tag = none → ∃ n, post = [n] ∧ Ident n) ∧
    (∀ x ∈ bs, x.Ok) ∧ (∀ t ∈ heads bs, t ≠ b ";" ∧ t ≠ b "{") ∧ Bal (b "{") (b "}") body ∧ ∀ t ∈ post, t ≠ b ";" ∧ t ≠ b "{"

/-- The name of the type: its tag, else that of the typedef. -/
def tdefName (tag : Option Str) (post : List Str) : Str := tag.getD (post.headD [])

/-- What can be read.  A private nested class must not have accessible types in it (`C78_private_fails`), and there
must be no private `typedef struct` (`C78_private_typedef_fails`). -/
def Body.Ok : Bool → Body → Prop
  | _, .nil => True
  | p, .item i r => i.Ok ∧ r.Ok (access p i)
  | p, .cls key name bs body r => (key = b "class" ∨ key = b "struct") ∧ Ident name ∧ (∀ x ∈ bs, x.Ok) ∧
      body.Ok (decide (key = b "class")) ∧ (p = true → body.types (decide (key = b "class")) = false) ∧ r.Ok p
  | p, .decl key name r => (key = b "class" ∨ key = b "struct") ∧ Ident name ∧ r.Ok p
  | p, .var key name v r => (key = b "class" ∨ key = b "struct") ∧ Ident name ∧ Decl.C66.Name v ∧ r.Ok p
  | p, .alias l r => AliasOk l ∧ r.Ok p
  | p, .tdef key tag bs body post r => TdefOk key tag bs body.toks post ∧ body.Ok (decide (key = b "class")) ∧ p = false ∧ r.Ok p
  | p, .tunion tag l name r => (∀ t, tag = some t → Ident t) ∧ Bal (b "{") (b "}") l ∧ Ident name ∧ p = false ∧ r.Ok p

/-- `::a::b` -/
def scope (path : List Str) : Str := path.flatMap fun n => b "::" ++ n

/-- Spec: what is to be registered for a type: its text, namespace and template parameters, base classes and members;
also which members are static, if `tidy`. -/
inductive Want
  | cls (type ns templ : Str) (bases : List Base) (members : List (Str × Kind)) (tidy : Prop) (acts : List Act)
  | enum (type ns : Str) (keys : List Str)

/-- Spec: the class with this name and these members, in the scope given by `path`. -/
def wantCls (c : Cfg) (ns path : List Str) (key name targs args : Str) (bs : List Base) (own : List Item) : Want :=
  .cls (key ++ b " " ++ scope path ++ b "::" ++ name ++ args) (scope ns) targs
    (Bases.wanted c.respect (decide (key = b "class")) bs)
    (kept ⟨c.respect, c.overload, name⟩ own
      (expected ⟨c.respect, c.overload, name⟩ (c.respect && decide (key = b "class")) own))
    (Tidy false own)
    (keptActs ⟨c.respect, c.overload, name⟩ own
      (actions ⟨c.respect, c.overload, name⟩ (c.respect && decide (key = b "class")) own))

/-- Spec: the same for `typedef struct`: the type is named without `struct`. -/
def wantTdef (c : Cfg) (ns : List Str) (key type name : Str) (bs : List Base) (own : List Item) : Want :=
  .cls type (scope ns) [] (Bases.wanted c.respect (decide (key = b "class")) bs)
    (kept ⟨c.respect, c.overload, name⟩ own
      (expected ⟨c.respect, c.overload, name⟩ (c.respect && decide (key = b "class")) own))
    (Tidy false own)
    (keptActs ⟨c.respect, c.overload, name⟩ own
      (actions ⟨c.respect, c.overload, name⟩ (c.respect && decide (key = b "class")) own))

/-- Spec: a union is treated as bytes. -/
def wantUnion (ns : List Str) (type : Str) : Want := .cls type (scope ns) [] [] [([], .bytes)] True [⟨[], .bytes, false, false⟩]

def wantEnum (ns path : List Str) (e : Bool × Str × List Str) : Want :=
  .enum (b "enum " ++ (if e.1 = true then b "class " else []) ++ scope path ++ b "::" ++ e.2.1) (scope ns) e.2.2

/-- Spec: the types in a class, innermost first; `path` is the scope of its members. -/
def Body.wants (c : Cfg) (ns : List Str) : List Str → Bool → Body → List Want
  | _, _, .nil => []
  | path, p, .item i r => (if p = true then [] else i.enums.map (wantEnum ns path)) ++ r.wants c ns path (access p i)
  | path, p, .cls key name bs body r =>
    (if p = true then [] else body.wants c ns (path ++ [name]) (decide (key = b "class")) ++ [wantCls c ns path key name [] [] bs body.own]) ++
      r.wants c ns path p
  | path, p, .decl _ _ r => r.wants c ns path p
  | path, p, .var _ _ _ r => r.wants c ns path p
  | path, p, .alias _ r => r.wants c ns path p
  | path, p, .tdef key tag bs body post r =>
    (if p = true then [] else body.wants c ns (path ++ [tdefName tag post]) (decide (key = b "class")) ++
      [wantTdef c ns key (scope path ++ b "::" ++ tdefName tag post) (tdefName tag post) bs body.own]) ++ r.wants c ns path p
  | path, p, .tunion _ _ name r =>
    (if p = true then [] else [wantUnion ns (scope path ++ b "::" ++ name)]) ++ r.wants c ns path p

/-- Spec: a file. -/
inductive Src
  | nil
  | word (t : Str) (r : Src)                                               -- any other token, brackets included
  | parens (l : List Str) (r : Src)                                        -- ( l )
  | pragma (t : Str) (r : Src)
  | use (l : List Str) (r : Src)                                           -- using l ;
  | alias (name : Str) (l : List Str) (r : Src)                            -- namespace name = l ;
  | ns (name : Str) (body r : Src)                                         -- namespace name { body }
  | anon (body r : Src)                                                    -- namespace { body }
  | typedef (l : List Str) (r : Src)                                       -- typedef l ;
  | tdef (key : Str) (tag : Option Str) (bs : List Base) (body : List Item) (post : List Str) (r : Src)
                                                                           -- typedef key tag : bs { body } post ;
  | tunion (tag : Option Str) (l : List Str) (name : Str) (r : Src)        -- typedef union tag { l } name ;
  | tmpl (ps : List Scan.TParam) (t : Str) (r : Src)                       -- template < ps > t
  | tuse (ps : List Scan.TParam) (l : List Str) (r : Src)                  -- template < ps > using l ;
  | inst (t : Str) (r : Src)                                               -- template t
  | decl (key name t : Str) (r : Src)                                      -- key name t
  | tdecl (ps : List Bases.DParam) (key name t : Str) (r : Src)            -- template < ps > key name t
  | cls (key name : Str) (bs : List Base) (body : Body) (r : Src)
  | tcls (ps : List Bases.DParam) (key name : Str) (bs : List Base) (body : List Item) (r : Src)
  | spec (key name : Str) (args : List Str) (bs : List Base) (body : List Item) (r : Src)    -- template <> key name < args > …
  | enum (cls : Bool) (name : Str) (under : Option (List Str)) (es : List Enumerator) (tr : Bool) (post : List Str) (r : Src)
  | enumDecl (name : Str) (r : Src)
  | unnamed (l : List Str) (r : Src)                                       -- enum { l }

def tparams (ps : List Scan.TParam) (k : List Str) : List Str :=
  b "template" :: b "<" :: (Scan.commas Scan.TParam.text ps ++ b ">" :: k)

def Src.toks : Src → List Str
  | .nil => []
  | .word t r => t :: r.toks
  | .parens l r => b "(" :: (l ++ b ")" :: r.toks)
  | .pragma t r => t :: r.toks
  | .use l r => b "using" :: (l ++ b ";" :: r.toks)
  | .alias name l r => b "namespace" :: name :: b "=" :: (l ++ b ";" :: r.toks)
  | .ns name body r => b "namespace" :: name :: b "{" :: (body.toks ++ b "}" :: r.toks)
  | .anon body r => b "namespace" :: b "{" :: (body.toks ++ b "}" :: r.toks)
  | .typedef l r => b "typedef" :: (l ++ b ";" :: r.toks)
  | .tdef key tag bs body post r => b "typedef" :: key :: (tag.toList ++ (heads bs ++ b "{" :: (body.flatMap Item.toks ++ b "}" ::
      (post ++ b ";" :: r.toks))))
  | .tunion tag l name r => b "typedef" :: b "union" :: (tag.toList ++ b "{" :: (l ++ b "}" :: name :: b ";" :: r.toks))
  | .tmpl ps t r => tparams ps (t :: r.toks)
  | .tuse ps l r => tparams ps (b "using" :: (l ++ b ";" :: r.toks))
  | .inst t r => b "template" :: t :: r.toks
  | .decl key name t r => key :: name :: t :: r.toks
  | .tdecl ps key name t r => tparams (ps.map Bases.DParam.scan) (key :: name :: t :: r.toks)
  | .cls key name bs body r => key :: name :: (heads bs ++ b "{" :: (body.toks ++ b "}" :: r.toks))
  | .tcls ps key name bs body r =>
    tparams (ps.map Bases.DParam.scan) (key :: name :: (heads bs ++ b "{" :: (body.flatMap Item.toks ++ b "}" :: r.toks)))
  | .spec key name args bs body r =>
    b "template" :: b "<" :: b ">" :: key :: name :: b "<" :: (args ++ b ">" :: (heads bs ++ b "{" ::
      (body.flatMap Item.toks ++ b "}" :: r.toks)))
  | .enum ec name under es tr post r =>
    b "enum" :: ((if ec then [b "class"] else []) ++ (name :: (underToks under ++
      (b "{" :: (Decl.C65.commas es ++ ((if tr then [b ","] else []) ++ b "}" :: (post ++ b ";" :: r.toks)))))))
  | .enumDecl name r => b "enum" :: name :: b ";" :: r.toks
  | .unnamed l r => b "enum" :: b "{" :: (l ++ b "}" :: r.toks)

/-- A token without significance outside classes. -/
def Plain (t : Str) : Prop :=
  t ∉ [b "using", b "namespace", b "typedef", b "template", b "class", b "struct", b "enum", b "("] ∧ (b "#pragma").isPrefixOf t = false

def Key (key : Str) : Prop := key = b "class" ∨ key = b "struct"

/-- Is there a typedef of a class or union? -/
def Src.tdefs : Src → Bool
  | .nil => false
  | .tdef _ _ _ _ _ _ => true
  | .tunion _ _ _ _ => true
  | .ns _ body r => body.tdefs || r.tdefs
  | .anon body r => body.tdefs || r.tdefs
  | .word _ r => r.tdefs
  | .parens _ r => r.tdefs
  | .pragma _ r => r.tdefs
  | .use _ r => r.tdefs
  | .alias _ _ r => r.tdefs
  | .typedef _ r => r.tdefs
  | .tmpl _ _ r => r.tdefs
  | .tuse _ _ r => r.tdefs
  | .inst _ r => r.tdefs
  | .decl _ _ _ r => r.tdefs
  | .tdecl _ _ _ _ r => r.tdefs
  | .cls _ _ _ _ r => r.tdefs
  | .tcls _ _ _ _ _ r => r.tdefs
  | .spec _ _ _ _ _ r => r.tdefs
  | .enum _ _ _ _ _ _ r => r.tdefs
  | .enumDecl _ r => r.tdefs
  | .unnamed _ r => r.tdefs

/-- What can be read.  In namespaces, `typedef struct` must not be used (`C78_typedef_fails`). -/
def Src.Ok : Src → Prop
  | .nil => True
  | .word t r => Plain t ∧ r.Ok
  | .parens l r => Bal (b "(") (b ")") l ∧ r.Ok
  | .pragma t r => (b "#pragma").isPrefixOf t = true ∧ r.Ok
  | .use l r => b ";" ∉ l ∧ r.Ok
  | .alias name l r => Ident name ∧ b ";" ∉ l ∧ r.Ok
  | .ns name body r => Ident name ∧ body.Ok ∧ Bal (b "{") (b "}") body.toks ∧ body.tdefs = false ∧ r.Ok
  | .anon body r => body.Ok ∧ r.Ok
  | .typedef l r => l ≠ [] ∧ l.head? ≠ some (b "struct") ∧ l.head? ≠ some (b "class") ∧ l.head? ≠ some (b "union") ∧ b ";" ∉ l ∧ r.Ok
  | .tdef key tag bs body post r => TdefOk key tag bs (body.flatMap Item.toks) post ∧ (∀ i ∈ body, i.Ok) ∧
      Decl.C66.enumsOf (decide (key = b "class")) body = [] ∧ (∀ t ∈ post, Plain t) ∧ r.Ok
  | .tunion tag l name r => (∀ t, tag = some t → Ident t) ∧ Bal (b "{") (b "}") l ∧ Ident name ∧ r.Ok
  | .tmpl ps t r => (∀ p ∈ ps, p.Ok) ∧ Plain t ∧ r.Ok
  | .tuse ps l r => (∀ p ∈ ps, p.Ok) ∧ b ";" ∉ l ∧ r.Ok
  | .inst t r => t ≠ b "<" ∧ r.Ok
  | .decl key name t r => Key key ∧ Ident name ∧ Plain t ∧ starts ":{" t = false ∧ t ≠ b "<" ∧ r.Ok
  | .tdecl ps key name t r => ps ≠ [] ∧ (∀ p ∈ ps, p.Ok) ∧ Key key ∧ Ident name ∧ Plain t ∧ starts ":{" t = false ∧ t ≠ b "<" ∧ r.Ok
  | .cls key name bs body r => Key key ∧ Ident name ∧ (∀ x ∈ bs, x.Ok) ∧ body.Ok (decide (key = b "class")) ∧ r.Ok
  | .tcls ps key name bs body r => ps ≠ [] ∧ (∀ p ∈ ps, p.Ok) ∧ Key key ∧ Ident name ∧ (∀ x ∈ bs, x.Ok) ∧ (∀ i ∈ body, i.Ok) ∧
      Decl.C66.enumsOf (decide (key = b "class")) body = [] ∧ r.Ok
  | .spec key name args bs body r => Key key ∧ Ident name ∧ (∀ t ∈ args, t.head? ≠ some 61 ∧ ∀ c ∈ t, c ≠ 60 ∧ c ≠ 62) ∧
      (∀ x ∈ bs, x.Ok) ∧ (∀ i ∈ body, i.Ok) ∧ Decl.C66.enumsOf (decide (key = b "class")) body = [] ∧ r.Ok
  | .enum _ name under es _ post r => Ident name ∧ name ≠ b "class" ∧ (∀ u, under = some u → ∀ x ∈ u, starts ";{" x = false) ∧
      es ≠ [] ∧ (∀ e ∈ es, e.Ok) ∧ (∀ t ∈ post, t ∉ [b ";", b "=", b ",", b "}"]) ∧ r.Ok
  | .enumDecl name r => Ident name ∧ name ≠ b "class" ∧ r.Ok
  | .unnamed l r => Bal (b "{") (b "}") l ∧ r.Ok

/-- Spec: the types of a file, in order; nested ones before the class they are in. -/
def Src.wants (c : Cfg) : List Str → Src → List Want
  | _, .nil => []
  | path, .ns name body r => body.wants c (path ++ [name]) ++ r.wants c path
  | path, .anon body r => body.wants c path ++ r.wants c path
  | path, .cls key name bs body r =>
    body.wants c path (path ++ [name]) (decide (key = b "class")) ++ wantCls c path path key name [] [] bs body.own :: r.wants c path
  | path, .tcls ps key name bs body r =>
    wantCls c path path key name (Bases.paramList (ps.map Bases.DParam.param)) (Bases.argList (ps.map Bases.DParam.param)) bs body ::
      r.wants c path
  | path, .spec key name args bs body r =>
    wantCls c path path key name [] (Scan.joinDot (b "<" :: (args ++ [b ">"]))) bs body :: r.wants c path
  | path, .enum ec name _ es _ _ r => wantEnum path path (ec, name, es.map (·.name)) :: r.wants c path
  | path, .word _ r => r.wants c path
  | path, .parens _ r => r.wants c path
  | path, .pragma _ r => r.wants c path
  | path, .use _ r => r.wants c path
  | path, .alias _ _ r => r.wants c path
  | path, .typedef _ r => r.wants c path
  | path, .tdef key tag bs body post r => wantTdef c path key (tdefName tag post) (tdefName tag post) bs body :: r.wants c path
  | path, .tunion _ _ name r => wantUnion path name :: r.wants c path
  | path, .tmpl _ _ r => r.wants c path
  | path, .tuse _ _ r => r.wants c path
  | path, .inst _ r => r.wants c path
  | path, .decl _ _ _ r => r.wants c path
  | path, .tdecl _ _ _ _ r => r.wants c path
  | path, .enumDecl _ r => r.wants c path
  | path, .unnamed _ r => r.wants c path

/-- A registration is as wanted. -/
inductive Match : Want → Reg → Prop
  | cls {type ns templ bs mem tidy want as acts} : Bases.Acts templ bs as → acts.map (fun a => (a.name, a.kind)) = mem →
      (tidy → acts = want) → Match (.cls type ns templ bs mem tidy want) (.cls type ns templ as acts)
  | enum {type ns keys} : Match (.enum type ns keys) (.enum type ns keys)

inductive Matches : List Want → List Reg → Prop
  | nil : Matches [] []
  | cons {w g ws gs} : Match w g → Matches ws gs → Matches (w :: ws) (g :: gs)

theorem Matches.append {a c : List Want} {x y : List Reg} (h : Matches a x) (h' : Matches c y) : Matches (a ++ c) (x ++ y) := by
  induction h with
  | nil => exact h'
  | cons g _ ih => exact .cons g ih

private theorem Matches.nil_left {x : List Reg} (h : Matches [] x) : x = [] := by cases h; rfl

/-! ### Texts -/

private theorem past_app (a s : Str) (h : ∀ c ∈ a, c ≠ 58) : pastColons (a ++ 58 :: 58 :: s) = some s := by
  induction a with
  | nil => simp [pastColons]
  | cons x a ih =>
    have := h x (.head _)
    simp only [List.cons_append, pastColons, this, false_and, if_false]
    exact ih fun c hc => h c (.tail _ hc)

private theorem to_app (a s : Str) (h : ∀ c ∈ a, c ≠ 58) : toColons (a ++ 58 :: 58 :: s) = a := by
  induction a with
  | nil => simp [toColons]
  | cons x a ih =>
    have := h x (.head _)
    simp only [List.cons_append, toColons, this, false_and, if_false]
    rw [ih fun c hc => h c (.tail _ hc)]

private theorem strip_colons (s : Str) : strip (s ++ b "::") = s := by
  have h := past_app [] s.reverse (by simp)
  have e : (s ++ b "::").reverse = [] ++ 58 :: 58 :: s.reverse := by simp [show b "::" = [58, 58] by decide]
  rw [strip, e, h]; simp

private theorem ident_char {n : Str} (h : Ident n) : ∀ d ∈ n, d ≠ 58 ∧ d ≠ 60 ∧ d ≠ 62 := by
  obtain ⟨c, r, rfl, h1, h2⟩ := h
  intro d hd
  have hd : Bases.idChar d = true := by
    rcases List.mem_cons.1 hd with rfl | hd
    · simp [Bases.idChar, h1]
    · exact h2 d hd
  refine ⟨?_, ?_, ?_⟩ <;> (rintro rfl; revert hd; decide)

private theorem scope_snoc (p : List Str) (n : Str) : scope (p ++ [n]) = scope p ++ b "::" ++ n := by simp [scope]

private theorem scope_char {p : List Str} (h : ∀ n ∈ p, Ident n) : ∀ d ∈ scope p, d ≠ 60 ∧ d ≠ 62 := by
  intro d hd
  simp only [scope, List.mem_flatMap, List.mem_append] at hd
  obtain ⟨n, hn, hd | hd⟩ := hd
  · have : d = 58 := by simpa [show b "::" = [58, 58] by decide] using hd
    subst this; decide
  · exact (ident_char (h n hn) d hd).2

private theorem takeWhile_none {a s : Str} (h : ∀ c ∈ a, c ≠ 60) : (a ++ s).takeWhile (· != 60) = a ++ s.takeWhile (· != 60) := by
  induction a with
  | nil => rfl
  | cons x a ih =>
    have := h x (.head _)
    simp [this, ih fun c hc => h c (.tail _ hc)]

private theorem bare_eq {p : List Str} (h : ∀ n ∈ p, Ident n) {n args : Str} (hn : Ident n) (ha : args = [] ∨ args.head? = some 60) :
    bare (scope p ++ b "::" ++ n ++ args ++ b "::") = n := by
  have e0 : b "::" = [58, 58] := by decide
  have e1 : (scope p ++ b "::" ++ n ++ args ++ b "::").take ((scope p ++ b "::" ++ n ++ args ++ b "::").length - 2) =
      scope p ++ b "::" ++ n ++ args := by
    rw [List.take_append_of_le_length (by simp [e0]; omega), List.take_of_length_le (by simp [e0]; omega)]
  have e2 : (scope p ++ b "::" ++ n ++ args).takeWhile (· != 60) = scope p ++ b "::" ++ n := by
    rw [takeWhile_none (a := scope p ++ b "::" ++ n)]
    · rcases ha with rfl | ha
      · simp
      · cases args with
        | nil => simp
        | cons x r => simp at ha; simp [ha]
    · intro c hc
      rw [e0] at hc
      simp only [List.mem_append, List.mem_cons, List.not_mem_nil, or_false] at hc
      rcases hc with (hc | rfl | rfl) | hc
      · exact (scope_char h c hc).1
      · decide
      · decide
      · exact (ident_char hn c hc).2.1
  rw [bare, e1, e2]
  have e3 : (scope p ++ b "::" ++ n).reverse = n.reverse ++ 58 :: 58 :: (scope p).reverse := by simp [e0]
  rw [e3, to_app _ _ (by intro c hc; exact (ident_char hn c (by simpa using hc)).1)]
  simp

private theorem ident_start {n : Str} (h : Ident n) : identStart n = true := by
  obtain ⟨c, r, rfl, h1, _⟩ := h
  exact h1

/-! ### Turns do not forget enumerations -/

private theorem register_enums (s : St) (n : Str) (k : Kind) : (s.register n k).enums = s.enums := by
  cases h : s.hidden <;> simp [St.register, h]

private theorem tail2_enums {s s' : St} {r r' : Rd} (h : Decl.tail2 s r = .go s' r') : s'.enums = s.enums := by
  rw [Decl.tail2] at h
  split at h
  · cases h
  · rename_i s1 r1 e
    have hs : s1.enums = s.enums := by
      split at e
      · obtain ⟨x, _, e⟩ := Option.map_eq_some_iff.1 e
        cases e; exact register_enums ..
      · cases e; rfl
    split at h
    · cases h
    · rw [Decl.Turn.of.eq_def] at h
      split at h <;> cases h
      exact hs

private theorem function_enums {o : Opts} {s s' : St} {r r' : Rd} (h : Decl.function o s r = some (s', r')) : s'.enums = s.enums := by
  simp only [Decl.function, Option.bind_eq_bind, Option.bind_eq_some_iff] at h
  obtain ⟨x, _, y, _, h⟩ := h
  cases h
  simp only [St.function]
  split
  · split
    · exact register_enums ..
    · rfl
  · rfl

private theorem tail1_enums {o : Opts} {s s' : St} {r r' : Rd} (h : Decl.tail1 o s r = .go s' r') : s'.enums = s.enums := by
  simp only [Decl.tail1] at h
  split at h
  · cases h
  rename_i s1 r1 e
  have hs1 : s1.enums = s.enums := by
    split at e
    · split at e
      · cases e
      · obtain ⟨x, _, e⟩ := Option.map_eq_some_iff.1 e
        cases e
        split
        · exact register_enums ..
        · rfl
    · cases e; rfl
  split at h
  · cases h
  rename_i s2 r2 e2
  have hs2 : s2.enums = s1.enums := by
    split at e2
    · simp only [Option.bind_eq_bind] at e2
      obtain ⟨_, _, e2⟩ := Option.bind_eq_some_iff.1 e2
      split at e2 <;>
        (obtain ⟨_, _, e2⟩ := Option.bind_eq_some_iff.1 e2
         obtain ⟨_, _, e2⟩ := Option.bind_eq_some_iff.1 e2
         split at e2 <;>
          (obtain ⟨_, _, e2⟩ := Option.bind_eq_some_iff.1 e2
           obtain ⟨_, _, e2⟩ := Option.bind_eq_some_iff.1 e2
           cases e2; rfl))
    · cases e2; rfl
  split at h
  · cases h
  split at h
  · cases h
  rename_i r3 _ _ r4 _
  have key : ∀ s3 : St, s3.enums = s2.enums →
      (if r4.tok.head? = some 40 then
        match Decl.function o s3 r4 with
        | none => Decl.Turn.eof
        | some (s, r) => Decl.tail2 s r
      else Decl.tail2 s3 r4) = .go s' r' → s'.enums = s.enums := by
    intro s3 h3 h
    split at h
    · split at h
      · cases h
      · rename_i e3
        rw [tail2_enums h, function_enums e3, h3, hs2, hs1]
    · rw [tail2_enums h, h3, hs2, hs1]
  refine key _ ?_ h
  split <;> split <;> rfl

private theorem turn1_enums {o : Opts} {s s' : St} {r r' : Rd} (h : Decl.turn1 o s r = .go s' r') : ∃ x, s'.enums = s.enums ++ x := by
  simp only [Decl.turn1] at h
  split at h
  · split at h <;> cases h
    exact ⟨[], by simp⟩
  · split at h
    · cases h
    · split at h
      · cases h
      · rename_i s1 r1 e
        have hs1 : ∃ x, s1.enums = s.enums ++ x := by
          split at e
          · split at e
            · cases e
            · split at e
              · obtain ⟨x, _, e⟩ := Option.map_eq_some_iff.1 e
                cases e; exact ⟨_, rfl⟩
              · obtain ⟨x, _, e⟩ := Option.map_eq_some_iff.1 e
                cases e; exact ⟨[], by simp⟩
          · cases e; exact ⟨[], by simp⟩
        obtain ⟨x, hx⟩ := hs1
        refine ⟨x, ?_⟩
        split at h
        · split at h <;> cases h
          split
          · rw [register_enums, hx]
          · exact hx
        · rw [tail1_enums h, hx]

private theorem turn_enums {o : Opts} {s s' : St} {r r' : Rd} (h : Decl.turn o s r = .go s' r') : ∃ x, s'.enums = s.enums ++ x := by
  rw [Decl.turn] at h
  split at h
  · rw [Decl.Turn.of.eq_def] at h
    split at h <;> cases h
    exact ⟨[], by simp⟩
  · split at h
    · cases h
    · split at h
      · split at h
        · cases h
        · obtain ⟨x, hx⟩ := turn1_enums h; exact ⟨x, hx⟩
      · exact turn1_enums h

private theorem turn1_class {o : Opts} {s s' : St} {r r' : Rd} (h : Decl.turn1 o s r = .go s' r') :
    ¬ (r.tok = b "class" ∨ r.tok = b "struct") := by
  intro hk
  rw [Decl.turn1, if_neg (by rcases hk with hk | hk <;> rw [hk] <;> decide), if_pos hk] at h
  cases h

/-- A turn that the simple loop can do is done in the same way. -/
private theorem step_turn (c : Cfg) (ns pre targs : Str) (n : Nat) (s s' : St) (out : List Reg) (bf la tk t : Str) (rest : List Str)
    (r' : Rd) (ht : t ≠ b "}") (h : Decl.turn ⟨c.respect, c.overload, bare pre⟩ s ⟨la, tk, t, rest⟩ = .go s' r') :
    bodyLoop c ns (n + 1) pre targs s out ⟨bf, la, tk, t :: rest⟩ =
      bodyLoop c ns n pre targs s' (out ++ newEnums pre ns (s'.enums.drop s.enums.length)) r' := by
  rw [bodyLoop]
  simp only [Rd.next, ht, if_false]
  by_cases htd : t = b "typedef"
  · subst htd
    rw [Decl.turn, if_neg (show ¬ (b "typedef" = b "private" ∨ b "typedef" = b "protected" ∨ b "typedef" = b "public") by decide),
      if_pos rfl] at h
    cases h
  rw [if_neg htd]
  by_cases htt : t = b "template"
  · subst htt
    have h0 := h
    rw [Decl.turn, if_neg (show ¬ (b "template" = b "private" ∨ b "template" = b "protected" ∨ b "template" = b "public") by decide),
      if_neg (show b "template" ≠ b "typedef" by decide), if_pos rfl] at h
    cases e : Decl.template ⟨la, tk, b "template", rest⟩ with
    | none => rw [e] at h; cases h
    | some x =>
      rw [e] at h
      simp only [if_true, Option.map_some]
      rw [if_neg (turn1_class h), h0]
  · rw [if_neg htt]
    have hk : ¬ (t = b "class" ∨ t = b "struct") := by
      by_cases hp : t = b "private" ∨ t = b "protected" ∨ t = b "public"
      · rcases hp with rfl | rfl | rfl <;> decide
      · rw [Decl.turn, if_neg hp, if_neg htd, if_neg htt] at h
        exact turn1_class h
    simp only [hk, if_false, h]

private theorem newEnums_append (pre ns : Str) (a c : List (Bool × Str × Option (List Str))) :
    newEnums pre ns (a ++ c) = newEnums pre ns a ++ newEnums pre ns c := by simp [newEnums]

private theorem reach_body {c : Cfg} {ns pre targs : Str} {s : St} {r : Rd} {s' : St} {r' : Rd}
    (h : Reach ⟨c.respect, c.overload, bare pre⟩ s r s' r') :
    ∃ x, s'.enums = s.enums ++ x ∧ ∀ n out, r.rest.length < n → ∃ m, r'.rest.length < m ∧
      bodyLoop c ns n pre targs s out r = bodyLoop c ns m pre targs s' (out ++ newEnums pre ns x) r' := by
  induction h with
  | refl s r => exact ⟨[], by simp, fun n out h => ⟨n, h, by simp [newEnums]⟩⟩
  | step a e d _ ih =>
    obtain ⟨x, hx, ih⟩ := ih
    obtain ⟨y, hy⟩ := turn_enums e
    refine ⟨y ++ x, by rw [hx, hy, List.append_assoc], ?_⟩
    intro n out hn
    simp only [List.length_cons] at hn
    obtain ⟨n, rfl⟩ : ∃ m, n = m + 1 := ⟨n - 1, by omega⟩
    rw [step_turn c ns pre targs n _ _ out _ _ _ _ _ _ a e, hy, List.drop_left]
    obtain ⟨m, hm, e2⟩ := ih n (out ++ newEnums pre ns y) (by omega)
    exact ⟨m, hm, by rw [e2, newEnums_append, List.append_assoc]⟩

/-! ### Members with nested classes -/

private def Bnd (t : Str) : Prop := identStart t = false ∧ t ≠ b "~" ∧ t ≠ b "&"

private theorem expected_cons (o : Opts) (p : Bool) (i : Item) (is : List Item) :
    expected o (o.respect && p) (i :: is) = expected o (o.respect && p) [i] ++ expected o (o.respect && access p i) is := by
  cases i <;> simp [expected, access]

private theorem actions_cons (o : Opts) (p : Bool) (i : Item) (is : List Item) :
    actions o (o.respect && p) (i :: is) = actions o (o.respect && p) [i] ++ actions o (o.respect && access p i) is := by
  cases i <;> simp [actions, access]

private theorem types_wants (c : Cfg) (ns : List Str) : ∀ (B : Body) (path : List Str) (p : Bool), B.types p = false → B.wants c ns path p = []
  | .nil, _, _, _ => rfl
  | .item i r, path, p, h => by
    simp only [Body.types, Bool.or_eq_false_iff, Bool.and_eq_false_iff, Bool.not_eq_false', List.isEmpty_iff] at h
    rw [Body.wants, types_wants c ns r path _ h.2]
    rcases h.1 with h | h <;> simp [h]
  | .cls key name bs body r, path, p, h => by
    simp only [Body.types, Bool.or_eq_false_iff, Bool.not_eq_false'] at h
    rw [Body.wants, types_wants c ns r path _ h.2, h.1.1]
    simp
  | .decl _ _ r, path, p, h => types_wants c ns r path p h
  | .var _ _ _ r, path, p, h => types_wants c ns r path p h
  | .alias _ r, path, p, h => types_wants c ns r path p h
  | .tdef key tag bs body post r, path, p, h => by
    simp only [Body.types, Bool.or_eq_false_iff, Bool.not_eq_false'] at h
    rw [Body.wants, types_wants c ns r path _ h.2, h.1.1]
    simp
  | .tunion _ _ name r, path, p, h => by
    simp only [Body.types, Bool.or_eq_false_iff, Bool.not_eq_false'] at h
    rw [Body.wants, types_wants c ns r path _ h.2, h.1]
    simp

private theorem enum_matches (ns path : List Str) (l : List (Bool × Str × List Str)) :
    Matches (l.map (wantEnum ns path)) (newEnums (scope path ++ b "::") (scope ns ++ b "::") (l.map fun e => (e.1, e.2.1, some e.2.2))) := by
  induction l with
  | nil => exact .nil
  | cons e l ih =>
    have : newEnums (scope path ++ b "::") (scope ns ++ b "::") ((e :: l).map fun e => (e.1, e.2.1, some e.2.2)) =
        .enum (b "enum " ++ (if e.1 = true then b "class " else []) ++ (scope path ++ b "::") ++ e.2.1) (scope ns) e.2.2 ::
          newEnums (scope path ++ b "::") (scope ns ++ b "::") (l.map fun e => (e.1, e.2.1, some e.2.2)) := by
      simp [newEnums, strip_colons]
    rw [this]
    refine .cons ?_ ih
    have : wantEnum ns path e = .enum (b "enum " ++ (if e.1 = true then b "class " else []) ++ (scope path ++ b "::") ++ e.2.1) (scope ns) e.2.2 := by
      simp [wantEnum]
    rw [this]
    exact .enum

private theorem key_facts {key : Str} (h : key = b "class" ∨ key = b "struct") :
    key ≠ b "}" ∧ key ≠ b "typedef" ∧ key ≠ b "template" ∧ key ≠ b "enum" ∧ key ≠ b "(" ∧ key ≠ b "using" ∧ key ≠ b "namespace" ∧
      key ≠ b "<" ∧ (b "#pragma").isPrefixOf key = false := by
  rcases h with rfl | rfl <;> decide

/-- A nested class. -/
private theorem step_class (c : Cfg) (ns pre : Str) (n : Nat) (s : St) (out : List Reg) (bf la tk key name : Str)
    (rest : List Str) (hk : key = b "class" ∨ key = b "struct") (hn : identStart name = true) {out' : List Reg} {r' : Rd}
    (h : classDef c (fun isClass pre targs out r => bodyLoop c ns n pre targs { hidden := c.respect && isClass, priv := isClass } out r)
      ns pre [] [] s.priv out ⟨tk, key, name, rest⟩ = .done () out' r') :
    bodyLoop c ns (n + 1) pre [] s out ⟨bf, la, tk, key :: name :: rest⟩ = bodyLoop c ns n pre [] s out' r' := by
  obtain ⟨h1, h2, h3, _⟩ := key_facts hk
  rw [bodyLoop]
  simp only [Rd.next, h1, h2, h3, if_false, hk, if_true, hn, merge, ne_eq, not_true_eq_false, false_and, List.append_nil, h]

private theorem tname_run : ∀ (l : List Str) (n : Nat) (ptr : Bool) (bf la tk x : Str) (k : List Str), (∀ t ∈ tk :: l, t ≠ b ";" ∧ t ≠ b "{") →
    (l ++ x :: k).length < n → ∃ m bf' la', typedefName n ptr ⟨bf, la, tk, l ++ x :: k⟩ = typedefName m (bf' == b "*") ⟨bf', la', x, k⟩ ∧
      k.length < m := by
  intro l
  induction l with
  | nil =>
    intro n ptr bf la tk x k h hn
    obtain ⟨n, rfl⟩ : ∃ m, n = m + 1 := ⟨n - 1, by omega⟩
    have := h tk (.head _)
    refine ⟨n, la, tk, ?_, by simpa using hn⟩
    rw [typedefName]
    simp only [this.1, this.2, if_false, List.nil_append, Rd.next, Option.bind_some]
  | cons t l ih =>
    intro n ptr bf la tk x k h hn
    obtain ⟨n, rfl⟩ : ∃ m, n = m + 1 := ⟨n - 1, by omega⟩
    have ht := h tk (.head _)
    obtain ⟨m, x', y', e, hm⟩ := ih n (la == b "*") la tk t x k (fun u hu => h u (.tail _ hu)) (by simpa using hn)
    refine ⟨m, x', y', ?_, hm⟩
    rw [typedefName, ← e]
    simp only [ht.1, ht.2, if_false, List.cons_append, Rd.next, Option.bind_some]

/-- The name of a typedef from the braces on. -/
private theorem tname_block {body : List Str} (hb : Bal (b "{") (b "}") body) {post : List Str} (hp : ∀ t ∈ post, t ≠ b ";" ∧ t ≠ b "{")
    (n : Nat) (ptr : Bool) (bf la : Str) (k : List Str) (hn : (body ++ b "}" :: (post ++ b ";" :: k)).length < n) :
    ∃ o bf' la', typedefName n ptr ⟨bf, la, b "{", body ++ b "}" :: (post ++ b ";" :: k)⟩ = some (o, ⟨bf', la', b ";", k⟩) ∧
      ∀ name, post = [name] → Ident name → o = some name := by
  obtain ⟨n, rfl⟩ : ∃ m, n = m + 1 := ⟨n - 1, by omega⟩
  obtain ⟨x, y, hg, _⟩ := Decl.gobble_bal (show b "{" ≠ b "}" by decide) (by decide) hb bf la (b "{") (post ++ b ";" :: k) (by decide)
  simp only [List.length_append, List.length_cons] at hn
  rw [typedefName, if_neg (show ¬ (b "{" = b ";") by decide), if_pos rfl, hg]
  cases post with
  | nil =>
    obtain ⟨n, rfl⟩ : ∃ m, n = m + 1 := ⟨n - 1, by omega⟩
    simp only [List.nil_append, Rd.next, Option.bind_some]
    rw [typedefName, if_pos rfl]
    exact ⟨_, y, b "}", rfl, fun name h => by simp at h⟩
  | cons t post =>
    simp only [List.cons_append, Rd.next, Option.bind_some]
    obtain ⟨m, x', y', e, hm⟩ := tname_run post n (y == b "*") y (b "}") t (b ";") k hp (by simp at hn ⊢; omega)
    obtain ⟨m, rfl⟩ : ∃ q, m = q + 1 := ⟨m - 1, by omega⟩
    by_cases h : ∃ name, t :: post = [name] ∧ Ident name
    · obtain ⟨name, hp', hi⟩ := h
      simp only [List.cons.injEq] at hp'
      obtain ⟨rfl, rfl⟩ := hp'
      obtain ⟨n, rfl⟩ : ∃ m, n = m + 1 := ⟨n - 1, by omega⟩
      have ht := hp t (.head _)
      have hbr : t ≠ b "]" := by rintro rfl; exact absurd (ident_start hi) (by decide)
      refine ⟨some t, b "}", t, ?_, fun name h _ => by simpa using h⟩
      obtain ⟨n, rfl⟩ : ∃ m, n = m + 1 := ⟨n - 1, by simp at hn; omega⟩
      rw [typedefName]
      simp only [ht.1, ht.2, if_false, List.nil_append, Rd.next, Option.bind_some]
      rw [typedefName, if_pos rfl, if_neg]
      rintro (h | h)
      · exact absurd h (by decide)
      · exact hbr h
    · rw [e, typedefName, if_pos rfl]
      exact ⟨_, _, _, rfl, fun name h1 h2 => absurd ⟨name, h1, h2⟩ h⟩

private theorem tend_run : ∀ (l : List Str) (n : Nat) (bf la tk x : Str) (k : List Str), (∀ t ∈ tk :: l, t ≠ b ";" ∧ t ≠ b "{") →
    (l ++ x :: k).length < n → ∃ m bf' la', typedefEnd n ⟨bf, la, tk, l ++ x :: k⟩ = typedefEnd m ⟨bf', la', x, k⟩ ∧
      k.length < m := by
  intro l
  induction l with
  | nil =>
    intro n bf la tk x k h hn
    obtain ⟨n, rfl⟩ : ∃ m, n = m + 1 := ⟨n - 1, by omega⟩
    have := h tk (.head _)
    refine ⟨n, la, tk, ?_, by simpa using hn⟩
    rw [typedefEnd]
    simp only [this.1, this.2, if_false, List.nil_append, Rd.next, Option.bind_some]
  | cons t l ih =>
    intro n bf la tk x k h hn
    obtain ⟨n, rfl⟩ : ∃ m, n = m + 1 := ⟨n - 1, by omega⟩
    have ht := h tk (.head _)
    obtain ⟨m, x', y', e, hm⟩ := ih n la tk t x k (fun u hu => h u (.tail _ hu)) (by simpa using hn)
    refine ⟨m, x', y', ?_, hm⟩
    rw [typedefEnd, ← e]
    simp only [ht.1, ht.2, if_false, List.cons_append, Rd.next, Option.bind_some]

private theorem tend_plain (l : List Str) (n : Nat) (bf la tk : Str) (k : List Str) (h : ∀ t ∈ tk :: l, t ≠ b ";" ∧ t ≠ b "{")
    (hn : (l ++ b ";" :: k).length < n) : ∃ r, typedefEnd n ⟨bf, la, tk, l ++ b ";" :: k⟩ = some r := by
  obtain ⟨m, x, y, e, hm⟩ := tend_run l n bf la tk (b ";") k h hn
  obtain ⟨m, rfl⟩ : ∃ q, m = q + 1 := ⟨m - 1, by omega⟩
  rw [e, typedefEnd, if_pos rfl]
  exact ⟨_, rfl⟩

private theorem tend_block (l : List Str) {body : List Str} (hb : Bal (b "{") (b "}") body) {post : List Str}
    (hp : ∀ t ∈ post, t ≠ b ";" ∧ t ≠ b "{") (n : Nat) (bf la tk : Str) (k : List Str) (h : ∀ t ∈ tk :: l, t ≠ b ";" ∧ t ≠ b "{")
    (hn : (l ++ b "{" :: (body ++ b "}" :: (post ++ b ";" :: k))).length < n) :
    ∃ r, typedefEnd n ⟨bf, la, tk, l ++ b "{" :: (body ++ b "}" :: (post ++ b ";" :: k))⟩ = some r := by
  obtain ⟨m, x, y, e, hm⟩ := tend_run l n bf la tk (b "{") (body ++ b "}" :: (post ++ b ";" :: k)) h hn
  obtain ⟨m, rfl⟩ : ∃ q, m = q + 1 := ⟨m - 1, by omega⟩
  obtain ⟨x1, y1, hg, _⟩ := Decl.gobble_bal (show b "{" ≠ b "}" by decide) (by decide) hb x y (b "{") (post ++ b ";" :: k) (by decide)
  rw [e, typedefEnd, if_neg (show ¬ (b "{" = b ";") by decide), if_pos rfl, hg]
  simp only [List.length_append, List.length_cons] at hm
  cases post with
  | nil =>
    obtain ⟨m, rfl⟩ : ∃ q, m = q + 1 := ⟨m - 1, by omega⟩
    simp only [List.nil_append, Rd.next, Option.bind_some]
    rw [typedefEnd, if_pos rfl]
    exact ⟨_, rfl⟩
  | cons t post =>
    simp only [List.cons_append, Rd.next, Option.bind_some]
    exact tend_plain post m _ _ _ k hp (by simp at hm ⊢; omega)

/-- A typedef of a class, from `typedef` to the closing brace, the members being read by `body`. -/
private theorem tdef_run {respect overload : Bool} {body : Parser} {ns pre key : Str} {tag : Option Str} {bs : List Base}
    {mem post : List Str} (h : TdefOk key tag bs mem post) (out : List Reg) (bf la tk : Str) (k : List Str) :
    ∃ as bf' la', Bases.Acts [] (Bases.wanted respect (decide (key = b "class")) bs) as ∧ ∀ s out' r,
      body (decide (key = b "class")) (pre ++ tdefName tag post ++ b "::") [] out ⟨bf', la', b "{", mem ++ b "}" :: (post ++ b ";" :: k)⟩ = .done s out' r →
      typedefs respect overload body ns pre out ⟨bf, la, tk, key :: (tag.toList ++ (heads bs ++ b "{" :: (mem ++ b "}" :: (post ++ b ";" :: k))))⟩ =
        .done () (out' ++ [.cls (pre ++ tdefName tag post) (strip ns) [] as
          (Decl.keep ⟨respect, overload, bare (pre ++ tdefName tag post ++ b "::")⟩ s)]) r := by
  obtain ⟨hk, htag, hpost, hbs, hh, hbal, hp⟩ := h
  have hkey : (key == b "class") = decide (key = b "class") := by
    rcases hk with rfl | rfl <;> decide
  have hk' : key = b "struct" ∨ key = b "class" := hk.symm
  obtain ⟨t, r, e⟩ : ∃ t r, heads bs ++ b "{" :: (mem ++ b "}" :: (post ++ b ";" :: k)) = t :: r := by
    cases h : heads bs <;> simp
  have hst : starts ";:{" t = true ∧ identStart t = false ∧ t ≠ b ";" := by
    cases bs with
    | nil => simp only [heads, List.nil_append, List.cons.injEq] at e; rw [← e.1]; decide
    | cons x xs => simp only [heads, List.cons_append, List.cons.injEq] at e; rw [← e.1]; decide
  -- the name
  have hname : ∀ (x y : Str) (n : Nat), r.length < n → ∃ o bf' la', typedefName n false ⟨x, y, t, r⟩ = some (o, ⟨bf', la', b ";", k⟩) ∧
      (tag = none → o = some (tdefName tag post)) := by
    intro x y n hn
    have fin : ∀ {o : Option Str}, (∀ name, post = [name] → Ident name → o = some name) → tag = none → o = some (tdefName tag post) := by
      intro o ho ht
      obtain ⟨n, hn, hi⟩ := hpost ht
      rw [ho n hn hi, ht, hn]; rfl
    cases hhd : heads bs with
    | nil =>
      rw [hhd, List.nil_append, List.cons.injEq] at e
      obtain ⟨e1, e2⟩ := e
      rw [← e1, ← e2]
      obtain ⟨o, x', y', e3, ho⟩ := tname_block hbal hp n false x y k (by rw [e2]; exact hn)
      exact ⟨o, x', y', e3, fin ho⟩
    | cons a l =>
      rw [hhd, List.cons_append, List.cons.injEq] at e
      obtain ⟨e1, e2⟩ := e
      rw [← e1, ← e2]
      obtain ⟨m, x1, y1, e4, hm⟩ := tname_run l n false x y a (b "{") (mem ++ b "}" :: (post ++ b ";" :: k)) (by rw [← hhd]; exact hh)
        (by rw [e2]; exact hn)
      obtain ⟨o, x', y', e3, ho⟩ := tname_block hbal hp m (x1 == b "*") x1 y1 k hm
      exact ⟨o, x', y', e4.trans e3, fin ho⟩
  rw [e]
  cases tag with
  | none =>
    obtain ⟨o, x', y', e3, ho⟩ := hname tk key (r.length + 1) (by omega)
    obtain ⟨as, x2, y2, ha, eb⟩ := Bases.C73_bases_partial respect (decide (key = b "class")) [] bs hbs tk key t r _ e
    refine ⟨as, x2, y2, ha, ?_⟩
    intro s out' r' hbody
    have hskip : Rd.skipTo ⟨tk, key, t, r⟩ (starts ";:{") = some ⟨tk, key, t, r⟩ := by
      rw [Rd.skipTo]
      cases r <;> simp [Decl.skipTo, hst.1]
    rw [ho rfl] at e3
    simp only [typedefs, Rd.next, hk', if_true, Option.toList, List.nil_append, typedefStruct, hst.2.1, hskip, hst.2.2, if_false, e3,
      typedefStruct.read, hkey, eb, hbody, Bool.false_eq_true]
  | some g =>
    have hg := htag g rfl
    have hne : g ≠ [] := by rintro rfl; exact absurd (ident_start hg) (by decide)
    have hgs : starts ";:{" g = false := by
      have h1 := ident_start hg
      cases g with
      | nil => exact absurd rfl hne
      | cons c g =>
        have q : ∀ d : UInt8, d = 0 ∨ d = 59 ∨ d = 58 ∨ d = 123 → identStart (d :: g) = false := by
          rintro d (rfl | rfl | rfl | rfl) <;> rfl
        cases h : starts ";:{" (c :: g) with
        | false => rfl
        | true =>
          rw [starts, show b ";:{" = [59, 58, 123] by decide] at h
          rw [q c (by simpa using h)] at h1
          exact absurd h1 (by decide)
    obtain ⟨o, x', y', e3, ho⟩ := hname key g (r.length + 1) (by omega)
    obtain ⟨as, x2, y2, ha, eb⟩ := Bases.C73_bases_partial respect (decide (key = b "class")) [] bs hbs key g t r _ e
    refine ⟨as, x2, y2, ha, ?_⟩
    intro s out' r' hbody
    have hskip : Rd.skipTo ⟨tk, key, g, t :: r⟩ (starts ";:{") = some ⟨key, g, t, r⟩ := by
      rw [Rd.skipTo]
      cases r <;> simp [Decl.skipTo, hst.1, hgs]
    have hname : tdefName (some g) post = g := rfl
    rw [hname] at hbody ⊢
    cases o <;> simp only [typedefs, Rd.next, hk', if_true, Option.toList, List.cons_append, List.nil_append, typedefStruct, ident_start hg, hskip,
      hst.2.2, if_false, e3, typedefStruct.read, hkey, eb, hbody, hne]

private theorem tunion_run {respect overload : Bool} {body : Parser} {ns pre : Str} {tag : Option Str} {l : List Str} {name : Str}
    (htag : ∀ t, tag = some t → Ident t) (hl : Bal (b "{") (b "}") l) (hn : Ident name) (out : List Reg) (bf la tk : Str) (k : List Str) :
    ∃ bf' la', typedefs respect overload body ns pre out ⟨bf, la, tk, b "union" :: (tag.toList ++ b "{" :: (l ++ b "}" :: name :: b ";" :: k))⟩ =
        .done () (out ++ [.cls (pre ++ name) (strip ns) [] [] [⟨[], .bytes, false, false⟩]]) ⟨bf', la', b ";", k⟩ := by
  have hi : ∀ {t}, Ident t → t ≠ b ";" ∧ t ≠ b "{" := by
    intro t h
    constructor <;> (rintro rfl; exact absurd (ident_start h) (by decide))
  obtain ⟨m, x1, y1, e4, hm⟩ := tname_run tag.toList ((tag.toList ++ b "{" :: (l ++ b "}" :: name :: b ";" :: k)).length + 1) false la tk (b "union") (b "{")
    (l ++ b "}" :: ([name] ++ b ";" :: k)) (by
      intro t ht
      rcases List.mem_cons.1 ht with rfl | ht
      · decide
      · exact hi (htag t (by simpa using ht))) (by simp)
  obtain ⟨o, x', y', e3, ho⟩ := tname_block hl (post := [name]) (by intro t ht; simp at ht; exact ht ▸ hi hn) m (x1 == b "*") x1 y1 k hm
  rw [ho name rfl hn] at e3
  refine ⟨x', y', ?_⟩
  have q : ¬ (b "union" = b "struct" ∨ b "union" = b "class") := by decide
  simp only [typedefs, Rd.next, q, if_false, if_true]
  simp only [List.singleton_append] at e3 e4
  rw [e4, e3]

private theorem name_start {v : Str} (h : Decl.C66.Name v) : starts ":{" v = false ∧ v ≠ b "<" ∧ v ≠ b "::" ∧ v ≠ b "~" := by
  have hi := h.ident
  have hne : v ≠ b "::" := by rintro rfl; revert hi; decide
  rcases h.quiet.head with hh | ⟨c, r, rfl, hc⟩
  · exact absurd hh hne
  · refine ⟨?_, ?_, hne, ?_⟩
    · rw [starts]
      rw [show b "{;,:=([<}" = [123, 59, 44, 58, 61, 40, 91, 60, 125] by decide] at hc
      rw [show b ":{" = [58, 123] by decide]
      simp only [List.mem_cons, not_or] at hc
      simp [hc.1, hc.2]
    · rintro he
      rw [he] at hi; revert hi; decide
    · rintro he
      rw [he] at hi; revert hi; decide

private theorem body_run (c : Cfg) (ns : List Str) (B : Body) : ∀ (path : List Str) (p : Bool) (s : St) (out : List Reg)
    (bf la tk : Str) (k : List Str) (n : Nat), (∀ x ∈ path, Ident x) → B.Ok p → s.tmpl = false → s.priv = p →
    s.hidden = (c.respect && p) → Bnd tk → (B.toks ++ k).length < n →
    ∃ s' E m bf' la' tk', bodyLoop c (scope ns ++ b "::") n (scope path ++ b "::") [] s out ⟨bf, la, tk, B.toks ++ k⟩ =
        bodyLoop c (scope ns ++ b "::") m (scope path ++ b "::") [] s' (out ++ E) ⟨bf', la', tk', k⟩ ∧ k.length < m ∧
      s'.acts.map (fun a => (a.name, a.kind)) = s.acts.map (fun a => (a.name, a.kind)) ++
        expected ⟨c.respect, c.overload, bare (scope path ++ b "::")⟩ (c.respect && p) B.own ∧
      s'.count = s.count ++ B.own.flatMap Item.fns ∧ s'.usings = s.usings ++ B.own.flatMap Item.usings ∧
      (s.static = false → Tidy s.const B.own → s'.acts = s.acts ++
        actions ⟨c.respect, c.overload, bare (scope path ++ b "::")⟩ (c.respect && p) B.own) ∧
      Matches (B.wants c ns path p) E := by
  induction B with
  | nil =>
    intro path p s out bf la tk k n _ _ _ _ _ _ hn
    exact ⟨s, [], n, bf, la, tk, by simp [Body.toks], by simpa [Body.toks] using hn, by simp [Body.own, expected], by simp [Body.own],
      by simp [Body.own], by simp [Body.own, actions], .nil⟩
  | item i r ih =>
    intro path p s out bf la tk k n hp hok ht hs hh htk hn
    have hi : ∀ j ∈ [i], j.Ok := by intro j hj; simp at hj; exact hj ▸ hok.1
    obtain ⟨s1, x, y, z, r1, h1, f1, f2, f3, f4, f5, f6, f7, f8⟩ := Decl.items_state ⟨c.respect, c.overload, bare (scope path ++ b "::")⟩
      [i] hi s bf la tk (r.toks ++ k) htk ht
    have e : (Body.item i r).toks ++ k = [i].flatMap Item.toks ++ (r.toks ++ k) := by simp [Body.toks]
    rw [e] at hn ⊢
    obtain ⟨en, he, hl⟩ := reach_body (ns := scope ns ++ b "::") (targs := []) r1
    obtain ⟨m, hm, hl⟩ := hl n out hn
    have hpa : s1.priv = access p i := by rw [f5, hs]; cases i <;> rfl
    have f6 := f6 (by rw [hh, hs])
    obtain ⟨s2, E, m2, x2, y2, z2, g0, g1, g2, g3, g4, ga, g5⟩ := ih path (access p i) s1 (out ++ newEnums (scope path ++ b "::") (scope ns ++ b "::") en)
      x y z k m hp hok.2 f4 hpa (by rw [f6, hpa]) h1 hm
    refine ⟨s2, newEnums (scope path ++ b "::") (scope ns ++ b "::") en ++ E, m2, x2, y2, z2, ?_, g1, ?_, ?_, ?_, ?_, ?_⟩
    · rw [hl, g0, List.append_assoc]
    · rw [g2, f1, hh, Body.own, List.append_assoc]
      congr 1
      exact (expected_cons ⟨c.respect, c.overload, bare (scope path ++ b "::")⟩ p i r.own).symm
    · rw [g3, f2]; simp [Body.own]
    · rw [g4, f3]; simp [Body.own]
    · intro hst htd
      obtain ⟨k1, k2, k3⟩ := f8 r.own hst (by rw [Body.own] at htd; exact htd)
      rw [ga k2 k3, k1, hh, Body.own, List.append_assoc]
      congr 1
      exact (actions_cons ⟨c.respect, c.overload, bare (scope path ++ b "::")⟩ p i r.own).symm
    · rw [Body.wants]
      refine Matches.append ?_ g5
      have hen : en = (if p = true then [] else i.enums).map fun e => (e.1, e.2.1, some e.2.2) := by
        have := he.symm.trans f7
        have := List.append_cancel_left this
        rw [this, hs]
        cases i <;> simp [Decl.C66.enumsOf, Item.enums]
      rw [hen]
      cases p with
      | true => exact .nil
      | false => exact enum_matches ns path i.enums
  | cls key name bs body r ihb ih =>
    intro path p s out bf la tk k n hp hok ht hs hh htk hn
    obtain ⟨hk, hname, hbs, hbody, hpriv, hr⟩ := hok
    have hpath' : ∀ x ∈ path ++ [name], Ident x := by
      intro x hx
      rcases List.mem_append.1 hx with h | h
      · exact hp x h
      · simp at h; exact h ▸ hname
    have hpre : ∀ d ∈ scope path ++ b "::", d ≠ 60 ∧ d ≠ 62 := by
      intro d hd
      rcases List.mem_append.1 hd with h | h
      · exact scope_char hp d h
      · have : d = 58 := by simpa [show b "::" = [58, 58] by decide] using h
        subst this; decide
    have e : (Body.cls key name bs body r).toks ++ k = key :: name :: (heads bs ++ b "{" :: (body.toks ++ b "}" :: (r.toks ++ k))) := by
      simp [Body.toks]
    rw [e] at hn ⊢
    obtain ⟨n, rfl⟩ : ∃ m, n = m + 1 := ⟨n - 1, by omega⟩
    simp only [List.length_cons, List.length_append] at hn
    obtain ⟨as, r1, hhead, hacts, htok, hrest⟩ := Bases.C75_class_partial c.respect (scope path ++ b "::") [] key name tk s.priv bs hbs
      (body.toks ++ b "}" :: (r.toks ++ k)) hpre (fun d hd => (ident_char hname d hd).2)
    obtain ⟨bf1, la1, tk1, rest1⟩ := r1
    simp only at htok hrest
    subst htok hrest
    have hsc : scope path ++ b "::" ++ name ++ b "::" = scope (path ++ [name]) ++ b "::" := by simp [scope_snoc]
    obtain ⟨s1, E1, m1, x1, y1, z1, g0, g1, g2, g3, g4, ga, g5⟩ := ihb (path ++ [name]) (decide (key = b "class"))
      { hidden := c.respect && decide (key = b "class"), priv := decide (key = b "class") } out bf1 la1 (b "{")
      (b "}" :: (r.toks ++ k)) n hpath' hbody rfl rfl rfl ⟨by decide, by decide, by decide⟩ (by simp; omega)
    obtain ⟨m1, rfl⟩ : ∃ q, m1 = q + 1 := ⟨m1 - 1, by simp at g1; omega⟩
    have hdone : bodyLoop c (scope ns ++ b "::") n (scope path ++ b "::" ++ name ++ b "::") []
        { hidden := c.respect && decide (key = b "class"), priv := decide (key = b "class") } out
        ⟨bf1, la1, b "{", body.toks ++ b "}" :: (r.toks ++ k)⟩ = .done s1 (out ++ E1) ⟨y1, z1, b "}", r.toks ++ k⟩ := by
      rw [hsc, g0, bodyLoop]
      simp [Rd.next]
    have hbare : bare (scope path ++ b "::" ++ name ++ b "::") = name := by
      have := bare_eq hp hname (args := []) (.inl rfl)
      simpa using this
    obtain ⟨R, hR⟩ : ∃ R : Reg, R = .cls (key ++ b " " ++ (scope path ++ b "::" ++ name)) (scope ns) [] as
      (Decl.keep ⟨c.respect, c.overload, name⟩ s1) := ⟨_, rfl⟩
    have hkey : (key == b "class") = decide (key = b "class") := by
      rcases hk with rfl | rfl <;> decide
    have hdef : classDef c (fun isClass pre targs out r => bodyLoop c (scope ns ++ b "::") n pre targs
        { hidden := c.respect && isClass, priv := isClass } out r) (scope ns ++ b "::") (scope path ++ b "::") [] [] s.priv out
        ⟨tk, key, name, heads bs ++ b "{" :: (body.toks ++ b "}" :: (r.toks ++ k))⟩ =
        .done () (out ++ (E1 ++ (if p = true then [] else [R]))) ⟨y1, z1, b "}", r.toks ++ k⟩ := by
      rw [classDef, hhead]
      simp only [if_true, hkey, hdone, hbare, strip_colons, hR, hs]
      cases p <;> simp
    rw [step_class _ _ _ _ _ _ _ _ _ _ _ _ hk (ident_start hname) hdef]
    obtain ⟨s2, E2, m2, x2, y2, z2, q0, q1, q2, q3, q4, qa, q5⟩ := ih path p s (out ++ (E1 ++ (if p = true then [] else [R])))
      y1 z1 (b "}") k n hp hr ht hs hh ⟨by decide, by decide, by decide⟩ (by simp at hn ⊢; omega)
    refine ⟨s2, E1 ++ (if p = true then [] else [R]) ++ E2, m2, x2, y2, z2, ?_, q1, q2, q3, q4, qa, ?_⟩
    · rw [q0]; simp
    · rw [Body.wants]
      refine Matches.append ?_ q5
      cases p with
      | true =>
        rw [types_wants c ns body _ _ (hpriv rfl)] at g5
        rw [g5.nil_left]
        exact .nil
      | false =>
        refine Matches.append g5 (.cons ?_ .nil)
        rw [hR, wantCls]
        have : key ++ b " " ++ scope path ++ b "::" ++ name ++ [] = key ++ b " " ++ (scope path ++ b "::" ++ name) := by simp
        rw [this]
        have hb : bare (scope (path ++ [name]) ++ b "::") = name := by rw [← hsc, hbare]
        rw [hb] at g2 ga
        refine .cls hacts (Decl.keep_kept _ body.own s1 _ (by simpa using g2) (by simpa using g3) (by simpa using g4)) ?_
        intro htd
        exact Decl.keep_acts _ body.own s1 _ (by simpa using ga rfl htd) (by simpa using g3) (by simpa using g4)
  | decl key name r ih =>
    intro path p s out bf la tk k n hp hok ht hs hh htk hn
    obtain ⟨hk, hname, hr⟩ := hok
    have e : (Body.decl key name r).toks ++ k = key :: name :: b ";" :: (r.toks ++ k) := by simp [Body.toks]
    rw [e] at hn ⊢
    obtain ⟨n, rfl⟩ : ∃ m, n = m + 1 := ⟨n - 1, by omega⟩
    have hdef : classDef c (fun isClass pre targs out r => bodyLoop c (scope ns ++ b "::") n pre targs
        { hidden := c.respect && isClass, priv := isClass } out r) (scope ns ++ b "::") (scope path ++ b "::") [] [] s.priv out
        ⟨tk, key, name, b ";" :: (r.toks ++ k)⟩ = .done () out ⟨key, name, b ";", r.toks ++ k⟩ := by
      rw [classDef, Bases.C75_final_fails _ _ _ _ _ _ _ _ _ (by decide) (by decide) (by decide)]
      simp
    rw [step_class _ _ _ _ _ _ _ _ _ _ _ _ hk (ident_start hname) hdef]
    exact ih path p s out key name (b ";") k n hp hr ht hs hh ⟨by decide, by decide, by decide⟩ (by simp at hn ⊢; omega)
  | var key name v r ih =>
    intro path p s out bf la tk k n hp hok ht hs hh htk hn
    obtain ⟨hk, hname, hv, hr⟩ := hok
    have e : (Body.var key name v r).toks ++ k = key :: name :: v :: b ";" :: (r.toks ++ k) := by simp [Body.toks]
    rw [e] at hn ⊢
    obtain ⟨n, rfl⟩ : ∃ m, n = m + 1 := ⟨n - 1, by omega⟩
    simp only [List.length_cons, List.length_append] at hn
    obtain ⟨v1, v2, v3, v4⟩ := name_start hv
    have hna : (name == b "&") = false := by
      rw [beq_eq_false_iff_ne]
      rintro rfl
      exact absurd (ident_start hname) (by decide)
    have hdef : classDef c (fun isClass pre targs out r => bodyLoop c (scope ns ++ b "::") n pre targs
        { hidden := c.respect && isClass, priv := isClass } out r) (scope ns ++ b "::") (scope path ++ b "::") [] [] s.priv out
        ⟨tk, key, name, v :: b ";" :: (r.toks ++ k)⟩ = .done () out ⟨key, name, v, b ";" :: (r.toks ++ k)⟩ := by
      rw [classDef, Bases.C75_final_fails _ _ _ _ _ _ _ _ _ v1 v2 v3]
      simp
    rw [step_class _ _ _ _ _ _ _ _ _ _ _ _ hk (ident_start hname) hdef]
    have r1 := Decl.sep_reach ⟨c.respect, c.overload, bare (scope path ++ b "::")⟩ s key name v (b ";") (r.toks ++ k) (.inl rfl)
    rw [if_pos hv.ident] at r1
    obtain ⟨en, he, hl⟩ := reach_body (ns := scope ns ++ b "::") (targs := []) r1
    obtain ⟨m, hm, hl⟩ := hl n out (by simp; omega)
    rw [register_enums] at he
    have hen : en = [] := by simpa using he
    have hreg : (s.register v (.data (name == b "&"))).tmpl = false ∧ (s.register v (.data (name == b "&"))).priv = p ∧ (s.register v (.data (name == b "&"))).hidden = (c.respect && p) ∧
        (s.register v (.data (name == b "&"))).count = s.count ∧ (s.register v (.data (name == b "&"))).usings = s.usings := by
      cases h : s.hidden <;> simp [St.register, h, ht, hs, ← hh]
    obtain ⟨r2, r3, r4, r5, r6⟩ := hreg
    obtain ⟨s2, E, m2, x2, y2, z2, g0, g1, g2, g3, g4, ga, g5⟩ := ih path p (s.register v (.data (name == b "&"))) out name v (b ";") k m hp hr r2 r3 r4
      ⟨by decide, by decide, by decide⟩ (by simpa using hm)
    refine ⟨s2, E, m2, x2, y2, z2, ?_, g1, ?_, ?_, ?_, ?_, g5⟩
    · rw [hl, hen]
      simpa [newEnums] using g0
    · rw [g2, Body.own]
      have ex := expected_cons ⟨c.respect, c.overload, bare (scope path ++ b "::")⟩ p (.data [⟨[], v, .plain⟩]) r.own
      simp only [access] at ex
      rw [ex, ← List.append_assoc]
      congr 1
      cases h : s.hidden <;> simp [St.register, h, expected, ← hh, Item.members, Decl.C66.Declr.kind, Decl.C66.Shape.kind, hna]
    · rw [g3, r5]; simp [Body.own, Item.fns]
    · rw [g4, r6]; simp [Body.own, Item.usings]
    · intro hst htd
      have hreg : (s.register v (.data (name == b "&"))).static = false ∧ (s.register v (.data (name == b "&"))).const = s.const := by
        cases h : s.hidden <;> simp [St.register, h]
      rw [ga hreg.1 (by rw [hreg.2]; simpa [Body.own, Tidy, Decl.C66.says, Decl.C66.top] using htd), Body.own]
      have ex := actions_cons ⟨c.respect, c.overload, bare (scope path ++ b "::")⟩ p (.data [⟨[], v, .plain⟩]) r.own
      simp only [access] at ex
      rw [ex, ← List.append_assoc]
      congr 1
      cases h : s.hidden <;> simp [St.register, h, hst, actions, ← hh, Item.acts, Decl.C66.Declr.kind, Decl.C66.Shape.kind, hna, Decl.C66.says,
        Decl.C66.top]
  | alias l r ih =>
    intro path p s out bf la tk k n hp hok ht hs hh htk hn
    obtain ⟨⟨h0, h1, h2, h3, hl⟩, hr⟩ := hok
    have e : (Body.alias l r).toks ++ k = b "typedef" :: (l ++ b ";" :: (r.toks ++ k)) := by simp [Body.toks]
    rw [e] at hn ⊢
    obtain ⟨n, rfl⟩ : ∃ m, n = m + 1 := ⟨n - 1, by omega⟩
    cases l with
    | nil => exact absurd rfl h0
    | cons a l =>
      simp only [List.head?_cons, ne_eq, Option.some.injEq] at h1 h2 h3
      obtain ⟨re, hend⟩ := tend_plain (a :: l) ((a :: l ++ b ";" :: (r.toks ++ k)).length + 1) la tk (b "typedef") (r.toks ++ k)
        (by intro t ht; rcases List.mem_cons.1 ht with rfl | ht
            · decide
            · exact hl t ht) (by simp)
      obtain ⟨x, y, hsk⟩ := Decl.skip_some (· == b ";") l tk (b "typedef") a (b ";") (r.toks ++ k) (by decide)
        (by simpa using (hl a (.head _)).1) (fun t ht => by simpa using (hl t (.tail _ ht)).1)
      have hskip : Rd.skipTo ⟨x, y, b ";", r.toks ++ k⟩ (· == b ";") = some ⟨x, y, b ";", r.toks ++ k⟩ := by
        rw [Rd.skipTo, Decl.skipTo.eq_def]; simp
      have hst : bodyLoop c (scope ns ++ b "::") (n + 1) (scope path ++ b "::") [] s out
          ⟨bf, la, tk, b "typedef" :: (a :: l ++ b ";" :: (r.toks ++ k))⟩ =
          bodyLoop c (scope ns ++ b "::") n (scope path ++ b "::") [] s out ⟨x, y, b ";", r.toks ++ k⟩ := by
        rw [bodyLoop]
        have q : b "typedef" ≠ b "}" := by decide
        simp only [Rd.next, q, if_false, if_true, hend]
        simp only [typedefs, List.cons_append, Rd.next, h1, h2, h3, or_self, if_false, hsk, hskip]
      rw [hst]
      exact ih path p s out x y (b ";") k n hp hr ht hs hh ⟨by decide, by decide, by decide⟩ (by simp at hn ⊢; omega)
  | tunion tag l name r ih =>
    intro path p s out bf la tk k n hp hok ht hs hh htk hn
    obtain ⟨htag, hl, hname, rfl, hr⟩ := hok
    have e : (Body.tunion tag l name r).toks ++ k = b "typedef" :: b "union" :: (tag.toList ++ b "{" :: (l ++ b "}" :: name :: b ";" :: (r.toks ++ k))) := by
      simp [Body.toks]
    rw [e] at hn ⊢
    obtain ⟨n, rfl⟩ : ∃ m, n = m + 1 := ⟨n - 1, by omega⟩
    have hi : ∀ {t}, Ident t → t ≠ b ";" ∧ t ≠ b "{" := by
      intro t h
      constructor <;> (rintro rfl; exact absurd (ident_start h) (by decide))
    obtain ⟨re, hend⟩ := tend_block (b "union" :: tag.toList) hl (post := [name]) (by intro t ht; simp at ht; exact ht ▸ hi hname)
      ((b "union" :: (tag.toList ++ b "{" :: (l ++ b "}" :: name :: b ";" :: (r.toks ++ k)))).length + 1) la tk (b "typedef") (r.toks ++ k)
        (by intro t ht
            rcases List.mem_cons.1 ht with rfl | ht
            · decide
            rcases List.mem_cons.1 ht with rfl | ht
            · decide
            · exact hi (htag t (by simpa using ht))) (by simp)
    simp only [List.cons_append, List.nil_append] at hend
    obtain ⟨x, y, hu⟩ := tunion_run (respect := c.respect) (overload := c.overload)
      (body := fun isClass pre targs out r => bodyLoop c (scope ns ++ b "::") n pre targs { hidden := c.respect && isClass, priv := isClass } out r)
      (ns := scope ns ++ b "::") (pre := scope path ++ b "::") htag hl hname out la tk (b "typedef") (r.toks ++ k)
    have hskip : Rd.skipTo ⟨x, y, b ";", r.toks ++ k⟩ (· == b ";") = some ⟨x, y, b ";", r.toks ++ k⟩ := by
      rw [Rd.skipTo, Decl.skipTo.eq_def]; simp
    have hst : bodyLoop c (scope ns ++ b "::") (n + 1) (scope path ++ b "::") [] s out
        ⟨bf, la, tk, b "typedef" :: b "union" :: (tag.toList ++ b "{" :: (l ++ b "}" :: name :: b ";" :: (r.toks ++ k)))⟩ =
        bodyLoop c (scope ns ++ b "::") n (scope path ++ b "::") [] s
          (out ++ [.cls (scope path ++ b "::" ++ name) (strip (scope ns ++ b "::")) [] [] [⟨[], .bytes, false, false⟩]]) ⟨x, y, b ";", r.toks ++ k⟩ := by
      rw [bodyLoop]
      have q : b "typedef" ≠ b "}" := by decide
      simp only [Rd.next, q, if_false, if_true, hend, hu, hskip]
    rw [hst, strip_colons]
    obtain ⟨s2, E2, m2, x2, y2, z2, q0, q1, q2, q3, q4, qa, q5⟩ := ih path false s
      (out ++ [.cls (scope path ++ b "::" ++ name) (scope ns) [] [] [⟨[], .bytes, false, false⟩]])
      x y (b ";") k n hp hr ht hs hh ⟨by decide, by decide, by decide⟩ (by simp at hn ⊢; omega)
    refine ⟨s2, .cls (scope path ++ b "::" ++ name) (scope ns) [] [] [⟨[], .bytes, false, false⟩] :: E2, m2, x2, y2, z2, ?_, q1, q2, q3, q4, qa, ?_⟩
    · rw [q0, List.append_assoc, List.singleton_append]
    · rw [Body.wants]
      exact Matches.cons (.cls .nil rfl (fun _ => rfl)) q5
  | tdef key tag bs body post r ihb ih =>
    intro path p s out bf la tk k n hp hok ht hs hh htk hn
    obtain ⟨htd, hbody, rfl, hr⟩ := hok
    obtain ⟨hk, htag, hpost, hbs, hhd, hbal, hpo⟩ := id htd
    have hname : Ident (tdefName tag post) := by
      cases tag with
      | none => obtain ⟨n, hn, hi⟩ := hpost rfl; rw [hn]; exact hi
      | some g => exact htag g rfl
    have hpath' : ∀ x ∈ path ++ [tdefName tag post], Ident x := by
      intro x hx
      rcases List.mem_append.1 hx with h | h
      · exact hp x h
      · simp at h; exact h ▸ hname
    have e : (Body.tdef key tag bs body post r).toks ++ k = b "typedef" :: key :: (tag.toList ++ (heads bs ++ b "{" :: (body.toks ++ b "}" ::
        (post ++ b ";" :: (r.toks ++ k))))) := by simp [Body.toks]
    rw [e] at hn ⊢
    obtain ⟨n, rfl⟩ : ∃ m, n = m + 1 := ⟨n - 1, by omega⟩
    simp only [List.length_cons, List.length_append] at hn
    have hi : ∀ {t}, Ident t → t ≠ b ";" ∧ t ≠ b "{" := by
      intro t h
      constructor <;> (rintro rfl; exact absurd (ident_start h) (by decide))
    obtain ⟨re, hend⟩ := tend_block (key :: (tag.toList ++ heads bs)) hbal hpo
      ((key :: (tag.toList ++ (heads bs ++ b "{" :: (body.toks ++ b "}" :: (post ++ b ";" :: (r.toks ++ k)))))).length + 1) la tk (b "typedef") (r.toks ++ k)
        (by intro t ht
            rcases List.mem_cons.1 ht with rfl | ht
            · decide
            rcases List.mem_cons.1 ht with rfl | ht
            · rcases hk with rfl | rfl <;> decide
            rcases List.mem_append.1 ht with ht | ht
            · exact hi (htag t (by simpa using ht))
            · exact hhd t ht) (by simp)
    simp only [List.cons_append, List.append_assoc] at hend
    obtain ⟨as, bf1, la1, hacts, hrun⟩ := tdef_run (respect := c.respect) (overload := c.overload)
      (body := fun isClass pre targs out r => bodyLoop c (scope ns ++ b "::") n pre targs { hidden := c.respect && isClass, priv := isClass } out r)
      (ns := scope ns ++ b "::") (pre := scope path ++ b "::") htd out la tk (b "typedef") (r.toks ++ k)
    have hsc : scope path ++ b "::" ++ tdefName tag post ++ b "::" = scope (path ++ [tdefName tag post]) ++ b "::" := by simp [scope_snoc]
    obtain ⟨s1, E1, m1, x1, y1, z1, g0, g1, g2, g3, g4, ga, g5⟩ := ihb (path ++ [tdefName tag post]) (decide (key = b "class"))
      { hidden := c.respect && decide (key = b "class"), priv := decide (key = b "class") } out bf1 la1 (b "{")
      (b "}" :: (post ++ b ";" :: (r.toks ++ k))) n hpath' hbody rfl rfl rfl ⟨by decide, by decide, by decide⟩ (by simp; omega)
    obtain ⟨m1, rfl⟩ : ∃ q, m1 = q + 1 := ⟨m1 - 1, by simp at g1; omega⟩
    have hdone : bodyLoop c (scope ns ++ b "::") n (scope path ++ b "::" ++ tdefName tag post ++ b "::") []
        { hidden := c.respect && decide (key = b "class"), priv := decide (key = b "class") } out
        ⟨bf1, la1, b "{", body.toks ++ b "}" :: (post ++ b ";" :: (r.toks ++ k))⟩ = .done s1 (out ++ E1) ⟨y1, z1, b "}", post ++ b ";" :: (r.toks ++ k)⟩ := by
      rw [hsc, g0, bodyLoop]
      simp [Rd.next]
    have hrun := hrun _ _ _ hdone
    have hbare : bare (scope path ++ b "::" ++ tdefName tag post ++ b "::") = tdefName tag post := by
      have := bare_eq hp hname (args := []) (.inl rfl)
      simpa using this
    rw [hbare, strip_colons] at hrun
    obtain ⟨x, y, hskip⟩ := Decl.skip_some (· == b ";") post y1 z1 (b "}") (b ";") (r.toks ++ k) (by decide) (by decide)
      (fun t ht => by simpa using (hpo t ht).1)
    have hst : bodyLoop c (scope ns ++ b "::") (n + 1) (scope path ++ b "::") [] s out
        ⟨bf, la, tk, b "typedef" :: key :: (tag.toList ++ (heads bs ++ b "{" :: (body.toks ++ b "}" :: (post ++ b ";" :: (r.toks ++ k)))))⟩ =
        bodyLoop c (scope ns ++ b "::") n (scope path ++ b "::") [] s
          (out ++ E1 ++ [.cls (scope path ++ b "::" ++ tdefName tag post) (scope ns) [] as (Decl.keep ⟨c.respect, c.overload, tdefName tag post⟩ s1)])
          ⟨x, y, b ";", r.toks ++ k⟩ := by
      rw [bodyLoop]
      have q : b "typedef" ≠ b "}" := by decide
      simp only [Rd.next, q, if_false, if_true, hend, hrun, hskip]
    rw [hst]
    obtain ⟨s2, E2, m2, x2, y2, z2, q0, q1, q2, q3, q4, qa, q5⟩ := ih path false s
      (out ++ E1 ++ [.cls (scope path ++ b "::" ++ tdefName tag post) (scope ns) [] as (Decl.keep ⟨c.respect, c.overload, tdefName tag post⟩ s1)])
      x y (b ";") k n hp hr ht hs hh ⟨by decide, by decide, by decide⟩ (by simp at hn ⊢; omega)
    refine ⟨s2, E1 ++ [.cls (scope path ++ b "::" ++ tdefName tag post) (scope ns) [] as (Decl.keep ⟨c.respect, c.overload, tdefName tag post⟩ s1)] ++ E2, m2, x2, y2, z2, ?_, q1, q2, q3, q4, qa, ?_⟩
    · rw [q0]; simp only [List.append_assoc]
    · rw [Body.wants]
      refine Matches.append ?_ q5
      refine Matches.append g5 (.cons ?_ .nil)
      have hb : bare (scope (path ++ [tdefName tag post]) ++ b "::") = tdefName tag post := by rw [← hsc, hbare]
      rw [hb] at g2 ga
      refine .cls hacts (Decl.keep_kept _ body.own s1 _ (by simpa using g2) (by simpa using g3) (by simpa using g4)) ?_
      intro htd
      exact Decl.keep_acts _ body.own s1 _ (by simpa using ga rfl htd) (by simpa using g3) (by simpa using g4)

/-! ### The main loop -/

/-- The state belongs to this scope, whose enclosing namespaces end at `E`; a namespace that has ended may still be on the stack. -/
private def At (t : State) (len : Nat) (path : List Str) (E : List Nat) : Prop :=
  (t.ns = scope path ++ b "::" ∧ t.ends = E) ∨
  ∃ n m, Ident n ∧ t.ns = scope (path ++ [n]) ++ b "::" ∧ t.ends = m :: E ∧ len ≤ m

private theorem At.mono {t : State} {len len' : Nat} {path : List Str} {E : List Nat} (h : At t len path E) (hl : len' ≤ len) :
    At t len' path E := by
  rcases h with h | ⟨n, m, h1, h2, h3, h4⟩
  · exact .inl h
  · exact .inr ⟨n, m, h1, h2, h3, by omega⟩

private theorem settle {t : State} {len : Nat} {path : List Str} {E : List Nat} (h : At t len path E) {r : Rd} (hl : r.rest.length < len)
    (hE : ∀ e, E.head? = some e → e ≤ r.rest.length) :
    (if past t r = true then leave t else t) = { t with ns := scope path ++ b "::", ends := E } := by
  obtain ⟨ns, ends, out⟩ := t
  rcases h with ⟨h1, h2⟩ | ⟨n, m, h1, h2, h3, h4⟩
  · simp only at h1 h2
    subst h1 h2
    have : past ⟨scope path ++ b "::", ends, out⟩ r = false := by
      cases ends with
      | nil => rfl
      | cons e E =>
        have := hE e rfl
        simp only [past, decide_eq_false_iff_not]
        omega
    rw [this]; rfl
  · simp only at h2 h3
    subst h2 h3
    have : past ⟨scope (path ++ [n]) ++ b "::", m :: E, out⟩ r = true := by
      simp only [past, decide_eq_true_eq]; omega
    rw [this, if_pos rfl, leave]
    have e : (scope (path ++ [n])).reverse = n.reverse ++ 58 :: 58 :: (scope path).reverse := by
      rw [scope_snoc]; simp [show b "::" = [58, 58] by decide]
    simp only [strip_colons, e, List.tail_cons]
    rw [past_app _ _ (by intro c hc; exact (ident_char h1 c (by simpa using hc)).1)]
    simp [show b "::" = [58, 58] by decide]

private theorem loop_done {c : Cfg} {n : Nat} {t t' : State} {out : List Reg} {bf la tk x : Str} {rest : List Str} {r' : Rd}
    (h : turn c t ⟨la, tk, x, rest⟩ = .done t' out r') : loop c (n + 1) t ⟨bf, la, tk, x :: rest⟩ = loop c n t' r' := by
  rw [loop]; simp only [Rd.next, h]

/-- A turn that begins with a token other than those of directives, namespaces, typedefs and templates. -/
private theorem turn_rest {c : Cfg} {t : State} {len : Nat} {path : List Str} {E : List Nat} (h : At t len path E) {r : Rd}
    (hl : r.rest.length < len) (hE : ∀ e, E.head? = some e → e ≤ r.rest.length)
    (hp : (b "#pragma").isPrefixOf r.tok = false) (h1 : r.tok ≠ b "using") (h2 : r.tok ≠ b "namespace") (h3 : r.tok ≠ b "typedef")
    (h4 : r.tok ≠ b "template") {out : List Reg} {r' : Rd}
    (hr : rest c [] { t with ns := scope path ++ b "::", ends := E } r = .done () out r') :
    turn c t r = .done ⟨scope path ++ b "::", E, out⟩ out r' := by
  rw [turn]
  simp only [hp, Bool.false_eq_true, if_false, h1]
  rw [settle h hl hE]
  simp only [enter, h2, if_false, h3, h4, hr, turn.fin]

private theorem rest_plain {c : Cfg} {targs : Str} {t : State} {r : Rd} (h : r.tok ∉ [b "class", b "struct", b "enum", b "("]) :
    rest c targs t r = .done () t.out r := by
  simp only [List.mem_cons, List.not_mem_nil, or_false, not_or] at h
  obtain ⟨h1, h2, h3, h4⟩ := h
  simp only [rest, onClass, h1, h2, or_self, if_false, onEnum, h3, h4]

private theorem rest_class {c : Cfg} {targs : Str} {t : State} {bf la key name : Str} {l : List Str} (hk : Key key) (hn : identStart name = true)
    {out : List Reg} {r' : Rd} (h : classDef c (body c t.ns) t.ns t.ns targs targs false t.out ⟨la, key, name, l⟩ = .done () out r')
    (h1 : r'.tok ≠ b "enum") (h2 : r'.tok ≠ b "(") : rest c targs t ⟨bf, la, key, name :: l⟩ = .done () out r' := by
  have hk' : key = b "class" ∨ key = b "struct" := hk
  simp only [rest, onClass, hk', if_true, Rd.next, hn, h, onEnum, h1, if_false, h2]

private theorem scope_pre {path : List Str} (h : ∀ n ∈ path, Ident n) : ∀ d ∈ scope path ++ b "::", d ≠ 60 ∧ d ≠ 62 := by
  intro d hd
  rcases List.mem_append.1 hd with hd | hd
  · exact scope_char h d hd
  · have : d = 58 := by simpa [show b "::" = [58, 58] by decide] using hd
    subst this; decide

/-- The body of a class whose members are simple items. -/
private theorem body_items {c : Cfg} {path : List Str} {targs nm key name bf la : Str} (out : List Reg) {items : List Item}
    {k : List Str} (hok : ∀ i ∈ items, i.Ok) (hen : Decl.C66.enumsOf (decide (key = b "class")) items = [])
    (hb : bare (nm ++ b "::") = name) :
    ∃ s1 bf' la', body c (scope path ++ b "::") (decide (key = b "class")) (nm ++ b "::") targs out
      ⟨bf, la, b "{", items.flatMap Item.toks ++ b "}" :: k⟩ = .done s1 out ⟨bf', la', b "}", k⟩ ∧
      (Decl.keep ⟨c.respect, c.overload, name⟩ s1).map (fun a => (a.name, a.kind)) = kept ⟨c.respect, c.overload, name⟩ items
        (expected ⟨c.respect, c.overload, name⟩ (c.respect && decide (key = b "class")) items) ∧
      (Tidy false items → Decl.keep ⟨c.respect, c.overload, name⟩ s1 = keptActs ⟨c.respect, c.overload, name⟩ items
        (actions ⟨c.respect, c.overload, name⟩ (c.respect && decide (key = b "class")) items)) := by
  obtain ⟨s0, hs0⟩ : ∃ s0 : St, s0 = { hidden := c.respect && decide (key = b "class"), priv := decide (key = b "class") } := ⟨_, rfl⟩
  obtain ⟨s1, x, y, z, r1, h1, f1, f2, f3, f4, f5, f6, f7, f8⟩ := Decl.items_state ⟨c.respect, c.overload, bare (nm ++ b "::")⟩
      items hok s0 bf la (b "{") (b "}" :: k) ⟨by decide, by decide, by decide⟩ (by rw [hs0])
  obtain ⟨en, he, hl⟩ := reach_body (ns := scope path ++ b "::") (targs := targs) r1
  obtain ⟨m, hm, hl⟩ := hl ((items.flatMap Item.toks ++ b "}" :: k).length + 1) out (by simp)
  have hen0 : en = [] := by
    rw [f7] at he
    have := List.append_cancel_left he
    rw [← this, hs0]; simp [hen]
  obtain ⟨m, rfl⟩ : ∃ q, m = q + 1 := ⟨m - 1, by simp at hm; omega⟩
  refine ⟨s1, y, z, ?_, ?_, ?_⟩
  · rw [body, ← hs0, hl, hen0, bodyLoop]
    simp [Rd.next, newEnums]
  · rw [hb] at f1
    exact Decl.keep_kept _ items s1 _ (by simpa [hs0] using f1) (by simpa [hs0] using f2) (by simpa [hs0] using f3)
  · intro htd
    rw [hb] at f8
    exact Decl.keep_acts _ items s1 _ (by simpa [hs0] using (f8 [] (by rw [hs0]) (by rw [hs0, List.append_nil]; exact htd)).1)
      (by simpa [hs0] using f2) (by simpa [hs0] using f3)

/-- A class whose members are simple items. -/
private theorem def_items {c : Cfg} {path : List Str} {targs nm key name bf la tk0 : Str} {as : List Str} {out : List Reg} {items : List Item}
    {l k : List Str} (hok : ∀ i ∈ items, i.Ok) (hen : Decl.C66.enumsOf (decide (key = b "class")) items = []) (hk : Key key) {cargs : Str}
    (hb : bare (nm ++ b "::") = name)
    (hh : Bases.classHead c.respect (scope path ++ b "::") targs cargs false ⟨tk0, key, name, l⟩ =
      some (⟨nm, true, as, true⟩, ⟨bf, la, b "{", items.flatMap Item.toks ++ b "}" :: k⟩)) :
    ∃ acts bf' la', classDef c (body c (scope path ++ b "::")) (scope path ++ b "::") (scope path ++ b "::") targs cargs false out ⟨tk0, key, name, l⟩ =
        .done () (out ++ [.cls (key ++ b " " ++ nm) (scope path) targs as acts]) ⟨bf', la', b "}", k⟩ ∧
      acts.map (fun a => (a.name, a.kind)) = kept ⟨c.respect, c.overload, name⟩ items
        (expected ⟨c.respect, c.overload, name⟩ (c.respect && decide (key = b "class")) items) ∧
      (Tidy false items → acts = keptActs ⟨c.respect, c.overload, name⟩ items
        (actions ⟨c.respect, c.overload, name⟩ (c.respect && decide (key = b "class")) items)) := by
  have hkey : (key == b "class") = decide (key = b "class") := by
    rcases hk with rfl | rfl <;> decide
  obtain ⟨s1, y, z, hdone, h1, h2⟩ := body_items (c := c) (path := path) (targs := targs) (bf := bf) (la := la) (k := k) out hok hen hb
  refine ⟨Decl.keep ⟨c.respect, c.overload, name⟩ s1, y, z, ?_, h1, h2⟩
  rw [classDef, hh]
  simp only [if_true, hkey, hdone, hb, strip_colons]

private theorem args_head (ps : List Bases.Param) : (Bases.argList ps).head? = some 60 := rfl

private theorem params_ne {ps : List Bases.Param} (h : ps ≠ []) : Bases.paramList ps ≠ b "< > " := by
  cases ps with
  | nil => exact absurd rfl h
  | cons p ps =>
    intro e
    have e := congrArg List.length e
    have : 0 < (Bases.sepBy [44, 32] ((p :: ps).map Bases.Param.text)).length := by
      cases ps <;> simp [Bases.sepBy, Bases.Param.text] <;> omega
    rw [Bases.paramList, show b "< > " = [60, 32, 62, 32] by decide] at e
    simp only [List.length_append, List.length_cons, List.length_nil] at e
    omega

/-- `template < ps > x …` -/
private theorem turn_template {c : Cfg} {t : State} {len : Nat} {path : List Str} {E : List Nat} (h : At t len path E) {bf la x : Str}
    {ps : List Scan.TParam} (hps : ∀ p ∈ ps, p.Ok) {l : List Str}
    (hl : (b "<" :: (Scan.commas Scan.TParam.text ps ++ b ">" :: x :: l)).length < len)
    (hE : ∀ e, E.head? = some e → e ≤ (b "<" :: (Scan.commas Scan.TParam.text ps ++ b ">" :: x :: l)).length) :
    ∃ l1, ∀ (r2 : Rd) (out : List Reg) (r' : Rd),
      (if x = b "using" then Rd.skipTo ⟨l1, b ">", x, l⟩ (· == b ";") else some ⟨l1, b ">", x, l⟩) = some r2 →
      rest c (keepArgs (Scan.joinDot ([60] :: (Scan.commas Scan.TParam.toks ps ++ [[62]]))) x)
        { t with ns := scope path ++ b "::", ends := E } r2 = .done () out r' →
      turn c t ⟨bf, la, b "template", b "<" :: (Scan.commas Scan.TParam.text ps ++ b ">" :: x :: l)⟩ =
        .done ⟨scope path ++ b "::", E, out⟩ out r' := by
  obtain ⟨l1, hl1⟩ : ∃ l1, l1 = ((b "template" :: b "<" :: (Scan.commas Scan.TParam.text ps ++ b ">" :: x :: l)).getD
        ((Scan.commas Scan.TParam.text ps ++ b ">" :: x :: l).length - l.length - 1) []) := ⟨_, rfl⟩
  refine ⟨l1, ?_⟩
  intro r2 out r' hu hr
  have e := Scan.C45_defaults_partial (b "template") x ps hps l
  have e' : Decl.templateArgs ⟨la, b "template", b "<", Scan.commas Scan.TParam.text ps ++ b ">" :: x :: l⟩ =
      some (Scan.joinDot ([60] :: (Scan.commas Scan.TParam.toks ps ++ [[62]])), ⟨l1, b ">", x, l⟩) := by
    rw [Decl.templateArgs]
    have e1 : Scan.getTemplateArgs ⟨b "template", b "<", Scan.commas Scan.TParam.text ps ++ b ">" :: x :: l⟩ =
      .done (Scan.joinDot ([60] :: (Scan.commas Scan.TParam.toks ps ++ [[62]]))) ⟨[62], x, l⟩ := e
    rw [e1, hl1]
    rfl
  have q1 : (b "#pragma").isPrefixOf (b "template") = false := by decide
  have q2 : b "template" ≠ b "using" := by decide
  have q3 : b "template" ≠ b "namespace" := by decide
  have q4 : b "template" ≠ b "typedef" := by decide
  rw [turn]
  simp only [q1, Bool.false_eq_true, if_false, q2]
  rw [settle h hl hE]
  simp only [enter, q3, if_false, q4, if_true, Rd.next, ne_eq, not_true_eq_false, e', hu, hr, turn.fin]

/-- From one end of a turn to another. -/
private def Runs (c : Cfg) (path : List Str) (E : List Nat) (ws : List Want) (toks : List Str) : Prop :=
  ∀ (t : State) (bf la tk : Str) (k : List Str) (n : Nat), (∀ e, E.head? = some e → e < k.length) → At t (toks ++ k).length path E →
    (toks ++ k).length < n →
    ∃ t' X m bf' la' tk', loop c n t ⟨bf, la, tk, toks ++ k⟩ = loop c m t' ⟨bf', la', tk', k⟩ ∧ k.length < m ∧ At t' k.length path E ∧
      t'.out = t.out ++ X ∧ Matches ws X

private theorem Runs.nil (c : Cfg) (path : List Str) (E : List Nat) : Runs c path E [] [] := by
  intro t bf la tk k n _ h hn
  exact ⟨t, [], n, bf, la, tk, rfl, by simpa using hn, h, by simp, .nil⟩

private theorem Runs.append {c : Cfg} {path : List Str} {E : List Nat} {w1 w2 : List Want} {a d : List Str} (h1 : Runs c path E w1 a)
    (h2 : Runs c path E w2 d) : Runs c path E (w1 ++ w2) (a ++ d) := by
  intro t bf la tk k n hE h hn
  rw [List.append_assoc] at h hn ⊢
  obtain ⟨t1, X1, m1, x, y, z, e1, f1, g1, o1, M1⟩ := h1 t bf la tk (d ++ k) n (fun e he => by have := hE e he; simp; omega) h hn
  obtain ⟨t2, X2, m2, x2, y2, z2, e2, f2, g2, o2, M2⟩ := h2 t1 x y z k m1 hE g1 f1
  exact ⟨t2, X1 ++ X2, m2, x2, y2, z2, e1.trans e2, f2, g2, by rw [o2, o1, List.append_assoc], M1.append M2⟩

/-- A single turn. -/
private theorem Runs.one {c : Cfg} {path : List Str} {E : List Nat} {ws : List Want} {x : Str} {a : List Str}
    (h : ∀ (t : State) (bf la : Str) (k : List Str), (∀ e, E.head? = some e → e ≤ (a ++ k).length ∧ e < k.length) →
      At t ((a ++ k).length + 1) path E →
      ∃ X bf' la' tk', turn c t ⟨bf, la, x, a ++ k⟩ = .done ⟨scope path ++ b "::", E, t.out ++ X⟩ (t.out ++ X) ⟨bf', la', tk', k⟩ ∧ Matches ws X) :
    Runs c path E ws (x :: a) := by
  intro t bf la tk k n hE hA hn
  obtain ⟨X, bf', la', tk', e, M⟩ := h t la tk k (fun e he => by have := hE e he; simp; omega) (by simpa using hA)
  obtain ⟨n, rfl⟩ : ∃ m, n = m + 1 := ⟨n - 1, by omega⟩
  simp only [List.cons_append, List.length_cons, List.length_append] at hn
  exact ⟨_, X, n, bf', la', tk', loop_done e, by omega, .inl ⟨rfl, rfl⟩, rfl, M⟩

private theorem plain_facts {t : Str} (h : Plain t) : t ≠ b "using" ∧ t ≠ b "namespace" ∧ t ≠ b "typedef" ∧ t ≠ b "template" ∧
    t ∉ [b "class", b "struct", b "enum", b "("] ∧ (b "#pragma").isPrefixOf t = false := by
  obtain ⟨h, hp⟩ := h
  simp only [List.mem_cons, List.not_mem_nil, or_false, not_or] at h ⊢
  obtain ⟨a1, a2, a3, a4, a5, a6, a7, a8⟩ := h
  exact ⟨a1, a2, a3, a4, ⟨a5, a6, a7, a8⟩, hp⟩

private theorem plain_semi : Plain (b ";") := by unfold Plain; decide
private theorem plain_brace : Plain (b "}") := by unfold Plain; decide
private theorem plain_open : Plain (b "{") := by unfold Plain; decide

private theorem Runs.word (c : Cfg) (path : List Str) (E : List Nat) {x : Str} (hx : Plain x) : Runs c path E [] [x] := by
  apply Runs.one
  intro t bf la k hE hA
  obtain ⟨a1, a2, a3, a4, a5, a6⟩ := plain_facts hx
  refine ⟨[], bf, la, x, ?_, .nil⟩
  simp only [List.append_nil]
  exact turn_rest hA (by simp) (fun e he => by simpa using (hE e he).1) a6 a1 a2 a3 a4 (rest_plain a5)

private theorem Runs.parens (c : Cfg) (path : List Str) (E : List Nat) {l : List Str} (hl : Bal (b "(") (b ")") l) :
    Runs c path E [] (b "(" :: (l ++ [b ")"])) := by
  apply Runs.one
  intro t bf la k hE hA
  obtain ⟨x, y, hg, _⟩ := Decl.gobble_bal (show b "(" ≠ b ")" by decide) (by decide) hl bf la (b "(") k (by decide)
  rw [List.append_assoc] at hA hE ⊢
  refine ⟨[], x, y, b ")", ?_, .nil⟩
  simp only [List.append_nil]
  refine turn_rest hA (by simp) (fun e he => (hE e he).1) (show (b "#pragma").isPrefixOf (b "(") = false by decide)
    (show b "(" ≠ b "using" by decide) (show b "(" ≠ b "namespace" by decide) (show b "(" ≠ b "typedef" by decide)
    (show b "(" ≠ b "template" by decide) ?_
  have q1 : ¬ (b "(" = b "class" ∨ b "(" = b "struct") := by decide
  have q2 : b "(" ≠ b "enum" := by decide
  simp only [rest, onClass, q1, if_false, onEnum, q2, if_true]
  simp only [List.cons_append, List.nil_append, hg]

private theorem Runs.pragma (c : Cfg) (path : List Str) (E : List Nat) {x : Str} (hx : (b "#pragma").isPrefixOf x = true) :
    Runs c path E [] [x] := by
  intro t bf la tk k n hE hA hn
  obtain ⟨n, rfl⟩ : ∃ m, n = m + 1 := ⟨n - 1, by omega⟩
  refine ⟨t, [], n, la, tk, x, ?_, by simpa using hn, hA.mono (by simp), by simp, .nil⟩
  have e : turn c t ⟨la, tk, x, k⟩ = .done t t.out ⟨la, tk, x, k⟩ := by rw [turn]; simp only [hx, if_true]
  exact loop_done e

private theorem skip_semi {l k : List Str} (h : b ";" ∉ l) (bf la : Str) {x : Str} (hx : x ≠ b ";") :
    ∃ bf' la', Rd.skipTo ⟨bf, la, x, l ++ b ";" :: k⟩ (· == b ";") = some ⟨bf', la', b ";", k⟩ :=
  Decl.skip_some _ l bf la x (b ";") k (by simp) (by simpa using hx) (fun t ht => by
    simp only [beq_eq_false_iff_ne]; rintro rfl; exact h ht)

private theorem rest_semi {c : Cfg} {targs : Str} {t : State} {bf la : Str} {k : List Str} :
    rest c targs t ⟨bf, la, b ";", k⟩ = .done () t.out ⟨bf, la, b ";", k⟩ := rest_plain (by show b ";" ∉ _; decide)

private theorem Runs.use (c : Cfg) (path : List Str) (E : List Nat) {l : List Str} (hl : b ";" ∉ l) :
    Runs c path E [] (b "using" :: (l ++ [b ";"])) := by
  apply Runs.one
  intro t bf la k hE hA
  obtain ⟨x, y, hs⟩ := skip_semi (k := k) hl bf la (show b "using" ≠ b ";" by decide)
  refine ⟨[], x, y, b ";", ?_, .nil⟩
  have q1 : (b "#pragma").isPrefixOf (b "using") = false := by decide
  have q2 : b ";" ≠ b "namespace" := by decide
  have q3 : b ";" ≠ b "typedef" := by decide
  have q4 : b ";" ≠ b "template" := by decide
  rw [turn]
  simp only [q1, Bool.false_eq_true, if_false, if_true]
  simp only [List.append_assoc, List.cons_append, List.nil_append, hs]
  rw [settle hA (by simp; omega) (fun e he => by have := (hE e he).2; simp; omega)]
  simp only [enter, q2, q3, q4, if_false, rest_semi, turn.fin, List.append_nil]

private theorem Runs.alias (c : Cfg) (path : List Str) (E : List Nat) {name : Str} (hn : Ident name) {l : List Str} (hl : b ";" ∉ l) :
    Runs c path E [] (b "namespace" :: name :: b "=" :: (l ++ [b ";"])) := by
  apply Runs.one
  intro t bf la k hE hA
  obtain ⟨x, y, hs⟩ := skip_semi (k := k) hl (b "namespace") name (show b "=" ≠ b ";" by decide)
  refine ⟨[], x, y, b ";", ?_, .nil⟩
  have q0 : name ≠ b "{" := by rintro rfl; exact absurd (ident_start hn) (by decide)
  have q1 : (b "#pragma").isPrefixOf (b "namespace") = false := by decide
  have q2 : b "namespace" ≠ b "using" := by decide
  have q3 : b ";" ≠ b "typedef" := by decide
  have q4 : b ";" ≠ b "template" := by decide
  rw [turn]
  simp only [q1, Bool.false_eq_true, if_false, q2]
  rw [settle hA (by simp) (fun e he => (hE e he).1)]
  simp only [enter, if_true, Rd.next, List.cons_append, List.append_assoc, List.nil_append, Option.bind_eq_bind, Option.bind_some, ne_eq, q0,
    not_false_eq_true, hs, Option.map_some, q3, q4, if_false, rest_semi, turn.fin, List.append_nil]

private theorem Runs.typedef (c : Cfg) (path : List Str) (E : List Nat) {l : List Str} (h0 : l ≠ []) (h1 : l.head? ≠ some (b "struct"))
    (h2 : l.head? ≠ some (b "class")) (h3 : l.head? ≠ some (b "union")) (hl : b ";" ∉ l) :
    Runs c path E [] (b "typedef" :: (l ++ [b ";"])) := by
  apply Runs.one
  intro t bf la k hE hA
  cases l with
  | nil => exact absurd rfl h0
  | cons a l =>
    simp only [List.head?_cons, ne_eq, Option.some.injEq] at h1 h2 h3
    simp only [List.mem_cons, not_or] at hl
    obtain ⟨x, y, hs⟩ := skip_semi (k := k) hl.2 la (b "typedef") (fun h => hl.1 h.symm)
    refine ⟨[], x, y, b ";", ?_, .nil⟩
    have q1 : (b "#pragma").isPrefixOf (b "typedef") = false := by decide
    have q2 : b "typedef" ≠ b "using" := by decide
    have q3 : b "typedef" ≠ b "namespace" := by decide
    have q4 : b ";" ≠ b "template" := by decide
    rw [turn]
    simp only [q1, Bool.false_eq_true, if_false, q2]
    rw [settle hA (by simp) (fun e he => (hE e he).1)]
    simp only [enter, q3, if_false, if_true, typedefs, Rd.next, List.cons_append, List.append_assoc, List.nil_append, h1, h2, h3, or_self,
      hs, q4, rest_semi, turn.fin, List.append_nil]

private theorem turn_typedef {c : Cfg} {t : State} {len : Nat} {path : List Str} {E : List Nat} (h : At t len path E) {bf la : Str} {l : List Str}
    (hl : l.length < len) (hE : ∀ e, E.head? = some e → e ≤ l.length) {out : List Reg} {r' : Rd}
    (ht : typedefs c.respect c.overload (body c (scope path ++ b "::")) (scope path ++ b "::") [] t.out ⟨bf, la, b "typedef", l⟩ = .done () out r')
    (hr : r'.tok = b "}" ∨ r'.tok = b ";") :
    turn c t ⟨bf, la, b "typedef", l⟩ = .done ⟨scope path ++ b "::", E, out⟩ out r' := by
  have q1 : (b "#pragma").isPrefixOf (b "typedef") = false := by decide
  have q2 : b "typedef" ≠ b "using" := by decide
  have q3 : b "typedef" ≠ b "namespace" := by decide
  have q4 : r'.tok ≠ b "template" := by rcases hr with hr | hr <;> rw [hr] <;> decide
  have q5 : r'.tok ∉ [b "class", b "struct", b "enum", b "("] := by rcases hr with hr | hr <;> rw [hr] <;> decide
  rw [turn]
  simp only [q1, Bool.false_eq_true, if_false, q2]
  rw [settle h hl hE]
  simp only [enter, q3, if_false, if_true, ht, q4, rest_plain q5, turn.fin]

private theorem bare_flat {n : Str} (hn : Ident n) : bare (n ++ b "::") = n := by
  have h := ident_char hn
  have h1 : (n ++ b "::").take ((n ++ b "::").length - 2) = n := by
    rw [show b "::" = [58, 58] by decide]; simp
  have h2 : n.takeWhile (· != 60) = n := by
    have := takeWhile_none (a := n) (s := []) (fun c hc => (h c hc).2.1)
    simpa using this
  have h3 : ∀ s : Str, (∀ c ∈ s, c ≠ 58) → toColons s = s := by
    intro s
    induction s with
    | nil => intro _; rfl
    | cons c s ih => intro hs; rw [toColons, if_neg (fun h => hs c (.head _) h.1), ih (fun d hd => hs d (.tail _ hd))]
  rw [bare, h1, h2, h3 _ (fun c hc => (h c (by simpa using hc)).1), List.reverse_reverse]

private theorem Runs.words (c : Cfg) (path : List Str) (E : List Nat) : ∀ {l : List Str}, (∀ t ∈ l, Plain t) → Runs c path E [] l := by
  intro l
  induction l with
  | nil => intro _; exact Runs.nil c path E
  | cons t l ih =>
    intro h
    have := (Runs.word c path E (h t (.head _))).append (ih fun u hu => h u (.tail _ hu))
    simpa using this

/-- A turn that looks at what follows. -/
private theorem Runs.ahead {c : Cfg} {path : List Str} {E : List Nat} {ws : List Want} {x : Str} {a d : List Str}
    (h : ∀ (t : State) (bf la : Str) (k : List Str), (∀ e, E.head? = some e → e ≤ (a ++ (d ++ k)).length ∧ e < k.length) →
      At t ((a ++ (d ++ k)).length + 1) path E →
      ∃ X bf' la' tk', turn c t ⟨bf, la, x, a ++ (d ++ k)⟩ = .done ⟨scope path ++ b "::", E, t.out ++ X⟩ (t.out ++ X) ⟨bf', la', tk', d ++ k⟩ ∧ Matches ws X)
    (hd : Runs c path E [] d) : Runs c path E ws (x :: (a ++ d)) := by
  intro t bf la tk k n hE hA hn
  simp only [List.cons_append, List.append_assoc] at hA hn ⊢
  obtain ⟨X, bf', la', tk', e, M⟩ := h t la tk k (fun e he => by have := hE e he; simp; omega) (by simpa using hA)
  obtain ⟨n, rfl⟩ : ∃ m, n = m + 1 := ⟨n - 1, by omega⟩
  simp only [List.length_cons, List.length_append] at hn
  obtain ⟨t2, X2, m2, x2, y2, z2, e2, f2, g2, o2, M2⟩ := hd ⟨scope path ++ b "::", E, t.out ++ X⟩ bf' la' tk' k n hE (.inl ⟨rfl, rfl⟩)
    (by simp; omega)
  refine ⟨t2, X ++ X2, m2, x2, y2, z2, (loop_done e).trans e2, f2, g2, by rw [o2, List.append_assoc], ?_⟩
  simpa using M.append M2

private theorem Runs.tdef (c : Cfg) (path : List Str) (E : List Nat) {key : Str} {tag : Option Str} {bs : List Base} {items : List Item}
    {post : List Str} (htd : TdefOk key tag bs (items.flatMap Item.toks) post) (hi : ∀ i ∈ items, i.Ok)
    (hen : Decl.C66.enumsOf (decide (key = b "class")) items = []) (hp : ∀ t ∈ post, Plain t) :
    Runs c path E [wantTdef c path key (tdefName tag post) (tdefName tag post) bs items]
      (b "typedef" :: (key :: (tag.toList ++ (heads bs ++ b "{" :: (items.flatMap Item.toks ++ [b "}"]))) ++ (post ++ [b ";"]))) := by
  have hname : Ident (tdefName tag post) := by
    obtain ⟨hk, htag, hpost, hbs, hhd, hbal, hpo⟩ := htd
    cases tag with
    | none => obtain ⟨n, hn, hi⟩ := hpost rfl; rw [hn]; exact hi
    | some g => exact htag g rfl
  refine Runs.ahead ?_ (Runs.words c path E (by
    intro t ht
    rcases List.mem_append.1 ht with ht | ht
    · exact hp t ht
    · simp at ht; rw [ht]; exact plain_semi))
  intro t bf la k hE hA
  obtain ⟨as, bf1, la1, hacts, hrun⟩ := tdef_run (respect := c.respect) (overload := c.overload)
    (body := body c (scope path ++ b "::")) (ns := scope path ++ b "::") (pre := []) htd t.out bf la (b "typedef") k
  obtain ⟨s1, y, z, hdone, h1, h2⟩ := body_items (c := c) (path := path) (targs := []) (bf := bf1) (la := la1) (k := post ++ b ";" :: k) t.out hi hen
    (bare_flat hname)
  have hrun := hrun _ _ _ hdone
  rw [strip_colons] at hrun
  simp only [List.nil_append, bare_flat hname] at hrun
  simp only [List.cons_append, List.append_assoc, List.nil_append] at hA hE ⊢
  exact ⟨_, _, _, _, turn_typedef hA (by simp) (fun e he => (hE e he).1) hrun (.inl rfl), .cons (.cls hacts h1 h2) .nil⟩

private theorem Runs.tunion (c : Cfg) (path : List Str) (E : List Nat) {tag : Option Str} {l : List Str} {name : Str}
    (htag : ∀ t, tag = some t → Ident t) (hl : Bal (b "{") (b "}") l) (hn : Ident name) :
    Runs c path E [wantUnion path name] (b "typedef" :: b "union" :: (tag.toList ++ b "{" :: (l ++ [b "}", name, b ";"]))) := by
  apply Runs.one
  intro t bf la k hE hA
  obtain ⟨x, y, hu⟩ := tunion_run (respect := c.respect) (overload := c.overload) (body := body c (scope path ++ b "::"))
    (ns := scope path ++ b "::") (pre := []) htag hl hn t.out bf la (b "typedef") k
  rw [strip_colons] at hu
  simp only [List.cons_append, List.append_assoc, List.nil_append] at hA hE hu ⊢
  exact ⟨_, _, _, _, turn_typedef hA (by simp) (fun e he => (hE e he).1) hu (.inr rfl), .cons (.cls .nil rfl (fun _ => rfl)) .nil⟩

private theorem Runs.inst (c : Cfg) (path : List Str) (E : List Nat) {x : Str} (hx : x ≠ b "<") : Runs c path E [] [b "template", x] := by
  apply Runs.one
  intro t bf la k hE hA
  refine ⟨[], la, b "template", x, ?_, .nil⟩
  have q1 : (b "#pragma").isPrefixOf (b "template") = false := by decide
  have q2 : b "template" ≠ b "using" := by decide
  have q3 : b "template" ≠ b "namespace" := by decide
  have q4 : b "template" ≠ b "typedef" := by decide
  rw [turn]
  simp only [q1, Bool.false_eq_true, if_false, q2]
  rw [settle hA (by simp) (fun e he => (hE e he).1)]
  simp only [enter, q3, q4, if_false, if_true, Rd.next, List.cons_append, List.nil_append, ne_eq, hx, not_false_eq_true, List.append_nil]

private theorem tparams_append (ps : List Scan.TParam) (x y : List Str) : tparams ps x ++ y = tparams ps (x ++ y) := by
  simp [tparams]

private theorem Runs.tmpl (c : Cfg) (path : List Str) (E : List Nat) {ps : List Scan.TParam} (hps : ∀ p ∈ ps, p.Ok) {x : Str} (hx : Plain x) :
    Runs c path E [] (tparams ps [x]) := by
  apply Runs.one
  intro t bf la k hE hA
  obtain ⟨a1, a2, a3, a4, a5, a6⟩ := plain_facts hx
  simp only [List.cons_append, List.append_assoc, List.nil_append] at hA hE ⊢
  obtain ⟨l1, h⟩ := turn_template (c := c) (bf := bf) (la := la) hA hps (by simp) (fun e he => (hE e he).1)
  refine ⟨[], l1, b ">", x, ?_, .nil⟩
  simp only [List.append_nil]
  exact h _ _ _ (if_neg a1) (rest_plain a5)

private theorem Runs.tuse (c : Cfg) (path : List Str) (E : List Nat) {ps : List Scan.TParam} (hps : ∀ p ∈ ps, p.Ok) {l : List Str}
    (hl : b ";" ∉ l) : Runs c path E [] (tparams ps (b "using" :: (l ++ [b ";"]))) := by
  apply Runs.one
  intro t bf la k hE hA
  simp only [List.cons_append, List.append_assoc, List.nil_append] at hA hE ⊢
  obtain ⟨l1, h⟩ := turn_template (c := c) (bf := bf) (la := la) hA hps (by simp) (fun e he => (hE e he).1)
  obtain ⟨x, y, hs⟩ := skip_semi (k := k) hl l1 (b ">") (show b "using" ≠ b ";" by decide)
  refine ⟨[], x, y, b ";", ?_, .nil⟩
  simp only [List.append_nil]
  exact h _ _ _ ((if_pos rfl).trans hs) rest_semi

private theorem key_start {key : Str} (h : Key key) : (b "#pragma").isPrefixOf key = false ∧ key ≠ b "using" ∧ key ≠ b "namespace" ∧
    key ≠ b "typedef" ∧ key ≠ b "template" := by
  rcases h with rfl | rfl <;> decide

private theorem keepArgs_key {t key : Str} (h : Key key) (ht : t ≠ b "< > ") : keepArgs t key = t := by
  rw [keepArgs, if_neg]
  rintro (⟨h1, h2⟩ | h3)
  · rcases h with h | h
    · exact h1 h
    · exact h2 h
  · exact ht h3

private theorem Runs.decl (c : Cfg) (path : List Str) (E : List Nat) {key name x : Str} (hk : Key key) (hn : Ident name) (hx : Plain x)
    (hs : starts ":{" x = false) (hx' : x ≠ b "<") : Runs c path E [] [key, name, x] := by
  apply Runs.one
  intro t bf la k hE hA
  obtain ⟨a1, a2, a3, a4, a5⟩ := key_start hk
  obtain ⟨b1, b2, b3, b4, b5, b6⟩ := plain_facts hx
  simp only [List.mem_cons, List.not_mem_nil, or_false, not_or] at b5
  have hc : x ≠ b "::" := by rintro rfl; revert hs; decide
  refine ⟨[], key, name, x, ?_, .nil⟩
  simp only [List.append_nil]
  refine turn_rest hA (by simp) (fun e he => (hE e he).1) a1 a2 a3 a4 a5 ?_
  refine rest_class hk (ident_start hn) ?_ b5.2.2.1 b5.2.2.2
  rw [classDef]
  show (match Bases.classHead c.respect (scope path ++ b "::") [] [] false ⟨la, key, name, x :: k⟩ with
    | none => _
    | some (cl, r1) => _) = _
  rw [Bases.C75_final_fails _ _ _ _ _ _ _ _ _ hs hx' hc]
  simp

private theorem Runs.tdecl (c : Cfg) (path : List Str) (E : List Nat) {ps : List Bases.DParam} (h0 : ps ≠ []) (hps : ∀ p ∈ ps, p.Ok)
    {key name x : Str} (hk : Key key) (hn : Ident name) (hx : Plain x) (hs : starts ":{" x = false) (hx' : x ≠ b "<") :
    Runs c path E [] (tparams (ps.map Bases.DParam.scan) [key, name, x]) := by
  apply Runs.one
  intro t bf la k hE hA
  simp only [List.cons_append, List.append_assoc, List.nil_append] at hA hE ⊢
  obtain ⟨text, e1, e2, e3⟩ := Bases.C74_tokens_partial (b "template") key ps hps (name :: x :: k)
  have e4 := Scan.C45_defaults_partial (b "template") key (ps.map Bases.DParam.scan) (Bases.scan_oks ps hps) (name :: x :: k)
  rw [e1] at e4
  simp only [Scan.Scanned.done.injEq, and_true] at e4
  obtain ⟨l1, h⟩ := turn_template (c := c) (bf := bf) (la := la) hA (Bases.scan_oks ps hps) (by simp) (fun e he => (hE e he).1)
  obtain ⟨a1, a2, a3, a4, a5⟩ := key_start hk
  obtain ⟨b1, b2, b3, b4, b5, b6⟩ := plain_facts hx
  simp only [List.mem_cons, List.not_mem_nil, or_false, not_or] at b5
  have hc : x ≠ b "::" := by rintro rfl; revert hs; decide
  refine ⟨[], key, name, x, ?_, .nil⟩
  simp only [List.append_nil]
  refine h _ _ _ (if_neg a2) ?_
  rw [← e4, e2, keepArgs_key hk (params_ne (by simpa using h0))]
  refine rest_class hk (ident_start hn) ?_ b5.2.2.1 b5.2.2.2
  rw [e2] at e3
  have : Bases.classHead c.respect (scope path ++ b "::") (Bases.paramList (ps.map Bases.DParam.param))
      (Bases.paramList (ps.map Bases.DParam.param)) false ⟨b ">", key, name, x :: k⟩ =
      some (⟨scope path ++ b "::" ++ name ++ Bases.argList (ps.map Bases.DParam.param), false, [], false⟩, ⟨key, name, x, k⟩) := by
    simp [Bases.classHead, Rd.next, hx', e3, Bases.qualify, hc, hs]
  rw [classDef, this]
  simp

private theorem Runs.cls (c : Cfg) (path : List Str) (hpath : ∀ n ∈ path, Ident n) (E : List Nat) {key name : Str} {bs : List Base} {B : Body}
    (hk : Key key) (hn : Ident name) (hbs : ∀ x ∈ bs, x.Ok) (hB : B.Ok (decide (key = b "class"))) :
    Runs c path E (B.wants c path (path ++ [name]) (decide (key = b "class")) ++ [wantCls c path path key name [] [] bs B.own])
      (key :: name :: (heads bs ++ b "{" :: (B.toks ++ [b "}"]))) := by
  apply Runs.one
  intro t bf la k hE hA
  obtain ⟨a1, a2, a3, a4, a5⟩ := key_start hk
  have hpath' : ∀ x ∈ path ++ [name], Ident x := by
    intro x hx
    rcases List.mem_append.1 hx with h | h
    · exact hpath x h
    · simp at h; exact h ▸ hn
  simp only [List.cons_append, List.append_assoc, List.nil_append] at hA hE ⊢
  obtain ⟨as, r1, hhead, hacts, htok, hrest⟩ := Bases.C75_class_partial c.respect (scope path ++ b "::") [] key name la false bs hbs
    (B.toks ++ b "}" :: k) (scope_pre hpath) (fun d hd => (ident_char hn d hd).2)
  obtain ⟨bf1, la1, tk1, rest1⟩ := r1
  simp only at htok hrest
  subst htok hrest
  have hsc : scope path ++ b "::" ++ name ++ b "::" = scope (path ++ [name]) ++ b "::" := by simp [scope_snoc]
  obtain ⟨s1, X, m1, x1, y1, z1, g0, g1, g2, g3, g4, ga, g5⟩ := body_run c path B (path ++ [name]) (decide (key = b "class"))
    { hidden := c.respect && decide (key = b "class"), priv := decide (key = b "class") } t.out bf1 la1 (b "{")
    (b "}" :: k) ((B.toks ++ b "}" :: k).length + 1) hpath' hB rfl rfl rfl ⟨by decide, by decide, by decide⟩ (by simp)
  obtain ⟨m1, rfl⟩ : ∃ q, m1 = q + 1 := ⟨m1 - 1, by simp at g1; omega⟩
  have hdone : body c (scope path ++ b "::") (decide (key = b "class")) (scope path ++ b "::" ++ name ++ b "::") [] t.out
      ⟨bf1, la1, b "{", B.toks ++ b "}" :: k⟩ = .done s1 (t.out ++ X) ⟨y1, z1, b "}", k⟩ := by
    rw [body, hsc, g0, bodyLoop]
    simp [Rd.next]
  have hbare : bare (scope path ++ b "::" ++ name ++ b "::") = name := by
    have := bare_eq hpath hn (args := []) (.inl rfl)
    simpa using this
  have hkey : (key == b "class") = decide (key = b "class") := by
    rcases hk with rfl | rfl <;> decide
  refine ⟨X ++ [.cls (key ++ b " " ++ (scope path ++ b "::" ++ name)) (scope path) [] as (Decl.keep ⟨c.respect, c.overload, name⟩ s1)],
    y1, z1, b "}", ?_, ?_⟩
  · refine turn_rest hA (by simp) (fun e he => (hE e he).1) a1 a2 a3 a4 a5 ?_
    refine rest_class hk (ident_start hn) ?_ (show b "}" ≠ b "enum" by decide) (show b "}" ≠ b "(" by decide)
    rw [classDef, hhead]
    simp only [if_true, hkey, hdone, hbare, strip_colons, Bool.not_false]
    simp
  · refine Matches.append g5 (.cons ?_ .nil)
    have : wantCls c path path key name [] [] bs B.own = .cls (key ++ b " " ++ (scope path ++ b "::" ++ name)) (scope path) []
        (Bases.wanted c.respect (decide (key = b "class")) bs) (kept ⟨c.respect, c.overload, name⟩ B.own
          (expected ⟨c.respect, c.overload, name⟩ (c.respect && decide (key = b "class")) B.own)) (Tidy false B.own)
        (keptActs ⟨c.respect, c.overload, name⟩ B.own
          (actions ⟨c.respect, c.overload, name⟩ (c.respect && decide (key = b "class")) B.own)) := by simp [wantCls]
    rw [this]
    have hb : bare (scope (path ++ [name]) ++ b "::") = name := by rw [← hsc, hbare]
    rw [hb] at g2 ga
    refine .cls hacts (Decl.keep_kept _ B.own s1 _ (by simpa using g2) (by simpa using g3) (by simpa using g4)) ?_
    intro htd
    exact Decl.keep_acts _ B.own s1 _ (by simpa using ga rfl htd) (by simpa using g3) (by simpa using g4)

private theorem Runs.tcls (c : Cfg) (path : List Str) (hpath : ∀ n ∈ path, Ident n) (E : List Nat) {ps : List Bases.DParam} (h0 : ps ≠ [])
    (hps : ∀ p ∈ ps, p.Ok) {key name : Str} {bs : List Base} {items : List Item}
    (hk : Key key) (hn : Ident name) (hbs : ∀ x ∈ bs, x.Ok) (hi : ∀ i ∈ items, i.Ok)
    (hen : Decl.C66.enumsOf (decide (key = b "class")) items = []) :
    Runs c path E [wantCls c path path key name (Bases.paramList (ps.map Bases.DParam.param)) (Bases.argList (ps.map Bases.DParam.param)) bs items]
      (tparams (ps.map Bases.DParam.scan) (key :: name :: (heads bs ++ b "{" :: (items.flatMap Item.toks ++ [b "}"])))) := by
  apply Runs.one
  intro t bf la k hE hA
  simp only [List.cons_append, List.append_assoc, List.nil_append] at hA hE ⊢
  obtain ⟨l, hl⟩ : ∃ l, l = name :: (heads bs ++ b "{" :: (items.flatMap Item.toks ++ b "}" :: k)) := ⟨_, rfl⟩
  rw [← hl] at hA hE ⊢
  obtain ⟨text, e1, e2, e3⟩ := Bases.C74_tokens_partial (b "template") key ps hps l
  have e4 := Scan.C45_defaults_partial (b "template") key (ps.map Bases.DParam.scan) (Bases.scan_oks ps hps) l
  rw [e1] at e4
  simp only [Scan.Scanned.done.injEq, and_true] at e4
  obtain ⟨l1, h⟩ := turn_template (c := c) (bf := bf) (la := la) hA (Bases.scan_oks ps hps) (by simp) (fun e he => (hE e he).1)
  obtain ⟨a1, a2, a3, a4, a5⟩ := key_start hk
  obtain ⟨as, r1, hhead, hacts, htok, hrest⟩ := Bases.C75_template_partial c.respect (scope path ++ b "::")
    (Bases.paramList (ps.map Bases.DParam.param)) key name (b ">") (ps.map Bases.DParam.param)
    (by intro p hp; obtain ⟨q, hq, rfl⟩ := List.mem_map.1 hp; exact (hps q hq).param) bs hbs
    (items.flatMap Item.toks ++ b "}" :: k) (scope_pre hpath) (fun d hd => (ident_char hn d hd).2)
  obtain ⟨bf1, la1, tk1, rest1⟩ := r1
  simp only at htok hrest
  subst htok hrest
  obtain ⟨acts, y1, z1, hd, hm, hta⟩ := def_items (out := t.out) hi hen hk (bare_eq hpath hn (.inr (args_head _))) hhead
  refine ⟨[.cls (key ++ b " " ++ (scope path ++ b "::" ++ name ++ Bases.argList (ps.map Bases.DParam.param))) (scope path) (Bases.paramList (ps.map Bases.DParam.param)) as acts], y1, z1, b "}", ?_, .cons ?_ .nil⟩
  · refine h _ _ _ (if_neg a2) ?_
    rw [← e4, e2, keepArgs_key hk (params_ne (by simpa using h0)), hl]
    refine rest_class hk (ident_start hn) hd (show b "}" ≠ b "enum" by decide) (show b "}" ≠ b "(" by decide)
  · have : key ++ b " " ++ scope path ++ b "::" ++ name ++ Bases.argList (ps.map Bases.DParam.param) =
        key ++ b " " ++ (scope path ++ b "::" ++ name ++ Bases.argList (ps.map Bases.DParam.param)) := by simp
    rw [wantCls, this]
    exact .cls hacts hm hta

private theorem Runs.spec (c : Cfg) (path : List Str) (hpath : ∀ n ∈ path, Ident n) (E : List Nat) {args : List Str}
    (ha : ∀ t ∈ args, t.head? ≠ some 61 ∧ ∀ c ∈ t, c ≠ 60 ∧ c ≠ 62) {key name : Str} {bs : List Base} {items : List Item}
    (hk : Key key) (hn : Ident name) (hbs : ∀ x ∈ bs, x.Ok) (hi : ∀ i ∈ items, i.Ok)
    (hen : Decl.C66.enumsOf (decide (key = b "class")) items = []) :
    Runs c path E [wantCls c path path key name [] (Scan.joinDot (b "<" :: (args ++ [b ">"]))) bs items]
      (b "template" :: b "<" :: b ">" :: key :: name :: b "<" :: (args ++ b ">" :: (heads bs ++ b "{" :: (items.flatMap Item.toks ++ [b "}"])))) := by
  apply Runs.one
  intro t bf la k hE hA
  simp only [List.cons_append, List.append_assoc, List.nil_append] at hA hE ⊢
  obtain ⟨l, hl⟩ : ∃ l, l = name :: b "<" :: (args ++ b ">" :: (heads bs ++ b "{" :: (items.flatMap Item.toks ++ b "}" :: k))) := ⟨_, rfl⟩
  rw [← hl] at hA hE ⊢
  obtain ⟨l1, h⟩ := turn_template (c := c) (bf := bf) (la := la) (x := key) (l := l) (ps := []) hA (by simp) (by simp [Scan.commas])
    (fun e he => (hE e he).1)
  obtain ⟨a1, a2, a3, a4, a5⟩ := key_start hk
  obtain ⟨as, r1, hhead, hacts, htok, hrest⟩ := Bases.C75_specialisation_partial c.respect (scope path ++ b "::")
    [] [] key name (b ">") args ha bs hbs
    (items.flatMap Item.toks ++ b "}" :: k) (scope_pre hpath) (fun d hd => (ident_char hn d hd).2)
  obtain ⟨bf1, la1, tk1, rest1⟩ := r1
  simp only at htok hrest
  subst htok hrest
  obtain ⟨acts, y1, z1, hd, hm, hta⟩ := def_items (out := t.out) hi hen hk (bare_eq hpath hn (.inr (by rfl))) hhead
  refine ⟨[.cls (key ++ b " " ++ (scope path ++ b "::" ++ name ++ Scan.joinDot (b "<" :: (args ++ [b ">"])))) (scope path) [] as acts], y1, z1, b "}", ?_, .cons ?_ .nil⟩
  · refine h _ _ _ (if_neg a2) ?_
    rw [keepArgs, if_pos (.inr (by decide)), hl]
    refine rest_class hk (ident_start hn) hd (show b "}" ≠ b "enum" by decide) (show b "}" ≠ b "(" by decide)
  · have : key ++ b " " ++ scope path ++ b "::" ++ name ++ Scan.joinDot (b "<" :: (args ++ [b ">"])) =
        key ++ b " " ++ (scope path ++ b "::" ++ name ++ Scan.joinDot (b "<" :: (args ++ [b ">"]))) := by simp
    rw [wantCls, this]
    exact .cls hacts hm hta

private theorem rest_enum {c : Cfg} {t : State} {bf la : Str} {x : Str} {l : List Str} (hx : identStart x = true) {name : Str}
    {keys : Option (List Str)} {r' : Rd} (h : Decl.enumAction ⟨la, b "enum", x, l⟩ = some (name, keys, r')) (h' : r'.tok = b ";") :
    rest c [] t ⟨bf, la, b "enum", x :: l⟩ = .done () (t.out ++ newEnums t.ns t.ns [(x == b "class", name, keys)]) r' := by
  have q1 : ¬ (b "enum" = b "class" ∨ b "enum" = b "struct") := by decide
  have q2 : b ";" ≠ b "(" := by decide
  simp only [rest, onClass, q1, if_false, onEnum, if_true, Rd.next, hx, h, h', q2]

private theorem enum_start : (b "#pragma").isPrefixOf (b "enum") = false ∧ b "enum" ≠ b "using" ∧ b "enum" ≠ b "namespace" ∧
    b "enum" ≠ b "typedef" ∧ b "enum" ≠ b "template" := by decide

private theorem Runs.enum (c : Cfg) (path : List Str) (E : List Nat) {ec : Bool} {name : Str} {under : Option (List Str)}
    {es : List Enumerator} {tr : Bool} {post : List Str} (hn : Ident name) (hnc : name ≠ b "class")
    (hu : ∀ u, under = some u → ∀ x ∈ u, starts ";{" x = false) (h0 : es ≠ []) (hes : ∀ e ∈ es, e.Ok)
    (hp : ∀ t ∈ post, t ∉ [b ";", b "=", b ",", b "}"]) :
    Runs c path E [wantEnum path path (ec, name, es.map (·.name))] (b "enum" :: ((if ec then [b "class"] else []) ++ (name :: (underToks under ++
      (b "{" :: (Decl.C65.commas es ++ ((if tr then [b ","] else []) ++ b "}" :: (post ++ [b ";"])))))))) := by
  apply Runs.one
  intro t bf la k hE hA
  obtain ⟨x, l, hl⟩ : ∃ x l, (if ec then [b "class"] else []) ++ (name :: (underToks under ++
      (b "{" :: (Decl.C65.commas es ++ ((if tr then [b ","] else []) ++ b "}" :: (post ++ b ";" :: k)))))) = x :: l := by
    cases ec <;> simp
  have hx : identStart x = true ∧ (x == b "class") = ec := by
    cases ec with
    | true => simp at hl; rw [← hl.1]; decide
    | false => simp at hl; rw [← hl.1]; exact ⟨ident_start hn, by simpa using hnc⟩
  obtain ⟨bf', _, he⟩ := Decl.C65_enumerators_partial ec name under es tr post k la (b "enum") x l hnc hu h0 hes hp hl.symm
  simp only [List.cons_append, List.append_assoc, List.nil_append] at hA hE ⊢
  rw [hl] at hA hE ⊢
  obtain ⟨a1, a2, a3, a4, a5⟩ := enum_start
  refine ⟨_, _, _, _, turn_rest hA (by simp) (fun e he => (hE e he).1) a1 a2 a3 a4 a5 (rest_enum hx.1 he rfl), ?_⟩
  rw [hx.2]
  exact enum_matches path path [(ec, name, es.map (·.name))]

private theorem Runs.enumDecl (c : Cfg) (path : List Str) (E : List Nat) {name : Str} (hn : Ident name) (hnc : name ≠ b "class") :
    Runs c path E [] [b "enum", name, b ";"] := by
  apply Runs.one
  intro t bf la k hE hA
  have he := Decl.C65_declaration name k la (b "enum") hnc
  obtain ⟨a1, a2, a3, a4, a5⟩ := enum_start
  refine ⟨_, _, _, _, turn_rest hA (by simp) (fun e he => (hE e he).1) a1 a2 a3 a4 a5 (rest_enum (ident_start hn) he rfl), ?_⟩
  exact .nil

private theorem Runs.unnamed (c : Cfg) (path : List Str) (E : List Nat) {l : List Str} (hl : Bal (b "{") (b "}") l) :
    Runs c path E [] (b "enum" :: b "{" :: (l ++ [b "}"])) := by
  apply Runs.one
  intro t bf la k hE hA
  obtain ⟨x, y, hg, _⟩ := Decl.gobble_bal (show b "{" ≠ b "}" by decide) (by decide) hl la (b "enum") (b "{") k (by decide)
  obtain ⟨a1, a2, a3, a4, a5⟩ := enum_start
  refine ⟨[], x, y, b "}", ?_, .nil⟩
  simp only [List.append_nil]
  refine turn_rest hA (by simp) (fun e he => (hE e he).1) a1 a2 a3 a4 a5 ?_
  have q1 : ¬ (b "enum" = b "class" ∨ b "enum" = b "struct") := by decide
  have q2 : identStart (b "{") = false := by decide
  have q3 : b "}" ≠ b "(" := by decide
  simp only [rest, onClass, q1, if_false, onEnum, if_true, Rd.next, List.cons_append, q2, Bool.false_eq_true]
  simp only [List.append_assoc, List.cons_append, List.nil_append, hg, q3, if_false]

private theorem Runs.anon {c : Cfg} {path : List Str} {E : List Nat} {ws : List Want} {a : List Str} (h : Runs c path E ws a) :
    Runs c path E ws (b "namespace" :: b "{" :: (a ++ [b "}"])) := by
  have h1 : Runs c path E [] [b "namespace", b "{"] := by
    apply Runs.one
    intro t bf la k hE hA
    refine ⟨[], la, b "namespace", b "{", ?_, .nil⟩
    have q1 : (b "#pragma").isPrefixOf (b "namespace") = false := by decide
    have q2 : b "namespace" ≠ b "using" := by decide
    have q3 : b "{" ≠ b "typedef" := by decide
    have q4 : b "{" ≠ b "template" := by decide
    rw [turn]
    simp only [q1, Bool.false_eq_true, if_false, q2]
    rw [settle hA (by simp) (fun e he => (hE e he).1)]
    simp only [enter, if_true, Rd.next, List.cons_append, List.nil_append, Option.bind_eq_bind, Option.bind_some, ne_eq,
      not_true_eq_false, if_false, q3, q4, turn.fin, List.append_nil]
    rw [rest_plain (show b "{" ∉ [b "class", b "struct", b "enum", b "("] by decide)]
  have := (h1.append h).append (Runs.word c path E plain_brace)
  simpa using this

private theorem Runs.ns {c : Cfg} {path : List Str} {E : List Nat} {ws : List Want} {name : Str} {a : List Str} (hn : Ident name)
    (hb : Bal (b "{") (b "}") a) (h : ∀ m, Runs c (path ++ [name]) (m :: E) ws a) :
    Runs c path E ws (b "namespace" :: name :: b "{" :: (a ++ [b "}"])) := by
  intro t bf la tk k n hE hA hlen
  have hl : b "namespace" :: name :: b "{" :: (a ++ [b "}"]) ++ k = b "namespace" :: name :: b "{" :: (a ++ b "}" :: k) := by simp
  rw [hl] at hA hlen ⊢
  obtain ⟨x, y, hg, _⟩ := Decl.gobble_bal (show b "{" ≠ b "}" by decide) (by decide) hb (b "namespace") name (b "{") k (by decide)
  have hq : turn c t ⟨la, tk, b "namespace", name :: b "{" :: (a ++ b "}" :: k)⟩ =
      .done ⟨scope (path ++ [name]) ++ b "::", k.length :: E, t.out⟩ t.out ⟨b "namespace", name, b "{", a ++ b "}" :: k⟩ := by
    have q0 : name ≠ b "{" := by rintro rfl; exact absurd (ident_start hn) (by decide)
    have q1 : (b "#pragma").isPrefixOf (b "namespace") = false := by decide
    have q2 : b "namespace" ≠ b "using" := by decide
    have q3 : b "{" ≠ b "typedef" := by decide
    have q4 : b "{" ≠ b "template" := by decide
    have q5 : b "{" ≠ b "=" := by decide
    rw [turn]
    simp only [q1, Bool.false_eq_true, if_false, q2]
    rw [settle hA (by simp) (fun e he => by have := hE e he; simp; omega)]
    simp only [enter, if_true, Rd.next, Option.bind_eq_bind, Option.bind_some, ne_eq, q0, not_false_eq_true, q5, if_false, hg, q3, q4,
      turn.fin, scope_snoc]
    rw [rest_plain (show b "{" ∉ [b "class", b "struct", b "enum", b "("] by decide)]
  obtain ⟨n, rfl⟩ : ∃ m, n = m + 1 := ⟨n - 1, by omega⟩
  rw [loop_done hq]
  simp only [List.length_cons] at hlen
  obtain ⟨t1, X1, m1, x1, y1, z1, e1, f1, g1, o1, M1⟩ := h k.length ⟨scope (path ++ [name]) ++ b "::", k.length :: E, t.out⟩ (b "namespace") name (b "{")
    (b "}" :: k) n (by intro e he; simp at he; simp; omega) (.inl ⟨rfl, rfl⟩) (by omega)
  have hw : turn c t1 ⟨y1, z1, b "}", k⟩ = .done ⟨scope (path ++ [name]) ++ b "::", k.length :: E, t1.out⟩ t1.out ⟨y1, z1, b "}", k⟩ :=
    turn_rest g1 (by simp) (by intro e he; simp at he; simp; omega) (show (b "#pragma").isPrefixOf (b "}") = false by decide)
      (show b "}" ≠ b "using" by decide) (show b "}" ≠ b "namespace" by decide) (show b "}" ≠ b "typedef" by decide)
      (show b "}" ≠ b "template" by decide) (rest_plain (plain_facts plain_brace).2.2.2.2.1)
  obtain ⟨m1, rfl⟩ : ∃ m, m1 = m + 1 := ⟨m1 - 1, by simp at f1; omega⟩
  rw [loop_done hw] at e1
  simp only [List.length_cons] at f1
  exact ⟨_, X1, m1, y1, z1, b "}", e1, by omega, .inr ⟨name, k.length, hn, rfl, rfl, Nat.le_refl _⟩, o1, M1⟩

private theorem Runs.cons {c : Cfg} {path : List Str} {E : List Nat} {ws : List Want} {a d l : List Str} (h1 : Runs c path E [] a)
    (h2 : Runs c path E ws d) (h : a ++ d = l) : Runs c path E ws l := h ▸ (by simpa using h1.append h2)

private theorem src_run (c : Cfg) (S : Src) : ∀ (path : List Str) (E : List Nat), (∀ n ∈ path, Ident n) → S.Ok →
    Runs c path E (S.wants c path) S.toks := by
  induction S with
  | nil => intro path E _ _; exact Runs.nil c path E
  | word t r ih => intro path E hp h; exact (Runs.word c path E h.1).cons (ih path E hp h.2) (by simp [Src.toks])
  | parens l r ih => intro path E hp h; exact (Runs.parens c path E h.1).cons (ih path E hp h.2) (by simp [Src.toks])
  | pragma t r ih => intro path E hp h; exact (Runs.pragma c path E h.1).cons (ih path E hp h.2) (by simp [Src.toks])
  | use l r ih => intro path E hp h; exact (Runs.use c path E h.1).cons (ih path E hp h.2) (by simp [Src.toks])
  | alias name l r ih =>
    intro path E hp h; exact (Runs.alias c path E h.1 h.2.1).cons (ih path E hp h.2.2) (by simp [Src.toks])
  | ns name body r ihb ih =>
    intro path E hp h
    obtain ⟨h1, h2, h3, _, h4⟩ := h
    have := (Runs.ns (c := c) (path := path) (E := E) h1 h3 (fun m => ihb (path ++ [name]) (m :: E)
      (by intro x hx; rcases List.mem_append.1 hx with hx | hx
          · exact hp x hx
          · simp at hx; exact hx ▸ h1) h2)).append (ih path E hp h4)
    simpa [Src.toks, Src.wants] using this
  | anon body r ihb ih =>
    intro path E hp h
    have := (Runs.anon (ihb path E hp h.1)).append (ih path E hp h.2)
    simpa [Src.toks, Src.wants] using this
  | typedef l r ih =>
    intro path E hp h
    obtain ⟨h1, h2, h3, h4, h5, h6⟩ := h
    exact (Runs.typedef c path E h1 h2 h3 h4 h5).cons (ih path E hp h6) (by simp [Src.toks])
  | tdef key tag bs body post r ih =>
    intro path E hp h
    obtain ⟨h1, h2, h3, h4, h5⟩ := h
    have := (Runs.tdef c path E h1 h2 h3 h4).append (ih path E hp h5)
    simpa [Src.toks, Src.wants] using this
  | tunion tag l name r ih =>
    intro path E hp h
    obtain ⟨h1, h2, h3, h4⟩ := h
    have := (Runs.tunion c path E h1 h2 h3).append (ih path E hp h4)
    simpa [Src.toks, Src.wants] using this
  | tmpl ps t r ih =>
    intro path E hp h
    obtain ⟨h1, h2, h3⟩ := h
    exact (Runs.tmpl c path E h1 h2).cons (ih path E hp h3) (by simp [Src.toks, tparams])
  | tuse ps l r ih =>
    intro path E hp h
    obtain ⟨h1, h2, h3⟩ := h
    exact (Runs.tuse c path E h1 h2).cons (ih path E hp h3) (by simp [Src.toks, tparams])
  | inst t r ih => intro path E hp h; exact (Runs.inst c path E h.1).cons (ih path E hp h.2) (by simp [Src.toks])
  | decl key name t r ih =>
    intro path E hp h
    obtain ⟨h1, h2, h3, h4, h5, h6⟩ := h
    exact (Runs.decl c path E h1 h2 h3 h4 h5).cons (ih path E hp h6) (by simp [Src.toks])
  | tdecl ps key name t r ih =>
    intro path E hp h
    obtain ⟨h1, h2, h3, h4, h5, h6, h7, h8⟩ := h
    exact (Runs.tdecl c path E h1 h2 h3 h4 h5 h6 h7).cons (ih path E hp h8) (by simp [Src.toks, tparams])
  | cls key name bs body r ih =>
    intro path E hp h
    obtain ⟨h1, h2, h3, h4, h5⟩ := h
    have := (Runs.cls c path hp E h1 h2 h3 h4).append (ih path E hp h5)
    simpa [Src.toks, Src.wants] using this
  | tcls ps key name bs body r ih =>
    intro path E hp h
    obtain ⟨h1, h2, h3, h4, h5, h6, h7, h8⟩ := h
    have := (Runs.tcls c path hp E h1 h2 h3 h4 h5 h6 h7).append (ih path E hp h8)
    simpa [Src.toks, Src.wants, tparams] using this
  | spec key name args bs body r ih =>
    intro path E hp h
    obtain ⟨h1, h2, h3, h4, h5, h6, h7⟩ := h
    have := (Runs.spec c path hp E h3 h1 h2 h4 h5 h6).append (ih path E hp h7)
    simpa [Src.toks, Src.wants] using this
  | enum ec name under es tr post r ih =>
    intro path E hp h
    obtain ⟨h1, h2, h3, h4, h5, h6, h7⟩ := h
    have := (Runs.enum c path E (ec := ec) (tr := tr) h1 h2 h3 h4 h5 h6).append (ih path E hp h7)
    simpa [Src.toks, Src.wants] using this
  | enumDecl name r ih =>
    intro path E hp h; exact (Runs.enumDecl c path E h.1 h.2.1).cons (ih path E hp h.2.2) (by simp [Src.toks])
  | unnamed l r ih =>
    intro path E hp h; exact (Runs.unnamed c path E h.1).cons (ih path E hp h.2) (by simp [Src.toks])

/-- C78: exactly the classes and enumerations of the file are registered, in order, each under its qualified name and with its
namespace, template parameters, accessible bases and members; nested ones if they are accessible.

Missing: class templates with enumerations or classes in them, `typedef struct` in namespaces, in private sections and of pointers to unnamed
structures, members of unnamed types, bodies and initialisers with
classes in them, `namespace a::b`; see the theorems below for what happens then. -/
theorem C78_file_partial (c : Cfg) (S : Src) (h : S.Ok) : ∃ regs, file c S.toks = some regs ∧ Matches (S.wants c []) regs := by
  obtain ⟨t', X, m, x, y, z, e, hm, hA, ho, M⟩ := src_run c S [] [] (by simp) h ⟨b "::", [], []⟩ [] [] [] [] (S.toks.length + 1) (by simp)
    (.inl ⟨rfl, rfl⟩) (by simp)
  obtain ⟨m, rfl⟩ : ∃ q, m = q + 1 := ⟨m - 1, by simp at hm; omega⟩
  simp only [List.append_nil] at e
  refine ⟨X, ?_, M⟩
  rw [file, e, loop]
  simp only [Rd.next, ho, List.nil_append]

/-- C78, a file that ends in the middle of a class: the types before and inside it that are complete are registered, the class is not. -/
theorem C78_truncated_partial (c : Cfg) (S : Src) (h : S.Ok) {key name : Str} {bs : List Base} {B : Body} (hk : Key key) (hn : Ident name)
    (hbs : ∀ x ∈ bs, x.Ok) (hB : B.Ok (decide (key = b "class"))) :
    ∃ regs, file c (S.toks ++ key :: name :: (heads bs ++ b "{" :: B.toks)) = some regs ∧
      Matches (S.wants c [] ++ B.wants c [] [name] (decide (key = b "class"))) regs := by
  obtain ⟨t, X, m, x, y, z, e, hm, hA, ho, M⟩ := src_run c S [] [] (by simp) h ⟨b "::", [], []⟩ [] [] []
    (key :: name :: (heads bs ++ b "{" :: B.toks)) ((S.toks ++ key :: name :: (heads bs ++ b "{" :: B.toks)).length + 1) (by simp)
    (.inl ⟨rfl, rfl⟩) (by simp)
  obtain ⟨m, rfl⟩ : ∃ q, m = q + 1 := ⟨m - 1, by simp at hm; omega⟩
  obtain ⟨a1, a2, a3, a4, a5⟩ := key_start hk
  obtain ⟨as, r1, hhead, hacts, htok, hrest⟩ := Bases.C75_class_partial c.respect (scope [] ++ b "::") [] key name z false bs hbs
    B.toks (scope_pre (by simp)) (fun d hd => (ident_char hn d hd).2)
  obtain ⟨bf1, la1, tk1, rest1⟩ := r1
  simp only at htok hrest
  subst htok hrest
  have hsc : scope [] ++ b "::" ++ name ++ b "::" = scope [name] ++ b "::" := by simp [scope]
  obtain ⟨s1, X1, m1, x1, y1, z1, g0, g1, -, -, -, -, g5⟩ := body_run c [] B [name] (decide (key = b "class"))
    { hidden := c.respect && decide (key = b "class"), priv := decide (key = b "class") } t.out bf1 la1 (b "{")
    [] (B.toks.length + 1) (by simpa using hn) hB rfl rfl rfl ⟨by decide, by decide, by decide⟩ (by simp)
  rw [List.append_nil] at g0
  obtain ⟨m1, rfl⟩ : ∃ q, m1 = q + 1 := ⟨m1 - 1, by simp at g1; omega⟩
  have hdone : body c (scope [] ++ b "::") (decide (key = b "class")) (scope [] ++ b "::" ++ name ++ b "::") [] t.out
      ⟨bf1, la1, b "{", B.toks⟩ = .stop (t.out ++ X1) := by
    rw [body, hsc, g0, bodyLoop]
    simp [Rd.next]
  have hkey : (key == b "class") = decide (key = b "class") := by
    rcases hk with rfl | rfl <;> decide
  have hk' : key = b "class" ∨ key = b "struct" := hk
  refine ⟨X ++ X1, ?_, M.append g5⟩
  rw [file, e, loop]
  have hr : rest c [] { t with ns := scope [] ++ b "::", ends := [] } ⟨y, z, key, name :: (heads bs ++ b "{" :: B.toks)⟩ = .stop (t.out ++ X1) := by
    simp only [rest, onClass, hk', if_true, Rd.next, ident_start hn, classDef, hhead, hkey, hdone]
  have ht : turn c t ⟨y, z, key, name :: (heads bs ++ b "{" :: B.toks)⟩ = .stop (t.out ++ X1) := by
    rw [turn]
    simp only [a1, Bool.false_eq_true, if_false, a2]
    rw [settle hA (by simp) (by simp)]
    simp only [enter, a3, if_false, a4, a5, hr, turn.fin]
  simp only [Rd.next, ht, ho, List.nil_append]

/-- C78, a file that ends inside a class that is inside a class: as C78_truncated_partial. -/
theorem C78_truncated_nested_partial (c : Cfg) (S : Src) (h : S.Ok) {key name : Str} {bs : List Base} {B : Body} (hk : Key key)
    (hn : Ident name) (hbs : ∀ x ∈ bs, x.Ok) (hB : B.Ok (decide (key = b "class"))) {key' name' : Str} {bs' : List Base} {B' : Body}
    (hk' : Key key') (hn' : Ident name') (hbs' : ∀ x ∈ bs', x.Ok) (hB' : B'.Ok (decide (key' = b "class"))) :
    ∃ regs, file c (S.toks ++ key :: name :: (heads bs ++ b "{" :: (B.toks ++ key' :: name' :: (heads bs' ++ b "{" :: B'.toks)))) =
        some regs ∧
      Matches (S.wants c [] ++ B.wants c [] [name] (decide (key = b "class")) ++
        B'.wants c [] [name, name'] (decide (key' = b "class"))) regs := by
  generalize hin : key' :: name' :: (heads bs' ++ b "{" :: B'.toks) = inner
  obtain ⟨t, X, m, x, y, z, e, hm, hA, ho, M⟩ := src_run c S [] [] (by simp) h ⟨b "::", [], []⟩ [] [] []
    (key :: name :: (heads bs ++ b "{" :: (B.toks ++ inner)))
    ((S.toks ++ key :: name :: (heads bs ++ b "{" :: (B.toks ++ inner))).length + 1) (by simp) (.inl ⟨rfl, rfl⟩) (by simp)
  obtain ⟨m, rfl⟩ : ∃ q, m = q + 1 := ⟨m - 1, by simp at hm; omega⟩
  obtain ⟨a1, a2, a3, a4, a5⟩ := key_start hk
  obtain ⟨-, -, -, c4, c5⟩ := key_start hk'
  have c6 : key' ≠ b "}" := by rcases hk' with rfl | rfl <;> decide
  obtain ⟨as, r1, hhead, hacts, htok, hrest⟩ := Bases.C75_class_partial c.respect (scope [] ++ b "::") [] key name z false bs hbs
    (B.toks ++ inner) (scope_pre (by simp)) (fun d hd => (ident_char hn d hd).2)
  obtain ⟨bf1, la1, tk1, rest1⟩ := r1
  simp only at htok hrest
  subst htok hrest
  have hsc : scope [] ++ b "::" ++ name ++ b "::" = scope [name] ++ b "::" := by simp [scope]
  have hsc' : scope [name] ++ b "::" ++ name' ++ b "::" = scope [name, name'] ++ b "::" := by simp [scope]
  obtain ⟨s1, X1, m1, x1, y1, z1, g0, g1, -, -, -, -, g5⟩ := body_run c [] B [name] (decide (key = b "class"))
    { hidden := c.respect && decide (key = b "class"), priv := decide (key = b "class") } t.out bf1 la1 (b "{")
    inner ((B.toks ++ inner).length + 1) (by simpa using hn) hB rfl rfl rfl ⟨by decide, by decide, by decide⟩ (by simp)
  obtain ⟨m1, rfl⟩ : ∃ q, m1 = q + 1 := ⟨m1 - 1, by omega⟩
  have hkey : (key == b "class") = decide (key = b "class") := by
    rcases hk with rfl | rfl <;> decide
  have hkey' : (key' == b "class") = decide (key' = b "class") := by
    rcases hk' with rfl | rfl <;> decide
  have hk1 : key = b "class" ∨ key = b "struct" := hk
  have hk2 : key' = b "class" ∨ key' = b "struct" := hk'
  have hnm : ∀ x ∈ [name], Ident x := by simpa using hn
  have hnm' : ∀ x ∈ [name, name'], Ident x := by
    intro x hx
    simp only [List.mem_cons, List.not_mem_nil, or_false] at hx
    rcases hx with rfl | rfl
    · exact hn
    · exact hn'
  obtain ⟨as', r1', hhead', -, htok', hrest'⟩ := Bases.C75_class_partial c.respect (scope [name] ++ b "::") [] key' name' z1 s1.priv bs' hbs'
    B'.toks (scope_pre hnm) (fun d hd => (ident_char hn' d hd).2)
  obtain ⟨bf2, la2, tk2, rest2⟩ := r1'
  simp only at htok' hrest'
  subst htok' hrest'
  have hlen : B'.toks.length < m1 := by
    rw [← hin] at g1
    simp only [List.length_cons, List.length_append] at g1
    omega
  obtain ⟨s2, X2, m2, x2, y2, z2, f0, f1, -, -, -, -, f5⟩ := body_run c [] B' [name, name'] (decide (key' = b "class"))
    { hidden := c.respect && decide (key' = b "class"), priv := decide (key' = b "class") } (t.out ++ X1) bf2 la2 (b "{")
    [] m1 hnm' hB' rfl rfl rfl ⟨by decide, by decide, by decide⟩ (by simpa using hlen)
  rw [List.append_nil] at f0
  obtain ⟨m2, rfl⟩ : ∃ q, m2 = q + 1 := ⟨m2 - 1, by simp at f1; omega⟩
  have hinner : bodyLoop c (scope [] ++ b "::") m1 (scope [name] ++ b "::" ++ name' ++ b "::") []
      { hidden := c.respect && decide (key' = b "class"), priv := decide (key' = b "class") } (t.out ++ X1)
      ⟨bf2, la2, b "{", B'.toks⟩ = .stop (t.out ++ X1 ++ X2) := by
    rw [hsc', f0, bodyLoop]
    simp [Rd.next]
  have hdone : body c (scope [] ++ b "::") (decide (key = b "class")) (scope [] ++ b "::" ++ name ++ b "::") [] t.out
      ⟨bf1, la1, b "{", B.toks ++ inner⟩ = .stop (t.out ++ X1 ++ X2) := by
    rw [body, hsc, g0, ← hin, bodyLoop]
    simp only [Rd.next, c6, if_false, c4, c5, hk2, if_true, merge, ne_eq, not_true, false_and, List.append_nil, ident_start hn', classDef,
      hhead', hkey', hinner]
  refine ⟨X ++ X1 ++ X2, ?_, (M.append g5).append f5⟩
  rw [file, e, loop]
  have hr : rest c [] { t with ns := scope [] ++ b "::", ends := [] }
      ⟨y, z, key, name :: (heads bs ++ b "{" :: (B.toks ++ inner))⟩ = .stop (t.out ++ X1 ++ X2) := by
    simp only [rest, onClass, hk1, if_true, Rd.next, ident_start hn, classDef, hhead, hkey, hdone]
  have ht : turn c t ⟨y, z, key, name :: (heads bs ++ b "{" :: (B.toks ++ inner))⟩ = .stop (t.out ++ X1 ++ X2) := by
    rw [turn]
    simp only [a1, Bool.false_eq_true, if_false, a2]
    rw [settle hA (by simp) (by simp)]
    simp only [enter, a3, if_false, a4, a5, hr, turn.fin]
  simp only [Rd.next, ht, ho, List.nil_append]

/-- C78, a file that ends with `template`: the types before are registered. -/
theorem C78_truncated_template_partial (c : Cfg) (S : Src) (h : S.Ok) :
    ∃ regs, file c (S.toks ++ [b "template"]) = some regs ∧ Matches (S.wants c []) regs := by
  obtain ⟨t, X, m, x, y, z, e, hm, hA, ho, M⟩ := src_run c S [] [] (by simp) h ⟨b "::", [], []⟩ [] [] []
    [b "template"] ((S.toks ++ [b "template"]).length + 1) (by simp) (.inl ⟨rfl, rfl⟩) (by simp)
  obtain ⟨m, rfl⟩ : ∃ q, m = q + 1 := ⟨m - 1, by simp at hm; omega⟩
  refine ⟨X, ?_, M⟩
  rw [file, e, loop]
  have e1 : (b "#pragma").isPrefixOf (b "template") = false := by decide
  have e2 : b "template" ≠ b "using" := by decide
  have e3 : b "template" ≠ b "namespace" := by decide
  have e4 : b "template" ≠ b "typedef" := by decide
  have ht : turn c t ⟨y, z, b "template", []⟩ = .stop t.out := by
    rw [turn]
    simp only [e1, Bool.false_eq_true, if_false, e2]
    rw [settle hA (by simp) (by simp)]
    simp only [enter, e3, if_false, e4, if_true, Rd.next]
  simp only [Rd.next, ht, ho, List.nil_append]

/-! ### Cases -/

/-- Tokens separated by blanks, to write cases down. -/
def words (s : String) : List Str :=
  let l := (b s).foldr (fun c (l : Str × List Str) => if c = 32 then ([], if l.1 = [] then l.2 else l.1 :: l.2) else (c :: l.1, l.2)) ([], [])
  if l.1 = [] then l.2 else l.1 :: l.2

/-- What is registered: the type, its namespace, its template parameters, and its members or enumerators. -/
def Reg.brief : Reg → Str × Str × Str × List Str
  | .cls type ns templ _ acts => (type, ns, templ, acts.map (·.name))
  | .enum type ns keys => (type, ns, [], keys)

def registered (s : String) : Option (List (Str × Str × Str × List Str)) := (file ⟨true, false⟩ (words s)).map (·.map Reg.brief)

/-- `using namespace std; namespace n { template <class T> struct V { T t; }; namespace { class A : public B { struct P { int p; };
public: enum E { a, b }; class N { public: int x; } m; int y; }; } } template <> struct V<int> { }; enum class C { c }; class D;` -/
def sample : Src :=
  .use [b "namespace", b "std"] (.ns (b "n")
    (.tcls [⟨⟨[.word (b "class")], false, b "T"⟩, none⟩] (b "struct") (b "V") [] [.data [⟨[b "T"], b "t", .plain⟩]] (.word (b ";")
      (.anon (.cls (b "class") (b "A") [⟨[b "public"], [(b "B", none)]⟩]
        (.cls (b "struct") (b "P") [] (.item (.data [⟨[b "int"], b "p", .plain⟩]) .nil) (.item .semi
          (.item (.label (b "public")) (.item (.enum false (b "E") none [⟨b "a", none⟩, ⟨b "b", none⟩] false none)
            (.cls (b "class") (b "N") [] (.item (.label (b "public")) (.item (.data [⟨[b "int"], b "x", .plain⟩]) .nil))
              (.item (.data [⟨[], b "m", .plain⟩]) (.item (.data [⟨[b "int"], b "y", .plain⟩]) .nil)))))))
        (.word (b ";") .nil)) .nil)))
    (.spec (b "struct") (b "V") [b "int"] [] [] (.word (b ";") (.enum true (b "C") none [⟨b "c", none⟩] false []
      (.decl (b "class") (b "D") (b ";") .nil)))))

private theorem ident_of (p : Str) (h : (match p with | c :: r => Bases.idStart c && r.all Bases.idChar | [] => false) = true) : Ident p := by
  cases p with
  | nil => simp at h
  | cons c r =>
    simp only [Bool.and_eq_true, List.all_eq_true] at h
    exact ⟨c, r, rfl, h.1, h.2⟩

private theorem plain_item {t n : Str} (ht : Decl.C66.Pre [t]) (hn : Decl.C66.Name n) : (Item.data [⟨[t], n, .plain⟩]).Ok :=
  ⟨by simp, by intro d hd; simp at hd; subst hd; exact ⟨ht, hn, trivial⟩⟩

private def loudHead : Str → Bool
  | [] => true
  | c :: _ => decide (c ∈ 0 :: b "{;,:=([<}")

private theorem quiet_of (t : Str) (h : t ∉ Decl.C66.special) (h' : loudHead t = false) :
    Decl.C66.Quiet t := by
  refine ⟨h, .inr ?_⟩
  cases t with
  | nil => simp [loudHead] at h'
  | cons c r => exact ⟨c, r, rfl, of_decide_eq_false h'⟩

private def braces : Nat → List Str → Bool
  | d, [] => d == 0
  | d, t :: l => if t = b "{" then braces (d + 1) l else if t = b "}" then (match d with | 0 => false | d + 1 => braces d l) else braces d l

private theorem bal_split : ∀ (n : Nat) (l : List Str) (d : Nat), l.length ≤ n → braces d l = true →
    match d with
    | 0 => Bal (b "{") (b "}") l
    | d + 1 => ∃ a c, l = a ++ b "}" :: c ∧ Bal (b "{") (b "}") a ∧ braces d c = true := by
  have hne : b "}" ≠ b "{" := by decide
  intro n
  induction n with
  | zero =>
    intro l d hl h
    cases l with
    | nil => cases d with
      | zero => exact .nil
      | succ d => simp [braces] at h
    | cons => simp at hl
  | succ n ih =>
    intro l d hl h
    cases l with
    | nil => cases d with
      | zero => exact .nil
      | succ d => simp [braces] at h
    | cons t l =>
      replace hl : l.length ≤ n := by simpa using hl
      rw [braces.eq_def] at h
      simp only at h
      by_cases h1 : t = b "{"
      · subst h1
        rw [if_pos rfl] at h
        obtain ⟨a, c, rfl, ha, hc⟩ := ih l (d + 1) hl h
        have := ih c d (by simp at hl; omega) hc
        cases d with
        | zero => exact .nest ha this
        | succ d =>
          obtain ⟨a', c', rfl, ha', hc'⟩ := this
          exact ⟨b "{" :: (a ++ b "}" :: a'), c', by simp, .nest ha ha', hc'⟩
      · rw [if_neg h1] at h
        by_cases h2 : t = b "}"
        · subst h2
          rw [if_pos rfl] at h
          cases d with
          | zero => simp at h
          | succ d => exact ⟨[], l, rfl, .nil, h⟩
        · rw [if_neg h2] at h
          have := ih l d hl h
          have hb : ¬ (b "{" = b "<" ∧ t = b ">>") := by rintro ⟨h, _⟩; revert h; decide
          cases d with
          | zero => exact .tok h1 h2 hb this
          | succ d =>
            obtain ⟨a', c', rfl, ha', hc'⟩ := this
            exact ⟨t :: a', c', by simp, .tok h1 h2 hb ha', hc'⟩

private theorem bal_of (l : List Str) (h : braces 0 l = true) : Bal (b "{") (b "}") l := bal_split l.length l 0 (Nat.le_refl _) h

private theorem sample_ok : sample.Ok := by
  have nm : ∀ s : String, b s ∉ Decl.C66.special → loudHead (b s) = false →
      identStart (b s) = true → Decl.C66.Name (b s) := fun s h1 h2 h3 => ⟨quiet_of _ h1 h2, h3⟩
  have pre : ∀ s : String, b s ∉ Decl.C66.special → loudHead (b s) = false →
      Decl.C66.Pre [b s] := fun s h1 h2 => .quiet (quiet_of _ h1 h2) .nil
  simp only [sample, Src.Ok, Body.Ok, Key, Plain, access]
  and_intros
  all_goals try trivial
  all_goals try exact ident_of _ (by decide +kernel)
  all_goals try decide +kernel
  all_goals try exact bal_of _ (by decide +kernel)
  all_goals try exact nm _ (by decide +kernel) (by decide +kernel) (by decide +kernel)
  all_goals try exact Or.inr (Or.inr rfl)
  all_goals try (intro x hx; simp only [List.mem_cons, List.not_mem_nil, or_false, reduceCtorEq] at hx)
  all_goals try (rcases hx with rfl | rfl)
  all_goals try subst hx
  all_goals try exact plain_item (pre _ (by decide +kernel) (by decide +kernel)) (nm _ (by decide +kernel) (by decide +kernel) (by decide +kernel))
  all_goals try exact ⟨⟨by decide +kernel, by simp⟩, by decide +kernel⟩
  all_goals try exact ⟨by decide +kernel, by simp⟩
  all_goals try exact ⟨pre _ (by decide +kernel) (by decide +kernel), nm _ (by decide +kernel) (by decide +kernel) (by decide +kernel), trivial⟩
  all_goals try exact ⟨.nil, nm _ (by decide +kernel) (by decide +kernel) (by decide +kernel), trivial⟩
  · refine ⟨⟨?_, by decide +kernel, by decide +kernel⟩, by simp, by simp⟩
    intro x hx
    simp only [List.mem_cons, List.not_mem_nil, or_false] at hx
    subst hx
    exact ⟨by decide +kernel, by decide +kernel⟩
  · exact ⟨by decide +kernel, by decide, by unfold Bases.WordOk; decide +kernel, by simp⟩

example : sample.toks = words "using namespace std ; namespace n { template < class T > struct V { T t ; } ; namespace { class A : public B { \
    struct P { int p ; } ; public : enum E { a , b } ; class N { public : int x ; } m ; int y ; } ; } } template < > struct V < int > { } ; \
    enum class C { c } ; class D ;" := by decide +kernel

def Want.brief : Want → Str × Str × Str × List Str
  | .cls type ns templ _ mem _ _ => (type, ns, templ, mem.map (·.1))
  | .enum type ns keys => (type, ns, [], keys)

example : (sample.wants ⟨true, false⟩ []).map Want.brief =
    [(b "struct ::n::V<T>", b "::n", b "< class T > ", [b "t"]), (b "enum ::n::A::E", b "::n", [], [b "a", b "b"]),
     (b "class ::n::A::N", b "::n", [], [b "x"]), (b "class ::n::A", b "::n", [], [b "m", b "y"]),
     (b "struct ::V< int > ", [], [], []), (b "enum class ::C", [], [], [b "c"])] := by decide +kernel

/-- `struct A { typedef int I; typedef struct { I x; } S; S s; typedef struct T { int y; } *P; typedef union { int i; } U; };
typedef struct G { int g; } G, *Q; typedef union V { int i; } W;` -/
def sample2 : Src :=
  .cls (b "struct") (b "A") []
    (.alias [b "int", b "I"] (.tdef (b "struct") none [] (.item (.data [⟨[b "I"], b "x", .plain⟩]) .nil) [b "S"]
      (.item (.data [⟨[b "S"], b "s", .plain⟩]) (.tdef (b "struct") (some (b "T")) [] (.item (.data [⟨[b "int"], b "y", .plain⟩]) .nil) [b "*", b "P"]
        (.tunion none [b "int", b "i", b ";"] (b "U") .nil)))))
    (.word (b ";") (.tdef (b "struct") (some (b "G")) [] [.data [⟨[b "int"], b "g", .plain⟩]] [b "G", b ",", b "*", b "Q"]
      (.tunion (some (b "V")) [b "int", b "i", b ";"] (b "W") .nil)))

example : sample2.toks = words "struct A { typedef int I ; typedef struct { I x ; } S ; S s ; typedef struct T { int y ; } * P ; \
    typedef union { int i ; } U ; } ; typedef struct G { int g ; } G , * Q ; typedef union V { int i ; } W ;" := by decide +kernel

private theorem sample2_ok : sample2.Ok := by
  have nm : ∀ s : String, b s ∉ Decl.C66.special → loudHead (b s) = false →
      identStart (b s) = true → Decl.C66.Name (b s) := fun s h1 h2 h3 => ⟨quiet_of _ h1 h2, h3⟩
  have pre : ∀ s : String, b s ∉ Decl.C66.special → loudHead (b s) = false →
      Decl.C66.Pre [b s] := fun s h1 h2 => .quiet (quiet_of _ h1 h2) .nil
  simp only [sample2, Src.Ok, Body.Ok, Key, Plain, access, AliasOk, TdefOk]
  and_intros
  all_goals try trivial
  all_goals try exact ident_of _ (by decide +kernel)
  all_goals try decide +kernel
  all_goals try exact bal_of _ (by decide +kernel)
  all_goals try (intro h; cases h; done)
  all_goals try exact fun _ => ⟨_, rfl, ident_of _ (by decide +kernel)⟩
  all_goals try (intro x hx; simp only [List.mem_cons, List.not_mem_nil, or_false, reduceCtorEq, Option.some.injEq] at hx)
  all_goals try subst hx
  all_goals try exact ident_of _ (by decide +kernel)
  all_goals try exact plain_item (pre _ (by decide +kernel) (by decide +kernel)) (nm _ (by decide +kernel) (by decide +kernel) (by decide +kernel))
  all_goals try exact ⟨pre _ (by decide +kernel) (by decide +kernel), nm _ (by decide +kernel) (by decide +kernel) (by decide +kernel), trivial⟩

example : ∃ regs, file ⟨true, false⟩ sample2.toks = some regs ∧ Matches (sample2.wants ⟨true, false⟩ []) regs :=
  C78_file_partial _ _ sample2_ok

example : (sample2.wants ⟨true, false⟩ []).map Want.brief =
    [(b "::A::S", [], [], [b "x"]), (b "::A::T", [], [], [b "y"]), (b "::A::U", [], [], [[]]), (b "struct ::A", [], [], [b "s"]),
     (b "G", [], [], [b "g"]), (b "W", [], [], [[]])] := by decide +kernel

/-- A public class in a private class is registered, though it cannot be named. -/
theorem C78_private_fails : registered "class A { class P { public : struct Q { int x ; } ; } ; public : int y ; } ;" =
    some [(b "struct ::A::P::Q", [], [], [b "x"]), (b "class ::A", [], [], [b "y"])] := by
  decide +kernel

/-- `namespace a::b { … }`: what is in it is registered as if it were in front of it. -/
theorem C78_nested_namespace_fails : registered "namespace a :: b { struct S { int x ; } ; }" =
    some [(b "struct ::S", [], [], [b "x"])] := by
  decide +kernel

/-- The classes and enumerations of a function are registered as if they were outside. -/
theorem C78_local_fails : registered "void f ( ) { struct L { int x ; } ; enum E { e } ; }" =
    some [(b "struct ::L", [], [], [b "x"]), (b "enum ::E", [], [], [b "e"])] := by
  decide +kernel

/-- After an unnamed enumeration with an underlying type nothing more is registered. -/
theorem C78_unnamed_enum_fails : registered "enum : int { A } ; struct T { int x ; } ; enum E { e } ;" =
    some [] := by
  decide +kernel

/-- Behind a class template in a class, a member function is lost. -/
theorem C78_member_template_fails : registered "struct A { template < class T > struct N { T t ; } ; int f ( ) ; int g ( ) ; } ;" =
    some [(b "struct ::A::N<T>", [], b "< class T > ", [b "t"]), (b "struct ::A", [], [], [b "g"])] := by
  decide +kernel

/-- An enumeration in a class template is registered as a type that does not exist: the parameter is not declared. -/
theorem C78_template_enum_fails : registered "template < class T > struct A { enum E { e } ; T t ; } ;" =
    some [(b "enum ::A<T>::E", [], [], [b "e"]), (b "struct ::A<T>", [], b "< class T > ", [b "t"])] := by
  decide +kernel

/-- `typedef struct { … } S` in a namespace: registered without the name of the namespace. -/
theorem C78_typedef_fails : registered "namespace n { typedef struct { int x ; } S ; }" =
    some [(b "S", b "::n", [], [b "x"])] := by
  decide +kernel

/-- A private `typedef struct` is registered. -/
theorem C78_private_typedef_fails : registered "struct A { private : typedef struct { int x ; } S ; } ;" =
    some [(b "::A::S", [], [], [b "x"]), (b "struct ::A", [], [], [])] := by
  decide +kernel

/-- `typedef union { … } *P`: a descriptor for `P` is registered, whose only member is the pointer itself. -/
theorem C78_union_pointer_fails : file ⟨true, false⟩ (words "typedef union { int i ; } * P ;") =
    some [.cls (b "P") [] [] [] [⟨[], .data false, false, false⟩]] ∧
    file ⟨true, false⟩ (words "typedef union { int i ; } P [ 2 ] ;") = some [.cls (b "]") [] [] [] [⟨[], .data false, false, false⟩]] := by
  decide +kernel

/-- The end of the file is inside `Z`, behind its enumeration and its nested class. -/
def cut : Body :=
  .item (.enum false (b "F") none [⟨b "f", none⟩] false none) (.cls (b "struct") (b "N") []
    (.item (.data [⟨[b "int"], b "p", .plain⟩]) .nil) (.item .semi (.item (.data [⟨[b "int"], b "q", .plain⟩]) .nil)))

example : cut.toks = words "enum F { f } ; struct N { int p ; } ; int q ;" := by decide +kernel
example : (cut.wants ⟨true, false⟩ [] [b "Z"] false).map Want.brief =
    [(b "enum ::Z::F", [], [], [b "f"]), (b "struct ::Z::N", [], [], [b "p"])] := by decide +kernel

private theorem cut_ok : cut.Ok false := by
  have nm : ∀ s : String, b s ∉ Decl.C66.special → loudHead (b s) = false →
      identStart (b s) = true → Decl.C66.Name (b s) := fun s h1 h2 h3 => ⟨quiet_of _ h1 h2, h3⟩
  have pre : ∀ s : String, b s ∉ Decl.C66.special → loudHead (b s) = false →
      Decl.C66.Pre [b s] := fun s h1 h2 => .quiet (quiet_of _ h1 h2) .nil
  simp only [cut, Body.Ok, Key, access]
  and_intros
  all_goals try trivial
  all_goals try exact ident_of _ (by decide +kernel)
  all_goals try decide +kernel
  all_goals try exact plain_item (pre _ (by decide +kernel) (by decide +kernel)) (nm _ (by decide +kernel) (by decide +kernel) (by decide +kernel))
  all_goals try (intro x hx; cases hx; done)
  all_goals try exact nm _ (by decide +kernel) (by decide +kernel) (by decide +kernel)
  all_goals try (intro x hx; simp only [List.mem_cons, List.not_mem_nil, or_false] at hx; subst hx)
  all_goals try exact ⟨⟨by decide +kernel, by simp⟩, by decide +kernel⟩
  all_goals try exact ⟨pre _ (by decide +kernel) (by decide +kernel), nm _ (by decide +kernel) (by decide +kernel) (by decide +kernel), trivial⟩

example : ∃ regs, file ⟨true, false⟩ (sample.toks ++ b "struct" :: b "Z" :: (heads [] ++ b "{" :: cut.toks)) = some regs ∧
    Matches (sample.wants ⟨true, false⟩ [] ++ cut.wants ⟨true, false⟩ [] [b "Z"] (decide (b "struct" = b "class"))) regs :=
  C78_truncated_partial ⟨true, false⟩ sample sample_ok (.inr rfl) (ident_of _ (by decide)) (by simp)
    (by rw [show decide (b "struct" = b "class") = false by decide]; exact cut_ok)

example : ∃ regs, file ⟨true, false⟩ (sample.toks ++ b "struct" :: b "Y" :: (heads [] ++ b "{" ::
      (cut.toks ++ b "struct" :: b "Z" :: (heads [] ++ b "{" :: cut.toks)))) = some regs ∧
    Matches (sample.wants ⟨true, false⟩ [] ++ cut.wants ⟨true, false⟩ [] [b "Y"] (decide (b "struct" = b "class")) ++
      cut.wants ⟨true, false⟩ [] [b "Y", b "Z"] (decide (b "struct" = b "class"))) regs :=
  C78_truncated_nested_partial ⟨true, false⟩ sample sample_ok (.inr rfl) (ident_of _ (by decide)) (by simp)
    (by rw [show decide (b "struct" = b "class") = false by decide]; exact cut_ok) (.inr rfl) (ident_of _ (by decide)) (by simp)
    (by rw [show decide (b "struct" = b "class") = false by decide]; exact cut_ok)

example : ∃ regs, file ⟨true, false⟩ (sample.toks ++ [b "template"]) = some regs ∧ Matches (sample.wants ⟨true, false⟩ []) regs :=
  C78_truncated_template_partial ⟨true, false⟩ sample sample_ok

/-- Attributes hide a class. -/
theorem C78_attribute_fails : registered "struct alignas ( 8 ) A { int x ; } ;" =
    some [] := by
  decide +kernel

end Verif.Top
