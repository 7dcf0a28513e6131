import Verif.Model.Template

/-!
# Specification of the template language

Grammar of the meta elements, reading of a text, and the document tree with its lexical scoping. Only `Param`, `Kind` and `split` are
shared with the model.
-/

namespace Xcore.Template

/-! ## Meta elements -/

/-- Characters of a language entry: letters, digits, `-`, `_`, `.`. -/
def LangChar (c : UInt8) : Prop := c ∈ b!"abcdefghijklmnopqrstuvwxyzABCDEFGHIJKLMNOPQRSTUVWXYZ0123456789-_."

/-- Characters of the other elements: also `=`, `>`, `:`, `|`. -/
def ElemChar (c : UInt8) : Prop := LangChar c ∨ c ∈ b!"=>:|"

/-- Characters of a box name: no capitals; `|` separates names. -/
def BoxChar (c : UInt8) : Prop := c ∈ b!"abcdefghijklmnopqrstuvwxyz0123456789|.-_"

/-- A nonempty word over a set of characters. -/
def Word (ok : UInt8 → Prop) (d : Str) : Prop := d ≠ [] ∧ ∀ c ∈ d, ok c

/-- The source texts of the meta elements and what they mean. A comment ends at the first `--%`. -/
inductive Elem : Str → Param → Prop where
  | comment {d : Str} : ¬ b!"--%" <:+: d ++ b!"--" → Elem (b!"%--" ++ d ++ b!"--%") ⟨.comment, d⟩
  | language {d : Str} : Word LangChar d → Elem (b!"##" ++ d ++ b!"##") ⟨.language, d⟩
  | reference {d : Str} : Word ElemChar d → Elem (b!"&&" ++ d ++ b!"&&") ⟨.reference, d⟩
  | range {d : Str} : Word ElemChar d → Elem (b!"@@" ++ d ++ b!"@@") ⟨.range, d⟩
  | condition {d : Str} : Word ElemChar d → Elem (b!"??" ++ d ++ b!"??") ⟨.condition, d⟩
  | dump {d : Str} : Word ElemChar d → Elem (b!"!!" ++ d ++ b!"!!") ⟨.dump, d⟩
  | variable {d : Str} : Word ElemChar d → Elem (b!"{{" ++ d ++ b!"}}") ⟨.variable, d⟩
  | stop : Elem b!"[[]]" ⟨.stop, []⟩
  | start {d : Str} : Word BoxChar d → Elem (b!"[[" ++ d ++ b!"]]") ⟨.start, d⟩

/-- The exported numbers of the kinds: MetaString, MetaComment, ..., MetaTemplateEnd, MetaUnused; any other number is its own. -/
def kindNumber : Kind → Int
  | .string => 0
  | .comment => 1
  | .language => 2
  | .reference => 3
  | .range => 4
  | .condition => 5
  | .dump => 6
  | .variable => 7
  | .start => 101
  | .stop => 102
  | .unused => -1
  | .other n => n

/-- Line feed or carriage return. -/
def IsEol (c : UInt8) : Prop := c = 10 ∨ c = 13

/-- The kinds that swallow a following end-of-line character: comments and box tags. -/
def Swallows (k : Kind) : Prop := k = .comment ∨ k = .start ∨ k = .stop

/-- What an element takes from the text after it: `e` of `e ++ rest`. -/
def Taken (k : Kind) (e rest : Str) : Prop :=
  (e = [] ∧ (Swallows k → ∀ c r, rest = c :: r → ¬ IsEol c)) ∨ (Swallows k ∧ ∃ c, IsEol c ∧ e = [c])

/-- The text starts with the meta element `p` and goes on with `rest`. -/
def MetaAt (s : Str) (p : Param) (rest : Str) : Prop :=
  ∃ src e, Elem src p ∧ s = src ++ e ++ rest ∧ Taken p.kind e rest

/-- Reading of a text as a sequence of literal pieces and meta elements, with the source text of each: at each position where a meta
element can be read, it is; literal pieces are as long as possible. -/
inductive Reads : Str → List (Str × Param) → Prop where
  | nil : Reads [] []
  | elem {src rest : Str} {p : Param} {l : List (Str × Param)} : MetaAt (src ++ rest) p rest → Reads rest l →
      Reads (src ++ rest) ((src, p) :: l)
  | text {t rest : Str} {l : List (Str × Param)} : t ≠ [] →
      (∀ t₁ t₂, t = t₁ ++ t₂ → t₂ ≠ [] → ¬ ∃ p r, MetaAt (t₂ ++ rest) p r) → (rest = [] ∨ ∃ p r, MetaAt rest p r) → Reads rest l →
      Reads (t ++ rest) ((t, ⟨.string, t⟩) :: l)

/-! ## Documents -/

/-- The tree of a template: a sequence of elements and boxes. -/
inductive Doc where
  | nil
  | elem (p : Param) (rest : Doc)
  | box (name : Str) (body rest : Doc)
  deriving DecidableEq, Repr

/-- The parameters a document is written with. -/
def Doc.tokens : Doc → List Param
  | .nil => []
  | .elem p r => p :: r.tokens
  | .box n b r => ⟨.start, n⟩ :: (b.tokens ++ ⟨.stop, []⟩ :: r.tokens)

/-- The elements are not box tags, and every box tag has a text. -/
def Doc.Plain : Doc → Prop
  | .nil => True
  | .elem p r => p.kind ≠ .start ∧ p.kind ≠ .stop ∧ p.kind ≠ .unused ∧ r.Plain
  | .box n b r => n ≠ [] ∧ b.Plain ∧ r.Plain

/-- The elements that stand directly in the document, not in one of its boxes. -/
def Doc.own : Doc → List Param
  | .nil => []
  | .elem p r => p :: r.own
  | .box _ _ r => r.own

/-- The names a box tag declares: the nonempty pieces between `|`. -/
def namesOf (tag : Str) : List Str := (split 124 tag).filter fun v => decide (v ≠ [])

/-- The body of the last box that stands directly in the document and declares the name. -/
def Doc.find : Doc → Str → Option Doc
  | .nil, _ => none
  | .elem _ r, v => r.find v
  | .box n b r, v => (r.find v).or (if v ∈ namesOf n then some b else none)

/-- Lexical scope: the document itself and those that enclose it, innermost first. A name means the box of the innermost document that
declares it; the scope of that box starts with its body. -/
def lookup : List Doc → Str → Option (List Doc)
  | [], _ => none
  | d :: up, v => match d.find v with
    | some b => some (b :: d :: up)
    | none => lookup up v

/-- Box tags are balanced: no prefix has more ends than starts, and in total there are as many. -/
def Balanced (ps : List Param) : Prop :=
  (∀ l r, ps = l ++ r → l.countP (fun p => p.kind = .stop) ≤ l.countP (fun p => p.kind = .start)) ∧
  ps.countP (fun p => p.kind = .stop) = ps.countP (fun p => p.kind = .start)

/-- No box end without a start before it. -/
def NeverEnds (ps : List Param) : Prop := ∀ l r, ps = l ++ r → l.countP (fun p => p.kind = .stop) ≤ l.countP (fun p => p.kind = .start)

/-- The box tags of the text are balanced as far as the document `d` goes; after it comes a box end that has no start, or a box start that
has no end. -/
def BrokenAfter (s : Str) (d : Doc) : Prop :=
  d.Plain ∧ ∃ l q, Reads s l ∧ l.map Prod.snd = d.tokens ++ q ∧
    ((∃ q', q = ⟨.stop, []⟩ :: q') ∨ ∃ n q', q = ⟨.start, n⟩ :: q' ∧ NeverEnds q')

/-! ## Documents in memory -/

/-- The last of the boxes (given by tag and address) that declares the name. -/
def lastNamed : List (Str × Nat) → Str → Option Nat
  | [], _ => none
  | (n, t) :: l, v => (lastNamed l v).or (if v ∈ namesOf n then some t else none)

/-- The boxes of a document are templates in memory, at the given addresses: each has its own elements as root, its own boxes and nothing
else as sub-templates, and as father the template `a` it stands in (none if it declares no name and so cannot be found). -/
inductive BoxesAt (th : THeap) : Nat → Doc → List (Str × Nat) → Prop where
  | nil {a : Nat} : BoxesAt th a .nil []
  | elem {a : Nat} {p : Param} {r : Doc} {l : List (Str × Nat)} : BoxesAt th a r l → BoxesAt th a (.elem p r) l
  | box {a t : Nat} {n : Str} {b r : Doc} {o : Tpl} {l lb : List (Str × Nat)} : th[t]? = some o → o.name = n → o.root = some b.own →
      o.father = (if namesOf n = [] then none else some a) → BoxesAt th t b lb → (∀ v, (o.subs.getD []).get v = lastNamed lb v) →
      BoxesAt th a r l → BoxesAt th a (.box n b r) ((n, t) :: l)

/-- The template at address `t` is the document: its elements are the root, its boxes the sub-templates. `old` are sub-templates it had
before. -/
def Compiled (th : THeap) (t : Nat) (d : Doc) (old : AMap Nat) : Prop :=
  ∃ o l, th[t]? = some o ∧ o.root = some d.own ∧ BoxesAt th t d l ∧ ∀ v, (o.subs.getD []).get v = (lastNamed l v).or (old.get v)

/-- The template at address `t` is the head of the scope and its fathers are the rest of it. -/
inductive InScope (th : THeap) : Nat → List Doc → Prop where
  | top {t : Nat} {d : Doc} {o : Tpl} : th[t]? = some o → o.father = none → Compiled th t d [] → InScope th t [d]
  | sub {a t : Nat} {d b : Doc} {up : List Doc} {o : Tpl} : InScope th a (d :: up) → th[t]? = some o → o.father = some a →
      Compiled th t b [] → InScope th t (b :: d :: up)

/-- The template at address `t` and its fathers, from the inside out. -/
inductive Chain (th : THeap) : Nat → List Nat → Prop where
  | top {t : Nat} {o : Tpl} : th[t]? = some o → o.father = none → Chain th t [t]
  | sub {t f : Nat} {o : Tpl} {l : List Nat} : th[t]? = some o → o.father = some f → Chain th f l → Chain th t (t :: l)

/-- The sub-template registered under a name in the template at an address. -/
def Registered (th : THeap) (t : Nat) (name : Str) : Option Nat := th[t]?.bind fun o => (o.subs.getD []).get name

end Xcore.Template
