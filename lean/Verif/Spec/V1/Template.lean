import Verif.Spec.TemplateRender
import Verif.Spec.V1.Dataset
import Verif.Model.V1.Template

/-!
# Specification of the templates of version 1

The tree of a template (`Doc`), balanced box tags, the parts of an element's text and the names tried by a loop are those of version 2
(Verif/Spec/Template.lean, Verif/Spec/TemplateRender.lean). What can stand in an element, where names are looked up and what is rendered is
stated here.
-/

namespace Xcore.V1.Template

open Xcore.Template (Kind Param Doc Balanced namesOf lastNamed Taken Word BoxChar parts Target rangeNames Foreign kindNumber)
open Xcore.Dataset (Ext Val Prints GoPrints)
open Xcore.V1.Dataset

/-! ## Reading a text -/

/-- The text `d` of an element ends at the first place where the closing delimiter can stand, but has at least one character. -/
def Closes (cl d : Str) : Prop := d ≠ [] ∧ ∀ u v, d ++ cl = u ++ cl ++ v → u ≠ [] → v = []

/-- The source texts of the meta elements and what they mean. -/
inductive Elem : Str → Param → Prop where
  | comment {d : Str} : ¬ b!"--%" <:+: d ++ b!"--" → Elem (b!"%--" ++ d ++ b!"--%") ⟨.comment, d⟩
  | language {d : Str} : Closes b!"##" d → Elem (b!"##" ++ d ++ b!"##") ⟨.language, d⟩
  | reference {d : Str} : Closes b!"&&" d → Elem (b!"&&" ++ d ++ b!"&&") ⟨.reference, d⟩
  | range {d : Str} : Closes b!"@@" d → Elem (b!"@@" ++ d ++ b!"@@") ⟨.range, d⟩
  | condition {d : Str} : Closes b!"??" d → Elem (b!"??" ++ d ++ b!"??") ⟨.condition, d⟩
  | dump {d : Str} : Closes b!"!!" d → Elem (b!"!!" ++ d ++ b!"!!") ⟨.dump, d⟩
  | variable {d : Str} : Closes b!"}}" d → Elem (b!"{{" ++ d ++ b!"}}") ⟨.variable, d⟩
  | stop : Elem b!"[[]]" ⟨.stop, []⟩
  | start {d : Str} : Word BoxChar d → Elem (b!"[[" ++ d ++ b!"]]") ⟨.start, d⟩

/-- The text starts with the meta element `p` and goes on with `rest`. -/
def MetaAt (s : Str) (p : Param) (rest : Str) : Prop :=
  ∃ src e, Elem src p ∧ s = src ++ e ++ rest ∧ Taken p.kind e rest

/-- Reading of a text as a sequence of literal pieces and meta elements, with the source text of each: at each position where a meta
element can be read, it is; literal pieces are as long as possible. -/
inductive Reads : Str → List (Str × Param) → Prop where
  | nil : Reads [] []
  | elem {src rest : Str} {p : Param} {l : List (Str × Param)} : MetaAt (src ++ rest) p rest → Reads rest l →
      Reads (src ++ rest) ((src, p) :: l)
  | text {t rest : Str} {l : List (Str × Param)} : t ≠ [] →
      (∀ t₁ t₂, t = t₁ ++ t₂ → t₂ ≠ [] → ¬ ∃ p r, MetaAt (t₂ ++ rest) p r) → (rest = [] ∨ ∃ p r, MetaAt rest p r) → Reads rest l →
      Reads (t ++ rest) ((t, ⟨.string, t⟩) :: l)

/-- The text means the document: its elements are those of `d`. -/
def Means (s : Str) (d : Doc) : Prop := d.Plain ∧ ∃ l, Reads s l ∧ l.map Prod.snd = d.tokens

/-! ## Documents in memory -/

/-- The boxes of a document are templates in memory, at the given addresses: each has its own elements as root, and its own boxes and
nothing else as sub-templates. -/
inductive BoxesAt (th : THeap) : Doc → List (Str × Nat) → Prop where
  | nil : BoxesAt th .nil []
  | elem {p : Param} {r : Doc} {l : List (Str × Nat)} : BoxesAt th r l → BoxesAt th (.elem p r) l
  | box {t : Nat} {n : Str} {b r : Doc} {o : Tpl} {l lb : List (Str × Nat)} : th[t]? = some o → o.name = n → o.root = some b.own →
      BoxesAt th b lb → (∀ v, (o.subs.getD []).get v = lastNamed lb v) → BoxesAt th r l → BoxesAt th (.box n b r) ((n, t) :: l)

/-- The template at address `t` is the document: its elements are the root, its boxes the sub-templates. `old` are sub-templates it had
before. -/
def Compiled (th : THeap) (t : Nat) (d : Doc) (old : AMap Nat) : Prop :=
  ∃ o l, th[t]? = some o ∧ o.root = some d.own ∧ BoxesAt th d l ∧ ∀ v, (o.subs.getD []).get v = (lastNamed l v).or (old.get v)

/-- How deep boxes are nested. -/
def nesting : Doc → Nat
  | .nil => 0
  | .elem _ r => nesting r
  | .box _ b r => max (nesting b + 1) (nesting r)

/-! ## Data -/

/-- What a lookup finds. -/
inductive Found where
  | absent
  | value (v : Val)
  /-- it has come to a nil dataset -/
  | broken

/-- Lookup of a path in a list of datasets, innermost first: the innermost that has a value decides. A nil dataset (from a collection with a
nil element) breaks it. -/
inductive FoundAt (h : Heap) : List (Option Nat) → Str → Found → Prop where
  | here {a : Nat} {σ : List (Option Nat)} {path : Str} {v : Val} : Leads h a (split 62 path) v → FoundAt h (some a :: σ) path (.value v)
  | outer {a : Nat} {σ : List (Option Nat)} {path : Str} {f : Found} : (∀ w, ¬ Leads h a (split 62 path) w) → FoundAt h σ path f →
      FoundAt h (some a :: σ) path f
  | nil {σ : List (Option Nat)} {path : Str} : FoundAt h (none :: σ) path .broken
  | missing {path : Str} : FoundAt h [] path .absent

/-- The text of a value: nothing for nil, otherwise what package fmt prints (`Prints`, on the same memory in version 2). -/
def Shows (x : Ext) (h : Heap) (v : Val) (s : Str) : Prop := (v = .nil ∧ s = []) ∨ (v ≠ .nil ∧ ∃ n, Prints x n (up h) v s)

/-- The value is a dataset. -/
def ValIsDataset (h : Heap) (v : Val) : Prop := ∃ a, v = .ptr a ∧ IsDataset h a

/-- The value is a collection. -/
def ValIsCollection (h : Heap) (v : Val) : Prop := ∃ c l, v = .ptr c ∧ IsCollection h c l

/-! ## Rendering -/

/-- How rendering ends: with a text or with a panic. -/
inductive Out where
  | text (s : Str)
  | panic
  deriving DecidableEq

/-- The text `s` and then the rest. -/
def Out.after (s : Str) : Out → Out
  | .text t => .text (s ++ t)
  | .panic => .panic

/-- The text of what a lookup has found. -/
inductive TextOf (x : Ext) (h : Heap) : Found → Out → Prop where
  | absent : TextOf x h .absent (.text [])
  | value {v : Val} {s : Str} : Shows x h v s → TextOf x h (.value v) (.text s)
  | broken : TextOf x h .broken .panic

/-- The text of the language entry; empty if there is no table or no entry. -/
def langText (lang : Option Language.Lang) (id : Str) : Str :=
  match lang with
  | none => []
  | some l => ((l.entries.getD []).get id).getD []

/-- What there is to render. -/
inductive Job where
  /-- the document -/
  | document
  /-- a sequence of elements -/
  | body (l : List Param)
  /-- one element -/
  | elem (p : Param)
  /-- the first of the names that is a box of the document -/
  | choose (names : List Str)
  /-- the elements of a collection of `n` from index `i` on -/
  | loop (id : Str) (n i : Nat) (l : List (Option Nat))

/-- `RendersIn own look x lang h d job σ r`: in the document `d`, with the datasets `σ` (innermost first; `none` if `Execute` was given nil) in
memory `h`, rendering ends with `r`. Memory is not changed. If rendering does not end (cyclic data are printed), there is no `r`.
`own d` are the elements of the document (`none` for a document whose rendering does not end), `look d` are its boxes. -/
inductive RendersIn {D : Type} (own : D → Option (List Param)) (look : D → Str → Option D) (x : Ext) (lang : Option Language.Lang) (h : Heap) :
    D → Job → Option (List (Option Nat)) → Out → Prop where
  | document {d : D} {l : List Param} {σ r} : own d = some l → RendersIn own look x lang h d (.body l) σ r → RendersIn own look x lang h d .document σ r
  | nil {d σ} : RendersIn own look x lang h d (.body []) σ (.text [])
  | cons {d σ s r} {p : Param} {l : List Param} : RendersIn own look x lang h d (.elem p) σ (.text s) → RendersIn own look x lang h d (.body l) σ r →
      RendersIn own look x lang h d (.body (p :: l)) σ (r.after s)
  | consPanic {d σ} {p : Param} {l : List Param} : RendersIn own look x lang h d (.elem p) σ .panic → RendersIn own look x lang h d (.body (p :: l)) σ .panic
  | chosen {d b : D} {σ r} {names : List Str} : names.findSome? (look d) = some b → RendersIn own look x lang h b .document σ r →
      RendersIn own look x lang h d (.choose names) σ r
  | noChoice {d : D} {σ} {names : List Str} : names.findSome? (look d) = none → RendersIn own look x lang h d (.choose names) σ (.text [])
  -- elements without sub-template
  | text {d σ s} : RendersIn own look x lang h d (.elem ⟨.string, s⟩) σ (.text s)
  | comment {d σ s} : RendersIn own look x lang h d (.elem ⟨.comment, s⟩) σ (.text [])
  | language {d σ s} : RendersIn own look x lang h d (.elem ⟨.language, s⟩) σ (.text (langText lang s))
  | variableNoData {d s} : RendersIn own look x lang h d (.elem ⟨.variable, s⟩) none (.text [])
  | «variable» {d σ s f r} : FoundAt h σ s f → TextOf x h f r → RendersIn own look x lang h d (.elem ⟨.variable, s⟩) (some σ) r
  -- references
  | reference {d : D} {σ r s id} {rest : List Str} : parts s = id :: rest → rest.length ≠ 1 → rest.length ≠ 2 →
      RendersIn own look x lang h d (.choose [id]) σ r → RendersIn own look x lang h d (.elem ⟨.reference, s⟩) σ r
  | referenceNone {d : D} {σ s id key} : parts s = [id, key] → look d id = none → RendersIn own look x lang h d (.elem ⟨.reference, s⟩) σ (.text [])
  | referenceWith {d : D} {σ r s id key a} : parts s = [id, key] → look d id ≠ none → FoundAt h σ key (.value (.ptr a)) → IsDataset h a →
      RendersIn own look x lang h d (.choose [id]) (some (some a :: σ)) r → RendersIn own look x lang h d (.elem ⟨.reference, s⟩) (some σ) r
  | referenceWithout {d : D} {σ r s id key f} : parts s = [id, key] → look d id ≠ none → FoundAt h σ key f → f ≠ .broken →
      (∀ v, f = .value v → ¬ ValIsDataset h v) → RendersIn own look x lang h d (.choose [id]) (some σ) r →
      RendersIn own look x lang h d (.elem ⟨.reference, s⟩) (some σ) r
  | referenceBroken {d : D} {σ s id key} : parts s = [id, key] → look d id ≠ none → FoundAt h σ key .broken →
      RendersIn own look x lang h d (.elem ⟨.reference, s⟩) (some σ) .panic
  | referenceNoData {d : D} {s id key} : parts s = [id, key] → look d id ≠ none → RendersIn own look x lang h d (.elem ⟨.reference, s⟩) none .panic
  | referenceValue {d : D} {σ r s any key pre f text} : parts s = [any, key, pre] → FoundAt h σ key f → TextOf x h f (.text text) →
      RendersIn own look x lang h d (.choose [pre ++ text, pre]) (some σ) r → RendersIn own look x lang h d (.elem ⟨.reference, s⟩) (some σ) r
  | referenceValueBroken {d : D} {σ s any key pre} : parts s = [any, key, pre] → FoundAt h σ key .broken →
      RendersIn own look x lang h d (.elem ⟨.reference, s⟩) (some σ) .panic
  | referenceValueNoData {d : D} {s any key pre} : parts s = [any, key, pre] → RendersIn own look x lang h d (.elem ⟨.reference, s⟩) none .panic
  -- loops
  | rangeNothing {d : D} {σ s key id} : Target s key id → (look d id = none ∨ σ = none) → RendersIn own look x lang h d (.elem ⟨.range, s⟩) σ (.text [])
  | rangeAbsent {d : D} {σ r s key id} : Target s key id → look d id ≠ none → FoundAt h σ key .absent →
      RendersIn own look x lang h d (.choose [id ++ b!".none", id]) (some σ) r → RendersIn own look x lang h d (.elem ⟨.range, s⟩) (some σ) r
  | range {d : D} {σ r s key id c} {l : List (Option Nat)} : Target s key id → look d id ≠ none → FoundAt h σ key (.value (.ptr c)) →
      IsCollection h c l → RendersIn own look x lang h d (.loop id l.length 0 l) (some σ) r → RendersIn own look x lang h d (.elem ⟨.range, s⟩) (some σ) r
  | rangeOther {d : D} {σ s key id v} : Target s key id → look d id ≠ none → FoundAt h σ key (.value v) → ¬ ValIsCollection h v →
      RendersIn own look x lang h d (.elem ⟨.range, s⟩) (some σ) .panic
  | rangeBroken {d : D} {σ s key id} : Target s key id → look d id ≠ none → FoundAt h σ key .broken →
      RendersIn own look x lang h d (.elem ⟨.range, s⟩) (some σ) .panic
  | loopEnd {d σ id n i} : RendersIn own look x lang h d (.loop id n i []) σ (.text [])
  | loop {d σ s r id n i} {e : Option Nat} {l : List (Option Nat)} : RendersIn own look x lang h d (.choose (rangeNames id i n)) (some (e :: σ)) (.text s) →
      RendersIn own look x lang h d (.loop id n (i + 1) l) (some σ) r → RendersIn own look x lang h d (.loop id n i (e :: l)) (some σ) (r.after s)
  | loopPanic {d σ id n i} {e : Option Nat} {l : List (Option Nat)} : RendersIn own look x lang h d (.choose (rangeNames id i n)) (some (e :: σ)) .panic →
      RendersIn own look x lang h d (.loop id n i (e :: l)) (some σ) .panic
  -- conditions
  | conditionNoData {d s} : RendersIn own look x lang h d (.elem ⟨.condition, s⟩) none (.text [])
  | conditionBroken {d σ s key id} : Target s key id → FoundAt h σ key .broken → RendersIn own look x lang h d (.elem ⟨.condition, s⟩) (some σ) .panic
  | conditionNothing {d : D} {σ s key id f} : Target s key id → FoundAt h σ key f → f ≠ .broken → look d id = none →
      RendersIn own look x lang h d (.elem ⟨.condition, s⟩) (some σ) (.text [])
  | conditionAbsent {d σ s key id} : Target s key id → FoundAt h σ key .absent → RendersIn own look x lang h d (.elem ⟨.condition, s⟩) (some σ) (.text [])
  /-- Nothing for a dataset, although there is one. -/
  | conditionDataset {d σ s key id v} : Target s key id → FoundAt h σ key (.value v) → ValIsDataset h v →
      RendersIn own look x lang h d (.elem ⟨.condition, s⟩) (some σ) (.text [])
  | conditionEmpty {d : D} {σ s key id v} : Target s key id → look d id ≠ none → FoundAt h σ key (.value v) → Shows x h v [] →
      RendersIn own look x lang h d (.elem ⟨.condition, s⟩) (some σ) (.text [])
  | condition {d : D} {σ r s key id v text} : Target s key id → look d id ≠ none → FoundAt h σ key (.value v) → ¬ ValIsDataset h v →
      Shows x h v text → text ≠ [] → RendersIn own look x lang h d (.choose [id ++ b!"." ++ text, id]) (some σ) r →
      RendersIn own look x lang h d (.elem ⟨.condition, s⟩) (some σ) r
  -- dump of the outermost dataset
  | dump {d σ s t n} {a : Nat} : (s = b!"dump" ∨ s = b!"list") → σ.getLast? = some (some a) → GoPrints x n (up h) (.ptr a) t →
      RendersIn own look x lang h d (.elem ⟨.dump, s⟩) (some σ) (.text t)
  | dumpNil {d σ s} : σ.getLast?.join = none → RendersIn own look x lang h d (.elem ⟨.dump, s⟩) (some σ) (.text [])
  | dumpNothing {d σ s} : (s ≠ b!"dump" ∧ s ≠ b!"list" ∨ σ = none) → RendersIn own look x lang h d (.elem ⟨.dump, s⟩) σ (.text [])
  -- never in the root of a compiled text
  | unknown {d σ k s} : Foreign k → RendersIn own look x lang h d (.elem ⟨k, s⟩) σ
      (.text (b!"THE METALANGUAGE FROM OUTERSPACE IS NOT SUPPORTED: " ++ itoa (kindNumber k)))

/-- Rendering of a text: the elements and the boxes are those of its document. -/
abbrev Renders : Ext → Option Language.Lang → Heap → Doc → Job → Option (List (Option Nat)) → Out → Prop := RendersIn (fun d => some d.own) Doc.find

/-- The language table of a dataset: the one stored under `#`. -/
inductive LangOf (h : Heap) (a : Nat) : Option Language.Lang → Prop where
  | table {b : Nat} {l : Language.Lang} : Entry h a b!"#" (.ptr b) → h[b]? = some (.lang l) → LangOf h a (some l)
  | none : (∀ b l, Entry h a b!"#" (.ptr b) → h[b]? ≠ some (.lang l)) → LangOf h a none

/-- How `Execute` ends. -/
inductive ExecutesIn {D : Type} (own : D → Option (List Param)) (look : D → Str → Option D) (x : Ext) (d : D) (h : Heap) : Option Nat → Out → Prop where
  | data {a : Nat} {lang : Option Language.Lang} {r : Out} : LangOf h a lang → RendersIn own look x lang h d .document (some [some a]) r →
      ExecutesIn own look x d h (some a) r
  | nil {r : Out} : RendersIn own look x none h d .document none r → ExecutesIn own look x d h none r

/-- How `Execute` of a text ends. -/
abbrev Executes : Ext → Doc → Heap → Option Nat → Out → Prop := ExecutesIn (fun d => some d.own) Doc.find

/-- What is needed of the data `Execute` is given. -/
structure Proper (h : Heap) (data : Option Nat) : Prop where
  wf : WF h
  data : ∀ a, data = some a → IsDataset h a

/-- Wherever the path of the loop leads from datasets reachable from `a`, there is a collection. -/
def LoopsOver (h : Heap) (a : Nat) (p : Param) : Prop :=
  p.kind = .range → ∀ key id, Target p.data key id → ∀ b, Reach h a b → ∀ v, Leads h b (split 62 key) v → ValIsCollection h v

end Xcore.V1.Template
