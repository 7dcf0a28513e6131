import Verif.Spec.Template
import Verif.Spec.DatasetPrint
import Verif.Model.TemplateExec

/-!
# Specification of rendering

`Renders` says what the text of a document is, in terms of its lexical scope and the datasets it is rendered with. Nothing of the
renderer in the model is used; `Ext`, `Heap`, `Param` and the specifications of datasets and of printing are shared.

Data are looked up in a list of datasets, innermost first; `none` means that `Execute` was given nil.
-/

namespace Xcore.Template

open Xcore.Dataset

/-- The dataset has a value at the path (segments between `>`). -/
def Has (h : Heap) (a : Nat) (path : Str) (v : Val) : Prop := Leads h a (split 62 path) v

/-- The value at a path: that of the innermost dataset that has one; nil if none has. -/
inductive ValueAt (h : Heap) : Option (List Nat) → Str → Val → Prop where
  | here {a : Nat} {σ : List Nat} {path : Str} {v : Val} : Has h a path v → ValueAt h (some (a :: σ)) path v
  | outer {a : Nat} {σ : List Nat} {path : Str} {v : Val} : (∀ w, ¬ Has h a path w) → ValueAt h (some σ) path v →
      ValueAt h (some (a :: σ)) path v
  | missing {path : Str} : ValueAt h (some []) path .nil
  | noData {path : Str} : ValueAt h none path .nil

/-- The text of a value: nothing for nil, otherwise what package fmt prints. -/
def Shows (x : Ext) (h : Heap) (v : Val) (s : Str) : Prop := (v = .nil ∧ s = []) ∨ (v ≠ .nil ∧ ∃ n, Prints x n h v s)

/-- The text of the language entry; empty if there is no table or no entry. -/
def langText (lang : Option Language.Lang) (id : Str) : Str :=
  match lang with
  | none => []
  | some l => (l.entries.get id).getD []

/-- `Set(".counter", i)` on the dataset, through its wrappers. -/
def SetCounter (h : Heap) (a : Nat) (i : Int) (h' : Heap) : Prop :=
  ∃ t m, Wraps h a t ∧ h[t]? = some (.ds m) ∧ h' = h.set t (.ds (m.set b!".counter" (.int .int i)))

/-- The parts of a meta element's text, between colons. -/
def parts (data : Str) : List Str := split 58 data

/-- Loops and conditions: the path of the data and the name of the sub-template, which is the same if there is no colon. -/
def Target (data key id : Str) : Prop := (parts data = [key] ∧ id = key) ∨ ∃ rest, parts data = key :: id :: rest

/-- The names tried for the `i`-th of `n` elements of a loop, best first. -/
def rangeNames (id : Str) (i n : Nat) : List Str :=
  [id ++ b!".key." ++ itoa i] ++ (if i = 0 then [id ++ b!".first"] else []) ++ (if i + 1 = n then [id ++ b!".last"] else []) ++
  (if i % 2 = 0 then [id ++ b!".even"] else []) ++ [id]

/-- Kinds that rendering does not know: box tags and numbers that are no kind. -/
def Foreign : Kind → Prop
  | .start | .stop | .unused | .other _ => True
  | _ => False

/-- What there is to render. -/
inductive Job where
  /-- the innermost document of the scope -/
  | document
  /-- a sequence of elements -/
  | body (l : List Param)
  /-- one element -/
  | elem (p : Param)
  /-- the first of the names that is visible -/
  | choose (names : List Str)
  /-- the elements of a collection of `n` from index `i` on -/
  | loop (id : Str) (n i : Nat) (l : List (Option Nat))

/-- `RendersIn own look x lang sc job σ h h' s`: at the place `sc`, with the datasets `σ` and memory `h`, the text is `s` and memory is `h'`
afterwards. At a place there are the elements `own sc`; a name `v` that can be seen there means the place `look sc v`. -/
inductive RendersIn {S : Type} (own : S → List Param) (look : S → Str → Option S) (x : Ext) (lang : Option Language.Lang) :
    S → Job → Option (List Nat) → Heap → Heap → Str → Prop where
  | document {sc σ h h' s} : RendersIn own look x lang sc (.body (own sc)) σ h h' s → RendersIn own look x lang sc .document σ h h' s
  | nil {sc σ h} : RendersIn own look x lang sc (.body []) σ h h []
  | cons {sc σ h h₁ h₂ s₁ s₂} {p : Param} {l : List Param} : RendersIn own look x lang sc (.elem p) σ h h₁ s₁ → RendersIn own look x lang sc (.body l) σ h₁ h₂ s₂ →
      RendersIn own look x lang sc (.body (p :: l)) σ h h₂ (s₁ ++ s₂)
  | chosen {sc sc' σ h h' s} {names : List Str} : names.findSome? (look sc) = some sc' → RendersIn own look x lang sc' .document σ h h' s →
      RendersIn own look x lang sc (.choose names) σ h h' s
  | noChoice {sc σ h} {names : List Str} : names.findSome? (look sc) = none → RendersIn own look x lang sc (.choose names) σ h h []
  -- elements without sub-template
  | text {sc σ h d} : RendersIn own look x lang sc (.elem ⟨.string, d⟩) σ h h d
  | comment {sc σ h d} : RendersIn own look x lang sc (.elem ⟨.comment, d⟩) σ h h []
  | language {sc σ h d} : RendersIn own look x lang sc (.elem ⟨.language, d⟩) σ h h (langText lang d)
  | «variable» {sc σ h d v s} : ValueAt h σ d v → Shows x h v s → RendersIn own look x lang sc (.elem ⟨.variable, d⟩) σ h h s
  -- references
  | reference {sc σ h h' s d id} {rest : List Str} : parts d = id :: rest → rest.length ≠ 1 → rest.length ≠ 2 →
      RendersIn own look x lang sc (.choose [id]) σ h h' s → RendersIn own look x lang sc (.elem ⟨.reference, d⟩) σ h h' s
  | referenceNone {sc σ h d id key} : parts d = [id, key] → look sc id = none → RendersIn own look x lang sc (.elem ⟨.reference, d⟩) σ h h []
  | referenceWith {sc σ h h' s d id key} {a : Nat} : parts d = [id, key] → look sc id ≠ none → ValueAt h (some σ) key (.ptr a) → IsDataset h a →
      RendersIn own look x lang sc (.choose [id]) (some (a :: σ)) h h' s → RendersIn own look x lang sc (.elem ⟨.reference, d⟩) (some σ) h h' s
  | referenceWithout {sc σ h h' s d id key v} : parts d = [id, key] → look sc id ≠ none → ValueAt h (some σ) key v →
      (∀ a, v = .ptr a → ¬ IsDataset h a) → RendersIn own look x lang sc (.choose [id]) (some σ) h h' s →
      RendersIn own look x lang sc (.elem ⟨.reference, d⟩) (some σ) h h' s
  | referenceValue {sc σ h h' s d any key pre v text} : parts d = [any, key, pre] → ValueAt h (some σ) key v → Shows x h v text →
      RendersIn own look x lang sc (.choose [pre ++ text, pre]) (some σ) h h' s → RendersIn own look x lang sc (.elem ⟨.reference, d⟩) (some σ) h h' s
  -- loops
  | rangeNothing {sc σ h d key id} : Target d key id → (look sc id = none ∨ σ = none) → RendersIn own look x lang sc (.elem ⟨.range, d⟩) σ h h []
  | rangeEmpty {sc σ h h' s d key id v} : Target d key id → look sc id ≠ none → ValueAt h (some σ) key v →
      (∀ c l, v = .ptr c → IsCollection h c l → l = []) → RendersIn own look x lang sc (.choose [id ++ b!".none", id]) (some σ) h h' s →
      RendersIn own look x lang sc (.elem ⟨.range, d⟩) (some σ) h h' s
  | range {sc σ h h' s d key id c} {l : List (Option Nat)} : Target d key id → look sc id ≠ none → ValueAt h (some σ) key (.ptr c) →
      IsCollection h c l → l ≠ [] → RendersIn own look x lang sc (.loop id l.length 0 l) (some σ) h h' s →
      RendersIn own look x lang sc (.elem ⟨.range, d⟩) (some σ) h h' s
  | loopEnd {sc σ h id n i} : RendersIn own look x lang sc (.loop id n i []) σ h h []
  | loop {sc σ h h₁ h₂ h₃ s₁ s₂ id n} {i a : Nat} {l : List (Option Nat)} : SetCounter h a (i + 1) h₁ →
      RendersIn own look x lang sc (.choose (rangeNames id i n)) (some (a :: σ)) h₁ h₂ s₁ → RendersIn own look x lang sc (.loop id n (i + 1) l) (some σ) h₂ h₃ s₂ →
      RendersIn own look x lang sc (.loop id n i (some a :: l)) (some σ) h h₃ (s₁ ++ s₂)
  -- conditions
  | conditionNone {sc σ h h' s d key id v} : Target d key id → ValueAt h σ key v → Shows x h v [] →
      RendersIn own look x lang sc (.choose [id ++ b!".none", id]) σ h h' s → RendersIn own look x lang sc (.elem ⟨.condition, d⟩) σ h h' s
  | conditionNothing {sc σ h d key id v text} : Target d key id → ValueAt h σ key v → Shows x h v text → text ≠ [] → look sc id = none →
      RendersIn own look x lang sc (.elem ⟨.condition, d⟩) σ h h []
  | conditionValue {sc σ h h' s d key id v text} : Target d key id → ValueAt h σ key v → (∀ a, v = .ptr a → ¬ IsDataset h a) →
      Shows x h v text → text ≠ [] → look sc id ≠ none → RendersIn own look x lang sc (.choose [id ++ b!"." ++ text, id]) σ h h' s →
      RendersIn own look x lang sc (.elem ⟨.condition, d⟩) σ h h' s
  /-- The dataset is printed afterwards (only to find that the text is not empty), so printing it must end. -/
  | conditionDataset {sc σ h h' s d key id text} {a : Nat} : Target d key id → ValueAt h (some σ) key (.ptr a) → IsDataset h a →
      look sc id ≠ none → RendersIn own look x lang sc (.choose [id ++ b!".array", id]) (some (a :: σ)) h h' s → Shows x h' (.ptr a) text →
      RendersIn own look x lang sc (.elem ⟨.condition, d⟩) (some σ) h h' s
  -- dump of the outermost dataset
  | dump {sc σ h s d n} {a t : Nat} : (d = b!"dump" ∨ d = b!"list") → σ.getLast? = some a → Wraps h a t → GoPrints x n h (.ptr t) s →
      RendersIn own look x lang sc (.elem ⟨.dump, d⟩) (some σ) h h s
  | dumpEmpty {sc h d} : (d = b!"dump" ∨ d = b!"list") → RendersIn own look x lang sc (.elem ⟨.dump, d⟩) (some []) h h []
  | dumpNothing {sc σ h d} : (d ≠ b!"dump" ∧ d ≠ b!"list" ∨ σ = none) → RendersIn own look x lang sc (.elem ⟨.dump, d⟩) σ h h []
  -- never in the root of a compiled text
  | unknown {sc σ h k d} : Foreign k → RendersIn own look x lang sc (.elem ⟨k, d⟩) σ h h
      (b!"THE METALANGUAGE FROM OUTERSPACE IS NOT SUPPORTED: " ++ itoa (kindNumber k))

/-- The elements of the innermost document. -/
def innermost : List Doc → List Param
  | [] => []
  | d :: _ => d.own

/-- `Renders x lang scope job σ h h' s`: with the documents `scope` (innermost first), the datasets `σ` and memory `h`, the text is `s`
and memory is `h'` afterwards. -/
abbrev Renders (x : Ext) (lang : Option Language.Lang) : List Doc → Job → Option (List Nat) → Heap → Heap → Str → Prop :=
  RendersIn innermost lookup x lang

/-- The language table of a dataset: the one stored under `#`. -/
inductive LangOf (h : Heap) (a : Nat) : Option Language.Lang → Prop where
  | table {b : Nat} {l : Language.Lang} : Entry h a b!"#" (.ptr b) → h[b]? = some (.lang l) → LangOf h a (some l)
  | none : (∀ b l, Entry h a b!"#" (.ptr b) → h[b]? ≠ some (.lang l)) → LangOf h a none

/-- What `Execute` gives for a template at the place `sc`. -/
inductive ExecutesIn {S : Type} (own : S → List Param) (look : S → Str → Option S) (x : Ext) (sc : S) : Option Nat → Heap → Heap → Str → Prop where
  | data {a : Nat} {lang : Option Language.Lang} {h h' : Heap} {s : Str} : LangOf h a lang →
      RendersIn own look x lang sc .document (some [a]) h h' s → ExecutesIn own look x sc (some a) h h' s
  | nil {h h' : Heap} {s : Str} : RendersIn own look x none sc .document none h h' s → ExecutesIn own look x sc none h h' s

/-- What `Execute` gives for a document. -/
abbrev Executes (x : Ext) (d : Doc) : Option Nat → Heap → Heap → Str → Prop := ExecutesIn innermost lookup x [d]

/-! ## Names -/

/-- The element names the sub-template: it is one of those the element may choose to render. -/
inductive Names : Param → Str → Prop where
  | reference {d id : Str} {rest : List Str} : parts d = id :: rest → rest.length ≠ 2 → Names ⟨.reference, d⟩ id
  | referenceValue {d any key pre text : Str} : parts d = [any, key, pre] → Names ⟨.reference, d⟩ (pre ++ text)
  | range {d key id : Str} : Target d key id → Names ⟨.range, d⟩ id
  | rangeNone {d key id : Str} : Target d key id → Names ⟨.range, d⟩ (id ++ b!".none")
  | rangeItem {d key id v : Str} {i n : Nat} : Target d key id → v ∈ rangeNames id i n → Names ⟨.range, d⟩ v
  | condition {d key id : Str} : Target d key id → Names ⟨.condition, d⟩ id
  | conditionValue {d key id text : Str} : Target d key id → text ≠ [] → Names ⟨.condition, d⟩ (id ++ b!"." ++ text)

/-- The element names only used sub-templates. -/
def NamesOnly (used : Str → Bool) (p : Param) : Prop := ∀ v, Names p v → used v = true

/-- The document without the boxes that have no used name, at any depth. -/
def Doc.prune (used : Str → Bool) : Doc → Doc
  | .nil => .nil
  | .elem p r => .elem p (r.prune used)
  | .box n b r => if (namesOf n).any used then .box n (b.prune used) (r.prune used) else r.prune used

/-! ## Which documents call which -/

/-- All elements of the document and of its boxes, at any depth, satisfy `P`. -/
def Doc.All (P : Param → Prop) : Doc → Prop
  | .nil => True
  | .elem p r => P p ∧ r.All P
  | .box _ b r => b.All P ∧ r.All P

/-- An element of the innermost document of `sc` may render the innermost document of `sc'`. -/
def Calls (sc sc' : List Doc) : Prop := ∃ d up p v, sc = d :: up ∧ p ∈ d.own ∧ Names p v ∧ lookup sc v = some sc'

/-- An element at the place `sc` may render what is at the place `sc'`. -/
def CallsIn {S : Type} (own : S → List Param) (look : S → Str → Option S) (sc sc' : S) : Prop := ∃ p v, p ∈ own sc ∧ Names p v ∧ look sc v = some sc'

/-- The scopes of the document and of its boxes, at any depth. -/
inductive Inside (d : Doc) : List Doc → Prop where
  | root : Inside d [d]
  | box {e b : Doc} {up : List Doc} {v : Str} : Inside d (e :: up) → e.find v = some b → Inside d (b :: e :: up)

/-- In the document and in its boxes, at any depth: the names that an element uses are declared by the document it stands in directly, or by
none that encloses it. -/
def Inward (d : Doc) : Prop :=
  ∀ e up, Inside d (e :: up) → ∀ p ∈ e.own, ∀ v, Names p v → e.find v = none → lookup up v = none

/-- Not a reference of two or three parts: these need data. -/
def NeedsNoData (p : Param) : Prop := p.kind = .reference → (parts p.data).length ≠ 2 ∧ (parts p.data).length ≠ 3

/-- What an element looks for when there are no data: the first visible of the names is rendered. -/
inductive NilTries : Param → List Str → Prop where
  | reference {d id : Str} {rest : List Str} : parts d = id :: rest → rest.length ≠ 1 → rest.length ≠ 2 → NilTries ⟨.reference, d⟩ [id]
  | condition {d key id : Str} : Target d key id → NilTries ⟨.condition, d⟩ [id ++ b!".none", id]

/-- The scopes that rendering without data comes to. -/
inductive NilRenders (d : Doc) : List Doc → Prop where
  | root : NilRenders d [d]
  | call {e : Doc} {up sc : List Doc} {p : Param} {names : List Str} : NilRenders d (e :: up) → p ∈ e.own → NilTries p names →
      names.findSome? (lookup (e :: up)) = some sc → NilRenders d sc

/-- The element uses data: a reference of three parts, or one of two parts whose sub-template is visible. -/
def UsesData (sc : List Doc) (p : Param) : Prop :=
  p.kind = .reference ∧ ((parts p.data).length = 3 ∨ ∃ id key, parts p.data = [id, key] ∧ lookup sc id ≠ none)

/-- Rendering without data comes to an element that uses data. -/
def MeetsDataUse (d : Doc) : Prop := ∃ e up p, NilRenders d (e :: up) ∧ p ∈ e.own ∧ UsesData (e :: up) p

/-! ## Rendering in the code -/

/-- What is needed of the data `Execute` is given. -/
structure Proper (h : Heap) (data : Option Nat) : Prop where
  wf : WF h
  wrapped : Wrapped h
  short : Short h
  data : ∀ a, data = some a → IsDataset h a

/-- What the data and the scope stack satisfy during rendering. -/
structure Ready (h : Heap) (σ : Option (List Nat)) : Prop where
  wf : WF h
  wrapped : Wrapped h
  short : Short h
  data : ∀ l, σ = some l → ∀ a ∈ l, IsDataset h a

/-- The elements of `datacol` for a list of datasets. -/
def stackOf (σ : Option (List Nat)) : Option (List (Option Nat)) := σ.map fun l => l.reverse.map some

/-- The table at the address is the language. -/
def LangIs (h : Heap) (la : Option Nat) (lang : Option Language.Lang) : Prop :=
  match la, lang with
  | none, none => True
  | some a, some l => h[a]? = some (.lang l)
  | _, _ => False

/-- `la` is the address of the language table stored under `#` in the dataset; `none` if there is none. -/
def LangAt (h : Heap) (a : Nat) (la : Option Nat) : Prop :=
  ∀ b, la = some b ↔ Entry h a b!"#" (.ptr b) ∧ ∃ l, h[b]? = some (.lang l)

/-- The code renders the template at address `t` with the datasets `σ` (innermost first): the text is `s` and memory is `h'` afterwards, and
the scope stack is what it was. -/
def Yields (x : Ext) (th : THeap) (la : Option Nat) (t : Nat) (σ : Option (List Nat)) (h h' : Heap) (s : Str) : Prop :=
  ∃ n, injector x th la n t ⟨h, stackOf σ⟩ = .ok (⟨h', stackOf σ⟩, s)

/-- The code renders one element of the template at address `t`. -/
def ElemYields (x : Ext) (th : THeap) (la : Option Nat) (t : Nat) (p : Param) (σ : Option (List Nat)) (h h' : Heap) (s : Str) : Prop :=
  ∃ n, injectItem x th la (injector x th la n) t p ⟨h, stackOf σ⟩ = .ok (⟨h', stackOf σ⟩, s)

/-- The code renders the first template that `GetTemplate` finds from `t` under one of the names; nothing if there is none. -/
inductive FirstYields (x : Ext) (th : THeap) (la : Option Nat) (t : Nat) : List Str → Option (List Nat) → Heap → Heap → Str → Prop where
  | found {v : Str} {names : List Str} {c : Nat} {σ h h' s} : getTemplate th t v = .ok (some c) → Yields x th la c σ h h' s →
      FirstYields x th la t (v :: names) σ h h' s
  | next {v : Str} {names : List Str} {σ h h' s} : getTemplate th t v = .ok none → FirstYields x th la t names σ h h' s →
      FirstYields x th la t (v :: names) σ h h' s
  | none {σ h} : FirstYields x th la t [] σ h h []

/-- One after the other: the texts are put together, each starts with the memory the one before has left. -/
inductive InOrder {α : Type} (G : Nat → α → Heap → Heap → Str → Prop) : Nat → List α → Heap → Heap → Str → Prop where
  | nil {i : Nat} {h : Heap} : InOrder G i [] h h []
  | cons {i : Nat} {a : α} {l : List α} {h h₁ h₂ : Heap} {s₁ s₂ : Str} : G i a h h₁ s₁ → InOrder G (i + 1) l h₁ h₂ s₂ →
      InOrder G i (a :: l) h h₂ (s₁ ++ s₂)

/-- Round `i` of a loop over `n` elements, with the element `a`: it gets the counter and is the innermost dataset for the best of the
templates. -/
def Round (x : Ext) (th : THeap) (la : Option Nat) (t : Nat) (id : Str) (n : Nat) (l : List Nat) (i a : Nat) (h h' : Heap) (s : Str) : Prop :=
  ∃ h₁, SetCounter h a (i + 1) h₁ ∧ FirstYields x th la t (rangeNames id i n) (some (a :: l)) h₁ h' s

/-- The text means the document: its elements are those of `d`. -/
def Means (s : Str) (d : Doc) : Prop := d.Plain ∧ ∃ l, Reads s l ∧ l.map Prod.snd = d.tokens

/-! ## Memory -/

/-- Memory is the same except that plain datasets behind elements of collections may have a new `.counter`, an int. -/
structure OnlyCounters (h h' : Heap) : Prop where
  length : h'.length = h.length
  objects : ∀ b : Nat, h'[b]? = h[b]? ∨ ∃ m m', h[b]? = some (.ds m) ∧ h'[b]? = some (.ds m') ∧ (∀ k, k ≠ b!".counter" → m'.get k = m.get k) ∧
    (∃ i : Nat, m'.get b!".counter" = some (.int .int i)) ∧ ∃ c l a, IsCollection h c l ∧ some a ∈ l ∧ Wraps h a b

/-! ## Rendering again -/

/-- Memory is the same except that datasets may have an int as `.counter`, whatever they had there before. -/
structure SameButCounters (h h' : Heap) : Prop where
  length : h'.length = h.length
  objects : ∀ b : Nat, h'[b]? = h[b]? ∨ ∃ m m', h[b]? = some (.ds m) ∧ h'[b]? = some (.ds m') ∧ (∀ k, k ≠ b!".counter" → m'.get k = m.get k) ∧
    (m'.get b!".counter" = m.get b!".counter" ∨ ∃ i : Nat, m'.get b!".counter" = some (.int .int i))

/-- Where rendering the document with the dataset `a` and memory `h` comes to: the documents in scope, the datasets (both innermost first), and
whether the innermost dataset is a row of a loop. -/
inductive Visits (x : Ext) (d : Doc) (h : Heap) (a : Nat) : List Doc → List Nat → Bool → Prop where
  | root : Visits x d h a [d] [a] false
  | reference {e : Doc} {up sc : List Doc} {σ : List Nat} {row : Bool} {t id : Str} {rest : List Str} : Visits x d h a (e :: up) σ row →
      ⟨.reference, t⟩ ∈ e.own → parts t = id :: rest → rest.length ≠ 1 → rest.length ≠ 2 → [id].findSome? (lookup (e :: up)) = some sc →
      Visits x d h a sc σ row
  | referenceWith {e : Doc} {up sc : List Doc} {σ : List Nat} {row : Bool} {t id key : Str} {b : Nat} : Visits x d h a (e :: up) σ row →
      ⟨.reference, t⟩ ∈ e.own → parts t = [id, key] → ValueAt h (some σ) key (.ptr b) → IsDataset h b →
      [id].findSome? (lookup (e :: up)) = some sc → Visits x d h a sc (b :: σ) false
  | referenceWithout {e : Doc} {up sc : List Doc} {σ : List Nat} {row : Bool} {t id key : Str} {v : Val} : Visits x d h a (e :: up) σ row →
      ⟨.reference, t⟩ ∈ e.own → parts t = [id, key] → ValueAt h (some σ) key v → (∀ b, v = .ptr b → ¬ IsDataset h b) →
      [id].findSome? (lookup (e :: up)) = some sc → Visits x d h a sc σ row
  | referenceValue {e : Doc} {up sc : List Doc} {σ : List Nat} {row : Bool} {t any key pre text : Str} {v : Val} : Visits x d h a (e :: up) σ row →
      ⟨.reference, t⟩ ∈ e.own → parts t = [any, key, pre] → ValueAt h (some σ) key v → Shows x h v text →
      [pre ++ text, pre].findSome? (lookup (e :: up)) = some sc → Visits x d h a sc σ row
  | rangeEmpty {e : Doc} {up sc : List Doc} {σ : List Nat} {row : Bool} {t key id : Str} {v : Val} : Visits x d h a (e :: up) σ row →
      ⟨.range, t⟩ ∈ e.own → Target t key id → ValueAt h (some σ) key v → (∀ c l, v = .ptr c → IsCollection h c l → l = []) →
      [id ++ b!".none", id].findSome? (lookup (e :: up)) = some sc → Visits x d h a sc σ row
  | range {e : Doc} {up sc : List Doc} {σ : List Nat} {row : Bool} {t key id : Str} {c b i : Nat} {l : List (Option Nat)} :
      Visits x d h a (e :: up) σ row → ⟨.range, t⟩ ∈ e.own → Target t key id → ValueAt h (some σ) key (.ptr c) → IsCollection h c l →
      l[i]? = some (some b) → (rangeNames id i l.length).findSome? (lookup (e :: up)) = some sc → Visits x d h a sc (b :: σ) true
  | conditionNone {e : Doc} {up sc : List Doc} {σ : List Nat} {row : Bool} {t key id : Str} {v : Val} : Visits x d h a (e :: up) σ row →
      ⟨.condition, t⟩ ∈ e.own → Target t key id → ValueAt h (some σ) key v → Shows x h v [] →
      [id ++ b!".none", id].findSome? (lookup (e :: up)) = some sc → Visits x d h a sc σ row
  | conditionValue {e : Doc} {up sc : List Doc} {σ : List Nat} {row : Bool} {t key id text : Str} {v : Val} : Visits x d h a (e :: up) σ row →
      ⟨.condition, t⟩ ∈ e.own → Target t key id → ValueAt h (some σ) key v → (∀ b, v = .ptr b → ¬ IsDataset h b) → Shows x h v text →
      [id ++ b!"." ++ text, id].findSome? (lookup (e :: up)) = some sc → Visits x d h a sc σ row
  | conditionDataset {e : Doc} {up sc : List Doc} {σ : List Nat} {row : Bool} {t key id : Str} {b : Nat} : Visits x d h a (e :: up) σ row →
      ⟨.condition, t⟩ ∈ e.own → Target t key id → ValueAt h (some σ) key (.ptr b) → IsDataset h b →
      [id ++ b!".array", id].findSome? (lookup (e :: up)) = some sc → Visits x d h a sc (b :: σ) false

/-- The path does not lead through an entry `.counter`. -/
def NoCounter (path : Str) : Prop := b!".counter" ∉ split 62 path

/-- The element gives the same whatever counters earlier loops have left: it is no dump, it reads `.counter` only as `{{.counter}}` where the
innermost dataset is a row of a loop, and what it prints is no dataset or collection (they print their counters). -/
inductive IgnoresOldCounters (h : Heap) (σ : List Nat) (row : Bool) : Param → Prop where
  | noData {k : Kind} {t : Str} : k ≠ .variable → k ≠ .reference → k ≠ .range → k ≠ .condition → k ≠ .dump → IgnoresOldCounters h σ row ⟨k, t⟩
  | counter : row = true → IgnoresOldCounters h σ row ⟨.variable, b!".counter"⟩
  | «variable» {path : Str} : NoCounter path → (∀ v, ValueAt h (some σ) path v → Plain h v) → IgnoresOldCounters h σ row ⟨.variable, path⟩
  | reference {t : Str} : (parts t).length ≠ 2 → (parts t).length ≠ 3 → IgnoresOldCounters h σ row ⟨.reference, t⟩
  | referenceWith {t id key : Str} : parts t = [id, key] → NoCounter key → IgnoresOldCounters h σ row ⟨.reference, t⟩
  | referenceValue {t any key pre : Str} : parts t = [any, key, pre] → NoCounter key → (∀ v, ValueAt h (some σ) key v → Plain h v) →
      IgnoresOldCounters h σ row ⟨.reference, t⟩
  | range {t key id : Str} : Target t key id → NoCounter key → IgnoresOldCounters h σ row ⟨.range, t⟩
  | condition {t key id : Str} : Target t key id → NoCounter key → (∀ c l, ValueAt h (some σ) key (.ptr c) → ¬ IsCollection h c l) →
      IgnoresOldCounters h σ row ⟨.condition, t⟩

/-- Every element that rendering comes to is of that kind. -/
def Steady (x : Ext) (d : Doc) (h : Heap) (a : Nat) : Prop :=
  ∀ e up σ row, Visits x d h a (e :: up) σ row → ∀ p ∈ e.own, IgnoresOldCounters h σ row p

/-- The template is executed again and again with the dataset, each time with the memory the time before has left; these are the texts. -/
inductive Repeats (x : Ext) (th : THeap) (t a : Nat) : Heap → List Str → Heap → Prop where
  | stop {h : Heap} : Repeats x th t a h [] h
  | again {h h' h'' : Heap} {out : Str} {outs : List Str} : (∃ n, execute x th n t h (some a) = .ok (h', out)) → Repeats x th t a h' outs h'' →
      Repeats x th t a h (out :: outs) h''

end Xcore.Template
