import Verif.Model.V1.Template

/-!
# Templates of version 1: several goroutines render at the same time (xtemplate.go:284-461)

The same code as in `Verif.Model.V1.Template`, as a program whose accesses to the data are single steps, so that between any two of them other
goroutines may do something. A step looks at one object: a dataset, a collection, a language table or the array of a slice. Types of
version 1 have no locks. Templates are only read, and `datacol` is known to one goroutine only, so looking at the data is all that a goroutine
does with memory it may share.

Simplified: a type assertion looks at the object, although Go finds the type beside the pointer; `range` over the map of a dataset that is printed is
one step.
-/

namespace Xcore.V1.Template

open Xcore.Template (Param twoNames)
open Xcore.Dataset (Ext Val fmtScalar colText)
open Xcore.V1.Dataset

/-- What a goroutine still has to do. -/
inductive Prog (α : Type) where
  /-- it has ended, with a result -/
  | ret (a : α)
  /-- it has panicked -/
  | panic
  /-- the model's bound for nested calls is reached -/
  | diverge
  /-- it looks at the object at an address and goes on -/
  | read (a : Nat) (k : Option Obj → Prog α)

namespace Prog

/-- One thing after the other. -/
def bind {α β : Type} : Prog α → (α → Prog β) → Prog β
  | .ret a, f => f a
  | .panic, _ => .panic
  | .diverge, _ => .diverge
  | .read a k, f => .read a fun o => bind (k o) f

instance : Monad Prog where
  pure := .ret
  bind := bind

/-- No access to the data. -/
def ofRes {α : Type} : Res α → Prog α
  | .ok a => .ret a
  | .panic => .panic
  | .diverge => .diverge

/-- One look at an object. -/
def look {α : Type} (a : Nat) (g : Option Obj → α) : Prog α := .read a fun o => .ret (g o)

/-- The next step of a goroutine, if it has one. -/
def step {α : Type} (h : Heap) : Prog α → Option (Prog α)
  | .read a k => some (k h[a]?)
  | _ => none

/-- How the goroutine ends if nobody changes memory. -/
def result {α : Type} (h : Heap) : Prog α → Res α
  | .ret a => .ok a
  | .panic => .panic
  | .diverge => .diverge
  | .read a k => result h (k h[a]?)

/-- The objects it looks at until then, in this order. -/
def looksAt {α : Type} (h : Heap) : Prog α → List Nat
  | .read a k => a :: looksAt h (k h[a]?)
  | _ => []

end Prog

/-- The map of a dataset (xdataset.go:93, 115). -/
def entriesP (a : Nat) : Prog (AMap Val) := .look a fun o => match o with
  | some (.ds m) => m
  | _ => []

/-- The elements of a collection (xdataset.go:491-501). -/
def elemsP (a : Nat) : Prog (List (Option Nat)) := .look a fun o => match o with
  | some (.col l) => l
  | _ => []

/-- `v.(XDatasetDef)` (e.g. xdataset.go:97). -/
def asDatasetP : Val → Prog (Option Nat)
  | .ptr a => .look a fun o => match o with
    | some (.ds _) => some a
    | _ => none
  | _ => .ret none

/-- `v.(XDatasetCollectionDef)` (e.g. xdataset.go:100). -/
def asCollectionP : Val → Prog (Option Nat)
  | .ptr a => .look a fun o => match o with
    | some (.col _) => some a
    | _ => none
  | _ => .ret none

/-- `Get` (xdataset.go:90-120), as `Dataset.getSegs`. -/
def getP (a : Nat) : List Str → Prog (Option Val)
  | [] => .ret none
  | [key] => do
    let m ← entriesP a
    .ret (m.get key)
  | s :: s2 :: rest => do
    let m ← entriesP a
    match m.get s with
    | none => .ret none
    | some v => do
      let b ← asDatasetP v
      match b with
      | some b => getP b (s2 :: rest)
      | none => do
        let c ← asCollectionP v
        match c with
        | some c => match atoi s2 with
          | none => .ret none
          | some i => do
            let l ← elemsP c
            match colGet l i with
            | some (some e) => match rest with
              | [] => .ret (some (.ptr e))
              | r :: rest => getP e (r :: rest)
            | _ => .ret none
        | none => do
          let m ← entriesP a
          .ret (m.get (join b!">" (s :: s2 :: rest)))

/-- The loop of `GetData` (xdataset.go:504-512) over the elements of the stack, last first. -/
def getDataP (key : Str) : List (Option Nat) → Prog (Option Val)
  | [] => .ret none
  | none :: _ => .panic
  | some a :: l => do
    let r ← getP a (split 62 key)
    match r with
    | some v => .ret (some v)
    | none => getDataP key l

/-- `datacol.GetData` (xdataset.go:504-512). -/
def stackGetP (stack : List (Option Nat)) (key : Str) : Prog (Option Val) := getDataP key stack.reverse

/-- Do the same with each item of a list, first to last. -/
def mapP {α β : Type} (f : α → Prog β) : List α → Prog (List β)
  | [] => .ret []
  | a :: l => do
    let b ← f a
    let bs ← mapP f l
    .ret (b :: bs)

/-- `fmt.Sprint` of a value, as `Dataset.sprint` (xdataset.go:65-72, 452-459, xlanguage.go:218-225): object after object. -/
def sprintP (x : Ext) : Nat → Val → Prog Str
  | 0, _ => .diverge
  | n + 1, v => match v with
    | .slice _ a => .look a fun o => match o with
      | some (.slice l) => b!"[" ++ join b!" " (l.map (fmtScalar x)) ++ b!"]"
      | _ => []
    | .ptr a => .read a fun o => match o with
      | some (.ds m) => do
        let l ← mapP (fun p : Str × Val => do
          let s ← sprintP x n p.2
          .ret (p.1 ++ b!":" ++ s)) m
        .ret (b!"xcore.XDataset{" ++ join b!" " (sortStrs l) ++ b!"}")
      | some (.col l) => do
        let l ← mapP (fun e : Option Nat => match e with
          | none => .ret b!"<nil>"
          | some b => sprintP x n (.ptr b)) l
        .ret (b!"XDatasetCollection[" ++ colText 0 l ++ b!"]")
      | some (.lang l) => .ret (Language.toString l)
      | _ => .ret []
    | v => .ret (fmtScalar x v)

/-- `fmt.Sprintf("%#v", v)`, as `Dataset.goSprint` (xdataset.go:75-82, 462-464, xlanguage.go:228-235). -/
def goSprintP (x : Ext) : Nat → Val → Prog Str
  | 0, _ => .diverge
  | n + 1, v => match v with
    | .nil => .ret b!"<nil>"
    | .slice k a => .look a fun o => match o with
      | some (.slice l) => x.goSlice k l
      | _ => []
    | .ptr a => .read a fun o => match o with
      | some (.ds m) => do
        let l ← mapP (fun p : Str × Val => do
          let s ← goSprintP x n p.2
          .ret (p.1 ++ b!":" ++ s)) m
        .ret (b!"#xcore.XDataset{" ++ join b!" " (sortStrs l) ++ b!"}")
      | some (.col _) => sprintP x n v
      | some (.lang l) => .ret (Language.goString (fun s => x.goFmt (.str s)) l)
      | _ => .ret []
    | v => .ret (x.goFmt v)

/-- `datacol.GetDataString` (xdataset.go:515-524); `pb` bounds the depth of nested String calls. -/
def stackStringP (x : Ext) (pb : Nat) (stack : List (Option Nat)) (key : Str) : Prog Str := do
  let r ← stackGetP stack key
  match r with
  | none => .ret []
  | some .nil => .ret []
  | some v => sprintP x pb v

/-- `datacol.GetCollection` (xdataset.go:567-574): unchecked type assertion. -/
def stackCollectionP (stack : List (Option Nat)) (key : Str) : Prog (Option Nat) := do
  let r ← stackGetP stack key
  match r with
  | none => .ret none
  | some v => do
    let c ← asCollectionP v
    match c with
    | some c => .ret (some c)
    | none => .panic

/-- Rendering of a template with a stack: the stack afterwards and the text. -/
abbrev RenderP := Nat → Stack → Prog (Stack × Str)

/-- Rendering of the template found, nothing if it is nil. -/
def renderOptP (rec : RenderP) (o : Option Nat) (s : Stack) : Prog (Stack × Str) :=
  match o with
  | none => .ret (s, [])
  | some t => rec t s

/-- Push, render, pop (xtemplate.go:345-351, 392-396). -/
def renderWithP (rec : RenderP) (t : Nat) (d : Option Nat) (s : Stack) : Prog (Stack × Str) := do
  let s ← .ofRes (pushSt s d)
  let r ← rec t s
  let s ← .ofRes (popSt r.1)
  .ret (s, r.2)

/-- MetaReference (xtemplate.go:315-354). -/
def doReferenceP (x : Ext) (pb : Nat) (th : THeap) (rec : RenderP) (t : Nat) (data : Str) (s : Stack) : Prog (Stack × Str) :=
  match split 58 data with
  | [_, field, pre] => match s with
    | none => .panic
    | some l => do
      let value ← stackStringP x pb l field
      match getTemplate th t (pre ++ value) with
      | some c => rec c s
      | none => renderOptP rec (getTemplate th t pre) s
  | xid => match getTemplate th t (xid.headD []) with
    | none => .ret (s, [])
    | some c => match xid with
      | [_, key] => match s with
        | none => .panic
        | some l => do
          let dcl ← stackGetP l key
          match dcl with
          | none => rec c s
          | some v => do
            let ds ← asDatasetP v
            match ds with
            | some ds => renderWithP rec c (some ds) s
            | none => rec c s
      | _ => rec c s

/-- The loop over a collection (xtemplate.go:373-397), `k` rounds from index `i` on. As in `rangeLoop` the number of elements is asked for once:
nobody changes the collection meanwhile. -/
def rangeLoopP (th : THeap) (rec : RenderP) (t : Nat) (id : Str) (subt cl n : Nat) : Nat → Nat → Stack → Prog (Stack × Str)
  | 0, _, s => .ret (s, [])
  | k + 1, i, s => do
    let l ← elemsP cl
    let r ← renderWithP rec (pickRange th t id subt i n) ((colGet l i).getD none) s
    let q ← rangeLoopP th rec t id subt cl n k (i + 1) r.1
    .ret (q.1, r.2 ++ q.2)

/-- MetaRange (xtemplate.go:360-408). -/
def doRangeP (th : THeap) (rec : RenderP) (t : Nat) (data : Str) (s : Stack) : Prog (Stack × Str) :=
  let ids := twoNames data
  match getTemplate th t ids.2, s with
  | some c, some l => do
    let cl ← stackCollectionP l ids.1
    match cl with
    | some cl => do
      let l ← elemsP cl
      rangeLoopP th rec t ids.2 c cl l.length l.length 0 s
    | none => rec ((getTemplate th t (ids.2 ++ b!".none")).getD c) s
  | _, _ => .ret (s, [])

/-- `value` of MetaCondition (xtemplate.go:418-421). -/
def condGetP (key : Str) (s : Stack) : Prog Val :=
  match s with
  | none => .ret .nil
  | some l => do
    let r ← stackGetP l key
    .ret (r.getD .nil)

/-- MetaCondition (xtemplate.go:409-444). -/
def doConditionP (x : Ext) (pb : Nat) (th : THeap) (rec : RenderP) (t : Nat) (data : Str) (s : Stack) : Prog (Stack × Str) := do
  let ids := twoNames data
  let value ← condGetP ids.1 s
  match getTemplate th t ids.2 with
  | none => .ret (s, [])
  | some c =>
    if value = .nil then .ret (s, [])
    else do
      let ds ← asDatasetP value
      match ds with
      | some ds => do
        let s ← .ofRes (pushSt s (some ds))
        let s ← .ofRes (popSt s)
        .ret (s, [])
      | none => do
        let svalue ← sprintP x pb value
        if svalue ≠ [] then rec ((getTemplate th t (ids.2 ++ b!"." ++ svalue)).getD c) s
        else .ret (s, [])

/-- MetaDump (xtemplate.go:445-454). -/
def doDumpP (x : Ext) (pb : Nat) (data : Str) (s : Stack) : Prog (Stack × Str) :=
  match s with
  | none => .ret (s, [])
  | some l =>
    if data = b!"dump" ∨ data = b!"list" then
      match colGet l 0 with
      | some (some a) => do
        let r ← goSprintP x pb (.ptr a)
        .ret (s, r)
      | _ => .ret (s, [])
    else .ret (s, [])

/-- One element of the root (xtemplate.go:306-457); `lang` is the address of the language table. -/
def injectItemP (x : Ext) (pb : Nat) (th : THeap) (lang : Option Nat) (rec : RenderP) (t : Nat) (v : Param) (s : Stack) : Prog (Stack × Str) :=
  match v.kind with
  | .string => .ret (s, v.data)
  | .comment => .ret (s, [])
  | .language => match lang with
    | none => .ret (s, [])
    | some a => .look a fun o => match o with
      | some (.lang l) => (s, Language.get l v.data)
      | _ => (s, [])                                    -- unreachable
  | .reference => doReferenceP x pb th rec t v.data s
  | .variable => match s with
    | none => .ret (s, [])
    | some l => do
      let d ← stackStringP x pb l v.data
      .ret (s, d)
  | .range => doRangeP th rec t v.data s
  | .condition => doConditionP x pb th rec t v.data s
  | .dump => doDumpP x pb v.data s
  | k => .ret (s, b!"THE METALANGUAGE FROM OUTERSPACE IS NOT SUPPORTED: " ++ itoa k.num)

/-- The loop over the root (xtemplate.go:305-460); the pieces are joined. -/
def injectAllP (item : Param → Stack → Prog (Stack × Str)) : List Param → Stack → Prog (Stack × Str)
  | [], s => .ret (s, [])
  | v :: l, s => do
    let r ← item v s
    let q ← injectAllP item l r.1
    .ret (q.1, r.2 ++ q.2)

/-- `injector` (xtemplate.go:300-461). The number bounds the depth of nested calls. -/
def injectorP (x : Ext) (pb : Nat) (th : THeap) (lang : Option Nat) : Nat → RenderP
  | 0, _, _ => .diverge
  | n + 1, t, s => match th[t]? with
    | none => .panic                                   -- unreachable
    | some o => match o.root with
      | none => .ret (s, b!"Error, no template.Root compiled")
      | some root => injectAllP (injectItemP x pb th lang (injectorP x pb th lang n) t) root s

/-- The language table of a dataset (xtemplate.go:287-291). -/
def langP : Option Val → Prog (Option Nat)
  | some (.ptr a) => .look a fun o => match o with
    | some (.lang _) => some a
    | _ => none
  | _ => .ret none

/-- `Execute` (xtemplate.go:284-297). -/
def executeP (x : Ext) (pb : Nat) (th : THeap) (n : Nat) (t : Nat) (data : Option Nat) : Prog Str :=
  match data with
  | some a => do
    let l ← getP a (split 62 b!"#")
    let lang ← langP l
    let r ← injectorP x pb th lang n t (some [some a])
    .ret r.2
  | none => do
    let r ← injectorP x pb th none n t none
    .ret r.2

end Xcore.V1.Template
