import Verif.Model.TemplateExec

/-!
# Templates: several goroutines render at the same time (v2/xtemplate.go:303-492)

The same code as in `Verif.Model.TemplateExec`, as a program whose accesses to the data are single steps, so that between any two of them
other goroutines may change the data. A step is one lookup in one dataset or collection, one type assertion, one `Set`, or one printing of a
value. That such a step is not mixed with another one is what the locks of the thread-safe types are for; on plain types that other goroutines
change Go promises nothing, and the model says nothing about that. Templates are only read.

Simplified: printing a value that is itself a dataset or a collection is one step, although it takes one lock after the other.
-/

namespace Xcore.Template

open Xcore.Dataset

/-- What a goroutine still has to do. -/
inductive Prog (α : Type) where
  /-- it has ended, with a result -/
  | ret (a : α)
  /-- it has panicked -/
  | panic
  /-- the model's bound for nested calls is reached -/
  | diverge
  /-- it looks at memory and goes on -/
  | read (k : Heap → Prog α)
  /-- it changes memory and goes on -/
  | write (f : Heap → Res Heap) (k : Prog α)

namespace Prog

/-- One thing after the other. -/
def bind {α β : Type} : Prog α → (α → Prog β) → Prog β
  | .ret a, f => f a
  | .panic, _ => .panic
  | .diverge, _ => .diverge
  | .read k, f => .read fun h => bind (k h) f
  | .write g k, f => .write g (bind k f)

instance : Monad Prog where
  pure := .ret
  bind := bind

/-- No access to the data. -/
def ofRes {α : Type} : Res α → Prog α
  | .ok a => .ret a
  | .panic => .panic
  | .diverge => .diverge

/-- One look at memory. -/
def look {α : Type} (g : Heap → Res α) : Prog α := .read fun h => ofRes (g h)

/-- The next step of a goroutine, if it has one. -/
def step {α : Type} (h : Heap) : Prog α → Option (Heap × Prog α)
  | .read k => some (h, k h)
  | .write f k => match f h with
    | .ok h' => some (h', k)
    | .panic => some (h, .panic)
    | .diverge => some (h, .diverge)
  | _ => none

/-- The goroutine alone, to its end. -/
def alone {α : Type} : Prog α → Heap → Res (Heap × α)
  | .ret a, h => .ok (h, a)
  | .panic, _ => .panic
  | .diverge, _ => .diverge
  | .read k, h => alone (k h) h
  | .write f k, h => match f h with
    | .ok h' => alone k h'
    | .panic => .panic
    | .diverge => .diverge

end Prog

/-- The elements of `datacol`, `none` if that is the nil interface. Only the goroutine itself knows this collection. -/
abbrev Stk := Option (List (Option Nat))

/-- A lookup in the map of a dataset of either type (xdataset.go:75, 97; xdatasetts.go:45-49). -/
def lookP (a : Nat) (key : Str) : Prog (Option Val) :=
  .look fun h => match target h a with
    | none => .panic
    | some t => .ok ((entries h t).get key)

/-- `Get` (xdataset.go:72-102), as `Dataset.getSegs`. -/
def getP (a : Nat) : List Str → Prog (Option Val)
  | [] => .ret none
  | [key] => lookP a key
  | s :: s2 :: rest => do
    let r ← lookP a s
    match r with
    | none => .ret none
    | some v => do
      let type ← .look fun h => .ok (asDataset h v, asCollection h v)
      match type with
      | (some b, _) => getP b (s2 :: rest)
      | (none, some c) => match atoi s2 with
        | none => .ret none
        | some i => do
          let e ← .look fun h => .ok (colGet (elems h c) i)
          match e with
          | some (some e) => match rest with
            | [] => .ret (some (.ptr e))
            | r :: rest => getP e (r :: rest)
          | _ => .ret none
      | (none, none) => lookP a (join b!">" (s :: s2 :: rest))

/-- The loop of `GetData` (xdatasetcollection.go:79-87) over the elements of the stack, last first. -/
def getDataP (key : Str) : List (Option Nat) → Prog (Option Val)
  | [] => .ret none
  | none :: _ => .panic
  | some a :: l => do
    let r ← getP a (split 62 key)
    match r with
    | some v => .ret (some v)
    | none => getDataP key l

/-- `datacol.GetData` (xdatasetcollection.go:79-87). -/
def stackGetP (stack : List (Option Nat)) (key : Str) : Prog (Option Val) := getDataP key stack.reverse

/-- `fmt.Sprint` of a value. -/
def sprintP (x : Ext) (v : Val) : Prog Str := .look fun h => ofFuel (sprint x (printBound h) h v)

/-- `datacol.GetDataString` (xdatasetcollection.go:90-98). -/
def stackStringP (x : Ext) (stack : List (Option Nat)) (key : Str) : Prog Str := do
  let r ← stackGetP stack key
  match r with
  | none => .ret []
  | some .nil => .ret []
  | some v => sprintP x v

/-- `datacol.Push` (xdatasetcollection.go:54-56). -/
def pushP (s : Stk) (d : Option Nat) : Prog Stk :=
  match s with
  | none => .panic
  | some l => .ret (some (l ++ [d]))

/-- `datacol.Pop` (xdatasetcollection.go:59-63). -/
def popP (s : Stk) : Prog Stk :=
  match s with
  | none => .panic
  | some l => match l.getLast? with
    | none => .panic
    | some _ => .ret (some l.dropLast)

/-- Rendering of a template with a stack: the stack afterwards and the text. -/
abbrev RenderP := Nat → Stk → Prog (Stk × Str)

/-- Rendering of the template found, nothing if it is nil. -/
def renderOptP (rec : RenderP) (o : Option Nat) (s : Stk) : Prog (Stk × Str) :=
  match o with
  | none => .ret (s, [])
  | some t => rec t s

/-- MetaReference (xtemplate.go:334-373). -/
def doReferenceP (x : Ext) (th : THeap) (rec : RenderP) (t : Nat) (data : Str) (s : Stk) : Prog (Stk × Str) :=
  match split 58 data with
  | [_, field, pre] => match s with
    | none => .panic
    | some l => do
      let value ← stackStringP x l field
      let subt ← .ofRes (getTemplate th t (pre ++ value))
      match subt with
      | some c => rec c s
      | none => do
        let subt ← .ofRes (getTemplate th t pre)
        renderOptP rec subt s
  | xid => do
    let subt ← .ofRes (getTemplate th t (xid.headD []))
    match subt with
    | none => .ret (s, [])
    | some c => match xid with
      | [_, key] => match s with
        | none => .panic
        | some l => do
          let dcl ← stackGetP l key
          let ds ← .look fun h => .ok (dcl.bind (asDataset h))
          match ds with
          | some ds => do
            let s ← pushP s (some ds)
            let r ← rec c s
            let s ← popP r.1
            .ret (s, r.2)
          | none => rec c s
      | _ => rec c s

/-- The loop over a collection (xtemplate.go:392-417). As in `rangeLoop`, the number of elements is asked for once; no goroutine that renders
changes a collection. -/
def rangeLoopP (th : THeap) (rec : RenderP) (t : Nat) (id : Str) (subt cl n : Nat) : Nat → Nat → Stk → Prog (Stk × Str)
  | 0, _, s => .ret (s, [])
  | k + 1, i, s => do
    let tmp ← .ofRes (pickRange th t id subt i n)
    let dcl ← .look fun h => .ok (colGetAt h cl i)
    match dcl with
    | some (some dcl) =>
      .write (fun h => Dataset.set h dcl b!".counter" (.int .int (i + 1))) do
        let s ← pushP s (some dcl)
        let r ← rec tmp s
        let s ← popP r.1
        let q ← rangeLoopP th rec t id subt cl n k (i + 1) s
        .ret (q.1, r.2 ++ q.2)
    | _ => .panic

/-- MetaRange (xtemplate.go:379-428). -/
def doRangeP (th : THeap) (rec : RenderP) (t : Nat) (data : Str) (s : Stk) : Prog (Stk × Str) := do
  let ids := twoNames data
  let subt ← .ofRes (getTemplate th t ids.2)
  match subt, s with
  | some c, some l => do
    let r ← stackGetP l ids.1
    let cl ← .look fun h => .ok (r.bind (asCollection h))
    match cl with
    | some cl => do
      let n ← .look fun h => .ok (count h cl)
      if 0 < n then rangeLoopP th rec t ids.2 c cl n n 0 s
      else do
        let tmp ← .ofRes (getTemplate th t (ids.2 ++ b!".none"))
        rec (tmp.getD c) s
    | none => do
      let tmp ← .ofRes (getTemplate th t (ids.2 ++ b!".none"))
      rec (tmp.getD c) s
  | _, _ => .ret (s, [])

/-- The first part of MetaCondition (xtemplate.go:442-465). -/
def condValueP (x : Ext) (th : THeap) (rec : RenderP) (t : Nat) (id : Str) (c : Nat) (value : Val) (s : Stk) : Prog (Stk × Str × Nat) := do
  let ds ← .look fun h => .ok (asDataset h value)
  match ds with
  | some ds => do
    let s ← pushP s (some ds)
    let tmp ← .ofRes (getTemplate th t (id ++ b!"." ++ b!"array"))
    let r ← rec (tmp.getD c) s
    let s ← popP r.1
    .ret (s, r.2, tmp.getD c)
  | none => do
    let svalue ← sprintP x value
    if svalue ≠ [] then do
      let tmp ← .ofRes (getTemplate th t (id ++ b!"." ++ svalue))
      let r ← rec (tmp.getD c) s
      .ret (r.1, r.2, tmp.getD c)
    else .ret (s, [], c)

/-- The second part of MetaCondition (xtemplate.go:466-475); `empty` is its test. -/
def condNoneP (th : THeap) (rec : RenderP) (t : Nat) (id : Str) (subt : Option Nat) (empty : Bool) (s : Stk) : Prog (Stk × Str) :=
  if empty then do
    let tmp ← .ofRes (getTemplate th t (id ++ b!".none"))
    renderOptP rec (tmp.or subt) s
  else .ret (s, [])

/-- `value` of MetaCondition (xtemplate.go:438-441). -/
def condGetP (key : Str) (s : Stk) : Prog Val :=
  match s with
  | none => .ret .nil
  | some l => do
    let r ← stackGetP l key
    .ret (r.getD .nil)

/-- `fmt.Sprint(value) == ""` (xtemplate.go:466). -/
def isEmptyP (x : Ext) (v : Val) : Prog Bool := .look fun h => (ofFuel (sprint x (printBound h) h v)).map List.isEmpty

/-- MetaCondition (xtemplate.go:429-475). -/
def doConditionP (x : Ext) (th : THeap) (rec : RenderP) (t : Nat) (data : Str) (s : Stk) : Prog (Stk × Str) := do
  let ids := twoNames data
  let subt ← .ofRes (getTemplate th t ids.2)
  let value ← condGetP ids.1 s
  if value = .nil then condNoneP th rec t ids.2 subt true s
  else match subt with
    | none => do
      let empty ← isEmptyP x value
      condNoneP th rec t ids.2 none empty s
    | some c => do
      let p ← condValueP x th rec t ids.2 c value s
      let empty ← isEmptyP x value
      let q ← condNoneP th rec t ids.2 (some p.2.2) empty p.1
      .ret (q.1, p.2.1 ++ q.2)

/-- MetaDump (xtemplate.go:476-485). -/
def doDumpP (x : Ext) (data : Str) (s : Stk) : Prog (Stk × Str) :=
  match s with
  | none => .ret (s, [])
  | some l =>
    if data = b!"dump" ∨ data = b!"list" then
      match colGet l 0 with
      | some (some a) => do
        let r ← .look fun h => dsGoString x (printBound h) h a
        .ret (s, r)
      | _ => .ret (s, [])
    else .ret (s, [])

/-- One element of the root (xtemplate.go:325-488). -/
def injectItemP (x : Ext) (th : THeap) (lang : Option Nat) (rec : RenderP) (t : Nat) (v : Param) (s : Stk) : Prog (Stk × Str) :=
  match v.kind with
  | .string => .ret (s, v.data)
  | .comment => .ret (s, [])
  | .language => match lang with
    | none => .ret (s, [])
    | some a => do
      let r ← .look fun h => match h[a]? with
        | some (.lang l) => .ok (Language.get l v.data)
        | _ => .panic                                  -- unreachable
      .ret (s, r)
  | .reference => doReferenceP x th rec t v.data s
  | .variable => match s with
    | none => .ret (s, [])
    | some l => do
      let d ← stackStringP x l v.data
      .ret (s, d)
  | .range => doRangeP th rec t v.data s
  | .condition => doConditionP x th rec t v.data s
  | .dump => doDumpP x v.data s
  | k => .ret (s, b!"THE METALANGUAGE FROM OUTERSPACE IS NOT SUPPORTED: " ++ itoa k.num)

/-- The loop over the root (xtemplate.go:324-491). -/
def injectAllP (item : Param → Stk → Prog (Stk × Str)) : List Param → Stk → Prog (Stk × Str)
  | [], s => .ret (s, [])
  | v :: l, s => do
    let r ← item v s
    let q ← injectAllP item l r.1
    .ret (q.1, r.2 ++ q.2)

/-- `injector` (xtemplate.go:319-492). The number bounds the depth of nested calls. -/
def injectorP (x : Ext) (th : THeap) (lang : Option Nat) : Nat → RenderP
  | 0, _, _ => .diverge
  | n + 1, t, s => match th[t]? with
    | none => .panic                                   -- unreachable
    | some o => match o.root with
      | none => .ret (s, b!"Error, no template.Root compiled")
      | some root => injectAllP (injectItemP x th lang (injectorP x th lang n) t) root s

/-- `Execute` (xtemplate.go:303-316). -/
def executeP (x : Ext) (th : THeap) (n : Nat) (t : Nat) (data : Option Nat) : Prog Str :=
  match data with
  | some a => do
    let l ← getP a (split 62 b!"#")
    let lang ← .look fun h => .ok (langOf h l)
    let r ← injectorP x th lang n t (some [some a])
    .ret r.2
  | none => do
    let r ← injectorP x th none n t none
    .ret r.2

/-- Goroutine `i` takes its next step. -/
def stepAt (i : Nat) (c : Heap × List (Prog Str)) : Option (Heap × List (Prog Str)) :=
  match c.2[i]? with
  | none => none
  | some p => (p.step c.1).map fun r => (r.1, c.2.set i r.2)

/-- The goroutines take steps in the given order. -/
def stepsAt : List Nat → Heap × List (Prog Str) → Option (Heap × List (Prog Str))
  | [], c => some c
  | i :: l, c => (stepAt i c).bind (stepsAt l)

end Xcore.Template
