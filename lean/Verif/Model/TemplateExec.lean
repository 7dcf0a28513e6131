import Verif.Model.Template
import Verif.Model.Dataset

/-!
# Templates: rendering and cloning (v2/xtemplate.go:303-541)

The scope stack of `Execute` is an `XDatasetCollection` that only the calls of `injector` know: it is handed down as a parameter and
never stored in the data. The model keeps its elements (innermost last, as in the Go slice) beside the memory instead of in it; its
methods are those of `Verif.Model.Dataset`.
-/

namespace Xcore.Template

open Xcore.Dataset

/-- What rendering reads and changes: the data in memory and the elements of `datacol`, `none` if that is the nil interface. -/
structure St where
  heap : Heap
  stack : Option (List (Option Nat))
  deriving DecidableEq, Repr

/-- Bound for the depth of nested String and GoString calls. It is enough for all data that can be printed
(`Xcore.Dataset.sprint_bound`); on other data the Go recursion never ends. -/
def printBound (h : Heap) : Nat := 2 * h.length + 1

/-- `datacol.GetData` (xdatasetcollection.go:79-87), on the elements of the stack. -/
def stackGet (h : Heap) (stack : List (Option Nat)) (key : Str) : Res (Option Val) := getDataL h key stack.reverse

/-- `datacol.GetDataString` (xdatasetcollection.go:90-98), whose flag is ignored: the text is empty if there is no value. -/
def stackString (x : Ext) (h : Heap) (stack : List (Option Nat)) (key : Str) : Res Str := do
  let r ← stackGet h stack key
  match r with
  | none => .ok []
  | some .nil => .ok []
  | some v => ofFuel (sprint x (printBound h) h v)

/-- `datacol.Push` (xdatasetcollection.go:54-56); a call on the nil interface panics. -/
def pushSt (s : St) (d : Option Nat) : Res St :=
  match s.stack with
  | none => .panic
  | some l => .ok { s with stack := some (l ++ [d]) }

/-- `datacol.Pop` (xdatasetcollection.go:59-63): index panic on an empty stack. -/
def popSt (s : St) : Res St :=
  match s.stack with
  | none => .panic
  | some l => match l.getLast? with
    | none => .panic
    | some _ => .ok { s with stack := some l.dropLast }

/-- Rendering of a template on a state: the text and the state afterwards. -/
abbrev Render := Nat → St → Res (St × Str)

/-- Rendering of the template found, nothing if it is nil. -/
def renderOpt (rec : Render) (o : Option Nat) (s : St) : Res (St × Str) :=
  match o with
  | none => .ok (s, [])
  | some t => rec t s

/-- MetaReference (xtemplate.go:334-373). -/
def doReference (x : Ext) (th : THeap) (rec : Render) (t : Nat) (data : Str) (s : St) : Res (St × Str) :=
  match split 58 data with
  | [_, field, pre] => match s.stack with
    | none => .panic
    | some l => do
      let value ← stackString x s.heap l field
      let subt ← getTemplate th t (pre ++ value)
      match subt with
      | some c => rec c s
      | none => do
        let subt ← getTemplate th t pre
        renderOpt rec subt s
  | xid => do
    let subt ← getTemplate th t (xid.headD [])
    match subt with
    | none => .ok (s, [])
    | some c => match xid with
      | [_, key] => match s.stack with
        | none => .panic
        | some l => do
          let dcl ← stackGet s.heap l key
          match dcl.bind (asDataset s.heap) with
          | some ds => do
            let s ← pushSt s (some ds)
            let r ← rec c s
            let s ← popSt r.1
            .ok (s, r.2)
          | none => rec c s
      | _ => rec c s

/-- The template of the `i`-th of `n` elements of a loop (xtemplate.go:393-409). -/
def pickRange (th : THeap) (t : Nat) (id : Str) (subt i n : Nat) : Res Nat := do
  let tmp ← getTemplate th t (id ++ b!".key." ++ itoa i)
  let tmp ← (if tmp = none ∧ i = 0 then getTemplate th t (id ++ b!".first") else .ok tmp)
  let tmp ← (if tmp = none ∧ i + 1 = n then getTemplate th t (id ++ b!".last") else .ok tmp)
  let tmp ← (if tmp = none ∧ i % 2 = 0 then getTemplate th t (id ++ b!".even") else .ok tmp)
  .ok (tmp.getD subt)

/-- The loop over a collection (xtemplate.go:392-417), `k` rounds from index `i` on. The Go code asks for the number `n` of elements in
every round; it cannot change, because rendering changes no collection. -/
def rangeLoop (th : THeap) (rec : Render) (t : Nat) (id : Str) (subt cl n : Nat) : Nat → Nat → St → Res (St × Str)
  | 0, _, s => .ok (s, [])
  | k + 1, i, s => do
    let tmp ← pickRange th t id subt i n
    match colGetAt s.heap cl i with
    | some (some dcl) => do
      let h ← Dataset.set s.heap dcl b!".counter" (.int .int (i + 1))
      let s ← pushSt { s with heap := h } (some dcl)
      let r ← rec tmp s
      let s ← popSt r.1
      let q ← rangeLoop th rec t id subt cl n k (i + 1) s
      .ok (q.1, r.2 ++ q.2)
    | _ => .panic                                      -- nil element: call on the nil interface

/-- The two names in the text of a loop or condition (xtemplate.go:380-385, 430-435): data and template. -/
def twoNames (data : Str) : Str × Str :=
  match split 58 data with
  | [] => ([], [])                                     -- unreachable
  | [a] => (a, a)
  | a :: b :: _ => (a, b)

/-- MetaRange (xtemplate.go:379-428). -/
def doRange (th : THeap) (rec : Render) (t : Nat) (data : Str) (s : St) : Res (St × Str) := do
  let ids := twoNames data
  let subt ← getTemplate th t ids.2
  match subt, s.stack with
  | some c, some l => do
    let r ← stackGet s.heap l ids.1
    match r.bind (asCollection s.heap) with
    | some cl =>
      if 0 < count s.heap cl then rangeLoop th rec t ids.2 c cl (count s.heap cl) (count s.heap cl) 0 s
      else do
        let tmp ← getTemplate th t (ids.2 ++ b!".none")
        rec (tmp.getD c) s
    | none => do
      let tmp ← getTemplate th t (ids.2 ++ b!".none")
      rec (tmp.getD c) s
  | _, _ => .ok (s, [])

/-- The first part of MetaCondition (xtemplate.go:442-465), when the sub-template is `c` and the value is not nil: state, text, and
`subt` afterwards. -/
def condValue (x : Ext) (th : THeap) (rec : Render) (t : Nat) (id : Str) (c : Nat) (value : Val) (s : St) : Res (St × Str × Nat) :=
  match asDataset s.heap value with
  | some ds => do
    let s ← pushSt s (some ds)
    let tmp ← getTemplate th t (id ++ b!"." ++ b!"array")
    let r ← rec (tmp.getD c) s
    let s ← popSt r.1
    .ok (s, r.2, tmp.getD c)
  | none => do
    let svalue ← ofFuel (sprint x (printBound s.heap) s.heap value)
    if svalue ≠ [] then do
      let tmp ← getTemplate th t (id ++ b!"." ++ svalue)
      let r ← rec (tmp.getD c) s
      .ok (r.1, r.2, tmp.getD c)
    else .ok (s, [], c)

/-- The second part of MetaCondition (xtemplate.go:466-475); `empty` is its test. -/
def condNone (th : THeap) (rec : Render) (t : Nat) (id : Str) (subt : Option Nat) (empty : Bool) (s : St) : Res (St × Str) :=
  if empty then do
    let tmp ← getTemplate th t (id ++ b!".none")
    renderOpt rec (tmp.or subt) s
  else .ok (s, [])

/-- `value` of MetaCondition (xtemplate.go:438-441). -/
def condGet (key : Str) (s : St) : Res Val :=
  match s.stack with
  | none => .ok .nil
  | some l => (stackGet s.heap l key).map fun r => r.getD .nil

/-- MetaCondition (xtemplate.go:429-475). -/
def doCondition (x : Ext) (th : THeap) (rec : Render) (t : Nat) (data : Str) (s : St) : Res (St × Str) := do
  let ids := twoNames data
  let subt ← getTemplate th t ids.2
  let value ← condGet ids.1 s
  if value = .nil then condNone th rec t ids.2 subt true s
  else match subt with
    | none => do
      let sv ← ofFuel (sprint x (printBound s.heap) s.heap value)
      condNone th rec t ids.2 none (sv.isEmpty) s
    | some c => do
      let p ← condValue x th rec t ids.2 c value s
      let sv ← ofFuel (sprint x (printBound p.1.heap) p.1.heap value)
      let q ← condNone th rec t ids.2 (some p.2.2) (sv.isEmpty) p.1
      .ok (q.1, p.2.1 ++ q.2)

/-- MetaDump (xtemplate.go:476-485). -/
def doDump (x : Ext) (data : Str) (s : St) : Res (St × Str) :=
  match s.stack with
  | none => .ok (s, [])
  | some l =>
    if data = b!"dump" ∨ data = b!"list" then
      match colGet l 0 with
      | some (some a) => (dsGoString x (printBound s.heap) s.heap a).map fun r => (s, r)
      | _ => .ok (s, [])
    else .ok (s, [])

/-- One element of the root (xtemplate.go:325-488). `lang` is the address of the language table. -/
def injectItem (x : Ext) (th : THeap) (lang : Option Nat) (rec : Render) (t : Nat) (v : Param) (s : St) : Res (St × Str) :=
  match v.kind with
  | .string => .ok (s, v.data)
  | .comment => .ok (s, [])
  | .language => match lang with
    | none => .ok (s, [])
    | some a => match s.heap[a]? with
      | some (.lang l) => .ok (s, Language.get l v.data)
      | _ => .panic                                    -- unreachable
  | .reference => doReference x th rec t v.data s
  | .variable => match s.stack with
    | none => .ok (s, [])
    | some l => (stackString x s.heap l v.data).map fun d => (s, d)
  | .range => doRange th rec t v.data s
  | .condition => doCondition x th rec t v.data s
  | .dump => doDump x v.data s
  | k => .ok (s, b!"THE METALANGUAGE FROM OUTERSPACE IS NOT SUPPORTED: " ++ itoa k.num)

/-- The loop over the root (xtemplate.go:324-491); the pieces are joined. -/
def injectAll (item : Param → St → Res (St × Str)) : List Param → St → Res (St × Str)
  | [], s => .ok (s, [])
  | v :: l, s => do
    let r ← item v s
    let q ← injectAll item l r.1
    .ok (q.1, r.2 ++ q.2)

/-- `injector` (xtemplate.go:319-492). The number bounds the depth of nested calls; Go's recursion has no bound. -/
def injector (x : Ext) (th : THeap) (lang : Option Nat) : Nat → Render
  | 0, _, _ => .diverge
  | n + 1, t, s => match th[t]? with
    | none => .panic                                   -- unreachable
    | some o => match o.root with
      | none => .ok (s, b!"Error, no template.Root compiled")
      | some root => injectAll (injectItem x th lang (injector x th lang n) t) root s

/-- The language table of a dataset (xtemplate.go:306-310). -/
def langOf (h : Heap) (v : Option Val) : Option Nat :=
  match v with
  | some (.ptr a) => match h[a]? with
    | some (.lang _) => some a
    | _ => none
  | _ => none

/-- `Execute` (xtemplate.go:303-316): memory afterwards and the text. -/
def execute (x : Ext) (th : THeap) (n : Nat) (t : Nat) (h : Heap) (data : Option Nat) : Res (Heap × Str) :=
  match data with
  | some a => do
    let l ← Dataset.get h a b!"#"
    let r ← injector x th (langOf h l) n t ⟨h, some [some a]⟩
    .ok (r.1.heap, r.2)
  | none => do
    let r ← injector x th none n t ⟨h, none⟩
    .ok (r.1.heap, r.2)

/-! ## Cloning -/

/-- `Clone`, and `Clone` of the elements (xtemplate.go:521-541, 70-72). The loop over the sub-templates takes them in some order of the map; the new map gets them in the same
order. The sub-templates of the original get the clone as their father; the clone of a sub-template keeps the father it had. The number
bounds the depth of nested calls. -/
def clone : Nat → THeap → Nat → Res (THeap × Nat)
  | 0, _, _ => .diverge
  | n + 1, th, t => match th[t]? with
    | none => .panic                                   -- unreachable
    | some o =>
      let c := th.length
      let th := th ++ [⟨o.name, o.root, none, none⟩]
      match o.subs with
      | none => .ok (upd th c fun o' => { o' with father := o.father }, c)
      | some m => do
        let r ← mapRes (fun th (p : Str × Nat) => (clone n th p.2).map fun q => (upd q.1 p.2 fun o' => { o' with father := some c }, (p.1, q.2)))
          th m
        .ok (upd r.1 c fun o' => { o' with subs := some (r.2.foldl (fun m p => m.set p.1 p.2) []), father := (r.1[t]?.bind Tpl.father) }, c)

end Xcore.Template
