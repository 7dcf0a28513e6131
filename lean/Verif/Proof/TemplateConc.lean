import Verif.Model.TemplateConc
import Verif.Spec.TemplateConc
import Verif.Proof.TemplateAgain

/-!
# Rendering by several goroutines
-/

namespace Xcore.Template

open Xcore.Dataset

/-! ## One goroutine alone -/

namespace Prog

theorem ret_bind {α β : Type} (a : α) (f : α → Prog β) : (Prog.ret a >>= f) = f a := rfl
theorem panic_bind {α β : Type} (f : α → Prog β) : ((Prog.panic : Prog α) >>= f) = .panic := rfl
theorem diverge_bind {α β : Type} (f : α → Prog β) : ((Prog.diverge : Prog α) >>= f) = .diverge := rfl
theorem read_bind {α β : Type} (k : Heap → Prog α) (f : α → Prog β) : (Prog.read k >>= f) = .read fun h => k h >>= f := rfl
theorem write_bind {α β : Type} (g : Heap → Res Heap) (k : Prog α) (f : α → Prog β) : (Prog.write g k >>= f) = .write g (k >>= f) := rfl

theorem alone_bind {α β : Type} (p : Prog α) (f : α → Prog β) (h : Heap) : (p >>= f).alone h = p.alone h >>= fun r => (f r.2).alone r.1 := by
  induction p generalizing h with
  | ret a => rfl
  | panic => rfl
  | diverge => rfl
  | read k ih => exact ih h h
  | write g k ih =>
    rw [write_bind]
    simp only [alone]
    cases g h with
    | ok h' => exact ih h'
    | panic => rfl
    | diverge => rfl

theorem alone_ofRes {α : Type} (r : Res α) (h : Heap) : (ofRes r).alone h = r.map fun a => (h, a) := by cases r <;> rfl

theorem alone_look {α : Type} (g : Heap → Res α) (h : Heap) : (look g).alone h = (g h).map fun a => (h, a) := alone_ofRes _ _

theorem alone_ret {α : Type} (a : α) (h : Heap) : (ret a).alone h = .ok (h, a) := rfl

theorem alone_panic {α : Type} (h : Heap) : (panic : Prog α).alone h = .panic := rfl

theorem alone_ofRes_bind {α β : Type} (r : Res α) (f : α → Prog β) (h : Heap) : (ofRes r >>= f).alone h = r >>= fun a => (f a).alone h := by
  cases r <;> rfl

theorem alone_look_bind {α β : Type} (g : Heap → Res α) (f : α → Prog β) (h : Heap) : (look g >>= f).alone h = g h >>= fun a => (f a).alone h :=
  alone_ofRes_bind (g h) f h

end Prog

open Prog

/-- Outcome of the sequential model as an outcome of the program. -/
def outP (r : St × Str) : Heap × (Stk × Str) := (r.1.heap, r.1.stack, r.2)

/-- The program, alone, does what the sequential rendering does. -/
def Same (rec : Render) (recP : RenderP) : Prop := ∀ t h s, (recP t s).alone h = (rec t ⟨h, s⟩).map outP

theorem map_eq_bind {α β : Type} (r : Res α) (f : α → β) : r.map f = r >>= fun a => .ok (f a) := by cases r <;> rfl

theorem bind_assoc' {α β γ : Type} (r : Res α) (f : α → Res β) (g : β → Res γ) : ((r >>= f) >>= g) = r >>= fun a => f a >>= g := by cases r <;> rfl

theorem alone_lookP (a : Nat) (key : Str) (h : Heap) : (lookP a key).alone h = (getSegs h a [key]).map fun r => (h, r) := by
  rw [lookP, alone_look, getSegs]
  cases target h a <;> rfl

theorem getP_more (a : Nat) (s s2 : Str) (rest : List Str) : getP a (s :: s2 :: rest) = (lookP a s >>= fun r => match r with
    | none => .ret none
    | some v => (Prog.look fun h => .ok (asDataset h v, asCollection h v)) >>= fun type => match type with
      | (some b, _) => getP b (s2 :: rest)
      | (none, some c) => match atoi s2 with
        | none => .ret none
        | some i => (Prog.look fun h => .ok (colGet (elems h c) i)) >>= fun e => match e with
          | some (some e) => match rest with
            | [] => .ret (some (.ptr e))
            | r :: rest => getP e (r :: rest)
          | _ => .ret none
      | (none, none) => lookP a (join b!">" (s :: s2 :: rest))) := by
  rw [getP.eq_def] <;> rfl

theorem alone_getP (h : Heap) : ∀ (n : Nat) (a : Nat) (l : List Str), l.length ≤ n → (getP a l).alone h = (getSegs h a l).map fun r => (h, r) := by
  intro n
  induction n with
  | zero => intro a l hl; cases l with
    | nil => rfl
    | cons => simp at hl
  | succ n ih =>
    intro a l hl
    match l, hl with
    | [], _ => rfl
    | [key], _ => exact alone_lookP a key h
    | s :: s2 :: rest, hl =>
      simp only [List.length_cons] at hl
      rw [getP_more, getSegs.eq_def, alone_bind, alone_lookP, getSegs]
      cases ht : target h a with
      | none => simp [Res.map]
      | some t =>
        simp only [Res.map, Res.bind_ok]
        cases (entries h t).get s with
        | none => rfl
        | some v =>
          simp only [alone_look_bind, Res.bind_ok]
          cases h1 : asDataset h v with
          | some b => exact ih b (s2 :: rest) (by simp; omega)
          | none =>
            cases h2 : asCollection h v with
            | none =>
              simp only [alone_lookP, getSegs, ht]
              rfl
            | some c =>
              simp only
              cases atoi s2 with
              | none => rfl
              | some i =>
                simp only [alone_look_bind, Res.bind_ok]
                cases colGet (elems h c) i with
                | none => rfl
                | some e =>
                  cases e with
                  | none => rfl
                  | some e =>
                    cases rest with
                    | nil => rfl
                    | cons r rest => exact ih e (r :: rest) (by simp at hl ⊢; omega)

theorem alone_getDataP (h : Heap) (key : Str) (l : List (Option Nat)) : (getDataP key l).alone h = (getDataL h key l).map fun r => (h, r) := by
  induction l with
  | nil => rfl
  | cons o l ih =>
    cases o with
    | none => rfl
    | some a =>
      rw [getDataP, getDataL, alone_bind, alone_getP h _ _ _ (Nat.le_refl _), Dataset.get]
      cases getSegs h a (split 62 key) with
      | ok r =>
        cases r with
        | none => exact ih
        | some v => rfl
      | panic => rfl
      | diverge => rfl

theorem alone_stackGetP (h : Heap) (l : List (Option Nat)) (key : Str) : (stackGetP l key).alone h = (stackGet h l key).map fun r => (h, r) :=
  alone_getDataP h key l.reverse

theorem alone_stackGetP_bind {β : Type} (h : Heap) (l : List (Option Nat)) (key : Str) (f : Option Val → Prog β) :
    (stackGetP l key >>= f).alone h = stackGet h l key >>= fun r => (f r).alone h := by
  rw [alone_bind, alone_stackGetP]
  cases stackGet h l key <;> rfl

theorem alone_stackStringP (x : Ext) (h : Heap) (l : List (Option Nat)) (key : Str) :
    (stackStringP x l key).alone h = (stackString x h l key).map fun r => (h, r) := by
  rw [stackStringP, stackString, alone_stackGetP_bind]
  cases stackGet h l key with
  | panic => rfl
  | diverge => rfl
  | ok r =>
    cases r with
    | none => rfl
    | some v => cases v <;> first | rfl | exact alone_look (fun h => ofFuel (sprint x (printBound h) h _)) h

theorem alone_stackStringP_bind {β : Type} (x : Ext) (h : Heap) (l : List (Option Nat)) (key : Str) (f : Str → Prog β) :
    (stackStringP x l key >>= f).alone h = stackString x h l key >>= fun r => (f r).alone h := by
  rw [alone_bind, alone_stackStringP]
  cases stackString x h l key <;> rfl

theorem Same.bind {rec : Render} {recP : RenderP} (hr : Same rec recP) {β : Type} (t : Nat) (h : Heap) (s : Stk) (f : Stk × Str → Prog β) :
    (recP t s >>= f).alone h = rec t ⟨h, s⟩ >>= fun r => (f (r.1.stack, r.2)).alone r.1.heap := by
  rw [alone_bind, hr]
  cases rec t ⟨h, s⟩ <;> rfl

theorem same_opt {rec : Render} {recP : RenderP} (hr : Same rec recP) (o : Option Nat) (h : Heap) (s : Stk) :
    (renderOptP recP o s).alone h = (renderOpt rec o ⟨h, s⟩).map outP := by
  cases o with
  | none => rfl
  | some t => exact hr t h s

theorem alone_pushP_bind {β : Type} (h : Heap) (s : Stk) (d : Option Nat) (f : Stk → Prog β) :
    (pushP s d >>= f).alone h = pushSt ⟨h, s⟩ d >>= fun st => (f st.stack).alone st.heap := by
  cases s <;> rfl

theorem alone_popP_bind {β : Type} (st : St) (f : Stk → Prog β) :
    (popP st.stack >>= f).alone st.heap = popSt st >>= fun st => (f st.stack).alone st.heap := by
  obtain ⟨h, s⟩ := st
  cases s with
  | none => rfl
  | some l =>
    simp only [popP, popSt]
    cases l.getLast? <;> rfl

theorem res_bind_congr {α β : Type} (r : Res α) {f g : α → Res β} (e : ∀ a, f a = g a) : (r >>= f) = (r >>= g) := by
  cases r with
  | ok a => exact e a
  | panic => rfl
  | diverge => rfl

theorem map_bind {α β γ : Type} (r : Res α) (f : α → Res β) (g : β → γ) : (r >>= f).map g = r >>= fun a => (f a).map g := by cases r <;> rfl

/-- Push, render, pop. -/
theorem same_scope {rec : Render} {recP : RenderP} (hr : Same rec recP) {β γ : Type} (h : Heap) (s : Stk) (d : Option Nat) (c : Nat) (f : St → Str → Res β)
    (fP : Stk → Str → Prog γ) (g : β → Heap × γ) (e : ∀ (st : St) (b : Str), (fP st.stack b).alone st.heap = (f st b).map g) :
    (pushP s d >>= fun s => recP c s >>= fun r => popP r.1 >>= fun s => fP s r.2).alone h =
      (pushSt ⟨h, s⟩ d >>= fun s => rec c s >>= fun r => popSt r.1 >>= fun s => f s r.2).map g := by
  rw [alone_pushP_bind, map_bind]
  refine res_bind_congr _ fun st => ?_
  rw [hr.bind, map_bind]
  refine res_bind_congr _ fun r => ?_
  rw [alone_popP_bind, map_bind]
  exact res_bind_congr _ fun st => e st r.2

theorem same_reference {rec : Render} {recP : RenderP} (hr : Same rec recP) (x : Ext) (th : THeap) (t : Nat) (data : Str) (h : Heap) (s : Stk) :
    (doReferenceP x th recP t data s).alone h = (doReference x th rec t data ⟨h, s⟩).map outP := by
  have main : ∀ (name : Str) (key : Option Str), (Prog.ofRes (getTemplate th t name) >>= fun subt => match subt with
      | none => .ret (s, [])
      | some c => match key with
        | some key => match s with
          | none => Prog.panic
          | some l => stackGetP l key >>= fun dcl => (Prog.look fun h => .ok (dcl.bind (asDataset h))) >>= fun ds => match ds with
            | some ds => pushP s (some ds) >>= fun s => recP c s >>= fun r => popP r.1 >>= fun s => .ret (s, r.2)
            | none => recP c s
        | none => recP c s).alone h = (getTemplate th t name >>= fun subt => match subt with
      | none => Res.ok ((⟨h, s⟩ : St), [])
      | some c => match key with
        | some key => match s with
          | none => .panic
          | some l => stackGet h l key >>= fun dcl => match dcl.bind (asDataset h) with
            | some ds => pushSt ⟨h, s⟩ (some ds) >>= fun s => rec c s >>= fun r => popSt r.1 >>= fun s => .ok (s, r.2)
            | none => rec c ⟨h, s⟩
        | none => rec c ⟨h, s⟩).map outP := by
    intro name key
    rw [alone_ofRes_bind, map_bind]
    refine res_bind_congr _ fun subt => ?_
    cases subt with
    | none => rfl
    | some c =>
      cases key with
      | none => exact hr c h s
      | some key =>
        cases s with
        | none => rfl
        | some l =>
          simp only
          rw [alone_stackGetP_bind, map_bind]
          refine res_bind_congr _ fun dcl => ?_
          rw [alone_look_bind, Res.bind_ok]
          cases dcl.bind (asDataset h) with
          | none => exact hr c h _
          | some ds => exact same_scope hr h (some l) (some ds) c (fun s b => .ok (s, b)) (fun s b => .ret (s, b)) outP fun _ _ => rfl
  unfold doReferenceP doReference
  match split 58 data with
  | [a, field, pre] =>
    cases s with
    | none => rfl
    | some l =>
      simp only
      rw [alone_stackStringP_bind, map_bind]
      refine res_bind_congr _ fun value => ?_
      rw [alone_ofRes_bind, map_bind]
      refine res_bind_congr _ fun subt => ?_
      cases subt with
      | some c => exact hr c h _
      | none =>
        simp only
        rw [alone_ofRes_bind, map_bind]
        exact res_bind_congr _ fun subt => same_opt hr subt h _
  | [] => exact main _ none
  | [a] => exact main _ none
  | [a, key] => exact main _ (some key)
  | _ :: _ :: _ :: _ :: _ => exact main _ none

theorem same_loop {rec : Render} {recP : RenderP} (hr : Same rec recP) (th : THeap) (t : Nat) (id : Str) (subt cl n : Nat) : ∀ (k i : Nat) (h : Heap) (s : Stk),
    (rangeLoopP th recP t id subt cl n k i s).alone h = (rangeLoop th rec t id subt cl n k i ⟨h, s⟩).map outP := by
  intro k
  induction k with
  | zero => intro i h s; rfl
  | succ k ih =>
    intro i h s
    rw [rangeLoopP, rangeLoop, alone_ofRes_bind, map_bind]
    refine res_bind_congr _ fun tmp => ?_
    rw [alone_look_bind, Res.bind_ok]
    cases colGetAt h cl i with
    | none => rfl
    | some o =>
      cases o with
      | none => rfl
      | some dcl =>
        simp only [alone]
        cases Dataset.set h dcl b!".counter" (.int .int (i + 1)) with
        | panic => rfl
        | diverge => rfl
        | ok h' =>
          exact same_scope hr h' s (some dcl) tmp (fun s b => rangeLoop th rec t id subt cl n k (i + 1) s >>= fun q => .ok (q.1, b ++ q.2))
            (fun s b => rangeLoopP th recP t id subt cl n k (i + 1) s >>= fun q => .ret (q.1, b ++ q.2)) outP fun st b => by
              rw [alone_bind, ih, map_bind]
              cases rangeLoop th rec t id subt cl n k (i + 1) st <;> rfl

theorem same_range {rec : Render} {recP : RenderP} (hr : Same rec recP) (th : THeap) (t : Nat) (data : Str) (h : Heap) (s : Stk) :
    (doRangeP th recP t data s).alone h = (doRange th rec t data ⟨h, s⟩).map outP := by
  have none' : ∀ c, (Prog.ofRes (getTemplate th t ((twoNames data).2 ++ b!".none")) >>= fun tmp => recP (tmp.getD c) s).alone h =
      (getTemplate th t ((twoNames data).2 ++ b!".none") >>= fun tmp => rec (tmp.getD c) ⟨h, s⟩).map outP := by
    intro c
    rw [alone_ofRes_bind, map_bind]
    exact res_bind_congr _ fun tmp => hr _ h _
  unfold doRangeP doRange
  rw [alone_ofRes_bind, map_bind]
  refine res_bind_congr _ fun subt => ?_
  cases subt with
  | none => cases s <;> rfl
  | some c =>
    cases s with
    | none => rfl
    | some l =>
      simp only
      rw [alone_stackGetP_bind, map_bind]
      refine res_bind_congr _ fun r => ?_
      rw [alone_look_bind, Res.bind_ok]
      cases r.bind (asCollection h) with
      | none => exact none' c
      | some cl =>
        simp only
        rw [alone_look_bind, Res.bind_ok]
        split
        · exact same_loop hr th t _ c cl _ _ 0 h _
        · exact none' c

theorem same_condNone {rec : Render} {recP : RenderP} (hr : Same rec recP) (th : THeap) (t : Nat) (id : Str) (subt : Option Nat) (empty : Bool) (h : Heap) (s : Stk) :
    (condNoneP th recP t id subt empty s).alone h = (condNone th rec t id subt empty ⟨h, s⟩).map outP := by
  unfold condNoneP condNone
  cases empty with
  | false => rfl
  | true =>
    simp only [if_true]
    rw [alone_ofRes_bind, map_bind]
    exact res_bind_congr _ fun tmp => same_opt hr _ h s

theorem same_condValue {rec : Render} {recP : RenderP} (hr : Same rec recP) (x : Ext) (th : THeap) (t : Nat) (id : Str) (c : Nat) (v : Val) (h : Heap) (s : Stk) :
    (condValueP x th recP t id c v s).alone h = (condValue x th rec t id c v ⟨h, s⟩).map fun r => (r.1.heap, r.1.stack, r.2) := by
  unfold condValueP condValue
  rw [alone_look_bind, Res.bind_ok]
  cases asDataset h v with
  | some ds =>
    simp only
    rw [alone_pushP_bind, map_bind]
    refine res_bind_congr _ fun st => ?_
    rw [alone_ofRes_bind, map_bind]
    refine res_bind_congr _ fun tmp => ?_
    rw [hr.bind, map_bind]
    refine res_bind_congr _ fun r => ?_
    rw [alone_popP_bind, map_bind]
    exact res_bind_congr _ fun st => rfl
  | none =>
    simp only [sprintP]
    rw [alone_look_bind, map_bind]
    refine res_bind_congr _ fun sv => ?_
    split
    · rw [alone_ofRes_bind, map_bind]
      refine res_bind_congr _ fun tmp => ?_
      rw [hr.bind, map_bind]
      exact res_bind_congr _ fun r => rfl
    · rfl

theorem same_condition {rec : Render} {recP : RenderP} (hr : Same rec recP) (x : Ext) (th : THeap) (t : Nat) (data : Str) (h : Heap) (s : Stk) :
    (doConditionP x th recP t data s).alone h = (doCondition x th rec t data ⟨h, s⟩).map outP := by
  have get : ∀ {β : Type} (key : Str) (f : Val → Prog β), (condGetP key s >>= f).alone h = condGet key ⟨h, s⟩ >>= fun v => (f v).alone h := by
    intro β key f
    cases s with
    | none => rfl
    | some l =>
      simp only [condGetP, condGet]
      rw [alone_bind, alone_stackGetP_bind]
      cases stackGet h l key <;> rfl
  have empty : ∀ {β : Type} (v : Val) (h : Heap) (f : Bool → Prog β), (isEmptyP x v >>= f).alone h = ofFuel (sprint x (printBound h) h v) >>= fun sv => (f sv.isEmpty).alone h := by
    intro β v h f
    rw [isEmptyP, alone_look_bind]
    cases ofFuel (sprint x (printBound h) h v) <;> rfl
  unfold doConditionP doCondition
  rw [alone_ofRes_bind, map_bind]
  refine res_bind_congr _ fun subt => ?_
  rw [get, map_bind]
  refine res_bind_congr _ fun value => ?_
  split
  · exact same_condNone hr th t _ _ true h s
  · cases subt with
    | none =>
      simp only
      rw [empty, map_bind]
      exact res_bind_congr _ fun sv => same_condNone hr th t _ _ _ h s
    | some c =>
      simp only
      rw [alone_bind, same_condValue hr, map_bind]
      cases condValue x th rec t (twoNames data).2 c value ⟨h, s⟩ with
      | panic => rfl
      | diverge => rfl
      | ok p =>
        simp only [Res.map, Res.bind_ok]
        rw [empty]
        change _ = Res.map outP _
        rw [map_bind]
        refine res_bind_congr _ fun sv => ?_
        rw [alone_bind, same_condNone hr, map_bind]
        cases condNone th rec t (twoNames data).2 (some p.2.2) sv.isEmpty p.1 <;> rfl

theorem same_item {rec : Render} {recP : RenderP} (hr : Same rec recP) (x : Ext) (th : THeap) (lang : Option Nat) (t : Nat) (v : Param) (h : Heap) (s : Stk) :
    (injectItemP x th lang recP t v s).alone h = (injectItem x th lang rec t v ⟨h, s⟩).map outP := by
  obtain ⟨k, d⟩ := v
  cases k with
  | language =>
    simp only [injectItemP, injectItem]
    cases lang with
    | none => rfl
    | some a =>
      simp only
      rw [alone_look_bind]
      cases h[a]? with
      | none => rfl
      | some o => cases o <;> rfl
  | reference => exact same_reference hr x th t d h s
  | «variable» =>
    simp only [injectItemP, injectItem]
    cases s with
    | none => rfl
    | some l =>
      simp only
      rw [alone_stackStringP_bind]
      cases stackString x h l d <;> rfl
  | range => exact same_range hr th t d h s
  | condition => exact same_condition hr x th t d h s
  | dump =>
    simp only [injectItemP, injectItem, doDumpP, doDump]
    cases s with
    | none => rfl
    | some l =>
      simp only
      split
      · cases colGet l 0 with
        | none => rfl
        | some o =>
          cases o with
          | none => rfl
          | some a =>
            simp only
            rw [alone_look_bind]
            cases dsGoString x (printBound h) h a <;> rfl
      · rfl
  | _ => rfl

theorem same_all {item : Param → St → Res (St × Str)} {itemP : Param → Stk → Prog (Stk × Str)}
    (hi : ∀ v h s, (itemP v s).alone h = (item v ⟨h, s⟩).map outP) : ∀ (l : List Param) (h : Heap) (s : Stk),
    (injectAllP itemP l s).alone h = (injectAll item l ⟨h, s⟩).map outP := by
  intro l
  induction l with
  | nil => intro h s; rfl
  | cons v l ih =>
    intro h s
    rw [injectAllP, injectAll, alone_bind, hi]
    cases item v ⟨h, s⟩ with
    | panic => rfl
    | diverge => rfl
    | ok r =>
      simp only [Res.map, Res.bind_ok]
      change _ = Res.map outP _
      rw [alone_bind]
      simp only [outP]
      rw [ih]
      cases injectAll item l r.1 <;> rfl

theorem same_injector (x : Ext) (th : THeap) (lang : Option Nat) : ∀ n, Same (injector x th lang n) (injectorP x th lang n) := by
  intro n
  induction n with
  | zero => intro t h s; rfl
  | succ n ih =>
    intro t h s
    simp only [injectorP, injector]
    cases th[t]? with
    | none => rfl
    | some o =>
      cases hr : o.root with
      | none => simp only [hr]; rfl
      | some root => simp only [hr]; exact same_all (same_item ih x th lang t) root h s

/-- `Execute` as a program, alone, is `Execute`. -/
theorem alone_execute (x : Ext) (th : THeap) (n t : Nat) (data : Option Nat) (h : Heap) :
    (executeP x th n t data).alone h = execute x th n t h data := by
  cases data with
  | none =>
    simp only [executeP, execute]
    rw [(same_injector x th none n).bind]
    exact res_bind_congr _ fun r => rfl
  | some a =>
    simp only [executeP, execute]
    rw [alone_bind, alone_getP h _ _ _ (Nat.le_refl _), Dataset.get]
    cases getSegs h a (split 62 b!"#") with
    | panic => rfl
    | diverge => rfl
    | ok l =>
      simp only [Res.map, Res.bind_ok]
      rw [alone_look_bind, Res.bind_ok, (same_injector x th _ n).bind]
      exact res_bind_congr _ fun r => rfl

end Xcore.Template
