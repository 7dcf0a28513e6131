import Verif.Spec.V1.TemplateConc
import Verif.Base.AMap

namespace Xcore.V1.Template

open Xcore.Template (Param twoNames)
open Xcore.Dataset (Ext Val fmtScalar colText mapOpt ofFuel)
open Xcore.V1.Dataset

/-! ## Results -/

namespace Prog

@[simp] theorem result_ret {α : Type} (h : Heap) (a : α) : result h (.ret a) = .ok a := rfl
@[simp] theorem result_panic {α : Type} (h : Heap) : result h (.panic : Prog α) = .panic := rfl
@[simp] theorem result_diverge {α : Type} (h : Heap) : result h (.diverge : Prog α) = .diverge := rfl
@[simp] theorem result_look {α : Type} (h : Heap) (a : Nat) (g : Option Obj → α) : result h (look a g) = .ok (g h[a]?) := rfl

@[simp] theorem result_ofRes {α : Type} (h : Heap) (r : Res α) : result h (ofRes r) = r := by cases r <;> rfl

@[simp] theorem result_bind {α β : Type} (h : Heap) (p : Prog α) (f : α → Prog β) :
    result h (p >>= f) = (result h p >>= fun a => result h (f a)) := by
  show result h (bind p f) = _
  induction p with
  | ret a => rfl
  | panic => rfl
  | diverge => rfl
  | read a k ih => exact ih _

end Prog

open Prog

@[simp] theorem ok_bind {α β : Type} (a : α) (f : α → Res β) : ((Res.ok a : Res α) >>= f) = f a := rfl
@[simp] theorem panic_bind {α β : Type} (f : α → Res β) : ((Res.panic : Res α) >>= f) = .panic := rfl
@[simp] theorem diverge_bind {α β : Type} (f : α → Res β) : ((Res.diverge : Res α) >>= f) = .diverge := rfl

@[simp] theorem result_entries (h : Heap) (a : Nat) : result h (entriesP a) = .ok (entries h a) := rfl
@[simp] theorem result_elems (h : Heap) (a : Nat) : result h (elemsP a) = .ok (elems h a) := rfl
@[simp] theorem result_asDataset (h : Heap) (v : Val) : result h (asDatasetP v) = .ok (asDataset h v) := by cases v <;> rfl
@[simp] theorem result_asCollection (h : Heap) (v : Val) : result h (asCollectionP v) = .ok (asCollection h v) := by cases v <;> rfl

@[simp] theorem result_get (h : Heap) (a : Nat) (l : List Str) : result h (getP a l) = .ok (getSegs h a l) := by
  fun_induction getSegs h a l with
  | case1 => rfl
  | case2 => simp [getP]
  | case3 a s s2 rest e => simp [getP, e]
  | case4 a s s2 rest v e b e2 ih => simp [getP, e, e2, ih]
  | case5 => simp_all [getP]
  | case6 => simp_all [getP]
  | case7 => simp_all [getP]
  | case8 => 
    simp_all [getP]
    try split <;> simp_all
  | case9 => simp_all [getP]

@[simp] theorem result_getData (h : Heap) (key : Str) (l : List (Option Nat)) : result h (getDataP key l) = getDataL h key l := by
  induction l with
  | nil => rfl
  | cons e l ih =>
    cases e with
    | none => rfl
    | some a =>
      simp only [getDataP, getDataL, result_bind, result_get, ok_bind, Dataset.get]
      cases getSegs h a (split 62 key) with
      | none => simpa using ih
      | some v => rfl

@[simp] theorem result_stackGet (h : Heap) (l : List (Option Nat)) (key : Str) : result h (stackGetP l key) = stackGet h l key := result_getData ..

theorem result_map {α β : Type} (h : Heap) (f : α → Prog β) (g : α → Option β) (l : List α) (e : ∀ a ∈ l, result h (f a) = ofFuel (g a)) :
    result h (mapP f l) = ofFuel (mapOpt g l) := by
  induction l with
  | nil => rfl
  | cons a l ih =>
    simp only [mapP, mapOpt, result_bind, e a (by simp), ih fun b hb => e b (by simp [hb])]
    cases g a with
    | none => rfl
    | some b => cases mapOpt g l <;> rfl

@[simp] theorem result_sprint (x : Ext) (h : Heap) (n : Nat) (v : Val) : result h (sprintP x n v) = ofFuel (sprint x n h v) := by
  induction n generalizing v with
  | zero => rfl
  | succ n ih =>
    cases v with
    | slice k a =>
      simp only [sprintP, sprint, result_look]
      rcases h[a]? with _ | o
      · rfl
      · cases o <;> rfl
    | ptr a =>
      simp only [sprintP, sprint, result]
      rcases h[a]? with _ | o
      · rfl
      · cases o with
        | ds m =>
          simp only [result_bind]
          rw [result_map h _ (fun p : Str × Val => (sprint x n h p.2).map fun s => p.1 ++ b!":" ++ s) m]
          · cases mapOpt (fun p : Str × Val => (sprint x n h p.2).map fun s => p.1 ++ b!":" ++ s) m <;> rfl
          · intro p _
            simp only [result_bind, ih]
            cases sprint x n h p.2 <;> rfl
        | col l =>
          simp only [result_bind]
          rw [result_map h _ (fun e : Option Nat => match e with | none => some b!"<nil>" | some b => sprint x n h (.ptr b)) l]
          · cases mapOpt (fun e : Option Nat => match e with | none => some b!"<nil>" | some b => sprint x n h (.ptr b)) l <;> rfl
          · intro e _
            cases e with
            | none => rfl
            | some b => simp only [ih]
        | lang l => rfl
        | slice l => rfl
    | _ => rfl

@[simp] theorem result_goSprint (x : Ext) (h : Heap) (n : Nat) (v : Val) : result h (goSprintP x n v) = ofFuel (goSprint x n h v) := by
  induction n generalizing v with
  | zero => rfl
  | succ n ih =>
    cases v with
    | slice k a =>
      simp only [goSprintP, goSprint, result_look]
      rcases h[a]? with _ | o
      · rfl
      · cases o <;> rfl
    | ptr a =>
      simp only [goSprintP, goSprint, result]
      rcases h[a]? with _ | o
      · rfl
      · cases o with
        | ds m =>
          simp only [result_bind]
          rw [result_map h _ (fun p : Str × Val => (goSprint x n h p.2).map fun s => p.1 ++ b!":" ++ s) m]
          · cases mapOpt (fun p : Str × Val => (goSprint x n h p.2).map fun s => p.1 ++ b!":" ++ s) m <;> rfl
          · intro p _
            simp only [result_bind, ih]
            cases goSprint x n h p.2 <;> rfl
        | col l => simp
        | lang l => rfl
        | slice l => rfl
    | _ => rfl

@[simp] theorem result_stackString (x : Ext) (h : Heap) (l : List (Option Nat)) (key : Str) :
    result h (stackStringP x (printBound h) l key) = stackString x h l key := by
  simp only [stackStringP, stackString, result_bind, result_stackGet]
  congr 1
  funext r
  rcases r with _ | v
  · rfl
  · cases v <;> first | rfl | simp only [result_sprint]

@[simp] theorem result_stackCollection (h : Heap) (l : List (Option Nat)) (key : Str) :
    result h (stackCollectionP l key) = stackCollection h l key := by
  simp only [stackCollectionP, stackCollection, result_bind, result_stackGet]
  congr 1
  funext r
  rcases r with _ | v
  · rfl
  · simp only [result_bind, result_asCollection, ok_bind]
    cases asCollection h v <;> rfl

/-! ## Rendering -/

section

variable {x : Ext} {h : Heap} {th : THeap} {recP : RenderP} {rec : Render}

theorem result_renderOpt (hr : ∀ t s, result h (recP t s) = rec t s) (o : Option Nat) (s : Stack) :
    result h (renderOptP recP o s) = renderOpt rec o s := by
  cases o with
  | none => rfl
  | some t => exact hr t s

theorem result_renderWith (hr : ∀ t s, result h (recP t s) = rec t s) (t : Nat) (d : Option Nat) (s : Stack) :
    result h (renderWithP recP t d s) = renderWith rec t d s := by
  simp only [renderWithP, renderWith, result_bind, result_ofRes, hr, result_ret]

theorem result_reference (hr : ∀ t s, result h (recP t s) = rec t s) (t : Nat) (data : Str) (s : Stack) :
    result h (doReferenceP x (printBound h) th recP t data s) = doReference x th h rec t data s := by
  have two : ∀ (c : Nat) (key : Str), result h (match s with
      | none => .panic
      | some l => do
        let dcl ← stackGetP l key
        match dcl with
        | none => recP c s
        | some v => do
          let ds ← asDatasetP v
          match ds with
          | some ds => renderWithP recP c (some ds) s
          | none => recP c s) = (match s with
      | none => .panic
      | some l => do
        let dcl ← stackGet h l key
        match dcl.bind (asDataset h) with
        | some ds => renderWith rec c (some ds) s
        | none => rec c s) := by
    intro c key
    cases s with
    | none => rfl
    | some l =>
      simp only [result_bind, result_stackGet]
      congr 1
      funext r
      cases r with
      | none => exact hr _ _
      | some v =>
        simp only [result_bind, result_asDataset, ok_bind, Option.bind_some]
        cases asDataset h v with
        | none => exact hr _ _
        | some ds => exact result_renderWith hr _ _ _
  have one : ∀ (id : Str) , result h (match getTemplate th t id with
      | none => .ret (s, [])
      | some c => recP c s) = (match getTemplate th t id with
      | none => .ok (s, [])
      | some c => rec c s) := by
    intro id
    cases getTemplate th t id with
    | none => rfl
    | some c => exact hr _ _
  unfold doReferenceP doReference
  rcases split 58 data with _ | ⟨a, _ | ⟨b, _ | ⟨c, _ | ⟨d, l⟩⟩⟩⟩
  · exact one _
  · exact one _
  · dsimp only
    cases getTemplate th t (List.headD [a, b] []) with
    | none => rfl
    | some c => exact two _ _
  · dsimp only
    cases s with
    | none => rfl
    | some l =>
      simp only [result_bind, result_stackString]
      congr 1
      funext value
      cases getTemplate th t (c ++ value) with
      | none => exact result_renderOpt hr _ _
      | some c => exact hr _ _
  · exact one _

theorem result_rangeLoop (hr : ∀ t s, result h (recP t s) = rec t s) (t : Nat) (id : Str) (subt cl n k i : Nat) (s : Stack) :
    result h (rangeLoopP th recP t id subt cl n k i s) = rangeLoop th h rec t id subt cl n k i s := by
  induction k generalizing i s with
  | zero => rfl
  | succ k ih =>
    simp only [rangeLoopP, rangeLoop, result_bind, result_elems, ok_bind, result_renderWith hr, ih, result_ret]
    rfl

theorem result_range (hr : ∀ t s, result h (recP t s) = rec t s) (t : Nat) (data : Str) (s : Stack) :
    result h (doRangeP th recP t data s) = doRange th h rec t data s := by
  simp only [doRangeP, doRange]
  cases getTemplate th t (twoNames data).2 with
  | none => rfl
  | some c =>
    cases s with
    | none => rfl
    | some l =>
      simp only [result_bind, result_stackCollection]
      congr 1
      funext r
      cases r with
      | none => exact hr _ _
      | some cl =>
        simp only [result_bind, result_elems, ok_bind]
        exact result_rangeLoop hr ..

theorem result_condition (hr : ∀ t s, result h (recP t s) = rec t s) (t : Nat) (data : Str) (s : Stack) :
    result h (doConditionP x (printBound h) th recP t data s) = doCondition x th h rec t data s := by
  have hg : result h (condGetP (twoNames data).1 s) = (match s with
      | none => .ok Val.nil
      | some l => (stackGet h l (twoNames data).1).map fun r => r.getD .nil) := by
    cases s with
    | none => rfl
    | some l =>
      simp only [condGetP, result_bind, result_stackGet]
      cases stackGet h l (twoNames data).1 <;> rfl
  simp only [doConditionP, doCondition, result_bind, hg]
  congr 1
  funext value
  cases getTemplate th t (twoNames data).2 with
  | none => rfl
  | some c =>
    dsimp only
    by_cases e : value = .nil
    · simp only [e, if_true, result_ret]
    · simp only [e, if_false, result_bind, result_asDataset, ok_bind]
      cases asDataset h value with
      | some ds => simp only [result_bind, result_ofRes, result_ret]
      | none =>
        simp only [result_bind, result_sprint]
        congr 1
        funext sv
        by_cases e2 : sv ≠ []
        · simp only [if_pos e2]; exact hr _ _
        · simp only [if_neg e2]; rfl

theorem result_dump (data : Str) (s : Stack) : result h (doDumpP x (printBound h) data s) = doDump x h data s := by
  cases s with
  | none => rfl
  | some l =>
    simp only [doDumpP, doDump]
    by_cases e : data = b!"dump" ∨ data = b!"list"
    · simp only [if_pos e]
      rcases colGet l 0 with _ | _ | a
      · rfl
      · rfl
      · simp only [result_bind, result_goSprint]
        cases goSprint x (printBound h) h (.ptr a) <;> rfl
    · simp only [if_neg e]; rfl

/-- The language table at the address is the one the sequential model holds. -/
def SameLang (h : Heap) (lp : Option Nat) (l : Option Language.Lang) : Prop :=
  match lp, l with
  | none, none => True
  | some a, some l => h[a]? = some (.lang l)
  | _, _ => False

theorem result_item {lp : Option Nat} {l : Option Language.Lang} (hl : SameLang h lp l) (hr : ∀ t s, result h (recP t s) = rec t s) (t : Nat)
    (v : Param) (s : Stack) : result h (injectItemP x (printBound h) th lp recP t v s) = injectItem x th h l rec t v s := by
  unfold injectItemP injectItem
  cases v.kind with
  | language =>
    cases lp <;> cases l <;> simp only [SameLang] at hl
    · rfl
    · simp only [result_look, hl]
  | reference => exact result_reference hr ..
  | «variable» =>
    cases s with
    | none => rfl
    | some l =>
      simp only [result_bind, result_stackString]
      cases stackString x h l v.data <;> rfl
  | range => exact result_range hr ..
  | condition => exact result_condition hr ..
  | dump => exact result_dump ..
  | _ => rfl

theorem result_all {itemP : Param → Stack → Prog (Stack × Str)} {item : Param → Stack → Res (Stack × Str)}
    (hi : ∀ v s, result h (itemP v s) = item v s) (l : List Param) (s : Stack) : result h (injectAllP itemP l s) = injectAll item l s := by
  induction l generalizing s with
  | nil => rfl
  | cons v l ih => simp only [injectAllP, injectAll, result_bind, hi, ih, result_ret]

theorem result_injector {lp : Option Nat} {l : Option Language.Lang} (hl : SameLang h lp l) (n t : Nat) (s : Stack) :
    result h (injectorP x (printBound h) th lp n t s) = injector x th h l n t s := by
  induction n generalizing t s with
  | zero => rfl
  | succ n ih =>
    simp only [injectorP, injector]
    rcases th[t]? with _ | o
    · rfl
    · dsimp only
      cases o.root with
      | none => rfl
      | some root => exact result_all (fun v s => result_item hl ih t v s) root s

theorem result_execute (n t : Nat) (data : Option Nat) : result h (executeP x (printBound h) th n t data) = execute x th n t h data := by
  cases data with
  | none =>
    simp only [executeP, execute, result_bind, result_injector (lp := none) (l := none) trivial]
    cases injector x th h none n t none <;> rfl
  | some a =>
    have hl : ∃ lp, result h (langP (Dataset.get h a b!"#")) = .ok lp ∧ SameLang h lp (langOf h (Dataset.get h a b!"#")) := by
      rcases Dataset.get h a b!"#" with _ | v
      · exact ⟨none, rfl, trivial⟩
      · cases v with
        | ptr b =>
          simp only [langP, langOf, result_look]
          rcases e : h[b]? with _ | o
          · exact ⟨none, rfl, trivial⟩
          · cases o with
            | lang l => exact ⟨some b, rfl, e⟩
            | _ => exact ⟨none, rfl, trivial⟩
        | _ => exact ⟨none, rfl, trivial⟩
    obtain ⟨lp, e1, e2⟩ := hl
    simp only [executeP, execute, result_bind, result_get, ok_bind]
    rw [Dataset.get] at e1
    rw [e1, ok_bind, result_injector e2]
    cases injector x th h (langOf h (Dataset.get h a b!"#")) n t (some [some a]) <;> rfl

end

end Xcore.V1.Template
