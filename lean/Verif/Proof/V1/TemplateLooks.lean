import Verif.Proof.V1.TemplateConc

namespace Xcore.V1.Template

open Xcore.Template (Param twoNames)
open Xcore.Dataset (Ext Val fmtScalar colText mapOpt ofFuel)
open Xcore.V1.Dataset

/-- The goroutine looks only at objects of `R`, and if it ends its result has property `Q`. -/
def Fine {α : Type} (R : Nat → Prop) (h : Heap) (Q : α → Prop) : Prog α → Prop
  | .ret a => Q a
  | .panic => True
  | .diverge => True
  | .read a k => R a ∧ Fine R h Q (k h[a]?)

theorem fine_bind {α β : Type} {R : Nat → Prop} {h : Heap} {Q : α → Prop} {Q' : β → Prop} {p : Prog α} {f : α → Prog β} (hp : Fine R h Q p)
    (hf : ∀ a, Q a → Fine R h Q' (f a)) : Fine R h Q' (p >>= f) := by
  show Fine R h Q' (Prog.bind p f)
  induction p with
  | ret a => exact hf a hp
  | panic => trivial
  | diverge => trivial
  | read a k ih => exact ⟨hp.1, ih _ hp.2⟩

theorem fine_mono {α : Type} {R : Nat → Prop} {h : Heap} {Q Q' : α → Prop} {p : Prog α} (hp : Fine R h Q p) (hq : ∀ a, Q a → Q' a) : Fine R h Q' p := by
  induction p with
  | ret a => exact hq a hp
  | panic => trivial
  | diverge => trivial
  | read a k ih => exact ⟨hp.1, ih _ hp.2⟩

theorem fine_looks {α : Type} {R : Nat → Prop} {h : Heap} {Q : α → Prop} {p : Prog α} (hp : Fine R h Q p) : ∀ b ∈ p.looksAt h, R b := by
  induction p with
  | ret a => simp [Prog.looksAt]
  | panic => simp [Prog.looksAt]
  | diverge => simp [Prog.looksAt]
  | read a k ih =>
    intro b hb
    simp only [Prog.looksAt, List.mem_cons] at hb
    rcases hb with rfl | hb
    · exact hp.1
    · exact ih _ hp.2 b hb

/-- The object the value refers to, if it does, is in `R`. -/
def ValIn (R : Nat → Prop) : Val → Prop
  | .ptr a => R a
  | .slice _ a => R a
  | _ => True

/-- What objects of `R` refer to is in `R`. -/
def Closed (R : Nat → Prop) (h : Heap) : Prop := ∀ a b, R a → Refers h a b → R b

/-- The elements of the stack are in `R`. -/
def StkIn (R : Nat → Prop) (s : Stack) : Prop := ∀ l, s = some l → ∀ b, some b ∈ l → R b

section

variable {R : Nat → Prop} {h : Heap} (hc : Closed R h)

include hc

theorem entries_in {a : Nat} (ha : R a) {k : Str} {v : Val} (e : (entries h a).get k = some v) : ValIn R v := by
  have hm := AMap.mem_of_get e
  unfold entries at hm
  split at hm
  · next m em =>
    cases v with
    | ptr b => exact hc a b ha (.ptr em hm)
    | slice sk b => exact hc a b ha (.slice em hm)
    | _ => trivial
  · simp at hm

theorem elems_in {a : Nat} (ha : R a) {b : Nat} (hb : some b ∈ elems h a) : R b := by
  unfold elems at hb
  split at hb
  · next l em => exact hc a b ha (.elem em hb)
  · simp at hb

theorem colGet_in {a : Nat} (ha : R a) {i : Int} {b : Nat} (e : colGet (elems h a) i = some (some b)) : R b := by
  unfold colGet at e
  split at e
  · cases e
  · exact elems_in hc ha (List.mem_of_getElem? e)

omit hc in
theorem fine_asDataset {v : Val} (hv : ValIn R v) : Fine R h (fun o => ∀ b, o = some b → R b) (asDatasetP v) := by
  cases v with
  | ptr a =>
    refine ⟨hv, fun b e => ?_⟩
    revert e
    dsimp only
    split
    · intro e; cases e; exact hv
    · intro e; cases e
  | _ => exact fun b e => by cases e

omit hc in
theorem fine_asCollection {v : Val} (hv : ValIn R v) : Fine R h (fun o => ∀ b, o = some b → R b) (asCollectionP v) := by
  cases v with
  | ptr a =>
    refine ⟨hv, fun b e => ?_⟩
    revert e
    dsimp only
    split
    · intro e; cases e; exact hv
    · intro e; cases e
  | _ => exact fun b e => by cases e

omit hc in
theorem fine_entries {a : Nat} (ha : R a) : Fine R h (fun m => m = entries h a) (entriesP a) := ⟨ha, rfl⟩

omit hc in
theorem fine_elems {a : Nat} (ha : R a) : Fine R h (fun m => m = elems h a) (elemsP a) := ⟨ha, rfl⟩

theorem fine_get (l : List Str) {a : Nat} (ha : R a) : Fine R h (fun o => ∀ v, o = some v → ValIn R v) (getP a l) := by
  fun_induction getP a l with
  | case1 a => exact fun v e => by cases e
  | case2 a key => exact fine_bind (fine_entries ha) fun m e => by subst e; exact fun v e => entries_in hc ha e
  | case3 a s s2 rest ih1 ih2 =>
    refine fine_bind (fine_entries ha) fun m e => ?_
    subst e
    rcases e : (entries h a).get s with _ | v
    · exact fun v e => by cases e
    · dsimp only
      have hv := entries_in hc ha e
      refine fine_bind (fine_asDataset hv) fun b hb => ?_
      cases b with
      | some b => exact ih1 b (hb b rfl)
      | none =>
        refine fine_bind (fine_asCollection hv) fun c hcc => ?_
        cases c with
        | none => exact fine_bind (fine_entries ha) fun m e => by subst e; exact fun v e => entries_in hc ha e
        | some c =>
          dsimp only
          cases atoi s2 with
          | none => exact fun v e => by cases e
          | some i =>
            refine fine_bind (fine_elems (hcc c rfl)) fun l e => ?_
            subst e
            rcases e : colGet (elems h c) i with _ | _ | e'
            · exact fun v e => by cases e
            · exact fun v e => by cases e
            · have he := colGet_in hc (hcc c rfl) e
              cases rest with
              | nil => exact fun v e => by cases e; exact he
              | cons r rest => exact ih2 e' he

theorem fine_getData (key : Str) {l : List (Option Nat)} (hl : ∀ b, some b ∈ l → R b) :
    Fine R h (fun o => ∀ v, o = some v → ValIn R v) (getDataP key l) := by
  induction l with
  | nil => exact fun v e => by cases e
  | cons e l ih =>
    cases e with
    | none => trivial
    | some a =>
      refine fine_bind (fine_get hc _ (hl a (by simp))) fun o ho => ?_
      cases o with
      | some v => exact ho
      | none => exact ih fun b hb => hl b (by simp [hb])

theorem fine_stackGet (key : Str) {l : List (Option Nat)} (hl : ∀ b, some b ∈ l → R b) :
    Fine R h (fun o => ∀ v, o = some v → ValIn R v) (stackGetP l key) :=
  fine_getData hc key fun b hb => hl b (by simpa using hb)

omit hc in
theorem fine_map {α β : Type} {f : α → Prog β} {l : List α} (hf : ∀ a ∈ l, Fine R h (fun _ => True) (f a)) :
    Fine R h (fun _ => True) (mapP f l) := by
  induction l with
  | nil => trivial
  | cons a l ih =>
    exact fine_bind (hf a (by simp)) fun _ _ => fine_bind (ih fun b hb => hf b (by simp [hb])) fun _ _ => trivial

theorem fine_sprint (x : Ext) (n : Nat) {v : Val} (hv : ValIn R v) : Fine R h (fun _ => True) (sprintP x n v) := by
  induction n generalizing v with
  | zero => trivial
  | succ n ih =>
    cases v with
    | slice k a => exact ⟨hv, trivial⟩
    | ptr a =>
      refine ⟨hv, ?_⟩
      rcases e : h[a]? with _ | o
      · trivial
      · cases o with
        | ds m =>
          refine fine_bind (fine_map fun p hp => fine_bind (Q := fun _ => True) (ih ?_) fun _ _ => trivial) fun _ _ => trivial
          obtain ⟨k, w⟩ := p
          cases w with
          | ptr b => exact hc a b hv (.ptr e hp)
          | slice sk b => exact hc a b hv (.slice e hp)
          | _ => trivial
        | col l =>
          refine fine_bind (fine_map fun b hb => ?_) fun _ _ => trivial
          cases b with
          | none => trivial
          | some b => exact ih (v := .ptr b) (hc a b hv (.elem e hb))
        | lang l => trivial
        | slice l => trivial
    | _ => trivial

theorem fine_goSprint (x : Ext) (n : Nat) {v : Val} (hv : ValIn R v) : Fine R h (fun _ => True) (goSprintP x n v) := by
  induction n generalizing v with
  | zero => trivial
  | succ n ih =>
    cases v with
    | slice k a => exact ⟨hv, trivial⟩
    | ptr a =>
      refine ⟨hv, ?_⟩
      rcases e : h[a]? with _ | o
      · trivial
      · cases o with
        | ds m =>
          refine fine_bind (fine_map fun p hp => fine_bind (Q := fun _ => True) (ih ?_) fun _ _ => trivial) fun _ _ => trivial
          obtain ⟨k, w⟩ := p
          cases w with
          | ptr b => exact hc a b hv (.ptr e hp)
          | slice sk b => exact hc a b hv (.slice e hp)
          | _ => trivial
        | col l => exact fine_sprint hc x n hv
        | lang l => trivial
        | slice l => trivial
    | _ => trivial

theorem fine_stackString (x : Ext) (pb : Nat) (key : Str) {l : List (Option Nat)} (hl : ∀ b, some b ∈ l → R b) :
    Fine R h (fun _ => True) (stackStringP x pb l key) := by
  refine fine_bind (fine_stackGet hc key hl) fun o ho => ?_
  rcases o with _ | v
  · trivial
  · cases v <;> first | trivial | exact fine_sprint hc x pb (ho _ rfl)

theorem fine_stackCollection (key : Str) {l : List (Option Nat)} (hl : ∀ b, some b ∈ l → R b) :
    Fine R h (fun o => ∀ b, o = some b → R b) (stackCollectionP l key) := by
  refine fine_bind (fine_stackGet hc key hl) fun o ho => ?_
  rcases o with _ | v
  · exact fun b e => by cases e
  · refine fine_bind (fine_asCollection (ho v rfl)) fun c hcc => ?_
    cases c with
    | none => trivial
    | some c => exact hcc

omit hc in
theorem fine_push {s : Stack} (hs : StkIn R s) {d : Option Nat} (hd : ∀ b, d = some b → R b) : Fine R h (StkIn R) (.ofRes (pushSt s d)) := by
  cases s with
  | none => trivial
  | some l =>
    intro l' e b hb
    cases e
    simp only [List.mem_append, List.mem_singleton] at hb
    rcases hb with hb | hb
    · exact hs l rfl b hb
    · exact hd b hb.symm

omit hc in
theorem fine_pop {s : Stack} (hs : StkIn R s) : Fine R h (StkIn R) (.ofRes (popSt s)) := by
  cases s with
  | none => trivial
  | some l =>
    simp only [popSt]
    split
    · trivial
    · intro l' e b hb
      cases e
      exact hs l rfl b (List.dropLast_subset l hb)

/-- Rendering looks only at objects of `R` and leaves a stack with elements of `R`. -/
def FineRec (R : Nat → Prop) (h : Heap) (rec : RenderP) : Prop := ∀ t s, StkIn R s → Fine R h (fun r => StkIn R r.1) (rec t s)

variable {rec : RenderP} (hr : FineRec R h rec) {th : THeap} {x : Ext} {pb : Nat}

include hr

omit hc in
theorem fine_renderWith (t : Nat) {d : Option Nat} (hd : ∀ b, d = some b → R b) {s : Stack} (hs : StkIn R s) :
    Fine R h (fun r => StkIn R r.1) (renderWithP rec t d s) :=
  fine_bind (fine_push hs hd) fun _ hs => fine_bind (hr t _ hs) fun _ h1 => fine_bind (fine_pop h1) fun _ h2 => h2

theorem fine_reference (t : Nat) (data : Str) {s : Stack} (hs : StkIn R s) : Fine R h (fun r => StkIn R r.1) (doReferenceP x pb th rec t data s) := by
  unfold doReferenceP
  split
  · cases s with
    | none => trivial
    | some l =>
      refine fine_bind (fine_stackString hc x pb _ (hs l rfl)) fun value _ => ?_
      split
      · exact hr _ _ hs
      · unfold renderOptP
        split
        · exact hs
        · exact hr _ _ hs
  · split
    · exact hs
    · split
      · cases s with
        | none => trivial
        | some l =>
          refine fine_bind (fine_stackGet hc _ (hs l rfl)) fun o ho => ?_
          cases o with
          | none => exact hr _ _ hs
          | some v =>
            refine fine_bind (fine_asDataset (ho v rfl)) fun d hd => ?_
            cases d with
            | none => exact hr _ _ hs
            | some d => exact fine_renderWith hr _ hd hs
      · exact hr _ _ hs

theorem fine_rangeLoop (t : Nat) (id : Str) (subt : Nat) {cl : Nat} (hcl : R cl) (n k i : Nat) {s : Stack} (hs : StkIn R s) :
    Fine R h (fun r => StkIn R r.1) (rangeLoopP th rec t id subt cl n k i s) := by
  induction k generalizing i s with
  | zero => exact hs
  | succ k ih =>
    refine fine_bind (fine_elems hcl) fun l e => ?_
    subst e
    refine fine_bind (fine_renderWith hr _ (fun b hb => ?_) hs) fun r h1 => fine_bind (ih _ h1) fun _ h2 => h2
    rcases e : colGet (elems h cl) i with _ | _ | e'
    · rw [e] at hb; cases hb
    · rw [e] at hb; cases hb
    · rw [e] at hb; cases hb; exact colGet_in hc hcl e

theorem fine_range (t : Nat) (data : Str) {s : Stack} (hs : StkIn R s) : Fine R h (fun r => StkIn R r.1) (doRangeP th rec t data s) := by
  simp only [doRangeP]
  split
  · next l _ =>
    refine fine_bind (fine_stackCollection hc _ (hs l rfl)) fun o ho => ?_
    cases o with
    | none => exact hr _ _ hs
    | some cl => exact fine_bind (fine_elems (ho cl rfl)) fun _ _ => fine_rangeLoop hc hr _ _ _ (ho cl rfl) _ _ _ hs
  · exact hs

theorem fine_condition (t : Nat) (data : Str) {s : Stack} (hs : StkIn R s) : Fine R h (fun r => StkIn R r.1) (doConditionP x pb th rec t data s) := by
  have hg : Fine R h (ValIn R) (condGetP (twoNames data).1 s) := by
    cases s with
    | none => trivial
    | some l =>
      refine fine_bind (fine_stackGet hc _ (hs l rfl)) fun o ho => ?_
      cases o with
      | none => trivial
      | some v => exact ho v rfl
  refine fine_bind hg fun v hv => ?_
  split
  · exact hs
  · split
    · exact hs
    · refine fine_bind (fine_asDataset hv) fun d hd => ?_
      cases d with
      | some d => exact fine_bind (fine_push hs hd) fun _ h1 => fine_bind (fine_pop h1) fun _ h2 => h2
      | none =>
        refine fine_bind (fine_sprint hc x pb hv) fun sv _ => ?_
        split
        · exact hr _ _ hs
        · exact hs

theorem fine_item {lang : Option Nat} (hl : ∀ b, lang = some b → R b) (t : Nat) (v : Param) {s : Stack} (hs : StkIn R s) :
    Fine R h (fun r => StkIn R r.1) (injectItemP x pb th lang rec t v s) := by
  unfold injectItemP
  split
  · exact hs
  · exact hs
  · cases lang with
    | none => exact hs
    | some a =>
      refine ⟨hl a rfl, ?_⟩
      dsimp only
      split <;> exact hs
  · exact fine_reference hc hr _ _ hs
  · cases s with
    | none => exact hs
    | some l => exact fine_bind (fine_stackString hc x pb _ (hs l rfl)) fun _ _ => hs
  · exact fine_range hc hr _ _ hs
  · exact fine_condition hc hr _ _ hs
  · cases s with
    | none => exact hs
    | some l =>
      simp only [doDumpP]
      split
      · split
        · next a e =>
          refine fine_bind (fine_goSprint hc x pb (v := .ptr a) (hs l rfl a ?_)) fun _ _ => hs
          unfold colGet at e
          split at e
          · cases e
          · exact List.mem_of_getElem? e
        · exact hs
      · exact hs
  · exact hs

omit hr hc in
theorem fine_all {item : Param → Stack → Prog (Stack × Str)} (hi : ∀ v s, StkIn R s → Fine R h (fun r => StkIn R r.1) (item v s)) (l : List Param)
    {s : Stack} (hs : StkIn R s) : Fine R h (fun r => StkIn R r.1) (injectAllP item l s) := by
  induction l generalizing s with
  | nil => exact hs
  | cons v l ih => exact fine_bind (hi v s hs) fun _ h1 => fine_bind (ih h1) fun _ h2 => h2

omit hr in
theorem fine_injector {lang : Option Nat} (hl : ∀ b, lang = some b → R b) (n : Nat) : FineRec R h (injectorP x pb th lang n) := by
  induction n with
  | zero => exact fun _ _ _ => trivial
  | succ n ih =>
    intro t s hs
    simp only [injectorP]
    split
    · trivial
    · split
      · exact hs
      · exact fine_all (fun v s hs => fine_item hc ih hl t v hs) _ hs

omit hr in
theorem fine_execute (n t : Nat) {data : Option Nat} (hd : ∀ a, data = some a → R a) : Fine R h (fun _ => True) (executeP x pb th n t data) := by
  cases data with
  | none =>
    refine fine_bind (fine_injector hc (fun b e => by cases e) n t none fun l e => by cases e) fun _ _ => trivial
  | some a =>
    have ha := hd a rfl
    refine fine_bind (fine_get hc _ ha) fun o ho => ?_
    have hl : Fine R h (fun o => ∀ b, o = some b → R b) (langP o) := by
      rcases o with _ | v
      · exact fun b e => by cases e
      · cases v with
        | ptr c =>
          have hv := ho _ rfl
          refine ⟨hv, fun b e => ?_⟩
          revert e
          dsimp only
          split
          · intro e; cases e; exact hv
          · intro e; cases e
        | _ => exact fun b e => by cases e
    refine fine_bind hl fun lp hlp => fine_bind (fine_injector hc hlp n t _ ?_) fun _ _ => trivial
    intro l e b hb
    cases e
    simp at hb
    exact hb ▸ ha

end

/-! ## Goroutines -/

theorem reach_snoc {h : Heap} {a b c : Nat} (r : Reach h a b) (e : Refers h b c) : Reach h a c := by
  induction r with
  | refl => exact .step e .refl
  | step s _ ih => exact .step s (ih e)

theorem inUse_closed (tasks : List Task) (h : Heap) : Closed (InUse tasks h) h := by
  rintro a b ⟨k, hk, r, e, hr⟩ hb
  exact ⟨k, hk, r, e, reach_snoc hr hb⟩

theorem refers_same {h g : Heap} {a b : Nat} (e : g[a]? = h[a]?) (r : Refers h a b) : Refers g a b := by
  cases r with
  | ptr hm hk => exact .ptr (e.trans hm) hk
  | slice hm hk => exact .slice (e.trans hm) hk
  | elem hm hk => exact .elem (Eq.trans e hm) hk

theorem reach_same {h g : Heap} {a b : Nat} (e : ∀ c, Reach h a c → g[c]? = h[c]?) (r : Reach h a b) : Reach g a b := by
  induction r with
  | refl => exact .refl
  | step s _ ih => exact .step (refers_same (e _ .refl) s) (ih fun c rc => e c (.step s rc))

theorem inUse_same {tasks : List Task} {h g : Heap} (e : ∀ b, InUse tasks h b → g[b]? = h[b]?) {b : Nat} (u : InUse tasks h b) : InUse tasks g b := by
  obtain ⟨k, hk, a, ea, r⟩ := u
  exact ⟨k, hk, a, ea, reach_same (fun c rc => e c ⟨k, hk, a, ea, rc⟩) r⟩

theorem ended {α : Type} {h : Heap} {p : Prog α} (e : p.looksAt h = []) : p = .ofRes (p.result h) := by
  cases p with
  | read a k => simp [Prog.looksAt] at e
  | _ => rfl

/-- Where a number of goroutines are that render in memory `h`. -/
structure Inv (tasks : List Task) (h : Heap) (rs : List (Res Str)) (c : Heap × List (Prog Str)) : Prop where
  same : ∀ b, InUse tasks h b → c.1[b]? = h[b]?
  fine : ∀ (i : Nat) (p : Prog Str), c.2[i]? = some p → ∃ k, tasks[i]? = some k ∧ Fine (InUse [k] h) h (fun _ => True) p
  results : c.2.map (Prog.result h) = rs

theorem inUse_one {tasks : List Task} {h : Heap} {k : Task} {b : Nat} (hk : k ∈ tasks) (u : InUse [k] h b) : InUse tasks h b := by
  obtain ⟨k', hk', r⟩ := u
  simp only [List.mem_singleton] at hk'
  subst hk'
  exact ⟨k', hk, r⟩

/-- The steps that are left. -/
def left (h : Heap) (ps : List (Prog Str)) : Nat := (ps.map fun p => (p.looksAt h).length).sum

theorem sum_set {ps : List (Prog Str)} {h : Heap} {i : Nat} {p p' : Prog Str} (e : ps[i]? = some p)
    (e' : (p.looksAt h).length = (p'.looksAt h).length + 1) : left h ps = left h (ps.set i p') + 1 := by
  unfold left
  induction ps generalizing i with
  | nil => cases e
  | cons q ps ih =>
    cases i with
    | zero =>
      simp only [List.getElem?_cons_zero, Option.some.injEq] at e
      subst e
      simp only [List.set_cons_zero, List.map_cons, List.sum_cons]
      omega
    | succ i =>
      simp only [List.getElem?_cons_succ] at e
      have := ih e
      simp only [List.set_cons_succ, List.map_cons, List.sum_cons]
      omega

theorem goes_inv {tasks : List Task} {h : Heap} {rs : List (Res Str)} {c c' : Heap × List (Prog Str)} {n : Nat} (g : Goes tasks c n c')
    (i : Inv tasks h rs c) : Inv tasks h rs c' ∧ n + left h c'.2 = left h c.2 := by
  induction g with
  | start => exact ⟨i, by omega⟩
  | @turn n g ps j p p' _ e es ih =>
    obtain ⟨iv, el⟩ := ih
    cases p with
    | read a k =>
      simp only [Prog.step, Option.some.injEq] at es
      obtain ⟨kt, ek, f⟩ := iv.fine j _ e
      have ea : g[a]? = h[a]? := iv.same a (inUse_one (List.mem_of_getElem? ek) f.1)
      rw [ea] at es
      subst es
      refine ⟨⟨iv.same, fun m q hq => ?_, ?_⟩, ?_⟩
      · rw [List.getElem?_set] at hq
        split at hq
        · next e1 =>
          subst e1
          split at hq
          · cases hq; exact ⟨kt, ek, f.2⟩
          · cases hq
        · exact iv.fine m q hq
      · rw [← iv.results, List.map_set]
        apply List.ext_getElem?
        intro m
        rw [List.getElem?_set]
        split
        · next e1 =>
          subst e1
          split
          · simp only [List.getElem?_map, e, Option.map_some]; rfl
          · next hn => 
            simp only [List.length_map] at hn
            rw [List.getElem?_eq_none (by simpa using Nat.le_of_not_lt hn)]
        · rfl
      · have := sum_set (h := h) (p' := k h[a]?) e (by simp [Prog.looksAt])
        simp only at el ⊢
        omega
    | _ => cases es
  | @other n g ps g' _ e ih =>
    obtain ⟨iv, el⟩ := ih
    exact ⟨⟨fun b hb => (e b (inUse_same iv.same hb)).trans (iv.same b hb), iv.fine, iv.results⟩, el⟩

/-- The goroutines at the start. -/
def progs (x : Ext) (th : THeap) (n : Nat) (h : Heap) (tasks : List Task) : List (Prog Str) :=
  tasks.map fun k => executeP x (printBound h) th n k.t k.data

theorem inv_start (x : Ext) (th : THeap) (n : Nat) (h : Heap) (tasks : List Task) :
    Inv tasks h (tasks.map fun k => execute x th n k.t h k.data) (h, progs x th n h tasks) where
  same := fun _ _ => rfl
  fine := fun i p e => by
    simp only [progs, List.getElem?_map, Option.map_eq_some_iff] at e
    obtain ⟨k, ek, rfl⟩ := e
    exact ⟨k, ek, fine_execute (inUse_closed [k] h) n k.t fun a ea => ⟨k, by simp, a, ea, .refl⟩⟩
  results := by
    simp only [progs, List.map_map]
    apply List.map_congr_left
    intro k _
    exact result_execute n k.t k.data

theorem left_zero {h : Heap} {ps : List (Prog Str)} (e : left h ps = 0) : ps = (ps.map (Prog.result h)).map Prog.ofRes := by
  unfold left at e
  induction ps with
  | nil => rfl
  | cons p ps ih =>
    simp only [List.map_cons, List.sum_cons] at e
    simp only [List.map_cons]
    rw [← ih (by omega), ← ended (List.length_eq_zero_iff.1 (by omega))]

theorem left_ofRes (h : Heap) (rs : List (Res Str)) : left h (rs.map Prog.ofRes) = 0 := by
  unfold left
  induction rs with
  | nil => rfl
  | cons r rs ih =>
    simp only [List.map_cons, List.sum_cons, ih]
    cases r <;> rfl

theorem reach_in {R : Nat → Prop} {h : Heap} (hc : Closed R h) {a b : Nat} (r : Reach h a b) (ha : R a) : R b := by
  induction r with
  | refl => exact ha
  | step s _ ih => exact ih (hc _ _ ha s)

end Xcore.V1.Template
