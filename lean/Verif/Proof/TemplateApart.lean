import Verif.Spec.TemplateApart
import Verif.Proof.TemplateConc
import Verif.Proof.DatasetWF

namespace Xcore.Template

open Xcore.Dataset

namespace RowsOwn

/-- The two memories have the same objects at the addresses of `R`. -/
def Agree (R : Nat → Prop) (g h : Heap) : Prop := g.length = h.length ∧ ∀ b, R b → g[b]? = h[b]?

/-- The goroutine looks only at objects of `R`, changes only objects of `W`, and where it ends memory and result have property `Q`. -/
def Local {α : Type} (R W : Nat → Prop) (Q : Heap → α → Prop) : Prog α → Heap → Prop
  | .ret a, h => Q h a
  | .panic, _ => True
  | .diverge, _ => True
  | .read k, h => (∀ g, Agree R g h → k g = k h) ∧ Local R W Q (k h) h
  | .write f k, h => (∀ g, Agree R g h → match f h with
      | .ok h' => ∃ g', f g = .ok g' ∧ Agree R g' h' ∧ g'.length = g.length ∧ ∀ b, ¬ W b → g'[b]? = g[b]?
      | r => f g = r) ∧
    ∀ h', f h = .ok h' → Local R W Q k h'

section

variable {R W : Nat → Prop}

theorem local_bind {α β : Type} {Q : Heap → α → Prop} {Q' : Heap → β → Prop} {p : Prog α} {f : α → Prog β} {h : Heap} (hp : Local R W Q p h)
    (hf : ∀ h' a, Q h' a → Local R W Q' (f a) h') : Local R W Q' (p >>= f) h := by
  show Local R W Q' (Prog.bind p f) h
  induction p generalizing h with
  | ret a => exact hf h a hp
  | panic => trivial
  | diverge => trivial
  | read k ih => exact ⟨fun g e => by dsimp only; rw [hp.1 g e], ih h hp.2⟩
  | write g k ih => exact ⟨hp.1, fun h' e => ih (hp.2 h' e)⟩

theorem local_ofRes {α : Type} {Q : Heap → α → Prop} {r : Res α} {h : Heap} (hq : ∀ a, r = .ok a → Q h a) : Local R W Q (.ofRes r) h := by
  cases r with
  | ok a => exact hq a rfl
  | panic => trivial
  | diverge => trivial

theorem local_look {α : Type} {Q : Heap → α → Prop} {G : Heap → Res α} {h : Heap} (e : ∀ g, Agree R g h → G g = G h)
    (hq : ∀ a, G h = .ok a → Q h a) : Local R W Q (.look G) h :=
  ⟨fun g eg => congrArg Prog.ofRes (e g eg), local_ofRes hq⟩

/-- The object the value refers to, if it does, is in `R`. -/
def ValIn (R : Nat → Prop) : Val → Prop
  | .ptr a => R a
  | .slice _ a => R a
  | _ => True

/-- The elements of the stack are in `R`. -/
def StkIn (R : Nat → Prop) (s : Stk) : Prop := ∀ l, s = some l → ∀ b, some b ∈ l → R b

/-- What objects of `R` refer to is in `R`, and the datasets behind elements of collections of `R` are in `W`. -/
structure Good (R W : Nat → Prop) (h : Heap) : Prop where
  closed : ∀ a b, R a → Refers h a b → R b
  rows : ∀ c e t, R c → some e ∈ elems h c → target h e = some t → W t

theorem targetN_in {h : Heap} (hg : Good R W h) (n : Nat) {a t : Nat} (ha : R a) (e : targetN n h a = some t) : R t ∧ ∃ m, h[t]? = some (.ds m) := by
  induction n generalizing a with
  | zero => cases e
  | succ n ih =>
    simp only [targetN] at e
    split at e
    · next m em => cases e; exact ⟨ha, m, em⟩
    · next b em => exact ih (hg.closed a b ha (.wrapped em)) e
    · cases e

theorem target_in {h : Heap} (hg : Good R W h) {a t : Nat} (ha : R a) (e : target h a = some t) : R t ∧ ∃ m, h[t]? = some (.ds m) :=
  targetN_in hg _ ha e

theorem targetN_agree {g h : Heap} (hg : Good R W h) (ag : Agree R g h) (n : Nat) {a : Nat} (ha : R a) : targetN n g a = targetN n h a := by
  induction n generalizing a with
  | zero => rfl
  | succ n ih =>
    simp only [targetN, ag.2 a ha]
    split
    · rfl
    · next b em => exact ih (hg.closed a b ha (.wrapped em))
    · rfl

theorem target_agree {g h : Heap} (hg : Good R W h) (ag : Agree R g h) {a : Nat} (ha : R a) : target g a = target h a := targetN_agree hg ag _ ha

theorem entries_agree {g h : Heap} (ag : Agree R g h) {a : Nat} (ha : R a) : entries g a = entries h a := by simp only [entries, ag.2 a ha]

theorem elems_agree {g h : Heap} (ag : Agree R g h) {a : Nat} (ha : R a) : elems g a = elems h a := by simp only [elems, ag.2 a ha]

theorem asDataset_agree {g h : Heap} (ag : Agree R g h) {v : Val} (hv : ValIn R v) : asDataset g v = asDataset h v := by
  cases v with
  | ptr a => simp only [asDataset, ag.2 a hv]
  | _ => rfl

theorem asCollection_agree {g h : Heap} (ag : Agree R g h) {v : Val} (hv : ValIn R v) : asCollection g v = asCollection h v := by
  cases v with
  | ptr a => simp only [asCollection, ag.2 a hv]
  | _ => rfl

theorem asDataset_in {h : Heap} {v : Val} (hv : ValIn R v) {b : Nat} (e : asDataset h v = some b) : R b := by
  cases v with
  | ptr a =>
    simp only [asDataset] at e
    split at e <;> cases e <;> exact hv
  | _ => cases e

theorem asCollection_in {h : Heap} {v : Val} (hv : ValIn R v) {b : Nat} (e : asCollection h v = some b) : R b := by
  cases v with
  | ptr a =>
    simp only [asCollection] at e
    split at e <;> cases e <;> exact hv
  | _ => cases e

theorem entries_in {h : Heap} (hg : Good R W h) {a : Nat} (ha : R a) {k : Str} {v : Val} (e : (k, v) ∈ entries h a) : ValIn R v := by
  unfold entries at e
  split at e
  · next m em =>
    cases v with
    | ptr b => exact hg.closed a b ha (.ptr em e)
    | slice sk b => exact hg.closed a b ha (.slice em e)
    | _ => trivial
  · simp at e

theorem elems_in {h : Heap} (hg : Good R W h) {a : Nat} (ha : R a) {b : Nat} (hb : some b ∈ elems h a) : R b := by
  unfold elems at hb
  split at hb
  · next l em => exact hg.closed a b ha (.elem (Or.inl em) hb)
  · next l em => exact hg.closed a b ha (.elem (Or.inr em) hb)
  · simp at hb

theorem mem_of_colGet {l : List (Option Nat)} {i : Int} {e : Option Nat} (h : colGet l i = some e) : e ∈ l := by
  unfold colGet at h
  split at h
  · cases h
  · exact List.mem_of_getElem? h

theorem local_lookP {h : Heap} (hg : Good R W h) {a : Nat} (ha : R a) (key : Str) :
    Local R W (fun h' o => h' = h ∧ ∀ v, o = some v → ValIn R v) (lookP a key) h := by
  refine local_look (fun g ag => ?_) fun o e => ⟨rfl, ?_⟩
  · rw [target_agree hg ag ha]
    cases e : target h a with
    | none => rfl
    | some t => dsimp only; rw [entries_agree ag (target_in hg ha e).1]
  · cases et : target h a with
    | none => rw [et] at e; cases e
    | some t =>
      rw [et] at e
      cases e
      exact fun v ev => entries_in hg (target_in hg ha et).1 (AMap.mem_of_get ev)

theorem local_getP {h : Heap} (hg : Good R W h) (l : List Str) {a : Nat} (ha : R a) :
    Local R W (fun h' o => h' = h ∧ ∀ v, o = some v → ValIn R v) (getP a l) h := by
  fun_induction getP a l with
  | case1 a => exact ⟨rfl, fun v e => by cases e⟩
  | case2 a key => exact local_lookP hg ha key
  | case3 a s s2 rest ih1 ih2 =>
    refine local_bind (local_lookP hg ha s) fun h' o ho => ?_
    obtain ⟨rfl, ho⟩ := ho
    cases o with
    | none => exact ⟨rfl, fun v e => by cases e⟩
    | some v =>
      have hv := ho v rfl
      refine local_bind (Q := fun g o => g = h' ∧ o = (asDataset h' v, asCollection h' v)) (local_look (fun g ag => ?_) fun o e => ⟨rfl, ?_⟩) fun h'' o ho => ?_
      · rw [asDataset_agree ag hv, asCollection_agree ag hv]
      · cases e; rfl
      obtain ⟨rfl, rfl⟩ := ho
      cases e1 : asDataset h'' v with
      | some b => exact ih1 b (asDataset_in hv e1)
      | none =>
        cases e2 : asCollection h'' v with
        | none => exact local_lookP hg ha _
        | some c =>
          have hc := asCollection_in hv e2
          dsimp only
          cases atoi s2 with
          | none => exact ⟨rfl, fun v e => by cases e⟩
          | some i =>
            refine local_bind (Q := fun g o => g = h'' ∧ o = colGet (elems h'' c) i) (local_look (fun g ag => ?_) fun o e => ⟨rfl, ?_⟩) fun h3 o ho => ?_
            · rw [elems_agree ag hc]
            · cases e; rfl
            obtain ⟨rfl, rfl⟩ := ho
            rcases e3 : colGet (elems h3 c) i with _ | _ | e'
            · exact ⟨rfl, fun v e => by cases e⟩
            · exact ⟨rfl, fun v e => by cases e⟩
            · have he := elems_in hg hc (mem_of_colGet e3)
              cases rest with
              | nil => exact ⟨rfl, fun v e => by cases e; exact he⟩
              | cons r rest => exact ih2 e' he

theorem local_getDataP {h : Heap} (hg : Good R W h) (key : Str) {l : List (Option Nat)} (hl : ∀ b, some b ∈ l → R b) :
    Local R W (fun h' o => h' = h ∧ ∀ v, o = some v → ValIn R v) (getDataP key l) h := by
  induction l with
  | nil => exact ⟨rfl, fun v e => by cases e⟩
  | cons e l ih =>
    cases e with
    | none => trivial
    | some a =>
      refine local_bind (local_getP hg _ (hl a (by simp))) fun h' o ho => ?_
      obtain ⟨rfl, ho⟩ := ho
      cases o with
      | some v => exact ⟨rfl, ho⟩
      | none => exact ih fun b hb => hl b (by simp [hb])

theorem local_stackGet {h : Heap} (hg : Good R W h) (key : Str) {l : List (Option Nat)} (hl : ∀ b, some b ∈ l → R b) :
    Local R W (fun h' o => h' = h ∧ ∀ v, o = some v → ValIn R v) (stackGetP l key) h :=
  local_getDataP hg key fun b hb => hl b (by simpa using hb)

theorem mapOpt_congr {α β : Type} {f g : α → Option β} {l : List α} (e : ∀ a ∈ l, f a = g a) : mapOpt f l = mapOpt g l := by
  induction l with
  | nil => rfl
  | cons a l ih =>
    simp only [mapOpt, e a (by simp), ih fun b hb => e b (by simp [hb])]

theorem sprint_agree {g h : Heap} (hg : Good R W h) (ag : Agree R g h) (x : Ext) (n : Nat) {v : Val} (hv : ValIn R v) :
    sprint x n g v = sprint x n h v := by
  induction n generalizing v with
  | zero => rfl
  | succ n ih =>
    cases v with
    | slice k a => simp only [sprint, ag.2 a hv]
    | ptr a =>
      simp only [sprint, ag.2 a hv]
      rcases ea : h[a]? with _ | o
      · rfl
      · cases o with
        | ds m =>
          dsimp only
          rw [mapOpt_congr fun p hp => ?_]
          obtain ⟨k, w⟩ := p
          rw [ih (entries_in hg hv (k := k) (by simpa only [entries, ea] using hp))]
        | dsTS b =>
          dsimp only
          rw [target_agree hg ag hv]
          cases et : target h a with
          | none => rfl
          | some t => exact ih (v := .ptr t) (target_in hg hv et).1
        | col l =>
          dsimp only
          rw [mapOpt_congr fun e he => ?_]
          cases e with
          | none => rfl
          | some b => exact ih (v := .ptr b) (hg.closed a b hv (.elem (Or.inl ea) he))
        | colTS l =>
          dsimp only
          rw [mapOpt_congr fun e he => ?_]
          cases e with
          | none => rfl
          | some b => exact ih (v := .ptr b) (hg.closed a b hv (.elem (Or.inr ea) he))
        | lang l => rfl
        | slice l => rfl
    | _ => rfl

theorem goSprint_agree {g h : Heap} (hg : Good R W h) (ag : Agree R g h) (x : Ext) (n : Nat) {v : Val} (hv : ValIn R v) :
    goSprint x n g v = goSprint x n h v := by
  induction n generalizing v with
  | zero => rfl
  | succ n ih =>
    cases v with
    | slice k a => simp only [goSprint, ag.2 a hv]
    | ptr a =>
      simp only [goSprint, ag.2 a hv]
      rcases ea : h[a]? with _ | o
      · rfl
      · cases o with
        | ds m =>
          dsimp only
          rw [mapOpt_congr fun p hp => ?_]
          obtain ⟨k, w⟩ := p
          rw [ih (entries_in hg hv (k := k) (by simpa only [entries, ea] using hp))]
        | dsTS b =>
          dsimp only
          rw [target_agree hg ag hv]
          cases et : target h a with
          | none => rfl
          | some t => exact ih (v := .ptr t) (target_in hg hv et).1
        | col l => exact sprint_agree hg ag x n hv
        | colTS l => exact sprint_agree hg ag x n hv
        | lang l => rfl
        | slice l => rfl
    | _ => rfl

theorem bound_agree {g h : Heap} (ag : Agree R g h) : printBound g = printBound h := by simp only [printBound, ag.1]

theorem local_sprint {h : Heap} (hg : Good R W h) (x : Ext) {v : Val} (hv : ValIn R v) : Local R W (fun h' _ => h' = h) (sprintP x v) h :=
  local_look (fun g ag => by rw [bound_agree ag, sprint_agree hg ag x _ hv]) fun _ _ => rfl

theorem local_isEmpty {h : Heap} (hg : Good R W h) (x : Ext) {v : Val} (hv : ValIn R v) : Local R W (fun h' _ => h' = h) (isEmptyP x v) h :=
  local_look (fun g ag => by rw [bound_agree ag, sprint_agree hg ag x _ hv]) fun _ _ => rfl

theorem local_stackString {h : Heap} (hg : Good R W h) (x : Ext) (key : Str) {l : List (Option Nat)} (hl : ∀ b, some b ∈ l → R b) :
    Local R W (fun h' _ => h' = h) (stackStringP x l key) h := by
  refine local_bind (local_stackGet hg key hl) fun h' o ho => ?_
  obtain ⟨rfl, ho⟩ := ho
  rcases o with _ | v
  · exact rfl
  · cases v <;> first | exact rfl | exact local_sprint hg x (ho _ rfl)

theorem local_push {h : Heap} {s : Stk} (hs : StkIn R s) {d : Option Nat} (hd : ∀ b, d = some b → R b) :
    Local R W (fun h' s => h' = h ∧ StkIn R s) (pushP s d) h := by
  cases s with
  | none => trivial
  | some l =>
    refine ⟨rfl, fun l' e b hb => ?_⟩
    cases e
    simp only [List.mem_append, List.mem_singleton] at hb
    rcases hb with hb | hb
    · exact hs l rfl b hb
    · exact hd b hb.symm

theorem local_pop {h : Heap} {s : Stk} (hs : StkIn R s) : Local R W (fun h' s => h' = h ∧ StkIn R s) (popP s) h := by
  cases s with
  | none => trivial
  | some l =>
    simp only [popP]
    split
    · trivial
    · refine ⟨rfl, fun l' e b hb => ?_⟩
      cases e
      exact hs l rfl b (List.dropLast_subset l hb)

/-- What a rendering leaves. -/
def Left (R W : Nat → Prop) (h : Heap) (r : Stk × Str) : Prop := Good R W h ∧ StkIn R r.1

/-- Rendering is local. -/
def LocalRec (R W : Nat → Prop) (rec : RenderP) : Prop := ∀ t s h, Good R W h → StkIn R s → Local R W (Left R W) (rec t s) h

variable {rec : RenderP} (hr : LocalRec R W rec) {th : THeap} {x : Ext}

include hr

theorem local_scope {h : Heap} (hg : Good R W h) (t : Nat) {d : Option Nat} (hd : ∀ b, d = some b → R b) {s : Stk} (hs : StkIn R s) :
    Local R W (Left R W) (pushP s d >>= fun s => rec t s >>= fun r => popP r.1 >>= fun s => .ret (s, r.2)) h := by
  refine local_bind (local_push hs hd) fun h1 s1 q => ?_
  obtain ⟨rfl, hs1⟩ := q
  refine local_bind (hr t s1 _ hg hs1) fun h2 r q => ?_
  refine local_bind (local_pop q.2) fun h3 s3 q3 => ?_
  obtain ⟨rfl, hs3⟩ := q3
  exact ⟨q.1, hs3⟩

theorem local_opt {h : Heap} (hg : Good R W h) (o : Option Nat) {s : Stk} (hs : StkIn R s) : Local R W (Left R W) (renderOptP rec o s) h := by
  cases o with
  | none => exact ⟨hg, hs⟩
  | some t => exact hr t s h hg hs

theorem local_reference {h : Heap} (hg : Good R W h) (t : Nat) (data : Str) {s : Stk} (hs : StkIn R s) :
    Local R W (Left R W) (doReferenceP x th rec t data s) h := by
  unfold doReferenceP
  split
  · cases s with
    | none => trivial
    | some l =>
      refine local_bind (local_stackString hg x _ (hs l rfl)) fun h' value e => ?_
      subst e
      refine local_bind (Q := fun g _ => g = h') (local_ofRes fun _ _ => rfl) fun h'' subt e => ?_
      subst e
      cases subt with
      | some c => exact hr _ _ _ hg hs
      | none =>
        refine local_bind (Q := fun g _ => g = h'') (local_ofRes fun _ _ => rfl) fun h3 subt e => ?_
        subst e
        exact local_opt hr hg _ hs
  · refine local_bind (Q := fun g _ => g = h) (local_ofRes fun _ _ => rfl) fun h1 subt e => ?_
    subst e
    cases subt with
    | none => exact ⟨hg, hs⟩
    | some c =>
      dsimp only
      split
      · cases s with
        | none => trivial
        | some l =>
          refine local_bind (local_stackGet hg _ (hs l rfl)) fun h2 o ho => ?_
          obtain ⟨rfl, ho⟩ := ho
          refine local_bind (Q := fun g d => g = h2 ∧ ∀ b, d = some b → R b) (local_look (fun g ag => ?_) fun d e => ⟨rfl, fun b eb => ?_⟩) fun h3 d q => ?_
          · cases o with
            | none => rfl
            | some v => simp only [Option.bind_some, asDataset_agree ag (ho v rfl)]
          · cases e
            cases o with
            | none => cases eb
            | some v => exact asDataset_in (ho v rfl) eb
          obtain ⟨rfl, hd⟩ := q
          cases d with
          | none => exact hr _ _ _ hg hs
          | some d => exact local_scope hr hg _ hd hs
      · exact hr _ _ _ hg hs

omit hr in
theorem good_set {h : Heap} (hg : Good R W h) {t : Nat} {m : AMap Val} (em : h[t]? = some (.ds m)) (k : Str) {v : Val} (hv : ∀ b, v ≠ .ptr b)
    (hv' : ∀ s b, v ≠ .slice s b) : Good R W (h.set t (.ds (m.set k v))) := by
  have lt : t < h.length := (List.getElem?_eq_some_iff.1 em).1
  have at' : ∀ a, (h.set t (.ds (m.set k v)))[a]? = if t = a then some (.ds (m.set k v)) else h[a]? := by
    intro a
    rw [List.getElem?_set]
    by_cases e : t = a
    · subst e; simp [lt]
    · simp [e]
  have tar : ∀ n a, targetN n (h.set t (.ds (m.set k v))) a = targetN n h a := by
    intro n
    induction n with
    | zero => intro a; rfl
    | succ n ih =>
      intro a
      simp only [targetN, at']
      by_cases e : t = a
      · subst e; simp [em]
      · simp only [e, if_false, ih]
  have el : ∀ c, elems (h.set t (.ds (m.set k v))) c = elems h c := by
    intro c
    simp only [elems, at']
    by_cases e : t = c
    · subst e; simp [em]
    · simp only [e, if_false]
  constructor
  · intro a b ha r
    cases r with
    | ptr e1 e2 =>
      rw [at'] at e1
      split at e1
      · next e =>
        subst e
        cases e1
        rcases Dataset.mem_set_cases e2 with q | q
        · exact absurd (congrArg Prod.snd q).symm (hv b)
        · exact hg.closed t b ha (.ptr em q)
      · exact hg.closed a b ha (.ptr e1 e2)
    | @slice _ k' sk e1 e2 =>
      rw [at'] at e1
      split at e1
      · next e =>
        subst e
        cases e1
        rcases Dataset.mem_set_cases e2 with q | q
        · exact absurd (congrArg Prod.snd q).symm (hv' sk b)
        · exact hg.closed t b ha (.slice em q)
      · exact hg.closed a b ha (.slice e1 e2)
    | wrapped e1 =>
      rw [at'] at e1
      split at e1
      · cases e1
      · exact hg.closed a b ha (.wrapped e1)
    | elem e1 e2 =>
      simp only [IsCollection, at'] at e1
      by_cases e : t = a
      · simp only [e, if_true] at e1; rcases e1 with e1 | e1 <;> cases e1
      · simp only [e, if_false] at e1; exact hg.closed a b ha (.elem e1 e2)
  · intro c e t' hc he et
    rw [el] at he
    rw [target, tar] at et
    exact hg.rows c e t' hc he et

theorem local_rangeLoop {h : Heap} (hg : Good R W h) (t : Nat) (id : Str) (subt : Nat) {cl : Nat} (hcl : R cl) (n k i : Nat) {s : Stk} (hs : StkIn R s) :
    Local R W (Left R W) (rangeLoopP th rec t id subt cl n k i s) h := by
  induction k generalizing h i s with
  | zero => exact ⟨hg, hs⟩
  | succ k ih =>
    refine local_bind (Q := fun g _ => g = h) (local_ofRes fun _ _ => rfl) fun h1 tmp e => ?_
    subst e
    refine local_bind (Q := fun g d => g = h1 ∧ d = colGet (elems h1 cl) i) (local_look (fun g ag => ?_) fun d e => ⟨rfl, ?_⟩) fun h2 d q => ?_
    · simp only [colGetAt, elems_agree ag hcl]
    · cases e; rfl
    obtain ⟨rfl, rfl⟩ := q
    rcases e : colGet (elems h2 cl) i with _ | _ | d
    · trivial
    · trivial
    · have hm := mem_of_colGet e
      have hd := elems_in hg hcl hm
      refine ⟨fun g ag => ?_, fun h' e' => ?_⟩
      · simp only [Dataset.set, target_agree hg ag hd]
        cases et : target h2 d with
        | none => rfl
        | some tt =>
          have hw := hg.rows cl d tt hcl hm et
          dsimp only
          rw [entries_agree ag (target_in hg hd et).1]
          refine ⟨_, rfl, ⟨by simp [ag.1], fun b hb => ?_⟩, by simp, fun b hb => ?_⟩
          · simp only [List.getElem?_set, ag.1, ag.2 b hb]
          · rw [List.getElem?_set_ne]
            rintro rfl
            exact hb hw
      · simp only [Dataset.set] at e'
        cases et : target h2 d with
        | none => rw [et] at e'; cases e'
        | some tt =>
          rw [et] at e'
          cases e'
          obtain ⟨m, em⟩ := (target_in hg hd et).2
          have hg' : Good R W (h2.set tt (.ds ((entries h2 tt).set b!".counter" (.int .int (i + 1))))) := by
            simp only [entries, em]
            exact good_set hg em _ (fun b => by simp) fun s b => by simp
          refine local_bind (local_push hs fun b e => by cases e; exact hd) fun h3 s3 q => ?_
          obtain ⟨rfl, hs3⟩ := q
          refine local_bind (hr _ _ _ hg' hs3) fun h4 r q => ?_
          refine local_bind (local_pop q.2) fun h5 s5 q5 => ?_
          obtain ⟨rfl, hs5⟩ := q5
          exact local_bind (ih q.1 _ hs5) fun h6 r6 q6 => q6

theorem local_range {h : Heap} (hg : Good R W h) (t : Nat) (data : Str) {s : Stk} (hs : StkIn R s) :
    Local R W (Left R W) (doRangeP th rec t data s) h := by
  refine local_bind (Q := fun g _ => g = h) (local_ofRes fun _ _ => rfl) fun h1 subt e => ?_
  subst e
  have none' : ∀ (c : Nat), Local R W (Left R W) ((Prog.ofRes (getTemplate th t ((twoNames data).2 ++ b!".none"))) >>= fun tmp => rec (tmp.getD c) s) h1 :=
    fun c => local_bind (Q := fun g _ => g = h1) (local_ofRes fun _ _ => rfl) fun h2 tmp e => by subst e; exact hr _ _ _ hg hs
  split
  · next c l =>
    refine local_bind (local_stackGet hg _ (hs l rfl)) fun h2 o ho => ?_
    obtain ⟨rfl, ho⟩ := ho
    refine local_bind (Q := fun g d => g = h2 ∧ ∀ b, d = some b → R b) (local_look (fun g ag => ?_) fun d e => ⟨rfl, fun b eb => ?_⟩) fun h3 d q => ?_
    · cases o with
      | none => rfl
      | some v => simp only [Option.bind_some, asCollection_agree ag (ho v rfl)]
    · cases e
      cases o with
      | none => cases eb
      | some v => exact asCollection_in (ho v rfl) eb
    obtain ⟨rfl, hd⟩ := q
    cases d with
    | none => exact none' c
    | some cl =>
      refine local_bind (Q := fun g _ => g = h3) (local_look (fun g ag => ?_) fun _ _ => rfl) fun h4 n e => ?_
      · simp only [count, elems_agree ag (hd cl rfl)]
      subst e
      split
      · exact local_rangeLoop hr hg _ _ _ (hd cl rfl) _ _ _ hs
      · exact none' c
  · exact ⟨hg, hs⟩

theorem local_condNone {h : Heap} (hg : Good R W h) (t : Nat) (id : Str) (subt : Option Nat) (empty : Bool) {s : Stk} (hs : StkIn R s) :
    Local R W (Left R W) (condNoneP th rec t id subt empty s) h := by
  unfold condNoneP
  split
  · refine local_bind (Q := fun g _ => g = h) (local_ofRes fun _ _ => rfl) fun h1 tmp e => ?_
    subst e
    exact local_opt hr hg _ hs
  · exact ⟨hg, hs⟩

theorem local_condValue {h : Heap} (hg : Good R W h) (t : Nat) (id : Str) (c : Nat) {v : Val} (hv : ValIn R v) {s : Stk} (hs : StkIn R s) :
    Local R W (fun h' r => Good R W h' ∧ StkIn R r.1) (condValueP x th rec t id c v s) h := by
  refine local_bind (Q := fun g d => g = h ∧ ∀ b, d = some b → R b) (local_look (fun g ag => ?_) fun d e => ⟨rfl, fun b eb => ?_⟩) fun h1 d q => ?_
  · rw [asDataset_agree ag hv]
  · cases e; exact asDataset_in hv eb
  obtain ⟨rfl, hd⟩ := q
  cases d with
  | some d =>
    refine local_bind (local_push hs hd) fun h2 s2 q => ?_
    obtain ⟨rfl, hs2⟩ := q
    refine local_bind (Q := fun g _ => g = h2) (local_ofRes fun _ _ => rfl) fun h3 tmp e => ?_
    subst e
    refine local_bind (hr _ _ _ hg hs2) fun h4 r q => ?_
    refine local_bind (local_pop q.2) fun h5 s5 q5 => ?_
    obtain ⟨rfl, hs5⟩ := q5
    exact ⟨q.1, hs5⟩
  | none =>
    refine local_bind (local_sprint hg x hv) fun h2 sv e => ?_
    subst e
    split
    · refine local_bind (Q := fun g _ => g = h2) (local_ofRes fun _ _ => rfl) fun h3 tmp e => ?_
      subst e
      exact local_bind (hr _ _ _ hg hs) fun h4 r q => q
    · exact ⟨hg, hs⟩

theorem local_condition {h : Heap} (hg : Good R W h) (t : Nat) (data : Str) {s : Stk} (hs : StkIn R s) :
    Local R W (Left R W) (doConditionP x th rec t data s) h := by
  refine local_bind (Q := fun g _ => g = h) (local_ofRes fun _ _ => rfl) fun h1 subt e => ?_
  subst e
  refine local_bind (Q := fun g v => g = h1 ∧ ValIn R v) (?_ : Local R W _ (condGetP (twoNames data).1 s) h1) fun h2 v q => ?_
  · cases s with
    | none => exact ⟨rfl, trivial⟩
    | some l =>
      refine local_bind (local_stackGet hg _ (hs l rfl)) fun h2 o ho => ?_
      obtain ⟨rfl, ho⟩ := ho
      cases o with
      | none => exact ⟨rfl, trivial⟩
      | some v => exact ⟨rfl, ho v rfl⟩
  obtain ⟨rfl, hv⟩ := q
  split
  · exact local_condNone hr hg _ _ _ _ hs
  · cases subt with
    | none =>
      refine local_bind (local_isEmpty hg x hv) fun h3 e he => ?_
      subst he
      exact local_condNone hr hg _ _ _ _ hs
    | some c =>
      refine local_bind (local_condValue hr hg _ _ _ hv hs) fun h3 p q => ?_
      refine local_bind (local_isEmpty q.1 x hv) fun h4 e he => ?_
      subst he
      exact local_bind (local_condNone hr q.1 _ _ _ _ q.2) fun h5 r q5 => q5

theorem local_item {h : Heap} (hg : Good R W h) {lang : Option Nat} (hl : ∀ b, lang = some b → R b) (t : Nat) (v : Param) {s : Stk} (hs : StkIn R s) :
    Local R W (Left R W) (injectItemP x th lang rec t v s) h := by
  unfold injectItemP
  split
  · exact ⟨hg, hs⟩
  · exact ⟨hg, hs⟩
  · cases lang with
    | none => exact ⟨hg, hs⟩
    | some a =>
      refine local_bind (Q := fun g _ => g = h) (local_look (fun g ag => ?_) fun _ _ => rfl) fun h1 r e => ?_
      · rw [ag.2 a (hl a rfl)]
      subst e
      exact ⟨hg, hs⟩
  · exact local_reference hr hg _ _ hs
  · cases s with
    | none => exact ⟨hg, hs⟩
    | some l => exact local_bind (local_stackString hg x _ (hs l rfl)) fun h1 d e => by subst e; exact ⟨hg, hs⟩
  · exact local_range hr hg _ _ hs
  · exact local_condition hr hg _ _ hs
  · cases s with
    | none => exact ⟨hg, hs⟩
    | some l =>
      simp only [doDumpP]
      split
      · split
        · next a e =>
          have ha := hs l rfl a (mem_of_colGet e)
          refine local_bind (Q := fun g _ => g = h) (local_look (fun g ag => ?_) fun _ _ => rfl) fun h1 r e => ?_
          · simp only [dsGoString, target_agree hg ag ha]
            cases et : target h a with
            | none => rfl
            | some tt =>
              dsimp only
              rw [bound_agree ag, goSprint_agree hg ag x _ (v := .ptr tt) (target_in hg ha et).1]
          subst e
          exact ⟨hg, hs⟩
        · exact ⟨hg, hs⟩
      · exact ⟨hg, hs⟩
  · exact ⟨hg, hs⟩

omit hr in
theorem local_all {item : Param → Stk → Prog (Stk × Str)} (hi : ∀ v s h, Good R W h → StkIn R s → Local R W (Left R W) (item v s) h) (l : List Param)
    {s : Stk} {h : Heap} (hg : Good R W h) (hs : StkIn R s) : Local R W (Left R W) (injectAllP item l s) h := by
  induction l generalizing s h with
  | nil => exact ⟨hg, hs⟩
  | cons v l ih => exact local_bind (hi v s h hg hs) fun h1 r q => local_bind (ih q.1 q.2) fun h2 r2 q2 => q2

omit hr in
theorem local_injector {lang : Option Nat} (hl : ∀ b, lang = some b → R b) (n : Nat) : LocalRec R W (injectorP x th lang n) := by
  induction n with
  | zero => exact fun _ _ _ _ _ => trivial
  | succ n ih =>
    intro t s h hg hs
    simp only [injectorP]
    split
    · trivial
    · split
      · exact ⟨hg, hs⟩
      · exact local_all (fun v s h hg hs => local_item ih hg hl t v hs) _ hg hs

omit hr in
theorem local_execute {h : Heap} (hg : Good R W h) (n t : Nat) {data : Option Nat} (hd : ∀ a, data = some a → R a) :
    Local R W (fun _ _ => True) (executeP x th n t data) h := by
  cases data with
  | none =>
    exact local_bind (local_injector (fun b e => by cases e) n t none h hg fun l e => by cases e) fun _ _ _ => trivial
  | some a =>
    have ha := hd a rfl
    refine local_bind (local_getP hg _ ha) fun h1 o ho => ?_
    obtain ⟨rfl, ho⟩ := ho
    refine local_bind (Q := fun g d => g = h1 ∧ ∀ b, d = some b → R b) (local_look (fun g ag => ?_) fun d e => ⟨rfl, fun b eb => ?_⟩) fun h2 lp q => ?_
    · rcases o with _ | v
      · rfl
      · cases v with
        | ptr c => simp only [langOf, ag.2 c (ho _ rfl)]
        | _ => rfl
    · cases e
      rcases o with _ | v
      · cases eb
      · cases v with
        | ptr c =>
          simp only [langOf] at eb
          split at eb <;> cases eb
          exact ho (.ptr b) rfl
        | _ => cases eb
    obtain ⟨rfl, hlp⟩ := q
    refine local_bind (local_injector hlp n t _ h2 hg ?_) fun _ _ _ => trivial
    intro l e b hb
    cases e
    simp at hb
    exact hb ▸ ha

end

/-! ### Together -/

/-- The number of steps alone. -/
def cost {α : Type} : Prog α → Heap → Nat
  | .read k, h => cost (k h) h + 1
  | .write f k, h => (match f h with
    | .ok h' => cost k h'
    | _ => 0) + 1
  | _, _ => 0

/-- Memory where the goroutine ends alone, with a panic or without. -/
def last {α : Type} : Prog α → Heap → Heap
  | .read k, h => last (k h) h
  | .write f k, h => match f h with
    | .ok h' => last k h'
    | _ => h
  | _, h => h

theorem good_of (h : Heap) (k : Rendering) : Good (k.Has h) (k.Row h) h where
  closed := fun a b ⟨c, e, r⟩ q => ⟨c, e, r.trans (.step q .refl)⟩
  rows := fun c e t hc he et => by
    refine ⟨c, elems h c, e, hc, ?_, he, targetN_wraps et⟩
    unfold elems at he ⊢
    split at he
    · next l em => exact Or.inl em
    · next l em => exact Or.inr em
    · simp at he

/-- A goroutine with `m` steps to go: what it looks at is as if it were alone. -/
def Going (x : Ext) (th : THeap) (n : Nat) (h : Heap) (g : Heap) (k : Rendering) (p : Prog Str) (m : Nat) : Prop :=
  ∃ hv, Local (k.Has h) (k.Row h) (fun _ _ => True) p hv ∧ Agree (k.Has h) g hv ∧ p.alone hv = execute x th n k.t h k.data ∧
    last p hv = last (executeP x th n k.t k.data) h ∧ cost p hv = m

variable {x : Ext} {th : THeap} {n : Nat} {h : Heap}

theorem going_start (k : Rendering) : Going x th n h h k (executeP x th n k.t k.data) (cost (executeP x th n k.t k.data) h) :=
  ⟨h, local_execute (good_of h k) n k.t fun a e => ⟨a, e, .refl⟩, ⟨rfl, fun _ _ => rfl⟩, alone_execute x th n k.t k.data h, rfl, rfl⟩

theorem Going.frame {g g' : Heap} {k : Rendering} {p : Prog Str} {m : Nat} (q : Going x th n h g k p m) (el : g'.length = g.length)
    (eq : ∀ b, k.Has h b → g'[b]? = g[b]?) : Going x th n h g' k p m := by
  obtain ⟨hv, q1, q2, q3⟩ := q
  exact ⟨hv, q1, ⟨el.trans q2.1, fun b hb => (eq b hb).trans (q2.2 b hb)⟩, q3⟩

theorem Going.step {g g' : Heap} {k : Rendering} {p p' : Prog Str} {m : Nat} (q : Going x th n h g k p m) (e : p.step g = some (g', p')) :
    ∃ m', m = m' + 1 ∧ Going x th n h g' k p' m' ∧ g'.length = g.length ∧ ∀ b, ¬ k.Row h b → g'[b]? = g[b]? := by
  obtain ⟨hv, q1, q2, q3, q4, rfl⟩ := q
  cases p with
  | ret a => cases e
  | panic => cases e
  | diverge => cases e
  | read f =>
    simp only [Prog.step, Option.some.injEq, Prod.mk.injEq] at e
    obtain ⟨rfl, rfl⟩ := e
    rw [q1.1 g q2]
    exact ⟨_, rfl, ⟨hv, q1.2, q2, q3, q4, rfl⟩, rfl, fun _ _ => rfl⟩
  | write f c =>
    have q5 := q1.1 g q2
    simp only [Prog.step] at e
    simp only [Prog.alone] at q3
    simp only [last] at q4
    simp only [cost]
    cases ef : f hv with
    | ok h' =>
      simp only [ef] at q5 q3 q4
      obtain ⟨g2, e2, q6, q7, q8⟩ := q5
      simp only [e2, Option.some.injEq, Prod.mk.injEq] at e
      obtain ⟨rfl, rfl⟩ := e
      exact ⟨_, rfl, ⟨h', q1.2 h' ef, q6, q3, q4, rfl⟩, q7, q8⟩
    | panic =>
      simp only [ef] at q5 q3 q4
      simp only [q5, Option.some.injEq, Prod.mk.injEq] at e
      obtain ⟨rfl, rfl⟩ := e
      exact ⟨0, rfl, ⟨hv, trivial, q2, q3, q4, rfl⟩, rfl, fun _ _ => rfl⟩
    | diverge =>
      simp only [ef] at q5 q3 q4
      simp only [q5, Option.some.injEq, Prod.mk.injEq] at e
      obtain ⟨rfl, rfl⟩ := e
      exact ⟨0, rfl, ⟨hv, trivial, q2, q3, q4, rfl⟩, rfl, fun _ _ => rfl⟩

theorem step_none {α : Type} {g : Heap} {p : Prog α} : p.step g = none ↔ (∃ a, p = .ret a) ∨ p = .panic ∨ p = .diverge := by
  cases p with
  | ret a => simp [Prog.step]
  | panic => simp [Prog.step]
  | diverge => simp [Prog.step]
  | read f => simp [Prog.step]
  | write f c => simp only [Prog.step]; cases f g <;> simp

theorem Going.zero {g : Heap} {k : Rendering} {p : Prog Str} {m : Nat} (q : Going x th n h g k p m) : m = 0 ↔ p.step g = none := by
  obtain ⟨hv, q1, q2, q3, q4, rfl⟩ := q
  rw [step_none]
  cases p <;> simp [cost]

theorem Going.last {g : Heap} {k : Rendering} {p : Prog Str} {m : Nat} (q : Going x th n h g k p m) (e : p.step g = none) {b : Nat} (hb : k.Has h b) :
    g[b]? = (RowsOwn.last (executeP x th n k.t k.data) h)[b]? := by
  obtain ⟨hv, q1, q2, q3, q4, rfl⟩ := q
  rw [q2.2 b hb, ← q4]
  rcases step_none.1 e with ⟨a, rfl⟩ | rfl | rfl <;> rfl

theorem Going.looks {g g' g2 : Heap} {k : Rendering} {p p' : Prog Str} {m : Nat} (q : Going x th n h g k p m) (e : p.step g = some (g', p'))
    (ag : Agree (k.Has h) g2 g) : ∃ g3, p.step g2 = some (g3, p') ∧ Agree (k.Has h) g3 g' := by
  obtain ⟨hv, q1, q2, -, -, rfl⟩ := q
  have q2' : Agree (k.Has h) g2 hv := ⟨ag.1.trans q2.1, fun b hb => (ag.2 b hb).trans (q2.2 b hb)⟩
  cases p with
  | ret a => cases e
  | panic => cases e
  | diverge => cases e
  | read f =>
    simp only [Prog.step, Option.some.injEq, Prod.mk.injEq] at e ⊢
    obtain ⟨rfl, rfl⟩ := e
    exact ⟨g2, ⟨rfl, by rw [q1.1 g q2, q1.1 g2 q2']⟩, ag⟩
  | write f c =>
    have q5 := q1.1 g q2
    have q6 := q1.1 g2 q2'
    simp only [Prog.step] at e ⊢
    cases ef : f hv with
    | ok h' =>
      simp only [ef] at q5 q6
      obtain ⟨g3, e3, a3, -⟩ := q5
      obtain ⟨g4, e4, a4, -⟩ := q6
      simp only [e3, Option.some.injEq, Prod.mk.injEq] at e
      obtain ⟨rfl, rfl⟩ := e
      exact ⟨g4, by rw [e4], a4.1.trans a3.1.symm, fun b hb => (a4.2 b hb).trans (a3.2 b hb).symm⟩
    | panic =>
      simp only [ef] at q5 q6
      simp only [q5, Option.some.injEq, Prod.mk.injEq] at e
      obtain ⟨rfl, rfl⟩ := e
      exact ⟨g2, by rw [q6], ag⟩
    | diverge =>
      simp only [ef] at q5 q6
      simp only [q5, Option.some.injEq, Prod.mk.injEq] at e
      obtain ⟨rfl, rfl⟩ := e
      exact ⟨g2, by rw [q6], ag⟩

/-- All goroutines, with so many steps to go. -/
inductive All (x : Ext) (th : THeap) (n : Nat) (h : Heap) (g : Heap) : Nat → List Rendering → List (Prog Str) → Prop where
  | nil : All x th n h g 0 [] []
  | cons {k : Rendering} {p : Prog Str} {m m' : Nat} {ks : List Rendering} {ps : List (Prog Str)} :
    Going x th n h g k p m → All x th n h g m' ks ps → All x th n h g (m + m') (k :: ks) (p :: ps)

/-- What pairs of renderings have to satisfy. -/
def Two (h : Heap) (k k' : Rendering) : Prop := (∀ b, k.Row h b → ¬ k'.Has h b) ∧ ∀ b, k'.Row h b → ¬ k.Has h b

theorem all_frame {g g' : Heap} {m : Nat} {ks : List Rendering} {ps : List (Prog Str)} (a : All x th n h g m ks ps) (el : g'.length = g.length)
    (eq : ∀ k ∈ ks, ∀ b, k.Has h b → g'[b]? = g[b]?) : All x th n h g' m ks ps := by
  induction a with
  | nil => exact .nil
  | cons q a ih => exact .cons (q.frame el (eq _ (by simp))) (ih fun k hk => eq k (by simp [hk]))

theorem all_start (ks : List Rendering) : ∃ total, All x th n h h total ks (ks.map fun k => executeP x th n k.t k.data) := by
  induction ks with
  | nil => exact ⟨0, .nil⟩
  | cons k ks ih => obtain ⟨m, a⟩ := ih; exact ⟨_, .cons (going_start k) a⟩

theorem all_step {g g' : Heap} {m : Nat} {ks : List Rendering} {ps : List (Prog Str)} (hp : ks.Pairwise (Two h)) (a : All x th n h g m ks ps) {i : Nat}
    {p p' : Prog Str} (e1 : ps[i]? = some p) (e2 : p.step g = some (g', p')) :
    ∃ m' k, m = m' + 1 ∧ All x th n h g' m' ks (ps.set i p') ∧ g'.length = g.length ∧ k ∈ ks ∧ ∀ b, ¬ k.Row h b → g'[b]? = g[b]? := by
  induction a generalizing i with
  | nil => simp at e1
  | @cons k p0 m m2 ks ps q a ih =>
    rw [List.pairwise_cons] at hp
    cases i with
    | zero =>
      simp at e1
      subst e1
      obtain ⟨m', rfl, q', el, eq⟩ := q.step e2
      exact ⟨m' + m2, k, by omega, .cons q' (all_frame a el fun k' hk b hb => eq b fun r => (hp.1 k' hk).1 b r hb), el, by simp, eq⟩
    | succ i =>
      simp at e1
      obtain ⟨m', k', rfl, a', el, hk, eq⟩ := ih hp.2 e1
      exact ⟨m + m', k', by omega, .cons (q.frame el fun b hb => eq b fun r => (hp.1 k' hk).2 b r hb) a', el, by simp [hk], eq⟩

theorem all_steps {m : Nat} {ks : List Rendering} (hp : ks.Pairwise (Two h)) (sched : List Nat) {g g' : Heap} {ps ps' : List (Prog Str)}
    (a : All x th n h g m ks ps) (e : stepsAt sched (g, ps) = some (g', ps')) :
    ∃ m', m = sched.length + m' ∧ All x th n h g' m' ks ps' ∧ g'.length = g.length ∧ ∀ b, (∀ k ∈ ks, ¬ k.Row h b) → g'[b]? = g[b]? := by
  induction sched generalizing m g ps with
  | nil => cases e; exact ⟨m, by simp, a, rfl, fun _ _ => rfl⟩
  | cons i l ih =>
    simp only [stepsAt, stepAt] at e
    cases e1 : ps[i]? with
    | none => simp [e1] at e
    | some p =>
      cases e2 : p.step g with
      | none => simp [e1, e2] at e
      | some r =>
        simp only [e1, e2, Option.map_some, Option.bind_some] at e
        obtain ⟨m1, k, rfl, a1, el1, hk, eq1⟩ := all_step hp a e1 e2
        obtain ⟨m2, rfl, a2, el2, eq2⟩ := ih a1 e
        exact ⟨m2, by simp; omega, a2, el2.trans el1, fun b hb => (eq2 b hb).trans (eq1 b (hb k hk))⟩

theorem all_among {m0 : Nat} {ks : List Rendering} (hp : ks.Pairwise (Two h)) {g0 : Heap} {ps0 : List (Prog Str)} (a0 : All x th n h g0 m0 ks ps0) {m : Nat}
    {c : Heap × List (Prog Str)} (q : Among h ks (g0, ps0) m c) : ∃ m', m0 = m + m' ∧ All x th n h c.1 m' ks c.2 := by
  induction q with
  | start => exact ⟨m0, by simp, a0⟩
  | @turn m i c c' _ e ih =>
    obtain ⟨m', rfl, a⟩ := ih
    obtain ⟨g, ps⟩ := c
    simp only [stepAt] at e
    cases e1 : ps[i]? with
    | none => simp [e1] at e
    | some p =>
      cases e2 : p.step g with
      | none => simp [e1, e2] at e
      | some r =>
        simp only [e1, e2, Option.map_some, Option.some.injEq] at e
        subst e
        obtain ⟨m1, k, rfl, a1, -⟩ := all_step hp a e1 e2
        exact ⟨m1, by omega, a1⟩
  | other _ el eq ih =>
    obtain ⟨m', rfl, a⟩ := ih
    exact ⟨m', rfl, all_frame a el eq⟩

theorem All.length {g : Heap} {m : Nat} {ks : List Rendering} {ps : List (Prog Str)} (a : All x th n h g m ks ps) : ps.length = ks.length := by
  induction a with
  | nil => rfl
  | cons _ _ ih => simp [ih]

theorem All.at {g : Heap} {m : Nat} {ks : List Rendering} {ps : List (Prog Str)} (a : All x th n h g m ks ps) {i : Nat} {k : Rendering} {p : Prog Str}
    (e1 : ks[i]? = some k) (e2 : ps[i]? = some p) : ∃ m', Going x th n h g k p m' := by
  induction a generalizing i with
  | nil => simp at e1
  | cons q _ ih =>
    cases i with
    | zero => simp at e1 e2; subst e1 e2; exact ⟨_, q⟩
    | succ i => simp at e1 e2; exact ih e1 e2

theorem All.zero {g : Heap} {m : Nat} {ks : List Rendering} {ps : List (Prog Str)} (a : All x th n h g m ks ps) : m = 0 ↔ ∀ p ∈ ps, p.step g = none := by
  induction a with
  | nil => simp
  | @cons k p m m' ks ps q _ ih =>
    rw [Nat.add_eq_zero_iff, q.zero, ih]
    simp

theorem pairwise {h : Heap} {rs : List Rendering} (ra : RowsApart h rs) : rs.Pairwise (Two h) := by
  rw [List.pairwise_iff_getElem]
  intro i j hi hj lt
  exact ⟨ra i j _ _ (by omega) (List.getElem?_eq_getElem hi) (List.getElem?_eq_getElem hj),
    ra j i _ _ (by omega) (List.getElem?_eq_getElem hj) (List.getElem?_eq_getElem hi)⟩

theorem row_has {h : Heap} {k : Rendering} {b : Nat} (r : k.Row h b) : k.Has h b := by
  obtain ⟨c, l, e, ⟨a, ea, hc⟩, hl, he, w⟩ := r
  refine ⟨a, ea, hc.trans (.step (.elem hl he) ?_)⟩
  clear he hl
  induction w with
  | plain e => exact .refl
  | wrapper e _ ih => exact .step (.wrapped e) ih

end RowsOwn

end Xcore.Template
