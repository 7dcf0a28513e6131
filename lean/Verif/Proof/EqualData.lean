import Verif.Spec.EqualData
import Verif.Proof.TemplateMore
import Verif.Proof.DatasetPrint

/-!
# Equal data are rendered alike
-/

namespace Xcore.Dataset

variable {R : Nat → Nat → Prop} {h k : Heap}

theorem SameVal.ptr {a b : Nat} (r : R a b) : SameVal R (.ptr a) (.ptr b) := ⟨b, rfl, r⟩

theorem SameVal.flip {v w : Val} (e : SameVal R v w) : SameVal (fun a b => R b a) w v := by
  cases v with
  | ptr a => obtain ⟨b, rfl, r⟩ := e; exact ⟨a, rfl, r⟩
  | slice sk a => obtain ⟨b, rfl, r⟩ := e; exact ⟨a, rfl, r⟩
  | _ => cases e; rfl

theorem SameElem.flip {v w : Option Nat} (e : SameElem R v w) : SameElem (fun a b => R b a) w v := by
  cases e with
  | nil => exact .nil
  | elem r => exact .elem r

theorem all2_flip {α β : Type} {S : α → β → Prop} {T : β → α → Prop} (f : ∀ a b, S a b → T b a) {l : List α} {m : List β} (e : All2 S l m) : All2 T m l := by
  induction e with
  | nil => exact .nil
  | cons r _ ih => exact .cons (f _ _ r) ih

theorem SameMap.flip {m m' : AMap Val} (e : SameMap R m m') : SameMap (fun a b => R b a) m' m :=
  ⟨fun key w e' => by obtain ⟨v, h1, h2⟩ := e.right key w e'; exact ⟨v, h1, h2.flip⟩,
   fun key v e' => by obtain ⟨w, h1, h2⟩ := e.left key v e'; exact ⟨w, h1, h2.flip⟩⟩

theorem SameObj.flip {o o' : Obj} (e : SameObj R o o') : SameObj (fun a b => R b a) o' o := by
  cases e with
  | ds e => exact .ds e.flip
  | nilTS => exact .nilTS
  | dsTS r => exact .dsTS r
  | col e => exact .col (all2_flip (fun _ _ => SameElem.flip) e)
  | colTS e => exact .colTS (all2_flip (fun _ _ => SameElem.flip) e)
  | lang => exact .lang
  | slice => exact .slice

theorem SameData.flip (D : SameData R h k) : SameData (fun a b => R b a) k h := fun a b r => by
  obtain ⟨o, o', h1, h2, h3⟩ := D b a r
  exact ⟨o', o, h2, h1, h3.flip⟩

theorem OneToOne.flip (e : OneToOne R) : OneToOne (fun a b => R b a) := fun _ _ _ _ r r' => (e _ _ _ _ r r').symm

variable (D : SameData R h k)
include D

theorem SameData.ds {a b : Nat} (r : R a b) {m : AMap Val} (e : h[a]? = some (.ds m)) : ∃ m', k[b]? = some (.ds m') ∧ SameMap R m m' := by
  obtain ⟨o, o', h1, h2, h3⟩ := D a b r
  rw [e] at h1; cases h1
  cases h3 with
  | ds hm => exact ⟨_, h2, hm⟩

theorem SameData.dsTS {a b c : Nat} (r : R a b) (e : h[a]? = some (.dsTS (some c))) : ∃ d, k[b]? = some (.dsTS (some d)) ∧ R c d := by
  obtain ⟨o, o', h1, h2, h3⟩ := D a b r
  rw [e] at h1; cases h1
  cases h3 with
  | dsTS hm => exact ⟨_, h2, hm⟩

theorem SameData.isDataset {a b : Nat} (r : R a b) (e : IsDataset h a) : IsDataset k b := by
  obtain ⟨o, o', h1, h2, h3⟩ := D a b r
  rcases e with ⟨m, e⟩ | ⟨i, e⟩ <;> rw [e] at h1 <;> cases h1 <;> cases h3
  · exact Or.inl ⟨_, h2⟩
  · exact Or.inr ⟨_, h2⟩
  · exact Or.inr ⟨_, h2⟩

theorem SameData.isCollection {a b : Nat} (r : R a b) {l : List (Option Nat)} (e : IsCollection h a l) :
    ∃ l', IsCollection k b l' ∧ All2 (SameElem R) l l' := by
  obtain ⟨o, o', h1, h2, h3⟩ := D a b r
  rcases e with e | e <;> rw [e] at h1 <;> cases h1 <;> cases h3
  · exact ⟨_, Or.inl h2, ‹_›⟩
  · exact ⟨_, Or.inr h2, ‹_›⟩

theorem SameData.lang {a b : Nat} (r : R a b) {l : Language.Lang} (e : h[a]? = some (.lang l)) : k[b]? = some (.lang l) := by
  obtain ⟨o, o', h1, h2, h3⟩ := D a b r
  rw [e] at h1; cases h1; cases h3; exact h2

theorem SameData.slice {a b : Nat} (r : R a b) {l : List Val} (e : h[a]? = some (.slice l)) : k[b]? = some (.slice l) := by
  obtain ⟨o, o', h1, h2, h3⟩ := D a b r
  rw [e] at h1; cases h1; cases h3; exact h2

theorem SameData.wraps {a t : Nat} (w : Wraps h a t) : ∀ {b : Nat}, R a b → ∃ t', Wraps k b t' ∧ R t t' := by
  induction w with
  | plain e =>
    intro b r
    obtain ⟨m', h1, _⟩ := D.ds r e
    exact ⟨b, .plain h1, r⟩
  | wrapper e _ ih =>
    intro b r
    obtain ⟨d, h1, h2⟩ := D.dsTS r e
    obtain ⟨t', h3, h4⟩ := ih h2
    exact ⟨t', .wrapper h1 h3, h4⟩

theorem SameData.entry {a b : Nat} (r : R a b) {key : Str} {v : Val} (e : Entry h a key v) : ∃ w, Entry k b key w ∧ SameVal R v w := by
  obtain ⟨t, m, hw, hm, hv⟩ := e
  obtain ⟨t', hw', rt⟩ := D.wraps hw r
  obtain ⟨m', hm', sm⟩ := D.ds rt hm
  obtain ⟨w, h1, h2⟩ := sm.left key v hv
  exact ⟨w, ⟨t', m', hw', hm', h1⟩, h2⟩

theorem SameData.plain {v w : Val} (s : SameVal R v w) (e : Plain h v) : Plain k w := by
  rintro b rfl
  have sf := s.flip
  obtain ⟨a, rfl, r⟩ := sf
  obtain ⟨h1, h2⟩ := e a rfl
  refine ⟨fun hd => h1 (D.flip.isDataset r hd), fun l hc => ?_⟩
  obtain ⟨l', h3, _⟩ := D.flip.isCollection r hc
  exact h2 _ h3

theorem SameData.leads {a : Nat} {segs : List Str} {v : Val} (e : Leads h a segs v) : ∀ {b : Nat}, R a b → ∃ w, Leads k b segs w ∧ SameVal R v w := by
  induction e with
  | entry e =>
    intro b r
    obtain ⟨w, h1, h2⟩ := D.entry r e
    exact ⟨w, .entry h1, h2⟩
  | dataset e hd _ ih =>
    intro b r
    obtain ⟨_, h1, c, rfl, rc⟩ := D.entry r e
    obtain ⟨w, h2, h3⟩ := ih rc
    exact ⟨w, .dataset h1 (D.isDataset rc hd) h2, h3⟩
  | element e hc hi hl =>
    intro b r
    obtain ⟨_, h1, c, rfl, rc⟩ := D.entry r e
    obtain ⟨l', hc', hl'⟩ := D.isCollection rc hc
    obtain ⟨_, h2, h3⟩ := hl'.get _ hl
    cases h3 with
    | elem re => exact ⟨_, .element h1 hc' hi h2, _, rfl, re⟩
  | through e hc hi hl _ ih =>
    intro b r
    obtain ⟨_, h1, c, rfl, rc⟩ := D.entry r e
    obtain ⟨l', hc', hl'⟩ := D.isCollection rc hc
    obtain ⟨_, h2, h3⟩ := hl'.get _ hl
    cases h3 with
    | elem re =>
      obtain ⟨w, h4, h5⟩ := ih re
      exact ⟨w, .through h1 hc' hi h2 h4, h5⟩
  | literal e hp e2 =>
    intro b r
    obtain ⟨w1, h1, s1⟩ := D.entry r e
    obtain ⟨w2, h2, s2⟩ := D.entry r e2
    exact ⟨w2, .literal h1 (D.plain s1 hp) h2, s2⟩

omit D in
/-- The entries of the other map, in the same order. -/
theorem SameMap.visit {m m' : AMap Val} (e : SameMap R m m') (hn : m.Nodup) (hn' : m'.Nodup) {visited : List (Str × Val)} (hp : visited.Perm m) :
    ∃ visited', visited'.Perm m' ∧ All2 (fun p q => q.1 = p.1 ∧ SameVal R p.2 q.2) visited visited' := by
  have key : ∀ p ∈ visited, ∃ w, m'.get p.1 = some w ∧ SameVal R p.2 w := fun p hp' =>
    e.left _ _ (AMap.get_of_mem hn (hp.mem_iff.1 hp'))
  have all : ∀ l : List (Str × Val), (∀ p ∈ l, ∃ w, m'.get p.1 = some w ∧ SameVal R p.2 w) →
      All2 (fun p q => q.1 = p.1 ∧ SameVal R p.2 q.2 ∧ m'.get q.1 = some q.2) l (l.map fun p => (p.1, (m'.get p.1).getD .nil)) := by
    intro l
    induction l with
    | nil => exact fun _ => .nil
    | cons p l ih =>
      intro hl
      obtain ⟨w, h1, h2⟩ := hl p (by simp)
      exact .cons ⟨rfl, by simp [h1, h2], by simp [h1]⟩ (ih fun q hq => hl q (by simp [hq]))
  have ha := all visited key
  refine ⟨_, ?_, ha.imp fun _ _ _ h => ⟨h.1, h.2.1⟩⟩
  have hk : (visited.map fun p => (p.1, (m'.get p.1).getD .nil)).map Prod.fst = visited.map Prod.fst := by simp [Function.comp_def]
  have hvn : (visited.map Prod.fst).Nodup := (hp.map Prod.fst).nodup_iff.2 hn
  have nodup_of : ∀ l : List (Str × Val), (l.map Prod.fst).Nodup → l.Nodup := by
    intro l hl
    exact List.Pairwise.imp (fun hne e => hne (by rw [e])) (List.pairwise_map.1 hl)
  refine nodup_perm (nodup_of _ (by rw [hk]; exact hvn)) (nodup_of _ hn') fun q => ⟨fun hq => ?_, fun hq => ?_⟩
  · obtain ⟨p, _, h1⟩ := ha.mem_right hq
    exact AMap.mem_of_get h1.2.2
  · obtain ⟨v, h1, h2⟩ := e.right q.1 q.2 (AMap.get_of_mem hn' hq)
    refine List.mem_map.2 ⟨(q.1, v), hp.mem_iff.2 (AMap.mem_of_get h1), ?_⟩
    simp [AMap.get_of_mem hn' hq]

omit D in
theorem all2_both {α β γ : Type} {S : α → β → Prop} {P : α → γ → Prop} {Q : β → γ → Prop} (f : ∀ a b c, S a b → P a c → Q b c) {l : List α} {l' : List β} {m : List γ}
    (e : All2 S l l') (p : All2 P l m) : All2 Q l' m := by
  induction e generalizing m with
  | nil => cases p; exact .nil
  | cons r _ ih => cases p with | cons r' p => exact .cons (f _ _ _ r r') (ih p)

theorem SameData.target_none (wf : WF h) (wf' : WF k) {a b : Nat} (r : R a b) (e : target h a = none) : target k b = none := by
  cases e' : target k b with
  | none => rfl
  | some t =>
    obtain ⟨t', hw, _⟩ := D.flip.wraps ((target_iff wf').1 e') r
    rw [(target_iff wf).2 hw] at e; cases e

theorem SameData.target_some (wf : WF h) (wf' : WF k) {a b t : Nat} (r : R a b) (e : target h a = some t) : ∃ t', target k b = some t' ∧ R t t' := by
  obtain ⟨t', hw, rt⟩ := D.wraps ((target_iff wf).1 e) r
  exact ⟨t', (target_iff wf').2 hw, rt⟩

theorem SameData.prints (x : Ext) (wf : WF h) (wf' : WF k) : ∀ (n : Nat) {v w : Val} {s : Str}, SameVal R v w → Prints x n h v s → Prints x n k w s := by
  intro n
  induction n with
  | zero => exact fun _ p => p
  | succ n ih =>
    intro v w s sv p
    cases v with
    | ptr a =>
      obtain ⟨b, rfl, r⟩ := sv
      obtain ⟨o, o', h1, h2, h3⟩ := D a b r
      simp only [Prints, h1] at p
      simp only [Prints, h2]
      cases h3 with
      | ds sm =>
        obtain ⟨visited, lines, sorted, p1, p2, p3⟩ := p
        obtain ⟨visited', q1, q2⟩ := sm.visit (wf.nodup _ _ h1) (wf'.nodup _ _ h2) p1
        refine ⟨visited', lines, sorted, q1, all2_both ?_ q2 p2, p3⟩
        rintro p q line ⟨e1, e2⟩ ⟨text, t1, t2⟩
        exact ⟨text, ih e2 t1, by rw [t2, e1]⟩
      | nilTS =>
        simp only at p ⊢
        cases e : target h a with
        | none => rw [e] at p; rw [D.target_none wf wf' r e]; exact p
        | some t =>
          rw [e] at p
          obtain ⟨t', e', rt⟩ := D.target_some wf wf' r e
          rw [e']; exact ih (.ptr rt) p
      | dsTS _ =>
        simp only at p ⊢
        cases e : target h a with
        | none => rw [e] at p; rw [D.target_none wf wf' r e]; exact p
        | some t =>
          rw [e] at p
          obtain ⟨t', e', rt⟩ := D.target_some wf wf' r e
          rw [e']; exact ih (.ptr rt) p
      | col hl =>
        obtain ⟨texts, p1, p2⟩ := p
        refine ⟨texts, all2_both ?_ hl p1, p2⟩
        intro e e' t se pe
        cases se with
        | nil => exact pe
        | elem re => exact ih (.ptr re) pe
      | colTS hl =>
        obtain ⟨texts, p1, p2⟩ := p
        refine ⟨texts, all2_both ?_ hl p1, p2⟩
        intro e e' t se pe
        cases se with
        | nil => exact pe
        | elem re => exact ih (.ptr re) pe
      | lang => exact p
      | slice => exact p
    | slice sk a =>
      obtain ⟨b, rfl, r⟩ := sv
      obtain ⟨o, o', h1, h2, h3⟩ := D a b r
      simp only [Prints, h1] at p
      simp only [Prints, h2]
      cases h3 <;> exact p
    | _ => cases sv; exact p

theorem SameData.goPrints (x : Ext) (wf : WF h) (wf' : WF k) : ∀ (n : Nat) {v w : Val} {s : Str}, SameVal R v w → GoPrints x n h v s → GoPrints x n k w s := by
  intro n
  induction n with
  | zero => exact fun _ p => p
  | succ n ih =>
    intro v w s sv p
    cases v with
    | ptr a =>
      obtain ⟨b, rfl, r⟩ := sv
      obtain ⟨o, o', h1, h2, h3⟩ := D a b r
      simp only [GoPrints, h1] at p
      simp only [GoPrints, h2]
      cases h3 with
      | ds sm =>
        obtain ⟨visited, lines, sorted, p1, p2, p3⟩ := p
        obtain ⟨visited', q1, q2⟩ := sm.visit (wf.nodup _ _ h1) (wf'.nodup _ _ h2) p1
        refine ⟨visited', lines, sorted, q1, all2_both ?_ q2 p2, p3⟩
        rintro p q line ⟨e1, e2⟩ ⟨text, t1, t2⟩
        exact ⟨text, ih e2 t1, by rw [t2, e1]⟩
      | nilTS =>
        simp only at p ⊢
        cases e : target h a with
        | none => rw [e] at p; rw [D.target_none wf wf' r e]; exact p
        | some t =>
          rw [e] at p
          obtain ⟨t', e', rt⟩ := D.target_some wf wf' r e
          rw [e']; exact ih (.ptr rt) p
      | dsTS _ =>
        simp only at p ⊢
        cases e : target h a with
        | none => rw [e] at p; rw [D.target_none wf wf' r e]; exact p
        | some t =>
          rw [e] at p
          obtain ⟨t', e', rt⟩ := D.target_some wf wf' r e
          rw [e']; exact ih (.ptr rt) p
      | col hl => exact D.prints x wf wf' n (.ptr r) p
      | colTS hl => exact D.prints x wf wf' n (.ptr r) p
      | lang => exact p
      | slice => exact p
    | slice sk a =>
      obtain ⟨b, rfl, r⟩ := sv
      obtain ⟨o, o', h1, h2, h3⟩ := D a b r
      simp only [GoPrints, h1] at p
      simp only [GoPrints, h2]
      cases h3 <;> exact p
    | _ => cases sv; exact p

end Xcore.Dataset

namespace Xcore.Template

open Xcore.Dataset

variable {R : Nat → Nat → Prop} {h k : Heap}

/-- Corresponding scope stacks. -/
def SameStack (R : Nat → Nat → Prop) : Option (List Nat) → Option (List Nat) → Prop
  | none, none => True
  | some l, some l' => All2 R l l'
  | _, _ => False

/-- Corresponding jobs. -/
inductive SameJob (R : Nat → Nat → Prop) : Job → Job → Prop where
  | document : SameJob R .document .document
  | body {l : List Param} : SameJob R (.body l) (.body l)
  | elem {p : Param} : SameJob R (.elem p) (.elem p)
  | choose {names : List Str} : SameJob R (.choose names) (.choose names)
  | loop {id : Str} {n i : Nat} {l l' : List (Option Nat)} : All2 (SameElem R) l l' → SameJob R (.loop id n i l) (.loop id n i l')

theorem sameData_valueAt (D : SameData R h k) {σ : Option (List Nat)} {path : Str} {v : Val} (e : ValueAt h σ path v) :
    ∀ {σ' : Option (List Nat)}, SameStack R σ σ' → ∃ w, ValueAt k σ' path w ∧ SameVal R v w := by
  induction e with
  | here e =>
    intro σ' ss
    cases σ' with
    | none => exact ss.elim
    | some l' => cases ss with | cons r _ =>
      obtain ⟨w, h1, h2⟩ := D.leads e r
      exact ⟨w, .here h1, h2⟩
  | outer hn _ ih =>
    intro σ' ss
    cases σ' with
    | none => exact ss.elim
    | some l' => cases ss with | @cons _ b _ l' r rl =>
      obtain ⟨w, h1, h2⟩ := ih (σ' := some l') rl
      refine ⟨w, .outer (fun w hw => ?_) h1, h2⟩
      obtain ⟨v, h3, _⟩ := D.flip.leads hw r
      exact hn v h3
  | missing =>
    intro σ' ss
    cases σ' with
    | none => exact ss.elim
    | some l' => cases ss; exact ⟨.nil, .missing, rfl⟩
  | noData =>
    intro σ' ss
    cases σ' with
    | none => exact ⟨.nil, .noData, rfl⟩
    | some l' => exact ss.elim

theorem sameData_shows (D : SameData R h k) (wf : WF h) (wf' : WF k) {x : Ext} {v w : Val} (sv : SameVal R v w) {s : Str} (e : Shows x h v s) : Shows x k w s := by
  rcases e with ⟨rfl, e⟩ | ⟨hv, n, e⟩
  · cases sv; exact Or.inl ⟨rfl, e⟩
  · refine Or.inr ⟨?_, n, D.prints x wf wf' n sv e⟩
    rintro rfl
    have := sv.flip
    cases v <;> simp [SameVal] at this
    exact hv rfl

theorem sameData_counter (D : SameData R h k) (o : OneToOne R) {a b : Nat} (r : R a b) {i : Int} {h' : Heap} (e : SetCounter h a i h') :
    ∃ k', SetCounter k b i k' ∧ SameData R h' k' := by
  obtain ⟨t, m, hw, hm, rfl⟩ := e
  obtain ⟨t', hw', rt⟩ := D.wraps hw r
  obtain ⟨m', hm', sm⟩ := D.ds rt hm
  refine ⟨_, ⟨t', m', hw', hm', rfl⟩, fun c d rc => ?_⟩
  have lt : t < h.length := by
    rcases Nat.lt_or_ge t h.length with l | l
    · exact l
    · rw [List.getElem?_eq_none l] at hm; cases hm
  have lt' : t' < k.length := by
    rcases Nat.lt_or_ge t' k.length with l | l
    · exact l
    · rw [List.getElem?_eq_none l] at hm'; cases hm'
  by_cases e : c = t
  · have e' : d = t' := (o _ _ _ _ rc rt).1 e
    subst e; subst e'
    refine ⟨_, _, List.getElem?_set_self lt, List.getElem?_set_self lt', .ds ⟨fun key v hv => ?_, fun key v hv => ?_⟩⟩
    · rw [AMap.get_set] at hv ⊢
      split at hv
      · rename_i e; rw [if_pos e]; cases hv; exact ⟨_, rfl, rfl⟩
      · rename_i e; rw [if_neg e]; exact sm.left key v hv
    · rw [AMap.get_set] at hv ⊢
      split at hv
      · rename_i e; rw [if_pos e]; cases hv; exact ⟨_, rfl, rfl⟩
      · rename_i e; rw [if_neg e]; exact sm.right key v hv
  · have e' : d ≠ t' := fun e' => e ((o _ _ _ _ rc rt).2 e')
    obtain ⟨o, o', h1, h2, h3⟩ := D c d rc
    exact ⟨o, o', by rw [List.getElem?_set_ne (Ne.symm e)]; exact h1, by rw [List.getElem?_set_ne (Ne.symm e')]; exact h2, h3⟩

theorem sameData_notDataset (D : SameData R h k) {v w : Val} (sv : SameVal R v w) (e : ∀ a, v = .ptr a → ¬ IsDataset h a) : ∀ b, w = .ptr b → ¬ IsDataset k b := by
  rintro b rfl hd
  obtain ⟨a, rfl, r⟩ := sv.flip
  exact e a rfl (D.flip.isDataset r hd)

/-- No loops in the scope or in the job. -/
def Loopless (sc : List Doc) (job : Job) : Prop :=
  (∀ d ∈ sc, d.All fun p => p.kind ≠ .range) ∧ (∀ l, job = .body l → ∀ p ∈ l, p.kind ≠ .range) ∧ (∀ p, job = .elem p → p.kind ≠ .range) ∧
    ∀ id n i q, job ≠ .loop id n i q

theorem sameData_renders {x : Ext} {lang : Option Language.Lang} {sc : List Doc} {job : Job} {σ : Option (List Nat)} {h h' : Heap} {s : Str}
    (r : Renders x lang sc job σ h h' s) : (OneToOne R ∨ Loopless sc job) → WF h → Short h → job.Fits →
    ∀ {k : Heap} {σ' : Option (List Nat)} {job' : Job}, SameData R h k → WF k → Short k → SameStack R σ σ' → SameJob R job job' →
      ∃ k', Renders x lang sc job' σ' k k' s ∧ SameData R h' k' := by
  induction r with
  | @document sc _ _ _ _ _ ih =>
    intro o wf sh _ k σ' job' D wf' sh' ss sj
    cases sj
    obtain ⟨k', h1, h2⟩ := ih (o.imp id fun l => ⟨l.1, by
      rintro l' ⟨⟩
      cases sc with
      | nil => intro p hp; cases hp
      | cons d up => exact own_all (l.1 d (by simp)), by simp, by simp⟩) wf sh trivial D wf' sh' ss .body
    exact ⟨k', .document h1, h2⟩
  | nil => intro _ _ _ _ k σ' job' D _ _ _ sj; cases sj; exact ⟨k, .nil, D⟩
  | cons r1 _ ih1 ih2 =>
    intro o wf sh _ k σ' job' D wf' sh' ss sj
    cases sj
    obtain ⟨k1, h1, D1⟩ := ih1 (o.imp id fun l => ⟨l.1, by simp, by rintro p ⟨⟩; exact l.2.1 _ rfl _ (by simp), by simp⟩) wf sh trivial D wf' sh' ss .elem
    obtain ⟨k2, h2, D2⟩ := ih2 (o.imp id fun l => ⟨l.1, by rintro l' ⟨⟩ p hp; exact l.2.1 _ rfl p (by simp [hp]), by simp, by simp⟩)
      (renders_wf r1 wf sh trivial) ((renders_shape r1).short sh) trivial D1 (renders_wf h1 wf' sh' trivial) ((renders_shape h1).short sh') ss .body
    exact ⟨k2, .cons h1 h2, D2⟩
  | chosen e _ ih =>
    intro o wf sh _ k σ' job' D wf' sh' ss sj
    cases sj
    obtain ⟨k', h1, h2⟩ := ih (o.imp id fun l => by
      obtain ⟨v, _, e'⟩ := List.exists_of_findSome?_eq_some e
      exact ⟨(lookup_all l.1 e').2, by simp, by simp, by simp⟩) wf sh trivial D wf' sh' ss .document
    exact ⟨k', .chosen e h1, h2⟩
  | noChoice e => intro _ _ _ _ k σ' job' D _ _ _ sj; cases sj; exact ⟨k, .noChoice e, D⟩
  | text => intro _ _ _ _ k σ' job' D _ _ _ sj; cases sj; exact ⟨k, .text, D⟩
  | comment => intro _ _ _ _ k σ' job' D _ _ _ sj; cases sj; exact ⟨k, .comment, D⟩
  | language => intro _ _ _ _ k σ' job' D _ _ _ sj; cases sj; exact ⟨k, .language, D⟩
  | «variable» e p =>
    intro _ wf _ _ k σ' job' D wf' _ ss sj
    cases sj
    obtain ⟨w, h1, h2⟩ := sameData_valueAt D e ss
    exact ⟨k, .variable h1 (sameData_shows D wf wf' h2 p), D⟩
  | reference e1 e2 e3 _ ih =>
    intro o wf sh _ k σ' job' D wf' sh' ss sj
    cases sj
    obtain ⟨k', h1, h2⟩ := ih (o.imp id fun l => ⟨l.1, by simp, by simp, by simp⟩) wf sh trivial D wf' sh' ss .choose
    exact ⟨k', .reference e1 e2 e3 h1, h2⟩
  | referenceNone e1 e2 => intro _ _ _ _ k σ' job' D _ _ _ sj; cases sj; exact ⟨k, .referenceNone e1 e2, D⟩
  | @referenceWith _ σ _ _ _ _ _ _ a e1 e2 e3 e4 _ ih =>
    intro o wf sh _ k σ' job' D wf' sh' ss sj
    cases sj
    obtain ⟨_, h1, b, rfl, rb⟩ := sameData_valueAt D e3 ss
    cases σ' with
    | none => exact ss.elim
    | some l' =>
      obtain ⟨k', h3, h4⟩ := ih (o.imp id fun l => ⟨l.1, by simp, by simp, by simp⟩) wf sh trivial D wf' sh' (σ' := some (b :: l')) (.cons rb ss) .choose
      exact ⟨k', .referenceWith e1 e2 h1 (D.isDataset rb e4) h3, h4⟩
  | referenceWithout e1 e2 e3 e4 _ ih =>
    intro o wf sh _ k σ' job' D wf' sh' ss sj
    cases sj
    obtain ⟨w, h1, h2⟩ := sameData_valueAt D e3 ss
    obtain ⟨k', h3, h4⟩ := ih (o.imp id fun l => ⟨l.1, by simp, by simp, by simp⟩) wf sh trivial D wf' sh' ss .choose
    cases σ' with
    | none => exact ss.elim
    | some l' => exact ⟨k', .referenceWithout e1 e2 h1 (sameData_notDataset D h2 e4) h3, h4⟩
  | referenceValue e1 e2 e3 _ ih =>
    intro o wf sh _ k σ' job' D wf' sh' ss sj
    cases sj
    obtain ⟨w, h1, h2⟩ := sameData_valueAt D e2 ss
    obtain ⟨k', h3, h4⟩ := ih (o.imp id fun l => ⟨l.1, by simp, by simp, by simp⟩) wf sh trivial D wf' sh' ss .choose
    cases σ' with
    | none => exact ss.elim
    | some l' => exact ⟨k', .referenceValue e1 h1 (sameData_shows D wf wf' h2 e3) h3, h4⟩
  | rangeNothing e1 e2 =>
    intro _ _ _ _ k σ' job' D _ _ ss sj
    cases sj
    refine ⟨k, .rangeNothing e1 (e2.imp id fun e => ?_), D⟩
    subst e
    cases σ' with
    | none => rfl
    | some l' => exact ss.elim
  | rangeEmpty e1 e2 e3 e4 _ ih =>
    intro o wf sh _ k σ' job' D wf' sh' ss sj
    cases sj
    obtain ⟨w, h1, h2⟩ := sameData_valueAt D e3 ss
    obtain ⟨k', h3, h4⟩ := ih (o.imp id fun l => ⟨l.1, by simp, by simp, by simp⟩) wf sh trivial D wf' sh' ss .choose
    cases σ' with
    | none => exact ss.elim
    | some l' =>
      refine ⟨k', .rangeEmpty e1 e2 h1 ?_ h3, h4⟩
      rintro c l rfl hc
      obtain ⟨a, rfl, ra⟩ := h2.flip
      obtain ⟨l2, hc2, hl2⟩ := D.flip.isCollection ra hc
      rw [e4 a l2 rfl hc2] at hl2
      cases hl2; rfl
  | range e1 e2 e3 e4 e5 _ ih =>
    intro o wf sh _ k σ' job' D wf' sh' ss sj
    cases sj
    have o1 : OneToOne R := o.resolve_right fun l => absurd rfl (l.2.2.1 _ rfl)
    obtain ⟨_, h1, b, rfl, rb⟩ := sameData_valueAt D e3 ss
    obtain ⟨l2, hc2, hl2⟩ := D.isCollection rb e4
    have hlen := hl2.length
    obtain ⟨k', h3, h4⟩ := ih (Or.inl o1) wf sh (by simpa [Job.Fits] using sh _ _ e4) D wf' sh' ss (.loop hl2)
    cases σ' with
    | none => exact ss.elim
    | some l' =>
      refine ⟨k', .range e1 e2 h1 hc2 ?_ (hlen ▸ h3), h4⟩
      rintro rfl
      cases hl2; exact e5 rfl
  | loopEnd =>
    intro _ _ _ _ k σ' job' D _ _ _ sj
    cases sj with
    | loop hl => cases hl; exact ⟨k, .loopEnd, D⟩
  | @loop _ σ _ _ _ _ _ _ _ _ i a l e r1 r2 ih1 ih2 =>
    intro o wf sh hf k σ' job' D wf' sh' ss sj
    have o1 : OneToOne R := o.resolve_right fun l => absurd rfl (l.2.2.2 _ _ _ _)
    cases sj with
    | loop hl =>
      cases hl with
      | cons se hl =>
        cases se with
        | @elem _ b rb =>
          cases σ' with
          | none => exact ss.elim
          | some l' =>
            simp only [Job.Fits, List.length_cons] at hf
            have hi : 0 ≤ (i : Int) + 1 ∧ (i : Int) + 1 < 2 ^ 63 := by omega
            obtain ⟨k1, h1, D1⟩ := sameData_counter D o1 rb e
            have w1 := wf_counter wf hi e
            have w1' := wf_counter wf' hi h1
            have s1 := (shape_counter e).short sh
            have s1' := (shape_counter h1).short sh'
            obtain ⟨k2, h2, D2⟩ := ih1 (Or.inl o1) w1 s1 trivial D1 w1' s1' (σ' := some (b :: l')) (.cons rb ss) .choose
            obtain ⟨k3, h3, D3⟩ := ih2 (Or.inl o1) (renders_wf r1 w1 s1 trivial) ((renders_shape r1).short s1) (by simp only [Job.Fits]; omega) D2
              (renders_wf h2 w1' s1' trivial) ((renders_shape h2).short s1') (σ' := some l') ss (.loop hl)
            exact ⟨k3, .loop h1 h2 h3, D3⟩
  | conditionNone e1 e2 e3 _ ih =>
    intro o wf sh _ k σ' job' D wf' sh' ss sj
    cases sj
    obtain ⟨w, h1, h2⟩ := sameData_valueAt D e2 ss
    obtain ⟨k', h3, h4⟩ := ih (o.imp id fun l => ⟨l.1, by simp, by simp, by simp⟩) wf sh trivial D wf' sh' ss .choose
    exact ⟨k', .conditionNone e1 h1 (sameData_shows D wf wf' h2 e3) h3, h4⟩
  | conditionNothing e1 e2 e3 e4 e5 =>
    intro o wf sh _ k σ' job' D wf' sh' ss sj
    cases sj
    obtain ⟨w, h1, h2⟩ := sameData_valueAt D e2 ss
    exact ⟨k, .conditionNothing e1 h1 (sameData_shows D wf wf' h2 e3) e4 e5, D⟩
  | conditionValue e1 e2 e3 e4 e5 e6 _ ih =>
    intro o wf sh _ k σ' job' D wf' sh' ss sj
    cases sj
    obtain ⟨w, h1, h2⟩ := sameData_valueAt D e2 ss
    obtain ⟨k', h3, h4⟩ := ih (o.imp id fun l => ⟨l.1, by simp, by simp, by simp⟩) wf sh trivial D wf' sh' ss .choose
    exact ⟨k', .conditionValue e1 h1 (sameData_notDataset D h2 e3) (sameData_shows D wf wf' h2 e4) e5 e6 h3, h4⟩
  | conditionDataset e1 e2 e3 e4 r e5 ih =>
    intro o wf sh _ k σ' job' D wf' sh' ss sj
    cases sj
    obtain ⟨_, h1, b, rfl, rb⟩ := sameData_valueAt D e2 ss
    cases σ' with
    | none => exact ss.elim
    | some l' =>
      obtain ⟨k', h3, h4⟩ := ih (o.imp id fun l => ⟨l.1, by simp, by simp, by simp⟩) wf sh trivial D wf' sh' (σ' := some (b :: l')) (.cons rb ss) .choose
      exact ⟨k', .conditionDataset e1 h1 (D.isDataset rb e3) e4 h3
        (sameData_shows h4 (renders_wf r wf sh trivial) (renders_wf h3 wf' sh' trivial) (.ptr rb) e5), h4⟩
  | dump e1 e2 e3 e4 =>
    intro o wf sh _ k σ' job' D wf' sh' ss sj
    cases sj
    cases σ' with
    | none => exact ss.elim
    | some l' =>
      obtain ⟨b, h1, rb⟩ : ∃ b, l'.getLast? = some b ∧ R _ b := by
        have hl := All2.length ss
        rw [List.getLast?_eq_getElem?] at e2 ⊢
        rw [← hl]
        exact All2.get ss _ e2
      obtain ⟨t', h2, rt⟩ := D.wraps e3 rb
      exact ⟨k, .dump e1 h1 h2 (D.goPrints x wf wf' _ (.ptr rt) e4), D⟩
  | dumpEmpty e =>
    intro _ _ _ _ k σ' job' D _ _ ss sj
    cases sj
    cases σ' with
    | none => exact ss.elim
    | some l' => cases ss; exact ⟨k, .dumpEmpty e, D⟩
  | dumpNothing e =>
    intro _ _ _ _ k σ' job' D _ _ ss sj
    cases sj
    refine ⟨k, .dumpNothing (e.imp id fun e => ?_), D⟩
    subst e
    cases σ' with
    | none => rfl
    | some l' => exact ss.elim
  | unknown e => intro _ _ _ _ k σ' job' D _ _ _ sj; cases sj; exact ⟨k, .unknown e, D⟩

theorem sameData_langOf (D : SameData R h k) {a b : Nat} (r : R a b) {lang : Option Language.Lang} (e : LangOf h a lang) : LangOf k b lang := by
  cases e with
  | table e1 e2 =>
    obtain ⟨_, h1, c, rfl, rc⟩ := D.entry r e1
    exact .table h1 (D.lang rc e2)
  | none e =>
    refine .none fun c l hc hl => ?_
    obtain ⟨_, h1, c', rfl, rc⟩ := D.flip.entry r hc
    exact e c' l h1 (D.flip.lang rc hl)

/-- Equal data, the same document: the same text, and equal data afterwards. -/
theorem sameData_executes {x : Ext} {d : Doc} {data data' : Option Nat} {h h' k : Heap} {s : Str} (D : SameData R h k)
    (ha : SameArg R data data') (o : OneToOne R ∨ d.All fun p => p.kind ≠ .range) (hp : Proper h data) (hp' : Proper k data')
    (e : Executes x d data h h' s) : ∃ k', Executes x d data' k k' s ∧ SameData R h' k' := by
  have o' : OneToOne R ∨ Loopless [d] .document := o.imp id fun e => ⟨by simpa using e, by simp, by simp, by simp⟩
  cases e with
  | data e1 e2 =>
    cases ha with
    | data r =>
      obtain ⟨k', h1, h2⟩ := sameData_renders e2 o' hp.wf hp.short trivial D hp'.wf hp'.short (σ' := some [_]) (.cons r .nil) .document
      exact ⟨k', .data (sameData_langOf D r e1) h1, h2⟩
  | nil e =>
    cases ha with
    | nil =>
      obtain ⟨k', h1, h2⟩ := sameData_renders e o' hp.wf hp.short trivial D hp'.wf hp'.short (σ' := none) trivial .document
      exact ⟨k', .nil h1, h2⟩

end Xcore.Template
