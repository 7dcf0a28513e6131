import Verif.Spec.DataLook
import Verif.Proof.TemplateAgain
import Verif.Proof.TemplateGraph
import Verif.Proof.TemplateBreaks

/-! An entry that no element looks up does not matter: version 2 (C118). -/

namespace Xcore.Template

open Xcore.Dataset

section

variable {h h' : Heap} {b : Nat} {k : Str}

theorem DifferOnlyIn.flip (d : DifferOnlyIn h h' b k) : DifferOnlyIn h' h b k := by
  obtain ⟨m, m', e, e', g⟩ := d.dataset
  exact ⟨⟨m', m, e', e, fun k' n => (g k' n).symm⟩, fun c n => (d.others c n).symm⟩

theorem DifferOnlyIn.obj (d : DifferOnlyIn h h' b k) {c : Nat} {o : Obj} (ho : ∀ m, o ≠ .ds m) (e : h[c]? = some o) : h'[c]? = some o := by
  by_cases hb : c = b
  · subst hb
    obtain ⟨m, m', em, _, _⟩ := d.dataset
    rw [em] at e; cases e
    exact absurd rfl (ho m)
  · rw [d.others c hb]; exact e

theorem DifferOnlyIn.wraps (d : DifferOnlyIn h h' b k) {a t : Nat} (w : Wraps h a t) : Wraps h' a t := by
  induction w with
  | @plain a m hm =>
    by_cases hb : a = b
    · subst hb
      obtain ⟨_, m', _, e', _⟩ := d.dataset
      exact .plain e'
    · exact .plain (by rw [d.others a hb]; exact hm)
  | wrapper hb _ ih => exact .wrapper (d.obj (by simp) hb) ih

theorem DifferOnlyIn.entry (d : DifferOnlyIn h h' b k) {a : Nat} {s : Str} {v : Val} (n : s ≠ k) (e : Entry h a s v) : Entry h' a s v := by
  obtain ⟨t, m, w, hm, g⟩ := e
  by_cases hb : t = b
  · subst hb
    obtain ⟨m1, m2, e1, e2, q⟩ := d.dataset
    rw [hm] at e1; cases e1
    exact ⟨t, m2, d.wraps w, e2, by rw [q s n]; exact g⟩
  · exact ⟨t, m, d.wraps w, by rw [d.others t hb]; exact hm, g⟩

theorem DifferOnlyIn.ds (d : DifferOnlyIn h h' b k) {a : Nat} (e : IsDataset h a) : IsDataset h' a := by
  rcases e with ⟨m, e⟩ | ⟨i, e⟩
  · by_cases hb : a = b
    · subst hb
      obtain ⟨_, m', _, e', _⟩ := d.dataset
      exact Or.inl ⟨m', e'⟩
    · exact Or.inl ⟨m, by rw [d.others a hb]; exact e⟩
  · exact Or.inr ⟨i, d.obj (by simp) e⟩

theorem DifferOnlyIn.col (d : DifferOnlyIn h h' b k) {a : Nat} {l : List (Option Nat)} (e : IsCollection h a l) : IsCollection h' a l := by
  rcases e with e | e
  · exact Or.inl (d.obj (by simp) e)
  · exact Or.inr (d.obj (by simp) e)

theorem DifferOnlyIn.plain (d : DifferOnlyIn h h' b k) {v : Val} (p : Plain h v) : Plain h' v :=
  fun a e => ⟨fun q => (p a e).1 (d.flip.ds q), fun l q => (p a e).2 l (d.flip.col q)⟩

theorem DifferOnlyIn.leads (d : DifferOnlyIn h h' b k) {a : Nat} {segs : List Str} {v : Val} (q : Leads h a segs v) :
    (∀ before s rest, segs = before ++ s :: rest → k ≠ s ∧ k ≠ join b!">" (s :: rest)) → Leads h' a segs v := by
  induction q with
  | entry e => intro n; exact .entry (d.entry (n [] _ [] rfl).1.symm e)
  | @dataset a b s s2 rest v e ds _ ih =>
    intro n
    exact .dataset (d.entry (n [] _ _ rfl).1.symm e) (d.ds ds) (ih fun before t r eq => n (s :: before) t r (by rw [eq]; rfl))
  | element e c i g => intro n; exact .element (d.entry (n [] _ _ rfl).1.symm e) (d.col c) i g
  | @through a c e s s2 r rest l i v en c i g _ ih =>
    intro n
    exact .through (d.entry (n [] _ _ rfl).1.symm en) (d.col c) i g (ih fun before t r eq => n (s :: s2 :: before) t r (by rw [eq]; rfl))
  | literal e p f => intro n; exact .literal (d.entry (n [] _ _ rfl).1.symm e) (d.plain p) (d.entry (n [] _ _ rfl).2.symm f)

theorem DifferOnlyIn.has (d : DifferOnlyIn h h' b k) {a : Nat} {path : Str} {v : Val} (n : ¬ AsksFor path k) (q : Has h a path v) : Has h' a path v :=
  d.leads q fun before s rest eq => ⟨fun e => n ⟨before, s, rest, eq, Or.inl e⟩, fun e => n ⟨before, s, rest, eq, Or.inr e⟩⟩

theorem DifferOnlyIn.valueAt (d : DifferOnlyIn h h' b k) {σ : Option (List Nat)} {path : Str} {v : Val} (n : ¬ AsksFor path k) (q : ValueAt h σ path v) :
    ValueAt h' σ path v := by
  induction q with
  | here q => exact .here (d.has n q)
  | outer hn _ ih => exact .outer (fun w q => hn w (d.flip.has n q)) (ih n)
  | missing => exact .missing
  | noData => exact .noData

theorem valueAt_cases {σ : Option (List Nat)} {path : Str} {v : Val} (q : ValueAt h σ path v) : v = .nil ∨ ∃ a, Has h a path v := by
  induction q with
  | here q => exact Or.inr ⟨_, q⟩
  | outer _ _ ih => exact ih
  | missing => exact Or.inl rfl
  | noData => exact Or.inl rfl

/-- A value that is found is an entry of a plain dataset, or a dataset in a collection. -/
theorem leads_from {a : Nat} {segs : List Str} {v : Val} (q : Leads h a segs v) : (∃ e, v = .ptr e) ∨ ∃ c s, Entry h c s v := by
  induction q with
  | entry e => exact Or.inr ⟨_, _, e⟩
  | dataset _ _ _ ih => exact ih
  | element _ _ _ _ => exact Or.inl ⟨_, rfl⟩
  | through _ _ _ _ _ ih => exact ih
  | literal _ _ f => exact Or.inr ⟨_, _, f⟩

/-- A slice is never found where there is a dataset. -/
theorem no_slice {h₀ : Heap} (wf : WF h₀) (sb : SameButCounters h₀ h) {m : AMap Val} (hb : h[b]? = some (.ds m)) {c : Nat} {s : Str} {kd} (e : Entry h c s (.slice kd b)) :
    False := by
  have hb0 : ∃ m, h₀[b]? = some (.ds m) := by
    rcases sb.objects b with q | ⟨m, _, q, _⟩
    · exact ⟨_, by rw [← q]; exact hb⟩
    · exact ⟨m, q⟩
  obtain ⟨m0, hb0⟩ := hb0
  obtain ⟨t, n, _, hn, g⟩ := e
  have : ∃ n0, h₀[t]? = some (.ds n0) ∧ n0.get s = some (.slice kd b) := by
    rcases sb.objects t with q | ⟨m1, m2, q1, q2, ne, hc⟩
    · exact ⟨n, by rw [← q]; exact hn, g⟩
    · rw [hn] at q2; cases q2
      refine ⟨m1, q1, ?_⟩
      by_cases hs : s = b!".counter"
      · subst hs
        rcases hc with hc | ⟨i, hc⟩
        · rw [← hc]; exact g
        · rw [g] at hc; cases hc
      · rw [← ne s hs]; exact g
  obtain ⟨n0, e0, g0⟩ := this
  obtain ⟨l, el⟩ := wf.valid t n0 s _ e0 (AMap.mem_of_get g0)
  rw [hb0] at el; cases el

theorem DifferOnlyIn.shows (d : DifferOnlyIn h h' b k) {x : Ext} {v : Val} (p : Plain h v) (ns : ∀ kd, v ≠ .slice kd b) {s : Str} (q : Shows x h v s) : Shows x h' v s := by
  rcases q with q | ⟨nn, n, q⟩
  · exact Or.inl q
  · refine Or.inr ⟨nn, n, ?_⟩
    cases n with
    | zero => exact q
    | succ n =>
      cases v with
      | ptr c =>
        have hc : c ≠ b := by
          obtain ⟨m, _, em, _⟩ := d.dataset
          exact fun e => (p c rfl).1 (Or.inl ⟨m, by rw [e]; exact em⟩)
        simp only [Prints] at q ⊢
        rw [d.others c hc]
        cases ho : h[c]? with
        | none => simp only [ho] at q ⊢; exact q
        | some o =>
          cases o with
          | ds m => exact absurd (Or.inl ⟨m, ho⟩) (p c rfl).1
          | dsTS i => exact absurd (Or.inr ⟨i, ho⟩) (p c rfl).1
          | col l => exact absurd (Or.inl ho) ((p c rfl).2 l)
          | colTS l => exact absurd (Or.inr ho) ((p c rfl).2 l)
          | _ => simp only [ho] at q ⊢; exact q
      | slice kd c =>
        have hc : c ≠ b := fun e => ns kd (by rw [e])
        simp only [Prints] at q ⊢
        rw [d.others c hc]
        exact q
      | _ => simpa only [Prints] using q

theorem DifferOnlyIn.count (d : DifferOnlyIn h h' b k) {a : Nat} {i : Int} {h₁ : Heap} (e : SetCounter h a i h₁) :
    ∃ h₂, SetCounter h' a i h₂ ∧ DifferOnlyIn h₁ h₂ b k := by
  obtain ⟨t, m, w, hm, rfl⟩ := e
  by_cases hb : t = b
  · subst hb
    obtain ⟨m1, m2, e1, e2, g⟩ := d.dataset
    rw [hm] at e1; cases e1
    refine ⟨_, ⟨t, m2, d.wraps w, e2, rfl⟩, ⟨_, _, by rw [List.getElem?_set_self (lt_of_getElem? hm)], by rw [List.getElem?_set_self (lt_of_getElem? e2)], fun k' n => ?_⟩,
      fun c n => ?_⟩
    · rw [AMap.get_set, AMap.get_set, g k' n]
    · rw [List.getElem?_set_ne (Ne.symm n), List.getElem?_set_ne (Ne.symm n)]; exact d.others c n
  · have e2 : h'[t]? = some (.ds m) := by rw [d.others t hb]; exact hm
    refine ⟨_, ⟨t, m, d.wraps w, e2, rfl⟩, ?_, fun c n => ?_⟩
    · obtain ⟨m1, m2, e1, e2, g⟩ := d.dataset
      exact ⟨m1, m2, by rw [List.getElem?_set_ne hb]; exact e1, by rw [List.getElem?_set_ne hb]; exact e2, g⟩
    · by_cases hc : t = c
      · subst hc
        rw [List.getElem?_set_self (lt_of_getElem? hm), List.getElem?_set_self (lt_of_getElem? e2)]
      · rw [List.getElem?_set_ne hc, List.getElem?_set_ne hc]; exact d.others c n

theorem DifferOnlyIn.lang (d : DifferOnlyIn h h' b k) (hk : k ≠ b!"#") {a : Nat} {l : Option Language.Lang} (q : LangOf h a l) : LangOf h' a l := by
  cases q with
  | table e g => exact .table (d.entry hk.symm e) (d.obj (by simp) g)
  | none n => exact .none fun c t e g => n c t (d.flip.entry hk.symm e) (d.flip.obj (by simp) g)

end

/-- What there is to render is made of the elements `E`. -/
def Job.Of (E : Param → Prop) : Job → Prop
  | .body l => ∀ p ∈ l, E p
  | .elem p => E p
  | .loop _ _ i l => ((i + l.length : Nat) : Int) < 2 ^ 63
  | _ => True

theorem takes_plain {E : Param → Prop} {h₀ : Heap} (texts : ∀ h₁, SameButCounters h₀ h₁ → ∀ p key c w, E p → TakesText p key → Has h₁ c key w → Plain h₁ w)
    {h : Heap} {σ : Option (List Nat)} {p : Param} {key : Str} {v : Val} (sb : SameButCounters h₀ h) (e : E p) (q : TakesText p key) (r : ValueAt h σ key v) : Plain h v := by
  rcases valueAt_cases r with rfl | ⟨a, r⟩
  · intro a q; cases q
  · exact texts h sb p key a v e q r

theorem shows_differ {h₀ : Heap} (wf : WF h₀) {x : Ext} {h g : Heap} {b : Nat} {k : Str} {σ : Option (List Nat)} {key : Str} {v : Val} {s : Str} (sb : SameButCounters h₀ h)
    (d : DifferOnlyIn h g b k) (p : Plain h v) (r : ValueAt h σ key v) : Shows x h v s → Shows x g v s := by
  refine d.shows p fun kd hv => ?_
  subst hv
  rcases valueAt_cases r with e | ⟨a, r⟩
  · cases e
  · rcases leads_from r with ⟨e, q⟩ | ⟨c, s, q⟩
    · cases q
    · obtain ⟨m, _, em, _⟩ := d.dataset
      exact no_slice wf sb em q

/-- What the first of two memories is like during rendering. -/
structure Stage (h₀ h : Heap) : Prop where
  same : SameButCounters h₀ h
  wf : WF h
  short : Short h

/-- What the second is like. -/
structure Twin (g₀ h g : Heap) (b : Nat) (k : Str) : Prop extends DifferOnlyIn h g b k where
  wf : WF g
  shape : Shape g₀ g

theorem Stage.count {h₀ h : Heap} (sb : Stage h₀ h) {a i : Nat} (hi : ((i : Int) + 1) < 2 ^ 63) {h₁ : Heap} (e : SetCounter h a ((i : Int) + 1) h₁) : Stage h₀ h₁ :=
  ⟨sb.same.trans (same_counter e), wf_counter sb.wf ⟨by omega, hi⟩ e, (shape_counter e).short sb.short⟩

theorem Twin.count {g₀ h g : Heap} {b : Nat} {k : Str} (d : Twin g₀ h g b k) {a i : Nat} (hi : ((i : Int) + 1) < 2 ^ 63) {h₁ : Heap} (e : SetCounter h a ((i : Int) + 1) h₁) :
    ∃ g₁, SetCounter g a ((i : Int) + 1) g₁ ∧ Twin g₀ h₁ g₁ b k := by
  obtain ⟨g₁, e', d'⟩ := d.toDifferOnlyIn.count e
  exact ⟨g₁, e', ⟨d', wf_counter d.wf ⟨by omega, hi⟩ e', d.shape.trans (shape_counter e')⟩⟩

/-- Printing a dataset ends. -/
theorem Twin.prints {g₀ h g : Heap} {b : Nat} {k : Str} (d : Twin g₀ h g b k) (nc : NoCycles g₀) (x : Ext) {a : Nat} (ha : IsDataset g a) : ∃ s, Shows x g (.ptr a) s ∧ s ≠ [] := by
  obtain ⟨s, q⟩ := shows_ptr x d.wf (isDataset_lt ha) (d.shape.acyclic (nc a ((d.shape.isDataset a).1 ha)))
  exact ⟨s, q, shows_dataset_ne d.wf ha q⟩

theorem renders_differ {S : Type} {own : S → List Param} {look : S → Str → Option S} {x : Ext} {lang : Option Language.Lang} {E : Param → Prop} {I : S → Prop}
    (hown : ∀ c, I c → ∀ p ∈ own c, E p) (hlook : ∀ c v s, I c → look c v = some s → I s) {h₀ g₀ : Heap} (wf : WF h₀) {b : Nat} {k : Str}
    (asks : ∀ p key, E p → LooksUp p key → ¬ AsksFor key k)
    (texts : ∀ h₁, SameButCounters h₀ h₁ → ∀ p key c w, E p → TakesText p key → Has h₁ c key w → Plain h₁ w)
    (tests : ∀ h₁, SameButCounters h₀ h₁ → ∀ s key id c w, E ⟨.condition, s⟩ → Target s key id → Has h₁ c key w →
      Plain h₁ w ∨ (∃ a, w = .ptr a ∧ IsDataset h₁ a) ∧ NoCycles h₀ ∧ NoCycles g₀)
    (hd : ∀ s, E ⟨.dump, s⟩ → s ≠ b!"dump" ∧ s ≠ b!"list")
    {sc : S} {job : Job} {σ : Option (List Nat)} {h h₁ : Heap} {s : Str} (r : RendersIn own look x lang sc job σ h h₁ s) :
    I sc → job.Of E → Stage h₀ h → ∀ g, Twin g₀ h g b k →
      Stage h₀ h₁ ∧ ∃ g₁, RendersIn own look x lang sc job σ g g₁ s ∧ Twin g₀ h₁ g₁ b k := by
  have show' : ∀ {h g : Heap} {σ p key v s}, Stage h₀ h → Twin g₀ h g b k → E p → TakesText p key → ValueAt h σ key v → Shows x h v s → Shows x g v s :=
    fun sb d e q r => shows_differ wf sb.same d.toDifferOnlyIn (takes_plain texts sb.same e q r) r
  have tested : ∀ {h : Heap} {σ s key id v}, Stage h₀ h → E ⟨.condition, s⟩ → Target s key id → ValueAt h σ key v → Plain h v ∨ (∃ a, v = .ptr a ∧ IsDataset h a) ∧ NoCycles g₀ := by
    intro h σ s key id v sb e q r
    rcases valueAt_cases r with rfl | ⟨a, r⟩
    · exact Or.inl fun a q => by cases q
    · rcases tests h sb.same s key id a v e q r with p | ⟨p, _, nc⟩
      · exact Or.inl p
      · exact Or.inr ⟨p, nc⟩
  induction r with
  | document _ ih =>
    intro i _ sb g d
    obtain ⟨sb', g₁, r, d'⟩ := ih i (hown _ i) sb g d
    exact ⟨sb', g₁, .document r, d'⟩
  | nil => intro _ _ sb g d; exact ⟨sb, g, .nil, d⟩
  | cons _ _ ih1 ih2 =>
    intro i o sb g d
    obtain ⟨sb', g₁, r, d'⟩ := ih1 i (o _ (List.mem_cons_self ..)) sb g d
    obtain ⟨sb2, g₂, r2, d2⟩ := ih2 i (fun p hp => o p (List.mem_cons_of_mem _ hp)) sb' g₁ d'
    exact ⟨sb2, g₂, .cons r r2, d2⟩
  | chosen e _ ih =>
    intro i _ sb g d
    obtain ⟨v, _, ev⟩ := List.exists_of_findSome?_eq_some e
    obtain ⟨sb', g₁, r, d'⟩ := ih (hlook _ _ _ i ev) trivial sb g d
    exact ⟨sb', g₁, .chosen e r, d'⟩
  | noChoice e => intro _ _ sb g d; exact ⟨sb, g, .noChoice e, d⟩
  | text => intro _ _ sb g d; exact ⟨sb, g, .text, d⟩
  | comment => intro _ _ sb g d; exact ⟨sb, g, .comment, d⟩
  | language => intro _ _ sb g d; exact ⟨sb, g, .language, d⟩
  | «variable» v q =>
    intro _ o sb g d
    exact ⟨sb, g, .variable (d.valueAt (asks _ _ o .variable) v) (show' sb d o .variable v q), d⟩
  | reference e n1 n2 _ ih =>
    intro i _ sb g d
    obtain ⟨sb', g₁, r, d'⟩ := ih i trivial sb g d
    exact ⟨sb', g₁, .reference e n1 n2 r, d'⟩
  | referenceNone e n => intro _ _ sb g d; exact ⟨sb, g, .referenceNone e n, d⟩
  | referenceWith e n v q _ ih =>
    intro i o sb g d
    obtain ⟨sb', g₁, r, d'⟩ := ih i trivial sb g d
    exact ⟨sb', g₁, .referenceWith e n (d.valueAt (asks _ _ o (.reference e)) v) (d.ds q) r, d'⟩
  | referenceWithout e n v q _ ih =>
    intro i o sb g d
    obtain ⟨sb', g₁, r, d'⟩ := ih i trivial sb g d
    exact ⟨sb', g₁, .referenceWithout e n (d.valueAt (asks _ _ o (.reference e)) v) (fun a ha w => q a ha (d.flip.ds w)) r, d'⟩
  | referenceValue e v q _ ih =>
    intro i o sb g d
    obtain ⟨sb', g₁, r, d'⟩ := ih i trivial sb g d
    exact ⟨sb', g₁, .referenceValue e (d.valueAt (asks _ _ o (.referenceValue e)) v) (show' sb d o (.referenceValue e) v q) r, d'⟩
  | rangeNothing e n => intro _ _ sb g d; exact ⟨sb, g, .rangeNothing e n, d⟩
  | rangeEmpty e n v q _ ih =>
    intro i o sb g d
    obtain ⟨sb', g₁, r, d'⟩ := ih i trivial sb g d
    exact ⟨sb', g₁, .rangeEmpty e n (d.valueAt (asks _ _ o (.range e)) v) (fun c l hc w => q c l hc (d.flip.col w)) r, d'⟩
  | range e n v q ne _ ih =>
    intro i o sb g d
    obtain ⟨sb', g₁, r, d'⟩ := ih i (by simpa [Job.Of] using sb.short _ _ q) sb g d
    exact ⟨sb', g₁, .range e n (d.valueAt (asks _ _ o (.range e)) v) (d.col q) ne r, d'⟩
  | loopEnd => intro _ _ sb g d; exact ⟨sb, g, .loopEnd, d⟩
  | loop e _ _ ih1 ih2 =>
    intro i o sb g d
    simp only [Job.Of, List.length_cons] at o
    obtain ⟨g₁, e', d1⟩ := d.count (by omega) e
    obtain ⟨sb', g₂, r, d2⟩ := ih1 i trivial (sb.count (by omega) e) g₁ d1
    obtain ⟨sb2, g₃, r2, d3⟩ := ih2 i (by simp only [Job.Of]; omega) sb' g₂ d2
    exact ⟨sb2, g₃, .loop e' r r2, d3⟩
  | conditionNone e v q _ ih =>
    intro i o sb g d
    obtain ⟨sb', g₁, r, d'⟩ := ih i trivial sb g d
    rcases tested sb o e v with p | ⟨⟨a, rfl, ha⟩, _⟩
    · exact ⟨sb', g₁, .conditionNone e (d.valueAt (asks _ _ o (.condition e)) v) (shows_differ wf sb.same d.toDifferOnlyIn p v q) r, d'⟩
    · exact absurd rfl (shows_dataset_ne sb.wf ha q)
  | conditionNothing e v q ne n =>
    intro _ o sb g d
    rcases tested sb o e v with p | ⟨⟨a, rfl, ha⟩, nc⟩
    · exact ⟨sb, g, .conditionNothing e (d.valueAt (asks _ _ o (.condition e)) v) (shows_differ wf sb.same d.toDifferOnlyIn p v q) ne n, d⟩
    · obtain ⟨text, q, ne⟩ := d.prints nc x (d.ds ha)
      exact ⟨sb, g, .conditionNothing e (d.valueAt (asks _ _ o (.condition e)) v) q ne n, d⟩
  | conditionValue e v p q ne n _ ih =>
    intro i o sb g d
    obtain ⟨sb', g₁, r, d'⟩ := ih i trivial sb g d
    rcases tested sb o e v with pl | ⟨⟨a, rfl, ha⟩, _⟩
    · exact ⟨sb', g₁, .conditionValue e (d.valueAt (asks _ _ o (.condition e)) v) (fun a ha w => p a ha (d.flip.ds w)) (shows_differ wf sb.same d.toDifferOnlyIn pl v q) ne n r, d'⟩
    · exact absurd ha (p a rfl)
  | conditionDataset e v p n r _ ih =>
    intro i o sb g d
    obtain ⟨sb', g₁, r', d'⟩ := ih i trivial sb g d
    rcases tested sb o e v with pl | ⟨_, nc⟩
    · exact absurd p (pl _ rfl).1
    · obtain ⟨text, q, _⟩ := d'.prints nc x (((renders_shape r').isDataset _).2 (d.ds p))
      exact ⟨sb', g₁, .conditionDataset e (d.valueAt (asks _ _ o (.condition e)) v) (d.ds p) n r' q, d'⟩
  | dump e _ _ _ =>
    intro _ o sb g d
    rcases e with e | e
    · exact absurd e (hd _ o).1
    · exact absurd e (hd _ o).2
  | dumpEmpty e => intro _ _ sb g d; exact ⟨sb, g, .dumpEmpty e, d⟩
  | dumpNothing e => intro _ _ sb g d; exact ⟨sb, g, .dumpNothing e, d⟩
  | unknown e => intro _ _ sb g d; exact ⟨sb, g, .unknown e, d⟩

/-- The same for panics. -/
theorem breaks_differ {S : Type} {own : S → List Param} {look : S → Str → Option S} {x : Ext} {lang : Option Language.Lang} {E : Param → Prop} {I : S → Prop}
    (hown : ∀ c, I c → ∀ p ∈ own c, E p) (hlook : ∀ c v s, I c → look c v = some s → I s) {h₀ g₀ : Heap} (wf : WF h₀) {b : Nat} {k : Str}
    (asks : ∀ p key, E p → LooksUp p key → ¬ AsksFor key k)
    (texts : ∀ h₁, SameButCounters h₀ h₁ → ∀ p key c w, E p → TakesText p key → Has h₁ c key w → Plain h₁ w)
    (tests : ∀ h₁, SameButCounters h₀ h₁ → ∀ s key id c w, E ⟨.condition, s⟩ → Target s key id → Has h₁ c key w →
      Plain h₁ w ∨ (∃ a, w = .ptr a ∧ IsDataset h₁ a) ∧ NoCycles h₀ ∧ NoCycles g₀)
    (hd : ∀ s, E ⟨.dump, s⟩ → s ≠ b!"dump" ∧ s ≠ b!"list")
    {sc : S} {job : Job} {σ : Option (List Nat)} {h : Heap} (r : BreaksIn own look x lang sc job σ h) :
    I sc → job.Of E → Stage h₀ h → ∀ g, Twin g₀ h g b k → BreaksIn own look x lang sc job σ g := by
  have show' : ∀ {h g : Heap} {σ p key v s}, Stage h₀ h → Twin g₀ h g b k → E p → TakesText p key → ValueAt h σ key v → Shows x h v s → Shows x g v s :=
    fun sb d e q r => shows_differ wf sb.same d.toDifferOnlyIn (takes_plain texts sb.same e q r) r
  have tested : ∀ {h : Heap} {σ s key id v}, Stage h₀ h → E ⟨.condition, s⟩ → Target s key id → ValueAt h σ key v → Plain h v ∨ (∃ a, v = .ptr a ∧ IsDataset h a) ∧ NoCycles g₀ := by
    intro h σ s key id v sb e q r
    rcases valueAt_cases r with rfl | ⟨a, r⟩
    · exact Or.inl fun a q => by cases q
    · rcases tests h sb.same s key id a v e q r with p | ⟨p, _, nc⟩
      · exact Or.inl p
      · exact Or.inr ⟨p, nc⟩
  induction r with
  | nilElement => intro _ _ _ g _; exact .nilElement
  | dataForReference e n => intro _ _ _ g _; exact .dataForReference e n
  | dataForValue e => intro _ _ _ g _; exact .dataForValue e
  | document _ ih => intro i _ sb g d; exact .document (ih i (hown _ i) sb g d)
  | head _ ih => intro i o sb g d; exact .head (ih i (o _ (List.mem_cons_self ..)) sb g d)
  | tail r _ ih =>
    intro i o sb g d
    obtain ⟨sb', g₁, r, d'⟩ := renders_differ hown hlook wf asks texts tests hd r i (o _ (List.mem_cons_self ..)) sb g d
    exact .tail r (ih i (fun p hp => o p (List.mem_cons_of_mem _ hp)) sb' g₁ d')
  | chosen e _ ih =>
    intro i _ sb g d
    obtain ⟨v, _, ev⟩ := List.exists_of_findSome?_eq_some e
    exact .chosen e (ih (hlook _ _ _ i ev) trivial sb g d)
  | reference e n1 n2 _ ih => intro i _ sb g d; exact .reference e n1 n2 (ih i trivial sb g d)
  | referenceWith e n v q _ ih =>
    intro i o sb g d
    exact .referenceWith e n (d.valueAt (asks _ _ o (.reference e)) v) (d.ds q) (ih i trivial sb g d)
  | referenceWithout e n v q _ ih =>
    intro i o sb g d
    exact .referenceWithout e n (d.valueAt (asks _ _ o (.reference e)) v) (fun a ha w => q a ha (d.flip.ds w)) (ih i trivial sb g d)
  | referenceValue e v q _ ih =>
    intro i o sb g d
    exact .referenceValue e (d.valueAt (asks _ _ o (.referenceValue e)) v) (show' sb d o (.referenceValue e) v q) (ih i trivial sb g d)
  | rangeEmpty e n v q _ ih =>
    intro i o sb g d
    exact .rangeEmpty e n (d.valueAt (asks _ _ o (.range e)) v) (fun c l hc w => q c l hc (d.flip.col w)) (ih i trivial sb g d)
  | range e n v q _ ih =>
    intro i o sb g d
    exact .range e n (d.valueAt (asks _ _ o (.range e)) v) (d.col q) (ih i (by simpa [Job.Of] using sb.short _ _ q) sb g d)
  | loopItem e _ ih =>
    intro i o sb g d
    simp only [Job.Of, List.length_cons] at o
    obtain ⟨g₁, e', d1⟩ := d.count (by omega) e
    exact .loopItem e' (ih i trivial (sb.count (by omega) e) g₁ d1)
  | loopRest e r _ ih =>
    intro i o sb g d
    simp only [Job.Of, List.length_cons] at o
    obtain ⟨g₁, e', d1⟩ := d.count (by omega) e
    obtain ⟨sb', g₂, r, d2⟩ := renders_differ hown hlook wf asks texts tests hd r i trivial (sb.count (by omega) e) g₁ d1
    exact .loopRest e' r (ih i (by simp only [Job.Of]; omega) sb' g₂ d2)
  | conditionNone e v q _ ih =>
    intro i o sb g d
    rcases tested sb o e v with p | ⟨⟨a, rfl, ha⟩, _⟩
    · exact .conditionNone e (d.valueAt (asks _ _ o (.condition e)) v) (shows_differ wf sb.same d.toDifferOnlyIn p v q) (ih i trivial sb g d)
    · exact absurd rfl (shows_dataset_ne sb.wf ha q)
  | conditionValue e v p q ne n _ ih =>
    intro i o sb g d
    rcases tested sb o e v with pl | ⟨⟨a, rfl, ha⟩, _⟩
    · exact .conditionValue e (d.valueAt (asks _ _ o (.condition e)) v) (fun a ha w => p a ha (d.flip.ds w)) (shows_differ wf sb.same d.toDifferOnlyIn pl v q) ne n (ih i trivial sb g d)
    · exact absurd ha (p a rfl)
  | conditionDataset e v p n _ ih =>
    intro i o sb g d
    exact .conditionDataset e (d.valueAt (asks _ _ o (.condition e)) v) (d.ds p) n (ih i trivial sb g d)

theorem TakesText.looksUp {p : Param} {key : Str} (q : TakesText p key) : LooksUp p key := by
  cases q with
  | «variable» => exact .variable
  | referenceValue e => exact .referenceValue e

/-- Counters set in one of two memories that differ only in one entry may as well be set in the other. -/
theorem DifferOnlyIn.back {h g : Heap} {b : Nat} {k : Str} (d : DifferOnlyIn h g b k) (hl : g.length = h.length) {g₁ : Heap} (sb : SameButCounters g g₁) :
    ∃ h₁, SameButCounters h h₁ ∧ DifferOnlyIn h₁ g₁ b k := by
  obtain ⟨m, m', e, e', q⟩ := d.dataset
  have : ∃ m₁, g₁[b]? = some (.ds m₁) ∧ (∀ k, k ≠ b!".counter" → m₁.get k = m'.get k) ∧
      (m₁.get b!".counter" = m'.get b!".counter" ∨ ∃ i : Nat, m₁.get b!".counter" = some (.int .int i)) := by
    rcases sb.objects b with r | ⟨n, n', r, r', u, w⟩
    · exact ⟨m', by rw [r]; exact e', fun _ _ => rfl, Or.inl rfl⟩
    · rw [e'] at r; cases r
      exact ⟨n', r', u, w⟩
  obtain ⟨m₁, e₁, u, w⟩ := this
  have : ∃ o : AMap Val, (∀ k', k' ≠ k → o.get k' = m₁.get k') ∧ o.get k = m.get k := by
    cases gk : m.get k with
    | none => exact ⟨m₁.del k, fun k' n => by rw [AMap.get_del, if_neg n], by rw [AMap.get_del, if_pos rfl]⟩
    | some v => exact ⟨m₁.set k v, fun k' n => by rw [AMap.get_set, if_neg n], by rw [AMap.get_set, if_pos rfl]⟩
  obtain ⟨o, o1, o2⟩ := this
  have eo : (g₁.set b (.ds o))[b]? = some (.ds o) := List.getElem?_set_self (lt_of_getElem? e₁)
  refine ⟨g₁.set b (.ds o), ⟨by rw [List.length_set, sb.length, hl], fun c => ?_⟩, ⟨o, m₁, eo, e₁, fun k' n => (o1 k' n).symm⟩,
    fun c n => by rw [List.getElem?_set_ne (Ne.symm n)]⟩
  by_cases hc : c = b
  · subst hc
    refine Or.inr ⟨m, o, e, eo, fun k' n => ?_, ?_⟩
    · by_cases hkk : k' = k
      · rw [hkk]; exact o2
      · rw [o1 k' hkk, u k' n, q k' hkk]
    · by_cases hk : b!".counter" = k
      · rw [hk]; exact Or.inl o2
      · rw [o1 _ hk, ← q _ hk]; exact w
  · rw [List.getElem?_set_ne (Ne.symm hc), ← d.others c hc]
    exact sb.objects c

theorem Unseen.flip {th : THeap} {t : Nat} {h g : Heap} {b : Nat} {k : Str} (un : Unseen th t h g k) (d : DifferOnlyIn h g b k) (hl : g.length = h.length) : Unseen th t g h k where
  asks := un.asks
  texts g₁ sb p key c w e q r := by
    obtain ⟨h₁, sh, d₁⟩ := d.back hl sb
    exact d₁.plain (un.texts h₁ sh p key c w e q (d₁.flip.has (un.asks p key e q.looksUp) r))
  tests g₁ sb s key id c w e q r := by
    obtain ⟨h₁, sh, d₁⟩ := d.back hl sb
    rcases un.tests h₁ sh s key id c w e q (d₁.flip.has (un.asks _ key e (.condition q)) r) with p | ⟨⟨a, ea, ha⟩, n1, n2⟩
    · exact Or.inl (d₁.plain p)
    · exact Or.inr ⟨⟨a, ea, d₁.ds ha⟩, n2, n1⟩
  dump := un.dump
  language := un.language

theorem execute_differ {x : Ext} {th : THeap} {t : Nat} (hu : Usable th t) {h g : Heap} {data : Option Nat} (hp : Proper h data) (hg : Proper g data) {b : Nat} {k : Str}
    (un : Unseen th t h g k) (d : DifferOnlyIn h g b k) {n : Nat} {h₁ : Heap} {out : Str} (e : execute x th n t h data = .ok (h₁, out)) :
    ∃ m g₁, execute x th m t g data = .ok (g₁, out) ∧ DifferOnlyIn h₁ g₁ b k := by
  have ren : ∀ {lang σ}, RendersIn (elements th) (Template.seen th) x lang t .document σ h h₁ out →
      ∃ g₁, RendersIn (elements th) (Template.seen th) x lang t .document σ g g₁ out ∧ DifferOnlyIn h₁ g₁ b k := by
    intro lang σ r
    obtain ⟨_, g₁, r, d'⟩ := renders_differ (E := ElementOf th t) (I := Comes th t) (fun c i p m => ⟨c, i, m⟩) (fun c v s i e => i.trans ((hu.comes i).sub e)) hp.wf un.asks
      un.texts un.tests un.dump r .here trivial ⟨.refl h, hp.wf, hp.short⟩ g ⟨d, hg.wf, .refl g⟩
    exact ⟨g₁, r, d'.toDifferOnlyIn⟩
  have q := (execute_iff' hu.view hp).1 ⟨n, e⟩
  cases q with
  | data l r =>
    obtain ⟨g₁, r, d'⟩ := ren r
    obtain ⟨m, e⟩ := (execute_iff' hu.view hg).2 (.data (d.lang un.language l) r)
    exact ⟨m, g₁, e, d'⟩
  | nil r =>
    obtain ⟨g₁, r, d'⟩ := ren r
    obtain ⟨m, e⟩ := (execute_iff' hu.view hg).2 (.nil r)
    exact ⟨m, g₁, e, d'⟩

theorem execute_panic_differ {x : Ext} {th : THeap} {t : Nat} (hu : Usable th t) {h g : Heap} {data : Option Nat} (hp : Proper h data) (hg : Proper g data) {b : Nat} {k : Str}
    (un : Unseen th t h g k) (d : DifferOnlyIn h g b k) (e : ∃ n, execute x th n t h data = .panic) : ∃ m, execute x th m t g data = .panic := by
  have ren : ∀ {lang σ}, BreaksIn (elements th) (Template.seen th) x lang t .document σ h → BreaksIn (elements th) (Template.seen th) x lang t .document σ g := fun r =>
    breaks_differ (E := ElementOf th t) (I := Comes th t) (fun c i p m => ⟨c, i, m⟩) (fun c v s i e => i.trans ((hu.comes i).sub e)) hp.wf un.asks un.texts un.tests un.dump
      r .here trivial ⟨.refl h, hp.wf, hp.short⟩ g ⟨d, hg.wf, .refl g⟩
  have q := (execute_panic_iff' hu.view hp).1 e
  refine (execute_panic_iff' hu.view hg).2 ?_
  cases q with
  | data l r => exact .data (d.lang un.language l) (ren r)
  | nil r => exact .nil (ren r)

theorem differ_upd {h : Heap} {b : Nat} {k : Str} {m m' : AMap Val} (e : h[b]? = some (.ds m)) (g : ∀ k', k' ≠ k → m'.get k' = m.get k') :
    DifferOnlyIn h (h.set b (.ds m')) b k :=
  ⟨⟨m, m', e, List.getElem?_set_self (lt_of_getElem? e), g⟩, fun c n => by rw [List.getElem?_set_ne (Ne.symm n)]⟩

theorem differ_set {h h' : Heap} {a : Nat} {k : Str} {v : Val} (e : set h a k v = .ok h') : ∃ b, Wraps h a b ∧ DifferOnlyIn h h' b k := by
  simp only [Xcore.Dataset.set] at e
  split at e
  · cases e
  · rename_i t ht
    cases e
    obtain ⟨m, hm⟩ := target_ds ht
    refine ⟨t, targetN_wraps ht, differ_upd hm fun k' n => ?_⟩
    rw [entries_of hm, AMap.get_set, if_neg n]

theorem differ_del {h h' : Heap} {a : Nat} {k : Str} (e : del h a k = .ok h') : ∃ b, Wraps h a b ∧ DifferOnlyIn h h' b k := by
  simp only [Xcore.Dataset.del] at e
  split at e
  · cases e
  · rename_i t ht
    cases e
    obtain ⟨m, hm⟩ := target_ds ht
    refine ⟨t, targetN_wraps ht, differ_upd hm fun k' n => ?_⟩
    rw [entries_of hm, AMap.get_del, if_neg n]

theorem DifferOnlyIn.proper {h g : Heap} {b : Nat} {k : Str} (d : DifferOnlyIn h g b k) {data : Option Nat} (hp : Proper h data) (wf : WF g) : Proper g data :=
  ⟨wf, fun a e => hp.wrapped a (d.flip.obj (by simp) e), fun c l q => hp.short c l (d.flip.col q), fun a e => d.ds (hp.data a e)⟩

theorem set_length {h h' : Heap} {a : Nat} {k : Str} {v : Val} (e : set h a k v = .ok h') : h'.length = h.length := by
  simp only [Xcore.Dataset.set] at e
  split at e
  · cases e
  · cases e; simp

theorem del_length {h h' : Heap} {a : Nat} {k : Str} (e : del h a k = .ok h') : h'.length = h.length := by
  simp only [Xcore.Dataset.del] at e
  split at e
  · cases e
  · cases e; simp

end Xcore.Template
