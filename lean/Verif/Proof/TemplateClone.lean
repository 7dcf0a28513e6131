import Verif.Proof.TemplateLoad
import Verif.Proof.TemplateScope
import Verif.Proof.TemplateExec
import Verif.Proof.DatasetClone
import Verif.Proof.DatasetIndep
import Verif.Spec.TemplateClone

/-!
# Clones of templates

`org` gives for each address after cloning the original: it is the identity on old addresses and keeps roots, sub-templates and fathers.
-/

namespace Xcore.Template

open Xcore.Dataset (mapRes mapRes_cons_ok mapRes_total)

/-- `org` maps the templates of `th'` to those of `th` they are copies of; those in `P` have no sub-templates and no father yet. -/
structure Cov (th : THeap) (S : Nat → Prop) (th' : THeap) (org : Nat → Nat) (P : Nat → Prop) : Prop where
  len : th.length ≤ th'.length
  old : ∀ b, b < th.length → org b = b
  oldsubs : ∀ b, b < th.length → th'[b]?.map Tpl.subs = th[b]?.map Tpl.subs
  node : ∀ b o', th'[b]? = some o' → S (org b) → ∃ o, th[org b]? = some o ∧ o'.name = o.name ∧ o'.root = o.root ∧
    (¬ P b → (∀ v, ((o'.subs.getD []).get v).map org = (o.subs.getD []).get v) ∧ o'.father.map org = o.father ∧
      (∀ f, o'.father = some f → f < th'.length) ∧ ∀ v s, (o'.subs.getD []).get v = some s → s < th'.length)

theorem map_congr_org {o : Option Nat} {f g : Nat → Nat} (h : ∀ a, o = some a → f a = g a) : o.map f = o.map g := by
  cases o with
  | none => rfl
  | some a => simp [h a rfl]

theorem Family.lt {th : THeap} {S : Nat → Prop} (hS : Family th S) {a : Nat} (h : S a) : a < th.length := by
  obtain ⟨o, e, _⟩ := hS.obj a h
  exact (List.getElem?_eq_some_iff.1 e).1

/-- One more copy, without sub-templates and father. -/
theorem Cov.new {th : THeap} {S : Nat → Prop} {th' : THeap} {org : Nat → Nat} {P : Nat → Prop} (h : Cov th S th' org P) {t : Nat} {o' : Tpl} (ht : t < th.length)
    (hs : S t) (e : th'[t]? = some o') :
    Cov th S (th' ++ [⟨o'.name, o'.root, none, none⟩]) (fun b => if b = th'.length then t else org b) (fun b => P b ∨ b = th'.length) := by
  refine ⟨by simp; have := h.len; omega, fun b hb => ?_, fun b hb => ?_, fun b o1 e1 hb => ?_⟩
  · rw [if_neg (by have := h.len; omega)]; exact h.old b hb
  · rw [List.getElem?_append_left (by have := h.len; omega)]; exact h.oldsubs b hb
  · by_cases hbl : b = th'.length
    · subst hbl
      simp only [if_true] at hb ⊢
      simp at e1
      subst e1
      have horg := h.old t ht
      obtain ⟨o, q1, q2, q3, _⟩ := h.node t o' e (by rw [horg]; exact hs)
      rw [horg] at q1
      exact ⟨o, q1, q2, q3, fun hp => absurd (Or.inr trivial) hp⟩
    · have hlt : b < th'.length := by have := (List.getElem?_eq_some_iff.1 e1).1; simp at this; omega
      rw [List.getElem?_append_left hlt] at e1
      simp only [if_neg hbl] at hb ⊢
      obtain ⟨o, q1, q2, q3, q4⟩ := h.node b o1 e1 hb
      refine ⟨o, q1, q2, q3, fun hp => ?_⟩
      obtain ⟨r1, r2, r3, r4⟩ := q4 fun hp' => hp (Or.inl hp')
      refine ⟨fun v => ?_, ?_, fun f hf => by have := r3 f hf; simp; omega, fun v s hvs => by have := r4 v s hvs; simp; omega⟩
      · rw [← r1 v]; exact map_congr_org fun a ha => by rw [if_neg (by have := r4 v a ha; omega)]
      · rw [← r2]; exact map_congr_org fun a ha => by rw [if_neg (by have := r3 a ha; omega)]

/-- The father of an original is set to a copy of its father. -/
theorem Cov.setFather {th : THeap} {S : Nat → Prop} {th' : THeap} {org : Nat → Nat} {P : Nat → Prop} (h : Cov th S th' org P) {s c t : Nat} {os : Tpl}
    (hs : s < th.length) (es : th[s]? = some os) (hf : os.father = some t) (hc : c < th'.length) (hct : org c = t) :
    Cov th S (upd th' s fun o => { o with father := some c }) org P := by
  have hl : (upd th' s fun o => { o with father := some c }).length = th'.length := upd_length ..
  refine ⟨by rw [hl]; exact h.len, h.old, fun b hb => ?_, fun b o1 e1 hb => ?_⟩
  · rw [upd_get']
    split
    · next hbs =>
      subst hbs
      rw [← h.oldsubs b hb]
      cases th'[b]? <;> rfl
    · exact h.oldsubs b hb
  · rw [hl]
    rw [upd_get'] at e1
    split at e1
    · next hbs =>
      subst hbs
      cases e2 : th'[b]? with
      | none => rw [e2] at e1; cases e1
      | some o2 =>
        rw [e2] at e1
        cases e1
        obtain ⟨o, q1, q2, q3, q4⟩ := h.node b o2 e2 hb
        refine ⟨o, q1, q2, q3, fun hp => ?_⟩
        obtain ⟨r1, r2, r3, r4⟩ := q4 hp
        rw [h.old b hs] at q1
        rw [es] at q1
        cases q1
        exact ⟨r1, by simp [hct, hf], fun f e => by cases e; exact hc, r4⟩
    · exact h.node b o1 e1 hb

/-- A copy is finished. -/
theorem Cov.finish {th : THeap} {S : Nat → Prop} {th' : THeap} {org : Nat → Nat} {P : Nat → Prop} {c : Nat} (h : Cov th S th' org fun b => P b ∨ b = c)
    {t : Nat} {o : Tpl} (hc : th.length ≤ c) (e : th[t]? = some o) (hct : org c = t) {sb : Option (AMap Nat)} {f : Option Nat}
    (h1 : ∀ v, ((sb.getD []).get v).map org = (o.subs.getD []).get v) (h2 : f.map org = o.father) (h3 : ∀ a, f = some a → a < th'.length)
    (h4 : ∀ v s, (sb.getD []).get v = some s → s < th'.length) :
    Cov th S (upd th' c fun o' => { o' with subs := sb, father := f }) org P := by
  have hl : (upd th' c fun o' => { o' with subs := sb, father := f }).length = th'.length := upd_length ..
  refine ⟨by rw [hl]; exact h.len, h.old, fun b hb => ?_, fun b o1 e1 hb => ?_⟩
  · rw [upd_get', if_neg (by omega)]; exact h.oldsubs b hb
  · rw [hl]
    rw [upd_get'] at e1
    split at e1
    · next hbs =>
      subst hbs
      cases e2 : th'[b]? with
      | none => rw [e2] at e1; cases e1
      | some o2 =>
        rw [e2] at e1
        cases e1
        obtain ⟨o', q1, q2, q3, _⟩ := h.node b o2 e2 hb
        rw [hct, e] at q1
        cases q1
        rw [hct]
        exact ⟨o, e, q2, q3, fun _ => ⟨h1, h2, h3, h4⟩⟩
    · next hbc =>
      obtain ⟨o', q1, q2, q3, q4⟩ := h.node b o1 e1 hb
      exact ⟨o', q1, q2, q3, fun hp => q4 fun hp' => hp'.elim hp hbc⟩

/-- Setting keys that are distinct. -/
theorem foldl_set_get {V : Type} (l : List (Str × V)) : ∀ (m : AMap V), (l.map Prod.fst).Nodup → (∀ k ∈ l.map Prod.fst, m.get k = none) → ∀ v,
    (l.foldl (fun m p => m.set p.1 p.2) m : AMap V).get v = (AMap.get l v).or (m.get v) := by
  induction l with
  | nil => intro m _ _ v; rfl
  | cons p l ih =>
    intro m hn hk v
    rw [List.map_cons, List.nodup_cons] at hn
    rw [List.foldl_cons, ih _ hn.2]
    · rw [AMap.get_set]
      obtain ⟨k, w⟩ := p
      simp only [AMap.get]
      by_cases hv : v = k
      · subst hv
        have : AMap.get l v = none := by
          cases e : AMap.get l v with
          | none => rfl
          | some w => exact absurd (List.mem_map_of_mem (f := Prod.fst) (AMap.mem_of_get e)) hn.1
        simp [this]
      · simp [hv, Ne.symm hv]
    · intro k hkl
      rw [AMap.get_set]
      have : k ≠ p.1 := fun e => hn.1 (e ▸ hkl)
      simp [this, hk k (by simp [hkl])]

/-- Pairs with the same keys, and values that are copies. -/
def Copies (org : Nat → Nat) (n : Nat) : List (Str × Nat) → List (Str × Nat) → Prop
  | [], [] => True
  | p :: l, q :: m => q.1 = p.1 ∧ org q.2 = p.2 ∧ q.2 < n ∧ Copies org n l m
  | _, _ => False

theorem Copies.mono {org org' : Nat → Nat} {n n' : Nat} (h : ∀ b, b < n → org' b = org b) (hn : n ≤ n') : ∀ {l m : List (Str × Nat)}, Copies org n l m →
    Copies org' n' l m := by
  intro l
  induction l with
  | nil => intro m hc; cases m with
    | nil => trivial
    | cons => exact hc.elim
  | cons p l ih => intro m hc; cases m with
    | nil => exact hc.elim
    | cons q m => exact ⟨hc.1, (h _ hc.2.2.1).trans hc.2.1, by have := hc.2.2.1; omega, ih hc.2.2.2⟩

theorem Copies.keys {org : Nat → Nat} {n : Nat} : ∀ {l m : List (Str × Nat)}, Copies org n l m → m.map Prod.fst = l.map Prod.fst := by
  intro l
  induction l with
  | nil => intro m hc; cases m with
    | nil => rfl
    | cons => exact hc.elim
  | cons p l ih => intro m hc; cases m with
    | nil => exact hc.elim
    | cons q m => simp [hc.1, ih hc.2.2.2]

theorem Copies.get {org : Nat → Nat} {n : Nat} (v : Str) : ∀ {l m : List (Str × Nat)}, Copies org n l m → (AMap.get m v).map org = AMap.get l v ∧
    ∀ s, AMap.get m v = some s → s < n := by
  intro l
  induction l with
  | nil => intro m hc; cases m with
    | nil => exact ⟨rfl, by intro s e; cases e⟩
    | cons => exact hc.elim
  | cons p l ih => intro m hc; cases m with
    | nil => exact hc.elim
    | cons q m =>
      obtain ⟨k, a⟩ := p
      obtain ⟨k', b⟩ := q
      obtain ⟨h1, h2, h3, h4⟩ := hc
      simp only at h1 h2 h3
      subst h1
      simp only [AMap.get]
      split
      · exact ⟨by simp [h2], by intro s e; cases e; exact h3⟩
      · exact ih h4

theorem bind_father {th : THeap} {s t : Nat} (h : th[s]?.bind Tpl.father = some t) : ∃ o, th[s]? = some o ∧ o.father = some t := by
  cases e : th[s]? with
  | none => rw [e] at h; cases h
  | some o => rw [e] at h; exact ⟨o, rfl, h⟩

/-- The sub-templates of a template of the family. -/
theorem Family.subs {th : THeap} {S : Nat → Prop} (hS : Family th S) {t : Nat} {o : Tpl} {m : AMap Nat} (hs : S t) (e : th[t]? = some o) (em : o.subs = some m) :
    m.Nodup ∧ ∀ p ∈ m, S p.2 ∧ ∃ os, th[p.2]? = some os ∧ os.father = some t := by
  obtain ⟨o1, e1, hn, _⟩ := hS.obj t hs
  rw [e] at e1
  cases e1
  refine ⟨hn m em, fun p hp => ?_⟩
  have hr : Registered th t p.1 = some p.2 := by
    simp only [Registered, e, Option.bind_some, em, Option.getD_some]
    exact AMap.get_of_mem (hn m em) hp
  obtain ⟨h1, h2⟩ := hS.sub t p.1 p.2 hs hr
  exact ⟨h1, bind_father h2⟩

/-- `Clone` adds copies only. -/
theorem clone_cov {th : THeap} {S : Nat → Prop} (hS : Family th S) : ∀ (n : Nat) (th' : THeap) (org : Nat → Nat) (P : Nat → Prop) (t : Nat) (th'' : THeap) (c : Nat),
    Cov th S th' org P → S t → (∀ b, P b → th.length ≤ b) → clone n th' t = .ok (th'', c) →
    c = th'.length ∧ ∃ org', (∀ b, b < th'.length → org' b = org b) ∧ Cov th S th'' org' P ∧ c < th''.length ∧ org' c = t := by
  intro n
  induction n with
  | zero => intro th' org P t th'' c _ _ _ e; cases e
  | succ n ih =>
    intro th' org P t th'' c hc hs hP e
    have htl : t < th.length := hS.lt hs
    have hlen := hc.len
    simp only [clone] at e
    cases eo : th'[t]? with
    | none => rw [List.getElem?_eq_none_iff] at eo; omega
    | some o' =>
      rw [eo] at e
      simp only at e
      have hnew := hc.new htl hs eo
      have horgt := hc.old t htl
      obtain ⟨o, q1, q2, q3, q4⟩ := hc.node t o' eo (by rw [horgt]; exact hs)
      rw [horgt] at q1
      obtain ⟨r1, r2, r3, r4⟩ := q4 fun hp => by have := hP t hp; omega
      have hsubs : o'.subs = o.subs := by have := hc.oldsubs t htl; rw [eo, q1] at this; simpa using this
      generalize hth1 : th' ++ [(⟨o'.name, o'.root, none, none⟩ : Tpl)] = th1 at e hnew
      have hl1 : th1.length = th'.length + 1 := by rw [← hth1]; simp
      generalize horg1 : (fun b => if b = th'.length then t else org b) = org1 at hnew
      have hc1 : org1 th'.length = t := by rw [← horg1]; simp
      have hext1 : ∀ b, b < th'.length → org1 b = org b := fun b hb => by rw [← horg1]; simp only; rw [if_neg (by omega)]
      have hP1 : ∀ b, (P b ∨ b = th'.length) → th.length ≤ b := fun b hb => hb.elim (hP b) (fun e => by omega)
      cases em : o'.subs with
      | none =>
        rw [em] at e
        cases e
        refine ⟨rfl, org1, hext1, ?_, by rw [upd_length]; omega, hc1⟩
        have : (fun (o1 : Tpl) => { o1 with father := o'.father }) = fun o1 => { o1 with father := o'.father } := rfl
        have hf := hnew.finish (sb := none) (f := o'.father) hlen q1 hc1 (fun v => by rw [← hsubs, em]; rfl)
          (by rw [← r2]; exact map_congr_org fun a ha => hext1 a (r3 a ha)) (fun a ha => by have := r3 a ha; omega) (fun v s e => by cases e)
        have heq : (upd th1 th'.length fun o1 => { o1 with father := o'.father }) = upd th1 th'.length fun o1 => { o1 with subs := none, father := o'.father } := by
          have : th1[th'.length]? = some ⟨o'.name, o'.root, none, none⟩ := by rw [← hth1]; simp
          unfold upd
          rw [this]
        rw [heq]
        exact hf
      | some m =>
        rw [em] at e
        simp only at e
        obtain ⟨hmn, hmem⟩ := hS.subs hs q1 (by rw [← hsubs]; exact em)
        -- the loop over the sub-templates
        have loop : ∀ (m : List (Str × Nat)), (∀ p ∈ m, S p.2 ∧ ∃ os, th[p.2]? = some os ∧ os.father = some t) → ∀ (tha : THeap) (orga : Nat → Nat),
            Cov th S tha orga (fun b => P b ∨ b = th'.length) → th'.length < tha.length → orga th'.length = t → ∀ (thb : THeap) (l : List (Str × Nat)),
            mapRes (fun th (p : Str × Nat) => (clone n th p.2).map fun q => (upd q.1 p.2 fun o' => { o' with father := some th'.length }, (p.1, q.2))) tha m = .ok (thb, l) →
            ∃ orgb, (∀ b, b < tha.length → orgb b = orga b) ∧ Cov th S thb orgb (fun b => P b ∨ b = th'.length) ∧ tha.length ≤ thb.length ∧ Copies orgb thb.length m l := by
          intro m
          induction m with
          | nil =>
            intro _ tha orga ha _ _ thb l el
            cases el
            exact ⟨orga, fun _ _ => rfl, ha, Nat.le_refl _, trivial⟩
          | cons p m ihm =>
            intro hp tha orga ha hlt horg thb l el
            obtain ⟨th1, b, bs, e1, e2, rfl⟩ := mapRes_cons_ok.1 el
            obtain ⟨hsp, os, hos, hof⟩ := hp p (by simp)
            cases e3 : clone n tha p.2 with
            | panic => rw [e3] at e1; cases e1
            | diverge => rw [e3] at e1; cases e1
            | ok q =>
              rw [e3] at e1
              cases e1
              obtain ⟨thc, c⟩ := q
              obtain ⟨k1, orgc, k2, k3, k4, k5⟩ := ih tha orga _ p.2 thc c ha hsp hP1 e3
              have hlc : tha.length ≤ thc.length := by omega
              have hset := k3.setFather (c := th'.length) (hS.lt hsp) hos hof (by omega) (by rw [k2 _ hlt]; exact horg)
              obtain ⟨orgb, j1, j2, j3, j4⟩ := ihm (fun p hp' => hp p (by simp [hp'])) _ orgc hset (by rw [upd_length]; omega) (by rw [k2 _ hlt]; exact horg) thb bs e2
              rw [upd_length] at j1 j3
              refine ⟨orgb, fun b hb => by rw [j1 b (by omega), k2 b hb], j2, by omega, rfl, ?_, ?_, j4⟩
              · simp only; rw [j1 c k4]; exact k5
              · simp only; omega
        cases e2 : mapRes (fun th (p : Str × Nat) => (clone n th p.2).map fun q => (upd q.1 p.2 fun o' => { o' with father := some th'.length }, (p.1, q.2))) th1 m with
        | panic => rw [e2] at e; cases e
        | diverge => rw [e2] at e; cases e
        | ok r =>
          obtain ⟨thb, l⟩ := r
          rw [e2] at e
          simp only [Res.bind_ok] at e
          cases e
          obtain ⟨orgb, j1, j2, j3, j4⟩ := loop m hmem th1 org1 hnew (by omega) hc1 thb l e2
          have hcb : orgb th'.length = t := by rw [j1 _ (by omega)]; exact hc1
          refine ⟨rfl, orgb, fun b hb => by rw [j1 b (by omega)]; exact hext1 b hb, ?_, by rw [upd_length]; omega, hcb⟩
          -- the template itself, with a father that may have been replaced by a copy
          have htb : t < thb.length := by omega
          obtain ⟨ob, eb⟩ : ∃ ob, thb[t]? = some ob := ⟨_, List.getElem?_eq_getElem htb⟩
          have hotb := j2.old t htl
          obtain ⟨o2, p1, _, _, p4⟩ := j2.node t ob eb (by rw [hotb]; exact hs)
          rw [hotb, q1] at p1
          cases p1
          obtain ⟨s1, s2, s3, s4⟩ := p4 fun hp => by have := hP1 t hp; omega
          have hkeys := j4.keys
          have hget : ∀ v, (l.foldl (fun m p => m.set p.1 p.2) [] : AMap Nat).get v = AMap.get l v := by
            intro v
            rw [foldl_set_get l [] (by rw [hkeys]; exact hmn) (fun k _ => rfl)]
            simp
          rw [eb]
          simp only [Option.bind_some]
          refine j2.finish hlen q1 hcb (fun v => ?_) s2 s3 (fun v s e => ?_)
          · simp only [Option.getD_some]
            rw [hget, (j4.get v).1, ← hsubs, em]
            rfl
          · simp only [Option.getD_some] at e
            rw [hget] at e
            exact (j4.get v).2 s e

/-! ## Cloning ends -/

theorem cov_refl {th : THeap} {S : Nat → Prop} (hS : Family th S) : Cov th S th id fun _ => False := by
  refine ⟨Nat.le_refl _, fun _ _ => rfl, fun _ _ => rfl, fun b o' e hb => ⟨o', e, rfl, rfl, fun _ => ⟨by simp, by simp, fun f hf => ?_, fun v s hv => ?_⟩⟩⟩
  · obtain ⟨o, e1, _, h⟩ := hS.obj b hb
    rw [show th[b]? = some o' from e] at e1
    cases e1
    exact hS.lt (h f hf)
  · exact hS.lt (hS.sub b v s hb (by simp only [Registered]; rw [show th[b]? = some o' from e]; exact hv)).1

theorem clone_total {th : THeap} {S : Nat → Prop} (hS : Family th S) : ∀ (n : Nat) (t : Nat) (l : List Nat), S t → Chain th t l → th.length < n + l.length →
    ∀ (th' : THeap) (org : Nat → Nat) (P : Nat → Prop), Cov th S th' org P → (∀ b, P b → th.length ≤ b) → ∃ th'' c, clone n th' t = .ok (th'', c) := by
  intro n
  induction n with
  | zero => intro t l _ hl h; have := hl.length_le; omega
  | succ n ih =>
    intro t l hs hl hn th' org P hc hP
    have htl : t < th.length := hS.lt hs
    have hlen := hc.len
    obtain ⟨o', eo⟩ : ∃ o', th'[t]? = some o' := ⟨_, List.getElem?_eq_getElem (by omega)⟩
    have hnew := hc.new htl hs eo
    have horgt := hc.old t htl
    obtain ⟨o, q1, _⟩ := hc.node t o' eo (by rw [horgt]; exact hs)
    rw [horgt] at q1
    have hsubs : o'.subs = o.subs := by have := hc.oldsubs t htl; rw [eo, q1] at this; simpa using this
    simp only [clone, eo]
    cases em : o'.subs with
    | none => exact ⟨_, _, rfl⟩
    | some m =>
      simp only
      obtain ⟨_, hmem⟩ := hS.subs hs q1 (by rw [← hsubs]; exact em)
      have hP1 : ∀ b, (P b ∨ b = th'.length) → th.length ≤ b := fun b hb => hb.elim (hP b) (fun e => by omega)
      obtain ⟨thb, bs, e, _⟩ := mapRes_total (l := m)
        (f := fun th (p : Str × Nat) => (clone n th p.2).map fun q => (upd q.1 p.2 fun o' => { o' with father := some th'.length }, (p.1, q.2)))
        (I := fun tha => ∃ orga, Cov th S tha orga (fun b => P b ∨ b = th'.length) ∧ th'.length < tha.length ∧ orga th'.length = t)
        (by
          rintro p hp tha ⟨orga, ha, hlt, horg⟩
          obtain ⟨hsp, os, hos, hof⟩ := hmem p hp
          obtain ⟨thc, c, e⟩ := ih p.2 (p.2 :: l) hsp (.sub hos hof hl) (by simp; omega) tha orga _ ha hP1
          obtain ⟨k1, orgc, k2, k3, k4, k5⟩ := clone_cov hS n tha orga _ p.2 thc c ha hsp hP1 e
          refine ⟨_, _, by simp only [e]; rfl, orgc, k3.setFather (hS.lt hsp) hos hof (by omega) (by rw [k2 _ hlt]; exact horg), by rw [upd_length]; omega, by rw [k2 _ hlt]; exact horg⟩)
        (th' ++ [⟨o'.name, o'.root, none, none⟩]) ⟨_, hnew, by simp, by simp⟩
      rw [e]
      exact ⟨_, _, rfl⟩

/-! ## Rendering clones -/

theorem cov_chain {th : THeap} {S : Nat → Prop} (hS : Family th S) {th' : THeap} {org : Nat → Nat} (hc : Cov th S th' org fun _ => False) {a : Nat} {l : List Nat}
    (h : Chain th a l) : ∀ b, b < th'.length → org b = a → S a → ∃ l', Chain th' b l' ∧ (∀ c ∈ l', c < th'.length ∧ S (org c)) ∧ l'.map org = l := by
  induction h with
  | @top a o e f =>
    rintro b hb rfl hs
    obtain ⟨o', eb⟩ : ∃ o', th'[b]? = some o' := ⟨_, List.getElem?_eq_getElem hb⟩
    obtain ⟨o2, q1, _, _, q4⟩ := hc.node b o' eb hs
    rw [e] at q1
    cases q1
    obtain ⟨_, r2, _⟩ := q4 id
    rw [f] at r2
    have : o'.father = none := by cases h : o'.father with
      | none => rfl
      | some g => rw [h] at r2; cases r2
    exact ⟨[b], .top eb this, by simp; exact ⟨hb, hs⟩, rfl⟩
  | @sub a g o l e f _ ih =>
    rintro b hb rfl hs
    obtain ⟨o', eb⟩ : ∃ o', th'[b]? = some o' := ⟨_, List.getElem?_eq_getElem hb⟩
    obtain ⟨o2, q1, _, _, q4⟩ := hc.node b o' eb hs
    rw [e] at q1
    cases q1
    obtain ⟨_, r2, r3, _⟩ := q4 id
    rw [f] at r2
    cases h : o'.father with
    | none => rw [h] at r2; cases r2
    | some g' =>
      rw [h] at r2
      simp only [Option.map_some, Option.some.injEq] at r2
      obtain ⟨o3, e3, _, hf3⟩ := hS.obj _ hs
      rw [e] at e3
      cases e3
      obtain ⟨l', h1, h2, h3⟩ := ih g' (r3 g' h) r2 (hf3 g f)
      refine ⟨b :: l', .sub eb h h1, ?_, by simp [h3]⟩
      intro c hcm
      rcases List.mem_cons.1 hcm with rfl | hcm
      · exact ⟨hb, hs⟩
      · exact h2 c hcm

theorem cov_sim {th : THeap} {S : Nat → Prop} (hS : Family th S) {th' : THeap} {org : Nat → Nat} (hc : Cov th S th' org fun _ => False) :
    Sim th th' fun a b => b < th'.length ∧ org b = a ∧ S a := by
  constructor
  · rintro a b ⟨hb, rfl, hs⟩
    obtain ⟨o', eb⟩ : ∃ o', th'[b]? = some o' := ⟨_, List.getElem?_eq_getElem hb⟩
    obtain ⟨o, q1, _, q3, _⟩ := hc.node b o' eb hs
    rw [q1, eb]
    simp [q3]
  · rintro a b o root p ⟨hb, horg, hs⟩ _ _ _ v _
    obtain ⟨l, hl⟩ := hS.chain a hs
    obtain ⟨l', hl', hin, rfl⟩ := cov_chain hS hc hl b hb horg hs
    rw [getTemplate_chain hl, getTemplate_chain hl']
    refine .ok ?_
    clear hl hl' hs horg hb
    induction l' with
    | nil => exact .none
    | cons c l' ih =>
      simp only [List.map_cons, List.findSome?_cons]
      obtain ⟨hcl, hcs⟩ := hin c (by simp)
      obtain ⟨o', eb⟩ : ∃ o', th'[c]? = some o' := ⟨_, List.getElem?_eq_getElem hcl⟩
      obtain ⟨o, q1, _, _, q4⟩ := hc.node c o' eb hcs
      obtain ⟨r1, _, _, r4⟩ := q4 id
      have hr : Registered th (org c) v = (Registered th' c v).map org := by
        simp only [Registered, q1, eb, Option.bind_some]
        exact (r1 v).symm
      rw [hr]
      cases hv : Registered th' c v with
      | none => exact ih fun c hc => hin c (by simp [hc])
      | some s =>
        rw [hv] at hr
        refine .some ⟨r4 v s ?_, rfl, (hS.sub _ v _ hcs hr).1⟩
        simpa [Registered, eb] using hv

end Xcore.Template
