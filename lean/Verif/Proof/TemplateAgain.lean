import Verif.Proof.TemplateTotal
import Verif.Proof.TemplateElem

/-!
# Rendering again

Two memories that differ only in the counters that earlier loops have left: the same text, and again two such memories.
-/

namespace Xcore.Template

open Xcore.Dataset

/-! ## Memory -/

theorem SameButCounters.refl (h : Heap) : SameButCounters h h := ⟨rfl, fun _ => Or.inl rfl⟩

theorem SameButCounters.trans {h1 h2 h3 : Heap} (a : SameButCounters h1 h2) (b : SameButCounters h2 h3) : SameButCounters h1 h3 := by
  refine ⟨b.length.trans a.length, fun k => ?_⟩
  rcases b.objects k with e | ⟨m2, m3, e2, e3, hk, hi⟩
  · rw [e]; exact a.objects k
  · rcases a.objects k with e | ⟨m1, m2', e1, e2', hk', hi'⟩
    · exact Or.inr ⟨m2, m3, by rw [← e]; exact e2, e3, hk, hi⟩
    · rw [e2] at e2'
      cases e2'
      refine Or.inr ⟨m1, m3, e1, e3, fun k hne => (hk k hne).trans (hk' k hne), ?_⟩
      rcases hi with hi | hi
      · rw [hi]; exact hi'
      · exact Or.inr hi

theorem OnlyCounters.same {h h' : Heap} (o : OnlyCounters h h') : SameButCounters h h' := by
  refine ⟨o.length, fun b => ?_⟩
  rcases o.objects b with e | ⟨m, m', e1, e2, hk, hi, _⟩
  · exact Or.inl e
  · exact Or.inr ⟨m, m', e1, e2, hk, Or.inr hi⟩

theorem SameButCounters.shape {h h' : Heap} (s : SameButCounters h h') (wf' : WF h') : Shape h h' := by
  have ds : ∀ b : Nat, (∃ m, h'[b]? = some (.ds m)) ↔ ∃ m, h[b]? = some (.ds m) := by
    intro b
    rcases s.objects b with e | ⟨m, m', e1, e2, _⟩
    · rw [e]
    · exact ⟨fun _ => ⟨m, e1⟩, fun _ => ⟨m', e2⟩⟩
  have other : ∀ (b : Nat) (o : Obj), (∀ m, o ≠ .ds m) → (h'[b]? = some o ↔ h[b]? = some o) := by
    intro b o ho
    rcases s.objects b with e | ⟨m, m', e1, e2, _⟩
    · rw [e]
    · rw [e1, e2]
      constructor <;> intro q <;> cases q
      · exact absurd rfl (ho m')
      · exact absurd rfl (ho m)
  have entry : ∀ {b : Nat} {m' : AMap Val} {k : Str} {v : Val}, h'[b]? = some (.ds m') → (k, v) ∈ m' → (∀ i, v ≠ .int .int i) →
      ∃ m, h[b]? = some (.ds m) ∧ (k, v) ∈ m := by
    intro b m' k v hm hk hv
    rcases s.objects b with e | ⟨m, m1, e1, e2, hne, hi⟩
    · exact ⟨m', by rw [← e]; exact hm, hk⟩
    · rw [hm] at e2
      cases e2
      have hg := AMap.get_of_mem (wf'.nodup b m' hm) hk
      refine ⟨m, e1, AMap.mem_of_get ?_⟩
      by_cases hc : k = b!".counter"
      · subst hc
        rcases hi with hi | ⟨i, hi⟩
        · rw [← hi]; exact hg
        · rw [hg] at hi; cases hi; exact absurd rfl (hv i)
      · rw [← hne k hc]; exact hg
  refine ⟨s.length, other, ds, fun b c r => ?_⟩
  cases r with
  | ptr hm hk => obtain ⟨m, hm, hk⟩ := entry hm hk (by simp); exact .ptr hm hk
  | slice hm hk => obtain ⟨m, hm, hk⟩ := entry hm hk (by simp); exact .slice hm hk
  | wrapped hb => exact .wrapped ((other _ _ (by simp)).1 hb)
  | elem hc he =>
    refine .elem ?_ he
    rcases hc with hc | hc
    · exact Or.inl ((other _ _ (by simp)).1 hc)
    · exact Or.inr ((other _ _ (by simp)).1 hc)

theorem SameButCounters.entry {h h' : Heap} (s : SameButCounters h h') (sh : Shape h h') {a : Nat} {k : Str} {v : Val} (hk : k ≠ b!".counter") :
    Entry h' a k v ↔ Entry h a k v := by
  constructor
  · rintro ⟨t, m', w, hm, hg⟩
    have w' := (sh.wraps a t).1 w
    rcases s.objects t with e | ⟨m, m1, e1, e2, hne, _⟩
    · exact ⟨t, m', w', by rw [← e]; exact hm, hg⟩
    · rw [hm] at e2; cases e2
      exact ⟨t, m, w', e1, by rw [← hne k hk]; exact hg⟩
  · rintro ⟨t, m, w, hm, hg⟩
    have w' := (sh.wraps a t).2 w
    rcases s.objects t with e | ⟨m1, m', e1, e2, hne, _⟩
    · exact ⟨t, m, w', by rw [e]; exact hm, hg⟩
    · rw [hm] at e1; cases e1
      exact ⟨t, m', w', e2, by rw [hne k hk]; exact hg⟩

theorem Shape.plain {h h' : Heap} (sh : Shape h h') (v : Val) : Plain h' v ↔ Plain h v := by
  unfold Plain
  simp only [sh.isDataset, sh.isCollection]

/-- A walk that meets no counter is the same wherever the entries other than counters are. -/
theorem leads_map {h k : Heap} (he : ∀ {a : Nat} {s : Str} {v : Val}, s ≠ b!".counter" → Entry h a s v → Entry k a s v)
    (hd : ∀ a, IsDataset h a → IsDataset k a) (hc : ∀ a l, IsCollection h a l → IsCollection k a l) (hp : ∀ v, Plain h v → Plain k v)
    {a : Nat} {l : List Str} {v : Val} (r : Leads h a l v) : b!".counter" ∉ l → Leads k a l v := by
  induction r with
  | entry e => intro hn; simp only [List.mem_singleton] at hn; exact .entry (he (fun q => hn q.symm) e)
  | dataset e hb _ ih =>
    intro hn
    simp only [List.mem_cons, not_or] at hn ih
    exact .dataset (he (fun q => hn.1 q.symm) e) (hd _ hb) (ih ⟨hn.2.1, hn.2.2⟩)
  | element e hcl hi hl =>
    intro hn
    simp only [List.mem_cons, not_or] at hn
    exact .element (he (fun q => hn.1 q.symm) e) (hc _ _ hcl) hi hl
  | through e hcl hi hl _ ih =>
    intro hn
    simp only [List.mem_cons, not_or] at hn ih
    exact .through (he (fun q => hn.1 q.symm) e) (hc _ _ hcl) hi hl (ih ⟨hn.2.2.1, hn.2.2.2⟩)
  | @literal a s s2 rest w v e hw e2 =>
    intro hn
    simp only [List.mem_cons, not_or] at hn
    refine .literal (he (fun q => hn.1 q.symm) e) (hp _ hw) (he ?_ e2)
    intro q
    have : (62 : UInt8) ∈ join b!">" (s :: s2 :: rest) := by
      simp [join]
    rw [q] at this
    revert this
    decide

theorem SameButCounters.has {h h' : Heap} (s : SameButCounters h h') (sh : Shape h h') {a : Nat} {path : Str} (hn : NoCounter path) (v : Val) :
    Has h' a path v ↔ Has h a path v :=
  ⟨fun r => leads_map (fun hk => (s.entry sh hk).1) (fun a => (sh.isDataset a).1) (fun a l => (sh.isCollection a l).1) (fun v => (Shape.plain sh v).1) r hn,
   fun r => leads_map (fun hk => (s.entry sh hk).2) (fun a => (sh.isDataset a).2) (fun a l => (sh.isCollection a l).2) (fun v => (Shape.plain sh v).2) r hn⟩

theorem SameButCounters.valueAt {h h' : Heap} (s : SameButCounters h h') (sh : Shape h h') {σ : Option (List Nat)} {path : Str} (hn : NoCounter path)
    (v : Val) : ValueAt h' σ path v ↔ ValueAt h σ path v := by
  constructor
  · intro r
    induction r with
    | here q => exact .here ((s.has sh hn _).1 q)
    | outer q _ ih => exact .outer (fun w hw => q w ((s.has sh hn w).2 hw)) (ih hn)
    | missing => exact .missing
    | noData => exact .noData
  · intro r
    induction r with
    | here q => exact .here ((s.has sh hn _).2 q)
    | outer q _ ih => exact .outer (fun w hw => q w ((s.has sh hn w).1 hw)) (ih hn)
    | missing => exact .missing
    | noData => exact .noData

theorem shows_plain {x : Ext} {h h' : Heap} (sh : Shape h h') {v : Val} (hv : Plain h v) (s : Str) : Shows x h' v s ↔ Shows x h v s := by
  unfold Shows
  refine or_congr Iff.rfl (and_congr Iff.rfl (exists_congr fun n => ?_))
  cases n with
  | zero => simp [Prints]
  | succ n =>
    cases v with
    | ptr b =>
      obtain ⟨h1, h2⟩ := hv b rfl
      have h1' := fun q => h1 ((sh.isDataset b).1 q)
      have h2' := fun l q => h2 l ((sh.isCollection b l).1 q)
      have key : ∀ l, h'[b]? = some (.lang l) ↔ h[b]? = some (.lang l) := sh.lang b
      simp only [Prints]
      cases e : h[b]? with
      | none =>
        have : h'[b]? = none := by rw [List.getElem?_eq_none_iff] at e ⊢; rw [sh.len]; exact e
        rw [this]
      | some o =>
        cases o with
        | ds m => exact absurd (Or.inl ⟨m, e⟩) h1
        | dsTS i => exact absurd (Or.inr ⟨i, e⟩) h1
        | col l => exact absurd (Or.inl e) (h2 l)
        | colTS l => exact absurd (Or.inr e) (h2 l)
        | lang l => rw [(sh.other b (.lang l) (by simp)).2 e]
        | slice l => rw [(sh.other b (.slice l) (by simp)).2 e]
    | slice k b =>
      simp only [Prints]
      cases e : h[b]? with
      | none =>
        have : h'[b]? = none := by rw [List.getElem?_eq_none_iff] at e ⊢; rw [sh.len]; exact e
        rw [this]
      | some o =>
        by_cases hd : ∃ m, o = .ds m
        · obtain ⟨m, rfl⟩ := hd
          obtain ⟨m', e'⟩ := (sh.ds b).2 ⟨m, e⟩
          rw [e']
        · rw [(sh.other b o (fun m q => hd ⟨m, q⟩)).2 e]
    | _ => simp only [Prints]

/-- Setting the same counter in both memories. -/
theorem SameButCounters.set {h k : Heap} (s : SameButCounters h k) (sh : Shape h k) {a : Nat} {i : Int} {h' : Heap} (e : SetCounter h a i h') :
    ∃ k', SetCounter k a i k' ∧ SameButCounters h' k' := by
  obtain ⟨t, m, w, hm, rfl⟩ := e
  have wk := (sh.wraps a t).2 w
  obtain ⟨mk, hmk⟩ := (sh.ds t).2 ⟨m, hm⟩
  refine ⟨_, ⟨t, mk, wk, hmk, rfl⟩, by simp [s.length], fun b => ?_⟩
  rw [List.getElem?_set, List.getElem?_set]
  by_cases hb : t = b
  · subst hb
    refine Or.inr ⟨m.set b!".counter" (.int .int i), mk.set b!".counter" (.int .int i), by simp [lt_of_getElem? hm], by simp [lt_of_getElem? hmk], ?_, ?_⟩
    · intro q hq
      rw [AMap.get_set_ne _ _ hq, AMap.get_set_ne _ _ hq]
      rcases s.objects t with e | ⟨m1, m2, e1, e2, hne, _⟩
      · rw [hm, hmk] at e; cases e; rfl
      · rw [hm] at e1; rw [hmk] at e2; cases e1; cases e2; exact hne q hq
    · rw [AMap.get_set_self, AMap.get_set_self]; exact Or.inl rfl
  · rw [if_neg hb, if_neg hb]
    exact s.objects b

theorem same_counter {h h' : Heap} {a i : Nat} (e : SetCounter h a ((i : Int) + 1) h') : SameButCounters h h' := by
  obtain ⟨t, m, w, hm, rfl⟩ := e
  refine ⟨by simp, fun b => ?_⟩
  rw [List.getElem?_set]
  by_cases hb : t = b
  · subst hb
    exact Or.inr ⟨m, m.set b!".counter" (.int .int ((i : Int) + 1)), hm, by simp [lt_of_getElem? hm], fun k hk => AMap.get_set_ne m _ hk,
      Or.inr ⟨i + 1, by rw [AMap.get_set_self]; simp⟩⟩
  · rw [if_neg hb]; exact Or.inl rfl

theorem renders_sameButCounters {x : Ext} {lang : Option Language.Lang} {sc : List Doc} {job : Job} {σ : Option (List Nat)} {h h' : Heap} {s : Str}
    (r : Renders x lang sc job σ h h' s) : SameButCounters h h' := by
  induction r with
  | document _ ih => exact ih
  | cons _ _ ih1 ih2 => exact ih1.trans ih2
  | chosen _ _ ih => exact ih
  | reference _ _ _ _ ih => exact ih
  | referenceWith _ _ _ _ _ ih => exact ih
  | referenceWithout _ _ _ _ _ ih => exact ih
  | referenceValue _ _ _ _ ih => exact ih
  | rangeEmpty _ _ _ _ _ ih => exact ih
  | range _ _ _ _ _ _ ih => exact ih
  | loop hc _ _ ih1 ih2 => exact ((same_counter hc).trans ih1).trans ih2
  | conditionNone _ _ _ _ ih => exact ih
  | conditionValue _ _ _ _ _ _ _ ih => exact ih
  | conditionDataset _ _ _ _ _ _ ih => exact ih
  | _ => exact .refl _

/-! ## Rows -/

/-- The dataset has the same counter in both memories. -/
def Pinned (h k : Heap) (b : Nat) : Prop := ∃ i : Nat, Entry h b b!".counter" (.int .int i) ∧ Entry k b b!".counter" (.int .int i)

theorem entry_counter {h h' : Heap} {a b : Nat} {i : Int} (e : SetCounter h a i h') {t t' : Nat} (w : Wraps h a t) (w' : Wraps h b t') (v : Val) :
    Entry h' b b!".counter" v ↔ if t' = t then v = .int .int i else Entry h b b!".counter" v := by
  have sh := shape_counter e
  obtain ⟨t1, m, w1, hm, rfl⟩ := e
  cases wraps_unique w w1
  split
  · next q =>
    subst q
    constructor
    · rintro ⟨t2, m2, w2, hm2, hg⟩
      cases wraps_unique ((sh.wraps _ _).1 w2) w'
      rw [List.getElem?_set, if_pos rfl, if_pos (lt_of_getElem? hm)] at hm2
      cases hm2
      rw [AMap.get_set_self] at hg
      cases hg; rfl
    · rintro rfl
      exact ⟨t', _, (sh.wraps _ _).2 w', by rw [List.getElem?_set, if_pos rfl, if_pos (lt_of_getElem? hm)], AMap.get_set_self ..⟩
  · next q =>
    constructor
    · rintro ⟨t2, m2, w2, hm2, hg⟩
      cases wraps_unique ((sh.wraps _ _).1 w2) w'
      rw [List.getElem?_set, if_neg (fun e => q e.symm)] at hm2
      exact ⟨t', m2, w', hm2, hg⟩
    · rintro ⟨t2, m2, w2, hm2, hg⟩
      cases wraps_unique w2 w'
      exact ⟨t', m2, (sh.wraps _ _).2 w', by rw [List.getElem?_set, if_neg (fun e => q e.symm)]; exact hm2, hg⟩

theorem setCounter_wraps {h h' : Heap} {a : Nat} {i : Int} (e : SetCounter h a i h') : ∃ t, Wraps h a t := by
  obtain ⟨t, m, w, _⟩ := e; exact ⟨t, w⟩

theorem entry_wraps {h : Heap} {b : Nat} {k : Str} {v : Val} (e : Entry h b k v) : ∃ t, Wraps h b t := by
  obtain ⟨t, m, w, _⟩ := e; exact ⟨t, w⟩

theorem Pinned.self {h k h' k' : Heap} {a i : Nat} (e : SetCounter h a ((i : Int) + 1) h') (e' : SetCounter k a ((i : Int) + 1) k') : Pinned h' k' a := by
  obtain ⟨t, w⟩ := setCounter_wraps e
  obtain ⟨t', w'⟩ := setCounter_wraps e'
  refine ⟨i + 1, (entry_counter e w w _).2 ?_, (entry_counter e' w' w' _).2 ?_⟩
  · rw [if_pos rfl]; simp
  · rw [if_pos rfl]; simp

theorem Pinned.set {h k h' k' : Heap} {a b i : Nat} (sh : Shape h k) (p : Pinned h k b) (e : SetCounter h a ((i : Int) + 1) h')
    (e' : SetCounter k a ((i : Int) + 1) k') : Pinned h' k' b := by
  obtain ⟨j, p1, p2⟩ := p
  obtain ⟨t, w⟩ := setCounter_wraps e
  obtain ⟨t', w'⟩ := entry_wraps p1
  by_cases q : t' = t
  · refine ⟨i + 1, (entry_counter e w w' _).2 ?_, (entry_counter e' ((sh.wraps _ _).2 w) ((sh.wraps _ _).2 w') _).2 ?_⟩ <;> rw [if_pos q] <;> simp
  · refine ⟨j, (entry_counter e w w' _).2 ?_, (entry_counter e' ((sh.wraps _ _).2 w) ((sh.wraps _ _).2 w') _).2 ?_⟩ <;> rw [if_neg q] <;> assumption

/-! ## The second rendering -/

section Again

variable {x : Ext} {lang : Option Language.Lang} {d : Doc} {h0 : Heap} {a0 : Nat}

theorem ignores_with {h : Heap} {σ : List Nat} {row : Bool} {t id key : Str} (q : IgnoresOldCounters h σ row ⟨.reference, t⟩) (hp : parts t = [id, key]) :
    NoCounter key := by
  cases q with
  | noData _ q => exact absurd rfl q
  | reference q _ => rw [hp] at q; exact absurd rfl q
  | referenceWith q hn => rw [hp] at q; cases q; exact hn
  | referenceValue q => rw [hp] at q; cases q

theorem ignores_value {h : Heap} {σ : List Nat} {row : Bool} {t any key pre : Str} (q : IgnoresOldCounters h σ row ⟨.reference, t⟩)
    (hp : parts t = [any, key, pre]) : NoCounter key ∧ ∀ v, ValueAt h (some σ) key v → Plain h v := by
  cases q with
  | noData _ q => exact absurd rfl q
  | reference _ q => rw [hp] at q; exact absurd rfl q
  | referenceWith q hn => rw [hp] at q; cases q
  | referenceValue q hn hpl => rw [hp] at q; cases q; exact ⟨hn, hpl⟩

theorem ignores_range {h : Heap} {σ : List Nat} {row : Bool} {t key id : Str} (q : IgnoresOldCounters h σ row ⟨.range, t⟩) (ht : Target t key id) :
    NoCounter key := by
  cases q with
  | noData _ _ q => exact absurd rfl q
  | range q hn => cases (target_unique ht q).1; exact hn

theorem ignores_condition {h : Heap} {σ : List Nat} {row : Bool} {t key id : Str} (q : IgnoresOldCounters h σ row ⟨.condition, t⟩)
    (ht : Target t key id) : NoCounter key ∧ ∀ c l, ValueAt h (some σ) key (.ptr c) → ¬ IsCollection h c l := by
  cases q with
  | noData _ _ _ q => exact absurd rfl q
  | condition q hn hcl => cases (target_unique ht q).1; exact ⟨hn, hcl⟩

theorem cond_plain {h : Heap} {σ : List Nat} {key : Str} {v : Val} (hv : ValueAt h (some σ) key v)
    (hc : ∀ c l, ValueAt h (some σ) key (.ptr c) → ¬ IsCollection h c l) (hd : ∀ b, v = .ptr b → ¬ IsDataset h b) : Plain h v := by
  intro b e
  subst e
  exact ⟨hd b rfl, fun l => hc b l hv⟩

/-- What a job may do: rendering comes to all that it renders. -/
def Job.Visited (x : Ext) (d : Doc) (h0 : Heap) (a0 : Nat) (sc : List Doc) (σ : List Nat) (row : Bool) : Job → Prop
  | .document => Visits x d h0 a0 sc σ row
  | .body l => Visits x d h0 a0 sc σ row ∧ ∀ p ∈ l, ∃ e up, sc = e :: up ∧ p ∈ e.own
  | .elem p => Visits x d h0 a0 sc σ row ∧ ∃ e up, sc = e :: up ∧ p ∈ e.own
  | .choose names => ∀ sc', names.findSome? (lookup sc) = some sc' → Visits x d h0 a0 sc' σ row
  | .loop id n i l => ∀ j b sc', l[j]? = some (some b) → (rangeNames id (i + j) n).findSome? (lookup sc) = some sc' → Visits x d h0 a0 sc' (b :: σ) true

theorem mem_innermost {sc : List Doc} {p : Param} (h : p ∈ innermost sc) : ∃ e up, sc = e :: up ∧ p ∈ e.own := by
  cases sc with
  | nil => cases h
  | cons e up => exact ⟨e, up, rfl, h⟩

theorem again (hst : Steady x d h0 a0) {sc : List Doc} {job : Job} {σ' : Option (List Nat)} {h h' : Heap} {s : Str}
    (r : Renders x lang sc job σ' h h' s) : ∀ (σ : List Nat) (row : Bool) (k : Heap), σ' = some σ → job.Visited x d h0 a0 sc σ row → job.Fits →
    SameButCounters h0 h → SameButCounters h k → Ready h (some σ) → Ready k (some σ) →
    (row = true → ∃ b τ, σ = b :: τ ∧ Pinned h k b) →
    ∃ k', Renders x lang sc job (some σ) k k' s ∧ SameButCounters h' k' ∧ ∀ b, Pinned h k b → Pinned h' k' b := by
  induction r with
  | document _ ih =>
    intro σ row k hσ hv hf s0 s1 rd rk hr
    obtain ⟨k', q1, q2, q3⟩ := ih σ row k hσ ⟨hv, fun p hp => mem_innermost hp⟩ trivial s0 s1 rd rk hr
    exact ⟨k', .document q1, q2, q3⟩
  | nil => intro σ row k hσ hv hf s0 s1 rd rk hr; cases hσ; exact ⟨k, .nil, s1, fun _ p => p⟩
  | cons r1 _ ih1 ih2 =>
    intro σ row k hσ hv hf s0 s1 rd rk hr
    obtain ⟨hv1, hm⟩ := hv
    obtain ⟨k1, q1, q2, q3⟩ := ih1 σ row k hσ ⟨hv1, hm _ (by simp)⟩ trivial s0 s1 rd rk hr
    obtain ⟨k2, q4, q5, q6⟩ := ih2 σ row k1 hσ ⟨hv1, fun p hp => hm p (by simp [hp])⟩ trivial (s0.trans (renders_sameButCounters r1)) q2
      (rd.renders r1 trivial) (rk.renders q1 trivial) (fun q => by obtain ⟨b, τ, e1, e2⟩ := hr q; exact ⟨b, τ, e1, q3 b e2⟩)
    exact ⟨k2, .cons q1 q4, q5, fun b p => q6 b (q3 b p)⟩
  | chosen he _ ih =>
    intro σ row k hσ hv hf s0 s1 rd rk hr
    obtain ⟨k', q1, q2, q3⟩ := ih σ row k hσ (hv _ he) trivial s0 s1 rd rk hr
    exact ⟨k', .chosen he q1, q2, q3⟩
  | noChoice he => intro σ row k hσ hv hf s0 s1 rd rk hr; cases hσ; exact ⟨k, .noChoice he, s1, fun _ p => p⟩
  | text => intro σ row k hσ hv hf s0 s1 rd rk hr; cases hσ; exact ⟨k, .text, s1, fun _ p => p⟩
  | comment => intro σ row k hσ hv hf s0 s1 rd rk hr; cases hσ; exact ⟨k, .comment, s1, fun _ p => p⟩
  | language => intro σ row k hσ hv hf s0 s1 rd rk hr; cases hσ; exact ⟨k, .language, s1, fun _ p => p⟩
  | unknown hu => intro σ row k hσ hv hf s0 s1 rd rk hr; cases hσ; exact ⟨k, .unknown hu, s1, fun _ p => p⟩
  | «variable» hval hsh =>
    intro σ row k hσ hv hf s0 s1 rd rk hr
    cases hσ
    obtain ⟨hv1, e, up, rfl, hm⟩ := hv
    have sh0 := s0.shape rd.wf
    have sh1 := s1.shape rk.wf
    cases hst e up σ row hv1 _ hm with
    | noData q => exact absurd rfl q
    | counter hrow =>
      obtain ⟨b, τ, rfl, i, p1, p2⟩ := hr hrow
      have hsp : split 62 b!".counter" = [b!".counter"] := by decide
      have v1 := valueAt_unique rd hval (.here (by unfold Has; rw [hsp]; exact .entry p1))
      subst v1
      exact ⟨k, .variable (.here (by unfold Has; rw [hsp]; exact .entry p2)) ((shows_plain sh1 (by intro _ q; cases q) _).2 hsh), s1, fun _ p => p⟩
    | «variable» hn hpl =>
      have hp0 := hpl _ ((s0.valueAt sh0 hn _).1 hval)
      exact ⟨k, .variable ((s1.valueAt sh1 hn _).2 hval) ((shows_plain sh1 ((Shape.plain sh0 _).2 hp0) _).2 hsh), s1, fun _ p => p⟩
  | reference hp h1 h2 _ ih =>
    intro σ row k hσ hv hf s0 s1 rd rk hr
    obtain ⟨hv1, e, up, rfl, hm⟩ := hv
    obtain ⟨k', q1, q2, q3⟩ := ih σ row k hσ (fun sc' he => hv1.reference hm hp h1 h2 he) trivial s0 s1 rd rk hr
    exact ⟨k', .reference hp h1 h2 q1, q2, q3⟩
  | referenceNone hp hl => intro σ row k hσ hv hf s0 s1 rd rk hr; cases hσ; exact ⟨k, .referenceNone hp hl, s1, fun _ p => p⟩
  | referenceWith hp hl hval hds _ ih =>
    intro σ row k hσ hv hf s0 s1 rd rk hr
    cases hσ
    obtain ⟨hv1, e, up, rfl, hm⟩ := hv
    have sh0 := s0.shape rd.wf
    have sh1 := s1.shape rk.wf
    have hn := ignores_with (hst e up _ row hv1 _ hm) hp
    obtain ⟨k', q1, q2, q3⟩ := ih _ false k rfl
      (fun sc' he => hv1.referenceWith hm hp ((s0.valueAt sh0 hn _).1 hval) ((sh0.isDataset _).1 hds) he) trivial s0 s1 (rd.push hds)
      (rk.push ((sh1.isDataset _).2 hds)) (by simp)
    exact ⟨k', .referenceWith hp hl ((s1.valueAt sh1 hn _).2 hval) ((sh1.isDataset _).2 hds) q1, q2, q3⟩
  | referenceWithout hp hl hval hds _ ih =>
    intro σ row k hσ hv hf s0 s1 rd rk hr
    cases hσ
    obtain ⟨hv1, e, up, rfl, hm⟩ := hv
    have sh0 := s0.shape rd.wf
    have sh1 := s1.shape rk.wf
    have hn := ignores_with (hst e up _ row hv1 _ hm) hp
    obtain ⟨k', q1, q2, q3⟩ := ih _ row k rfl
      (fun sc' he => hv1.referenceWithout hm hp ((s0.valueAt sh0 hn _).1 hval) (fun b e q => hds b e ((sh0.isDataset _).2 q)) he) trivial s0 s1 rd rk hr
    exact ⟨k', .referenceWithout hp hl ((s1.valueAt sh1 hn _).2 hval) (fun b e q => hds b e ((sh1.isDataset _).1 q)) q1, q2, q3⟩
  | referenceValue hp hval hsh _ ih =>
    intro σ row k hσ hv hf s0 s1 rd rk hr
    cases hσ
    obtain ⟨hv1, e, up, rfl, hm⟩ := hv
    have sh0 := s0.shape rd.wf
    have sh1 := s1.shape rk.wf
    obtain ⟨hn, hpl⟩ := ignores_value (hst e up _ row hv1 _ hm) hp
    have hp0 := hpl _ ((s0.valueAt sh0 hn _).1 hval)
    have hp1 := (Shape.plain sh0 _).2 hp0
    obtain ⟨k', q1, q2, q3⟩ := ih _ row k rfl
      (fun sc' he => hv1.referenceValue hm hp ((s0.valueAt sh0 hn _).1 hval) ((shows_plain sh0 hp0 _).1 hsh) he) trivial s0 s1 rd rk hr
    exact ⟨k', .referenceValue hp ((s1.valueAt sh1 hn _).2 hval) ((shows_plain sh1 hp1 _).2 hsh) q1, q2, q3⟩
  | rangeNothing ht hl =>
    intro σ row k hσ hv hf s0 s1 rd rk hr
    cases hσ
    exact ⟨k, .rangeNothing ht hl, s1, fun _ p => p⟩
  | rangeEmpty ht hl hval hc _ ih =>
    intro σ row k hσ hv hf s0 s1 rd rk hr
    cases hσ
    obtain ⟨hv1, e, up, rfl, hm⟩ := hv
    have sh0 := s0.shape rd.wf
    have sh1 := s1.shape rk.wf
    have hn := ignores_range (hst e up _ row hv1 _ hm) ht
    obtain ⟨k', q1, q2, q3⟩ := ih _ row k rfl
      (fun sc' he => hv1.rangeEmpty hm ht ((s0.valueAt sh0 hn _).1 hval) (fun c l e q => hc c l e ((sh0.isCollection _ _).2 q)) he) trivial s0 s1 rd rk hr
    exact ⟨k', .rangeEmpty ht hl ((s1.valueAt sh1 hn _).2 hval) (fun c l e q => hc c l e ((sh1.isCollection _ _).1 q)) q1, q2, q3⟩
  | range ht hl hval hc hne _ ih =>
    intro σ row k hσ hv hf s0 s1 rd rk hr
    cases hσ
    obtain ⟨hv1, e, up, rfl, hm⟩ := hv
    have sh0 := s0.shape rd.wf
    have sh1 := s1.shape rk.wf
    have hn := ignores_range (hst e up _ row hv1 _ hm) ht
    have hv0 := (s0.valueAt sh0 hn _).1 hval
    have hc0 := (sh0.isCollection _ _).1 hc
    obtain ⟨k', q1, q2, q3⟩ := ih _ row k rfl
      (fun j b sc' hj he => hv1.range hm ht hv0 hc0 hj (by simpa using he)) (by have := rd.short _ _ hc; simpa [Job.Fits] using this) s0 s1 rd rk hr
    exact ⟨k', .range ht hl ((s1.valueAt sh1 hn _).2 hval) ((sh1.isCollection _ _).2 hc) hne q1, q2, q3⟩
  | loopEnd => intro σ row k hσ hv hf s0 s1 rd rk hr; cases hσ; exact ⟨k, .loopEnd, s1, fun _ p => p⟩
  | @loop sc σ h h1 h2 h3 s1' s2' id n i a l hs r1 r2 ih1 ih2 =>
    intro τ row k hσ hv hf s0 s1 rd rk hr
    cases hσ
    simp only [Job.Fits, List.length_cons] at hf
    have sh1 := s1.shape rk.wf
    obtain ⟨k1, hs', sk⟩ := s1.set sh1 hs
    have shh := shape_counter hs
    have shk := shape_counter hs'
    have rd1 := rd.shape (wf_counter rd.wf ⟨by omega, by omega⟩ hs) shh
    have rk1 := rk.shape (wf_counter rk.wf ⟨by omega, by omega⟩ hs') shk
    obtain ⟨t, w⟩ := setCounter_wraps hs
    have hda := wraps_isDataset w
    have s01 := s0.trans (same_counter hs)
    obtain ⟨k2, q1, q2, q3⟩ := ih1 (a :: σ) true k1 rfl (fun sc' he => hv 0 a sc' rfl he) trivial s01 sk (rd1.push ((shh.isDataset a).2 hda))
      (rk1.push ((shk.isDataset a).2 ((sh1.isDataset a).2 hda))) (fun _ => ⟨a, σ, rfl, Pinned.self hs hs'⟩)
    have pin : ∀ b, Pinned h k b → Pinned h2 k2 b := fun b p => q3 b (p.set sh1 hs hs')
    obtain ⟨k3, q4, q5, q6⟩ := ih2 σ row k2 rfl (fun j b sc' hj he => hv (j + 1) b sc' (by simpa using hj) (by rw [show i + (j + 1) = i + 1 + j by omega]; exact he))
      (by simp only [Job.Fits]; omega) (s01.trans (renders_sameButCounters r1)) q2 (rd1.renders r1 trivial) (rk1.renders q1 trivial)
      (fun q => by obtain ⟨b, τ, e1, e2⟩ := hr q; exact ⟨b, τ, e1, pin b e2⟩)
    exact ⟨k3, .loop hs' q1 q4, q5, fun b p => q6 b (pin b p)⟩
  | conditionNone ht hval hsh _ ih =>
    intro σ row k hσ hv hf s0 s1 rd rk hr
    cases hσ
    obtain ⟨hv1, e, up, rfl, hm⟩ := hv
    have sh0 := s0.shape rd.wf
    have sh1 := s1.shape rk.wf
    obtain ⟨hn, hcl⟩ := ignores_condition (hst e up _ row hv1 _ hm) ht
    have hv0 := (s0.valueAt sh0 hn _).1 hval
    have hp0 := cond_plain hv0 hcl fun b eb q => by subst eb; exact shows_dataset_ne rd.wf ((sh0.isDataset _).2 q) hsh rfl
    have hp1 := (Shape.plain sh0 _).2 hp0
    obtain ⟨k', q1, q2, q3⟩ := ih _ row k rfl (fun sc' he => hv1.conditionNone hm ht hv0 ((shows_plain sh0 hp0 _).1 hsh) he) trivial s0 s1 rd rk hr
    exact ⟨k', .conditionNone ht ((s1.valueAt sh1 hn _).2 hval) ((shows_plain sh1 hp1 _).2 hsh) q1, q2, q3⟩
  | conditionNothing ht hval hsh hne hl =>
    intro σ row k hσ hv hf s0 s1 rd rk hr
    cases hσ
    obtain ⟨hv1, e, up, rfl, hm⟩ := hv
    have sh0 := s0.shape rd.wf
    have sh1 := s1.shape rk.wf
    have hn := (ignores_condition (hst e up _ row hv1 _ hm) ht).1
    obtain ⟨s', q1, q2⟩ := shows_shape rd.wf rk.wf sh1 hsh
    exact ⟨k, .conditionNothing ht ((s1.valueAt sh1 hn _).2 hval) q1 (fun q => hne (q2.1 q)) hl, s1, fun _ p => p⟩
  | conditionValue ht hval hds hsh hne hl _ ih =>
    intro σ row k hσ hv hf s0 s1 rd rk hr
    cases hσ
    obtain ⟨hv1, e, up, rfl, hm⟩ := hv
    have sh0 := s0.shape rd.wf
    have sh1 := s1.shape rk.wf
    obtain ⟨hn, hcl⟩ := ignores_condition (hst e up _ row hv1 _ hm) ht
    have hv0 := (s0.valueAt sh0 hn _).1 hval
    have hp0 := cond_plain hv0 hcl fun b eb q => hds b eb ((sh0.isDataset _).2 q)
    have hp1 := (Shape.plain sh0 _).2 hp0
    obtain ⟨k', q1, q2, q3⟩ := ih _ row k rfl (fun sc' he => hv1.conditionValue hm ht hv0 (fun b eb => (hp0 b eb).1) ((shows_plain sh0 hp0 _).1 hsh) he)
      trivial s0 s1 rd rk hr
    exact ⟨k', .conditionValue ht ((s1.valueAt sh1 hn _).2 hval) (fun b eb q => hds b eb ((sh1.isDataset _).1 q)) ((shows_plain sh1 hp1 _).2 hsh) hne hl q1, q2, q3⟩
  | conditionDataset ht hval hds hl r1 hsh ih =>
    intro σ row k hσ hv hf s0 s1 rd rk hr
    cases hσ
    obtain ⟨hv1, e, up, rfl, hm⟩ := hv
    have sh0 := s0.shape rd.wf
    have sh1 := s1.shape rk.wf
    have hn := (ignores_condition (hst e up _ row hv1 _ hm) ht).1
    obtain ⟨k', q1, q2, q3⟩ := ih _ false k rfl
      (fun sc' he => hv1.conditionDataset hm ht ((s0.valueAt sh0 hn _).1 hval) ((sh0.isDataset _).1 hds) he) trivial s0 s1 (rd.push hds)
      (rk.push ((sh1.isDataset _).2 hds)) (by simp)
    have rk' := rk.renders q1 trivial
    obtain ⟨s', q4, _⟩ := shows_shape (rd.renders r1 trivial).wf rk'.wf (q2.shape rk'.wf) hsh
    exact ⟨k', .conditionDataset ht ((s1.valueAt sh1 hn _).2 hval) ((sh1.isDataset _).2 hds) hl q1 q4, q2, q3⟩
  | dump hd =>
    intro σ row k hσ hv hf s0 s1 rd rk hr
    obtain ⟨hv1, e, up, rfl, hm⟩ := hv
    cases hst e up _ row hv1 _ hm with
    | noData _ _ _ _ q => exact absurd rfl q
  | dumpEmpty hd => intro σ row k hσ hv hf s0 s1 rd rk hr; cases hσ; exact ⟨k, .dumpEmpty hd, s1, fun _ p => p⟩
  | dumpNothing hd => intro σ row k hσ hv hf s0 s1 rd rk hr; cases hσ; exact ⟨k, .dumpNothing hd, s1, fun _ p => p⟩

end Again

theorem langOf_same {h k : Heap} (s : SameButCounters h k) (sh : Shape h k) {a : Nat} {lang : Option Language.Lang} (l : LangOf h a lang) : LangOf k a lang := by
  have hne : b!"#" ≠ b!".counter" := by decide
  cases l with
  | table e hb => exact .table ((s.entry sh hne).2 e) ((sh.lang _ _).2 hb)
  | none hn => exact .none fun b l e hb => hn b l ((s.entry sh hne).1 e) ((sh.lang _ _).1 hb)

theorem Proper.renders {x : Ext} {lang : Option Language.Lang} {sc : List Doc} {job : Job} {σ : Option (List Nat)} {h h' : Heap} {s : Str} {data : Option Nat}
    (p : Proper h data) (q : Renders x lang sc job σ h h' s) (f : job.Fits) : Proper h' data := by
  have sh := renders_shape q
  exact ⟨renders_wf q p.wf p.short f, sh.wrapped p.wrapped, sh.short p.short, fun a e => (sh.isDataset a).2 (p.data a e)⟩

/-- The whole rendering. -/
theorem executes_again {x : Ext} {d : Doc} {h h' k : Heap} {a : Nat} {out : Str} (hp : Proper h (some a)) (hst : Steady x d h a)
    (hs : SameButCounters h k) (hk : Proper k (some a)) (e : Executes x d (some a) h h' out) :
    ∃ k', Executes x d (some a) k k' out ∧ SameButCounters k k' ∧ Proper k' (some a) := by
  have sh := hs.shape hk.wf
  cases e with
  | data hl r =>
    obtain ⟨k', q1, _, _⟩ := again hst r [a] false k rfl .root trivial (.refl h) hs hp.ready hk.ready (by simp)
    exact ⟨k', .data (langOf_same hs sh hl) q1, renders_sameButCounters q1, hk.renders q1 trivial⟩

theorem executes_proper {x : Ext} {d : Doc} {h h' : Heap} {data : Option Nat} {out : Str} (hp : Proper h data) (e : Executes x d data h h' out) :
    SameButCounters h h' ∧ Proper h' data := by
  cases e with
  | data _ r => exact ⟨renders_sameButCounters r, hp.renders r trivial⟩
  | nil r => exact ⟨renders_sameButCounters r, hp.renders r trivial⟩

end Xcore.Template
