import Verif.Spec.TemplateClone
import Verif.Proof.TemplateBuild

/-!
# What loading a text leaves alone, with and without error
-/

namespace Xcore.Template

theorem upd_get' (th : THeap) (a : Nat) (f : Tpl → Tpl) (b : Nat) : (upd th a f)[b]? = if b = a then th[a]?.map f else th[b]? := by
  cases e : th[a]? with
  | some o => rw [upd_get e]; rfl
  | none =>
    have : upd th a f = th := by unfold upd; rw [e]
    rw [this]
    split
    · next h => rw [h, e]; rfl
    · rfl

/-- A property that every step of the second pass keeps: it is kept by new templates, by setting the root of a new template and by
registering a new template in the loaded one or one that is less new. -/
structure Kept (lo t : Nat) (Q : THeap → Prop) : Prop where
  new : ∀ th d, Q th → lo ≤ th.length → Q (th ++ [⟨d, none, none, none⟩])
  root : ∀ th a r, Q th → lo ≤ a → Q (upd th a fun o => { o with root := r })
  add : ∀ th u v a, Q th → lo ≤ a ∧ a < th.length → (u = t ∨ lo ≤ u ∧ u < a) → Q (addTemplate th u v a)

theorem register_kept {lo t : Nat} {Q : THeap → Prop} (k : Kept lo t Q) {th : THeap} {u a : Nat} {n : Str} (hq : Q th)
    (ha : lo ≤ a ∧ a < th.length) (hu : u = t ∨ lo ≤ u ∧ u < a) :
    Q (register th u n a) ∧ (register th u n a).length = th.length := by
  have all : ∀ (l : List Str) (th : THeap), Q th → a < th.length →
      Q (l.foldl (fun th v => if v.length > 0 then addTemplate th u v a else th) th) ∧
      (l.foldl (fun th v => if v.length > 0 then addTemplate th u v a else th) th).length = th.length := by
    intro l
    induction l with
    | nil => intro th h _; exact ⟨h, rfl⟩
    | cons v l ih =>
      intro th h hal
      simp only [List.foldl_cons]
      by_cases hv : v.length > 0
      · rw [if_pos hv]
        obtain ⟨h1, h2⟩ := ih _ (k.add _ _ v _ h ⟨ha.1, hal⟩ hu) (by rw [addTemplate_length]; exact hal)
        exact ⟨h1, h2.trans (addTemplate_length ..)⟩
      · rw [if_neg hv]; exact ih _ h hal
  unfold register
  split
  · exact all _ _ hq ha.2
  · exact ⟨k.add _ _ _ _ hq ha hu, addTemplate_length ..⟩

theorem passLoop_kept {lo t : Nat} {Q : THeap → Prop} (k : Kept lo t Q) : ∀ (ps : List Param) (s : Pass) (i : Nat), Q s.th → lo ≤ s.th.length →
    (∃ l, s.actual :: s.uppers = l ++ [t] ∧ (∀ u ∈ l, lo ≤ u ∧ u < s.th.length) ∧ l.Pairwise (· > ·)) → s.starts.length = s.uppers.length →
    Q (passLoop s i ps).1 ∧ lo ≤ (passLoop s i ps).1.length := by
  intro ps
  induction ps with
  | nil => intro s i hq hl _ _; exact ⟨hq, hl⟩
  | cons p ps ih =>
    intro s i hq hl hst hlen
    simp only [passLoop]
    cases e : passStep s i p with
    | none => exact ⟨hq, hl⟩
    | some s' =>
      simp only
      unfold passStep at e
      by_cases h1 : p.kind = .start
      · rw [if_pos h1] at e
        cases e
        obtain ⟨l, hs, hl', hpw⟩ := hst
        refine ih _ _ (k.new _ _ hq hl) (by simp; omega) ⟨s.th.length :: l, by simp [hs], ?_, List.pairwise_cons.2 ⟨fun u hu => (hl' u hu).2, hpw⟩⟩ (by simp [hlen])
        intro u hu
        simp only [List.length_append, List.length_singleton]
        rcases List.mem_cons.1 hu with rfl | hu
        · omega
        · have := hl' u hu; omega
      · rw [if_neg h1] at e
        by_cases h2 : p.kind = .stop
        · rw [if_pos h2] at e
          cases es : s.starts with
          | nil => rw [es] at e; cases e
          | cons sp starts =>
            cases eu : s.uppers with
            | nil => rw [es, eu] at e; cases e
            | cons upper uppers =>
              rw [es, eu] at e
              simp only [Option.some.injEq] at e
              subst e
              obtain ⟨l, hs, hl', hpw⟩ := hst
              rw [eu] at hs
              cases l with
              | nil => simp at hs
              | cons u0 l =>
                simp only [List.cons_append, List.cons.injEq] at hs
                obtain ⟨rfl, hs⟩ := hs
                have ha : lo ≤ s.actual ∧ s.actual < s.th.length := hl' _ (by simp)
                have hu : upper = t ∨ lo ≤ upper ∧ upper < s.actual := by
                  cases l with
                  | nil => simp at hs; exact Or.inl hs.1
                  | cons u1 l => simp at hs; exact Or.inr (by rw [hs.1]; exact ⟨(hl' _ (by simp)).1, (List.pairwise_cons.1 hpw).1 _ (by simp)⟩)
                have hr := k.root _ _ (some (moveOut (i - (sp + 1)) (sp + 1) s.compiled).2) hq ha.1
                have hul : ∀ (th : THeap) a f, (upd th a f).length = th.length := by
                  intro th a f; unfold upd; split <;> simp
                obtain ⟨q1, q2⟩ := register_kept (n := nameAt (upd s.th s.actual fun o => { o with root := some (moveOut (i - (sp + 1)) (sp + 1) s.compiled).2 }) s.actual) k hr
                  ⟨ha.1, by rw [hul]; exact ha.2⟩ hu
                refine ih _ _ q1 ?_ ⟨l, hs, fun u hu => ?_, (List.pairwise_cons.1 hpw).2⟩ ?_
                · simp only
                  rw [q2, hul]; exact hl
                · simp only
                  rw [q2, hul]; exact hl' u (by simp [hu])
                · rw [es, eu] at hlen; simpa using hlen
        · rw [if_neg h2] at e
          cases e
          exact ih _ _ hq hl hst hlen

/-- What loading never changes: other templates, and name and father of the template loaded. -/
structure Frame (th0 : THeap) (t : Nat) (o : Tpl) (th : THeap) : Prop where
  others : ∀ b, b < th0.length → b ≠ t → th[b]? = th0[b]?
  self : ∃ s, th[t]? = some { o with subs := s }

theorem kept_frame {th0 : THeap} {t : Nat} {o : Tpl} (ht : t < th0.length) : Kept th0.length t (Frame th0 t o) := by
  refine ⟨fun th d h hl => ⟨fun b hb hbt => ?_, ?_⟩, fun th a r h ha => ⟨fun b hb hbt => ?_, ?_⟩, fun th u v a h ha hu => ⟨fun b hb hbt => ?_, ?_⟩⟩
  · rw [List.getElem?_append_left (by omega)]; exact h.others b hb hbt
  · obtain ⟨s, e⟩ := h.self
    exact ⟨s, by rw [List.getElem?_append_left (by omega)]; exact e⟩
  · rw [upd_get', if_neg (by omega)]; exact h.others b hb hbt
  · obtain ⟨s, e⟩ := h.self
    exact ⟨s, by rw [upd_get', if_neg (by omega)]; exact e⟩
  · unfold addTemplate
    rw [upd_get', if_neg (by omega), upd_get', if_neg (by omega)]; exact h.others b hb hbt
  · obtain ⟨s, e⟩ := h.self
    unfold addTemplate
    by_cases hut : u = t
    · subst hut
      refine ⟨some ((s.getD []).set v a), ?_⟩
      rw [upd_get', if_pos rfl, upd_get', if_neg (by omega), e]
      rfl
    · refine ⟨s, ?_⟩
      rw [upd_get', if_neg (Ne.symm hut), upd_get', if_neg (by omega), e]

theorem kept_nodup {lo t : Nat} : Kept lo t SubsNodup := by
  refine ⟨fun th d h _ b o m hb hm => ?_, fun th a r h _ b o m hb hm => ?_, fun th u v a h _ _ b o m hb hm => ?_⟩
  · rw [List.getElem?_append] at hb
    split at hb
    · exact h b o m hb hm
    · cases hx : (b - th.length) with
      | zero => rw [hx] at hb; cases hb; cases hm
      | succ n => rw [hx] at hb; cases hb
  · rw [upd_get'] at hb
    split at hb
    · cases e : th[a]? with
      | none => rw [e] at hb; cases hb
      | some o' => rw [e] at hb; cases hb; exact h a o' m e hm
    · exact h b o m hb hm
  · have h1 : SubsNodup (upd th a fun o => { o with father := some u }) := by
      intro b o m hb hm
      rw [upd_get'] at hb
      split at hb
      · cases e : th[a]? with
        | none => rw [e] at hb; cases hb
        | some o' => rw [e] at hb; cases hb; exact h a o' m e hm
      · exact h b o m hb hm
    unfold addTemplate at hb
    generalize upd th a (fun o => { o with father := some u }) = th1 at h1 hb
    rw [upd_get'] at hb
    split at hb
    · cases e : th1[u]? with
      | none => rw [e] at hb; cases hb
      | some o' =>
        rw [e] at hb
        cases hb
        cases hm
        refine AMap.nodup_set ?_ _ _
        cases es : o'.subs with
        | none => simp
        | some m' => exact h1 u o' m' e es
    · exact h1 b o m hb hm

/-- `LoadString` keeps what the second pass keeps, if setting the root of the template loaded keeps it, too. -/
theorem load_kept {t : Nat} {Q : THeap → Prop} {th : THeap} (k : Kept th.length t Q) (hq : Q th) (data : Str) :
    (∃ th', Q th' ∧ loadString th t data = (th', true)) ∨
    ∃ th' r, Q th' ∧ loadString th t data = (upd th' t (fun o => { o with root := r }), false) := by
  have := (passLoop_kept k (lex data) ⟨th, lex data, [], [], t⟩ 0 hq (Nat.le_refl _) ⟨[], rfl, by simp, .nil⟩ rfl).1
  unfold loadString compile
  simp only
  generalize passLoop ⟨th, lex data, [], [], t⟩ 0 (lex data) = r at this
  obtain ⟨th', o⟩ := r
  cases o with
  | none => exact Or.inl ⟨th', this, rfl⟩
  | some s =>
    simp only
    split
    · exact Or.inl ⟨th', this, rfl⟩
    · exact Or.inr ⟨th', _, this, rfl⟩

theorem load_nodup {th : THeap} (h : SubsNodup th) (t : Nat) (data : Str) : SubsNodup (loadString th t data).1 := by
  rcases load_kept kept_nodup h data with ⟨th', hq, e⟩ | ⟨th', r, hq, e⟩
  · rw [e]; exact hq
  · rw [e]; exact (kept_nodup (lo := 0) (t := t)).root th' t r hq (Nat.zero_le _)

theorem new_nodup {th : THeap} (h : SubsNodup th) (data : Str) : SubsNodup (newFromString th data).1 := by
  have h1 : SubsNodup (newTpl th).1 := (kept_nodup (lo := 0) (t := 0)).new th _ h (Nat.zero_le _)
  have := load_nodup h1 (newTpl th).2 data
  simp only [newFromString]
  generalize loadString (newTpl th).1 (newTpl th).2 data = r at this
  obtain ⟨th', e⟩ := r
  cases e <;> exact this

theorem load_frame {th : THeap} {t : Nat} {o : Tpl} (ht : th[t]? = some o) (data : Str) :
    (∀ b, b < th.length → b ≠ t → (loadString th t data).1[b]? = th[b]?) ∧
    ∃ s r, (loadString th t data).1[t]? = some { o with subs := s, root := r } ∧ ((loadString th t data).2 = true → r = o.root) := by
  have hl : t < th.length := (List.getElem?_eq_some_iff.1 ht).1
  have h0 : Frame th t o th := ⟨fun _ _ _ => rfl, o.subs, ht⟩
  rcases load_kept (kept_frame hl) h0 data with ⟨th', hq, e⟩ | ⟨th', r, hq, e⟩
  · rw [e]
    obtain ⟨s, es⟩ := hq.self
    exact ⟨hq.others, s, o.root, es, fun _ => rfl⟩
  · rw [e]
    obtain ⟨s, es⟩ := hq.self
    refine ⟨fun b hb hbt => by rw [upd_get', if_neg hbt]; exact hq.others b hb hbt, s, r, ?_, fun h => by cases h⟩
    simp only
    rw [upd_get', if_pos rfl, es]
    rfl

end Xcore.Template
