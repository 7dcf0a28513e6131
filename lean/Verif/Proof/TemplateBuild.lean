import Verif.Proof.TemplateCompile

/-! # What the compiler builds in memory -/

namespace Xcore.Template

theorem upd_get {th : THeap} {a : Nat} {o : Tpl} (h : th[a]? = some o) (f : Tpl → Tpl) (b : Nat) :
    (upd th a f)[b]? = if b = a then some (f o) else th[b]? := by
  unfold upd
  rw [h]
  simp only [List.getElem?_set]
  have hl := (List.getElem?_eq_some_iff.1 h).1
  by_cases e : b = a
  · subst e; simp [hl]
  · rw [if_neg (Ne.symm e), if_neg e]

/-- Memory after registering a template under a list of names. -/
theorem addAll_spec (a t : Nat) (hat : a ≠ t) : ∀ (l : List Str) (th : THeap) (oa ot : Tpl), th[a]? = some oa → th[t]? = some ot →
    ∃ s, (l.foldl (fun th v => addTemplate th a v t) th)[a]? = some { oa with subs := s } ∧ (l = [] → s = oa.subs) ∧
      (∀ v, (s.getD []).get v = if v ∈ l then some t else (oa.subs.getD []).get v) ∧
      (l.foldl (fun th v => addTemplate th a v t) th)[t]? = some { ot with father := if l = [] then ot.father else some a } ∧
      (∀ c, c ≠ a → c ≠ t → (l.foldl (fun th v => addTemplate th a v t) th)[c]? = th[c]?) := by
  intro l
  induction l with
  | nil => intro th oa ot ha ht; exact ⟨oa.subs, by simpa using ha, by simp, by simp, by simpa using ht, by simp⟩
  | cons v l ih =>
    intro th oa ot ha ht
    have h1 : ∀ c, (upd th t fun o => { o with father := some a })[c]? = if c = t then some { ot with father := some a } else th[c]? := upd_get ht _
    have h1a : (upd th t fun o => { o with father := some a })[a]? = some oa := by rw [h1, if_neg hat, ha]
    have h2 : ∀ c, (addTemplate th a v t)[c]? = if c = a then some { oa with subs := some ((oa.subs.getD []).set v t) } else
        if c = t then some { ot with father := some a } else th[c]? := by
      intro c
      unfold addTemplate
      rw [upd_get h1a, h1]
    obtain ⟨s, e1, _, e3, e4, e5⟩ := ih (addTemplate th a v t) _ _ (by rw [h2, if_pos rfl]) (by rw [h2, if_neg hat.symm, if_pos rfl])
    refine ⟨s, e1, by simp, fun w => ?_, ?_, fun c ca ct => ?_⟩
    · rw [e3]
      simp only [Option.getD_some, List.mem_cons, AMap.get_set]
      by_cases hw : w ∈ l
      · simp [hw]
      · by_cases hv : w = v <;> simp [hw, hv]
    · simp only [List.foldl_cons] at e4 ⊢
      rw [e4]
      simp
    · simp only [List.foldl_cons]
      rw [e5 c ca ct, h2, if_neg ca, if_neg ct]

/-- `BoxesAt` with all addresses in a range. -/
inductive BoxesIn (lo hi : Nat) (th : THeap) : Nat → Doc → List (Str × Nat) → Prop where
  | nil {a : Nat} : BoxesIn lo hi th a .nil []
  | elem {a : Nat} {p : Param} {r : Doc} {l : List (Str × Nat)} : BoxesIn lo hi th a r l → BoxesIn lo hi th a (.elem p r) l
  | box {a t : Nat} {n : Str} {b r : Doc} {o : Tpl} {l lb : List (Str × Nat)} : lo ≤ t → t < hi → th[t]? = some o → o.name = n →
      o.root = some b.own → o.father = (if namesOf n = [] then none else some a) → BoxesIn lo hi th t b lb →
      (∀ v, (o.subs.getD []).get v = lastNamed lb v) → BoxesIn lo hi th a r l → BoxesIn lo hi th a (.box n b r) ((n, t) :: l)

theorem BoxesIn.at {lo hi : Nat} {th : THeap} {a : Nat} {d : Doc} {l : List (Str × Nat)} (h : BoxesIn lo hi th a d l) : BoxesAt th a d l := by
  induction h with
  | nil => exact .nil
  | elem _ ih => exact .elem ih
  | box _ _ h1 h2 h3 h4 _ h5 _ ihb ihr => exact .box h1 h2 h3 h4 ihb h5 ihr

theorem BoxesIn.frame {lo hi lo' hi' : Nat} {th th' : THeap} {a : Nat} {d : Doc} {l : List (Str × Nat)} (h : BoxesIn lo hi th a d l) (hlo : lo' ≤ lo)
    (hhi : hi ≤ hi') (e : ∀ c, lo ≤ c → c < hi → th'[c]? = th[c]?) : BoxesIn lo' hi' th' a d l := by
  induction h with
  | nil => exact .nil
  | elem _ ih => exact .elem ih
  | box h1 h2 h3 h4 h5 h6 _ h7 _ ihb ihr =>
    exact .box (Nat.le_trans hlo h1) (Nat.lt_of_lt_of_le h2 hhi) (by rw [e _ h1 h2]; exact h3) h4 h5 h6 ihb h7 ihr

/-- What `build` puts into memory. -/
theorem build_spec {d : Doc} (hp : d.Plain) : ∀ (th : THeap) (a : Nat) (oa : Tpl), th[a]? = some oa →
    ∃ l s, th.length ≤ (build th a d).length ∧ (∀ c, c < th.length → c ≠ a → (build th a d)[c]? = th[c]?) ∧
      (build th a d)[a]? = some { oa with subs := s } ∧ (∀ v, (s.getD []).get v = (lastNamed l v).or ((oa.subs.getD []).get v)) ∧
      BoxesIn th.length (build th a d).length (build th a d) a d l := by
  induction d with
  | nil => intro th a oa ha; exact ⟨[], oa.subs, Nat.le_refl _, fun _ _ _ => rfl, ha, by simp [lastNamed], .nil⟩
  | elem p r ih =>
    intro th a oa ha
    obtain ⟨l, s, h1, h2, h3, h4, h5⟩ := ih hp.2.2.2 th a oa ha
    exact ⟨l, s, h1, h2, h3, h4, .elem h5⟩
  | box n b r ihb ihr =>
    intro th a oa ha
    have hal : a < th.length := (List.getElem?_eq_some_iff.1 ha).1
    have hat : a ≠ th.length := by omega
    simp only [build]
    obtain ⟨lb, sb, b1, b2, b3, b4, b5⟩ := ihb hp.2.1 (th ++ [⟨n, none, none, none⟩]) th.length ⟨n, none, none, none⟩ (by simp)
    simp only [List.length_append, List.length_singleton] at b1 b2 b5
    generalize build (th ++ [⟨n, none, none, none⟩]) th.length b = th1 at b1 b2 b3 b5 ⊢
    have u := upd_get b3 (fun o : Tpl => { o with root := some b.own })
    have ul := upd_length th1 th.length (fun o : Tpl => { o with root := some b.own })
    generalize (upd th1 th.length fun o => { o with root := some b.own }) = th2 at u ul ⊢
    have ha1 : th1[a]? = some oa := by rw [b2 a (by omega) hat, List.getElem?_append_left hal, ha]
    have ha2 : th2[a]? = some oa := by rw [u, if_neg hat, ha1]
    have ht2 : th2[th.length]? = some ⟨n, some b.own, sb, none⟩ := by rw [u, if_pos rfl]
    obtain ⟨s3, r1, _, r3, r4, r5⟩ := addAll_spec a th.length hat (namesOf n) th2 oa _ ha2 ht2
    have rl := register_length th2 a hp.1 th.length
    rw [register_eq th2 a hp.1] at rl ⊢
    generalize (namesOf n).foldl (fun th' v => addTemplate th' a v th.length) th2 = th3 at r1 r4 r5 rl ⊢
    have hl3 : th3.length = th1.length := by rw [rl, ul]
    obtain ⟨l, s, q1, q2, q3, q4, q5⟩ := ihr hp.2.2 th3 a _ r1
    generalize build th3 a r = th4 at q1 q2 q3 q5 ⊢
    have ht4 : th4[th.length]? = some ⟨n, some b.own, sb, if namesOf n = [] then none else some a⟩ := by
      rw [q2 _ (by omega) hat.symm, r4]
    refine ⟨(n, th.length) :: l, s, by omega, fun c hc hca => ?_, q3, fun v => ?_, ?_⟩
    · rw [q2 c (by omega) hca, r5 c hca (by omega), u, if_neg (by omega), b2 c (by omega) (by omega), List.getElem?_append_left hc]
    · rw [q4]
      simp only [lastNamed, Option.or_assoc, r3]
      congr 1
      by_cases hv : v ∈ namesOf n <;> simp [hv]
    · refine .box (Nat.le_refl _) (by omega) ht4 rfl rfl rfl (b5.frame (by omega) (by omega) ?_) (by simpa using b4) (q5.frame (by omega) (Nat.le_refl _)
        fun _ _ _ => rfl)
      intro c c1 c2
      rw [q2 c (by omega) (by omega), r5 c (by omega) (by omega), u, if_neg (by omega)]

/-- The compiler on a balanced text. -/
theorem compile_doc {th : THeap} {t : Nat} {o : Tpl} {data : Str} {d : Doc} (ht : th[t]? = some o) (hp : d.Plain) (e : lex data = d.tokens) :
    ∃ th' l s, compile th t data = (th', false) ∧ th.length ≤ th'.length ∧ (∀ c, c < th.length → c ≠ t → th'[c]? = th[c]?) ∧
      th'[t]? = some { o with root := some d.own, subs := s } ∧ (∀ v, (s.getD []).get v = (lastNamed l v).or ((o.subs.getD []).get v)) ∧
      BoxesIn th.length th'.length th' t d l := by
  have tl : t < th.length := (List.getElem?_eq_some_iff.1 ht).1
  obtain ⟨l, s, h1, h2, h3, h4, h5⟩ := build_spec hp th t o ht
  have hpass := passLoop_doc hp th [] [] [] [] [] t 0 rfl
  simp only [List.append_nil, List.nil_append, passLoop] at hpass
  have u := upd_get h3 (fun o : Tpl => { o with root := some d.own })
  have ul := upd_length (build th t d) t (fun o : Tpl => { o with root := some d.own })
  refine ⟨upd (build th t d) t fun o => { o with root := some d.own }, l, s, ?_, by omega, fun c hc hct => ?_, ?_, h4, h5.frame (Nat.le_refl _)
    (by omega) fun c c1 _ => ?_⟩
  · have hm := Doc.marked_own hp
    simp only [compile, e, hpass]
    simp only [List.length_nil, Nat.lt_irrefl, if_false, hm, gt_iff_lt]
  · rw [u, if_neg hct, h2 c hc hct]
  · rw [u, if_pos rfl]
  · rw [u, if_neg (by omega)]

end Xcore.Template
