import Verif.Proof.DatasetPrintTotal

/-!
# How deep printing goes

Data that can be printed at all are acyclic, so a bound that depends on the size of memory only is enough.
-/

namespace Xcore.Dataset

/-- One of the two ways of printing ends within the bound. -/
def Printable (x : Ext) (h : Heap) (n : Nat) (b : Addr) : Prop := (∃ s, sprint x n h (.ptr b) = some s) ∨ ∃ s, goSprint x n h (.ptr b) = some s

theorem Printable.le {x : Ext} {h : Heap} {n m : Nat} {b : Addr} (hn : n ≤ m) (p : Printable x h n b) : Printable x h m b := by
  rcases p with ⟨s, e⟩ | ⟨s, e⟩
  · exact Or.inl ⟨s, sprint_le hn e⟩
  · exact Or.inr ⟨s, goSprint_le hn e⟩

theorem mapOpt_mem {α β : Type} {f : α → Option β} : ∀ {l : List α} {m : List β}, mapOpt f l = some m → ∀ a ∈ l, ∃ b, f a = some b := by
  intro l
  induction l with
  | nil => intro m _ a ha; cases ha
  | cons c l ih =>
    intro m e a ha
    simp only [mapOpt] at e
    cases hc : f c with
    | none => rw [hc] at e; cases e
    | some b =>
      rw [hc] at e
      cases hl : mapOpt f l with
      | none => simp only [hl] at e; cases e
      | some bs =>
        rcases List.mem_cons.1 ha with rfl | ha
        · exact ⟨b, hc⟩
        · exact ih hl a ha

/-- What is inside printable data is printable, in fewer steps unless it is the dataset of a wrapper. -/
theorem printable_refers {x : Ext} {h : Heap} (wf : WF h) {n : Nat} {b c : Addr} (p : Printable x h n b) (r : Refers h b c) :
    (∃ m, m < n ∧ Printable x h m c) ∨ (Printable x h n c ∧ c < b) := by
  have slices : ∀ (n : Nat) {sk : SliceKind} {c : Addr} (_ : Valid h (.slice sk c)) (_ : n ≠ 0), Printable x h n c := by
    intro n sk c hv hn
    obtain ⟨l, hl⟩ := hv
    cases n with
    | zero => exact absurd rfl hn
    | succ n => exact Or.inl ⟨[], by simp only [sprint, hl]⟩
  have colPrint : ∀ (n : Nat) (l : List (Option Addr)), IsCollection h b l → (∃ s, sprint x (n + 1) h (.ptr b) = some s) → some c ∈ l →
      ∃ s, sprint x n h (.ptr c) = some s := by
    rintro n l hl ⟨s, e⟩ hc
    have : ∃ m, mapOpt (fun e : Option Addr => match e with | none => some b!"<nil>" | some b => sprint x n h (.ptr b)) l = some m := by
      rcases hl with hl | hl
      all_goals
        simp only [sprint, hl] at e
        generalize mapOpt _ l = o at e ⊢
        cases o with
        | none => cases e
        | some m => exact ⟨m, rfl⟩
    obtain ⟨m, hm⟩ := this
    exact mapOpt_mem hm (some c) hc
  cases n with
  | zero => rcases p with ⟨s, e⟩ | ⟨s, e⟩ <;> cases e
  | succ n =>
    cases r with
    | @ptr m k hb hm =>
      refine Or.inl ⟨n, by omega, ?_⟩
      rcases p with ⟨s, e⟩ | ⟨s, e⟩
      · simp only [sprint, hb] at e
        generalize ho : mapOpt _ m = o at e
        cases o with
        | none => cases e
        | some l =>
          obtain ⟨y, hy⟩ := mapOpt_mem ho _ hm
          cases hs : sprint x n h (.ptr c) with
          | none => simp [hs] at hy
          | some s' => exact Or.inl ⟨s', hs⟩
      · simp only [goSprint, hb] at e
        generalize ho : mapOpt _ m = o at e
        cases o with
        | none => cases e
        | some l =>
          obtain ⟨y, hy⟩ := mapOpt_mem ho _ hm
          cases hs : goSprint x n h (.ptr c) with
          | none => simp [hs] at hy
          | some s' => exact Or.inr ⟨s', hs⟩
    | @slice m k sk hb hm =>
      refine Or.inl ⟨n, by omega, slices n (wf.valid b m k _ hb hm) ?_⟩
      rintro rfl
      rcases p with ⟨s, e⟩ | ⟨s, e⟩
      · simp only [sprint, hb] at e
        generalize ho : mapOpt _ m = o at e
        cases o with
        | none => cases e
        | some l => obtain ⟨y, hy⟩ := mapOpt_mem ho _ hm; simp at hy
      · simp only [goSprint, hb] at e
        generalize ho : mapOpt _ m = o at e
        cases o with
        | none => cases e
        | some l => obtain ⟨y, hy⟩ := mapOpt_mem ho _ hm; simp at hy
    | wrapped hb =>
      obtain ⟨hlt, hd⟩ := wf.wrapper b c hb
      right
      refine ⟨?_, hlt⟩
      have ht : target h b = target h c := by
        have h1 : ∀ t, target h b = some t ↔ target h c = some t := by
          intro t
          rw [target_iff wf, target_iff wf]
          constructor
          · intro w
            cases w with
            | plain hm => rw [hb] at hm; cases hm
            | wrapper hb' w => rw [hb] at hb'; cases hb'; exact w
          · intro w; exact .wrapper hb w
        cases e1 : target h b with
        | some t => rw [(h1 t).1 e1]
        | none =>
          cases e2 : target h c with
          | none => rfl
          | some t => rw [(h1 t).2 e2] at e1; cases e1
      rcases hd with ⟨m, hm⟩ | ⟨i, hi⟩
      · have e1 : target h b = some c := by rw [ht]; exact (target_iff wf).2 (.plain hm)
        refine Printable.le (Nat.le_succ n) ?_
        rcases p with ⟨s, e⟩ | ⟨s, e⟩
        · simp only [sprint, hb, e1] at e
          exact Or.inl ⟨s, e⟩
        · simp only [goSprint, hb, e1] at e
          exact Or.inr ⟨s, e⟩
      · rcases p with ⟨s, e⟩ | ⟨s, e⟩
        · simp only [sprint, hb, ht] at e
          exact Or.inl ⟨s, by simp only [sprint, hi]; exact e⟩
        · simp only [goSprint, hb, ht] at e
          exact Or.inr ⟨s, by simp only [goSprint, hi]; exact e⟩
    | @elem l hl hc =>
      refine Or.inl ⟨n, by omega, ?_⟩
      rcases p with e | ⟨s, e⟩
      · exact Or.inl (colPrint n l hl e hc)
      · have : ∃ s, sprint x n h (.ptr b) = some s := by
          rcases hl with hl | hl <;> simp only [goSprint, hl] at e <;> exact ⟨s, e⟩
        cases n with
        | zero => obtain ⟨s, e⟩ := this; cases e
        | succ n =>
          obtain ⟨s', e'⟩ := colPrint n l hl this hc
          exact Or.inl ⟨s', sprint_mono e'⟩

theorem printable_reach {x : Ext} {h : Heap} (wf : WF h) {c d : Addr} (r : Reach h c d) : ∀ {n : Nat}, Printable x h n c →
    (∃ m, m < n ∧ Printable x h m d) ∨ (Printable x h n d ∧ d ≤ c) := by
  induction r with
  | refl => intro n p; exact Or.inr ⟨p, Nat.le_refl _⟩
  | step hr _ ih =>
    intro n p
    rcases printable_refers wf p hr with ⟨m, hm, pm⟩ | ⟨pn, hlt⟩
    · rcases ih pm with ⟨m', hm', pm'⟩ | ⟨pm', _⟩
      · exact Or.inl ⟨m', by omega, pm'⟩
      · exact Or.inl ⟨m, hm, pm'⟩
    · rcases ih pn with ⟨m', hm', pm'⟩ | ⟨pm', hle⟩
      · exact Or.inl ⟨m', hm', pm'⟩
      · exact Or.inr ⟨pm', by omega⟩

/-- Printable data are acyclic. -/
theorem printable_acyclic {x : Ext} {h : Heap} (wf : WF h) {n : Nat} {a : Addr} (p : Printable x h n a) : Acyclic h a := by
  have key : ∀ n b c, Refers h b c → Reach h c b → ¬ Printable x h n b := by
    intro n
    induction n using Nat.strongRecOn with
    | _ n ih =>
      intro b c hr hc p
      rcases printable_refers wf p hr with ⟨m, hm, pm⟩ | ⟨pn, hlt⟩
      · rcases printable_reach wf hc pm with ⟨m', hm', pm'⟩ | ⟨pm', _⟩
        · exact ih m' (by omega) b c hr hc pm'
        · exact ih m hm b c hr hc pm'
      · rcases printable_reach wf hc pn with ⟨m', hm', pm'⟩ | ⟨_, hle⟩
        · exact ih m' hm' b c hr hc pm'
        · omega
  intro b c rb hr hc
  rcases printable_reach wf rb p with ⟨m, _, pm⟩ | ⟨pm, _⟩
  · exact key m b c hr hc pm
  · exact key n b c hr hc pm

/-- Two bounds that are large enough give the same text. -/
theorem sprint_det {x : Ext} {h : Heap} {v : Val} {n m : Nat} {s s' : Str} (e : sprint x n h v = some s) (e' : sprint x m h v = some s') : s = s' := by
  have h1 := sprint_le (Nat.le_add_right n m) e
  have h2 := sprint_le (Nat.le_add_left m n) e'
  rw [h1] at h2; exact Option.some.inj h2

theorem goSprint_det {x : Ext} {h : Heap} {v : Val} {n m : Nat} {s s' : Str} (e : goSprint x n h v = some s) (e' : goSprint x m h v = some s') : s = s' := by
  have h1 := goSprint_le (Nat.le_add_right n m) e
  have h2 := goSprint_le (Nat.le_add_left m n) e'
  rw [h1] at h2; exact Option.some.inj h2

/-- A value without references is printed at once. -/
theorem sprint_flat {x : Ext} {h : Heap} {v : Val} (hv : ∀ a, v ≠ .ptr a) {n m : Nat} {s : Str} (e : sprint x n h v = some s) (hm : m ≠ 0) :
    sprint x m h v = some s := by
  cases n with
  | zero => cases e
  | succ n =>
    cases m with
    | zero => exact absurd rfl hm
    | succ m =>
      cases v with
      | ptr a => exact absurd rfl (hv a)
      | _ => exact e

theorem goSprint_flat {x : Ext} {h : Heap} {v : Val} (hv : ∀ a, v ≠ .ptr a) {n m : Nat} {s : Str} (e : goSprint x n h v = some s) (hm : m ≠ 0) :
    goSprint x m h v = some s := by
  cases n with
  | zero => cases e
  | succ n =>
    cases m with
    | zero => exact absurd rfl hm
    | succ m =>
      cases v with
      | ptr a => exact absurd rfl (hv a)
      | _ => exact e

/-- What can be printed can be printed within the bound that depends on the size of memory only. -/
theorem sprint_bound {x : Ext} {h : Heap} (wf : WF h) {v : Val} {n : Nat} {s : Str} (e : sprint x n h v = some s) : sprint x (2 * h.length + 1) h v = some s := by
  cases v with
  | ptr a =>
    rcases Nat.lt_or_ge a h.length with ha | ha
    · obtain ⟨⟨s', e'⟩, _⟩ := sprint_total x wf ha (printable_acyclic wf (Or.inl ⟨s, e⟩)) (d := 2 * h.length + 1) (by omega)
      rw [e', sprint_det e' e]
    · cases n with
      | zero => cases e
      | succ n => simp only [sprint, List.getElem?_eq_none ha] at e ⊢; exact e
  | _ => exact sprint_flat (by simp) e (by omega)

theorem goSprint_bound {x : Ext} {h : Heap} (wf : WF h) {v : Val} {n : Nat} {s : Str} (e : goSprint x n h v = some s) : goSprint x (2 * h.length + 1) h v = some s := by
  cases v with
  | ptr a =>
    rcases Nat.lt_or_ge a h.length with ha | ha
    · obtain ⟨_, ⟨s', e'⟩⟩ := sprint_total x wf ha (printable_acyclic wf (Or.inr ⟨s, e⟩)) (d := 2 * h.length + 1) (by omega)
      rw [e', goSprint_det e' e]
    · cases n with
      | zero => cases e
      | succ n => simp only [goSprint, List.getElem?_eq_none ha] at e ⊢; exact e
  | _ => exact goSprint_flat (by simp) e (by omega)

end Xcore.Dataset
