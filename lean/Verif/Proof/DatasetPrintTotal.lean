import Verif.Proof.DatasetPrint
import Verif.Proof.DatasetIndep

/-!
# Printing acyclic data terminates
-/

namespace Xcore.Dataset

theorem mapOpt_total {α β : Type} {f : α → Option β} {l : List α} (hf : ∀ a ∈ l, ∃ b, f a = some b) : ∃ m, mapOpt f l = some m := by
  induction l with
  | nil => exact ⟨[], rfl⟩
  | cons a l ih =>
    obtain ⟨b, hb⟩ := hf a (by simp)
    obtain ⟨bs, hbs⟩ := ih fun a ha => hf a (by simp [ha])
    exact ⟨b :: bs, by simp only [mapOpt, hb, hbs]⟩

/-- Induction over acyclic data: an object after everything reachable from it. The number is at most the number of objects. -/
theorem acyclic_induct {h : Heap} (wf : WF h) {a : Addr} (ha : a < h.length) (hac : Acyclic h a) {P : Nat → Addr → Prop}
    (step : ∀ n b, Reach h a b → (∀ c x, Refers h b x → Reach h x c → P n c) → P (n + 1) b) :
    ∀ (n : Nat) (vis : List Addr) (b : Addr), Reach h a b → vis.Nodup → (∀ v ∈ vis, Reach h a v ∧ ∃ c, Refers h v c ∧ Reach h c b) →
      h.length ≤ vis.length + n → P n b := by
  intro n
  induction n with
  | zero =>
    intro vis b rb nd hv hl
    exfalso
    have hb : b ∉ vis := fun hb => by
      obtain ⟨h1, c, h2, h3⟩ := hv b hb
      exact hac b c h1 h2 h3
    have : (b :: vis).length ≤ h.length := by
      rw [← List.length_range (n := h.length)]
      refine Xcore.nodup_length_le (List.nodup_cons.2 ⟨hb, nd⟩) ?_
      intro v hv'
      rw [List.mem_range]
      rcases List.mem_cons.1 hv' with rfl | hv'
      · exact reach_lt wf rb ha
      · exact reach_lt wf (hv v hv').1 ha
    simp at this hl; omega
  | succ n ih =>
    intro vis b rb nd hv hl
    have hb : b ∉ vis := fun hb => by
      obtain ⟨h1, c, h2, h3⟩ := hv b hb
      exact hac b c h1 h2 h3
    refine step n b rb fun c x hx hc => ?_
    refine ih (b :: vis) c (rb.trans (.step hx hc)) (List.nodup_cons.2 ⟨hb, nd⟩) ?_ (by simp; omega)
    intro v hv'
    rcases List.mem_cons.1 hv' with rfl | hv'
    · exact ⟨rb, x, hx, hc⟩
    · obtain ⟨h1, y, h2, h3⟩ := hv v hv'
      exact ⟨h1, y, h2, h3.trans (.step hx hc)⟩

/-- `String` and `GoString` of acyclic data end. -/
theorem sprint_total (x : Ext) {h : Heap} (wf : WF h) {a : Addr} (ha : a < h.length) (hac : Acyclic h a) {d : Nat} (hd : 2 * h.length < d) :
    (∃ s, sprint x d h (.ptr a) = some s) ∧ ∃ s, goSprint x d h (.ptr a) = some s := by
  suffices H : ∀ (n : Nat) (vis : List Addr) (b : Addr), Reach h a b → vis.Nodup → (∀ v ∈ vis, Reach h a v ∧ ∃ c, Refers h v c ∧ Reach h c b) →
      h.length ≤ vis.length + n → (∃ s, sprint x (2 * n + 1) h (.ptr b) = some s) ∧ ∃ s, goSprint x (2 * n + 1) h (.ptr b) = some s by
    obtain ⟨⟨s, h1⟩, ⟨t, h2⟩⟩ := H h.length [] a .refl List.nodup_nil (by simp) (by simp)
    exact ⟨⟨s, sprint_le hd h1⟩, ⟨t, goSprint_le hd h2⟩⟩
  refine acyclic_induct wf ha hac (P := fun n b => (∃ s, sprint x (2 * n + 1) h (.ptr b) = some s) ∧ ∃ s, goSprint x (2 * n + 1) h (.ptr b) = some s) ?_
  intro n b rb child
  have hc : ∀ c, Refers h b c → ∃ s, sprint x (2 * n + 1) h (.ptr c) = some s := fun c hc => (child c c hc .refl).1
  have hs : ∀ k, ∃ s, sprint x (2 * n + 1 + 1 + k) h (.ptr b) = some s := by
    intro k
    suffices H : ∃ s, sprint x (2 * n + 1 + 1) h (.ptr b) = some s by
      obtain ⟨s, hs⟩ := H; exact ⟨s, sprint_le (Nat.le_add_right _ _) hs⟩
    rw [sprint]
    have elems : ∀ l, IsCollection h b l → ∃ r, mapOpt (fun e : Option Addr => match e with | none => some b!"<nil>" | some b => sprint x (2 * n + 1) h (.ptr b)) l = some r := by
      intro l hl
      refine mapOpt_total fun e he => ?_
      cases e with
      | none => exact ⟨_, rfl⟩
      | some c => exact hc c (.elem hl he)
    cases ho : h[b]? with
    | none => exact ⟨_, rfl⟩
    | some o =>
      cases o with
      | ds m =>
        obtain ⟨r, e⟩ := mapOpt_total (f := fun p : Str × Val => (sprint x (2 * n + 1) h p.2).map fun s => p.1 ++ b!":" ++ s) (l := m) (by
          intro p hp
          obtain ⟨k, v⟩ := p
          cases v with
          | ptr c => obtain ⟨s, hs⟩ := hc c (.ptr ho hp); exact ⟨_, by simp only [hs]; rfl⟩
          | slice sk c =>
            obtain ⟨l, hl⟩ := wf.valid b m _ _ ho hp
            exact ⟨_, by simp only [sprint, hl]; rfl⟩
          | _ => exact ⟨_, rfl⟩)
        exact ⟨_, by simp only [e]; rfl⟩
      | dsTS i =>
        simp only
        cases e : target h b with
        | none => exact ⟨_, rfl⟩
        | some t =>
          have w := (target_iff wf).1 e
          cases w with
          | plain hm => rw [ho] at hm; cases hm
          | wrapper hb w => exact (child t _ (.wrapped hb) (wraps_reach w)).1
      | col l => obtain ⟨r, e⟩ := elems l (Or.inl ho); exact ⟨_, congrArg (fun o => match o with | none => none | some l => some (b!"XDatasetCollection[" ++ colText 0 l ++ b!"]")) e⟩
      | colTS l => obtain ⟨r, e⟩ := elems l (Or.inr ho); exact ⟨_, congrArg (fun o => match o with | none => none | some l => some (b!"XDatasetCollectionTS[" ++ colText 0 l ++ b!"]")) e⟩
      | lang l => exact ⟨_, rfl⟩
      | slice l => exact ⟨_, rfl⟩
  have e2 : 2 * (n + 1) + 1 = 2 * n + 1 + 1 + 1 := by omega
  rw [e2]
  refine ⟨hs 1, ?_⟩
  have lift : ∀ c y, Refers h b y → Reach h y c → ∃ s, goSprint x (2 * n + 1 + 1) h (.ptr c) = some s := by
    intro c y hy hc
    obtain ⟨s, hs⟩ := (child c y hy hc).2
    exact ⟨s, goSprint_mono hs⟩
  rw [goSprint]
  cases ho : h[b]? with
  | none => exact ⟨_, rfl⟩
  | some o =>
    cases o with
    | ds m =>
      obtain ⟨r, e⟩ := mapOpt_total (f := fun p : Str × Val => (goSprint x (2 * n + 1 + 1) h p.2).map fun s => p.1 ++ b!":" ++ s) (l := m) (by
        intro p hp
        obtain ⟨k, v⟩ := p
        cases v with
        | ptr c => obtain ⟨s, hs⟩ := lift c c (.ptr ho hp) .refl; exact ⟨_, by simp only [hs]; rfl⟩
        | slice sk c =>
          obtain ⟨l, hl⟩ := wf.valid b m _ _ ho hp
          exact ⟨_, by simp only [goSprint, hl]; rfl⟩
        | _ => exact ⟨_, rfl⟩)
      exact ⟨_, by simp only [e]; rfl⟩
    | dsTS i =>
      simp only
      cases e : target h b with
      | none => exact ⟨_, rfl⟩
      | some t =>
        have w := (target_iff wf).1 e
        cases w with
        | plain hm => rw [ho] at hm; cases hm
        | wrapper hb w => exact lift t _ (.wrapped hb) (wraps_reach w)
    | col l => exact hs 0
    | colTS l => exact hs 0
    | lang l => exact ⟨_, rfl⟩
    | slice l => exact ⟨_, rfl⟩

/-- A wrapper around copies. -/
theorem wraps_copy {L : Nat} {h : Heap} {a t : Addr} (w : Wraps h a t) : ∀ {n : Nat} {c : Addr}, CopyN L n h (.ptr a) (.ptr c) →
    ∃ t' n', Wraps h c t' ∧ CopyN L n' h (.ptr t) (.ptr t') := by
  induction w with
  | @plain a m ho =>
    intro n c cp
    cases n with
    | zero => exact cp.elim
    | succ n =>
      have cp' := cp
      simp only [CopyN, ho] at cp
      obtain ⟨c', m', e, _, h3, _⟩ := cp
      cases e
      exact ⟨c, n + 1, .plain h3, cp'⟩
  | wrapper ho _ ih =>
    intro n c cp
    cases n with
    | zero => exact cp.elim
    | succ n =>
      simp only [CopyN, ho] at cp
      obtain ⟨c', b, b', e, e', _, h3, h4⟩ := cp
      cases e; cases e'
      obtain ⟨t', n', h5, h6⟩ := ih h4
      exact ⟨t', n', .wrapper h3 h5, h6⟩

end Xcore.Dataset
