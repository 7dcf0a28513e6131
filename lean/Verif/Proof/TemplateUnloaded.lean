import Verif.Spec.TemplateUnloaded
import Verif.Proof.TemplateClone

/-!
# Templates without a compiled text stay so
-/

namespace Xcore.Template

open Xcore.Dataset (mapRes mapRes_cons_ok)

/-- Old templates keep their roots. -/
def SameRoots (th th' : THeap) : Prop := th.length ≤ th'.length ∧ ∀ a, a < th.length → th'[a]?.map Tpl.root = th[a]?.map Tpl.root

theorem SameRoots.refl (th : THeap) : SameRoots th th := ⟨Nat.le_refl _, fun _ _ => rfl⟩

theorem SameRoots.trans {a b c : THeap} (h : SameRoots a b) (k : SameRoots b c) : SameRoots a c :=
  ⟨Nat.le_trans h.1 k.1, fun x hx => (k.2 x (Nat.lt_of_lt_of_le hx h.1)).trans (h.2 x hx)⟩

theorem SameRoots.upd (th : THeap) (a : Nat) {f : Tpl → Tpl} (hf : ∀ o, (f o).root = o.root) : SameRoots th (upd th a f) := by
  refine ⟨by rw [upd_length]; exact Nat.le_refl _, fun b _ => ?_⟩
  rw [upd_get']
  split
  · next e => subst e; cases th[b]? <;> simp [hf]
  · rfl

theorem SameRoots.append (th : THeap) (l : List Tpl) : SameRoots th (th ++ l) :=
  ⟨by simp, fun a ha => by rw [List.getElem?_append_left ha]⟩

theorem SameRoots.add (th : THeap) (u : Nat) (name : Str) (v : Nat) : SameRoots th (addTemplate th u name v) := by
  unfold addTemplate
  refine SameRoots.trans (b := Template.upd th v fun o => { o with father := some u }) ?_ ?_
  · exact SameRoots.upd _ _ fun _ => rfl
  · exact SameRoots.upd _ _ fun _ => rfl

/-- Cloning keeps the roots, and the clone has the root of the original. -/
theorem clone_roots : ∀ (n : Nat) (th th' : THeap) (t c : Nat), clone n th t = .ok (th', c) →
    SameRoots th th' ∧ c < th'.length ∧ th'[c]?.map Tpl.root = th[t]?.map Tpl.root := by
  intro n
  induction n with
  | zero => intro th th' t c e; cases e
  | succ n ih =>
    intro th th' t c e
    simp only [clone] at e
    cases ho : th[t]? with
    | none => rw [ho] at e; cases e
    | some o =>
      rw [ho] at e
      simp only at e
      have h0 : SameRoots (th ++ [⟨o.name, o.root, none, none⟩]) th' ∧ c = th.length → SameRoots th th' ∧ c < th'.length ∧ th'[c]?.map Tpl.root = some o.root := by
        rintro ⟨h1, rfl⟩
        have := h1.1
        simp only [List.length_append, List.length_singleton] at this
        refine ⟨(SameRoots.append _ _).trans h1, by omega, ?_⟩
        rw [h1.2 _ (by simp)]
        simp
      refine h0 ?_
      cases hs : o.subs with
      | none =>
        rw [hs] at e
        cases e
        exact ⟨SameRoots.upd _ _ fun _ => rfl, rfl⟩
      | some m =>
        rw [hs] at e
        simp only at e
        rw [Res.bind_eq_ok] at e
        obtain ⟨r, e1, e2⟩ := e
        cases e2
        refine ⟨?_, rfl⟩
        have loop : ∀ (l : List (Str × Nat)) (k : Nat) (th0 : THeap) (r : THeap × List (Str × Nat)),
            mapRes (fun th (p : Str × Nat) => (clone n th p.2).map fun q => (Template.upd q.1 p.2 fun o' => { o' with father := some k }, (p.1, q.2))) th0 l = .ok r →
            SameRoots th0 r.1 := by
          intro l k
          induction l with
          | nil => intro th0 r e; cases e; exact .refl _
          | cons p l ihl =>
            intro th0 r e
            obtain ⟨r1, r2⟩ := r
            obtain ⟨s1, b, bs, e1, e2, rfl⟩ := mapRes_cons_ok.1 e
            cases ec : clone n th0 p.2 with
            | panic => rw [ec] at e1; cases e1
            | diverge => rw [ec] at e1; cases e1
            | ok q =>
              rw [ec] at e1
              cases e1
              have h2 := ihl _ _ e2
              refine ((ih _ _ _ _ ec).1.trans ?_).trans h2
              exact SameRoots.upd _ _ fun _ => rfl
        exact (loop m _ _ _ e1).trans (SameRoots.upd _ _ fun _ => rfl)

/-- Templates without a compiled text have no root. -/
theorem unloaded_root {th : THeap} {t : Nat} (h : Unloaded th t) : ∃ o, th[t]? = some o ∧ o.root = none := by
  have of_map : ∀ {th th' : THeap} {t c : Nat}, (∃ o, th[t]? = some o ∧ o.root = none) → th'[c]?.map Tpl.root = th[t]?.map Tpl.root →
      ∃ o, th'[c]? = some o ∧ o.root = none := by
    rintro th th' t c ⟨o, h1, h2⟩ e
    rw [h1] at e
    cases ec : th'[c]? with
    | none => rw [ec] at e; cases e
    | some o' => rw [ec] at e; simp at e; exact ⟨o', rfl, e.trans h2⟩
  have lt : ∀ {th : THeap} {t : Nat}, (∃ o, th[t]? = some o ∧ o.root = none) → t < th.length := fun ⟨_, h, _⟩ => (List.getElem?_eq_some_iff.1 h).1
  induction h with
  | new e => cases e; exact ⟨⟨[], none, none, none⟩, by simp, rfl⟩
  | @failed th th' t s _ e ih =>
    obtain ⟨o, h1, h2⟩ := ih
    have := load_frame h1 s
    rw [e] at this
    obtain ⟨_, m, r, q2, q3⟩ := this
    exact ⟨_, q2, (q3 rfl).trans h2⟩
  | cloned _ e ih => exact of_map ih (clone_roots _ _ _ _ _ e).2.2
  | added _ ih => exact of_map ih ((SameRoots.add _ _ _ _).2 _ (lt ih))
  | newOther _ e ih => cases e; exact of_map ih ((SameRoots.append _ _).2 _ (lt ih))
  | @loadOther th th' t u s b _ hu hl e ih =>
    have := (load_frame (List.getElem?_eq_getElem hl) s).1 t (lt ih) (fun e => hu e.symm)
    rw [e] at this
    exact of_map ih (by rw [this])
  | cloneOther _ e ih => exact of_map ih ((clone_roots _ _ _ _ _ e).1.2 _ (lt ih))

end Xcore.Template
