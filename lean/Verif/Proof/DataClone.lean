import Verif.Proof.DatasetTree
import Verif.Proof.EqualData
import Verif.Proof.TemplatePage

/-!
# Rendering clones, and what rendering does not touch
-/

namespace Xcore.Dataset

/-! ## Clones are proper data -/

/-- What an object must satisfy in memory without wrappers of nothing and with short collections. -/
def FineObj : Obj → Prop
  | .dsTS i => i ≠ none
  | .col l => (l.length : Int) < 2 ^ 63
  | .colTS l => (l.length : Int) < 2 ^ 63
  | _ => True

theorem fine_iff {h : Heap} : (Wrapped h ∧ Short h) ↔ ∀ (a : Nat) o, h[a]? = some o → FineObj o := by
  constructor
  · rintro ⟨hn, hs⟩ a o ho
    cases o with
    | dsTS i => intro e; rw [e] at ho; exact hn a ho
    | col l => exact hs a l (Or.inl ho)
    | colTS l => exact hs a l (Or.inr ho)
    | _ => trivial
  · intro hf
    refine ⟨fun a e => hf a _ e rfl, ?_⟩
    rintro a l (e | e)
    · exact hf a _ e
    · exact hf a _ e

theorem fine_append {h : Heap} {o : Obj} (hf : ∀ (a : Nat) o, h[a]? = some o → FineObj o) (ho : FineObj o) :
    ∀ (a : Nat) p, (h ++ [o])[a]? = some p → FineObj p := by
  intro a p e
  rw [List.getElem?_append] at e
  split at e
  · exact hf a p e
  · rw [List.getElem?_singleton] at e
    split at e
    · cases e; exact ho
    · cases e

theorem mapRes_inv {σ α β : Type} {I : σ → Prop} {f : σ → α → Res (σ × β)} {l : List α} (hf : ∀ a ∈ l, ∀ s s' b, I s → f s a = .ok (s', b) → I s') :
    ∀ s s' bs, I s → mapRes f s l = .ok (s', bs) → I s' ∧ bs.length = l.length := by
  induction l with
  | nil => intro s s' bs hs e; cases e; exact ⟨hs, rfl⟩
  | cons a l ih =>
    intro s s' bs hs e
    obtain ⟨s1, b, bs', e1, e2, rfl⟩ := mapRes_cons_ok.1 e
    obtain ⟨h1, h2⟩ := ih (fun a ha => hf a (by simp [ha])) s1 s' bs' (hf a (by simp) s s1 b hs e1) e2
    exact ⟨h1, by simp [h2]⟩

theorem clone_fine {n : Nat} {h h' : Heap} {v w : Val} (wf : WF h) (hv : Valid h v) (hf : ∀ (a : Nat) o, h[a]? = some o → FineObj o)
    (e : cloneVal n h v = .ok (h', w)) : ∀ (a : Nat) o, h'[a]? = some o → FineObj o := by
  induction n generalizing h h' v w with
  | zero => cases e
  | succ n ih =>
    cases v with
    | ptr a =>
      simp only [cloneVal] at e
      cases ho : h[a]? with
      | none => rw [ho] at e; cases e; exact hf
      | some o =>
        rw [ho] at e
        have hcol : ∀ {h1 : Heap} {l : List (Option Nat)} {ws : List Val}, IsCollection h a l →
            mapRes (fun h (e : Option Nat) => match e with
              | none => .panic
              | some b => cloneVal n h (.ptr b)) h l = .ok (h1, ws) → (∀ (a : Nat) o, h1[a]? = some o → FineObj o) ∧ WF h1 ∧ Grows h h1 ∧ ws.length = l.length := by
          intro h1 l ws hl e1
          obtain ⟨⟨h2, h3, h4⟩, h5⟩ := mapRes_inv (I := fun h1 => (∀ (a : Nat) o, h1[a]? = some o → FineObj o) ∧ WF h1 ∧ Grows h h1) (f := fun h (e : Option Nat) => match e with
              | none => .panic
              | some b => cloneVal n h (.ptr b)) (l := l) (by
            rintro d hd s s' w ⟨i1, i2, i3⟩ e
            cases d with
            | none => cases e
            | some d =>
              have hlt : d < s.length := Nat.lt_of_lt_of_le (isDataset_lt (wf.elem a l d hl hd)) i3.length
              obtain ⟨j1, j2, _⟩ := clone_copy (v := .ptr d) i2 hlt e
              exact ⟨ih (v := .ptr d) i2 hlt i1 e, j1, i3.trans j2⟩) h h1 ws ⟨hf, wf, .refl _⟩ e1
          exact ⟨h2, h3, h4, h5⟩
        cases o with
        | ds m =>
          simp only at e
          obtain ⟨⟨h1, m'⟩, e1, e2⟩ := map_ok.1 e
          cases e2
          refine fine_append ?_ trivial
          refine (mapRes_inv (I := fun h1 => (∀ (a : Nat) o, h1[a]? = some o → FineObj o) ∧ WF h1 ∧ Grows h h1)
            (f := fun h (p : Str × Val) => (cloneVal n h p.2).map fun r => (r.1, (p.1, r.2))) (l := m) ?_ h h1 m' ⟨hf, wf, .refl _⟩ e1).1.1
          rintro p hp s s' w ⟨i1, i2, i3⟩ e
          obtain ⟨⟨h2, w⟩, e3, e4⟩ := map_ok.1 e
          cases e4
          have hvp := (wf.valid a m p.1 p.2 ho hp).grow i3.ext
          obtain ⟨j1, j2, _⟩ := clone_copy i2 hvp e3
          exact ⟨ih i2 hvp i1 e3, j1, i3.trans j2⟩
        | dsTS i =>
          cases i with
          | none => cases e
          | some b =>
            simp only at e
            obtain ⟨⟨h1, w1⟩, e1, e2⟩ := bind_ok'.1 e
            have hb := wf.wrapper a b ho
            have hf1 := ih (v := .ptr b) wf (isDataset_lt hb.2 : b < h.length) hf e1
            cases w1 <;> cases e2
            exact fine_append hf1 (by simp [FineObj])
        | col l =>
          simp only at e
          obtain ⟨⟨h1, ws⟩, e1, e2⟩ := map_ok.1 e
          cases e2
          obtain ⟨f1, wf1, g1, el⟩ := hcol (Or.inl ho) e1
          exact fine_append f1 (by simp only [FineObj, List.length_map, el]; exact hf a _ ho)
        | colTS l =>
          simp only at e
          obtain ⟨⟨h1, ws⟩, e1, e2⟩ := map_ok.1 e
          cases e2
          obtain ⟨f1, wf1, g1, el⟩ := hcol (Or.inr ho) e1
          exact fine_append f1 (by simp only [FineObj, List.length_map, el]; exact hf a _ ho)
        | lang l => cases e; exact hf
        | slice l => cases e; exact hf
    | _ => cases e; exact hf

end Xcore.Dataset

namespace Xcore.Template

open Xcore.Dataset

theorem clone_proper {n : Nat} {h h' : Heap} {a c : Nat} (hp : Proper h (some a)) (e : cloneVal n h (.ptr a) = .ok (h', .ptr c)) : Proper h' (some c) := by
  have ha := isDataset_lt (hp.data a rfl)
  obtain ⟨wf', g, cp⟩ := clone_copy (v := .ptr a) hp.wf ha e
  obtain ⟨h1, h2⟩ := fine_iff.2 (clone_fine (v := .ptr a) hp.wf ha (fine_iff.1 ⟨hp.wrapped, hp.short⟩) e)
  obtain ⟨b, e1, _, h3⟩ := cp.isDataset (g.ext.isDataset (hp.data a rfl))
  cases e1
  exact ⟨wf', h1, h2, fun a e => by cases e; exact h3⟩

/-! ## What rendering does not touch -/

/-- `S` contains what its objects refer to. -/
def RefClosed (h : Heap) (S : Nat → Prop) : Prop := ∀ a b, S a → Refers h a b → S b

theorem RefClosed.wraps {h : Heap} {S : Nat → Prop} (cl : RefClosed h S) {a t : Nat} (w : Wraps h a t) (ha : S a) : S t := by
  induction w with
  | plain _ => exact ha
  | wrapper h1 _ ih => exact ih (cl _ _ ha (.wrapped h1))

theorem RefClosed.entry {h : Heap} {S : Nat → Prop} (cl : RefClosed h S) {a b : Nat} {k : Str} (e : Entry h a k (.ptr b)) (ha : S a) : S b := by
  obtain ⟨t, m, w, hm, hk⟩ := e
  exact cl _ _ (cl.wraps w ha) (.ptr hm (AMap.mem_of_get hk))

theorem RefClosed.leads {h : Heap} {S : Nat → Prop} (cl : RefClosed h S) {a b : Nat} {p : List Str} {v : Val} (e : Leads h a p v) (hv : v = .ptr b) (ha : S a) : S b := by
  induction e with
  | entry h1 => subst hv; exact cl.entry h1 ha
  | dataset h1 _ _ ih => exact ih hv (cl.entry h1 ha)
  | element h1 h2 _ h3 => cases hv; exact cl _ _ (cl.entry h1 ha) (.elem h2 (List.mem_of_getElem? h3))
  | through h1 h2 _ h3 _ ih => exact ih hv (cl _ _ (cl.entry h1 ha) (.elem h2 (List.mem_of_getElem? h3)))
  | literal _ _ h1 => subst hv; exact cl.entry h1 ha

theorem RefClosed.valueAt {h : Heap} {S : Nat → Prop} (cl : RefClosed h S) {σ : Option (List Nat)} {p : Str} {v : Val} {b : Nat} (e : ValueAt h σ p v) (hv : v = .ptr b)
    (hσ : ∀ l, σ = some l → ∀ a ∈ l, S a) : S b := by
  induction e with
  | here h1 => exact cl.leads h1 hv (hσ _ rfl _ (by simp))
  | outer _ _ ih => exact ih hv (by intro l e a ha; cases e; exact hσ _ rfl a (by simp [ha]))
  | missing => cases hv
  | noData => cases hv

/-- Rendering with datasets from a closed part of memory writes to datasets of this part only. -/
theorem renders_frame {x : Ext} {lang : Option Language.Lang} {S : Nat → Prop} {sc : List Doc} {job : Job} {σ : Option (List Nat)} {h h' : Heap} {s : Str}
    (r : Renders x lang sc job σ h h' s) : RefClosed h S → (∀ l, σ = some l → ∀ a ∈ l, S a) → (∀ id n i q, job = .loop id n i q → ∀ a, some a ∈ q → S a) →
    RefClosed h' S ∧ ∀ b : Nat, h'[b]? = h[b]? ∨ (S b ∧ ∃ m, h[b]? = some (.ds m)) := by
  have comp : ∀ {h1 h2 h3 : Heap}, Shape h1 h2 → (∀ b : Nat, h2[b]? = h1[b]? ∨ (S b ∧ ∃ m, h1[b]? = some (.ds m))) →
      (∀ b : Nat, h3[b]? = h2[b]? ∨ (S b ∧ ∃ m, h2[b]? = some (.ds m))) → ∀ b : Nat, h3[b]? = h1[b]? ∨ (S b ∧ ∃ m, h1[b]? = some (.ds m)) := by
    intro h1 h2 h3 sh f1 f2 b
    rcases f1 b with e | e
    · rcases f2 b with e' | ⟨e', m, hm⟩
      · exact Or.inl (e'.trans e)
      · exact Or.inr ⟨e', m, by rw [← e]; exact hm⟩
    · exact Or.inr e
  have push : ∀ {σ : List Nat} {a : Nat}, S a → (∀ l, some σ = some l → ∀ a ∈ l, S a) → ∀ l, some (a :: σ) = some l → ∀ a ∈ l, S a := by
    intro σ a ha hσ l e b hb
    cases e
    rcases List.mem_cons.1 hb with rfl | hb
    · exact ha
    · exact hσ _ rfl b hb
  induction r with
  | document _ ih => exact fun cl hσ _ => ih cl hσ (by simp)
  | cons q _ ih1 ih2 =>
    intro cl hσ _
    obtain ⟨c1, f1⟩ := ih1 cl hσ (by simp)
    obtain ⟨c2, f2⟩ := ih2 c1 hσ (by simp)
    exact ⟨c2, comp (renders_shape q) f1 f2⟩
  | chosen _ _ ih => exact fun cl hσ _ => ih cl hσ (by simp)
  | reference _ _ _ _ ih => exact fun cl hσ _ => ih cl hσ (by simp)
  | referenceWith _ _ hv _ _ ih => exact fun cl hσ _ => ih cl (push (cl.valueAt hv rfl hσ) hσ) (by simp)
  | referenceWithout _ _ _ _ _ ih => exact fun cl hσ _ => ih cl hσ (by simp)
  | referenceValue _ _ _ _ ih => exact fun cl hσ _ => ih cl hσ (by simp)
  | rangeEmpty _ _ _ _ _ ih => exact fun cl hσ _ => ih cl hσ (by simp)
  | range _ _ hv hc _ _ ih =>
    exact fun cl hσ _ => ih cl hσ (by intro id n i q e a ha; cases e; exact cl _ _ (cl.valueAt hv rfl hσ) (.elem hc ha))
  | @loop sc σ h h₁ h₂ h₃ s₁ s₂ id n i a l hs q _ ih1 ih2 =>
    intro cl hσ hj
    have ha := hj _ _ _ _ rfl a (by simp)
    have sh := shape_counter hs
    have first : RefClosed h₁ S ∧ ∀ b : Nat, h₁[b]? = h[b]? ∨ (S b ∧ ∃ m, h[b]? = some (.ds m)) := by
      obtain ⟨t, m, w, hm, rfl⟩ := hs
      have ht := cl.wraps w ha
      refine ⟨?_, ?_⟩
      · intro u v hu hr
        have get_ne : u ≠ t → (h.set t (.ds (m.set b!".counter" (.int .int (i + 1)))))[u]? = h[u]? := fun hne => by
          rw [List.getElem?_set, if_neg (Ne.symm hne)]
        by_cases hut : u = t
        · subst hut
          have hget : (h.set u (.ds (m.set b!".counter" (.int .int (i + 1)))))[u]? = some (.ds (m.set b!".counter" (.int .int (i + 1)))) := by
            rw [List.getElem?_set]; simp [lt_of_getElem? hm]
          have hmem : ∀ {k : Str} {w : Val}, (k, w) ∈ m.set b!".counter" (.int .int (i + 1)) → (k, w) ∈ m ∨ w = .int .int (i + 1) := by
            intro k w hk
            have : ∀ (m : AMap Val), (k, w) ∈ m.set b!".counter" (.int .int (i + 1)) → (k, w) ∈ m ∨ w = .int .int (i + 1) := by
              intro m
              induction m with
              | nil => intro hk; simp only [AMap.set, List.mem_singleton, Prod.mk.injEq] at hk; exact Or.inr hk.2
              | cons p m ih =>
                obtain ⟨k', v'⟩ := p
                intro hk
                simp only [AMap.set] at hk
                split at hk
                · rcases List.mem_cons.1 hk with hk | hk
                  · cases hk; exact Or.inr rfl
                  · exact Or.inl (by simp [hk])
                · rcases List.mem_cons.1 hk with hk | hk
                  · cases hk; exact Or.inl (by simp)
                  · rcases ih hk with hk | hk
                    · exact Or.inl (by simp [hk])
                    · exact Or.inr hk
            exact this m hk
          cases hr with
          | ptr h1 hk =>
            rw [hget] at h1; cases h1
            rcases hmem hk with hk | hk
            · exact cl _ _ hu (.ptr hm hk)
            · cases hk
          | slice h1 hk =>
            rw [hget] at h1; cases h1
            rcases hmem hk with hk | hk
            · exact cl _ _ hu (.slice hm hk)
            · cases hk
          | wrapped h1 => rw [hget] at h1; cases h1
          | elem h1 hk => unfold IsCollection at h1; rw [hget] at h1; simp at h1
        · have e := get_ne hut
          refine cl _ _ hu ?_
          cases hr with
          | ptr h1 hk => exact .ptr (by rw [← e]; exact h1) hk
          | slice h1 hk => exact .slice (by rw [← e]; exact h1) hk
          | wrapped h1 => exact .wrapped (by rw [← e]; exact h1)
          | elem h1 hk => exact .elem (by unfold IsCollection at h1 ⊢; rw [← e]; exact h1) hk
      · intro b
        rw [List.getElem?_set]
        by_cases hb : t = b
        · subst hb; exact Or.inr ⟨ht, m, hm⟩
        · rw [if_neg hb]; exact Or.inl rfl
    obtain ⟨c1, f1⟩ := first
    obtain ⟨c2, f2⟩ := ih1 c1 (push ha hσ) (by simp)
    obtain ⟨c3, f3⟩ := ih2 c2 hσ (by intro id n i q e b hb; cases e; exact hj _ _ _ _ rfl b (by simp [hb]))
    exact ⟨c3, comp sh f1 (comp (renders_shape q) f2 f3)⟩
  | conditionNone _ _ _ _ ih => exact fun cl hσ _ => ih cl hσ (by simp)
  | conditionValue _ _ _ _ _ _ _ ih => exact fun cl hσ _ => ih cl hσ (by simp)
  | conditionDataset _ hv _ _ _ _ ih => exact fun cl hσ _ => ih cl (push (cl.valueAt hv rfl hσ) hσ) (by simp)
  | _ => exact fun cl _ _ => ⟨cl, fun _ => Or.inl rfl⟩

theorem executes_frame {x : Ext} {d : Doc} {a : Nat} {h h' : Heap} {s : Str} (e : Executes x d (some a) h h' s) :
    ∀ b : Nat, h'[b]? = h[b]? ∨ (Reach h a b ∧ ∃ m, h[b]? = some (.ds m)) := by
  cases e with
  | data _ r =>
    refine (renders_frame (S := Reach h a) r ?_ ?_ (by simp)).2
    · exact fun u v hu hr => hu.tail hr
    · intro l e b hb; cases e; simp at hb; subst hb; exact .refl

end Xcore.Template
