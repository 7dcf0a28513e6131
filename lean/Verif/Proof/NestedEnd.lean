import Verif.Proof.NestedRank
import Mathlib.Logic.Hydra

/-! # In layered data, calls end -/

namespace Xcore.Nested

open Dataset Lock

/-- How much an instruction can still do: the layer it works on and the step, then the elements still to be looked at. -/
def weight (r : Nat → Nat) : Instr → Nat × Nat
  | .enter _ _ _ x => ((weight r x).1, (weight r x).2 + 2)
  | .await _ _ x => ((weight r x).1, (weight r x).2 + 1)
  | .call (.getString _) a => (10 * r a + 9, 0)
  | .call _ a => (10 * r a + 8, 0)
  | .body _ a => (10 * r a + 2, 0)
  | .elem _ c _ _ => (10 * r c + 2, 0)
  | .elems c => (10 * r c + 1, 0)
  | .printAnswer a => (10 * r a + 1, 0)
  | .size c _ => (10 * r c + 6, 0)
  | .scan c n _ => (10 * r c + 5, 5 * n)
  | .pick c n _ => (10 * r c + 5, 5 * n + 2)
  | .check c n _ => (10 * r c + 5, 5 * n + 1)
  | _ => (0, 0)

def Less (p q : Nat × Nat) : Prop := p.1 < q.1 ∨ (p.1 = q.1 ∧ p.2 < q.2)

theorem less_wf : WellFounded Less := by
  have h : WellFounded (Prod.Lex (· < ·) (· < ·) : Nat × Nat → Nat × Nat → Prop) := WellFounded.prod_lex Nat.lt_wfRel.wf Nat.lt_wfRel.wf
  refine Subrelation.wf ?_ h
  rintro ⟨a, b⟩ ⟨c, d⟩ (h | ⟨h1, h2⟩)
  · exact Prod.Lex.left _ _ h
  · simp only at h1 h2
    subst h1
    exact Prod.Lex.right _ h2

theorem weight_call_le (r : Nat → Nat) (op : Op) (a : Nat) : (weight r (.call op a)).1 ≤ 10 * r a + 9 := by
  cases op <;> simp [weight]

theorem weight_call_ge (r : Nat → Nat) (op : Op) (a : Nat) : 10 * r a + 8 ≤ (weight r (.call op a)).1 := by
  cases op <;> simp [weight]

/-- What the instruction leaves to do: smaller instructions. -/
def Cuts (r : Nat → Nat) (x : Instr) (s s' : List Instr) : Prop := ∃ t, (∀ y ∈ t, Less (weight r y) (weight r x)) ∧ s'.Perm (t ++ s)

theorem Cuts.none (r : Nat → Nat) (x : Instr) (s : List Instr) : Cuts r x s s := ⟨[], by simp, .refl _⟩

theorem Cuts.front {r : Nat → Nat} {x : Instr} {s : List Instr} (t : List Instr) (h : ∀ y ∈ t, Less (weight r y) (weight r x)) :
    Cuts r x s (t ++ s) := ⟨t, h, .refl _⟩

theorem Cuts.one {r : Nat → Nat} {x y : Instr} {s : List Instr} (h : Less (weight r y) (weight r x)) : Cuts r x s (y :: s) :=
  Cuts.front [y] (by simpa using h)

theorem Cuts.andThen {r : Nat → Nat} {x : Instr} {s : List Instr} (t : List Instr) (h : ∀ y ∈ t, Less (weight r y) (weight r x)) :
    Cuts r x s (andThen t s) := by
  refine ⟨t, h, ?_⟩
  cases s with
  | nil => simp [Nested.andThen]
  | cons y s => exact List.perm_middle.symm

theorem less_call {r : Nat → Nat} {op op' : Op} {a b : Nat} (h : r b < r a) : Less (weight r (.call op b)) (weight r (.call op' a)) := by
  have := weight_call_le r op b
  have := weight_call_ge r op' a
  exact Or.inl (by omega)

theorem getStep_cuts {r : Nat → Nat} {h : Heap} (hL : Layered r h) {ans : Option Val} {a : Nat} {m : AMap Val} (hm : h[a]? = some (.ds m))
    {s s' : List Instr} {segs segs0 : List Str} {h' : Heap} {ans' : Option Val}
    (e : getStep h ans m s segs = .next h' ans' s') : Cuts r (.call (.get segs0) a) s s' := by
  have hval : ∀ k b, m.get k = some (.ptr b) → r b < r a := fun k b hg => hL a b (.value hm (AMap.mem_of_get hg))
  unfold getStep at e
  split at e
  · cases e; exact .none _ _ _
  · cases e; exact .none _ _ _
  · rename_i p p2 rest
    split at e
    · cases e; exact .none _ _ _
    · rename_i v hv
      split at e
      · rename_i b hb
        cases e
        have hvb : v = .ptr b := by
          cases v <;> simp [asDataset] at hb
          split at hb <;> simp at hb <;> rw [hb]
        subst hvb
        exact .one (less_call (hval _ _ hv))
      · split at e
        · rename_i c hc
          have hvc : v = .ptr c := by
            cases v <;> simp [asCollection] at hc
            split at hc <;> simp at hc <;> rw [hc]
          subst hvc
          have hrc := hval _ _ hv
          split at e
          · cases e; exact .none _ _ _
          · split at e
            · cases e
              exact .one (Or.inl (by simp only [weight]; omega))
            · cases e
              exact .one (Or.inl (by simp only [weight]; omega))
        · cases e; exact .none _ _ _

theorem Cuts.calls {r : Nat → Nat} {s : List Instr} (op op' : Op) (l : List Nat) {a : Nat} (hl : ∀ b ∈ l, r b < r a) :
    Cuts r (.call op' a) s (l.map (.call op) ++ s) := by
  refine .front _ ?_
  intro y hy
  obtain ⟨b, hb, rfl⟩ := List.mem_map.1 hy
  exact less_call (hl b hb)

theorem Cuts.clones {r : Nat → Nat} {s : List Instr} (op' : Op) (l : List (Option Nat)) {a : Nat} (hl : ∀ b, some b ∈ l → r b < r a) :
    Cuts r (.call op' a) s (cloneElems l ++ s) := by
  refine .front _ ?_
  intro y hy
  obtain ⟨o, ho, rfl⟩ := List.mem_map.1 hy
  cases o with
  | none => exact Or.inl (by have := weight_call_ge r op' a; simp only [weight]; omega)
  | some b => exact less_call (hl b ho)

theorem exec_cuts {r : Nat → Nat} {h : Heap} (hL : Layered r h) {ans : Option Val} {x : Instr} {s s' : List Instr} {h' : Heap} {ans' : Option Val}
    {β : Bound} (hans : AnsLt r β ans) (hfl : Flow r β (x :: s)) (e : exec h ans x s = .next h' ans' s') : Cuts r x s s' := by
  cases x with
  | call op a =>
    have hge := weight_call_ge r op a
    simp only [exec, callStep] at e
    split at e
    · cases e; exact .one (Or.inl (by simp only [weight] at hge ⊢; omega))
    · rename_i m hm
      cases op with
      | get segs => exact getStep_cuts hL hm e
      | getString segs =>
        cases e
        refine .front [_, _] ?_
        intro y hy
        simp only [List.mem_cons, List.not_mem_nil, or_false] at hy
        rcases hy with rfl | rfl
        · exact Or.inl (by simp [weight])
        · exact Or.inl (by simp [weight])
      | set k v => cases e; exact .none _ _ _
      | del k => cases e; exact .none _ _ _
      | print =>
        cases e
        refine .calls _ _ _ ?_
        intro b hb
        obtain ⟨⟨k, v⟩, hp, hpv⟩ := List.mem_filterMap.1 hb
        cases v <;> simp [ptrOf] at hpv
        subst hpv
        exact hL a _ (.value hm hp)
      | clone =>
        cases e
        refine .calls _ _ _ ?_
        intro b hb
        obtain ⟨⟨k, v⟩, hp, hpv⟩ := List.mem_filterMap.1 hb
        obtain rfl := cloneable_ptr hpv
        exact hL a _ (.value hm hp)
    · rename_i l hl
      split at e
      · cases e
        refine .calls _ _ _ ?_
        intro b hb
        obtain ⟨o, ho, rfl⟩ := List.mem_filterMap.1 hb
        exact hL a _ (.element hl ho)
      · cases e
        exact .clones _ _ fun b hb => hL a _ (.element hl hb)
      · cases e; exact .none _ _ _
    · rename_i l hl
      split at e
      · cases e; exact .one (Or.inl (by simp only [weight] at hge ⊢; omega))
      · cases e
        exact .clones _ _ fun b hb => hL a _ (.elementTS hl hb)
      · cases e; exact .none _ _ _
    · split at e
      · cases e; exact .one (Or.inl (by simp only [weight] at hge ⊢; omega))
      · cases e; exact .none _ _ _
    · cases e; exact .none _ _ _
  | body op a =>
    simp only [exec] at e
    split at e
    · rename_i b hb
      cases e
      have hrb := hL a b (.wrapped hb)
      have := weight_call_le r op b
      exact .one (Or.inl (by simp only [weight] at this ⊢; omega))
    · split at e
      · cases e; exact .none _ _ _
      · cases e
  | elem locked c i rest =>
    simp only [exec] at e
    split at e
    · rename_i b hb
      have hrb := hL c b (elems_contains (colGet_mem hb))
      split at e
      · cases e; exact .none _ _ _
      · cases e
        cases locked
        · exact .one (Or.inl (by simp only [weight]; omega))
        · exact .andThen [_] (by simp only [List.mem_singleton, forall_eq]; exact Or.inl (by simp only [weight]; omega))
    · cases e; exact .none _ _ _
  | elems c =>
    cases e
    refine .front _ ?_
    intro y hy
    obtain ⟨b, hb, rfl⟩ := List.mem_map.1 hy
    obtain ⟨o, ho, rfl⟩ := List.mem_filterMap.1 hb
    have := hL c _ (elems_contains ho)
    exact Or.inl (by simp only [weight]; omega)
  | printAnswer a =>
    rw [Flow_cons] at hfl
    obtain ⟨⟨n, hn, hna⟩, _⟩ := hfl.resolve_left nofun
    simp only [exec] at e
    split at e
    · rename_i b
      cases e
      have hrb := hans n b hn rfl
      exact .one (Or.inl (by simp only [weight]; omega))
    · cases e; exact .none _ _ _
  | change op c =>
    cases op <;> simp only [exec, changeStep] at e
    case shift => split at e <;> cases e; exact .none _ _ _
    case pop => split at e <;> cases e; exact .none _ _ _
    all_goals (cases e; exact .none _ _ _)
  | size c key => cases e; exact .andThen [_] (by simp only [List.mem_singleton, forall_eq]; exact Or.inl (by simp [weight]))
  | scan c n key =>
    cases n with
    | zero => cases e; exact .none _ _ _
    | succ n => cases e; exact .one (Or.inr ⟨rfl, by simp only [weight]; omega⟩)
  | pick c n key =>
    simp only [exec] at e
    split at e
    · cases e
    · cases e; exact .andThen [_] (by simp only [List.mem_singleton, forall_eq]; exact Or.inl (by simp [weight]))
    · rename_i b hb
      have hrb := hL c b (elems_contains (List.mem_of_getElem? hb))
      cases e
      refine .andThen [_, _] ?_
      intro y hy
      simp only [List.mem_cons, List.not_mem_nil, or_false] at hy
      rcases hy with rfl | rfl
      · exact Or.inl (by simp only [weight]; omega)
      · exact Or.inr (by simp [weight])
  | check c n key =>
    simp only [exec] at e
    split at e
    · cases e; exact .none _ _ _
    · cases e; exact .one (Or.inr (by simp [weight]))
  | skip => cases e; exact .none _ _ _
  | fail => cases e
  | enter => cases e
  | await => cases e
  | release => cases e

/-- What the first `n` goroutines have to do. -/
def total (r : Nat → Nat) (g : Nat → Gor) : Nat → Multiset (Nat × Nat)
  | 0 => 0
  | n + 1 => total r g n + ((g n).stack.map (weight r) : Multiset (Nat × Nat))

theorem total_upd (r : Nat → Nat) (g : Nat → Gor) (i : Nat) (x : Gor) (n : Nat) :
    total r (upd g i x) n + (if i < n then ((g i).stack.map (weight r) : Multiset (Nat × Nat)) else 0) =
      total r g n + if i < n then (x.stack.map (weight r) : Multiset (Nat × Nat)) else 0 := by
  induction n with
  | zero => simp [total]
  | succ n ih =>
    simp only [total]
    by_cases e : n = i
    · subst e
      rw [if_neg (Nat.lt_irrefl _), if_neg (Nat.lt_irrefl _), add_zero, add_zero] at ih
      rw [if_pos (Nat.lt_succ_self _), if_pos (Nat.lt_succ_self _), upd_self, ih]
      rw [add_assoc, add_assoc, add_comm ((x.stack.map (weight r) : Multiset (Nat × Nat)))]
    · have : i < n + 1 ↔ i < n := by omega
      simp only [this, upd_ne _ _ e]
      rw [add_right_comm, ih, add_right_comm]

theorem drop_less (t : Multiset (Nat × Nat)) (p : Nat × Nat) (l : List (Nat × Nat)) :
    Relation.TransGen (Relation.CutExpand Less) t (t + (p :: l : List (Nat × Nat))) := by
  have one : ∀ (t : Multiset (Nat × Nat)) (p : Nat × Nat), Relation.CutExpand Less t (t + {p}) := fun t p => ⟨0, p, by simp, by simp⟩
  induction l generalizing t p with
  | nil => exact .single (one t p)
  | cons q l ih =>
    rw [← Multiset.cons_coe, ← Multiset.singleton_add, ← add_assoc]
    exact .head (one t p) (ih (t + {p}) q)

/-- One step of a goroutine makes less to do. -/
theorem move_less {r : Nat → Nat} {c c' : Conf} {i n : Nat} (hi : i < n) (ho : Orderly r c) (hL : Layered r c.heap) (hm : Move c i c') :
    Relation.TransGen (Relation.CutExpand Less) (total r c'.gor n) (total r c.gor n) := by
  have key : ∀ (s' : List Instr) (ans : Option Val) (x : Instr) (s t : List Instr), (c.gor i).stack = x :: s →
      (∀ y ∈ t, Less (weight r y) (weight r x)) → s'.Perm (t ++ s) →
      Relation.CutExpand Less (total r (upd c.gor i ⟨s', ans⟩) n) (total r c.gor n) := by
    intro s' ans x s t hst ht hp
    refine ⟨(t.map (weight r) : Multiset (Nat × Nat)), weight r x, ?_, ?_⟩
    · intro p hpm
      obtain ⟨y, hy, rfl⟩ := List.mem_map.1 (Multiset.mem_coe.1 hpm)
      exact ht y hy
    · have h := total_upd r c.gor i ⟨s', ans⟩ n
      rw [if_pos hi, if_pos hi, hst] at h
      have h2 : ((s'.map (weight r) : List (Nat × Nat)) : Multiset (Nat × Nat)) = (t.map (weight r) : Multiset (Nat × Nat)) + (s.map (weight r) : Multiset (Nat × Nat)) := by
        rw [Multiset.coe_add, ← List.map_append]
        exact Multiset.coe_eq_coe.2 (hp.map _)
      simp only [h2] at h
      rw [List.map_cons, ← Multiset.cons_coe, ← Multiset.singleton_add, ← add_assoc, ← add_assoc] at h
      exact add_right_cancel h
  obtain ⟨hok, β, hans, hfl⟩ := ho i
  cases hm with
  | @run x s s' h' ans' hst hl he =>
    rw [hst] at hfl
    obtain ⟨t, ht, hp⟩ := exec_cuts hL hans hfl he
    exact .single (key s' ans' x s t hst ht hp)
  | @panic x s hst hl he =>
    obtain ⟨l, hl⟩ := (List.filter_sublist (l := s) (p := fun x => match x with | .release _ d _ => d | _ => false)).exists_perm_append
    have h := total_upd r c.gor i ⟨unwind s, (c.gor i).ans⟩ n
    have h2 : (((x :: s).map (weight r) : List (Nat × Nat)) : Multiset (Nat × Nat)) = ((weight r x :: l.map (weight r) : List (Nat × Nat)) : Multiset (Nat × Nat)) + ((unwind s).map (weight r) : Multiset (Nat × Nat)) := by
      rw [Multiset.coe_add, List.map_cons, List.cons_append, ← List.map_append]
      exact Multiset.coe_eq_coe.2 (((hl.trans List.perm_append_comm).map _).cons _)
    rw [if_pos hi, if_pos hi, hst, h2, ← add_assoc] at h
    rw [← add_right_cancel h]
    exact drop_less _ _ _
  | @rlock d a x s hst hw hp =>
    refine .single (key _ _ _ s [x, .release .read d a] hst ?_ (.refl _))
    intro y hy
    simp only [List.mem_cons, List.not_mem_nil, or_false] at hy
    rcases hy with rfl | rfl
    · exact Or.inr ⟨rfl, by simp [weight]⟩
    · by_cases h0 : (weight r x).1 = 0
      · exact Or.inr ⟨by simp [weight, h0], by simp [weight]⟩
      · exact Or.inl (by simp only [weight]; omega)
  | @announce d a x s hst hw hp =>
    refine .single (key _ _ _ s [.await d a x] hst ?_ (.refl _))
    intro y hy
    simp only [List.mem_cons, List.not_mem_nil, or_false] at hy
    subst hy
    exact Or.inr ⟨rfl, by simp [weight]⟩
  | @lock d a x s hst hr =>
    refine .single (key _ _ _ s [x, .release .write d a] hst ?_ (.refl _))
    intro y hy
    simp only [List.mem_cons, List.not_mem_nil, or_false] at hy
    rcases hy with rfl | rfl
    · exact Or.inr ⟨rfl, by simp [weight]⟩
    · by_cases h0 : (weight r x).1 = 0
      · exact Or.inr ⟨by simp [weight, h0], by simp [weight]⟩
      · exact Or.inl (by simp only [weight]; omega)
  | @runlock d a s hst => exact .single (key _ _ _ s [] hst (by simp) (.refl _))
  | @unlock d a s hst => exact .single (key _ _ _ s [] hst (by simp) (.refl _))

theorem less_total_wf : WellFounded (Relation.TransGen (Relation.CutExpand Less)) := by
  haveI : Std.Irrefl Less := ⟨fun p h => by rcases h with h | ⟨_, h⟩ <;> exact Nat.lt_irrefl _ h⟩
  exact (WellFounded.cutExpand less_wf).transGen

theorem Move.gor_ne {c c' : Conf} {i j : Nat} (h : Move c i c') (e : j ≠ i) : c'.gor j = c.gor j := by
  cases h <;> simp [Conf.go, upd_ne _ _ e]

theorem Move.busy {c c' : Conf} {i : Nat} (h : Move c i c') : Busy c i := by
  intro hs
  cases h <;> simp_all

end Xcore.Nested
