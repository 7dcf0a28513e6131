import Verif.Proof.Method
import Verif.Spec.TSMethods

/-! # The methods of XDatasetTS, XDatasetCollectionTS and XLanguage executed alone -/

namespace Xcore.Dataset

open Lock

theorem tsRead_alone (read : Heap → Res TSOut) (h : Heap) : (tsRead read).alone h = (h, read h) := by
  simp only [Method.alone, tsRead, runCode]
  cases read h <;> rfl

theorem tsMethod_alone (x : Ext) (n : Nat) (a : Addr) (op : TSOp) (h : Heap) : (tsMethod x n a op).alone h = tsSeq x n a op h := by
  cases op <;> simp only [tsMethod, tsSeq, tsRead_alone]
  all_goals
    simp only [Method.alone, tsWrite, runCode, change, set, del]
    cases target h a <;> rfl

theorem colMethod_alone (a : Addr) (op : ColOp) (h : Heap) : (colMethod a op).alone h = colSeq a op h := by
  cases op with
  | unshift d => rfl
  | push d => rfl
  | count => rfl
  | get i => rfl
  | shift =>
    simp only [Method.alone, colMethod, runCode, colSeq, shift]
    cases e : elems h a with
    | nil => rfl
    | cons d l => simp [Res.map, e]
  | pop =>
    simp only [Method.alone, colMethod, runCode, colSeq, pop]
    cases e : (elems h a).getLast? with
    | none => rfl
    | some d => simp [Res.map]

theorem tsRead_readOnly (read : Heap → Res TSOut) : ReadOnly (tsRead read).section := by
  apply readOnly_section
  intro hm f hf s r s' r' he
  simp only [tsRead, List.mem_singleton] at hf
  subst hf
  simp only at he
  cases e : read s <;> rw [e] at he <;> simp only [Res.map, Res.ok.injEq, Prod.mk.injEq, reduceCtorEq] at he
  exact he.1.symm

theorem tsMethod_readOnly (x : Ext) (n : Nat) (a : Addr) (op : TSOp) : ReadOnly (tsMethod x n a op).section := by
  cases op
  case set => intro hm; cases hm
  case del => intro hm; cases hm
  all_goals exact tsRead_readOnly _

theorem colMethod_readOnly (a : Addr) (op : ColOp) : ReadOnly (colMethod a op).section := by
  apply readOnly_section
  intro hm f hf s r s' r' he
  cases op <;> simp only [colMethod, List.mem_cons, List.not_mem_nil, or_false, reduceCtorEq] at hm hf
  · subst hf; simp only [Res.ok.injEq, Prod.mk.injEq] at he; exact he.1.symm
  · rcases hf with rfl | rfl <;> simp only [Res.ok.injEq, Prod.mk.injEq] at he <;> exact he.1.symm

theorem targetN_set_entries : ∀ (n : Nat) (h : Heap) (a t : Addr) (m : AMap Val), (∃ m', h[t]? = some (.ds m')) →
    targetN n (h.set t (.ds m)) a = targetN n h a := by
  intro n
  induction n with
  | zero => intros; rfl
  | succ n ih =>
    intro h a t m ht
    obtain ⟨m', hm'⟩ := ht
    have hlt : t < h.length := by
      rcases Nat.lt_or_ge t h.length with hl | hl
      · exact hl
      · rw [List.getElem?_eq_none hl] at hm'; cases hm'
    simp only [targetN]
    by_cases e : a = t
    · subst e
      rw [List.getElem?_set_self hlt, hm']
    · rw [List.getElem?_set_ne (fun x => e x.symm)]
      cases h[a]? with
      | none => rfl
      | some o => cases o <;> try rfl
                  case dsTS d => cases d <;> first | rfl | exact ih h _ t m ⟨m', hm'⟩

theorem targetN_ds : ∀ (n : Nat) (h : Heap) (a t : Addr), targetN n h a = some t → ∃ m, h[t]? = some (.ds m) := by
  intro n
  induction n with
  | zero => intro h a t e; cases e
  | succ n ih =>
    intro h a t e
    simp only [targetN] at e
    cases ea : h[a]? with
    | none => rw [ea] at e; cases e
    | some o =>
      rw [ea] at e
      cases o <;> try (cases e; done)
      case ds m => cases e; exact ⟨m, ea⟩
      case dsTS d =>
        cases d with
        | none => cases e
        | some b => exact ih h b t e

theorem tsSeq_target (x : Ext) (n : Nat) (a : Addr) (op : TSOp) (h : Heap) : target (tsSeq x n a op h).1 a = target h a := by
  cases op <;> simp only [tsSeq]
  all_goals
    simp only [set, del]
    cases e : target h a with
    | none => exact e
    | some t =>
      simp only [change]
      unfold target at e ⊢
      rw [targetN_set_entries _ _ _ _ _ (targetN_ds _ _ _ _ e), e]

end Xcore.Dataset

namespace Xcore.Language

open Lock

theorem entries_alone (es : List XEntry) (l : Lang) : (tsMethod (.entries es)).alone l = tsSeq (.entries es) l := by
  have gen : ∀ (es : List XEntry) (l : Lang) (r : TSOut), runCode (tsMethod (.entries es)).code l r =
      (es.foldl (fun l e => setStatus (set l e.id e.entry) e.id e.status) l, .ok r) := by
    intro es
    induction es with
    | nil => intro l r; rfl
    | cons e es ih => intro l r; exact ih _ r
  simp only [Method.alone, gen]
  rfl

theorem tsMethod_alone (op : TSOp) (l : Lang) : (tsMethod op).alone l = tsSeq op l := by
  cases op <;> first | rfl | exact entries_alone _ _

theorem tsMethod_readOnly (op : TSOp) : ReadOnly (tsMethod op).section := by
  apply readOnly_section
  intro hm f hf s r s' r' he
  cases op <;> simp only [tsMethod, tsRead, List.mem_singleton, reduceCtorEq] at hm hf
  all_goals subst hf; simp only [Res.ok.injEq, Prod.mk.injEq] at he; exact he.1.symm

end Xcore.Language
