import Verif.Proof.DatasetIndep
import Verif.Spec.DatasetTree
import Verif.Spec.EqualData

/-!
# Clones are trees, and correspond to what they are clones of
-/

namespace Xcore.Dataset

/-! ## Ways -/

theorem StepTo.refers {h : Heap} {a b : Nat} {s : Step} (t : StepTo h a s b) : Refers h a b := by
  cases t with
  | ptr h1 h2 => exact .ptr h1 (AMap.mem_of_get h2)
  | slice h1 h2 => exact .slice h1 (AMap.mem_of_get h2)
  | elem h1 h2 => exact .elem h1 (List.mem_of_getElem? h2)
  | wrapped h1 => exact .wrapped h1

theorem Path.reach {h : Heap} {a b : Nat} {p : List Step} (t : Path h a p b) : Reach h a b := by
  induction t with
  | nil => exact .refl
  | cons h1 _ ih => exact .step h1.refers ih

theorem collection_unique {h : Heap} {a : Nat} {l l' : List (Option Nat)} (e : IsCollection h a l) (e' : IsCollection h a l') : l = l' := by
  rcases e with e | e <;> rcases e' with e' | e' <;> rw [e] at e' <;> cases e' <;> rfl

theorem StepTo.unique {h : Heap} {a b b' : Nat} {s : Step} (t : StepTo h a s b) (t' : StepTo h a s b') : b = b' := by
  cases t with
  | ptr h1 h2 => cases t' with
    | ptr h3 h4 => rw [h1] at h3; cases h3; rw [h2] at h4; cases h4; rfl
    | slice h3 h4 => rw [h1] at h3; cases h3; rw [h2] at h4; cases h4
  | slice h1 h2 => cases t' with
    | ptr h3 h4 => rw [h1] at h3; cases h3; rw [h2] at h4; cases h4
    | slice h3 h4 => rw [h1] at h3; cases h3; rw [h2] at h4; cases h4; rfl
  | elem h1 h2 => cases t' with
    | elem h3 h4 => cases collection_unique h1 h3; rw [h2] at h4; cases h4; rfl
  | wrapped h1 => cases t' with
    | wrapped h3 => rw [h1] at h3; cases h3; rfl

theorem Path.unique {h : Heap} {a b b' : Nat} {p : List Step} (t : Path h a p b) (t' : Path h a p b') : b = b' := by
  induction t with
  | nil => cases t'; rfl
  | cons h1 _ ih => cases t' with
    | cons h2 t' => cases h1.unique h2; exact ih t'

theorem Path.snoc {h : Heap} {a b c : Nat} {p : List Step} {s : Step} (t : Path h a p b) (e : StepTo h b s c) : Path h a (p ++ [s]) c := by
  induction t with
  | nil => exact .cons e .nil
  | cons h1 _ ih => exact .cons h1 (ih e)

/-! ## Ways in memory that grows -/

theorem stepTo_grow {h h' : Heap} (g : Grows h h') {a b : Nat} (ha : a < h.length) {s : Step} : StepTo h' a s b ↔ StepTo h a s b := by
  have e := g.get_lt ha
  constructor
  · intro t
    cases t with
    | ptr h1 h2 => exact .ptr (by rw [← e]; exact h1) h2
    | slice h1 h2 => exact .slice (by rw [← e]; exact h1) h2
    | elem h1 h2 => exact .elem (by unfold IsCollection at h1 ⊢; rw [← e]; exact h1) h2
    | wrapped h1 => exact .wrapped (by rw [← e]; exact h1)
  · intro t
    cases t with
    | ptr h1 h2 => exact .ptr (by rw [e]; exact h1) h2
    | slice h1 h2 => exact .slice (by rw [e]; exact h1) h2
    | elem h1 h2 => exact .elem (by unfold IsCollection at h1 ⊢; rw [e]; exact h1) h2
    | wrapped h1 => exact .wrapped (by rw [e]; exact h1)

theorem path_grow {h h' : Heap} (wf : WF h) (g : Grows h h') {a b : Nat} (ha : a < h.length) {p : List Step} : Path h' a p b ↔ Path h a p b := by
  constructor
  · intro t
    induction t with
    | nil => exact .nil
    | cons h1 _ ih =>
      have h2 := (stepTo_grow g ha).1 h1
      exact .cons h2 (ih (refers_lt wf h2.refers).2)
  · intro t
    induction t with
    | nil => exact .nil
    | cons h1 _ ih => exact .cons ((stepTo_grow g ha).2 h1) (ih (refers_lt wf h1.refers).2)

theorem path_lt {h : Heap} (wf : WF h) {a b : Nat} (ha : a < h.length) {p : List Step} (t : Path h a p b) : b < h.length :=
  old_reach wf (.refl h) ha t.reach

theorem container_grow {h h' : Heap} (g : Grows h h') {a : Nat} (ha : a < h.length) : Container h' a ↔ Container h a := by
  unfold Container IsDataset IsCollection
  rw [g.get_lt ha]

theorem container_lt {h : Heap} {a : Nat} (c : Container h a) : a < h.length := by
  rcases c with c | ⟨l, c | c⟩
  · exact isDataset_lt c
  · exact lt_of_getElem? c
  · exact lt_of_getElem? c

theorem tree_grow {h h' : Heap} (wf : WF h) (g : Grows h h') {a : Nat} (ha : a < h.length) (t : Tree h a) : Tree h' a := by
  intro p q b hb hp hq
  rw [path_grow wf g ha] at hp hq
  exact t p q b ((container_grow g (path_lt wf ha hp)).1 hb) hp hq

/-! ## A clone is a tree -/

/-- A part of a clone: it is a tree of new objects. -/
def Piece (L : Nat) (h : Heap) (v : Val) : Prop :=
  ∀ c, RefV v c → c < h.length ∧ Tree h c ∧ ∀ p b, Container h b → Path h c p b → L ≤ b

/-- Two parts of a clone: they have no dataset or collection in common. -/
def Apart (h : Heap) (v w : Val) : Prop :=
  ∀ c c', RefV v c → RefV w c' → ∀ p q b, Container h b → Path h c p b → Path h c' q b → False

theorem Piece.grow {L L' : Nat} {h h' : Heap} {v : Val} (wf : WF h) (g : Grows h h') (hl : L' ≤ L) (t : Piece L h v) : Piece L' h' v := by
  intro c hc
  obtain ⟨h1, h2, h3⟩ := t c hc
  refine ⟨Nat.lt_of_lt_of_le h1 g.length, tree_grow wf g h1 h2, fun p b hb hp => ?_⟩
  rw [path_grow wf g h1] at hp
  exact Nat.le_trans hl (h3 p b ((container_grow g (path_lt wf h1 hp)).1 hb) hp)

theorem Apart.grow {h h' : Heap} {v w : Val} (wf : WF h) (g : Grows h h') (hv : ∀ c, RefV v c → c < h.length) (hw : ∀ c, RefV w c → c < h.length)
    (t : Apart h v w) : Apart h' v w := by
  intro c c' hc hc' p q b hb hp hq
  rw [path_grow wf g (hv c hc)] at hp
  rw [path_grow wf g (hw c' hc')] at hq
  exact t c c' hc hc' p q b ((container_grow g (path_lt wf (hv c hc) hp)).1 hb) hp hq

theorem pieces_apart {h h' : Heap} {v w : Val} (wf : WF h) (g : Grows h h') {L : Nat} (t : Piece L h v) (t' : Piece h.length h' w) : Apart h' v w := by
  intro c c' hc hc' p q b hb hp hq
  rw [path_grow wf g (t c hc).1] at hp
  have h1 := path_lt wf (t c hc).1 hp
  have h2 := (t' c' hc').2.2 q b hb hq
  omega

theorem mapRes_pieces {α β : Type} {f : Heap → α → Res (Heap × β)} {val : β → Val} {V : Heap → α → Prop}
    (hV : ∀ a h h', Grows h h' → V h a → V h' a)
    (hf : ∀ a h h' b, WF h → V h a → f h a = .ok (h', b) → WF h' ∧ Grows h h' ∧ Piece h.length h' (val b)) :
    ∀ (l : List α) (h h' : Heap) (bs : List β), WF h → (∀ a ∈ l, V h a) → mapRes f h l = .ok (h', bs) →
      WF h' ∧ Grows h h' ∧ (∀ b ∈ bs, Piece h.length h' (val b)) ∧ bs.Pairwise fun b b' => Apart h' (val b) (val b') := by
  intro l
  induction l with
  | nil => intro h h' bs wf _ e; cases e; exact ⟨wf, .refl _, by simp, .nil⟩
  | cons a l ih =>
    intro h h' bs wf hl e
    obtain ⟨h1, b, bs, e1, e2, rfl⟩ := mapRes_cons_ok.1 e
    obtain ⟨wf1, g1, p1⟩ := hf a h h1 b wf (hl a (by simp)) e1
    obtain ⟨wf2, g2, p2, a2⟩ := ih h1 h' bs wf1 (fun a ha => hV a h h1 g1 (hl a (by simp [ha]))) e2
    refine ⟨wf2, g1.trans g2, ?_, .cons ?_ a2⟩
    · intro b' hb'
      rcases List.mem_cons.1 hb' with rfl | hb'
      · exact p1.grow wf1 g2 (Nat.le_refl _)
      · exact (p2 b' hb').grow wf2 (.refl _) g1.length
    · intro b' hb'
      exact pieces_apart wf1 g2 p1 (p2 b' hb')

theorem Apart.symm {h : Heap} {v w : Val} (t : Apart h v w) : Apart h w v :=
  fun c c' hc hc' p q b hb hp hq => t c' c hc' hc q p b hb hq hp

theorem pairwise_ne {α : Type} {R : α → α → Prop} (hs : ∀ a b, R a b → R b a) {l : List α} (hp : l.Pairwise R) {i j : Nat} {a b : α}
    (hi : l[i]? = some a) (hj : l[j]? = some b) (hne : i ≠ j) : R a b := by
  have hlt : ∀ {i j : Nat} {a b : α}, l[i]? = some a → l[j]? = some b → i < j → R a b := by
    intro i j a b hi hj hlt
    obtain ⟨h1, rfl⟩ := List.getElem?_eq_some_iff.1 hi
    obtain ⟨h2, rfl⟩ := List.getElem?_eq_some_iff.1 hj
    exact List.pairwise_iff_getElem.1 hp i j h1 h2 hlt
  rcases Nat.lt_or_gt_of_ne hne with h | h
  · exact hlt hi hj h
  · exact hs _ _ (hlt hj hi h)

/-- A new object over parts that are apart: what it refers to it refers to by one step. -/
theorem piece_new {h : Heap} {o : Obj} {L : Nat} (wf : WF h) (hL : L ≤ h.length)
    (hsub : ∀ s b, StepTo (h ++ [o]) h.length s b → ∃ v, RefV v b ∧ Piece L h v)
    (hapart : ∀ s s' b b', StepTo (h ++ [o]) h.length s b → StepTo (h ++ [o]) h.length s' b' → s ≠ s' →
      ∀ p q c, Container h c → Path h b p c → Path h b' q c → False) :
    Piece L (h ++ [o]) (.ptr h.length) := by
  have g : Grows h (h ++ [o]) := ⟨[o], rfl⟩
  intro c hc
  have hce : c = h.length := by
    rcases hc with hc | ⟨k, hc⟩ <;> cases hc; rfl
  subst hce
  have sub : ∀ {s : Step} {b : Nat}, StepTo (h ++ [o]) h.length s b → b < h.length ∧ Tree h b ∧ ∀ p c, Container h c → Path h b p c → L ≤ c := by
    intro s b t
    obtain ⟨v, h1, h2⟩ := hsub s b t
    exact h2 b h1
  refine ⟨by simp, ?_, ?_⟩
  · intro p q b hb hp hq
    cases hp with
    | nil => cases hq with
      | nil => rfl
      | cons h1 h2 =>
        have := path_lt wf (sub h1).1 ((path_grow wf g (sub h1).1).1 h2)
        omega
    | cons h3 h4 =>
      have h4 := (path_grow wf g (sub h3).1).1 h4
      have hlt := path_lt wf (sub h3).1 h4
      cases hq with
      | nil => omega
      | cons h1 h2 =>
        have h2 := (path_grow wf g (sub h1).1).1 h2
        have hb := (container_grow g hlt).1 hb
        rename_i _ s p _ _ s' q _
        by_cases e : s = s'
        · subst e
          cases h3.unique h1
          rw [(sub h3).2.1 _ _ b hb h4 h2]
        · exact (hapart _ _ _ _ h3 h1 e _ _ _ hb h4 h2).elim
  · intro p b hb hp
    cases hp with
    | nil => exact hL
    | cons h1 h2 =>
      have h2 := (path_grow wf g (sub h1).1).1 h2
      exact (sub h1).2.2 _ b ((container_grow g (path_lt wf (sub h1).1 h2)).1 hb) h2

theorem get_last (h : Heap) (o : Obj) : (h ++ [o])[h.length]? = some o := by simp

theorem index_of_get {V : Type} {m : AMap V} {k : Str} {v : V} (e : m.get k = some v) : ∃ i : Nat, m[i]? = some (k, v) :=
  List.getElem?_of_mem (AMap.mem_of_get e)

/-- Every clone is a tree of new objects. -/
theorem clone_piece {n : Nat} {h h' : Heap} {v w : Val} (wf : WF h) (hv : Valid h v) (e : cloneVal n h v = .ok (h', w)) :
    Piece h.length h' w := by
  induction n generalizing h h' v w with
  | zero => cases e
  | succ n ih =>
    have leaf : ∀ {c : Nat}, c < h.length → (∀ s b, ¬ StepTo h c s b) → ¬ Container h c → ∀ v, RefV v c → Piece h.length h v := by
      intro c hc hs hn v hv c' hv'
      have : c' = c := by
        rcases hv with hv | ⟨k, hv⟩ <;> rcases hv' with hv' | ⟨k', hv'⟩ <;> rw [hv] at hv' <;> cases hv' <;> rfl
      subst this
      refine ⟨hc, ?_, ?_⟩
      · intro p q b hb hp hq
        cases hp with
        | nil => exact absurd hb hn
        | cons h1 _ => exact absurd h1 (hs _ _)
      · intro p b hb hp
        cases hp with
        | nil => exact absurd hb hn
        | cons h1 _ => exact absurd h1 (hs _ _)
    have leafLang : ∀ {c : Nat} {l : Language.Lang}, h[c]? = some (.lang l) → ∀ v, RefV v c → Piece h.length h v := by
      intro c l hl
      refine leaf (lt_of_getElem? hl) ?_ ?_
      · intro s b t
        cases t with
        | ptr h1 _ => rw [hl] at h1; cases h1
        | slice h1 _ => rw [hl] at h1; cases h1
        | elem h1 _ => unfold IsCollection at h1; rw [hl] at h1; simp at h1
        | wrapped h1 => rw [hl] at h1; cases h1
      · unfold Container IsDataset IsCollection; rw [hl]; simp
    have leafSlice : ∀ {c : Nat} {l : List Val}, h[c]? = some (.slice l) → ∀ v, RefV v c → Piece h.length h v := by
      intro c l hl
      refine leaf (lt_of_getElem? hl) ?_ ?_
      · intro s b t
        cases t with
        | ptr h1 _ => rw [hl] at h1; cases h1
        | slice h1 _ => rw [hl] at h1; cases h1
        | elem h1 _ => unfold IsCollection at h1; rw [hl] at h1; simp at h1
        | wrapped h1 => rw [hl] at h1; cases h1
      · unfold Container IsDataset IsCollection; rw [hl]; simp
    cases v with
    | ptr a =>
      have helems : ∀ (l : List (Option Nat)) (h' : Heap) (ws : List Val), (∀ b : Nat, some b ∈ l → IsDataset h b) →
          mapRes (fun h (e : Option Nat) => match e with
            | none => .panic
            | some b => cloneVal n h (.ptr b)) h l = .ok (h', ws) →
          WF h' ∧ Grows h h' ∧ (∀ b ∈ ws, Piece h.length h' b) ∧ ws.Pairwise fun b b' => Apart h' b b' := by
        intro l h' ws hl e
        refine mapRes_pieces (val := id) (V := fun h a => ∀ b, a = some b → IsDataset h b) ?_ ?_ l h h' ws wf ?_ e
        · intro a h h' g hv b hb; exact g.ext.isDataset (hv b hb)
        · intro a h h' b wf hv e
          cases a with
          | none => cases e
          | some a =>
            have ha := isDataset_lt (hv a rfl)
            obtain ⟨h1, h2, _⟩ := clone_copy (v := .ptr a) wf ha e
            exact ⟨h1, h2, ih (v := .ptr a) wf ha e⟩
        · intro a ha b hb; subst hb; exact hl b ha
      have hcol : ∀ {h1 : Heap} {ws : List Val} {o : Obj}, WF h1 → Grows h h1 → (∀ b ∈ ws, Piece h.length h1 b) → (ws.Pairwise fun b b' => Apart h1 b b') →
          (o = .col (ws.map fun w => match w with | .ptr c => some c | _ => none) ∨ o = .colTS (ws.map fun w => match w with | .ptr c => some c | _ => none)) →
          Piece h.length (h1 ++ [o]) (.ptr h1.length) := by
        intro h1 ws o wf1 g1 hp ha ho
        have step : ∀ s b, StepTo (h1 ++ [o]) h1.length s b → ∃ i : Nat, s = .elem i ∧ ws[i]? = some (.ptr b) := by
          intro s b t
          cases t with
          | ptr h2 _ => rw [get_last] at h2; rcases ho with ho | ho <;> rw [ho] at h2 <;> cases h2
          | slice h2 _ => rw [get_last] at h2; rcases ho with ho | ho <;> rw [ho] at h2 <;> cases h2
          | wrapped h2 => rw [get_last] at h2; rcases ho with ho | ho <;> rw [ho] at h2 <;> cases h2
          | @elem _ l i h2 h3 =>
            refine ⟨i, rfl, ?_⟩
            have hl : l = ws.map fun w => match w with | .ptr c => some c | _ => none := by
              unfold IsCollection at h2
              rw [get_last] at h2
              rcases ho with ho | ho <;> rw [ho] at h2 <;> rcases h2 with h2 | h2 <;> cases h2 <;> rfl
            rw [hl, List.getElem?_map] at h3
            cases hw : ws[i]? with
            | none => rw [hw] at h3; cases h3
            | some w =>
              rw [hw] at h3
              cases w <;> simp at h3
              rw [h3]
        refine piece_new wf1 g1.length ?_ ?_
        · intro s b t
          obtain ⟨i, _, h2⟩ := step s b t
          exact ⟨_, Or.inl rfl, hp _ (List.mem_of_getElem? h2)⟩
        · intro s s' b b' t t' hne p q c hc hp hq
          obtain ⟨i, rfl, h2⟩ := step s b t
          obtain ⟨j, rfl, h3⟩ := step s' b' t'
          exact pairwise_ne (fun _ _ => Apart.symm) ha h2 h3 (by intro e; exact hne (by rw [e])) b b' (Or.inl rfl) (Or.inl rfl) p q c hc hp hq
      simp only [cloneVal] at e
      cases ho : h[a]? with
      | none => have : a < h.length := hv; rw [List.getElem?_eq_getElem this] at ho; cases ho
      | some o =>
        rw [ho] at e
        cases o with
        | ds m =>
          simp only at e
          have efull := e
          obtain ⟨⟨h1, m'⟩, e1, e2⟩ := map_ok.1 e
          cases e2
          obtain ⟨wf1, g1, p1, a1⟩ := mapRes_pieces (val := Prod.snd) (V := fun h (p : Str × Val) => Valid h p.2)
            (fun p h h' g hv => hv.grow g.ext) (fun p h h' b wf hv e => by
              obtain ⟨⟨h2, w⟩, e3, e4⟩ := map_ok.1 e
              cases e4
              obtain ⟨h1, h2, _⟩ := clone_copy wf hv e3
              exact ⟨h1, h2, ih wf hv e3⟩) m h h1 m' wf (fun p hp => wf.valid a m p.1 p.2 ho hp) e1
          have hkeys : ∀ (m : AMap Val) (h h' : Heap) (m' : AMap Val),
              mapRes (fun h (p : Str × Val) => (cloneVal n h p.2).map fun r => (r.1, (p.1, r.2))) h m = .ok (h', m') → m'.map Prod.fst = m.map Prod.fst := by
            intro m
            induction m with
            | nil => intro h h' m' e; cases e; rfl
            | cons p m ihm =>
              intro h h' m' e
              obtain ⟨h1, b, bs, e1, e2, rfl⟩ := mapRes_cons_ok.1 e
              obtain ⟨⟨h1', w⟩, e3, e4⟩ := map_ok.1 e1
              cases e4
              simp [ihm _ _ _ e2]
          have hnod : (m'.map Prod.fst).Nodup := by rw [hkeys _ _ _ _ e1]; exact wf.nodup a m ho
          have hfold : m'.foldl (fun c p => AMap.set c p.1 p.2) [] = m' := foldl_set m' [] (by simpa using hnod)
          simp only [hfold]
          have step : ∀ s b, StepTo (h1 ++ [.ds m']) h1.length s b → ∃ (k : Str) (v : Val) (i : Nat), s = .key k ∧ RefV v b ∧ m'[i]? = some (k, v) := by
            intro s b t
            cases t with
            | ptr h2 h3 =>
              rw [get_last] at h2; cases h2
              obtain ⟨i, hi⟩ := index_of_get h3
              exact ⟨_, _, i, rfl, Or.inl rfl, hi⟩
            | slice h2 h3 =>
              rw [get_last] at h2; cases h2
              obtain ⟨i, hi⟩ := index_of_get h3
              exact ⟨_, _, i, rfl, Or.inr ⟨_, rfl⟩, hi⟩
            | wrapped h2 => rw [get_last] at h2; cases h2
            | elem h2 _ => unfold IsCollection at h2; rw [get_last] at h2; rcases h2 with h2 | h2 <;> cases h2
          refine piece_new wf1 g1.length ?_ ?_
          · intro s b t
            obtain ⟨k, v, i, rfl, h2, h3⟩ := step s b t
            exact ⟨v, h2, p1 _ (List.mem_of_getElem? h3)⟩
          · intro s s' b b' t t' hne p q c hc hp hq
            obtain ⟨k, v, i, rfl, h2, h3⟩ := step s b t
            obtain ⟨k', v', j, rfl, h4, h5⟩ := step s' b' t'
            refine pairwise_ne (R := fun b b' => Apart h1 b.2 b'.2) (fun _ _ => Apart.symm) a1 h3 h5 ?_ b b' h2 h4 p q c hc hp hq
            rintro rfl
            rw [h3] at h5; cases h5; exact hne rfl
        | dsTS i =>
          cases i with
          | none => cases e
          | some b =>
            simp only at e
            obtain ⟨⟨h1, w1⟩, e1, e2⟩ := bind_ok'.1 e
            have hb := wf.wrapper a b ho
            have hlt : b < h.length := isDataset_lt hb.2
            obtain ⟨wf1, g1, c1⟩ := clone_copy (v := .ptr b) wf hlt e1
            obtain ⟨c, rfl, _, hc⟩ := c1.isDataset (g1.ext.isDataset hb.2)
            cases e2
            have hp := ih (v := .ptr b) wf hlt e1
            have step : ∀ s b, StepTo (h1 ++ [.dsTS (some c)]) h1.length s b → s = .wrapped ∧ b = c := by
              intro s b t
              cases t with
              | ptr h2 h3 => rw [get_last] at h2; cases h2
              | slice h2 h3 => rw [get_last] at h2; cases h2
              | wrapped h2 => rw [get_last] at h2; cases h2; exact ⟨rfl, rfl⟩
              | elem h2 _ => unfold IsCollection at h2; rw [get_last] at h2; rcases h2 with h2 | h2 <;> cases h2
            refine piece_new wf1 g1.length ?_ ?_
            · intro s b t
              obtain ⟨rfl, rfl⟩ := step s b t
              exact ⟨_, Or.inl rfl, hp⟩
            · intro s s' b b' t t' hne
              rw [(step s b t).1, (step s' b' t').1] at hne
              exact absurd rfl hne
        | col l =>
          simp only at e
          obtain ⟨⟨h1, ws⟩, e1, e2⟩ := map_ok.1 e
          cases e2
          obtain ⟨wf1, g1, p1, a1⟩ := helems l h1 ws (fun b hb => wf.elem a l b (Or.inl ho) hb) e1
          exact hcol wf1 g1 p1 a1 (Or.inl rfl)
        | colTS l =>
          simp only at e
          obtain ⟨⟨h1, ws⟩, e1, e2⟩ := map_ok.1 e
          cases e2
          obtain ⟨wf1, g1, p1, a1⟩ := helems l h1 ws (fun b hb => wf.elem a l b (Or.inr ho) hb) e1
          exact hcol wf1 g1 p1 a1 (Or.inr rfl)
        | lang l => cases e; exact leafLang ho _ (Or.inl rfl)
        | slice l => cases e; exact leafSlice ho _ (Or.inl rfl)
    | slice k a =>
      cases e
      obtain ⟨l, hl⟩ := hv
      exact leafSlice hl _ (Or.inr ⟨k, rfl⟩)
    | _ =>
      cases e
      intro c hc
      rcases hc with hc | ⟨_, hc⟩ <;> cases hc

/-! ## Clone and original correspond -/

/-- The objects at the same place of the original and of the clone. -/
def SamePlace (h : Heap) (a : Nat) (h' : Heap) (c : Nat) (x y : Nat) : Prop := ∃ p, Path h a p x ∧ Path h' c p y

/-- Objects at the same place: related ones, or the same slice. -/
def Twin (h h' : Heap) (R : Val → Val → Prop) (x y : Nat) : Prop :=
  R (.ptr x) (.ptr y) ∨ (x = y ∧ ∃ l, h[x]? = some (.slice l) ∧ h'[y]? = some (.slice l))

theorem get_all2 {R : Val → Val → Prop} {m m' : AMap Val} (hh : All2 (fun (p q : Str × Val) => p.1 = q.1 ∧ R p.2 q.2) m m')
    (hn : (m'.map Prod.fst).Nodup) {k : Str} {v : Val} (e : m.get k = some v) : ∃ w, m'.get k = some w ∧ R v w := by
  obtain ⟨⟨k', w⟩, h5, h6, h7⟩ := hh.mem_left (AMap.mem_of_get e)
  simp only at h6 h7
  subst h6
  exact ⟨w, AMap.get_of_mem hn h5, h7⟩

theorem get_all2' {R : Val → Val → Prop} {m m' : AMap Val} (hh : All2 (fun (p q : Str × Val) => p.1 = q.1 ∧ R p.2 q.2) m m')
    (hn : (m.map Prod.fst).Nodup) {k : Str} {w : Val} (e : m'.get k = some w) : ∃ v, m.get k = some v ∧ R v w := by
  obtain ⟨⟨k', v⟩, h5, h6, h7⟩ := hh.mem_right (AMap.mem_of_get e)
  simp only at h6 h7
  subst h6
  exact ⟨v, AMap.get_of_mem hn h5, h7⟩

theorem no_step {h : Heap} {x y : Nat} {s : Step} {l : List Val} (e : h[x]? = some (.slice l)) : ¬ StepTo h x s y := by
  intro t
  cases t with
  | ptr h1 _ => rw [e] at h1; cases h1
  | slice h1 _ => rw [e] at h1; cases h1
  | elem h1 _ => unfold IsCollection at h1; rw [e] at h1; simp at h1
  | wrapped h1 => rw [e] at h1; cases h1

/-- The same step from related objects leads to objects that are twins. -/
theorem twin_step {h h' : Heap} {R : Val → Val → Prop} (B : Bisim h h' R) (wf' : WF h') (hv : ∀ v w, R v w → Valid h v) {x y x' y' : Nat} {s : Step}
    (r : R (.ptr x) (.ptr y)) (t : StepTo h x s x') (t' : StepTo h' y s y') : Twin h h' R x' y' := by
  obtain ⟨_, e, ro⟩ := B.ptr r
  cases e
  have hcol : ∀ {l l' : List (Option Nat)} {i : Nat}, All2 (RelElem R) l l' → l[i]? = some (some x') → l'[i]? = some (some y') → Twin h h' R x' y' := by
    intro l l' i hh e e'
    obtain ⟨_, h1, h2⟩ := hh.get i e
    rw [e'] at h1; cases h1
    rcases h2 with ⟨h2, _⟩ | ⟨_, _, h2, h3, h4⟩
    · cases h2
    · cases h2; cases h3; exact Or.inl h4
  have hval : ∀ {v w : Val}, R v w → RefV v x' → RefV w y' → Twin h h' R x' y' := by
    intro v w rv e e'
    rcases e with e | ⟨k, e⟩
    · subst e
      obtain ⟨c, hc, _⟩ := B.ptr rv
      subst hc
      rcases e' with e' | ⟨k', e'⟩ <;> cases e'
      exact Or.inl rv
    · subst e
      obtain ⟨hc, he⟩ := B.slice rv
      subst hc
      rcases e' with e' | ⟨k', e'⟩ <;> cases e'
      obtain ⟨l, hl⟩ : ∃ l, h[x']? = some (.slice l) := hv _ _ rv
      exact Or.inr ⟨rfl, l, hl, by rw [he, hl]⟩
  have hkey : ∀ {k : Str} {b : Nat} {h : Heap} {x : Nat} {o : Obj}, h[x]? = some o → StepTo h x (.key k) b → ∃ m v, o = .ds m ∧ m.get k = some v ∧ RefV v b := by
    intro k b h x o ho t
    cases t with
    | ptr h1 h2 => rw [ho] at h1; cases h1; exact ⟨_, _, rfl, h2, Or.inl rfl⟩
    | slice h1 h2 => rw [ho] at h1; cases h1; exact ⟨_, _, rfl, h2, Or.inr ⟨_, rfl⟩⟩
  generalize ho : h[x]? = o at ro
  generalize ho' : h'[y]? = o' at ro
  cases ro with
  | ds hm =>
    cases s with
    | key k =>
      obtain ⟨_, v, e1, e2, e3⟩ := hkey ho t
      obtain ⟨_, w, e4, e5, e6⟩ := hkey ho' t'
      cases e1; cases e4
      obtain ⟨w', h1, h2⟩ := get_all2 hm (wf'.nodup _ _ ho') e2
      rw [e5] at h1; cases h1
      exact hval h2 e3 e6
    | elem i => cases t with | elem h1 _ => unfold IsCollection at h1; rw [ho] at h1; simp at h1
    | wrapped => cases t with | wrapped h1 => rw [ho] at h1; cases h1
  | nilTS =>
    cases t with
    | ptr h1 _ => rw [ho] at h1; cases h1
    | slice h1 _ => rw [ho] at h1; cases h1
    | elem h1 _ => unfold IsCollection at h1; rw [ho] at h1; simp at h1
    | wrapped h1 => rw [ho] at h1; cases h1
  | ts rb =>
    cases t with
    | ptr h1 _ => rw [ho] at h1; cases h1
    | slice h1 _ => rw [ho] at h1; cases h1
    | elem h1 _ => unfold IsCollection at h1; rw [ho] at h1; simp at h1
    | wrapped h1 =>
      rw [ho] at h1; cases h1
      cases t' with
      | wrapped h2 => rw [ho'] at h2; cases h2; exact Or.inl rb
  | col hl =>
    cases t with
    | ptr h1 _ => rw [ho] at h1; cases h1
    | slice h1 _ => rw [ho] at h1; cases h1
    | wrapped h1 => rw [ho] at h1; cases h1
    | elem h1 h2 =>
      cases t' with
      | elem h3 h4 =>
        cases collection_unique h1 (Or.inl ho)
        cases collection_unique h3 (Or.inl ho')
        exact hcol hl h2 h4
  | colTS hl =>
    cases t with
    | ptr h1 _ => rw [ho] at h1; cases h1
    | slice h1 _ => rw [ho] at h1; cases h1
    | wrapped h1 => rw [ho] at h1; cases h1
    | elem h1 h2 =>
      cases t' with
      | elem h3 h4 =>
        cases collection_unique h1 (Or.inr ho)
        cases collection_unique h3 (Or.inr ho')
        exact hcol hl h2 h4
  | lang _ =>
    cases t with
    | ptr h1 _ => rw [ho] at h1; cases h1
    | slice h1 _ => rw [ho] at h1; cases h1
    | elem h1 _ => unfold IsCollection at h1; rw [ho] at h1; simp at h1
    | wrapped h1 => rw [ho] at h1; cases h1
  | slice _ => exact absurd t (no_step ho)
  | none _ =>
    cases t with
    | ptr h1 _ => rw [ho] at h1; cases h1
    | slice h1 _ => rw [ho] at h1; cases h1
    | elem h1 _ => unfold IsCollection at h1; rw [ho] at h1; simp at h1
    | wrapped h1 => rw [ho] at h1; cases h1

theorem twin_path {h h' : Heap} {R : Val → Val → Prop} (B : Bisim h h' R) (wf' : WF h') (hv : ∀ v w, R v w → Valid h v) {a c x y : Nat} {p : List Step}
    (r : Twin h h' R a c) (t : Path h a p x) (t' : Path h' c p y) : Twin h h' R x y := by
  induction t generalizing c with
  | nil => cases t'; exact r
  | cons h1 _ ih =>
    cases t' with
    | cons h2 t' =>
      rcases r with r | ⟨_, l, r, _⟩
      · exact ih (twin_step B wf' hv r h1 h2) t'
      · exact absurd h1 (no_step r)

/-- Objects at the same place have the same contents. -/
theorem samePlace_data {h h' : Heap} {R : Val → Val → Prop} (B : Bisim h h' R) (wf : WF h) (wf' : WF h') (hv : ∀ v w, R v w → Valid h v) {a c : Nat}
    (r : R (.ptr a) (.ptr c)) : SameData (SamePlace h a h' c) h h' := by
  rintro x y ⟨p, t, t'⟩
  have ext : ∀ {s : Step} {b b' : Nat}, StepTo h x s b → StepTo h' y s b' → SamePlace h a h' c b b' := by
    intro s b b' e e'
    exact ⟨p ++ [s], t.snoc e, t'.snoc e'⟩
  rcases twin_path B wf' hv (Or.inl r) t t' with rx | ⟨_, l, h1, h2⟩
  · obtain ⟨_, e, ro⟩ := B.ptr rx
    cases e
    have hval : ∀ {m m' : AMap Val} {k : Str} {v w : Val}, h[x]? = some (.ds m) → h'[y]? = some (.ds m') → m.get k = some v → m'.get k = some w → R v w →
        SameVal (SamePlace h a h' c) v w := by
      intro m m' k v w hm hm' e e' rv
      cases v with
      | ptr b => obtain ⟨b', rfl, _⟩ := B.ptr rv; exact ⟨b', rfl, ext (.ptr hm e) (.ptr hm' e')⟩
      | slice sk b =>
        obtain ⟨rfl, _⟩ := B.slice rv
        exact ⟨b, rfl, ext (.slice hm e) (.slice hm' e')⟩
      | _ => exact B.scalar rv (by simp)
    have hcol : ∀ {l l' : List (Option Nat)}, IsCollection h x l → IsCollection h' y l' → All2 (RelElem R) l l' → All2 (SameElem (SamePlace h a h' c)) l l' := by
      intro l l' hl hl' hh
      have : ∀ (l l' : List (Option Nat)), All2 (RelElem R) l l' → (∀ (i : Nat) b b', l[i]? = some (some b) → l'[i]? = some (some b') → SamePlace h a h' c b b') →
          All2 (SameElem (SamePlace h a h' c)) l l' := by
        intro l l' hh
        induction hh with
        | nil => intro _; exact .nil
        | cons h1 _ ih =>
          intro hs
          refine .cons ?_ (ih fun i b b' h2 h3 => hs (i + 1) b b' h2 h3)
          rcases h1 with ⟨rfl, rfl⟩ | ⟨b, b', rfl, rfl, _⟩
          · exact .nil
          · exact .elem (hs 0 b b' rfl rfl)
      exact this l l' hh fun i b b' h2 h3 => ext (.elem hl h2) (.elem hl' h3)
    generalize ho : h[x]? = o at ro
    generalize ho' : h'[y]? = o' at ro
    cases ro with
    | ds hm =>
      refine ⟨_, _, rfl, rfl, .ds ⟨?_, ?_⟩⟩
      · intro k v e
        obtain ⟨w, h1, h2⟩ := get_all2 hm (wf'.nodup _ _ ho') e
        exact ⟨w, h1, hval ho ho' e h1 h2⟩
      · intro k w e
        obtain ⟨v, h1, h2⟩ := get_all2' hm (wf.nodup _ _ ho) e
        exact ⟨v, h1, hval ho ho' h1 e h2⟩
    | nilTS => exact ⟨_, _, rfl, rfl, .nilTS⟩
    | ts rb => exact ⟨_, _, rfl, rfl, .dsTS (ext (.wrapped ho) (.wrapped ho'))⟩
    | col hl => exact ⟨_, _, rfl, rfl, .col (hcol (Or.inl ho) (Or.inl ho') hl)⟩
    | colTS hl => exact ⟨_, _, rfl, rfl, .colTS (hcol (Or.inr ho) (Or.inr ho') hl)⟩
    | lang _ => exact ⟨_, _, rfl, rfl, .lang⟩
    | slice _ => exact ⟨_, _, rfl, rfl, .slice⟩
    | none _ =>
      have h1 : x < h.length := hv _ _ rx
      rw [List.getElem?_eq_getElem h1] at ho; cases ho
  · exact ⟨_, _, h1, h2, .slice⟩

/-- A clone of a dataset or a collection: its address, and everything about it. -/
structure Cloned (h : Heap) (a : Nat) (h' : Heap) (c : Nat) : Prop where
  wf : WF h'
  grows : Grows h h'
  tree : Tree h' c
  lt : c < h'.length
  new : ∀ p b, Container h' b → Path h' c p b → h.length ≤ b
  data : SameData (SamePlace h a h' c) h h'
  twin : ∀ x y, SamePlace h a h' c x y → (Container h x ↔ Container h' y) ∧ (¬ Container h x → y = x)

theorem clone_cloned {n : Nat} {h h' : Heap} {a : Nat} {w : Val} (wf : WF h) (ha : a < h.length) (e : cloneVal n h (.ptr a) = .ok (h', w)) :
    ∃ c, w = .ptr c ∧ Cloned h a h' c := by
  obtain ⟨wf', g, cp⟩ := clone_copy (v := .ptr a) wf ha e
  obtain ⟨c, rfl, hc⟩ := clone_new wf ha e
  have hp := clone_piece (v := .ptr a) wf ha e c (Or.inl rfl)
  have B := copy_bisim wf g h.length
  have hv : ∀ v w, (Valid h v ∧ ∃ n, CopyN h.length n h' v w) → Valid h v := fun v w e => e.1
  have r : Valid h (.ptr a) ∧ ∃ n, CopyN h.length n h' (.ptr a) (.ptr c) := ⟨ha, n, cp⟩
  refine ⟨c, rfl, wf', g, hp.2.1, hc, hp.2.2, samePlace_data B wf wf' hv r, ?_⟩
  rintro x y ⟨p, t, t'⟩
  rcases twin_path B wf' hv (Or.inl r) t t' with rx | ⟨rfl, l, h1, h2⟩
  · obtain ⟨_, e, ro⟩ := B.ptr rx
    cases e
    unfold Container IsDataset IsCollection
    generalize ho : h[x]? = o at ro
    generalize ho' : h'[y]? = o' at ro
    cases ro with
    | lang e => simp [e]
    | slice e => simp [e]
    | none e => simp [e]
    | _ => simp
  · unfold Container IsDataset IsCollection
    rw [h1, h2]; simp

/-- A tree and its clone correspond one to one. -/
theorem Cloned.oneToOne {h h' : Heap} {a c : Nat} (cl : Cloned h a h' c) (ht : Tree h a) : OneToOne (SamePlace h a h' c) := by
  rintro x y x' y' ⟨p, t, t'⟩ ⟨q, u, u'⟩
  obtain ⟨h1, h2⟩ := cl.twin x y ⟨p, t, t'⟩
  obtain ⟨h3, h4⟩ := cl.twin x' y' ⟨q, u, u'⟩
  constructor
  · rintro rfl
    by_cases hx : Container h x
    · cases ht p q x hx t u; exact t'.unique u'
    · rw [h2 hx, h4 hx]
  · rintro rfl
    by_cases hy : Container h' y
    · cases cl.tree p q y hy t' u'; exact t.unique u
    · rw [← h2 (mt h1.1 hy), ← h4 (mt h3.1 hy)]

end Xcore.Dataset
